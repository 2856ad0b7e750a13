import Verif.Splines.PropsSpline
/- C49 : what the basis functions sum to, for every strictly increasing knot vector and every point of its range; hence exactly when they are a
partition of unity. -/
namespace Fdapde.Splines
set_option linter.unusedSectionVars false
variable {K : Type} [Field K] [LinearOrder K] [IsStrictOrderedRing K]

/-- Only the function of span `μ` is active. -/
def unitAt (μ i : Nat) : K := if i = μ then 1 else 0

theorem cdb_add (t z w : Nat → K) (x : K) : ∀ R i, cdb t (fun j => z j + w j) x R i = cdb t z x R i + cdb t w x R i
  | 0, _ => rfl
  | R + 1, i => by rw [cdb, cdb, cdb, cdb_add t z w x R i, cdb_add t z w x R (i + 1)]; ring

theorem cdb_unit_support (t : Nat → K) (x : K) (μ R i : Nat) (hi : μ < i ∨ i + R < μ) : cdb t (unitAt μ) x R i = 0 :=
  cdb_zero t _ x R i (fun j h1 h2 => if_neg (by omega))

/-- The functions made from one span sum to one everywhere, also outside of that span. -/
theorem cdb_unit_sum {t : Nat → K} (ht : Monotone t) (x : K) {μ : Nat} (hlt : t μ < t (μ + 1)) (m : Nat) (hm : μ < m) :
    ∀ R, R ≤ μ → ∑ i ∈ Finset.range m, cdb t (unitAt μ) x R i = 1
  | 0, _ => by
    show ∑ i ∈ Finset.range m, unitAt (K := K) μ i = 1
    rw [Finset.sum_eq_single μ (fun j _ hj => show unitAt (K := K) μ j = 0 from if_neg hj) (fun hn => absurd (Finset.mem_range.2 hm) hn)]
    exact if_pos rfl
  | R + 1, hR => by
    have ih := cdb_unit_sum ht x hlt m hm R (by omega)
    simp only [cdb, Finset.sum_add_distrib]
    have shift : ∑ i ∈ Finset.range m, ca t (R + 1) (i + 1) * (t (i + 1 + (R + 1)) - x) * cdb t (unitAt μ) x R (i + 1) =
        ∑ i ∈ Finset.range m, ca t (R + 1) i * (t (i + (R + 1)) - x) * cdb t (unitAt μ) x R i := by
      have e1 := Finset.sum_range_succ (fun i => ca t (R + 1) i * (t (i + (R + 1)) - x) * cdb t (unitAt μ) x R i) m
      have e2 := Finset.sum_range_succ' (fun i => ca t (R + 1) i * (t (i + (R + 1)) - x) * cdb t (unitAt μ) x R i) m
      rw [cdb_unit_support t x μ R m (Or.inl hm), mul_zero, add_zero] at e1
      rw [cdb_unit_support t x μ R 0 (Or.inr (by omega)), mul_zero, add_zero] at e2
      rw [← e1, e2]
    rw [shift, ← Finset.sum_add_distrib, ← ih]
    apply Finset.sum_congr rfl
    intro i _
    by_cases hs : μ < i ∨ i + R < μ
    · rw [cdb_unit_support t x μ R i hs]; ring
    · push Not at hs
      have h1 := ht hs.1
      have h2 := ht (show μ + 1 ≤ i + (R + 1) by omega)
      have hne : t (i + (R + 1)) - t i ≠ 0 := by intro e; linarith
      have : ca t (R + 1) i * (x - t i) + ca t (R + 1) i * (t (i + (R + 1)) - x) = 1 := by
        unfold ca; rw [if_pos hne]; field_simp; ring
      rw [← add_mul, this, one_mul]

/-- The order 0 values at a point of span `j`: the function of the span, and that of the last span if the point is closer to the end than the
tolerance. -/
theorem z0_split {tol : K} (pos : 0 < tol) {R : Nat} {knots : List K} (incr : knots.Pairwise (· < ·)) {x : K} {j : Nat} (hj : j + 1 < knots.length)
    (hlo : knots.getD j 0 ≤ x) (hhi : x < knots.getD (j + 1) 0 ∨ (j + 2 = knots.length ∧ x = knots.getD (j + 1) 0)) (i : Nat) :
    z0 tol R (knots.length + 2 * R) (padFn R knots) x i =
      unitAt (j + R) i + (if j + 2 < knots.length ∧ knots.getD (knots.length - 1) 0 - x < tol then unitAt (knots.length - 2 + R) i else 0) := by
  have hmono := padFn_mono R incr (by omega)
  have e0 := padFn_knot R knots j (by omega)
  have e1 : padFn R knots (j + R + 1) = knots.getD (j + 1) 0 := by
    rw [show j + R + 1 = j + 1 + R by omega]; exact padFn_knot R knots (j + 1) hj
  have hle : x ≤ knots.getD (j + 1) 0 := by rcases hhi with h | h; exacts [h.le, h.2.le]
  have hL : x ≤ knots.getD (knots.length - 1) 0 := hle.trans (getD_le incr (by omega) (by omega))
  have habs : |x - knots.getD (knots.length - 1) 0| = knots.getD (knots.length - 1) 0 - x := by
    rw [abs_sub_comm]; exact abs_of_nonneg (by linarith)
  unfold z0 unitAt
  rw [padFn_end, habs]
  have hin : (padFn R knots i ≤ x ∧ x < padFn R knots (i + 1)) ↔ (i = j + R ∧ x < knots.getD (j + 1) 0) := by
    constructor
    · rintro ⟨h1, h2⟩
      rcases Nat.lt_trichotomy i (j + R) with h | h | h
      · have := hmono (show i + 1 ≤ j + R by omega)
        rw [e0] at this
        exact absurd (lt_of_lt_of_le h2 (this.trans hlo)) (lt_irrefl _)
      · subst h; rw [e1] at h2; exact ⟨rfl, h2⟩
      · have h3 := hmono (show j + R + 1 ≤ i by omega)
        rw [e1] at h3
        rcases hhi with h4 | ⟨h4, h5⟩
        · exact absurd (lt_of_le_of_lt (h3.trans h1) h4) (lt_irrefl _)
        · have h6 := padFn_le_last R incr (by omega) (i + 1)
          rw [show knots.length - 1 = j + 1 by omega, ← h5] at h6
          exact absurd h2 (not_lt.2 h6)
    · rintro ⟨rfl, h⟩
      rw [e0, e1]; exact ⟨hlo, h⟩
  rw [if_congr (or_congr_left hin) rfl rfl]
  rcases hhi with h | ⟨h, hx⟩
  · by_cases hl : j + 2 < knots.length
    · by_cases hc : knots.getD (knots.length - 1) 0 - x < tol
      · rw [if_pos (show j + 2 < knots.length ∧ _ from ⟨hl, hc⟩)]
        by_cases a : i = j + R
        · rw [if_pos (show (i = j + R ∧ x < knots.getD (j + 1) 0) ∨ _ from .inl ⟨a, h⟩), if_pos a, if_neg (by omega)]; ring
        · by_cases b : i = knots.length - 2 + R
          · rw [if_pos (show (i = j + R ∧ x < knots.getD (j + 1) 0) ∨ _ from .inr ⟨hc, by omega⟩), if_neg a, if_pos b]; ring
          · rw [if_neg (show ¬ ((i = j + R ∧ x < knots.getD (j + 1) 0) ∨ _) by rintro (⟨c, -⟩ | ⟨-, c⟩) <;> omega), if_neg a, if_neg b]; ring
      · rw [if_neg (show ¬ (j + 2 < knots.length ∧ _) from fun c => hc c.2), add_zero]
        exact if_congr ⟨fun c => c.elim (fun c => c.1) (fun c => absurd c.1 hc), fun c => .inl ⟨c, h⟩⟩ rfl rfl
    · rw [if_neg (show ¬ (j + 2 < knots.length ∧ _) from fun c => hl c.1), add_zero]
      refine if_congr ⟨fun c => c.elim (fun c => c.1) (fun c => by omega), fun c => .inl ⟨c, h⟩⟩ rfl rfl
  · rw [if_neg (show ¬ (j + 2 < knots.length ∧ _) from fun c => by omega), add_zero]
    refine if_congr ⟨fun c => c.elim (fun c => c.1) (fun c => by omega), fun c => .inr ⟨?_, by omega⟩⟩ rfl rfl
    rw [show knots.length - 1 = j + 1 by omega, hx, sub_self]; exact pos

/-- **C49.**  What the basis functions of every order sum to, for every strictly increasing knot vector of at least two knots and every point between the
first and the last one: one, except for the points before the last span which are closer to the last knot than the tolerance, where it is two. -/
theorem C49_answer (tol : K) (pos : 0 < tol) (R : Nat) (knots : List K) (two : 2 ≤ knots.length) (incr : knots.Pairwise (· < ·)) (x : K)
    (h0 : knots.getD 0 0 ≤ x) (h1 : x ≤ knots.getD (knots.length - 1) 0) :
    ∃ t, pad R knots = .ok t ∧ size R t = knots.length + R - 1 ∧ ∃ v : Nat → K, (∀ i < size R t, basisEval tol R t i x = .ok (v i)) ∧
      ∑ i ∈ Finset.range (size R t), v i =
        if x < knots.getD (knots.length - 2) 0 ∧ knots.getD (knots.length - 1) 0 - x < tol then 2 else 1 := by
  have hs : size R (tab (knots.length + 2 * R) (padFn R knots)) = knots.length + R - 1 := by
    unfold size; rw [tab_length]; omega
  refine ⟨_, pad_eq R knots (by omega), hs, ?_⟩
  rw [hs]
  obtain ⟨j, hj, hlo, hhi⟩ := exists_span two h0 h1
  have hm := padFn_mono R incr (by omega)
  have hlt : ∀ k, k + 1 < knots.length → padFn R knots (k + R) < padFn R knots (k + R + 1) := fun k hk => by
    rw [show k + R + 1 = k + 1 + R by omega, padFn_knot R knots k (by omega), padFn_knot R knots (k + 1) hk]
    exact getD_lt incr (by omega) hk
  refine ⟨_, fun i hi => basis_value (by omega) hi x, ?_⟩
  have hz := funext (z0_split pos (R := R) incr hj hlo hhi)
  have hpos : j + 2 < knots.length ↔ x < knots.getD (knots.length - 2) 0 := by
    constructor
    · intro h
      rcases hhi with h' | h'
      · exact lt_of_lt_of_le h' (getD_le incr (by omega) (by omega))
      · omega
    · intro h
      by_contra c
      rw [show knots.length - 2 = j by omega] at h
      exact absurd h (not_lt.2 hlo)
  rw [hz]
  by_cases hc : j + 2 < knots.length ∧ knots.getD (knots.length - 1) 0 - x < tol
  · rw [if_pos ⟨hpos.1 hc.1, hc.2⟩]
    simp only [if_pos hc, cdb_add, Finset.sum_add_distrib]
    rw [cdb_unit_sum hm x (hlt j hj) _ (by omega) R (by omega),
      cdb_unit_sum hm x (hlt (knots.length - 2) (by omega)) _ (by omega) R (by omega)]
    norm_num
  · rw [if_neg (fun c => hc ⟨hpos.2 c.1, c.2⟩)]
    simp only [if_neg hc, add_zero]
    exact cdb_unit_sum hm x (hlt j hj) _ (by omega) R (by omega)

/-- **C49.**  For every strictly increasing knot vector and every order: the basis functions sum to one at every point between the first and the last
knot if and only if there is only one span, or the last span is not shorter than the tolerance. -/
theorem C49_when_right (tol : K) (pos : 0 < tol) (R : Nat) (knots t : List K) (two : 2 ≤ knots.length) (incr : knots.Pairwise (· < ·))
    (ht : pad R knots = .ok t) :
    (∀ x, knots.getD 0 0 ≤ x → x ≤ knots.getD (knots.length - 1) 0 →
      ∃ v : Nat → K, (∀ i < size R t, basisEval tol R t i x = .ok (v i)) ∧ ∑ i ∈ Finset.range (size R t), v i = 1) ↔
    (knots.length = 2 ∨ tol ≤ knots.getD (knots.length - 1) 0 - knots.getD (knots.length - 2) 0) := by
  constructor
  · intro h
    by_contra c
    push Not at c
    obtain ⟨c1, c2⟩ := c
    -- a point before the last span, within the tolerance of the end
    have a1 := getD_lt incr (show knots.length - 3 < knots.length - 2 by omega) (by omega)
    have a0 := getD_le incr (show 0 ≤ knots.length - 3 by omega) (by omega)
    have a2 := getD_lt incr (show knots.length - 2 < knots.length - 1 by omega) (by omega)
    obtain ⟨x, hx, hx'⟩ := exists_between (max_lt a1 (show knots.getD (knots.length - 1) 0 - tol < knots.getD (knots.length - 2) 0 by linarith))
    have b1 := lt_of_le_of_lt (le_max_left _ _) hx
    have b2 := lt_of_le_of_lt (le_max_right _ _) hx
    obtain ⟨v, hv, e⟩ := h x (by linarith) (by linarith)
    obtain ⟨t', ht', -, w, hw, e'⟩ := C49_answer tol pos R knots two incr x (by linarith) (by linarith)
    obtain rfl : t = t' := by rw [ht] at ht'; injection ht'
    rw [if_pos ⟨hx', by linarith⟩, ← Finset.sum_congr rfl (fun i hi => ?_), e] at e'
    · norm_num at e'
    · have hi := Finset.mem_range.1 hi
      have := (hv i hi).symm.trans (hw i hi)
      injection this
  · intro h x h0 h1
    obtain ⟨t', ht', -, w, hw, e'⟩ := C49_answer tol pos R knots two incr x h0 h1
    obtain rfl : t = t' := by rw [ht] at ht'; injection ht'
    refine ⟨w, hw, ?_⟩
    rw [e', if_neg]
    rintro ⟨c1, c2⟩
    rcases h with h | h
    · rw [h] at c1; exact absurd c1 (not_lt.2 h0)
    · linarith

/-- Three knots with a last span shorter than the tolerance: both sides of the equivalence are false; with a wide last span both are true. -/
example : ¬ (([0, 1, 1 + 1 / 200] : List ℚ).length = 2 ∨ (1 / 100 : ℚ) ≤ ([0, 1, 1 + 1 / 200] : List ℚ).getD 2 0 - ([0, 1, 1 + 1 / 200] : List ℚ).getD 1 0) := by
  norm_num
example : ([0, 1, 1 + 1 / 200] : List ℚ).Pairwise (· < ·) ∧ ([0, 1, 3] : List ℚ).Pairwise (· < ·) ∧
    (1 / 100 : ℚ) ≤ ([0, 1, 3] : List ℚ).getD 2 0 - ([0, 1, 3] : List ℚ).getD 1 0 := by norm_num

/-! ### C50 -/

/-- The functions of a span whose right end is repeated: the last one is a power of the relative position. -/
theorem cdb_unit_last {t : Nat → K} (x : K) {μ : Nat} (hlt : t μ < t (μ + 1)) (hend : ∀ r, t (μ + 1 + r) = t (μ + 1)) :
    ∀ R, cdb t (unitAt μ) x R μ = ((x - t μ) / (t (μ + 1) - t μ)) ^ R
  | 0 => by show unitAt (K := K) μ μ = _; rw [pow_zero]; exact if_pos rfl
  | R + 1 => by
    have hne : t (μ + 1) - t μ ≠ 0 := by intro e; linarith
    have e := hend R
    rw [show μ + 1 + R = μ + (R + 1) by omega] at e
    rw [cdb, cdb_unit_last x hlt hend R, cdb_unit_support t x μ R (μ + 1) (Or.inl (by omega)), mul_zero, add_zero, pow_succ]
    unfold ca
    rw [e, if_pos hne]
    field_simp

/-- **C50** fails for every basis: at each point past the last knot by less than the tolerance the last basis function is the power R of the position
relative to the last span, which exceeds one if R is positive (and is one if R = 0), although the point lies outside of its support. -/
theorem C50_bug_every_basis (tol : K) (R : Nat) (knots : List K) (two : 2 ≤ knots.length) (incr : knots.Pairwise (· < ·)) (x : K)
    (h0 : knots.getD (knots.length - 1) 0 < x) (h1 : x < knots.getD (knots.length - 1) 0 + tol) :
    ∃ t, pad R knots = .ok t ∧ t[size R t - 1 + R + 1]? = some (knots.getD (knots.length - 1) 0) ∧
      basisEval tol R t (size R t - 1) x =
        .ok (((x - knots.getD (knots.length - 2) 0) / (knots.getD (knots.length - 1) 0 - knots.getD (knots.length - 2) 0)) ^ R) ∧
      1 < (x - knots.getD (knots.length - 2) 0) / (knots.getD (knots.length - 1) 0 - knots.getD (knots.length - 2) 0) := by
  have hs : size R (tab (knots.length + 2 * R) (padFn R knots)) = knots.length + R - 1 := by
    unfold size; rw [tab_length]; omega
  have hlt := getD_lt incr (show knots.length - 2 < knots.length - 1 by omega) (by omega)
  have e0 := padFn_knot R knots (knots.length - 2) (by omega)
  have e1 : ∀ r, padFn R knots (knots.length - 2 + R + 1 + r) = knots.getD (knots.length - 1) 0 := fun r => by
    rw [padFn_clamp]; congr 1; omega
  refine ⟨_, pad_eq R knots (by omega), ?_, ?_, ?_⟩
  · rw [hs, show knots.length + R - 1 - 1 + R + 1 = knots.length + 2 * R - 1 by omega, ← padFn_end R knots]
    unfold tab
    rw [List.getElem?_map, List.getElem?_range (by omega)]; rfl
  · rw [hs, basis_value (by omega) (by omega)]
    have hz : z0 tol R (knots.length + 2 * R) (padFn R knots) x = unitAt (knots.length - 2 + R) := by
      funext i
      unfold z0 unitAt
      refine if_congr ⟨?_, ?_⟩ rfl rfl
      · rintro (⟨-, c⟩ | ⟨-, c⟩)
        · exact absurd (lt_of_lt_of_le c (padFn_le_last R incr (by omega) (i + 1))) (not_lt.2 h0.le)
        · omega
      · rintro rfl
        right
        rw [padFn_end]
        refine ⟨?_, by omega⟩
        rw [abs_lt]; constructor <;> linarith
    rw [hz, show knots.length + R - 1 - 1 = knots.length - 2 + R by omega]
    have hend := e1 0
    rw [add_zero] at hend
    rw [cdb_unit_last x (by rw [e0, hend]; exact hlt) (fun r => by rw [e1, hend]), e0, hend]
  · rw [one_lt_div (by linarith)]; linarith

/-- **C50.**  For every basis whose last span is not shorter than the tolerance and every point: all basis functions whose closed support does not
contain the point are zero at it, if and only if the point is not past the last knot by less than the tolerance. -/
theorem C50_when_right (tol : K) (R : Nat) (knots t : List K) (g : Good tol knots) (ht : pad R knots = .ok t) (x : K) :
    (∀ i < size R t, ∀ a b, t[i]? = some a → t[i + R + 1]? = some b → (x < a ∨ b < x) → basisEval tol R t i x = .ok 0) ↔
    (x ≤ knots.getD (knots.length - 1) 0 ∨ knots.getD (knots.length - 1) 0 + tol ≤ x) := by
  constructor
  · intro h
    by_contra c
    push Not at c
    obtain ⟨t', ht', e1, e2, e3⟩ := C50_bug_every_basis tol R knots g.two g.incr x c.1 c.2
    obtain rfl : t = t' := by rw [ht] at ht'; injection ht'
    have two := g.two
    have hs : size R t = knots.length + R - 1 := by
      rw [pad_eq R knots (by omega)] at ht
      injection ht with ht
      rw [← ht]; unfold size; rw [tab_length]; omega
    have hl : size R t - 1 < t.length := by unfold size at *; omega
    have := h (size R t - 1) (by omega) _ _ (List.getElem?_eq_getElem hl) e1 (.inr c.1)
    rw [e2] at this
    injection this with this
    have := pow_pos (lt_trans one_pos e3) R
    linarith
  · intro h
    obtain ⟨t', ht', e, -⟩ := C50_local_support_partial tol R knots g x h
    obtain rfl : t = t' := by rw [ht] at ht'; injection ht'
    exact e

end Fdapde.Splines
