import Verif.Splines.Marsden
import Verif.Splines.PropsSpline
import Mathlib.Algebra.Polynomial.Eval.Degree
import Mathlib.Algebra.Polynomial.Degree.Lemmas
import Mathlib.Algebra.Polynomial.Roots
import Mathlib.LinearAlgebra.Matrix.NonsingularInverse
/- C127: what spline expansions can represent. -/
namespace Fdapde.Splines
open Polynomial
set_option linter.unusedSectionVars false
variable {K : Type} [Field K] [LinearOrder K] [IsStrictOrderedRing K]

/-- The padded knots of a well formed basis and the values of its functions between the first and the last knot. -/
theorem expansion_values {tol : K} {R : Nat} {knots : List K} (g : Good tol knots) {c : List K} (hc : c.length = knots.length + R - 1) (x : K) :
    expansion tol R (tab (knots.length + 2 * R) (padFn R knots)) c x = .ok (∑ i ∈ Finset.range (knots.length + R - 1),
      c.getD i 0 * cdb (padFn R knots) (z0 tol R (knots.length + 2 * R) (padFn R knots) x) x R i) := by
  have two := g.two
  have hs : size R (tab (knots.length + 2 * R) (padFn R knots)) = knots.length + R - 1 := by
    unfold size; rw [tab_length]; omega
  obtain ⟨t, ht, _, h⟩ := C50_expansion tol R knots (by omega) c x
  rw [pad_eq R knots (by omega)] at ht
  obtain rfl := Res.ok.inj ht
  obtain ⟨v, hv, e⟩ := h (by rw [hs, hc])
  rw [e, hs]
  congr 1
  refine Finset.sum_congr rfl fun i hi => ?_
  have hi := Finset.mem_range.1 hi
  have e1 := hv i (by rw [hs]; exact hi)
  rw [basis_value (by omega) hi] at e1
  rw [Res.ok.inj e1]

/-- Coefficients of the monomial of degree `k`. -/
noncomputable def monoCoeff (t : Nat → K) (R k i : Nat) : K := (-1) ^ k * (dual t R i).coeff (R - k) / (R.choose k : K)

theorem mono_span {t z : Nat → K} (ht : Monotone t) {x : K} {μ : Nat} (sp : InSpan t z x μ) (m : Nat) (hm : μ < m) (R : Nat) (hR : R ≤ μ)
    (k : Nat) (hk : k ≤ R) : ∑ i ∈ Finset.range m, monoCoeff t R k i * cdb t z x R i = x ^ k := by
  have h := congrArg (fun p => p.coeff (R - k)) (marsden ht sp m hm R hR)
  simp only [finsetSum_coeff, coeff_C_mul] at h
  rw [sub_eq_add_neg, ← C_neg, coeff_X_add_C_pow, show R - (R - k) = k by omega, Nat.choose_symm hk] at h
  have hne : (R.choose k : K) ≠ 0 := by
    have := Nat.choose_pos hk
    exact_mod_cast this.ne'
  have h2 : ∑ i ∈ Finset.range m, monoCoeff t R k i * cdb t z x R i =
      (-1) ^ k / (R.choose k : K) * ∑ i ∈ Finset.range m, cdb t z x R i * (dual t R i).coeff (R - k) := by
    rw [Finset.mul_sum]
    refine Finset.sum_congr rfl fun i _ => ?_
    unfold monoCoeff
    ring
  rw [h2, h, neg_pow x k]
  have h3 : ((-1 : K) ^ k) * (-1) ^ k = 1 := by rw [← mul_pow]; simp
  field_simp
  linear_combination x ^ k * h3

theorem mono_knots {tol : K} {R : Nat} {knots : List K} (g : Good tol knots) {x : K} (h0 : knots.getD 0 0 ≤ x)
    (h1 : x ≤ knots.getD (knots.length - 1) 0) (k : Nat) (hk : k ≤ R) :
    ∑ i ∈ Finset.range (knots.length + R - 1), monoCoeff (padFn R knots) R k i *
      cdb (padFn R knots) (z0 tol R (knots.length + 2 * R) (padFn R knots) x) x R i = x ^ k := by
  have two := g.two
  obtain ⟨j, hj, hlo, hhi⟩ := exists_span two h0 h1
  exact mono_span (padFn_mono R g.incr (by omega)) (inSpan_of (R := R) g hj hlo hhi) _ (by omega) R (by omega) k hk

theorem getD_map_range (f : Nat → K) (n i : Nat) (h : i < n) : ((List.range n).map f).getD i 0 = f i := by
  rw [List.getD_eq_getElem?_getD, List.getElem?_eq_getElem (by simpa using h), Option.getD_some]
  simp

/-- **C127** (partial: the last span must not be shorter than the tolerance).  Every polynomial of degree not larger than the order
is a spline: there are coefficients whose expansion has the value of the polynomial at every point between the first and the last
knot. -/
theorem C127_reproduces_partial (tol : K) (R : Nat) (knots : List K) (g : Good tol knots) (p : K[X]) (hp : p.natDegree ≤ R) :
    ∃ t, pad R knots = .ok t ∧ ∃ c : List K, c.length = size R t ∧ ∀ x, knots.getD 0 0 ≤ x → x ≤ knots.getD (knots.length - 1) 0 →
      expansion tol R t c x = .ok (p.eval x) := by
  have two := g.two
  have hs : size R (tab (knots.length + 2 * R) (padFn R knots)) = knots.length + R - 1 := by
    unfold size; rw [tab_length]; omega
  refine ⟨_, pad_eq R knots (by omega), (List.range (knots.length + R - 1)).map fun i =>
    ∑ k ∈ Finset.range (R + 1), p.coeff k * monoCoeff (padFn R knots) R k i, by rw [hs]; simp, fun x h0 h1 => ?_⟩
  rw [expansion_values g (by simp), eval_eq_sum_range' (show p.natDegree < R + 1 by omega)]
  congr 1
  rw [Finset.sum_congr rfl fun i hi => by rw [getD_map_range _ _ _ (Finset.mem_range.1 hi), Finset.sum_mul], Finset.sum_comm]
  refine Finset.sum_congr rfl fun k hk => ?_
  have hk := Finset.mem_range.1 hk
  rw [← mono_knots (R := R) g h0 h1 k (by omega), Finset.mul_sum]
  exact Finset.sum_congr rfl fun i _ => by ring

theorem dual_coeff_pred (t : Nat → K) (R i : Nat) : (dual t (R + 1) i).coeff R = -∑ j ∈ Finset.range (R + 1), t (i + 1 + j) := by
  have := Polynomial.prod_X_sub_C_coeff_card_pred (Finset.range (R + 1)) (fun j => t (i + 1 + j)) (by simp)
  simpa [dual] using this

/-- The identity is the spline whose coefficients are the averages of `R` consecutive knots (the Greville abscissae). -/
theorem greville_knots {tol : K} {R : Nat} (hR : 0 < R) {knots : List K} (g : Good tol knots) {x : K} (h0 : knots.getD 0 0 ≤ x)
    (h1 : x ≤ knots.getD (knots.length - 1) 0) :
    ∑ i ∈ Finset.range (knots.length + R - 1), (∑ j ∈ Finset.range R, padFn R knots (i + 1 + j)) / R *
      cdb (padFn R knots) (z0 tol R (knots.length + 2 * R) (padFn R knots) x) x R i = x := by
  have h := mono_knots g h0 h1 1 hR
  rw [pow_one] at h
  refine Eq.trans (Finset.sum_congr rfl fun i _ => ?_) h
  congr 1
  unfold monoCoeff
  obtain ⟨R, rfl⟩ : ∃ r, R = r + 1 := ⟨R - 1, by omega⟩
  rw [Nat.add_sub_cancel, dual_coeff_pred, Nat.choose_one_right]
  ring

/-- **C127**: the coefficients of the identity function are the averages of the `R` knots after the first one of each function. -/
theorem C127_greville_partial (tol : K) (R : Nat) (hR : 0 < R) (knots : List K) (g : Good tol knots) :
    ∃ t, pad R knots = .ok t ∧ ∃ c : List K, c.length = size R t ∧
      (∀ i < size R t, c.getD i 0 = (∑ j ∈ Finset.range R, t.getD (i + 1 + j) 0) / R) ∧
      ∀ x, knots.getD 0 0 ≤ x → x ≤ knots.getD (knots.length - 1) 0 → expansion tol R t c x = .ok x := by
  have two := g.two
  have hs : size R (tab (knots.length + 2 * R) (padFn R knots)) = knots.length + R - 1 := by
    unfold size; rw [tab_length]; omega
  refine ⟨_, pad_eq R knots (by omega), (List.range (knots.length + R - 1)).map fun i =>
    (∑ j ∈ Finset.range R, padFn R knots (i + 1 + j)) / R, by rw [hs]; simp, fun i hi => ?_, fun x h0 h1 => ?_⟩
  · rw [hs] at hi
    rw [getD_map_range _ _ _ hi]
    congr 1
    refine Finset.sum_congr rfl fun j hj => ?_
    have hj := Finset.mem_range.1 hj
    rw [tab, getD_map_range _ _ _ (by omega)]
  · rw [expansion_values g (by simp)]
    congr 1
    rw [Finset.sum_congr rfl fun i hi => by rw [getD_map_range _ _ _ (Finset.mem_range.1 hi)]]
    exact greville_knots hR g h0 h1

/-- **C127**: between the first and the last knot a spline takes values between the smallest and the largest of its coefficients. -/
theorem C127_hull_partial (tol : K) (R : Nat) (knots : List K) (g : Good tol knots) (c : List K) (lo hi : K)
    (hc : ∀ a ∈ c, lo ≤ a ∧ a ≤ hi) (x : K) (h0 : knots.getD 0 0 ≤ x) (h1 : x ≤ knots.getD (knots.length - 1) 0) :
    ∃ t, pad R knots = .ok t ∧ (c.length = size R t → ∃ y, expansion tol R t c x = .ok y ∧ lo ≤ y ∧ y ≤ hi) := by
  have two := g.two
  have hs : size R (tab (knots.length + 2 * R) (padFn R knots)) = knots.length + R - 1 := by
    unfold size; rw [tab_length]; omega
  refine ⟨_, pad_eq R knots (by omega), fun hl => ⟨_, expansion_values g (by rw [hl, hs]) x, ?_⟩⟩
  rw [hs] at hl
  obtain ⟨j, hj, hlo, hhi⟩ := exists_span two h0 h1
  have sp := inSpan_of (R := R) g hj hlo hhi
  have hm := padFn_mono R g.incr (by omega)
  have h1 := cdb_sum hm sp (knots.length + R - 1) (by omega) R (by omega)
  have hg : ∀ i < knots.length + R - 1, lo ≤ c.getD i 0 ∧ c.getD i 0 ≤ hi := by
    intro i hi
    rw [List.getD_eq_getElem?_getD, List.getElem?_eq_getElem (by omega), Option.getD_some]
    exact hc _ (List.getElem_mem _)
  constructor
  · calc lo = ∑ i ∈ Finset.range (knots.length + R - 1), lo * cdb (padFn R knots) (z0 tol R (knots.length + 2 * R) (padFn R knots) x) x R i := by
          rw [← Finset.mul_sum, h1, mul_one]
      _ ≤ _ := Finset.sum_le_sum fun i hi => mul_le_mul_of_nonneg_right (hg i (Finset.mem_range.1 hi)).1 (cdb_nonneg hm sp R i)
  · calc _ ≤ ∑ i ∈ Finset.range (knots.length + R - 1), hi * cdb (padFn R knots) (z0 tol R (knots.length + 2 * R) (padFn R knots) x) x R i :=
          Finset.sum_le_sum fun i hi => mul_le_mul_of_nonneg_right (hg i (Finset.mem_range.1 hi)).2 (cdb_nonneg hm sp R i)
      _ = hi := by rw [← Finset.mul_sum, h1, mul_one]

/-! ### The ends of the interval -/

/-- A convex combination which equals an extreme value, attained by one point only, is that point. -/
theorem extreme {n : Nat} {v ξ : Nat → K} {x : K} (e : Nat) (hv : ∀ i < n, 0 ≤ v i) (h1 : ∑ i ∈ Finset.range n, v i = 1)
    (hx : ∑ i ∈ Finset.range n, ξ i * v i = x) (hξ : ∀ i < n, i ≠ e → x < ξ i) (he : x ≤ ξ e) :
    ∀ i < n, i ≠ e → v i = 0 := by
  have h0 : ∑ i ∈ Finset.range n, (ξ i - x) * v i = 0 := by
    simp only [sub_mul, Finset.sum_sub_distrib, ← Finset.mul_sum, h1, hx]; ring
  have hn : ∀ i ∈ Finset.range n, 0 ≤ (ξ i - x) * v i := by
    intro i hi
    have hi := Finset.mem_range.1 hi
    refine mul_nonneg ?_ (hv i hi)
    by_cases h : i = e
    · rw [h]; linarith
    · linarith [hξ i hi h]
  intro i hi hie
  have := (Finset.sum_eq_zero_iff_of_nonneg hn).1 h0 i (Finset.mem_range.2 hi)
  rcases mul_eq_zero.1 this with h | h
  · linarith [hξ i hi hie]
  · exact h

theorem padFn_gt_first {R : Nat} {knots : List K} (hk : knots.Pairwise (· < ·)) (h2 : 2 ≤ knots.length) {i : Nat} (hi : R < i) :
    knots.getD 0 0 < padFn R knots i := by
  rw [padFn_clamp]; exact getD_lt hk (by omega) (by omega)

theorem padFn_lt_last {R : Nat} {knots : List K} (hk : knots.Pairwise (· < ·)) (h2 : 2 ≤ knots.length) {i : Nat} (hi : i + 1 < knots.length + R) :
    padFn R knots i < knots.getD (knots.length - 1) 0 := by
  rw [padFn_clamp]; exact getD_lt hk (by omega) (by omega)

theorem avg_gt {R : Nat} (hR : 0 < R) {τ : Nat → K} {a : K} (h : ∀ j < R, a ≤ τ j) (hs : ∃ j < R, a < τ j) :
    a < (∑ j ∈ Finset.range R, τ j) / R := by
  have hR' : (0 : K) < R := by exact_mod_cast hR
  rw [lt_div_iff₀ hR']
  calc a * R = ∑ _j ∈ Finset.range R, a := by rw [Finset.sum_const, Finset.card_range, nsmul_eq_mul]; ring
    _ < _ := Finset.sum_lt_sum (fun j hj => h j (Finset.mem_range.1 hj)) (by obtain ⟨j, hj, h'⟩ := hs; exact ⟨j, Finset.mem_range.2 hj, h'⟩)

theorem avg_ge {R : Nat} (hR : 0 < R) {τ : Nat → K} {a : K} (h : ∀ j < R, a ≤ τ j) : a ≤ (∑ j ∈ Finset.range R, τ j) / R := by
  have hR' : (0 : K) < R := by exact_mod_cast hR
  rw [le_div_iff₀ hR']
  calc a * R = ∑ _j ∈ Finset.range R, a := by rw [Finset.sum_const, Finset.card_range, nsmul_eq_mul]; ring
    _ ≤ _ := Finset.sum_le_sum fun j hj => h j (Finset.mem_range.1 hj)

/-- At the first knot only the first function does not vanish, at the last one only the last. -/
theorem end_values {tol : K} {R : Nat} {knots : List K} (g : Good tol knots) {x : K} {e : Nat}
    (hx : x = knots.getD 0 0 ∧ e = 0 ∨ x = knots.getD (knots.length - 1) 0 ∧ e = knots.length + R - 2) :
    ∀ i < knots.length + R - 1, cdb (padFn R knots) (z0 tol R (knots.length + 2 * R) (padFn R knots) x) x R i = if i = e then 1 else 0 := by
  have two := g.two
  have hab := getD_lt g.incr (show 0 < knots.length - 1 by omega) (by omega)
  have h0 : knots.getD 0 0 ≤ x := by rcases hx with h | h <;> rw [h.1]; exact hab.le
  have h1 : x ≤ knots.getD (knots.length - 1) 0 := by rcases hx with h | h <;> rw [h.1]; exact hab.le
  obtain ⟨j, hj, hlo, hhi⟩ := exists_span two h0 h1
  have sp := inSpan_of (R := R) g hj hlo hhi
  have hm := padFn_mono R g.incr (by omega)
  have hsum := cdb_sum hm sp (knots.length + R - 1) (by omega) R (by omega)
  have hnn := cdb_nonneg hm sp R
  have he : e < knots.length + R - 1 := by omega
  suffices H : ∀ i < knots.length + R - 1, i ≠ e → cdb (padFn R knots) (z0 tol R (knots.length + 2 * R) (padFn R knots) x) x R i = 0 by
    intro i hi
    split_ifs with h
    · rw [h]
      rwa [Finset.sum_eq_single e (fun i hi hie => H i (Finset.mem_range.1 hi) hie) (fun hn => absurd (Finset.mem_range.2 he) hn)] at hsum
    · exact H i hi h
  rcases Nat.eq_zero_or_pos R with hR | hR
  · subst hR
    intro i hi hie
    refine sp.z0 i fun hij => hie ?_
    rcases hx with ⟨hx, rfl⟩ | ⟨hx, rfl⟩
    · by_contra hne
      have := getD_lt g.incr (show 0 < j by omega) (by omega)
      rw [hx] at hlo
      exact absurd hlo (not_le.2 this)
    · rcases hhi with h | h
      · rw [hx] at h
        exact absurd (getD_le g.incr (show j + 1 ≤ knots.length - 1 by omega) (by omega)) (not_le.2 h)
      · omega
  have hgr := greville_knots (R := R) hR g h0 h1
  rcases hx with ⟨hx, rfl⟩ | ⟨hx, rfl⟩
  · refine extreme 0 (fun i _ => hnn i) hsum hgr (fun i _ hi => ?_) ?_
    · rw [hx]
      exact avg_gt hR (fun j _ => padFn_first_le R g.incr (by omega) _) ⟨R - 1, by omega, padFn_gt_first g.incr two (by omega)⟩
    · rw [hx]; exact avg_ge hR fun j _ => padFn_first_le R g.incr (by omega) _
  · have hgr' : ∑ i ∈ Finset.range (knots.length + R - 1), (∑ j ∈ Finset.range R, -padFn R knots (i + 1 + j)) / R *
      cdb (padFn R knots) (z0 tol R (knots.length + 2 * R) (padFn R knots) x) x R i = -x := by
      have e := congrArg Neg.neg hgr
      rw [← Finset.sum_neg_distrib] at e
      refine Eq.trans (Finset.sum_congr rfl fun i _ => ?_) e
      rw [Finset.sum_neg_distrib]; ring
    rw [hx] at hgr' ⊢
    rw [hx] at hsum hnn
    refine extreme (knots.length + R - 2) (fun i _ => hnn i) hsum hgr' (fun i hi hie => ?_) ?_
    · exact avg_gt hR (fun j _ => neg_le_neg (padFn_le_last R g.incr (by omega) _)) ⟨0, hR, neg_lt_neg (padFn_lt_last g.incr two (by omega))⟩
    · exact avg_ge hR fun j _ => neg_le_neg (padFn_le_last R g.incr (by omega) _)

/-- **C127**: at the two end knots the value of a spline is its first, respectively its last coefficient. -/
theorem C127_ends_partial (tol : K) (R : Nat) (knots : List K) (g : Good tol knots) (c : List K) :
    ∃ t, pad R knots = .ok t ∧ (c.length = size R t → expansion tol R t c (knots.getD 0 0) = .ok (c.getD 0 0) ∧
      expansion tol R t c (knots.getD (knots.length - 1) 0) = .ok (c.getD (c.length - 1) 0)) := by
  have two := g.two
  have hs : size R (tab (knots.length + 2 * R) (padFn R knots)) = knots.length + R - 1 := by
    unfold size; rw [tab_length]; omega
  refine ⟨_, pad_eq R knots (by omega), fun hl => ?_⟩
  rw [hs] at hl
  have key : ∀ x e, e < knots.length + R - 1 → (x = knots.getD 0 0 ∧ e = 0 ∨ x = knots.getD (knots.length - 1) 0 ∧ e = knots.length + R - 2) →
      expansion tol R (tab (knots.length + 2 * R) (padFn R knots)) c x = .ok (c.getD e 0) := by
    intro x e he hx
    rw [expansion_values g hl]
    congr 1
    rw [Finset.sum_congr rfl fun i hi => by rw [end_values g hx i (Finset.mem_range.1 hi)]]
    simp only [mul_ite, mul_one, mul_zero]
    rw [Finset.sum_ite_eq' (Finset.range (knots.length + R - 1)) e, if_pos (Finset.mem_range.2 he)]
  refine ⟨key _ 0 (by omega) (Or.inl ⟨rfl, rfl⟩), ?_⟩
  rw [hl, show knots.length + R - 1 - 1 = knots.length + R - 2 by omega]
  exact key _ _ (by omega) (Or.inr ⟨rfl, rfl⟩)

/-! ### Coefficients are determined by the function -/

theorem active_sum {t z : Nat → K} {x : K} {μ : Nat} (hz : ∀ j, j ≠ μ → z j = 0) (m : Nat) (hm : μ < m) (R : Nat) (hR : R ≤ μ) (c : Nat → K) :
    ∑ i ∈ Finset.range m, c i * cdb t z x R i = ∑ l : Fin (R + 1), c (μ - R + l) * cdb t z x R (μ - R + l) := by
  have hs : ∀ i, (μ < i ∨ i + R < μ) → cdb t z x R i = 0 := fun i hi => cdb_zero t z x R i fun j h1 h2 => hz j (by omega)
  rw [Finset.sum_fin_eq_sum_range, show m = (μ - R + (R + 1)) + (m - μ - 1) by omega, Finset.sum_range_add, Finset.sum_range_add,
    Finset.sum_eq_zero fun i hi => by rw [hs i (Or.inr (by have := Finset.mem_range.1 hi; omega)), mul_zero],
    Finset.sum_eq_zero (s := Finset.range (m - μ - 1)) fun i hi => by rw [hs _ (Or.inl (by omega)), mul_zero], zero_add, add_zero]
  exact Finset.sum_congr rfl fun i hi => by rw [dif_pos (Finset.mem_range.1 hi)]

theorem poly_eq_of_Ioo {p q : K[X]} {a b : K} (hab : a < b) (h : ∀ y, a < y → y < b → p.eval y = q.eval y) : p = q := by
  refine Polynomial.eq_of_infinite_eval_eq p q ?_
  exact (Set.Ioo_infinite hab).mono fun y hy => h y hy.1 hy.2

/-- On a span the functions which do not vanish there are linearly independent. -/
theorem span_independent {t : Nat → K} (ht : Monotone t) {μ : Nat} (hlt : t μ < t (μ + 1)) (m : Nat) (hm : μ < m) (R : Nat) (hR : R ≤ μ)
    (c : Nat → K)
    (h : ∀ y, t μ < y → y < t (μ + 1) → ∑ i ∈ Finset.range m, c i * cdb t (fun j => if j = μ then 1 else 0) y R i = 0) :
    ∀ i, μ - R ≤ i → i ≤ μ → c i = 0 := by
  have hz : ∀ j, j ≠ μ → (fun j => if j = μ then (1 : K) else 0) j = 0 := fun j hj => by simp [hj]
  choose P hP hPe using fun i => cdb_poly t (fun j => if j = μ then (1 : K) else 0) R i
  let A : Matrix (Fin (R + 1)) (Fin (R + 1)) K := fun k l => monoCoeff t R k (μ - R + l)
  let B : Matrix (Fin (R + 1)) (Fin (R + 1)) K := fun l k => (P (μ - R + l)).coeff k
  have hAB : A * B = 1 := by
    ext k k'
    have e : ∑ l : Fin (R + 1), C (A k l) * P (μ - R + l) = X ^ (k : Nat) := by
      refine poly_eq_of_Ioo hlt fun y y0 y1 => ?_
      have sp : InSpan t (fun j => if j = μ then (1 : K) else 0) y μ := ⟨y0.le, y1.le, hlt, by simp, hz⟩
      have h1 := mono_span ht sp m hm R hR k (by omega)
      rw [active_sum hz m hm R hR] at h1
      rw [eval_finsetSum, eval_pow, eval_X, ← h1]
      exact Finset.sum_congr rfl fun l _ => by rw [eval_mul, eval_C, hPe]
    have e' := congrArg (fun p => p.coeff (k' : Nat)) e
    simp only [finsetSum_coeff, coeff_C_mul, coeff_X_pow] at e'
    rw [Matrix.mul_apply, Matrix.one_apply]
    refine e'.trans ?_
    simp only [Fin.ext_iff, eq_comm]
  have hBA : B * A = 1 := mul_eq_one_comm.1 hAB
  have hv : Matrix.vecMul (fun l : Fin (R + 1) => c (μ - R + l)) B = 0 := by
    have e : ∑ l : Fin (R + 1), C (c (μ - R + l)) * P (μ - R + l) = 0 := by
      refine poly_eq_of_Ioo hlt fun y y0 y1 => ?_
      have h1 := h y y0 y1
      rw [active_sum hz m hm R hR] at h1
      rw [eval_finsetSum, eval_zero, ← h1]
      exact Finset.sum_congr rfl fun l _ => by rw [eval_mul, eval_C, hPe]
    funext k
    have e' := congrArg (fun p => p.coeff (k : Nat)) e
    simp only [finsetSum_coeff, coeff_C_mul, coeff_zero] at e'
    rw [Matrix.vecMul, dotProduct]
    exact e'
  have hc : (fun l : Fin (R + 1) => c (μ - R + l)) = 0 := by
    have := congrArg (fun w => Matrix.vecMul w A) hv
    rwa [Matrix.vecMul_vecMul, hBA, Matrix.vecMul_one, Matrix.zero_vecMul] at this
  intro i h1 h2
  have := congrFun hc ⟨i - (μ - R), by omega⟩
  simp only [Pi.zero_apply] at this
  rwa [show μ - R + (i - (μ - R)) = i by omega] at this

theorem z0_span {tol : K} {R : Nat} {knots : List K} (g : Good tol knots) {j : Nat} (hj : j + 1 < knots.length) {y : K}
    (h1 : knots.getD j 0 ≤ y) (h2 : y < knots.getD (j + 1) 0) :
    z0 tol R (knots.length + 2 * R) (padFn R knots) y = fun m => if m = j + R then 1 else 0 := by
  have sp := inSpan_of (R := R) g hj h1 (Or.inl h2)
  funext m
  split_ifs with hm
  · rw [hm]; exact sp.z1
  · exact sp.z0 m hm

/-- **C127**: two splines which agree between two consecutive knots `j` and `j + 1` have the same coefficients for all the functions
`j`, ..., `j + R` which do not vanish there. -/
theorem C127_local_unique_partial (tol : K) (R : Nat) (knots : List K) (g : Good tol knots) (c c' : List K) (j : Nat) (hj : j + 1 < knots.length) :
    ∃ t, pad R knots = .ok t ∧ (c.length = size R t → c'.length = size R t →
      (∀ x, knots.getD j 0 < x → x < knots.getD (j + 1) 0 → expansion tol R t c x = expansion tol R t c' x) →
      ∀ i, j ≤ i → i ≤ j + R → c.getD i 0 = c'.getD i 0) := by
  have two := g.two
  have hs : size R (tab (knots.length + 2 * R) (padFn R knots)) = knots.length + R - 1 := by
    unfold size; rw [tab_length]; omega
  refine ⟨_, pad_eq R knots (by omega), fun hl hl' h i h1 h2 => ?_⟩
  rw [hs] at hl hl'
  have e0 := padFn_knot R knots j (by omega)
  have e1 : padFn R knots (j + R + 1) = knots.getD (j + 1) 0 := by
    rw [show j + R + 1 = j + 1 + R by omega]; exact padFn_knot R knots (j + 1) hj
  have := span_independent (padFn_mono R g.incr (by omega)) (μ := j + R) (by rw [e0, e1]; exact getD_lt g.incr (by omega) hj)
    (knots.length + R - 1) (by omega) R (by omega) (fun i => c.getD i 0 - c'.getD i 0) (fun y y0 y1 => by
      rw [e0] at y0
      rw [e1] at y1
      have h3 := h y y0 y1
      rw [expansion_values g hl, expansion_values g hl', z0_span g hj y0.le y1] at h3
      have h4 := Res.ok.inj h3
      simp only [sub_mul, Finset.sum_sub_distrib]
      rw [h4, sub_self]) i (by omega) (by omega)
  exact sub_eq_zero.1 this

/-- **C127**: the coefficients of a spline are determined by its values between the first and the last knot. -/
theorem C127_unique_partial (tol : K) (R : Nat) (knots : List K) (g : Good tol knots) (c c' : List K) :
    ∃ t, pad R knots = .ok t ∧ (c.length = size R t → c'.length = size R t →
      (∀ x, knots.getD 0 0 < x → x < knots.getD (knots.length - 1) 0 → expansion tol R t c x = expansion tol R t c' x) → c = c') := by
  have two := g.two
  have hs : size R (tab (knots.length + 2 * R) (padFn R knots)) = knots.length + R - 1 := by
    unfold size; rw [tab_length]; omega
  refine ⟨_, pad_eq R knots (by omega), fun hl hl' h => ?_⟩
  refine List.ext_getElem (by rw [hl, hl']) fun i hi hi' => ?_
  rw [hl, hs] at hi
  have hj : min i (knots.length - 2) + 1 < knots.length := by omega
  obtain ⟨t, ht, H⟩ := C127_local_unique_partial tol R knots g c c' (min i (knots.length - 2)) hj
  rw [pad_eq R knots (by omega)] at ht
  obtain rfl := Res.ok.inj ht
  have := H hl hl' (fun x x0 x1 => h x (lt_of_le_of_lt (getD_le g.incr (Nat.zero_le _) (by omega)) x0)
    (lt_of_lt_of_le x1 (getD_le g.incr (by omega) (by omega)))) i (by omega) (by omega)
  rwa [List.getD_eq_getElem?_getD, List.getD_eq_getElem?_getD, List.getElem?_eq_getElem, List.getElem?_eq_getElem, Option.getD_some,
    Option.getD_some] at this

/-! ### The hypotheses are met -/

theorem demo_knots : Good (1 / 100 : ℚ) [0, 1 / 2, 1, 3] := ⟨by simp, by norm_num, by norm_num, by norm_num⟩

/-- A quadratic polynomial as a quadratic spline on four knots; the identity as a cubic spline; end values; local uniqueness. -/
example : (∃ t, pad 2 [(0 : ℚ), 1 / 2, 1, 3] = .ok t ∧ ∃ c : List ℚ, c.length = size 2 t ∧ ∀ x, 0 ≤ x → x ≤ 3 →
    expansion (1 / 100) 2 t c x = .ok ((X ^ 2 - C 2 * X : ℚ[X]).eval x)) :=
  C127_reproduces_partial (1 / 100) 2 _ demo_knots (X ^ 2 - C 2 * X) (by
    refine (natDegree_sub_le _ _).trans (max_le (by simp) ?_)
    exact (natDegree_C_mul_le _ _).trans (by simp))

example : ∃ t, pad 1 [(0 : ℚ), 1 / 2, 1, 3] = .ok t ∧ size 1 t = 4 ∧
    expansion (1 / 100) 1 t [5, 6, 7, 8] 0 = .ok 5 ∧ expansion (1 / 100) 1 t [5, 6, 7, 8] 3 = .ok 8 := by
  obtain ⟨t, ht, h⟩ := C127_ends_partial (1 / 100) 1 _ demo_knots [5, 6, 7, 8]
  have e := ht
  rw [pad_eq 1 _ (by simp)] at e
  obtain rfl := Res.ok.inj e
  have hs : size 1 (tab ([(0 : ℚ), 1 / 2, 1, 3].length + 2 * 1) (padFn 1 [(0 : ℚ), 1 / 2, 1, 3])) = 4 := by simp [size]
  have h' := h (by rw [hs]; rfl)
  exact ⟨_, ht, hs, by simpa using h'.1, by simpa using h'.2⟩

end Fdapde.Splines
