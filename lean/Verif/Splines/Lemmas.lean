import Verif.Splines.Model
import Mathlib.Algebra.BigOperators.Group.Finset.Basic
import Mathlib.Algebra.BigOperators.Intervals
import Mathlib.Tactic.Linarith
import Mathlib.Tactic.Ring
import Mathlib.Tactic.FieldSimp
import Mathlib.Tactic.SplitIfs
import Mathlib.Data.Nat.Find
import Mathlib.Order.Interval.Finset.Nat
/- The Cox-de Boor recursion as a function, and its properties. -/
namespace Fdapde.Splines
set_option linter.unusedSectionVars false
variable {K : Type} [Field K] [LinearOrder K] [IsStrictOrderedRing K]

/-- 1 / (t_{i+R} - t_i), 0 if the knots coincide. -/
def ca (t : Nat → K) (R i : Nat) : K := if t (i + R) - t i ≠ 0 then 1 / (t (i + R) - t i) else 0

/-- The recursion from given values `z` of the order 0 functions. -/
def cdb (t : Nat → K) (z : Nat → K) (x : K) : Nat → Nat → K
  | 0, i => z i
  | R + 1, i => ca t (R + 1) i * (x - t i) * cdb t z x R i + ca t (R + 1) (i + 1) * (t (i + 1 + (R + 1)) - x) * cdb t z x R (i + 1)

/-- The derivative recursion. -/
def cdbD (t : Nat → K) (z : Nat → K) (x : K) : Nat → Nat → Nat → K
  | 0, R, i => cdb t z x R i
  | _ + 1, 0, _ => 0
  | k + 1, R + 1, i => ((R + 1 : Nat) : K) * ca t (R + 1) i * cdbD t z x k R i - ((R + 1 : Nat) : K) * ca t (R + 1) (i + 1) * cdbD t z x k R (i + 1)

/-- Values in terms of the order 0 ones: if those with index in [i, i+R] vanish, so does the spline. -/
theorem cdb_zero (t z : Nat → K) (x : K) : ∀ R i, (∀ j, i ≤ j → j ≤ i + R → z j = 0) → cdb t z x R i = 0
  | 0, i, h => h i le_rfl (by omega)
  | R + 1, i, h => by
    rw [cdb, cdb_zero t z x R i (fun j h1 h2 => h j h1 (by omega)), cdb_zero t z x R (i + 1) (fun j h1 h2 => h j (by omega) (by omega))]
    ring

theorem cdbD_zero (t z : Nat → K) (x : K) : ∀ k R i, (∀ j, i ≤ j → j ≤ i + R → z j = 0) → cdbD t z x k R i = 0
  | 0, R, i, h => cdb_zero t z x R i h
  | k + 1, 0, i, h => rfl
  | k + 1, R + 1, i, h => by
    rw [cdbD, cdbD_zero t z x k R i (fun j h1 h2 => h j h1 (by omega)), cdbD_zero t z x k R (i + 1) (fun j h1 h2 => h j (by omega) (by omega))]
    ring

theorem ca_nonneg {t : Nat → K} (ht : Monotone t) (R i : Nat) : 0 ≤ ca t R i := by
  unfold ca
  split_ifs
  · have := ht (show i ≤ i + R by omega)
    exact div_nonneg zero_le_one (by linarith)
  · exact le_rfl

/-- Order 0 values concentrated on the span `μ` containing `x`. -/
structure InSpan (t z : Nat → K) (x : K) (μ : Nat) : Prop where
  lo : t μ ≤ x
  hi : x ≤ t (μ + 1)
  lt : t μ < t (μ + 1)
  z1 : z μ = 1
  z0 : ∀ j, j ≠ μ → z j = 0

theorem cdb_support {t z : Nat → K} {x : K} {μ : Nat} (h : InSpan t z x μ) (R i : Nat) (hi : μ < i ∨ i + R < μ) :
    cdb t z x R i = 0 := cdb_zero t z x R i (fun j h1 h2 => h.z0 j (by omega))

theorem cdb_nonneg {t z : Nat → K} (ht : Monotone t) {x : K} {μ : Nat} (h : InSpan t z x μ) :
    ∀ R i, 0 ≤ cdb t z x R i
  | 0, i => by
    show 0 ≤ z i
    by_cases e : i = μ
    · rw [e, h.z1]; exact zero_le_one
    · rw [h.z0 i e]
  | R + 1, i => by
    rw [cdb]
    apply add_nonneg
    · by_cases hs : μ < i ∨ i + R < μ
      · rw [cdb_support h R i hs, mul_zero]
      · push Not at hs
        have := ht hs.1
        exact mul_nonneg (mul_nonneg (ca_nonneg ht _ _) (by linarith [h.lo])) (cdb_nonneg ht h R i)
    · by_cases hs : μ < i + 1 ∨ i + 1 + R < μ
      · rw [cdb_support h R (i + 1) hs, mul_zero]
      · push Not at hs
        have := ht (show μ + 1 ≤ i + 1 + (R + 1) by omega)
        exact mul_nonneg (mul_nonneg (ca_nonneg ht _ _) (by linarith [h.hi])) (cdb_nonneg ht h R (i + 1))

theorem cdb_sum {t z : Nat → K} (ht : Monotone t) {x : K} {μ : Nat} (h : InSpan t z x μ) (m : Nat) (hm : μ < m) :
    ∀ R, R ≤ μ → ∑ i ∈ Finset.range m, cdb t z x R i = 1
  | 0, _ => by
    show ∑ i ∈ Finset.range m, z i = 1
    rw [Finset.sum_eq_single μ (fun j _ hj => h.z0 j hj) (fun hn => absurd (Finset.mem_range.2 hm) hn)]
    exact h.z1
  | R + 1, hR => by
    have ih := cdb_sum ht h m hm R (by omega)
    simp only [cdb, Finset.sum_add_distrib]
    have shift : ∑ i ∈ Finset.range m, ca t (R + 1) (i + 1) * (t (i + 1 + (R + 1)) - x) * cdb t z x R (i + 1) =
        ∑ i ∈ Finset.range m, ca t (R + 1) i * (t (i + (R + 1)) - x) * cdb t z x R i := by
      have e1 := Finset.sum_range_succ (fun i => ca t (R + 1) i * (t (i + (R + 1)) - x) * cdb t z x R i) m
      have e2 := Finset.sum_range_succ' (fun i => ca t (R + 1) i * (t (i + (R + 1)) - x) * cdb t z x R i) m
      rw [cdb_support h R m (Or.inl hm), mul_zero, add_zero] at e1
      rw [cdb_support h R 0 (Or.inr (by omega)), mul_zero, add_zero] at e2
      rw [← e1, e2]
    rw [shift, ← Finset.sum_add_distrib, ← ih]
    apply Finset.sum_congr rfl
    intro i _
    by_cases hs : μ < i ∨ i + R < μ
    · rw [cdb_support h R i hs]; ring
    · push Not at hs
      have h1 := ht hs.1
      have h2 := ht (show μ + 1 ≤ i + (R + 1) by omega)
      have hne : t (i + (R + 1)) - t i ≠ 0 := by have := h.lt; intro e; linarith
      have : ca t (R + 1) i * (x - t i) + ca t (R + 1) i * (t (i + (R + 1)) - x) = 1 := by
        unfold ca; rw [if_pos hne]; field_simp; ring
      rw [← add_mul, this, one_mul]

/-! ### The code computes the recursion -/

theorem rd_eq {t : List K} {i : Nat} (h : i < t.length) : rd t i = .ok (t.getD i 0) := by
  simp [rd, List.getElem?_eq_getElem h, List.getD_eq_getElem?_getD]

/-- A knot vector listed from a function. -/
def tab (m : Nat) (τ : Nat → K) : List K := (List.range m).map τ

@[simp] theorem tab_length (m : Nat) (τ : Nat → K) : (tab m τ).length = m := by simp [tab]

theorem rd_tab {m : Nat} {τ : Nat → K} {i : Nat} (h : i < m) : rd (tab m τ) i = .ok (τ i) := by
  simp [rd, tab, List.getElem?_range h]

/-- Order 0 values of the code. -/
def z0 (tol : K) (M m : Nat) (τ : Nat → K) (x : K) (i : Nat) : K :=
  if (τ i ≤ x ∧ x < τ (i + 1)) ∨ (|x - τ (m - 1)| < tol ∧ i + M + 2 = m) then 1 else 0

theorem consts_eq {m : Nat} {τ : Nat → K} {R i : Nat} (h : i + R + 1 < m) :
    consts (tab m τ) R i = .ok (ca τ R i, ca τ R (i + 1)) := by
  have e : i + 1 + R = i + R + 1 := by omega
  simp only [consts, rd_tab (τ := τ) (show i < m by omega), rd_tab (τ := τ) (show i + 1 < m by omega),
    rd_tab (τ := τ) (show i + R < m by omega), rd_tab (τ := τ) h, Res.ok_bind, ca, e]

theorem eval_eq (tol : K) (M m : Nat) (τ : Nat → K) (x : K) :
    ∀ R i, i + R + 1 < m → eval tol M (tab m τ) R i x = .ok (cdb τ (z0 tol M m τ x) x R i)
  | 0, i, h => by
    simp only [eval, eval0, tab_length, rd_tab (τ := τ) (show i < m by omega), rd_tab (τ := τ) (show i + 1 < m by omega),
      rd_tab (τ := τ) (show m - 1 < m by omega), Res.ok_bind, cdb, z0]
  | R + 1, i, h => by
    have e : i + 1 + (R + 1) = i + (R + 1) + 1 := by omega
    simp only [eval, consts_eq (τ := τ) h, rd_tab (τ := τ) (show i < m by omega), rd_tab (τ := τ) h, Res.ok_bind,
      eval_eq tol M m τ x R i (by omega), eval_eq tol M m τ x R (i + 1) (by omega), cdb, e]

theorem derive_eq (tol : K) (M m : Nat) (τ : Nat → K) (x : K) :
    ∀ k R i, i + R + 1 < m → derive tol M (tab m τ) k R i x = .ok (cdbD τ (z0 tol M m τ x) x k R i)
  | 0, R, i, h => by rw [derive, cdbD]; exact eval_eq tol M m τ x R i h
  | k + 1, 0, i, h => rfl
  | k + 1, R + 1, i, h => by
    simp only [derive, consts_eq (τ := τ) h, Res.ok_bind, derive_eq tol M m τ x k R i (by omega),
      derive_eq tol M m τ x k R (i + 1) (by omega), cdbD]

/-- The padded knot vector as a function. -/
def padFn (R : Nat) (knots : List K) (i : Nat) : K :=
  if i < R then knots.getD 0 0 else if i < knots.length + R then knots.getD (i - R) 0 else knots.getD (knots.length - 1) 0

theorem pad_eq (R : Nat) (knots : List K) (h : 0 < knots.length) :
    pad R knots = .ok (tab (knots.length + 2 * R) (padFn R knots)) := by
  unfold pad tab
  suffices H : ∀ l acc, foldRes (fun acc i => (fun v => acc ++ [v]) <$>
      (if i < R then rd knots 0 else if i < knots.length + R then rd knots (i - R) else rd knots (knots.length - 1))) acc l =
      .ok (acc ++ l.map (padFn R knots)) by simpa using H _ []
  intro l
  induction l with
  | nil => intro acc; simp
  | cons i l ih =>
      intro acc
      have : (if i < R then rd knots 0 else if i < knots.length + R then rd knots (i - R) else rd knots (knots.length - 1)) =
          .ok (padFn R knots i) := by
        unfold padFn
        split_ifs with h1 h2
        · exact rd_eq h
        · exact rd_eq (by omega)
        · exact rd_eq (by omega)
      rw [foldRes_cons, this, Res.map_ok, Res.ok_bind, ih]; simp

/-- Knots in strictly increasing order. -/
theorem getD_lt {knots : List K} (hk : knots.Pairwise (· < ·)) {a b : Nat} (h : a < b) (hb : b < knots.length) :
    knots.getD a 0 < knots.getD b 0 := by
  have ha : a < knots.length := by omega
  rw [List.getD_eq_getElem?_getD, List.getD_eq_getElem?_getD, List.getElem?_eq_getElem ha, List.getElem?_eq_getElem hb,
    Option.getD_some, Option.getD_some]
  exact List.pairwise_iff_getElem.1 hk a b ha hb h

theorem getD_le {knots : List K} (hk : knots.Pairwise (· < ·)) {a b : Nat} (h : a ≤ b) (hb : b < knots.length) :
    knots.getD a 0 ≤ knots.getD b 0 := by
  rcases Nat.lt_or_eq_of_le h with h | rfl
  · exact (getD_lt hk h hb).le
  · exact le_rfl

theorem padFn_clamp (R : Nat) (knots : List K) (i : Nat) :
    padFn R knots i = knots.getD (min (i - R) (knots.length - 1)) 0 := by
  unfold padFn
  split_ifs with h1 h2
  · rw [show min (i - R) (knots.length - 1) = 0 by omega]
  · rw [show min (i - R) (knots.length - 1) = i - R by omega]
  · rw [show min (i - R) (knots.length - 1) = knots.length - 1 by omega]

theorem padFn_mono (R : Nat) {knots : List K} (hk : knots.Pairwise (· < ·)) (h : 0 < knots.length) :
    Monotone (padFn R knots) := by
  intro a b hab
  rw [padFn_clamp, padFn_clamp]
  exact getD_le hk (by omega) (by omega)

theorem padFn_le_last (R : Nat) {knots : List K} (hk : knots.Pairwise (· < ·)) (h : 0 < knots.length) (i : Nat) :
    padFn R knots i ≤ knots.getD (knots.length - 1) 0 := by
  rw [padFn_clamp]; exact getD_le hk (by omega) (by omega)

theorem padFn_first_le (R : Nat) {knots : List K} (hk : knots.Pairwise (· < ·)) (h : 0 < knots.length) (i : Nat) :
    knots.getD 0 0 ≤ padFn R knots i := by
  rw [padFn_clamp]; exact getD_le hk (by omega) (by omega)

theorem padFn_knot (R : Nat) (knots : List K) (j : Nat) (h : j < knots.length) : padFn R knots (j + R) = knots.getD j 0 := by
  rw [padFn_clamp]; congr 1; omega

theorem padFn_end (R : Nat) (knots : List K) : padFn R knots (knots.length + 2 * R - 1) = knots.getD (knots.length - 1) 0 := by
  rw [padFn_clamp]; congr 1; omega

/-- What the basis needs of its knots. -/
structure Good (tol : K) (knots : List K) : Prop where
  two : 2 ≤ knots.length
  incr : knots.Pairwise (· < ·)
  pos : 0 < tol
  wide : tol ≤ knots.getD (knots.length - 1) 0 - knots.getD (knots.length - 2) 0

/-- If the x lies in the span of knots j, j + 1 the order 0 values are those of that span. -/
theorem inSpan_of {tol : K} {R : Nat} {knots : List K} (g : Good tol knots) {x : K} {j : Nat} (hj : j + 1 < knots.length)
    (hlo : knots.getD j 0 ≤ x) (hhi : x < knots.getD (j + 1) 0 ∨ (j + 2 = knots.length ∧ x = knots.getD (j + 1) 0)) :
    InSpan (padFn R knots) (z0 tol R (knots.length + 2 * R) (padFn R knots) x) x (j + R) := by
  obtain ⟨two, incr, pos, wide⟩ := g
  have hmono := padFn_mono R incr (by omega)
  have e0 := padFn_knot R knots j (by omega)
  have e1 : padFn R knots (j + R + 1) = knots.getD (j + 1) 0 := by
    rw [show j + R + 1 = j + 1 + R by omega]; exact padFn_knot R knots (j + 1) hj
  have hle : x ≤ knots.getD (j + 1) 0 := by rcases hhi with h | h; exacts [h.le, h.2.le]
  refine ⟨by rw [e0]; exact hlo, by rw [e1]; exact hle, by rw [e0, e1]; exact getD_lt incr (by omega) hj, ?_, ?_⟩
  · unfold z0
    rw [if_pos]
    rcases hhi with h | ⟨h, hx⟩
    · left; rw [e0, e1]; exact ⟨hlo, h⟩
    · right
      rw [padFn_end, hx, show knots.length - 1 = j + 1 by omega, sub_self, abs_zero]
      exact ⟨pos, by omega⟩
  · intro i hi
    unfold z0
    rw [if_neg]
    rintro (⟨h1, h2⟩ | ⟨h1, h2⟩)
    · rcases Nat.lt_or_gt_of_ne hi with h | h
      · have := hmono (show i + 1 ≤ j + R by omega)
        rw [e0] at this
        exact absurd (lt_of_lt_of_le h2 (this.trans hlo)) (lt_irrefl _)
      · have h3 := hmono (show j + R + 1 ≤ i by omega)
        rw [e1] at h3
        rcases hhi with h4 | ⟨h4, h5⟩
        · exact absurd (lt_of_le_of_lt (h3.trans h1) h4) (lt_irrefl _)
        · have h6 := padFn_le_last R incr (by omega) (i + 1)
          rw [show knots.length - 1 = j + 1 by omega, ← h5] at h6
          exact absurd h2 (not_lt.2 h6)
    · have hj2 : j + 1 ≤ knots.length - 2 := by omega
      have h3 := getD_le incr hj2 (by omega)
      rw [padFn_end] at h1
      have := (abs_lt.1 h1).1
      linarith

theorem exists_span {knots : List K} (h2 : 2 ≤ knots.length) {x : K} (h0 : knots.getD 0 0 ≤ x)
    (h1 : x ≤ knots.getD (knots.length - 1) 0) : ∃ j, j + 1 < knots.length ∧ knots.getD j 0 ≤ x ∧
      (x < knots.getD (j + 1) 0 ∨ (j + 2 = knots.length ∧ x = knots.getD (j + 1) 0)) := by
  classical
  let P : Nat → Prop := fun j => knots.getD j 0 ≤ x
  have hP : P (Nat.findGreatest P (knots.length - 2)) := Nat.findGreatest_spec (P := P) (Nat.zero_le _) h0
  have hle := Nat.findGreatest_le (P := P) (knots.length - 2)
  refine ⟨Nat.findGreatest P (knots.length - 2), by omega, hP, ?_⟩
  rcases Nat.lt_or_eq_of_le hle with h | h
  · left
    have := Nat.findGreatest_is_greatest (P := P) (Nat.lt_succ_self _) h
    exact not_le.1 this
  · rw [h]
    rcases lt_or_eq_of_le h1 with h3 | h3
    · left; rw [show knots.length - 2 + 1 = knots.length - 1 by omega]; exact h3
    · right; refine ⟨by omega, ?_⟩; rw [show knots.length - 2 + 1 = knots.length - 1 by omega]; exact h3

/-- Outside the knots (and the tolerance at the right end) the order 0 values vanish. -/
theorem z0_outside {tol : K} {R : Nat} {knots : List K} (g : Good tol knots) {x : K}
    (h : x < knots.getD 0 0 ∨ knots.getD (knots.length - 1) 0 + tol ≤ x) (i : Nat) :
    z0 tol R (knots.length + 2 * R) (padFn R knots) x i = 0 := by
  obtain ⟨two, incr, pos, wide⟩ := g
  have a := padFn_first_le R incr (by omega) i
  have b := padFn_le_last R incr (by omega) (i + 1)
  have c : knots.getD 0 0 ≤ knots.getD (knots.length - 2) 0 := getD_le incr (by omega) (by omega)
  unfold z0
  rw [if_neg]
  rintro (⟨h1, h2⟩ | ⟨h1, h2⟩)
  · rcases h with h | h <;> linarith
  · rw [padFn_end] at h1
    have := abs_lt.1 h1
    rcases h with h | h <;> linarith [this.1, this.2]

end Fdapde.Splines
