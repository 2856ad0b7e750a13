import Verif.Utils.Symbols
import Mathlib.Analysis.Complex.ExponentialBounds
import Mathlib.Tactic.Linarith
import Mathlib.Tactic.Ring
import Mathlib.Tactic.NormNum
import Mathlib.Tactic.Positivity
import Mathlib.Tactic.FieldSimp

/-! # Properties of the small utilities (C84, C88, C89) -/

namespace Fdapde.Utils

variable {K : Type} [Field K] [LinearOrder K] [IsStrictOrderedRing K]

/-- **C84.** `almost_equal` compares the distance with the tolerance times the largest of 1, `|a|`, `|b|`. -/
theorem C84_meaning (a b eps : K) (h : 0 < eps) : almostEqual a b eps ↔ |a - b| < eps * max 1 (max |a| |b|) := by
  have e : (if |a| < |b| then |b| else |a|) = max |a| |b| := by
    by_cases h : |a| < |b|
    · rw [if_pos h, max_eq_right h.le]
    · rw [if_neg h, max_eq_left (not_lt.mp h)]
  unfold almostEqual
  rw [e, mul_max_of_nonneg _ _ h.le, lt_max_iff, mul_one, mul_comm]

/-- **C84.** Reflexive, symmetric, and true for numbers closer than the tolerance. -/
theorem C84_relation (a b eps : K) :
    (0 < eps → almostEqual a a eps) ∧ (almostEqual a b eps ↔ almostEqual b a eps) ∧ (|a - b| < eps → almostEqual a b eps) := by
  refine ⟨fun h => Or.inl (by simpa using h), ?_, fun h => Or.inl h⟩
  have key : ∀ a b : K, almostEqual a b eps → almostEqual b a eps := by
    intro a b h
    unfold almostEqual at *
    rw [abs_sub_comm b a]
    rcases h with h | h
    · exact Or.inl h
    · right
      by_cases h1 : |a| < |b|
      · rw [if_pos h1] at h
        rwa [if_neg (not_lt.mpr h1.le)]
      · rw [if_neg h1] at h
        by_cases h2 : |b| < |a|
        · rwa [if_pos h2]
        · rw [if_neg h2]
          have : |a| = |b| := le_antisymm (not_lt.mp h2) (not_lt.mp h1)
          rwa [← this]
  exact ⟨key a b, key b a⟩

/-- **C84.** It is not transitive: it must not be used as the equality of a container of keys. -/
theorem C84_not_transitive :
    almostEqual (0 : ℚ) (9 / 100) (1 / 10) ∧ almostEqual (9 / 100 : ℚ) (18 / 100) (1 / 10) ∧ ¬ almostEqual (0 : ℚ) (18 / 100) (1 / 10) := by
  refine ⟨Or.inl ?_, Or.inl ?_, ?_⟩
  · norm_num [abs_of_nonneg, abs_of_neg]
  · norm_num [abs_of_nonneg, abs_of_neg]
  · unfold almostEqual
    norm_num [abs_of_nonneg, abs_of_neg]

example : almostEqual (1000 : ℚ) 1001 (1 / 500) ∧ ¬ almostEqual (1 : ℚ) 2 (1 / 500) := by
  constructor
  · right; norm_num [abs_of_nonneg, abs_of_neg]
  · unfold almostEqual; norm_num [abs_of_nonneg, abs_of_neg]

/-! ## `log1pexp` -/

theorem log_one_add_bounds (y : ℝ) (h : 0 < y) : y - y ^ 2 ≤ Real.log (1 + y) ∧ Real.log (1 + y) ≤ y := by
  have h1 : 0 < 1 + y := by linarith
  constructor
  · have := Real.one_sub_inv_le_log_of_pos h1
    have h2 : y - y ^ 2 ≤ 1 - (1 + y)⁻¹ := by
      have : 1 - (1 + y)⁻¹ = y / (1 + y) := by field_simp; ring
      rw [this, le_div_iff₀ h1]
      nlinarith [pow_pos h 3]
    linarith
  · have := Real.log_le_sub_one_of_pos h1
    linarith

theorem log_one_add_exp (x : ℝ) : Real.log (1 + Real.exp x) = x + Real.log (1 + Real.exp (-x)) := by
  have h1 : 1 + Real.exp x = Real.exp x * (1 + Real.exp (-x)) := by
    rw [mul_add, mul_one, ← Real.exp_add]
    simp [add_comm]
  rw [h1, Real.log_mul (Real.exp_pos x).ne' (by positivity), Real.log_exp]

/-- **C88.** The error of each branch. -/
theorem C88_branches (x : ℝ) :
    (x ≤ -37 → 0 ≤ log1pexp x - Real.log (1 + Real.exp x) ∧ log1pexp x - Real.log (1 + Real.exp x) ≤ Real.exp (2 * x)) ∧
    (-37 < x → x ≤ 18 → log1pexp x = Real.log (1 + Real.exp x)) ∧
    (18 < x → x ≤ 333 / 10 → 0 ≤ log1pexp x - Real.log (1 + Real.exp x) ∧ log1pexp x - Real.log (1 + Real.exp x) ≤ Real.exp (-(2 * x))) ∧
    (333 / 10 < x → 0 ≤ Real.log (1 + Real.exp x) - log1pexp x ∧ Real.log (1 + Real.exp x) - log1pexp x ≤ Real.exp (-x)) := by
  refine ⟨?_, ?_, ?_, ?_⟩
  · intro h
    unfold log1pexp
    rw [if_pos h]
    obtain ⟨h1, h2⟩ := log_one_add_bounds (Real.exp x) (Real.exp_pos x)
    have h3 : Real.exp (2 * x) = Real.exp x ^ 2 := by rw [two_mul, Real.exp_add]; ring
    constructor
    · linarith
    · rw [h3]; linarith
  · intro h1 h2
    unfold log1pexp
    rw [if_neg (by linarith), if_pos h2]
  · intro h1 h2
    unfold log1pexp
    rw [if_neg (by linarith), if_neg (by linarith), if_neg (by linarith), log_one_add_exp]
    obtain ⟨h3, h4⟩ := log_one_add_bounds (Real.exp (-x)) (Real.exp_pos _)
    have h5 : Real.exp (-(2 * x)) = Real.exp (-x) ^ 2 := by
      rw [sq, ← Real.exp_add]
      congr 1
      ring
    constructor
    · linarith
    · rw [h5]; linarith
  · intro h
    unfold log1pexp
    rw [if_neg (by linarith), if_neg (by linarith), if_pos h, log_one_add_exp]
    obtain ⟨h3, h4⟩ := log_one_add_bounds (Real.exp (-x)) (Real.exp_pos _)
    constructor
    · have : 0 ≤ Real.log (1 + Real.exp (-x)) := Real.log_nonneg (by have := Real.exp_pos (-x); linarith)
      linarith
    · linarith

theorem exp_nat (n : Nat) : Real.exp n = Real.exp 1 ^ n := by
  rw [← Real.exp_nat_mul, mul_one]

theorem exp_37 : (2 : ℝ) ^ 53 + 1 ≤ Real.exp 37 := by
  have h := exp_nat 37
  have h1 := Real.exp_one_gt_d9
  have h2 : (2.7182818283 : ℝ) ^ 37 ≤ Real.exp 1 ^ 37 := pow_le_pow_left₀ (by norm_num) h1.le 37
  have h3 : (2 : ℝ) ^ 53 + 1 ≤ (2.7182818283 : ℝ) ^ 37 := by norm_num
  push_cast at h
  linarith

theorem exp_333 : (2 : ℝ) ^ 53 ≤ 333 / 10 * Real.exp (333 / 10) := by
  have h := exp_nat 33
  have h1 := Real.exp_one_gt_d9
  have h2 : (2.7182818283 : ℝ) ^ 33 ≤ Real.exp 1 ^ 33 := pow_le_pow_left₀ (by norm_num) h1.le 33
  have h3 : Real.exp (333 / 10) = Real.exp 33 * Real.exp (3 / 10) := by
    rw [← Real.exp_add]
    norm_num
  have h4 : (1.3 : ℝ) ≤ Real.exp (3 / 10) := by
    have := Real.add_one_le_exp (3 / 10 : ℝ)
    norm_num at this ⊢
    linarith
  have h5 : (2 : ℝ) ^ 53 ≤ 333 / 10 * ((2.7182818283 : ℝ) ^ 33 * 1.3) := by norm_num
  push_cast at h
  rw [h3, h]
  have h6 : (2.7182818283 : ℝ) ^ 33 * 1.3 ≤ Real.exp 1 ^ 33 * Real.exp (3 / 10) :=
    mul_le_mul h2 h4 (by norm_num) (by positivity)
  linarith

/-- **C88.** For every real argument `log1pexp(x)` agrees with `log(1 + exp(x))` up to a relative error of `2⁻⁵³`, half a unit in the last place
of a `double` (rounding of the library functions aside). -/
theorem C88_relative_error (x : ℝ) : |log1pexp x - Real.log (1 + Real.exp x)| ≤ 2⁻¹ ^ 53 * Real.log (1 + Real.exp x) := by
  have hpos : 0 < Real.log (1 + Real.exp x) := Real.log_pos (by have := Real.exp_pos x; linarith)
  obtain ⟨b1, b2, b3, b4⟩ := C88_branches x
  rcases le_or_gt x (-37) with h | h
  · obtain ⟨h1, h2⟩ := b1 h
    rw [abs_of_nonneg h1]
    obtain ⟨h3, _⟩ := log_one_add_bounds (Real.exp x) (Real.exp_pos x)
    have h5 : Real.exp (2 * x) = Real.exp x ^ 2 := by rw [two_mul, Real.exp_add]; ring
    have h6 : Real.exp x ≤ (2 ^ 53 + 1)⁻¹ := by
      have : Real.exp x ≤ Real.exp (-37) := Real.exp_le_exp.mpr h
      rw [Real.exp_neg] at this
      exact this.trans (inv_anti₀ (by positivity) exp_37)
    have h7 : Real.exp x * (2 ^ 53 + 1) ≤ 1 := by
      rw [le_inv_comm₀ (Real.exp_pos x) (by positivity)] at h6
      have := mul_le_mul_of_nonneg_left h6 (Real.exp_pos x).le
      rwa [mul_inv_cancel₀ (Real.exp_pos x).ne'] at this
    have hy := Real.exp_pos x
    have h8 : Real.exp x ^ 2 ≤ 2⁻¹ ^ 53 * (Real.exp x - Real.exp x ^ 2) := by
      have e : (2⁻¹ : ℝ) ^ 53 = (2 ^ 53)⁻¹ := by rw [inv_pow]
      rw [e, ← div_eq_inv_mul, le_div_iff₀ (by positivity)]
      nlinarith
    have h9 : 2⁻¹ ^ 53 * (Real.exp x - Real.exp x ^ 2) ≤ 2⁻¹ ^ 53 * Real.log (1 + Real.exp x) :=
      mul_le_mul_of_nonneg_left h3 (by positivity)
    linarith
  · rcases le_or_gt x 18 with h' | h'
    · rw [b2 h h', sub_self, abs_zero]
      positivity
    · have hL : x ≤ Real.log (1 + Real.exp x) := by
        rw [log_one_add_exp]
        have : 0 ≤ Real.log (1 + Real.exp (-x)) := Real.log_nonneg (by have := Real.exp_pos (-x); linarith)
        linarith
      rcases le_or_gt x (333 / 10) with h'' | h''
      · obtain ⟨h1, h2⟩ := b3 h' h''
        rw [abs_of_nonneg h1]
        have h3 : Real.exp (-(2 * x)) ≤ Real.exp (-36) := Real.exp_le_exp.mpr (by linarith)
        have h4 : Real.exp (-36) ≤ 2⁻¹ ^ 53 * 18 := by
          have e : Real.exp (-36) = Real.exp 1 * (Real.exp 37)⁻¹ := by
            rw [← Real.exp_neg, ← Real.exp_add]
            norm_num
          have h5 : (Real.exp 37)⁻¹ ≤ (2 ^ 53)⁻¹ := inv_anti₀ (by positivity) (by have := exp_37; linarith)
          have h6 := Real.exp_one_lt_d9
          rw [e, inv_pow, mul_comm]
          exact mul_le_mul h5 (by linarith) (Real.exp_pos 1).le (by positivity)
        have h5 : (2⁻¹ : ℝ) ^ 53 * 18 ≤ 2⁻¹ ^ 53 * Real.log (1 + Real.exp x) := mul_le_mul_of_nonneg_left (by linarith) (by positivity)
        linarith
      · obtain ⟨h1, h2⟩ := b4 h''
        rw [abs_sub_comm, abs_of_nonneg h1]
        have h3 : Real.exp (-x) ≤ Real.exp (-(333 / 10)) := Real.exp_le_exp.mpr (by linarith)
        have h4 : Real.exp (-(333 / 10)) ≤ 2⁻¹ ^ 53 * (333 / 10) := by
          rw [Real.exp_neg, inv_pow, ← div_eq_inv_mul, inv_eq_one_div, div_le_div_iff₀ (Real.exp_pos _) (by positivity)]
          have := exp_333
          linarith
        have h5 : (2⁻¹ : ℝ) ^ 53 * (333 / 10) ≤ 2⁻¹ ^ 53 * Real.log (1 + Real.exp x) :=
          mul_le_mul_of_nonneg_left (by linarith) (by positivity)
        linarith

/-! ## Orderings of vectors -/

section

variable {T : Type} [LinearOrder T]

/-- **C89.** The comparison is the lexicographic order. -/
theorem C89_lexicographic (a b : List T) : lexCompare a b = true ↔ List.Lex (· < ·) a b := by
  induction a generalizing b with
  | nil =>
      cases b with
      | nil => simp [lexCompare]
      | cons y ys => simp [lexCompare]
  | cons x xs ih =>
      cases b with
      | nil => simp [lexCompare]
      | cons y ys =>
          unfold lexCompare
          rcases lt_trichotomy x y with h | h | h
          · simp [h, List.Lex.rel h]
          · subst h
            rw [if_neg (lt_irrefl x), if_neg (lt_irrefl x), ih]
            exact ⟨List.Lex.cons, fun h => by
              cases h with
              | cons h => exact h
              | rel h => exact absurd h (lt_irrefl x)⟩
          · rw [if_neg h.not_gt, if_pos h]
            simp only [Bool.false_eq_true, false_iff]
            intro hl
            cases hl with
            | cons _ => exact absurd h (lt_irrefl x)
            | rel h' => exact absurd h' h.not_gt

/-- **C89.** As `std::map` requires: a strict order in which two vectors are equivalent only if they are equal. -/
theorem C89_strict_total :
    (∀ a : List T, lexCompare a a = false) ∧
    (∀ a b c : List T, lexCompare a b = true → lexCompare b c = true → lexCompare a c = true) ∧
    (∀ a b : List T, lexCompare a b = false → lexCompare b a = false → a = b) := by
  refine ⟨?_, ?_, ?_⟩
  · intro a
    induction a with
    | nil => rfl
    | cons x xs ih => simp [lexCompare, ih]
  · intro a
    induction a with
    | nil =>
        intro b c h1 h2
        cases c with
        | nil => cases b <;> simp [lexCompare] at h2
        | cons z zs => rfl
    | cons x xs ih =>
        intro b c h1 h2
        cases b with
        | nil => simp [lexCompare] at h1
        | cons y ys =>
            cases c with
            | nil => simp [lexCompare] at h2
            | cons z zs =>
                unfold lexCompare at h1 h2 ⊢
                split_ifs at h1 h2 ⊢ with h3 h4 h5 h6 h7 h8 h9 h10 <;> first
                  | rfl
                  | (exfalso; order)
                  | exact ih ys zs h1 h2
  · intro a
    induction a with
    | nil =>
        intro b h1 _
        cases b with
        | nil => rfl
        | cons y ys => simp [lexCompare] at h1
    | cons x xs ih =>
        intro b h1 h2
        cases b with
        | nil => simp [lexCompare] at h2
        | cons y ys =>
            unfold lexCompare at h1 h2
            split_ifs at h1 h2 with h3 h4
            rw [le_antisymm (not_lt.mp h4) (not_lt.mp h3), ih ys h1 h2]

end

example : lexCompare [1, 2, 3] [1, 3, 0] = true ∧ lexCompare [1, 3, 0] [1, 2, 3] = false := by decide

end Fdapde.Utils
