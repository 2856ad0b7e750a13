import Verif.Splines.PropsSmooth
import Verif.Quadrature.LemmasTaylor
import Mathlib.Algebra.Polynomial.Derivative
import Mathlib.Analysis.Calculus.Deriv.Polynomial
import Mathlib.Algebra.Polynomial.Eval.Degree
import Mathlib.Data.Nat.Factorial.Basic
import Mathlib.Data.Nat.Choose.Sum
/-
For C158: the functionals dual to the basis (de Boor and Fix), Taylor polynomials, and distances between padded knots.
-/
namespace Fdapde.Splines
open Polynomial Set
set_option linter.unusedSectionVars false

/-! ### The pairing of polynomials -/

/-- Alternating sum of products of derivatives of total order `R`. -/
noncomputable def pairing (R : Nat) (D q : ℝ[X]) : ℝ[X] :=
  ∑ k ∈ Finset.range (R + 1), C ((-1) ^ k) * (derivative^[R - k] D * derivative^[k] q)

theorem pairing_derivative {R : Nat} {D q : ℝ[X]} (hD : D.natDegree ≤ R) (hq : q.natDegree ≤ R) : derivative (pairing R D q) = 0 := by
  have e : derivative (pairing R D q) = ∑ k ∈ Finset.range (R + 1),
      (C ((-1) ^ k) * (derivative^[R + 1 - k] D * derivative^[k] q) - C ((-1) ^ (k + 1)) * (derivative^[R + 1 - (k + 1)] D * derivative^[k + 1] q)) := by
    unfold pairing
    rw [derivative_sum]
    refine Finset.sum_congr rfl fun k hk => ?_
    have hk := Finset.mem_range.1 hk
    rw [derivative_C_mul, derivative_mul, ← Function.iterate_succ_apply' derivative, ← Function.iterate_succ_apply' derivative,
      show (R - k).succ = R + 1 - k by omega, show R + 1 - (k + 1) = R - k by omega, pow_succ]
    simp only [mul_neg, mul_one, C_neg, Nat.succ_eq_add_one]
    ring
  have z1 := iterate_derivative_eq_zero (p := D) (show D.natDegree < R + 1 by omega)
  have z2 := iterate_derivative_eq_zero (p := q) (show q.natDegree < R + 1 by omega)
  rw [e, Finset.sum_range_sub' (fun k => C ((-1) ^ k) * (derivative^[R + 1 - k] D * derivative^[k] q)), z2, Nat.sub_zero, z1]
  simp

theorem pairing_const {R : Nat} {D q : ℝ[X]} (hD : D.natDegree ≤ R) (hq : q.natDegree ≤ R) (x y : ℝ) : (pairing R D q).eval x = (pairing R D q).eval y := by
  have h := derivative_eq_zero.1 (pairing_derivative hD hq)
  rw [eq_C_of_natDegree_eq_zero h]
  simp

theorem pairing_sum (R : Nat) (m : Nat) (v : Nat → ℝ) (D : Nat → ℝ[X]) (q : ℝ[X]) :
    pairing R (∑ i ∈ Finset.range m, C (v i) * D i) q = ∑ i ∈ Finset.range m, C (v i) * pairing R (D i) q := by
  unfold pairing
  simp only [iterate_derivative_sum, iterate_derivative_C_mul, Finset.sum_mul, Finset.mul_sum]
  rw [Finset.sum_comm]
  refine Finset.sum_congr rfl fun i _ => Finset.sum_congr rfl fun k _ => ?_
  ring

theorem pairing_sub (R : Nat) (D q r : ℝ[X]) : pairing R D (q - r) = pairing R D q - pairing R D r := by
  unfold pairing
  rw [← Finset.sum_sub_distrib]
  refine Finset.sum_congr rfl fun k _ => ?_
  rw [iterate_derivative_sub]
  ring

theorem pairing_power (R : Nat) (q : ℝ[X]) (x : ℝ) : (pairing R ((X - C x) ^ R) q).eval x = R.factorial * q.eval x := by
  unfold pairing
  rw [eval_finsetSum, Finset.sum_eq_single 0]
  · simp [iterate_derivative_X_sub_pow_self]
  · intro k hk h0
    have hk := Finset.mem_range.1 hk
    rw [iterate_derivative_X_sub_pow]
    simp [show R - (R - k) = k by omega, h0]
  · intro h
    exact absurd (Finset.mem_range.2 (by omega)) h

theorem dual_natDegree (t : Nat → ℝ) (R i : Nat) : (dual t R i).natDegree ≤ R := by
  unfold dual
  rw [natDegree_prod_of_monic _ _ fun j _ => monic_X_sub_C _]
  simp

/-- The coefficient of a polynomial: the functional dual to the `i`-th function, which does not depend on the point. -/
noncomputable def coefOf (t : Nat → ℝ) (R i : Nat) (τ : ℝ) (q : ℝ[X]) : ℝ := (pairing R (dual t R i) q).eval τ / R.factorial

theorem coef_sum {t z : Nat → ℝ} (ht : Monotone t) {x : ℝ} {μ : Nat} (h : InSpan t z x μ) (m : Nat) (hm : μ < m) (R : Nat) (hR : R ≤ μ) {q : ℝ[X]}
    (hq : q.natDegree ≤ R) (τ : Nat → ℝ) : ∑ i ∈ Finset.range m, coefOf t R i (τ i) q * cdb t z x R i = q.eval x := by
  have h1 := congrArg (fun p => (pairing R p q).eval x) (marsden ht h m hm R hR)
  simp only [pairing_sum, pairing_power, eval_finsetSum, eval_mul, eval_C] at h1
  have hf : ((R.factorial : ℕ) : ℝ) ≠ 0 := Nat.cast_ne_zero.2 (Nat.factorial_ne_zero _)
  have : q.eval x = (∑ i ∈ Finset.range m, cdb t z x R i * (pairing R (dual t R i) q).eval x) / R.factorial := by
    rw [h1]; field_simp
  rw [this, Finset.sum_div]
  refine Finset.sum_congr rfl fun i _ => ?_
  unfold coefOf
  rw [pairing_const (dual_natDegree t R i) hq (τ i) x]
  ring

/-! ### Size of the functionals -/

theorem iterate_derivative_mul_factor (P : ℝ[X]) (s : ℝ) : ∀ m, derivative^[m + 1] (P * (X - C s)) = derivative^[m + 1] P * (X - C s) + C ((m : ℝ) + 1) * derivative^[m] P
  | 0 => by simp
  | m + 1 => by
    rw [Function.iterate_succ_apply' derivative (m + 1), iterate_derivative_mul_factor P s m, derivative_add, derivative_mul, derivative_C_mul,
      ← Function.iterate_succ_apply' derivative (m + 1), ← Function.iterate_succ_apply' derivative m, derivative_X_sub_C]
    push_cast
    simp only [C_add, C_1, Nat.succ_eq_add_one]
    ring

theorem prod_derivative_le (s : Nat → ℝ) {τ H : ℝ} (hH : 0 ≤ H) : ∀ (R : Nat), (∀ j < R, |τ - s j| ≤ H) → ∀ m,
    |(derivative^[m] (∏ j ∈ Finset.range R, (X - C (s j)))).eval τ| ≤ R.descFactorial m * H ^ (R - m)
  | 0, _, 0 => by simp
  | 0, _, m + 1 => by simp
  | R + 1, h, 0 => by
    have ih := prod_derivative_le s hH R (fun j hj => h j (by omega)) 0
    simp only [Function.iterate_zero, id, Nat.descFactorial_zero, Nat.cast_one, one_mul, Nat.sub_zero] at ih ⊢
    rw [Finset.prod_range_succ, eval_mul, abs_mul, pow_succ]
    refine mul_le_mul ih ?_ (abs_nonneg _) (by positivity)
    simpa using h R (by omega)
  | R + 1, h, m + 1 => by
    have ih := prod_derivative_le s hH R (fun j hj => h j (by omega))
    rw [Finset.prod_range_succ, iterate_derivative_mul_factor, eval_add, eval_mul, eval_mul, eval_C]
    have h1 := ih (m + 1)
    have h2 := ih m
    have h3 := h R (by omega)
    refine (abs_add_le _ _).trans ?_
    rw [abs_mul, abs_mul, abs_of_nonneg (show (0 : ℝ) ≤ m + 1 by positivity), eval_sub, eval_X, eval_C, show R + 1 - (m + 1) = R - m by omega]
    rcases Nat.lt_or_ge m R with hm | hm
    · have e : H ^ (R - m) = H ^ (R - (m + 1)) * H := by rw [← pow_succ]; congr 1; omega
      have d : ((R + 1).descFactorial (m + 1) : ℝ) = R.descFactorial (m + 1) + ((m : ℝ) + 1) * R.descFactorial m := by
        rw [Nat.succ_descFactorial_succ, Nat.descFactorial_succ]
        have : ((R - m : ℕ) : ℝ) = R - m := Nat.cast_sub hm.le
        push_cast
        rw [this]
        ring
      calc _ ≤ (R.descFactorial (m + 1) * H ^ (R - (m + 1))) * H + ((m : ℝ) + 1) * (R.descFactorial m * H ^ (R - m)) :=
            add_le_add (mul_le_mul h1 h3 (abs_nonneg _) (by positivity)) (mul_le_mul_of_nonneg_left h2 (by positivity))
        _ = _ := by rw [d, e]; ring
    · have z : R.descFactorial (m + 1) = 0 := Nat.descFactorial_eq_zero_iff_lt.2 (by omega)
      rw [z, Nat.cast_zero, zero_mul] at h1
      have h1' : |(derivative^[m + 1] (∏ j ∈ Finset.range R, (X - C (s j)))).eval τ| = 0 := le_antisymm h1 (abs_nonneg _)
      rw [h1', zero_mul, zero_add]
      have d : ((m : ℝ) + 1) * R.descFactorial m ≤ ((R + 1).descFactorial (m + 1) : ℕ) := by
        rw [Nat.succ_descFactorial_succ]
        push_cast
        rcases Nat.eq_or_lt_of_le hm with rfl | hm
        · exact le_rfl
        · rw [Nat.descFactorial_eq_zero_iff_lt.2 hm]; simp
      calc _ ≤ ((m : ℝ) + 1) * (R.descFactorial m * H ^ (R - m)) := mul_le_mul_of_nonneg_left h2 (by positivity)
        _ = ((m : ℝ) + 1) * R.descFactorial m * H ^ (R - m) := by ring
        _ ≤ _ := mul_le_mul_of_nonneg_right d (by positivity)

theorem coef_le {t : Nat → ℝ} {R i : Nat} {τ H : ℝ} (hH : 0 ≤ H) (ht : ∀ j < R, |τ - t (i + 1 + j)| ≤ H) (q : ℝ[X]) :
    |coefOf t R i τ q| ≤ ∑ k ∈ Finset.range (R + 1), H ^ k / k.factorial * |(derivative^[k] q).eval τ| := by
  have hf : (0 : ℝ) < R.factorial := Nat.cast_pos.2 (Nat.factorial_pos _)
  unfold coefOf pairing
  rw [abs_div, abs_of_pos hf, div_le_iff₀ hf, eval_finsetSum, Finset.sum_mul]
  refine (Finset.abs_sum_le_sum_abs _ _).trans (Finset.sum_le_sum fun k hk => ?_)
  have hk := Finset.mem_range.1 hk
  have h1 := prod_derivative_le (fun j => t (i + 1 + j)) hH R ht (R - k)
  rw [show R - (R - k) = k by omega] at h1
  have h2 := Nat.factorial_mul_descFactorial (show R - k ≤ R by omega)
  rw [show R - (R - k) = k by omega] at h2
  have h3 : ((k.factorial : ℕ) : ℝ) * R.descFactorial (R - k) = R.factorial := by exact_mod_cast h2
  have hk0 : ((k.factorial : ℕ) : ℝ) ≠ 0 := Nat.cast_ne_zero.2 (Nat.factorial_ne_zero _)
  rw [eval_mul, eval_C, eval_mul, abs_mul, abs_mul, abs_pow, abs_neg, abs_one, one_pow, one_mul]
  calc _ ≤ (R.descFactorial (R - k) * H ^ k) * |(derivative^[k] q).eval τ| := mul_le_mul_of_nonneg_right h1 (abs_nonneg _)
    _ = _ := by rw [← h3]; field_simp

/-! ### Taylor polynomials -/

/-- Taylor polynomial of degree less than `n` at `x` of a function with derivatives `F`. -/
noncomputable def taylorPoly (F : Nat → ℝ → ℝ) (n : Nat) (x : ℝ) : ℝ[X] := ∑ k ∈ Finset.range n, C (F k x / k.factorial) * (X - C x) ^ k

theorem taylorPoly_derivative (F : Nat → ℝ → ℝ) (n : Nat) (x : ℝ) : derivative (taylorPoly F n x) = taylorPoly (fun k => F (k + 1)) (n - 1) x := by
  cases n with
  | zero => simp [taylorPoly]
  | succ n =>
    unfold taylorPoly
    rw [derivative_sum, Finset.sum_range_succ']
    simp only [pow_zero, mul_one, derivative_C, add_zero, Nat.add_sub_cancel]
    refine Finset.sum_congr rfl fun k _ => ?_
    have h1 : ((k.factorial : ℕ) : ℝ) ≠ 0 := Nat.cast_ne_zero.2 (Nat.factorial_ne_zero _)
    have h2 : ((k : ℝ) + 1) ≠ 0 := by positivity
    rw [derivative_C_mul, derivative_X_sub_C_pow, ← mul_assoc, ← C_mul, Nat.add_sub_cancel]
    congr 2
    rw [Nat.factorial_succ]
    push_cast
    field_simp

theorem taylorPoly_iterate (n : Nat) (x : ℝ) : ∀ (k : Nat) (F : Nat → ℝ → ℝ), derivative^[k] (taylorPoly F n x) = taylorPoly (fun j => F (k + j)) (n - k) x
  | 0, F => by simp
  | k + 1, F => by
    rw [Function.iterate_succ_apply', taylorPoly_iterate n x k F, taylorPoly_derivative]
    simp only [← add_assoc, Nat.sub_sub]
    congr 1
    funext j
    rw [add_right_comm]

theorem taylorPoly_eval (F : Nat → ℝ → ℝ) (n : Nat) (x y : ℝ) : (taylorPoly F n x).eval y = ∑ k ∈ Finset.range n, F k x * (y - x) ^ k / k.factorial := by
  unfold taylorPoly
  rw [eval_finsetSum]
  refine Finset.sum_congr rfl fun k _ => ?_
  simp only [eval_mul, eval_C, eval_pow, eval_sub, eval_X]
  ring

theorem taylorPoly_center (F : Nat → ℝ → ℝ) (n : Nat) (x : ℝ) : (taylorPoly F (n + 1) x).eval x = F 0 x := by
  rw [taylorPoly_eval, Finset.sum_range_succ']
  simp

theorem taylorPoly_natDegree (F : Nat → ℝ → ℝ) (n : Nat) (x : ℝ) : (taylorPoly F (n + 1) x).natDegree ≤ n := by
  refine natDegree_sum_le_of_forall_le _ _ fun k hk => ?_
  refine (natDegree_C_mul_le _ _).trans ?_
  refine natDegree_pow_le.trans ?_
  rw [natDegree_X_sub_C, mul_one]
  exact Nat.lt_succ_iff.1 (Finset.mem_range.1 hk)

/-- Taylor's formula in both directions. -/
theorem taylor_two_sided {F : Nat → ℝ → ℝ} {a b M : ℝ} (d : Nat) (hF : ∀ k ≤ d, ∀ y ∈ Icc a b, HasDerivAt (F k) (F (k + 1) y) y)
    (hM : ∀ y ∈ Icc a b, |F (d + 1) y| ≤ M) {x y : ℝ} (hx : x ∈ Icc a b) (hy : y ∈ Icc a b) :
    |F 0 y - (taylorPoly F (d + 1) x).eval y| ≤ M / (d + 1).factorial * |y - x| ^ (d + 1) := by
  rw [taylorPoly_eval]
  rcases le_total x y with h | h
  · have key := Quadrature.taylor1 d (G := fun k s => F k (x + s)) (h := y - x) (B := M)
      (fun k hk s hs => (hF k hk (x + s) ⟨by linarith [hx.1, hs.1], by linarith [hy.2, hs.2]⟩).comp_const_add x s)
      (fun s hs => hM _ ⟨by linarith [hx.1, hs.1], by linarith [hy.2, hs.2]⟩) (y - x) ⟨by linarith, le_rfl⟩
    rw [abs_of_nonneg (show 0 ≤ y - x by linarith)]
    simpa using key
  · have hd : ∀ k ≤ d, ∀ s ∈ Icc 0 (x - y), HasDerivAt (fun s => (-1) ^ k * F k (x - s)) ((-1) ^ (k + 1) * F (k + 1) (x - s)) s := by
      intro k hk s hs
      have := ((hF k hk (x - s) ⟨by linarith [hy.1, hs.2], by linarith [hx.2, hs.1]⟩).comp_const_sub x s).const_mul ((-1) ^ k)
      refine this.congr_deriv ?_
      rw [pow_succ]; ring
    have key := Quadrature.taylor1 d (G := fun k s => (-1) ^ k * F k (x - s)) (h := x - y) (B := M) hd
      (fun s hs => by
        rw [abs_mul, abs_pow, abs_neg, abs_one, one_pow, one_mul]
        exact hM _ ⟨by linarith [hy.1, hs.2], by linarith [hx.2, hs.1]⟩) (x - y) ⟨by linarith, le_rfl⟩
    rw [abs_of_nonpos (show y - x ≤ 0 by linarith), neg_sub]
    simp only [pow_zero, one_mul, sub_sub_cancel, sub_zero] at key
    refine le_trans (le_of_eq ?_) key
    congr 2
    refine Finset.sum_congr rfl fun k _ => ?_
    rw [show y - x = -1 * (x - y) by ring, mul_pow]
    ring

/-- The difference of two Taylor polynomials, at one of the points, and its derivatives. -/
theorem taylor_difference {F : Nat → ℝ → ℝ} {a b M : ℝ} (R : Nat) (hF : ∀ k ≤ R, ∀ y ∈ Icc a b, HasDerivAt (F k) (F (k + 1) y) y)
    (hM : ∀ y ∈ Icc a b, |F (R + 1) y| ≤ M) {x τ : ℝ} (hx : x ∈ Icc a b) (hτ : τ ∈ Icc a b) (k : Nat) (hk : k ≤ R) :
    |(derivative^[k] (taylorPoly F (R + 1) τ - taylorPoly F (R + 1) x)).eval τ| ≤ M / (R + 1 - k).factorial * |τ - x| ^ (R + 1 - k) := by
  rw [iterate_derivative_sub, taylorPoly_iterate, taylorPoly_iterate, eval_sub, show R + 1 - k = (R - k) + 1 by omega, taylorPoly_center]
  refine taylor_two_sided (R - k) (F := fun j => F (k + j)) (fun j hj y hy => ?_) (fun y hy => ?_) hx hτ
  · have := hF (k + j) (by omega) y hy
    rwa [add_assoc] at this
  · have := hM y hy
    rwa [show k + (R - k + 1) = R + 1 by omega]

theorem factorial_sum_le (n : Nat) : ∑ k ∈ Finset.range n, 1 / ((k.factorial : ℝ) * (n - k).factorial) ≤ 2 ^ n / n.factorial := by
  have h := Nat.sum_range_choose n
  have h' : ∑ k ∈ Finset.range (n + 1), (n.choose k : ℝ) = 2 ^ n := by exact_mod_cast h
  rw [← h', Finset.sum_div]
  have e : ∀ k ∈ Finset.range (n + 1), (n.choose k : ℝ) / n.factorial = 1 / ((k.factorial : ℝ) * (n - k).factorial) := by
    intro k hk
    have hk := Nat.lt_succ_iff.1 (Finset.mem_range.1 hk)
    have := Nat.choose_mul_factorial_mul_factorial hk
    have h3 : (n.choose k : ℝ) * k.factorial * (n - k).factorial = n.factorial := by exact_mod_cast this
    have h1 : ((k.factorial : ℕ) : ℝ) ≠ 0 := Nat.cast_ne_zero.2 (Nat.factorial_ne_zero _)
    have h2 : (((n - k).factorial : ℕ) : ℝ) ≠ 0 := Nat.cast_ne_zero.2 (Nat.factorial_ne_zero _)
    have h4 : ((n.factorial : ℕ) : ℝ) ≠ 0 := Nat.cast_ne_zero.2 (Nat.factorial_ne_zero _)
    rw [div_eq_div_iff h4 (mul_ne_zero h1 h2), ← h3]
    ring
  rw [Finset.sum_congr rfl e, Finset.sum_range_succ]
  have : (0 : ℝ) ≤ 1 / ((n.factorial : ℝ) * (n - n).factorial) := by positivity
  linarith

/-! ### Distances between padded knots -/

theorem padFn_mem {R : Nat} {knots : List ℝ} (hk : knots.Pairwise (· < ·)) (h2 : 2 ≤ knots.length) (i : Nat) :
    padFn R knots i ∈ Icc (knots.getD 0 0) (knots.getD (knots.length - 1) 0) := by
  rw [padFn_clamp]
  exact ⟨getD_le hk (Nat.zero_le _) (by omega), getD_le hk (by omega) (by omega)⟩

theorem padFn_gap {R : Nat} {knots : List ℝ} (h2 : 2 ≤ knots.length) {h : ℝ} (h0 : 0 ≤ h)
    (hh : ∀ j, j + 1 < knots.length → knots.getD (j + 1) 0 - knots.getD j 0 ≤ h) (i : Nat) : ∀ k, padFn R knots (i + k) - padFn R knots i ≤ k * h
  | 0 => by simp
  | k + 1 => by
    have ih := padFn_gap (R := R) h2 h0 hh i k
    have : padFn R knots (i + (k + 1)) - padFn R knots (i + k) ≤ h := by
      rw [padFn_clamp, padFn_clamp]
      by_cases hc : min (i + (k + 1) - R) (knots.length - 1) = min (i + k - R) (knots.length - 1)
      · rw [hc]; simpa using h0
      · rw [show min (i + (k + 1) - R) (knots.length - 1) = min (i + k - R) (knots.length - 1) + 1 by omega]
        exact hh _ (by omega)
    push_cast
    linarith

/-- Padded knots whose positions differ by at most `n`. -/
theorem padFn_dist {R : Nat} {knots : List ℝ} (hk : knots.Pairwise (· < ·)) (h2 : 2 ≤ knots.length) {h : ℝ} (h0 : 0 ≤ h)
    (hh : ∀ j, j + 1 < knots.length → knots.getD (j + 1) 0 - knots.getD j 0 ≤ h) {i j n : Nat} (h1 : i ≤ j + n) (h3 : j ≤ i + n) :
    |padFn R knots i - padFn R knots j| ≤ n * h := by
  have hm := padFn_mono R hk (by omega)
  have key : ∀ {i j : Nat}, i ≤ j → j ≤ i + n → |padFn R knots i - padFn R knots j| ≤ n * h := by
    intro i j hij hn
    have h4 := padFn_gap (R := R) h2 h0 hh i (j - i)
    rw [show i + (j - i) = j by omega] at h4
    rw [abs_sub_comm, abs_of_nonneg (by linarith [hm hij])]
    refine h4.trans (mul_le_mul_of_nonneg_right ?_ h0)
    exact_mod_cast (by omega : j - i ≤ n)
  rcases Nat.le_total i j with h | h
  · exact key h h3
  · rw [abs_sub_comm]; exact key h h1

/-- A point where the `i`-th function does not vanish lies between the knots of its support. -/
theorem support_dist {R : Nat} {knots : List ℝ} (hk : knots.Pairwise (· < ·)) (h2 : 2 ≤ knots.length) {h : ℝ} (h0 : 0 ≤ h)
    (hh : ∀ j, j + 1 < knots.length → knots.getD (j + 1) 0 - knots.getD j 0 ≤ h) {z : Nat → ℝ} {x : ℝ} {μ : Nat} (sp : InSpan (padFn R knots) z x μ) {i : Nat}
    (hi : cdb (padFn R knots) z x R i ≠ 0) {l n : Nat} (h1 : i + R + 1 ≤ l + n) (h3 : l ≤ i + n) : |padFn R knots l - x| ≤ n * h := by
  have hs : i ≤ μ ∧ μ ≤ i + R := by
    by_contra hc
    exact hi (cdb_support sp R i (by omega))
  have hm := padFn_mono R hk (by omega)
  have a1 := padFn_dist (R := R) hk h2 h0 hh (i := l) (j := i) (n := n) (by omega) (by omega)
  have a2 := padFn_dist (R := R) hk h2 h0 hh (i := l) (j := i + R + 1) (n := n) (by omega) (by omega)
  have b1 := hm hs.1
  have b2 := hm (show μ + 1 ≤ i + R + 1 by omega)
  have := sp.lo
  have := sp.hi
  rw [abs_le] at a1 a2 ⊢
  constructor <;> linarith [a1.1, a1.2, a2.1, a2.2]

/-! ### Derivatives -/

/-- Derivatives of the expansion of a polynomial. -/
theorem coef_sum_derivative {t : Nat → ℝ} (ht : Monotone t) {μ : Nat} (hlt : t μ < t (μ + 1)) (m : Nat) (hm : μ < m) (R : Nat) (hR : R ≤ μ) {q : ℝ[X]}
    (hq : q.natDegree ≤ R) (τ : Nat → ℝ) : ∀ (k : Nat) (x : ℝ),
    ∑ i ∈ Finset.range m, coefOf t R i (τ i) q * cdbD t (fun j => if j = μ then 1 else 0) x k R i = (derivative^[k] q).eval x
  | 0, x => by
    choose p _ hp using cdb_poly t (fun j => if j = μ then (1 : ℝ) else 0) R
    have e : ∑ i ∈ Finset.range m, C (coefOf t R i (τ i) q) * p i = q := by
      refine poly_eq_of_Ioo hlt fun y h1 h2 => ?_
      have := coef_sum ht (z := fun j => if j = μ then 1 else 0) ⟨h1.le, h2.le, hlt, if_pos rfl, fun j hj => if_neg hj⟩ m hm R hR hq τ
      rw [← this, eval_finsetSum]
      exact Finset.sum_congr rfl fun i _ => by rw [eval_mul, eval_C, hp]
    have := congrArg (fun p => p.eval x) e
    simp only [eval_finsetSum, eval_mul, eval_C, ← hp] at this
    exact this
  | k + 1, x => by
    have h1 : HasDerivAt (fun y => ∑ i ∈ Finset.range m, coefOf t R i (τ i) q * cdbD t (fun j => if j = μ then 1 else 0) y k R i)
        (∑ i ∈ Finset.range m, coefOf t R i (τ i) q * cdbD t (fun j => if j = μ then 1 else 0) x (k + 1) R i) x :=
      HasDerivAt.fun_sum fun i _ => (cdbD_hasDerivAt ht _ x k R i).const_mul _
    rw [funext (coef_sum_derivative ht hlt m hm R hR hq τ k)] at h1
    rw [Function.iterate_succ_apply']
    exact h1.unique (Polynomial.hasDerivAt _ _)

/-- The sum of the absolute values of the derivatives of the functions, on a span. -/
theorem cdbD_abs_sum {t z : Nat → ℝ} (ht : Monotone t) {x : ℝ} {μ : Nat} (sp : InSpan t z x μ) (m : Nat) (hm : μ < m) : ∀ (k R : Nat), R ≤ μ →
    ∑ i ∈ Finset.range m, |cdbD t z x k R i| ≤ (2 * R / (t (μ + 1) - t μ)) ^ k
  | 0, R, hR => by
    rw [pow_zero, ← cdb_sum ht sp m hm R hR]
    exact Finset.sum_le_sum fun i _ => by rw [cdbD, abs_of_nonneg (cdb_nonneg ht sp R i)]
  | k + 1, 0, _ => by simp [cdbD]
  | k + 1, R + 1, hR => by
    have ih := cdbD_abs_sum ht sp m hm k R (by omega)
    have hδ : 0 < t (μ + 1) - t μ := by linarith [sp.lt]
    set δ := t (μ + 1) - t μ with hd
    have zero : ∀ i, (μ < i ∨ i + R < μ) → cdbD t z x k R i = 0 := fun i hi => cdbD_zero t z x k R i fun j h1 h2 => sp.z0 j (by omega)
    have one : ∀ i, |((R + 1 : ℕ) : ℝ) * ca t (R + 1) i * cdbD t z x k R i| ≤ ((R : ℝ) + 1) / δ * |cdbD t z x k R i| := by
      intro i
      rw [abs_mul, abs_mul, abs_of_nonneg (ca_nonneg ht _ _), abs_of_nonneg (Nat.cast_nonneg _)]
      by_cases hi : μ < i ∨ i + R < μ
      · rw [zero i hi]; simp
      · push Not at hi
        refine mul_le_mul_of_nonneg_right ?_ (abs_nonneg _)
        have a1 := ht hi.1
        have a2 := ht (show μ + 1 ≤ i + (R + 1) by omega)
        have hle : δ ≤ t (i + (R + 1)) - t i := by rw [hd]; linarith
        unfold ca
        rw [if_pos (by linarith), div_eq_mul_one_div ((R : ℝ) + 1) δ]
        push_cast
        exact mul_le_mul_of_nonneg_left (one_div_le_one_div_of_le hδ hle) (by positivity)
    have e1 := Finset.sum_range_succ (fun i => |cdbD t z x k R i|) m
    have e2 := Finset.sum_range_succ' (fun i => |cdbD t z x k R i|) m
    rw [zero m (Or.inl hm), abs_zero, add_zero] at e1
    have sh : ∑ i ∈ Finset.range m, |cdbD t z x k R (i + 1)| ≤ ∑ i ∈ Finset.range m, |cdbD t z x k R i| := by
      linarith [abs_nonneg (cdbD t z x k R 0)]
    calc _ ≤ ∑ i ∈ Finset.range m, (((R : ℝ) + 1) / δ * |cdbD t z x k R i| + ((R : ℝ) + 1) / δ * |cdbD t z x k R (i + 1)|) := by
          refine Finset.sum_le_sum fun i _ => ?_
          rw [cdbD]
          exact (abs_sub _ _).trans (add_le_add (one i) (one (i + 1)))
      _ ≤ ((R : ℝ) + 1) / δ * (2 * ∑ i ∈ Finset.range m, |cdbD t z x k R i|) := by
          rw [Finset.sum_add_distrib, ← Finset.mul_sum, ← Finset.mul_sum, ← mul_add]
          exact mul_le_mul_of_nonneg_left (by linarith) (by positivity)
      _ ≤ ((R : ℝ) + 1) / δ * (2 * (2 * R / δ) ^ k) := by gcongr
      _ ≤ ((R : ℝ) + 1) / δ * (2 * (2 * ((R : ℝ) + 1) / δ) ^ k) := by
          have : 2 * (R : ℝ) / δ ≤ 2 * ((R : ℝ) + 1) / δ := by gcongr; linarith
          have h0 : 0 ≤ 2 * (R : ℝ) / δ := by positivity
          gcongr
      _ = _ := by push_cast; rw [pow_succ]; ring

end Fdapde.Splines
