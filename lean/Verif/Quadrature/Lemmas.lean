import Verif.Quadrature.Spec
import Mathlib.Tactic.LinearCombination
import Mathlib.Tactic.FieldSimp
/- Moments of the reference simplices. -/
namespace Fdapde.Quadrature
open intervalIntegral
open scoped Nat

theorem beta_step (s : ℝ) (b n : ℕ) : ((b : ℝ) + 1) * (∫ y in (0 : ℝ)..s, y ^ b * (s - y) ^ (n + 1)) =
    ((n : ℝ) + 1) * ∫ y in (0 : ℝ)..s, y ^ (b + 1) * (s - y) ^ n := by
  have h : ∫ y in (0 : ℝ)..s, (((b : ℝ) + 1) * (y ^ b * (s - y) ^ (n + 1)) - ((n : ℝ) + 1) * (y ^ (b + 1) * (s - y) ^ n)) =
      s ^ (b + 1) * (s - s) ^ (n + 1) - 0 ^ (b + 1) * (s - 0) ^ (n + 1) := by
    refine integral_eq_sub_of_hasDerivAt (f := fun y => y ^ (b + 1) * (s - y) ^ (n + 1)) (fun y _ => ?_)
      (Continuous.intervalIntegrable (by fun_prop) _ _)
    have h1 : HasDerivAt (fun y : ℝ => y ^ (b + 1)) ((b + 1 : ℕ) * y ^ b) y := by simpa using hasDerivAt_pow (b + 1) y
    have h2 : HasDerivAt (fun y : ℝ => (s - y) ^ (n + 1)) ((n + 1 : ℕ) * (s - y) ^ n * (-1)) y := by
      have := ((hasDerivAt_id y).const_sub s).fun_pow (n + 1)
      simpa using this
    have := h1.fun_mul h2
    refine this.congr_deriv ?_
    push_cast
    ring
  rw [integral_sub (Continuous.intervalIntegrable (by fun_prop) _ _) (Continuous.intervalIntegrable (by fun_prop) _ _),
    integral_const_mul, integral_const_mul] at h
  simp only [sub_self, ne_eq, Nat.succ_ne_zero, not_false_eq_true, zero_pow, mul_zero, zero_mul] at h
  linarith

theorem beta (s : ℝ) : ∀ (n b : ℕ), ∫ y in (0 : ℝ)..s, y ^ b * (s - y) ^ n = (b ! * n ! : ℝ) / (b + n + 1)! * s ^ (b + n + 1)
  | 0, b => by
    simp only [pow_zero, mul_one, integral_pow, Nat.factorial_zero, Nat.cast_one, add_zero]
    have : (b ! : ℝ) ≠ 0 := by exact_mod_cast Nat.factorial_ne_zero b
    rw [Nat.factorial_succ]
    push_cast
    field_simp
    simp
  | n + 1, b => by
    have h := beta_step s b n
    rw [beta s n (b + 1)] at h
    have hb : (b : ℝ) + 1 ≠ 0 := by positivity
    apply mul_left_cancel₀ hb
    rw [h, Nat.factorial_succ b, Nat.factorial_succ n, show b + 1 + n + 1 = b + (n + 1) + 1 by ring]
    push_cast
    ring

theorem eval1 (p : MvPolynomial (Fin 1) ℝ) (x : ℝ) : MvPolynomial.eval ![x] p = ∑ m ∈ p.support, p.coeff m * x ^ m 0 := by
  rw [MvPolynomial.eval_eq']
  simp

theorem eval2 (p : MvPolynomial (Fin 2) ℝ) (x y : ℝ) :
    MvPolynomial.eval ![x, y] p = ∑ m ∈ p.support, p.coeff m * (x ^ m 0 * y ^ m 1) := by
  rw [MvPolynomial.eval_eq']
  simp [Fin.prod_univ_two]

theorem eval3 (p : MvPolynomial (Fin 3) ℝ) (x y z : ℝ) :
    MvPolynomial.eval ![x, y, z] p = ∑ m ∈ p.support, p.coeff m * (x ^ m 0 * y ^ m 1 * z ^ m 2) := by
  rw [MvPolynomial.eval_eq']
  simp [Fin.prod_univ_three]

theorem refInt1_poly (p : MvPolynomial (Fin 1) ℝ) :
    refInt1 (fun x => MvPolynomial.eval x p) = ∑ m ∈ p.support, p.coeff m * (1 / (m 0 + 1)) := by
  unfold refInt1
  simp only [eval1]
  rw [integral_finset_sum (fun m _ => Continuous.intervalIntegrable (by fun_prop) _ _)]
  refine Finset.sum_congr rfl (fun m _ => ?_)
  rw [integral_const_mul, integral_pow]
  simp

theorem legInt_poly (p : MvPolynomial (Fin 1) ℝ) : ∫ x in (-1 : ℝ)..1, MvPolynomial.eval ![x] p =
    ∑ m ∈ p.support, p.coeff m * ((1 - (-1) ^ (m 0 + 1)) / (m 0 + 1)) := by
  simp only [eval1]
  rw [integral_finset_sum (fun m _ => Continuous.intervalIntegrable (by fun_prop) _ _)]
  refine Finset.sum_congr rfl (fun m _ => ?_)
  rw [integral_const_mul, integral_pow]
  simp

theorem refInt2_poly (p : MvPolynomial (Fin 2) ℝ) : refInt2 (fun x => MvPolynomial.eval x p) =
    ∑ m ∈ p.support, p.coeff m * (((m 0)! * (m 1)! : ℝ) / (m 0 + m 1 + 2)!) := by
  unfold refInt2
  simp only [eval2]
  have inner : ∀ x : ℝ, (∫ y in (0 : ℝ)..(1 - x), ∑ m ∈ p.support, p.coeff m * (x ^ m 0 * y ^ m 1)) =
      ∑ m ∈ p.support, p.coeff m / (m 1 + 1) * (x ^ m 0 * (1 - x) ^ (m 1 + 1)) := by
    intro x
    rw [integral_finset_sum (fun m _ => Continuous.intervalIntegrable (by fun_prop) _ _)]
    refine Finset.sum_congr rfl (fun m _ => ?_)
    rw [integral_const_mul, integral_const_mul, integral_pow]
    simp
    ring
  simp only [inner]
  rw [integral_finset_sum (fun m _ => Continuous.intervalIntegrable (by fun_prop) _ _)]
  refine Finset.sum_congr rfl (fun m _ => ?_)
  rw [integral_const_mul, beta, one_pow, Nat.factorial_succ (m 1)]
  push_cast
  have : (m 1 : ℝ) + 1 ≠ 0 := by positivity
  rw [show m 0 + (m 1 + 1) + 1 = m 0 + m 1 + 2 by ring]
  field_simp

theorem refInt3_poly (p : MvPolynomial (Fin 3) ℝ) : refInt3 (fun x => MvPolynomial.eval x p) =
    ∑ m ∈ p.support, p.coeff m * (((m 0)! * (m 1)! * (m 2)! : ℝ) / (m 0 + m 1 + m 2 + 3)!) := by
  unfold refInt3
  simp only [eval3]
  have inner : ∀ x y : ℝ, (∫ z in (0 : ℝ)..(1 - x - y), ∑ m ∈ p.support, p.coeff m * (x ^ m 0 * y ^ m 1 * z ^ m 2)) =
      ∑ m ∈ p.support, p.coeff m / (m 2 + 1) * x ^ m 0 * (y ^ m 1 * (1 - x - y) ^ (m 2 + 1)) := by
    intro x y
    rw [integral_finset_sum (fun m _ => Continuous.intervalIntegrable (by fun_prop) _ _)]
    refine Finset.sum_congr rfl (fun m _ => ?_)
    rw [integral_const_mul, integral_const_mul, integral_pow]
    simp
    ring
  have middle : ∀ x : ℝ, (∫ y in (0 : ℝ)..(1 - x), ∑ m ∈ p.support, p.coeff m / (m 2 + 1) * x ^ m 0 *
      (y ^ m 1 * (1 - x - y) ^ (m 2 + 1))) =
      ∑ m ∈ p.support, p.coeff m / (m 2 + 1) * (((m 1)! * (m 2 + 1)! : ℝ) / (m 1 + (m 2 + 1) + 1)!) *
        (x ^ m 0 * (1 - x) ^ (m 1 + (m 2 + 1) + 1)) := by
    intro x
    rw [integral_finset_sum (fun m _ => Continuous.intervalIntegrable (by fun_prop) _ _)]
    refine Finset.sum_congr rfl (fun m _ => ?_)
    rw [integral_const_mul, beta]
    ring
  simp only [inner, middle]
  rw [integral_finset_sum (fun m _ => Continuous.intervalIntegrable (by fun_prop) _ _)]
  refine Finset.sum_congr rfl (fun m _ => ?_)
  rw [integral_const_mul, beta, one_pow, Nat.factorial_succ (m 2)]
  push_cast
  have h1 : (m 2 : ℝ) + 1 ≠ 0 := by positivity
  have h2 : (((m 1 + (m 2 + 1) + 1)! : ℕ) : ℝ) ≠ 0 := by exact_mod_cast Nat.factorial_ne_zero _
  rw [show m 0 + (m 1 + (m 2 + 1) + 1) + 1 = m 0 + m 1 + m 2 + 3 by ring]
  field_simp

end Fdapde.Quadrature
