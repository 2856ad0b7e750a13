import Verif.Fields.Derivatives
import Mathlib.Algebra.MvPolynomial.PDeriv
import Mathlib.Algebra.MvPolynomial.Degrees
import Mathlib.Algebra.BigOperators.Field
import Mathlib.Algebra.CharP.Defs
import Mathlib.Tactic.FieldSimp
import Mathlib.Tactic.Ring
import Mathlib.Tactic.IntervalCases
import Mathlib.Algebra.Field.Rat

/-!
# Numerical derivatives are exact on polynomials of low degree (C70)

The specification is Mathlib's: polynomials in several variables, their evaluation and their formal partial derivatives.
-/

namespace Fdapde.Fields

open MvPolynomial

variable {K : Type} [Field K] {n : Nat}

theorem bump_bump (x : Fin n → K) (i : Fin n) (a b : K) : bump (bump x i a) i b = bump x i (a + b) := by
  funext k
  unfold bump
  split_ifs <;> ring

theorem bump_comm (x : Fin n → K) (i j : Fin n) (a b : K) : bump (bump x i a) j b = bump (bump x j b) i a := by
  funext k
  unfold bump
  split_ifs <;> ring

theorem bump_zero (x : Fin n → K) (i : Fin n) : bump x i 0 = x := by
  funext k
  unfold bump
  split_ifs <;> simp

theorem bump_self (x : Fin n → K) (i : Fin n) (a : K) : bump x i a i = x i + a := by simp [bump]

theorem bump_other (x : Fin n → K) {i j : Fin n} (h : j ≠ i) (a : K) : bump x i a j = x j := by simp [bump, h]

/-- The factor of a monomial which does not contain the variable `i`. -/
noncomputable def rest (s : Fin n →₀ ℕ) (i : Fin n) (x : Fin n → K) : K := (s.erase i).prod fun j e => x j ^ e

theorem rest_bump (s : Fin n →₀ ℕ) (i : Fin n) (x : Fin n → K) (a : K) : rest s i (bump x i a) = rest s i x := by
  unfold rest
  refine Finsupp.prod_congr fun j hj => ?_
  rw [bump_other x (by rintro rfl; simp at hj)]

theorem mono_split (s : Fin n →₀ ℕ) (i : Fin n) (x : Fin n → K) : (s.prod fun j e => x j ^ e) = x i ^ s i * rest s i x := by
  unfold rest
  exact (Finsupp.mul_prod_erase' s i (fun j e => x j ^ e) (by simp)).symm

theorem eval_sum (p : MvPolynomial (Fin n) K) (x : Fin n → K) :
    eval x p = ∑ s ∈ p.support, p.coeff s * (s.prod fun j e => x j ^ e) := by
  conv_lhs => rw [p.as_sum]
  rw [map_sum]
  exact Finset.sum_congr rfl fun s _ => by rw [eval_monomial]

theorem rest_sub (s : Fin n →₀ ℕ) (i : Fin n) (k : ℕ) : (s - Finsupp.single i k).erase i = s.erase i := by
  ext j
  by_cases h : j = i
  · subst h; simp
  · simp [Finsupp.erase_ne h, Finsupp.single_apply, Ne.symm h]

theorem eval_pderiv (p : MvPolynomial (Fin n) K) (i : Fin n) (x : Fin n → K) :
    eval x (pderiv i p) = ∑ s ∈ p.support, p.coeff s * (s i * x i ^ (s i - 1) * rest s i x) := by
  conv_lhs => rw [p.as_sum]
  rw [map_sum, map_sum]
  refine Finset.sum_congr rfl fun s _ => ?_
  rw [pderiv_monomial, eval_monomial, mono_split _ i]
  unfold rest
  rw [rest_sub]
  simp
  ring

theorem eval_pderiv2 (p : MvPolynomial (Fin n) K) (i : Fin n) (x : Fin n → K) :
    eval x (pderiv i (pderiv i p)) = ∑ s ∈ p.support, p.coeff s * (s i * ((s i - 1 : ℕ) : K) * x i ^ (s i - 2) * rest s i x) := by
  conv_lhs => rw [p.as_sum]
  rw [map_sum, map_sum, map_sum]
  refine Finset.sum_congr rfl fun s _ => ?_
  rw [pderiv_monomial, pderiv_monomial, eval_monomial, mono_split _ i]
  unfold rest
  rw [rest_sub, rest_sub]
  simp [Nat.sub_sub]
  ring

/-- The factor of a monomial which contains neither `i` nor `j`. -/
noncomputable def rest2 (s : Fin n →₀ ℕ) (i j : Fin n) (x : Fin n → K) : K := rest (s.erase i) j x

theorem rest_split (s : Fin n →₀ ℕ) {i j : Fin n} (h : j ≠ i) (x : Fin n → K) : rest s i x = x j ^ s j * rest2 s i j x := by
  unfold rest2
  rw [rest, mono_split _ j, Finsupp.erase_ne h]

theorem rest2_bump (s : Fin n →₀ ℕ) (i j : Fin n) (x : Fin n → K) (a : K) : rest2 s i j (bump x j a) = rest2 s i j x := rest_bump _ _ _ _

theorem rest2_bump' (s : Fin n →₀ ℕ) {i j : Fin n} (x : Fin n → K) (a : K) : rest2 s i j (bump x i a) = rest2 s i j x := by
  unfold rest2 rest
  refine Finsupp.prod_congr fun k hk => ?_
  rw [bump_other x (by
    rintro rfl
    simp at hk)]

theorem eval_pderiv_mixed (p : MvPolynomial (Fin n) K) {i j : Fin n} (h : j ≠ i) (x : Fin n → K) :
    eval x (pderiv i (pderiv j p)) =
      ∑ s ∈ p.support, p.coeff s * (s i * x i ^ (s i - 1) * (s j * x j ^ (s j - 1)) * rest2 s i j x) := by
  conv_lhs => rw [p.as_sum]
  rw [map_sum, map_sum, map_sum]
  refine Finset.sum_congr rfl fun s _ => ?_
  rw [pderiv_monomial, pderiv_monomial, eval_monomial, mono_split _ i, rest_split _ h]
  have e1 : ((s - Finsupp.single j 1 - Finsupp.single i 1) : Fin n →₀ ℕ) i = s i - 1 := by
    simp [h]
  have e2 : ((s - Finsupp.single j 1 - Finsupp.single i 1) : Fin n →₀ ℕ) j = s j - 1 := by
    simp [Ne.symm h]
  have e3 : ((s - Finsupp.single j 1) : Fin n →₀ ℕ) i = s i := by
    simp [h]
  rw [e1, e2, e3]
  unfold rest2 rest
  rw [rest_sub, show ((s - Finsupp.single j 1 : Fin n →₀ ℕ).erase i) = s.erase i - Finsupp.single j 1 by
    ext k
    by_cases hk : k = i
    · subst hk; simp
    · simp [Finsupp.erase_ne hk]]
  rw [rest_sub]
  ring

variable [CharZero K]

/-- **C70**, gradient: exact on polynomials of degree at most 2 in the variable, for every point and every step `h ≠ 0`. -/
theorem C70_gradient (p : MvPolynomial (Fin n) K) (i : Fin n) (hp : p.degreeOf i ≤ 2) (h : K) (hh : h ≠ 0) (x : Fin n → K) :
    gradient (fun y => eval y p) h x i = eval x (pderiv i p) := by
  simp only [gradient, partial1, bump_bump]
  rw [eval_sum, eval_sum, eval_pderiv, ← Finset.sum_sub_distrib, Finset.sum_div]
  refine Finset.sum_congr rfl fun s hs => ?_
  have hsi : s i ≤ 2 := degreeOf_le_iff.1 hp s hs
  rw [mono_split _ i, mono_split _ i, rest_bump, rest_bump, bump_self, bump_self]
  rw [div_eq_iff (by simp [hh])]
  generalize s i = e at hsi
  interval_cases e <;> simp only [Nat.reduceSub, Nat.cast_zero, Nat.cast_one, Nat.cast_ofNat] <;> ring

/-- **C70**, diagonal second derivatives: exact on polynomials of degree at most 5 in the variable. -/
theorem C70_diagonal (p : MvPolynomial (Fin n) K) (i : Fin n) (hp : p.degreeOf i ≤ 5) (h : K) (hh : h ≠ 0) (x : Fin n → K) :
    hessian (fun y => eval y p) h x i i = eval x (pderiv i (pderiv i p)) := by
  simp only [hessian, partial2, ne_eq, not_true_eq_false, if_false, bump_bump]
  rw [eval_sum, eval_sum, eval_sum, eval_sum, eval_sum, eval_pderiv2, Finset.mul_sum, Finset.mul_sum, Finset.mul_sum,
    ← Finset.sum_neg_distrib, ← Finset.sum_add_distrib, ← Finset.sum_sub_distrib, ← Finset.sum_add_distrib,
    ← Finset.sum_sub_distrib, Finset.sum_div]
  refine Finset.sum_congr rfl fun s hs => ?_
  have hsi : s i ≤ 5 := degreeOf_le_iff.1 hp s hs
  simp only [mono_split _ i, rest_bump, bump_self]
  rw [div_eq_iff (by simp [hh])]
  generalize s i = e at hsi
  interval_cases e <;> simp only [Nat.reduceSub, Nat.cast_zero, Nat.cast_one, Nat.cast_ofNat] <;> ring

/-- **C70**, mixed second derivatives: exact on polynomials of degree at most 2 in each of the two variables. -/
theorem C70_mixed (p : MvPolynomial (Fin n) K) (i j : Fin n) (hij : i ≠ j) (hi : p.degreeOf i ≤ 2) (hj : p.degreeOf j ≤ 2) (h : K)
    (hh : h ≠ 0) (x : Fin n → K) : hessian (fun y => eval y p) h x i j = eval x (pderiv i (pderiv j p)) := by
  have e1 : bump (bump (bump (bump x i h) j h) j (-(2 * h))) i (-(2 * h)) = bump (bump x i (-h)) j (-h) := by
    rw [bump_bump, bump_comm, bump_bump]
    congr 1
    · congr 1; ring
    · ring
  have e2 : bump (bump (bump x i h) j h) j (-(2 * h)) = bump (bump x i h) j (-h) := by rw [bump_bump]; congr 1; ring
  have e3 : bump (bump (bump x i (-h)) j (-h)) j (2 * h) = bump (bump x i (-h)) j h := by rw [bump_bump]; congr 1; ring
  simp only [hessian, partial2, if_pos hij, e2]
  have e4 : bump (bump (bump x i h) j (-h)) i (-(2 * h)) = bump (bump x i (-h)) j (-h) := by rw [← e2, e1]
  simp only [e4, e3]
  rw [eval_sum, eval_sum, eval_sum, eval_sum, eval_pderiv_mixed p (Ne.symm hij), ← Finset.sum_sub_distrib, ← Finset.sum_add_distrib,
    ← Finset.sum_sub_distrib, Finset.sum_div]
  refine Finset.sum_congr rfl fun s hs => ?_
  have hsi : s i ≤ 2 := degreeOf_le_iff.1 hi s hs
  have hsj : s j ≤ 2 := degreeOf_le_iff.1 hj s hs
  simp only [mono_split _ i, rest_split _ (Ne.symm hij), rest2_bump, rest2_bump', bump_self, bump_other _ hij]
  simp only [bump_other x (Ne.symm hij)]
  rw [div_eq_iff (by simp [hh])]
  generalize s i = a at hsi
  generalize s j = b at hsj
  interval_cases a <;> interval_cases b <;> simp only [Nat.reduceSub, Nat.cast_zero, Nat.cast_one, Nat.cast_ofNat] <;> ring

omit [CharZero K] in
/-- **C70**, symmetry: the numerical Hessian of every function is symmetric. -/
theorem C70_symmetric (f : (Fin n → K) → K) (h : K) (x : Fin n → K) (i j : Fin n) : hessian f h x i j = hessian f h x j i := by
  by_cases hij : i = j
  · rw [hij]
  · simp only [hessian, partial2, if_pos (show i ≠ j from hij), if_pos (show j ≠ i from Ne.symm hij)]
    have c1 : ∀ a b : Fin n, bump (bump (bump (bump x a h) b h) b (-(2 * h))) a (-(2 * h)) = bump (bump x a (-h)) b (-h) := by
      intro a b
      rw [bump_bump, bump_comm, bump_bump]
      congr 1
      · congr 1; ring
      · ring
    have c2 : ∀ a b : Fin n, bump (bump (bump x a h) b h) b (-(2 * h)) = bump (bump x a h) b (-h) := by
      intro a b; rw [bump_bump]; congr 1; ring
    have c3 : ∀ a b : Fin n, bump (bump (bump x a (-h)) b (-h)) b (2 * h) = bump (bump x a (-h)) b h := by
      intro a b; rw [bump_bump]; congr 1; ring
    rw [c1, c1, c2, c2, c3, c3, bump_comm x j i h h, bump_comm x j i h (-h), bump_comm x j i (-h) (-h), bump_comm x j i (-h) h]
    ring

/-- The polynomial `x² y + 3 y` has degree 2 in `x` and 1 in `y`: its gradient and mixed derivative are exact. -/
example : gradient (fun x : Fin 2 → ℚ => x 0 ^ 2 * x 1 + 3 * x 1) (1 / 10) (fun k => if k = 0 then 2 else 5) 0 = 20 ∧
    hessian (fun x : Fin 2 → ℚ => x 0 ^ 2 * x 1 + 3 * x 1) (1 / 10) (fun k => if k = 0 then 2 else 5) 0 1 = 4 := by
  refine ⟨by decide +kernel, by decide +kernel⟩

/-- Beyond the degree it is not exact: the numerical derivative of `x³` at 0 is `h²`. -/
example : gradient (fun x : Fin 1 → ℚ => x 0 ^ 3) (1 / 10) 0 0 = 1 / 100 := by decide +kernel

end Fdapde.Fields
