import Verif.Float.Error
import Verif.Fields.Derivatives
/-
Numerical derivatives of scalar fields in floating point: fdaPDE/fields/field_derivatives.h with every operation rounded.  The function `F` is what the program
computes for the field.
-/
namespace Fdapde.Fields
open Fdapde.Fp
noncomputable section
variable {n : Nat} (r : Rounding)

/-- The assignment `x[i] = x[i] + d`. -/
def bumpR (x : Fin n → ℝ) (i : Fin n) (d : ℝ) : Fin n → ℝ := fun k => if k = i then r.rnd (x k + d) else x k

/-- field_derivatives.h:44-51 : `FieldPartialDerivative<N, 1, OP>::operator()`. -/
def partial1R (F : (Fin n → ℝ) → ℝ) (i : Fin n) (h : ℝ) (x : Fin n → ℝ) : ℝ :=
  let x := bumpR r x i h
  let result := F x
  let x := bumpR r x i (-r.rnd (2 * h))
  let result := r.rnd (result - F x)
  r.rnd (result / r.rnd (2 * h))

/-- field_derivatives.h:64-91 : `FieldPartialDerivative<N, 2, OP>::operator()`. -/
def partial2R (F : (Fin n → ℝ) → ℝ) (i j : Fin n) (h : ℝ) (x : Fin n → ℝ) : ℝ :=
  if i ≠ j then
    let x := bumpR r x i h
    let x := bumpR r x j h
    let result := F x
    let x := bumpR r x j (-r.rnd (2 * h))
    let result := r.rnd (result - F x)
    let x := bumpR r x i (-r.rnd (2 * h))
    let result := r.rnd (result + F x)
    let x := bumpR r x j (r.rnd (2 * h))
    let result := r.rnd (result - F x)
    r.rnd (result / r.rnd (r.rnd (4 * h) * h))
  else
    let x := bumpR r x i (r.rnd (2 * h))
    let result := -F x
    let x := bumpR r x i (-h)
    let result := r.rnd (result + r.rnd (16 * F x))
    let x := bumpR r x i (-h)
    let result := r.rnd (result - r.rnd (30 * F x))
    let x := bumpR r x i (-h)
    let result := r.rnd (result + r.rnd (16 * F x))
    let x := bumpR r x i (-h)
    let result := r.rnd (result - F x)
    r.rnd (result / r.rnd (r.rnd (12 * h) * h))

/-- field_derivatives.h:96-107 : `ScalarExprGradient` at a point. -/
def gradientR (F : (Fin n → ℝ) → ℝ) (h : ℝ) (x : Fin n → ℝ) : Fin n → ℝ := fun i => partial1R r F i h x

/-- field_derivatives.h:110-122 : `ScalarExprHessian` at a point. -/
def hessianR (F : (Fin n → ℝ) → ℝ) (h : ℝ) (x : Fin n → ℝ) : Fin n → Fin n → ℝ := fun i j => partial2R r F i j h x

end
end Fdapde.Fields
