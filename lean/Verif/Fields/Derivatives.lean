import Mathlib.Algebra.Field.Basic
import Mathlib.Data.Fintype.Basic

/-!
# Numerical derivatives of scalar fields

Model of `fdaPDE/fields/field_derivatives.h`: central finite differences for the gradient and the Hessian of a scalar expression.
Numbers are elements of a field; points are indexed by `Fin n`.
-/

namespace Fdapde.Fields

variable {K : Type} [Field K] {n : Nat}

/-- The assignment `x[i] = x[i] + d`. -/
def bump (x : Fin n → K) (i : Fin n) (d : K) : Fin n → K := fun k => if k = i then x k + d else x k

/-- `FieldPartialDerivative<N, 1, OP>::operator()` (`field_derivatives.h` 44-51); `x` is a copy of the argument. -/
def partial1 (f : (Fin n → K) → K) (i : Fin n) (h : K) (x : Fin n → K) : K :=
  let x := bump x i h
  let result := f x
  let x := bump x i (-(2 * h))
  let result := result - f x
  result / (2 * h)

/-- `FieldPartialDerivative<N, 2, OP>::operator()` (`field_derivatives.h` 68-91). -/
def partial2 (f : (Fin n → K) → K) (i j : Fin n) (h : K) (x : Fin n → K) : K :=
  if i ≠ j then
    let x := bump x i h
    let x := bump x j h
    let result := f x
    let x := bump x j (-(2 * h))
    let result := result - f x
    let x := bump x i (-(2 * h))
    let result := result + f x
    let x := bump x j (2 * h)
    let result := result - f x
    result / (4 * h * h)
  else
    let x := bump x i (2 * h)
    let result := -f x
    let x := bump x i (-h)
    let result := result + 16 * f x
    let x := bump x i (-h)
    let result := result - 30 * f x
    let x := bump x i (-h)
    let result := result + 16 * f x
    let x := bump x i (-h)
    let result := result - f x
    result / (12 * h * h)

/-- `ScalarExprGradient` (`field_derivatives.h` 96-107) evaluated at a point: the vector of the partial derivatives. -/
def gradient (f : (Fin n → K) → K) (h : K) (x : Fin n → K) : Fin n → K := fun i => partial1 f i h x

/-- `ScalarExprHessian` (`field_derivatives.h` 110-122) evaluated at a point: the matrix of the second derivatives. -/
def hessian (f : (Fin n → K) → K) (h : K) (x : Fin n → K) : Fin n → Fin n → K := fun i j => partial2 f i j h x

end Fdapde.Fields
