import Verif.Float.Ieee

/-!
# Line searches in floating point

`callbacks/backtracking_line_search.h`, `callbacks/wolfe_line_search.h` and `gradient_descent.h` of `fdaPDE/optimization/`, with the
numbers of type `double`: every operation is rounded, small results underflow, large ones become infinite and operations without a
result give NaN (Float/Ieee.lean).  The compiler does not contract a product and a sum into one operation.  Objective and gradient
are arbitrary functions on doubles.  A line search takes the number of turns it may use; `none` means that it has not finished.
-/

namespace Fdapde.Optim.Flt
open Fdapde.Fp Classical

variable {n : Nat}

/-- `VectorType` with its entries of type `double`. -/
abbrev FVec (n : Nat) := Fin n → Dbl

/-- `x + a * u`, entry by entry (`backtracking_line_search.h` 41, `wolfe_line_search.h` 48, `gradient_descent.h` 78). -/
noncomputable def axpy (x : FVec n) (a : Dbl) (u : FVec n) : FVec n := fun i => (x i).add (a.mul (u i))

/-- The order in which Eigen adds up the products of a scalar product: it depends on the instruction set, and it is left open. -/
inductive Order (n : Nat) where
  | term (i : Fin n)
  | plus (l r : Order n)

/-- The entries that are added up. -/
def Order.Has : Order n → Fin n → Prop
  | .term i, j => j = i
  | .plus l r, j => l.Has j ∨ r.Has j

/-- `g.dot(u)` (`backtracking_line_search.h` 39, `wolfe_line_search.h` 46, 52). -/
noncomputable def dot (g u : FVec n) : Order n → Dbl
  | .term i => (g i).mul (u i)
  | .plus l r => (dot g u l).add (dot g u r)

/-- The test of the two line searches that the objective has not decreased enough (`backtracking_line_search.h` 41-42,
`wolfe_line_search.h` 48-49). -/
noncomputable def tooHigh (obj : FVec n → Dbl) (c : Dbl) (x u : FVec n) (m alpha : Dbl) : Prop :=
  (((obj x).sub (obj (axpy x alpha u))).add ((c.mul alpha).mul m)).Lt (.fin 0)

/-- The loop of `BacktrackingLineSearch::pre_update_step` (`backtracking_line_search.h` 41-44) from the step `alpha`. -/
noncomputable def btLoop (obj : FVec n → Dbl) (beta gamma : Dbl) (x u : FVec n) (m : Dbl) : Nat → Dbl → Option Dbl
  | 0, alpha => if tooHigh obj gamma x u m alpha then none else some alpha
  | k + 1, alpha => if tooHigh obj gamma x u m alpha then btLoop obj beta gamma x u m k (alpha.mul beta) else some alpha

/-- `BacktrackingLineSearch::pre_update_step` (`backtracking_line_search.h` 37-48): the step written in `opt.h`. -/
noncomputable def btSearch (obj : FVec n → Dbl) (ord : Order n) (alpha beta gamma : Dbl) (x g u : FVec n) (fuel : Nat) : Option Dbl :=
  if (dot g u ord).Lt (.fin 0) then btLoop obj beta gamma x u (dot g u ord) fuel alpha else some alpha

/-- The end of the bracket after the step `alpha` was found too short (`wolfe_line_search.h` 53-54). -/
noncomputable def longer (alpha hi : Dbl) : Dbl := if hi.isInf then (Dbl.fin 2).mul alpha else (alpha.add hi).mul (.fin (1 / 2))

/-- The loop of `WolfeLineSearch::pre_update_step` (`wolfe_line_search.h` 47-58). -/
noncomputable def wolfeLoop (obj : FVec n → Dbl) (grad : FVec n → FVec n) (ord : Order n) (c1 c2 : Dbl) (x u : FVec n) (m : Dbl) :
    Nat → Dbl → Dbl → Dbl → Option Dbl
  | 0, _, _, _ => none
  | k + 1, alpha, lo, hi =>
    if tooHigh obj c1 x u m alpha then wolfeLoop obj grad ord c1 c2 x u m k ((lo.add alpha).mul (.fin (1 / 2))) lo alpha
    else if (dot (grad (axpy x alpha u)) u ord).Lt (c2.mul m) then wolfeLoop obj grad ord c1 c2 x u m k (longer alpha hi) alpha hi
    else some alpha

/-- `WolfeLineSearch::pre_update_step` (`wolfe_line_search.h` 38-61): the step written in `opt.h`. -/
noncomputable def wolfeSearch (obj : FVec n → Dbl) (grad : FVec n → FVec n) (ord : Order n) (alpha c1 c2 : Dbl) (x g u : FVec n) (fuel : Nat) :
    Option Dbl :=
  wolfeLoop obj grad ord c1 c2 x u (dot g u ord) fuel alpha (.fin 0) (.inf false)

/-- The loop of `GradientDescent::optimize` with a `BacktrackingLineSearch` and no other callback (`gradient_descent.h` 74-87); the
first argument is `max_iter_ - n_iter_`, `nrm` is the Euclidean norm as computed. -/
noncomputable def gdLoop (obj : FVec n → Dbl) (grad : FVec n → FVec n) (nrm : FVec n → Dbl) (ord : Order n) (alpha beta gamma tol : Dbl) (fuel : Nat) :
    Nat → FVec n → FVec n → Dbl → Option (FVec n)
  | 0, x, _, _ => some x
  | k + 1, x, g, error =>
    if tol.Lt error then
      match btSearch obj ord alpha beta gamma x g (fun i => (g i).neg) fuel with
      | none => none
      | some h => gdLoop obj grad nrm ord alpha beta gamma tol fuel k (axpy x h fun i => (g i).neg) (grad (axpy x h fun i => (g i).neg))
          (nrm (grad (axpy x h fun i => (g i).neg)))
    else some x

/-- `GradientDescent::optimize` (`gradient_descent.h` 62-90): the returned point; `huge` is `std::numeric_limits<double>::max()`. -/
noncomputable def gdOptimize (obj : FVec n → Dbl) (grad : FVec n → FVec n) (nrm : FVec n → Dbl) (ord : Order n) (alpha beta gamma tol : Dbl) (fuel : Nat)
    (huge : Dbl) (maxIter : Nat) (x0 : FVec n) : Option (FVec n) :=
  gdLoop obj grad nrm ord alpha beta gamma tol fuel maxIter x0 (grad x0) huge

end Fdapde.Optim.Flt
