import Verif.Splines.SolverSpec
/-
Penalized least squares with the matrices of the library: the program of a user, and the criterion it is meant to minimize.
-/
namespace Fdapde.Splines
open Finset
variable {K : Type} [Field K] [LinearOrder K]

/-- The matrix of the normal equations: `Psi' * Psi + lambda * P`, with `m` rows of `Psi`. -/
def normalMatrix (m : Nat) (Psi P : Nat → Nat → K) (lam : K) (p q : Nat) : K :=
  ∑ j ∈ range m, Psi j p * Psi j q + lam * P p q

/-- The right-hand side of the normal equations: `Psi' * y`. -/
def normalRhs (m : Nat) (Psi : Nat → Nat → K) (y : Nat → K) (p : Nat) : K := ∑ j ∈ range m, Psi j p * y j

/-- A program of a user: the spline solver of the penalty, with the quadrature rule (`qn`, `qw`), is constructed and initialised, the
basis is evaluated at the locations, and the normal equations are solved.  It returns the knots of the basis, the penalty matrix and the
coefficients of the fitted spline, if the factorization succeeds. -/
def smooth (tol : K) (R : Nat) (knots qn qw : List K) (lu : PDE.Solver K) (locs : List K) (lam : K) (y : Nat → K) :
    Res (Option (List K × (Nat → Nat → K) × List K)) := do
  let s ← SpSolver.create R knots
  let s' ← s.init tol R qn qw (.neg .bilap)
  let l ← evalTriplets tol R s'.basis locs
  match lu (normalMatrix locs.length (entry l) s'.stiff lam) with
  | none => .ok none
  | some f => .ok (some (s'.basis, s'.stiff, (List.range (s'.nDofs R)).map (f (normalRhs locs.length (entry l) y))))

/-- Sum of the squared differences between data `y` and the values of `V` at the locations. -/
def misfit (locs : List K) (y : Nat → K) (V : K → K) : K := ∑ j ∈ range locs.length, (y j - V (locs.getD j 0)) ^ 2

/-- The quadratic form of the penalty matrix. -/
def rough (P : Nat → Nat → K) (c : List K) : K :=
  ∑ i ∈ range c.length, ∑ j ∈ range c.length, c.getD i 0 * P i j * c.getD j 0

end Fdapde.Splines
