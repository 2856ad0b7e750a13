import Verif.PDE.RegressionSpec
import Verif.Splines.SolverSpec
import Verif.Splines.Solver
/-
Regression in space and time with a separable penalty: the program of a user, on top of the splines, the finite element solver, the evaluation
of the bases, the Kronecker product and the block matrices of the library, and the criterion it is meant to minimize.
-/
namespace Fdapde.PDE
open Finset FEM
variable {K : Type} [Field K]

/-- A matrix to which a Kronecker product of dense matrices is assigned. -/
def kronMat (A B : LinAlg.Mat K) : LinAlg.Mat K :=
  ⟨LinAlg.kronRows A B, LinAlg.kronCols A B, fun i j => match LinAlg.kronCoeff A B i j with
    | .ok v => v
    | _ => 0⟩

/-- A program of a user.  Splines in time: `Phi` their values at the times, `Mt` their mass matrix, `Pt` the penalty of their second derivatives.
Finite elements in space: `Psi` their values at the locations, `R1` the stiffness matrix, `R0` the mass matrix.  With `B = Kronecker(Phi, Psi)`
the matrix `[[-B' B - lambdaT Kronecker(Pt, R0), lambdaD Kronecker(Mt, R1)'], [lambdaD Kronecker(Mt, R1), lambdaD Kronecker(Mt, R0)]]` is made of
its blocks and the system with right-hand side `[-B' y, 0]` is solved.  The observation at time `j` and location `i` is `y (L * j + i)`, `L` the
number of locations.  Returns the two halves of the solution, if the factorization succeeds. -/
def spaceTimeFit [LinearOrder K] (tol : K) (R : Nat) (knots qn qw times : List K) (lu : Solver K) (P : Prob K) (data : Dense K) (junk : Nat → K)
    (ids : List Int) (psi : Nat → Nat → Nat → K) (lamT lamD : K) (y : Nat → K) : Res (Option ((Nat → K) × (Nat → K))) := do
  let t0 ← Splines.SpSolver.create R knots
  let t ← t0.init tol R qn qw (.neg .bilap)
  let lt ← Splines.evalTriplets tol R t.basis times
  let s ← P.init data junk
  let l ← pointEval P.n P.nb P.dofs ids psi
  let mt := t.nDofs R
  let B := kronMat ⟨times.length, mt, Splines.entry lt⟩ ⟨ids.length, s.n, entry l⟩
  let T := kronMat ⟨mt, mt, t.stiff⟩ ⟨s.n, s.n, s.mass⟩
  let S := kronMat ⟨mt, mt, t.mass⟩ ⟨s.n, s.n, s.stiff⟩
  let M := kronMat ⟨mt, mt, t.mass⟩ ⟨s.n, s.n, s.mass⟩
  let A ← LinAlg.SB.make 2 2 [
    ⟨mt * s.n, mt * s.n, fun p q => -∑ j ∈ range B.rows, B.coeff j p * B.coeff j q - lamT * T.coeff p q⟩,
    ⟨mt * s.n, mt * s.n, fun p q => lamD * S.coeff q p⟩,
    ⟨mt * s.n, mt * s.n, fun p q => lamD * S.coeff p q⟩, ⟨mt * s.n, mt * s.n, fun p q => lamD * M.coeff p q⟩]
  match lu (readAll A) with
  | none => .ok none
  | some F =>
    let x := F fun p => if p < mt * s.n then -∑ j ∈ range B.rows, B.coeff j p * y j else 0
    .ok (some (x, fun p => x (mt * s.n + p)))

/-- The coefficients in space of the `a`-th function of time. -/
def slice (m : Nat) (f : Nat → K) (a p : Nat) : K := f (m * a + p)

/-- `g` is the function by which `f` fails to solve the problem without forcing, for every function of time. -/
def Prob.TimeGap (P : Prob K) (mt : Nat) (f g : Nat → K) : Prop :=
  ∀ a < mt, ∀ v, P.l2 (slice P.m g a) v = -P.bilin (slice P.m f a) v

/-- The coefficients in space of the function at a time where the functions of time have values `phi`. -/
def atTime (mt m : Nat) (phi : Nat → K) (f : Nat → K) (p : Nat) : K := ∑ a ∈ range mt, phi a * slice m f a p

/-- The penalties: `lambdaT` times the integral over time of the squared norm of the second derivative in time of `f` (functions of time `b`, second
derivatives `b2`), and `lambdaD` times the integral over time of the squared norm of `g`. -/
def Prob.penalties (P : Prob K) (qn qw knots : List K) (b b2 : Nat → K → K) (mt : Nat) (lamT lamD : K) (f g : Nat → K) : K :=
  lamT * Splines.integral qn qw knots (fun z => P.l2 (atTime mt P.m (fun a => b2 a z) f) (atTime mt P.m (fun a => b2 a z) f)) +
  lamD * Splines.integral qn qw knots fun z => P.l2 (atTime mt P.m (fun a => b a z) g) (atTime mt P.m (fun a => b a z) g)

/-- Sum of the squared differences from the data, at all times and locations; `E` is the evaluation matrix of the locations. -/
def stMisfit (mt m : Nat) (b : Nat → K → K) (times : List K) (L : Nat) (E : Nat → Nat → K) (y f : Nat → K) : K :=
  ∑ j ∈ range times.length, ∑ i ∈ range L, (y (L * j + i) - ∑ q ∈ range m, E i q * atTime mt m (fun a => b a (times.getD j 0)) f q) ^ 2

/-- The functions of time and their second derivatives, as the library evaluates them. -/
def TimeBasis [LinearOrder K] (tol : K) (R : Nat) (knots t : List K) (b b2 : Nat → K → K) : Prop :=
  Splines.pad R knots = .ok t ∧ ∀ a < Splines.size R t, ∀ x, Splines.basisEval tol R t a x = .ok (b a x) ∧
    Splines.derive tol R t 2 R a x = .ok (b2 a x)

end Fdapde.PDE
