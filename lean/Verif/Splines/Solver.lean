import Verif.Splines.Model
import Verif.PDE.Solver
import Verif.Quadrature.Tables
/-
Model of fdaPDE/splines/operators/*.h, splines/solvers/*.h and of the evaluation of bases through PDE__ (pde/pde.h).
-/
namespace Fdapde.Splines
open Fdapde.PDE (Solver)
variable {K : Type} [Field K] [LinearOrder K]

/-- Operators on splines: bilaplacian.h, reaction.h (constant or space-varying coefficient) and their combinations,
pde/differential_expressions.h:52-135.  All of them are flagged symmetric. -/
inductive SOp (K : Type) : Type
  | bilap
  | react (c : K → K)
  | add (a b : SOp K)
  | sub (a b : SOp K)
  | smul (x : K) (a : SOp K)
  | neg (a : SOp K)

/-- `integrate`: bilaplacian.h:36-39, reaction.h:48-51, differential_expressions.h:66-68, 107-109, 130-132.  `p`, `q` are the
values of the two basis functions at `y` and `p2`, `q2` those of their second derivatives. -/
def sweak (y : K) : SOp K → (p p2 q q2 : K) → K
  | .bilap, _, p2, _, q2 => -(p2 * q2)
  | .react c, p, _, q, _ => c y * p * q
  | .add a b, p, p2, q, q2 => sweak y a p p2 q q2 + sweak y b p p2 q q2
  | .sub a b, p, p2, q, q2 => sweak y a p p2 q q2 - sweak y b p p2 q q2
  | .smul x a, p, p2, q, q2 => x * sweak y a p p2 q q2
  | .neg a, p, p2, q, q2 => -sweak y a p p2 q q2

/-- Value at `y` of the derivative of order `k` of the `i`-th basis function; undefined reads, which do not occur for the
functions of the basis, are given the value 0. -/
def val (tol : K) (R : Nat) (t : List K) (k i : Nat) (y : K) : K :=
  match derive tol R t k R i y with
  | .ok v => v
  | _ => 0

/-- spline_assembler.h:62-66 : contribution of one knot span to the entry (i, j). -/
def spanQ (tol : K) (R : Nat) (t nodes weights : List K) (op : SOp K) (i j s : Nat) : K :=
  spanRule nodes weights (t.getD s 0) (t.getD (s + 1) 0) fun y =>
    sweak y op (val tol R t 0 i y) (val tol R t 2 i y) (val tol R t 0 j y) (val tol R t 2 j y)

/-- spline_solver_base.h:46 : the map of the domain nodes on [-1, 1]. -/
def mapNode (a b x : K) : K := 1 / (b - a) * (2 * x - (b + a))

/-- Members of `SplineSolverBase` (spline_solver_base.h:63-64, 83-91): nodes of the domain, padded knots of `basis_` and of
`reference_basis_`, matrices, number of rows of `force_`, flag `is_init`. -/
structure SpSolver (K : Type) where
  nodes : List K
  basis : List K
  ref : List K
  stiff : Nat → Nat → K
  mass : Nat → Nat → K
  forceRows : Nat
  isInit : Bool

/-- spline_solver_base.h:41-48 : constructor.  `force_` is default constructed, it has no row. -/
def SpSolver.create (R : Nat) (nodes : List K) : Res (SpSolver K) := do
  let t ← pad R nodes
  let a ← rd nodes 0
  let b ← rd nodes (nodes.length - 1)
  let r ← pad R (nodes.map (mapNode a b))
  .ok ⟨nodes, t, r, fun _ _ => 0, fun _ _ => 0, 0, false⟩

/-- spline_solver_base.h:66-79 : `init`; the assembler builds the same basis from the nodes of the domain.  `force_` is not
assigned. -/
def SpSolver.init (tol : K) (R : Nat) (qn qw : List K) (op : SOp K) (s : SpSolver K) : Res (SpSolver K) := do
  let t ← pad R s.nodes
  let l ← assemble true R t.length (size R t) (spanQ tol R t qn qw op)
  let m ← assemble true R t.length (size R t) (spanQ tol R t qn qw (.react fun _ => 1))
  .ok { s with stiff := matrix true l, mass := matrix true m, isInit := true }

/-- spline_solver_base.h:80 : `set_dirichlet_bc`. -/
def SpSolver.setDirichlet (s : SpSolver K) : SpSolver K := s

/-- spline_solver_base.h:57-58 : `n_dofs` and `dofs_coords`. -/
def SpSolver.nDofs (R : Nat) (s : SpSolver K) : Nat := size R s.basis
def SpSolver.dofsCoords (s : SpSolver K) : List K := s.nodes

/-- spline_linear_elliptic_solver.h:34-51 : `solve`: the flag `success`, and whether a solution is stored.  The right-hand
side of a system must have as many rows as the matrix. -/
def SpSolver.solve (lu : Solver K) (R : Nat) (force : Nat → K) (s : SpSolver K) : Res (Bool × Option (Nat → K)) :=
  if s.isInit = false then .throws
  else match lu s.stiff with
    | none => .ok (false, none)
    | some f => if s.forceRows = s.nDofs R then .ok (true, some (f force)) else .ub

/-- pde.h:149-158 : `eval_basis`; `E` is the result of an evaluation policy. -/
def evalBasis {E : Type} (pointwise areal : Res E) (type : Int) : Res (Option E) :=
  if type = 0 then some <$> pointwise else if type = 1 then some <$> areal else .ok none

/-- integrator.h:128-131, spline_basis.h:37, spline_solver_base.h:85 : the table of the integrator of the solver, three
Gauss-Legendre nodes for every order. -/
def splineNodes (K : Type) [Field K] : List K := Quadrature.legendre1_3.nodes.map fun l => ((l.getD 0 0 : ℚ) : K)
def splineWeights (K : Type) [Field K] : List K := Quadrature.legendre1_3.weights.map fun w => ((w : ℚ) : K)

end Fdapde.Splines
