import Mathlib.Algebra.Field.Basic
import Mathlib.Algebra.BigOperators.Group.Finset.Basic
import Verif.Common.Loop

/-!
# The finite element solvers

Models of `fdaPDE/finite_elements/solvers/fem_solver_base.h` (boundary dofs iterator, Dirichlet conditions),
`fem_linear_elliptic_solver.h`, `fem_linear_parabolic_solver.h` and of `PDE::solve` (`fdaPDE/pde/pde.h`).

Matrices are functions of the row and column (sparse matrices are read and written by coefficient only, so that their storage
is not modelled); numbers are elements of a field. Sizes which can make an access invalid are kept.
-/

namespace Fdapde.PDE

variable {K : Type}

/-- A dense matrix of known size; reading outside of it is undefined (Eigen asserts are compiled out in release mode). -/
structure Dense (K : Type) where
  rows : Nat
  cols : Nat
  at' : Nat → Nat → K

/-- Coefficient access `m(i, j)`. -/
def Dense.read (m : Dense K) (i j : Nat) : Res K := if i < m.rows ∧ j < m.cols then .ok (m.at' i j) else .ub

/-- The state of a solver which the methods below read and write (`fem_solver_base.h` 60-63, 88-100): number of dofs,
boundary marks, stiffness and mass matrix, forcing vector and its number of rows, initialization flag. -/
structure Sys (K : Type) where
  n : Nat
  bd : Nat → Bool
  stiff : Nat → Nat → K
  mass : Nat → Nat → K
  force : Nat → K
  forceRows : Nat
  isInit : Bool

/-- The scan inside `boundary_dofs_iterator::operator++` (`fem_solver_base.h` 77): from `i` to the next boundary dof or to
`n`. The first argument bounds the number of turns; `n` turns are always enough. -/
def scan (bd : Nat → Bool) (n : Nat) : Nat → Nat → Nat
  | 0, i => i
  | k + 1, i => if i < n ∧ bd i = false then scan bd n k (i + 1) else i

/-- `boundary_dofs_iterator::operator++` (`fem_solver_base.h` 74-79). -/
def next (bd : Nat → Bool) (n i : Nat) : Nat := scan bd n n (i + 1)

/-- The values taken by `*it` in `for (it = boundary_dofs_begin(); it != boundary_dofs_end(); ++it)`
(`fem_solver_base.h` 81-86), starting from `i`; `none` if the loop is not over after the given number of turns. -/
def visit (bd : Nat → Bool) (n : Nat) : Nat → Nat → Option (List Nat)
  | 0, i => if i = n then some [] else none
  | k + 1, i => if i = n then some [] else (visit bd n k (next bd n i)).map (i :: ·)

/-- The dofs visited by a loop over the boundary dofs: `boundary_dofs_begin` starts at index 0 (`fem_solver_base.h` 86). -/
def boundaryLoop (bd : Nat → Bool) (n : Nat) : List Nat := (visit bd n n 0).getD []

/-- `A.row(d) *= 0; A.coeffRef(d, d) = 1` (`fem_solver_base.h` 148-149). -/
def unitRow [Zero K] [One K] [Mul K] (A : Nat → Nat → K) (d : Nat) : Nat → Nat → K :=
  fun p q => if p = d then (if q = d then 1 else A p q * 0) else A p q

/-- `FEMSolverBase::set_dirichlet_bc` (`fem_solver_base.h` 142-155), `g` being the boundary data of the problem. -/
def setDirichlet [Zero K] [One K] [Mul K] (g : Dense K) (s : Sys K) : Res (Sys K) :=
  if s.isInit = false then .throws
  else foldRes (fun (s : Sys K) d => do
    if s.forceRows ≤ d then .ub
    let v ← g.read d 0
    .ok { s with stiff := unitRow s.stiff d, force := fun p => if p = d then v else s.force p }) s (boundaryLoop s.bd s.n)

/-- A direct linear solver: `compute A` factorizes, `none` when `info() != Success`; the result solves systems. Parameter of
the models below (Eigen's `SparseLU`). -/
abbrev Solver (K : Type) := (Nat → Nat → K) → Option ((Nat → K) → Nat → K)

/-- `FEMLinearEllipticSolver::solve` (`fem_linear_elliptic_solver.h` 34-50): the flag `success` and the solution. -/
def solveElliptic (lu : Solver K) (s : Sys K) : Res (Bool × Option (Nat → K)) :=
  if s.isInit = false then .throws
  else match lu s.stiff with
    | none => .ok (false, none)
    | some f => if s.forceRows = s.n then .ok (true, some (f s.force)) else .ub

/-- The right-hand side of one time step of the parabolic solver (`fem_linear_parabolic_solver.h` 63-67). -/
def stepRhs [Field K] (s : Sys K) (dt : K) (g : Dense K) (u : Nat → K) (i : Nat) : Res (Nat → K) :=
  if s.n * (i + 1) + s.n ≤ s.forceRows then
    foldRes (fun (rhs : Nat → K) d => do
      let v ← g.read d (i + 1)
      .ok (fun p => if p = d then v else rhs p))
      (fun p => (∑ q ∈ Finset.range s.n, s.mass p q / dt * u q) + s.force (s.n * (i + 1) + p)) (boundaryLoop s.bd s.n)
  else .ub

/-- `FEMLinearParabolicSolver::solve` (`fem_linear_parabolic_solver.h` 37-72): the flag `success` and the columns of the
solution. `m` is the number of columns of the forcing data, `time` the time domain, `ic` the initial condition. With `m = 0`
the write to column 0 is out of range. When the factorization fails only column 0 is meaningful. -/
def solveParabolic [Field K] (lu : Solver K) (time : List K) (m : Nat) (ic : Nat → K) (g : Dense K) (s : Sys K) :
    Res (Bool × (Nat → Nat → K)) :=
  if s.isInit = false then .throws
  else match time with
    | t0 :: t1 :: _ =>
      let dt := t1 - t0
      if m = 0 then .ub
      else
        let sys := (boundaryLoop s.bd s.n).foldl unitRow (fun p q => s.mass p q / dt + s.stiff p q)
        match lu sys with
        | none => .ok (false, fun _ => ic)
        | some f => do
          let sol ← foldRes (fun (sol : Nat → Nat → K) i => do
            let rhs ← stepRhs s dt g (sol i) i
            .ok (fun c => if c = i + 1 then f rhs else sol c)) (fun _ => ic) (List.range (m - 1))
          .ok (true, sol)
    | _ => .ub

/-- `PDE::solve` (`pde.h` 102-105) for a stationary problem; `is_empty(m)` is `m.size() == 0`. -/
def pdeSolveElliptic [Zero K] [One K] [Mul K] (lu : Solver K) (g : Dense K) (s : Sys K) : Res (Bool × Option (Nat → K)) := do
  let s ← if g.rows * g.cols = 0 then .ok s else setDirichlet g s
  solveElliptic lu s

/-- `PDE::solve` (`pde.h` 102-105) for a parabolic problem. -/
def pdeSolveParabolic [Field K] (lu : Solver K) (time : List K) (m : Nat) (ic : Nat → K) (g : Dense K) (s : Sys K) :
    Res (Bool × (Nat → Nat → K)) := do
  let s ← if g.rows * g.cols = 0 then .ok s else setDirichlet g s
  solveParabolic lu time m ic g s

end Fdapde.PDE
