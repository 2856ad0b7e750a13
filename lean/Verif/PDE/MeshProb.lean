import Verif.PDE.Init
import Verif.FEM.Space
/-
What the finite element solver reads for a mesh given by its nodes and its cells: measures and inverse Jacobians of the cells,
reference basis and its gradients, table of dofs (solvers/fem_solver_base.h:42-53, 106-139, fem_assembler.h:52-156, geometry/simplex.h:183-197).
Scalars are real numbers.
-/
namespace Fdapde.PDE
open Fdapde.Geometry Fdapde.FEM Fdapde.Quadrature
variable {d N : Nat}

/-- simplex.h:186-193 : `measure_` of a cell. -/
noncomputable def cellMeasure (S : Simplex d N) : ℝ :=
  if h : d = N then |(S.J.submatrix id (Fin.cast h.symm)).det| / d.factorial
  else match d, N, S with
    | 2, 3, S => S.measureTri
    | 1, _, S => S.measureSeg
    | _, _, _ => 0

/-- Entry of `invJ_`; its transpose is what the assembler reads, fem_assembler.h:80. -/
noncomputable def invAt (S : Simplex d N) (w z : Nat) : ℝ := if h : w < d ∧ z < N then S.invJ ⟨w, h.1⟩ ⟨z, h.2⟩ else 0

/-- `reference_basis_[i]`, fem_assembler.h:88, 91. -/
noncomputable def basisAt (d R nb i : Nat) (x : Nat → ℝ) : ℝ := if h : i < nb then refBasis ℝ d R nb ⟨i, h⟩ x else 0

/-- fem_assembler.h:80, 89 with basis_functions / fem_operators : `invJ * nabla_psi`, the gradient of local function `i` on a cell. -/
noncomputable def gradAt (d R nb : Nat) (S : Simplex d N) (i : Nat) (x : Nat → ℝ) (z : Nat) : ℝ :=
  if h : i < nb then ∑ w ∈ Finset.range d, refGrad ℝ d R nb ⟨i, h⟩ x w * invAt S w z else 0

/-- fem_solver_base.h:42-53, 112 : the problem on a mesh with cells `cells`, nodes `X`, and a table of dofs. -/
noncomputable def meshProb (d R nb : Nat) (t : Table) (op : Op ℝ) (cells : Nat → Nat → Nat) (n : Nat) (X : Nat → Vec N)
    (dofs : (Nat → Nat → Option Nat) × (Nat → Bool) × Nat) : Prob ℝ where
  t := t
  N := N
  op := op
  measure := fun c => cellMeasure (cellOf d cells X c)
  psi := basisAt d R nb
  grad := fun c => gradAt d R nb (cellOf d cells X c)
  n := n
  nb := nb
  m := dofs.2.2
  dofs := fun c i => (dofs.1 c i).getD 0
  bd := dofs.2.1

/-- lagrangian_basis.h:96-99 with fem_solver_base.h:42-53 : first order elements; `bNodes` are the boundary markers of the nodes. -/
noncomputable def problem1 (d : Nat) (op : Op ℝ) (cells : Nat → Nat → Nat) (n nNodes : Nat) (X : Nat → Vec N) (bNodes : Nat → Bool) :
    Res (Prob ℝ) :=
  Res.ofOptionUB (standardRule d 1) >>= fun t => .ok (meshProb d 1 (d + 1) t op cells n X (enumDofs1 cells nNodes bNodes))

/-- lagrangian_basis.h:100-134 with fem_solver_base.h:42-53 : second order elements on triangles. -/
noncomputable def problem2 (op : Op ℝ) (cells : Nat → Nat → Nat) (n nNodes : Nat) (X : Nat → Vec N) (bNodes : Nat → Bool) :
    Res (Prob ℝ) :=
  Res.ofOptionUB (standardRule 2 2) >>= fun t =>
    Triang.build2 cells n >>= fun f =>
      enumDofs2 cells n nNodes bNodes f >>= fun dofs => .ok (meshProb 2 2 6 t op cells n X dofs)

end Fdapde.PDE
