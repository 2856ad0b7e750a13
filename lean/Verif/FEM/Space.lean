import Verif.FEM.Elements
import Verif.FEM.Eval
import Verif.FEM.Dofs
import Verif.Geometry.Model
/-
The finite element space on a mesh given by its nodes: values of the basis functions at points of the space, and coordinates of
the degrees of freedom (finite_elements/basis/lagrangian_basis.h:158-183, 213-229).  Scalars are real numbers.
-/
namespace Fdapde.FEM
open Fdapde.Geometry Matrix
variable {d N : Nat}

/-- triangulation.h:60, interval.h:68, linear_network.h:87 (coordinates: triangle.h, tetrahedron.h, segment.h, constructors) : the cell with number `c`, `X` being the coordinates of the nodes. -/
def cellOf (d : Nat) (cells : Nat → Nat → Nat) (X : Nat → Vec N) (c : Nat) : Simplex d N := ⟨fun v => X (cells c v)⟩

/-- `e.invJ() * (p - e.node(0))`, lagrangian_basis.h:197, 226, 265. -/
noncomputable def refPoint (S : Simplex d N) (p : Vec N) (z : Nat) : ℝ :=
  if h : z < d then (S.invJ *ᵥ (p - S.coords 0)) ⟨z, h⟩ else 0

/-- lagrangian_basis.h:224-226 : value of the `h`-th function of cell `c` at location `i`. -/
noncomputable def psiAt (d R nb : Nat) (cells : Nat → Nat → Nat) (X : Nat → Vec N) (locs : Nat → Vec N) (c h i : Nat) : ℝ :=
  if hh : h < nb then refBasis ℝ d R nb ⟨h, hh⟩ (refPoint (cellOf d cells X c) (locs i)) else 0

/-- lagrangian_basis.h:176 : `e->J() * ref_coords[j].tail<local_dim>() + e->node(0)`. -/
noncomputable def refToCell (S : Simplex 2 N) (j : Nat) : Vec N :=
  S.J *ᵥ (fun z : Fin 2 => ((look ((refBary 2 2).getD []) j (z.1 + 1) : ℚ) : ℝ)) + S.coords 0

/-- lagrangian_basis.h:173-178 : one dof of one cell.  The state is the table of coordinates (`none` for memory which is not
initialised) and the set of visited dofs. -/
noncomputable def coordsDof (size : Nat) (dofs : Nat → Nat → Option Nat) (S : Simplex 2 N) (c : Nat)
    (s : (Nat → Option (Vec N)) × List Nat) (j : Nat) : Res ((Nat → Option (Vec N)) × List Nat) :=
  match dofs c j with
  | none => .ub
  | some x =>
    if s.2.contains x then .ok s
    else if x < size then .ok (fun y => if y = x then some (refToCell S j) else s.1 y, x :: s.2)
    else .ub

/-- lagrangian_basis.h:158-183 : `dofs_coords`, second order, on a mesh with `n` triangles and `nNodes` nodes. -/
noncomputable def dofsCoords2 (cells : Nat → Nat → Nat) (n nNodes size : Nat) (X : Nat → Vec N) (dofs : Nat → Nat → Option Nat) :
    Res (Nat → Option (Vec N)) :=
  Prod.fst <$> foldRes (fun s c => foldRes (coordsDof size dofs (cellOf 2 cells X c) c) s [3, 4, 5])
    (fun y => if y < nNodes then some (X y) else none, []) (List.range n)

/-- lagrangian_basis.h:159-160 : first order. -/
def dofsCoords1 (nNodes : Nat) (X : Nat → Vec N) (y : Nat) : Option (Vec N) := if y < nNodes then some (X y) else none

end Fdapde.FEM
