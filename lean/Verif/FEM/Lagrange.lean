import Verif.FEM.Poly
import Mathlib.LinearAlgebra.Matrix.NonsingularInverse
import Mathlib.Algebra.Field.Rat
/-
Model of the reference elements (finite_elements/basis/reference_element.h) and of the computation of the Lagrangian basis
(finite_elements/basis/lagrangian_basis.h:65-91).
-/
namespace Fdapde.FEM

/-- reference_element.h:32-34, 41-43, 51-53, 60-62, 70-73, 84-86, 93-96 : reference nodes. -/
def refNodes : Nat → Nat → Option (List (List ℚ))
  | 1, 1 => some [[0], [1]]
  | 1, 2 => some [[0], [1], [1/2]]
  | 2, 1 => some [[0, 0], [1, 0], [0, 1]]
  | 2, 2 => some [[0, 0], [1, 0], [0, 1], [1/2, 0], [0, 1/2], [1/2, 1/2]]
  | 2, 3 => some [[0, 0], [1, 0], [0, 1], [1/3, 0], [2/3, 0], [0, 1/3], [0, 2/3], [2/3, 1/3], [1/3, 2/3], [1/3, 1/3]]
  | 3, 1 => some [[0, 0, 0], [1, 0, 0], [0, 1, 0], [0, 0, 1]]
  | 3, 2 => some [[0, 0, 0], [1, 0, 0], [0, 1, 0], [0, 0, 1], [1/2, 1/2, 0], [0, 1/2, 0], [1/2, 0, 0], [1/2, 0, 1/2],
                  [0, 1/2, 1/2], [0, 0, 1/2]]
  | _, _ => none

/-- reference_element.h:35-37, 44-46, 54-56, 63-66, 74-79, 87-89 : barycentric coordinates of the nodes (there are none
for the element of dimension 3 and order 2). -/
def refBary : Nat → Nat → Option (List (List ℚ))
  | 1, 1 => some [[1, 0], [0, 1]]
  | 1, 2 => some [[1, 0], [0, 1], [1/2, 1/2]]
  | 2, 1 => some [[1, 0, 0], [0, 1, 0], [0, 0, 1]]
  | 2, 2 => some [[1, 0, 0], [0, 1, 0], [0, 0, 1], [1/2, 1/2, 0], [1/2, 0, 1/2], [0, 1/2, 1/2]]
  | 2, 3 => some [[1, 0, 0], [0, 1, 0], [0, 0, 1], [2/3, 1/3, 0], [1/3, 2/3, 0], [2/3, 0, 1/3], [1/3, 0, 2/3],
                  [0, 2/3, 1/3], [0, 1/3, 2/3], [1/3, 1/3, 1/3]]
  | 3, 1 => some [[1, 0, 0, 0], [0, 1, 0, 0], [0, 0, 1, 0], [0, 0, 0, 1]]
  | _, _ => none

/-- A table of lists as a function. -/
def look {α : Type} [Zero α] (l : List (List α)) (i j : Nat) : α := (l.getD i []).getD j 0

variable {K : Type} [Field K]

/-- lagrangian_basis.h:70-75 : Vandermonde matrix for `n` nodes in dimension `M + 1`. -/
def vander (n M : Nat) (tab : Nat → Nat → Nat) (nodes : Nat → Nat → K) : Matrix (Fin n) (Fin n) K :=
  fun i j => if 1 ≤ j.1 then monomial (nodes i) (tab j) M else 1

/-- lagrangian_basis.h:77-83 : coefficients of the i-th basis function.  The LU solver is modelled as multiplication by the
inverse. -/
noncomputable def lagCoeff (n M : Nat) (tab : Nat → Nat → Nat) (nodes : Nat → Nat → K) (i : Fin n) (m : Nat) : K :=
  if h : m < n then ((vander n M tab nodes)⁻¹.mulVec (Pi.single i 1)) ⟨m, h⟩ else 0

/-- lagrangian_basis.h:84 : the i-th basis function. -/
noncomputable def lagEval (n M : Nat) (tab : Nat → Nat → Nat) (nodes : Nat → Nat → K) (i : Fin n) (x : Nat → K) : K :=
  monomialSum (lagCoeff n M tab nodes i) x tab M (n - 1)

/-- lagrangian_basis.h:56 : basis over the reference simplex of dimension `M`, order `R`. -/
def refTable (M R : Nat) : Nat → Nat → Nat :=
  match polyExp M R with
  | .ok l => look l
  | _ => fun _ _ => 0

/-- reference_element.h:32-96 : the nodes as scalars of the field K (rounding of 1/3 not modelled). -/
def refNodesK (K : Type) [Field K] (M R : Nat) (i j : Nat) : K := ((look ((refNodes M R).getD []) i j : ℚ) : K)

/-- lagrangian_basis.h:84 with the nodes and table of the reference simplex (54-56). -/
noncomputable def refBasis (K : Type) [Field K] (M R n : Nat) (i : Fin n) (x : Nat → K) : K :=
  lagEval n (M - 1) (refTable M R) (refNodesK K M R) i x

end Fdapde.FEM
