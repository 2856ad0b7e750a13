import Verif.Geometry.Model
import Verif.Common.Res
/-
Model of fdaPDE/geometry/walk_search.h.  Scalars are real numbers.  The random first cell is an argument: theorems
quantify over it.  `contains` is the one of simplex.h, with its tolerance `eps`.
-/
namespace Fdapde.Geometry
noncomputable section
variable {N : Nat}

/-- What `BarycentricWalk` reads of the mesh: the cells, their number, and `neighbors_` (row c, column i is the cell
beyond the facet of c opposite to vertex i, -1 if there is none; triangulation.h:176-178, 368-370). -/
structure WMesh (N : Nat) where
  cell : Nat → Simplex N N
  n : Nat
  neigh : Nat → Fin (N + 1) → Int

open Classical in
/-- Eigen's `minCoeff(&index)` : the first position of the minimum. -/
def argmin (v : Fin (N + 1) → ℝ) : Fin (N + 1) :=
  (List.finRange (N + 1)).foldl (fun best i => if v i < v best then i else best) 0

open Classical in
/-- walk_search.h:44-54 : the loop and the returned value.  `next` is the current cell; reading a cell that is not in
the mesh (`neighbors()` returned -1) is undefined behaviour.  `fuel` bounds the iterations; `none` is no return yet. -/
def WMesh.loop (m : WMesh N) (eps : ℝ) (p : Vec N) : Nat → Int → List Int → Option (Res Int)
  | 0, _, _ => none
  | fuel + 1, next, visited =>
    if 0 ≤ next ∧ next < m.n then
      let T := m.cell next.toNat
      if T.contains eps p = .outside ∨ next ∈ visited then
        m.loop eps p fuel (m.neigh next.toNat (argmin (T.bary p))) (next :: visited)
      else some (.ok (if T.contains eps p ≠ .outside then next else -1))
    else some .ub

/-- walk_search.h:39-55 : `locate`, started from the cell `start`. -/
def WMesh.locate (m : WMesh N) (eps : ℝ) (start : Nat) (p : Vec N) (fuel : Nat) : Option (Res Int) :=
  m.loop eps p fuel start []

end
end Fdapde.Geometry
