import Verif.Geometry.Walk
import Verif.Geometry.Lemmas
import Mathlib.Analysis.Convex.Combination
import Mathlib.Topology.Algebra.Module.Basic
/- Specification: what a Delaunay triangulation of a convex domain is. -/
namespace Fdapde.Geometry
open Topology
variable {N : Nat}

/-- The domain covered by the mesh. -/
def WMesh.domain (m : WMesh N) : Set (Vec N) := {x | ∃ c < m.n, x ∈ convexHull ℝ (Set.range (m.cell c).coords)}

/-- `x` is outside every sphere through the vertices of the simplex (there is just one if the simplex is not
degenerate). -/
def OutsideCircumsphere (S : Simplex N N) (x : Vec N) : Prop :=
  ∀ (o : Vec N) (r : ℝ), (∀ i, sqNorm (S.coords i - o) = r) → r < sqNorm (x - o)

/-- The facet of `S` opposite to vertex `i` is on the boundary of `D`: next to one of its points, `D` lies on the side
of the vertex. -/
def OnBoundary (D : Set (Vec N)) (S : Simplex N N) (i : Fin (N + 1)) : Prop :=
  ∃ q ∈ D, S.bary q i = 0 ∧ ∀ᶠ x in 𝓝 q, x ∈ D → 0 ≤ S.bary x i

/-- A Delaunay triangulation of a convex domain, with the right table of neighbours. -/
structure WMesh.Delaunay (m : WMesh N) : Prop where
  nondeg : ∀ c < m.n, (m.cell c).Nondeg
  convex : Convex ℝ m.domain
  boundary : ∀ c < m.n, ∀ i, m.neigh c i = -1 → OnBoundary m.domain (m.cell c) i
  interior : ∀ c < m.n, ∀ i, m.neigh c i ≠ -1 → ∃ c' < m.n, m.neigh c i = (c' : Int) ∧
    (∀ j ≠ i, ∃ k, (m.cell c').coords k = (m.cell c).coords j) ∧
    OutsideCircumsphere (m.cell c') ((m.cell c).coords i)

end Fdapde.Geometry
