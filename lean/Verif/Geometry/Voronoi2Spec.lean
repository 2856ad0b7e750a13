import Verif.Geometry.Voronoi2
import Mathlib.Data.Real.Basic
/- Specification of the Voronoi diagram of a planar mesh. -/
namespace Fdapde.Voronoi2
open Geometry

/-- A mesh whose tables are consistent: the nodes of a cell are distinct, edges join two distinct nodes of their cell,
boundary edges join boundary nodes and belong to one cell each, boundary nodes belong to cells.  `order` lists the nodes
that belong to some cell. -/
structure Valid {K : Type} (m : Mesh K) (order : List Nat) : Prop where
  cell_nodup : ∀ c < m.nCells, (m.cellNodes c).Nodup
  edge_nodup : ∀ c < m.nCells, ∀ e ∈ m.cellEdges c, (m.edgeNodes e).Nodup ∧ (m.edgeNodes e).length = 2
  edge_sub : ∀ c < m.nCells, ∀ e ∈ m.cellEdges c, ∀ v ∈ m.edgeNodes e, v ∈ m.cellNodes c
  edge_bd : ∀ c < m.nCells, ∀ e ∈ m.cellEdges c, m.edgeBd e = true → ∀ v ∈ m.edgeNodes e, m.nodeBd v = true
  edges_count : ((List.range m.nCells).flatMap m.cellEdges).countP m.edgeBd = m.nBoundaryEdges
  order_nodup : order.Nodup
  order_mem : ∀ v, v ∈ order ↔ ∃ c < m.nCells, v ∈ m.cellNodes c
  nodes_count : order.countP m.nodeBd = m.nBoundaryNodes

/-- The vertices of the cell of site `v` in any order: for every triangle at `v` its circumcenter and, for its boundary
edges at `v`, the projection of the circumcenter on the edge; and `v` itself if it is on the boundary. -/
def vertices {K : Type} (m : Mesh K) (v : Nat) : List (K × K) :=
  (List.range m.nCells).flatMap (fun c =>
    (if v ∈ m.cellNodes c then [m.circumcenter c] else []) ++
    ((m.cellEdges c).filter fun e => m.edgeBd e && decide (v ∈ m.edgeNodes e)).map
      (fun e => m.project e (m.circumcenter c)))
  ++ (if m.nodeBd v then [m.node v] else [])

/-- Strict weak orders: what `std::sort` requires of the comparison. -/
structure StrictWeak (lt : Nat → Nat → Bool) : Prop where
  irrefl : ∀ a, lt a a = false
  trans : ∀ a b c, lt a b = true → lt b c = true → lt a c = true
  incomp : ∀ a b c, lt a b = false → lt b a = false → lt b c = false → lt c b = false → lt a c = false ∧ lt c a = false

/-- What `std::sort` guarantees. -/
def IsSort (srt : (Nat → Nat → Bool) → List Nat → List Nat) : Prop :=
  ∀ lt, StrictWeak lt → ∀ l, (srt lt l).Perm l ∧ (srt lt l).Pairwise fun a b => lt b a = false

/-- Mean of a list of points. -/
noncomputable def center (l : List (ℝ × ℝ)) : ℝ × ℝ := ((l.map Prod.fst).sum / l.length, (l.map Prod.snd).sum / l.length)

/-- The points of the cell of site `v`, in the order in which they are stored. -/
def V.points {K : Type} [Field K] [LinearOrder K] (s : V K) (v : Nat) : List (K × K) :=
  (s.cells v).map fun i => (s.nodes i).getD (0, 0)

end Fdapde.Voronoi2
