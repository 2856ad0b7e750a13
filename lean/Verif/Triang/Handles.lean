import Verif.Triang.Edges3
import Verif.Geometry.Model
/-
Edges and faces of the cells of a triangulation as simplices: fdaPDE/geometry/triangle.h:43-87, tetrahedron.h:51-131, and the boundary of a
simplex, fdaPDE/geometry/simplex.h:48-52, 131-154.  Indices are natural numbers: a negative index is out of range of the same tables.  An iterator over
the boundary of a simplex or over the edges or faces of a cell moves as the iterator over the cells of a mesh (`C115_cells_forward`), the
traversal is the loop over its indices.  `EdgeType::on_boundary()` of a tetrahedron (tetrahedron.h:62) does not compile: 3D triangulations have no
`is_edge_on_boundary`.
-/
namespace Fdapde.Triang
open Geometry Combinatorics
noncomputable section
variable {d N : Nat}

/-- simplex.h:141 : `std::prev_permutation` `i` times; from the last permutation it goes to the first one. -/
def permute : Nat → List Bool → List Bool
  | 0, m => m
  | i + 1, m => permute i ((prevPerm m).getD m.reverse)

/-- simplex.h:137-147 : the `i`-th boundary cell; columns which are not written are indeterminate. -/
def boundaryCell (S : Simplex (d + 1) N) (i : Nat) : Res (Simplex d N) :=
  let l := rowOf 0 (permute i (List.replicate (d + 1) true ++ [false]))
  if l.length = d + 1 then .ok ⟨fun h => S.coords (Fin.ofNat (d + 2) (l.getD h 0))⟩ else .ub

/-- simplex.h:148-154 : from `boundary_begin()` to `boundary_end()`. -/
def boundary (S : Simplex (d + 1) N) : Res (List (Simplex d N)) :=
  foldRes (fun acc i => (fun F => acc ++ [F]) <$> boundaryCell S i) [] (List.range (d + 2))

/-- simplex.h:48-52 : `Unit()`; columns are vertices, there are `d + 1` of them. -/
def unitSimplex (d N : Nat) : Res (Simplex d N) :=
  foldRes (fun (S : Simplex d N) i =>
    if i + 1 < d + 1 then .ok ⟨fun v k => if (v : Nat) = i + 1 ∧ (k : Nat) = i then 1 else S.coords v k⟩ else .ub) ⟨fun _ _ => 0⟩ (List.range N)

/-! ### Views -/

/-- The cell with its coordinates, triangle.h:33-41, tetrahedron.h:33-41. -/
def cellView (d : Nat) (X : Nat → Vec N) (cells : Nat → Nat → Nat) (c : Nat) : Simplex d N := ⟨fun v => X (cells c v)⟩

/-- triangle.h:49-52, tetrahedron.h:58-61, 75-78 : view of the edge or face in row `id` of a table. -/
def rowView (d : Nat) (X : Nat → Vec N) (rows : List Key) (id : Nat) : Res (Simplex d N) := do
  let k ← Res.ofOptionUB rows[id]?
  return ⟨fun v => X (k.getD v 0)⟩

/-- triangle.h:65-68 : `edge(n)` of a triangle, the id. -/
def triEdge (s : FSt) (c j : Nat) : Res Nat := if j < 3 then Res.ofOptionUB (s.cellTo c j) else .throws

/-- tetrahedron.h:94 : `face(n)` of a tetrahedron, the id. -/
def tetFace (s : FSt) (c j : Nat) : Res Nat := if j < 4 then Res.ofOptionUB (s.cellTo c j) else .ub

/-- triangle.h:56, tetrahedron.h:84 : `adjacent_cells()` of an edge of a triangle, of a face of a tetrahedron. -/
def adjacentCells (s : FSt) (id : Nat) : Res (Int × Int) := Res.ofOptionUB s.toCells[id]?

/-- triangle.h:53, tetrahedron.h:79 : `on_boundary()` of an edge of a triangle, of a face of a tetrahedron. -/
def facetOnBoundary (s : FSt) (id : Nat) : Res Bool := Res.ofOptionUB s.markers[id]?

/-- tetrahedron.h:83 : `edge(n)` of a face, the id; `face_to_edges` is a row-major matrix with three columns. -/
def faceEdge (s : ESt) (f j : Nat) : Res Nat := if j < 3 then Res.ofOptionUB s.faceEdges[f * 3 + j]? else .ub

/-- tetrahedron.h:42-49, 93 : `edge(n)` of a tetrahedron, the id.  `ord` is the order in which the hash set is iterated; a seventh edge is written
out of range, an entry which is not written is indeterminate. -/
def tetEdge (ord : List Nat → List Nat) (s : ESt) (c j : Nat) : Res Nat := do
  let l ← tetEdges s c
  if l.length ≤ 6 then Res.ofOptionUB (ord l)[j]? else .ub

end
end Fdapde.Triang
