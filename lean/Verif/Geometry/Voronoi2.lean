import Verif.Geometry.Clockwise
import Verif.Common.Loop
/-
Model of the Voronoi diagram of a planar mesh, fdaPDE/geometry/voronoi.h:33-194.  Scalars are elements of a linearly
ordered field (no rounding).  What the constructor reads of the mesh is a record; circumcenters (simplex.h) and
projections on an edge (hyperplane.h) are fields of the record, they are modelled in Geometry/Model.lean.
-/
namespace Fdapde.Voronoi2
open Geometry
variable {K : Type} [Field K] [LinearOrder K]

/-- What is read of `Triangulation<2, 2>`. -/
structure Mesh (K : Type) where
  nCells : Nat
  /-- row of `cells_`. -/
  cellNodes : Nat → List Nat
  /-- row of `cell_to_edges_`. -/
  cellEdges : Nat → List Nat
  /-- row of `edges_`. -/
  edgeNodes : Nat → List Nat
  edgeBd : Nat → Bool
  nodeBd : Nat → Bool
  nBoundaryEdges : Nat
  nBoundaryNodes : Nat
  node : Nat → K × K
  circumcenter : Nat → K × K
  /-- `edge(e).supporting_plane().project(x)` -/
  project : Nat → K × K → K × K

/-- triangle.h:33-38 : `on_boundary` of a cell: at least two of its three nodes are on the boundary. -/
def Mesh.cellBd (m : Mesh K) (c : Nat) : Bool := 2 ≤ (m.cellNodes c).countP m.nodeBd

/-- Data members 188-193 and the counter `k`; a row of `nodes_` that was not written is `none`. -/
structure V (K : Type) where
  rows : Nat
  nodes : Nat → Option (K × K)
  markers : Nat → Bool
  cells : Nat → List Nat
  k : Nat

def upd {α : Type} (f : Nat → α) (i : Nat) (x : α) : Nat → α := fun j => if j = i then x else f j

/-- `nodes_.row(i) = x`; writing past the last row is undefined. -/
def V.write (s : V K) (i : Nat) (x : K × K) : Res (V K) :=
  if i < s.rows then .ok { s with nodes := upd s.nodes i (some x) } else .ub
/-- `nodes_markers_.set(i)` -/
def V.mark (s : V K) (i : Nat) : V K := { s with markers := upd s.markers i true }
/-- `for (int v : ids) { cells_[v].push_back(i); }` -/
def V.push (s : V K) (ids : List Nat) (i : Nat) : V K :=
  { s with cells := ids.foldl (fun c v => upd c v (c v ++ [i])) s.cells }

/-- voronoi.h:53-58 : one edge of a boundary cell; `x` is the circumcenter of the cell. -/
def edgeStep (m : Mesh K) (x : K × K) (s : V K) (e : Nat) : Res (V K) :=
  if m.edgeBd e then do
    let s1 ← s.write s.k (m.project e x)
    let s2 := (s1.mark s1.k).push (m.edgeNodes e) s1.k
    .ok { s2 with k := s2.k + 1 }
  else .ok s

/-- voronoi.h:47-60 : one cell of the mesh. -/
def cellStep (m : Mesh K) (s : V K) (c : Nat) : Res (V K) := do
  let s1 ← s.write c (m.circumcenter c)
  let s2 := s1.push (m.cellNodes c) c
  if m.cellBd c then foldRes (edgeStep m (m.circumcenter c)) s2 (m.cellEdges c) else .ok s2

/-- Sum of the given rows of `nodes_`, divided by their number (69-73). -/
def mean (s : V K) (l : List Nat) : K × K :=
  ((l.map fun i => ((s.nodes i).getD (0, 0)).1).sum / l.length, (l.map fun i => ((s.nodes i).getD (0, 0)).2).sum / l.length)

/-- The comparison passed to `std::sort` (69-74). -/
def before (s : V K) (c : K × K) (i j : Nat) : Bool := clockwise c ((s.nodes i).getD (0, 0)) ((s.nodes j).getD (0, 0))

/-- voronoi.h:63-68 : a site on the boundary is a vertex of its cell. -/
def addSite (m : Mesh K) (s : V K) (v : Nat) : Res (V K) :=
  if m.nodeBd v then do
    let s1 ← s.write s.k (m.node v)
    let s2 := (s1.mark s1.k).push [v] s1.k
    .ok { s2 with k := s2.k + 1 }
  else .ok s

/-- voronoi.h:62-75 : one entry of `cells_`; `srt` is `std::sort`. -/
def siteStep (m : Mesh K) (srt : (Nat → Nat → Bool) → List Nat → List Nat) (s : V K) (v : Nat) : Res (V K) := do
  let s1 ← addSite m s v
  .ok { s1 with cells := upd s1.cells v (srt (before s1 (mean s1 (s1.cells v))) (s1.cells v)) }

/-- voronoi.h:41-46 : sizes of the containers. -/
def init (m : Mesh K) : V K :=
  ⟨m.nCells + m.nBoundaryEdges + m.nBoundaryNodes, fun _ => none, fun _ => false, fun _ => [], m.nCells⟩

/-- voronoi.h:40-76 : constructor; `order` lists the keys of the unordered map `cells_` in the order they are visited. -/
def build (m : Mesh K) (srt : (Nat → Nat → Bool) → List Nat → List Nat) (order : List Nat) : Res (V K) := do
  let s ← foldRes (cellStep m) (init m) (List.range m.nCells)
  foldRes (siteStep m srt) s order

/-! ### Cells -/

/-- voronoi.h:88-95, 107-112 : `edges()` of a cell, and the end points of `edge(i)`: entry (j + k) modulo the number of
vertices. -/
def cellEdges (l : List Nat) : List (Nat × Nat) :=
  (List.range l.length).map fun j => (l.getD (j % l.length) 0, l.getD ((j + 1) % l.length) 0)

/-- `std::sort` of an edge (voronoi.h:141). -/
def sortEdge (e : Nat × Nat) : Nat × Nat := if e.2 < e.1 then (e.2, e.1) else e

/-- voronoi.h:142 : insertion in the set `visited`. -/
def insertEdge (visited : List (Nat × Nat)) (e : Nat × Nat) : List (Nat × Nat) :=
  if visited.contains (sortEdge e) then visited else visited ++ [sortEdge e]

/-- voronoi.h:134-155 : `edges()` of the diagram; `order` lists the keys of `cells_` in the order they are visited and `perm`
the elements of the unordered set `visited` in the order they are copied. -/
def edges (s : V K) (order : List Nat) (perm : List (Nat × Nat) → List (Nat × Nat)) : List (Nat × Nat) :=
  perm ((order.flatMap fun v => cellEdges (s.cells v)).foldl insertEdge [])

/-- voronoi.h:96-105 : `measure()` of the cell with these vertices. -/
def measure (l : List (K × K)) : K :=
  (1 / 2) * |((List.range l.length).map fun j =>
    let x := l.getD j (0, 0)
    let y := l.getD ((j + 1) % l.length) (0, 0)
    x.1 * y.2 - x.2 * y.1).sum|

/-- voronoi.h:113-121 : `on_boundary()` of a cell. -/
def cellOnBoundary (s : V K) (v : Nat) : Bool := (cellEdges (s.cells v)).any fun e => s.markers e.1 && s.markers e.2

/-! ### Point location -/

/-- Eigen's `minCoeff(&index)` on three values: the first minimum. -/
def argmin3 (a b c : K) : Nat :=
  let i := if b < a then 1 else 0
  if c < (if b < a then b else a) then 2 else i

/-- Squared distance. -/
def dist2 (x y : K × K) : K := (x.1 - y.1) * (x.1 - y.1) + (x.2 - y.2) * (x.2 - y.2)

/-- voronoi.h:170-186 : one location; `loc` is the answer of the mesh, -1 outside. -/
def locate (m : Mesh K) (loc : Int) (p : K × K) : Res Int :=
  if loc = -1 then .ok (-1)
  else match m.cellNodes loc.toNat with
    | [a, b, c] =>
      .ok ([a, b, c].getD (argmin3 (dist2 (m.node a) p) (dist2 (m.node b) p) (dist2 (m.node c) p)) 0)
    | _ => .ub

/-- voronoi.h:169-187 : `locate` of a matrix of locations given by its rows, with `cols` columns; the number of columns is
asserted to be 2.  `loc` is the point location of the mesh. -/
def locateAll (m : Mesh K) (loc : K × K → Int) (cols : Nat) (locs : List (List K)) : Res (List Int) :=
  if cols = 2 then
    foldRes (fun acc r => (fun i => acc ++ [i]) <$> locate m (loc (r.getD 0 0, r.getD 1 0)) (r.getD 0 0, r.getD 1 0)) []
      locs
  else .throws

/-- voronoi.h:122 : `contains` of the cell `id`; the point, a column, is converted to a matrix of two rows and one
column. -/
def contains (m : Mesh K) (loc : K × K → Int) (id : Nat) (p : K × K) : Res Bool :=
  (fun l => decide (l.getD 0 (-2) = (id : Int))) <$> locateAll m loc 1 [[p.1], [p.2]]

end Fdapde.Voronoi2
