import Verif.Triang.Model
/-
Model of the edge tables of a 3D triangulation, fdaPDE/geometry/triangulation.h:319-399 (the part that `build3` leaves
out), and of the edges of a tetrahedron, fdaPDE/geometry/tetrahedron.h:33-51.
-/
namespace Fdapde.Triang

/-- Tables under construction: the ones of the faces and `edges_` (rows), `face_to_edges_` (flat, as in the code),
`edge_to_cells_` (a map to sets; the empty list is an absent key), `edges_map`, `edges_markers`, `edge_id`. -/
structure ESt where
  f : FSt
  edges : List Key
  faceEdges : List Nat
  edgeCells : Nat → List Nat
  emap : Key → Option Nat
  emarks : List Bool
  edgeId : Nat

def ESt.init : ESt := ⟨FSt.init, [], [], fun _ => [], fun _ => none, [], 0⟩

/-- `edge_to_cells_[id].insert(i)` -/
def insertCell (t : Nat → List Nat) (id i : Nat) : Nat → List Nat := fun x => if x = id then (t id).insert i else t x

/-- triangulation.h:360-361 : edge of a face given by a row of the pattern, sorted. -/
def edgeKeys (epat : List (List Nat)) (face : Key) : List Key :=
  epat.map fun row => (row.map fun h => face.getD h 0).insertionSort (· ≤ ·)

/-- triangulation.h:362-375 : one edge of a new face of cell `i`; `nb` is `nodes_markers_`. -/
def addEdge (nb : Nat → Bool) (i : Nat) (s : ESt) (k : Key) : ESt :=
  match s.emap k with
  | none =>
    { f := s.f
      edges := s.edges ++ [k]
      faceEdges := s.faceEdges ++ [s.edgeId]
      edgeCells := insertCell s.edgeCells s.edgeId i
      emap := fun x => if x = k then some s.edgeId else s.emap x
      emarks := s.emarks ++ [nb (k.getD 0 0) && nb (k.getD 1 0)]
      edgeId := s.edgeId + 1 }
  | some id =>
    { s with faceEdges := s.faceEdges ++ [id], edgeCells := insertCell s.edgeCells id i }

/-- triangulation.h:383-385 : edge `e` of the known face `h` of cell `i`; reading past the end of `face_to_edges_` is
undefined, `at` throws for an absent key. -/
def touchEdge (i h : Nat) (s : ESt) (e : Nat) : Res ESt :=
  match s.faceEdges[h * 3 + e]? with
  | none => .ub
  | some id => if s.edgeCells id = [] then .throws else .ok { s with edgeCells := insertCell s.edgeCells id i }

/-- triangulation.h:348-392 : face `j` of cell `i`. -/
def edgeStep (cells : Nat → Nat → Nat) (nb : Nat → Bool) (pat epat : List (List Nat)) (s : ESt) (o : Nat × Nat) : Res ESt :=
  let e := key cells o.1 (pat.getD o.2 [])
  match s.f.map e with
  | none => (fun f => { (edgeKeys epat e).foldl (addEdge nb o.1) s with f := f }) <$> facetStep cells 4 pat s.f o.1 o.2
  | some (h, _) => do
    let f ← facetStep cells 4 pat s.f o.1 o.2
    foldRes (touchEdge o.1 h) { s with f := f } (List.range 3)

/-- triangulation.h:319-399 : all the tables of a 3D triangulation with `n` tetrahedra. -/
def build3e (cells : Nat → Nat → Nat) (nb : Nat → Bool) (n : Nat) : Res ESt := do
  let pat ← Combinatorics.combinations 3 4
  let epat ← Combinatorics.combinations 2 3
  foldRes (fun s i => foldRes (fun s j => edgeStep cells nb pat epat s (i, j)) s (List.range pat.length)) ESt.init
    (List.range n)

/-- tetrahedron.h:42-49 : ids of the edges of cell `c`, without repetitions (the iteration order of the set is not
modelled). -/
def tetEdges (s : ESt) (c : Nat) : Res (List Nat) :=
  foldRes (fun acc i => Res.ofOptionUB (s.f.cellTo c i) >>= fun face =>
    foldRes (fun acc j => (fun id => acc.insert id) <$> Res.ofOptionUB (s.faceEdges[face * 3 + j]?)) acc (List.range 3))
    [] (List.range 4)

/-- triangle.h:33-39, tetrahedron.h:34-40 : `on_boundary()` of a cell with `nn` nodes: at least `nn - 1` of them are on
the boundary. -/
def cellOnBoundary (cells : Nat → Nat → Nat) (nb : Nat → Bool) (nn c : Nat) : Bool :=
  decide (nn - 1 ≤ (List.range nn).countP fun v => nb (cells c v))

end Fdapde.Triang
