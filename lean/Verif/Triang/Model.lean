import Verif.Common.Loop
import Verif.Combinatorics.Model
import Mathlib.Data.List.Sort
/-
Model of the construction of the tables of a triangulation, fdaPDE/geometry/triangulation.h:
`Triangulation<2,N>` (edges of triangles, 143-196) and the face part of `Triangulation<3,3>`
(319-399).  Both run the same loop on the facets of the cells; the loop is modelled once, for cells
of `nn` nodes (3 or 4) and a table `pat` of facets (the result of `combinations`).

`cells i v` is `cells_(i, v)` (a rectangular table of `n` rows and `nn` columns).  The containers
`edges_`, `edge_to_cells_` (stored flat in the code) are lists of rows.  The `unordered_map` is a
finite map given as a function.
-/
namespace Fdapde.Triang

abbrev Key := List Nat

/-- triangulation.h:172-173, 349-350 : nodes of the facet given by a row of the pattern, sorted
(`std::sort`; any sorting algorithm gives the same list of integers). -/
def key (cells : Nat → Nat → Nat) (i : Nat) (row : List Nat) : Key :=
  (row.map (cells i)).insertionSort (· ≤ ·)

/-- triangulation.h:156-166, 335-345 : first position `j ≥ start` of cell `f` whose node is not in the
facet (`nn` if there is none). -/
def opposite (cells : Nat → Nat → Nat) (facet : Key) (f : Nat) : Nat → Nat → Nat
  | j, 0 => j
  | j, m + 1 => if facet.contains (cells f j) then opposite cells facet f (j + 1) m else j

/-- Tables under construction (data members 262-266 and locals 151-153). -/
structure FSt where
  facets : List Key
  toCells : List (Int × Int)
  markers : List Bool
  map : Key → Option (Nat × Nat)
  cellTo : Nat → Nat → Option Nat
  neigh : Nat → Nat → Int
  nextId : Nat

/-- Initial tables; `neighbors_` is filled with -1 (57), `cell_to_edges_` is not initialised. -/
def FSt.init : FSt := ⟨[], [], [], fun _ => none, fun _ _ => none, fun _ _ => -1, 0⟩

/-- Writes one entry of a table. -/
def put {β : Type} (t : Nat → Nat → β) (i j : Nat) (x : β) : Nat → Nat → β :=
  fun a b => if a = i ∧ b = j then x else t a b

/-- triangulation.h:171-191 (edges of triangles) and 348-356, 380-392 (faces of tetrahedra) : body of
the loop for facet `j` of cell `i`.  Writing a neighbour in column `nn` (no opposite node: a cell
with repeated nodes) and using a stale facet id are undefined. -/
def facetStep (cells : Nat → Nat → Nat) (nn : Nat) (pat : List (List Nat)) (s : FSt) (i j : Nat) : Res FSt :=
  let e := key cells i (pat.getD j [])
  match s.map e with
  | none =>
    .ok { facets := s.facets ++ [e]
          toCells := s.toCells ++ [((i : Int), -1)]
          markers := s.markers ++ [true]
          map := fun k => if k = e then some (s.nextId, i) else s.map k
          cellTo := put s.cellTo i j (some s.nextId)
          neigh := s.neigh
          nextId := s.nextId + 1 }
  | some (h, k) =>
    match s.facets[h]?, s.toCells[h]? with
    | some f, some (c0, _) =>
      let ok := opposite cells f k 0 nn
      let oi := opposite cells f i 0 nn
      if ok < nn ∧ oi < nn ∧ h < s.markers.length then
        .ok { facets := s.facets
              toCells := s.toCells.set h (c0, (i : Int))
              markers := s.markers.set h false
              map := fun x => if x = e then none else s.map x
              cellTo := put s.cellTo i j (some h)
              neigh := put (put s.neigh k ok (i : Int)) i oi (k : Int)
              nextId := s.nextId }
      else .ub
    | _, _ => .ub

/-- triangulation.h:169-193, 346-394 : the two nested loops. -/
def facetLoop (cells : Nat → Nat → Nat) (nn n : Nat) (pat : List (List Nat)) : Res FSt :=
  foldRes (fun s i => foldRes (fun s j => facetStep cells nn pat s i j) s (List.range pat.length))
    FSt.init (List.range n)

/-- triangulation.h:143-196 : tables of a 2D triangulation with `n` triangles. -/
def build2 (cells : Nat → Nat → Nat) (n : Nat) : Res FSt := do
  let pat ← Combinatorics.combinations 2 3
  facetLoop cells 3 n pat

/-- triangulation.h:319-399 : face tables of a 3D triangulation with `n` tetrahedra (the edge tables
are modelled in `Edges3.lean`). -/
def build3 (cells : Nat → Nat → Nat) (n : Nat) : Res FSt := do
  let pat ← Combinatorics.combinations 3 4
  facetLoop cells 4 n pat

end Fdapde.Triang
