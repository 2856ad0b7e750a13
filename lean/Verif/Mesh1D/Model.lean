import Verif.Common.Loop
import Mathlib.Order.Defs.LinearOrder
import Mathlib.Data.List.Basic
/-
Model of one dimensional meshes: fdaPDE/geometry/interval.h and fdaPDE/geometry/linear_network.h.
Coordinates are elements of a linear order (doubles other than NaN).  Reading or writing outside an
Eigen vector or matrix is undefined (the bounds checks of Eigen are asserts, not exceptions).
-/
namespace Fdapde.Mesh1D

section Interval
variable {α : Type} [LinearOrder α]

/-- interval.h:108-123 : the binary search; the read of `nodes_[j + 1]` only happens if
`points[i] >= nodes_[j]`.  `none`: the fuel did not suffice. -/
def search (nodes : List α) (p : α) : Nat → Nat → Nat → Option (Res Int)
  | 0, _, _ => none
  | f + 1, hmin, hmax =>
    let j := hmin + (hmax - hmin) / 2
    match nodes[j]? with
    | none => some .ub
    | some x =>
      if x ≤ p then
        match nodes[j + 1]? with
        | none => some .ub
        | some y => if p < y then some (.ok (j : Int)) else search nodes p f j hmax
      else search nodes p f hmin j

/-- interval.h:98-127 with the range of 44-45 : `locate` for one point. -/
def locate (nodes : List α) (p : α) : Option (Res Int) :=
  match nodes[0]?, nodes[nodes.length - 1]? with
  | some a, some b => if p < a ∨ p > b then some (.ok (-1)) else search nodes p (nodes.length + 1) 0 nodes.length
  | _, _ => some .ub

end Interval

/-- Tables of the constructor: `cells_` (46-50) and `neighbors_` (51-57). -/
structure ITables where
  cells : Nat → Nat → Int
  neigh : Nat → Nat → Int

def set2 (t : Nat → Nat → Int) (i j : Nat) (v : Int) : Nat → Nat → Int :=
  fun a b => if a = i ∧ b = j then v else t a b

/-- interval.h:40-58 : the tables for `n` nodes (`n - 1` cells).  Writing to row 0 of `neighbors_` is
undefined if there is no cell. -/
def tables (nNodes : Nat) : Res ITables :=
  if nNodes < 2 then .ub else
    let nc := nNodes - 1
    let cells := (List.range (nNodes - 1)).foldl (fun t i => set2 (set2 t i 0 i) i 1 (i + 1)) (fun _ _ => 0)
    let n0 := set2 (fun _ _ => -1) 0 1 1
    let n1 := (List.range' 1 (nc - 1 - 1)).foldl (fun t i => set2 (set2 t i 0 ((i : Int) - 1)) i 1 (i + 1)) n0
    .ok ⟨cells, set2 n1 (nc - 1) 0 ((nc : Int) - 2)⟩

/-! ### Linear network -/

/-- linear_network.h:69-72 : for each node the list of cells, pushed in cell order. -/
def nodeToCells (cells : Nat → Nat → Nat) (n : Nat) : Nat → List Nat :=
  (List.range n).foldl (fun t i =>
    let t1 := fun v => if v = cells i 0 then t v ++ [i] else t v
    fun v => if v = cells i 1 then t1 v ++ [i] else t1 v) (fun _ => [])

/-- linear_network.h:77-81 : pairs (edges[j], edges[i]) with i < j. -/
def pairs : List Nat → List (Nat × Nat)
  | [] => []
  | x :: xs => (xs.map fun y => (y, x)) ++ pairs xs

/-- linear_network.h:76-81 : all triplets; `keys` are the nodes stored in the unordered map, in any order. -/
def triplets (cells : Nat → Nat → Nat) (n : Nat) (keys : List Nat) : List (Nat × Nat) :=
  keys.flatMap fun v => pairs (nodeToCells cells n v)

/-- linear_network.h:82-84 : `setFromTriplets` adds up repeated entries, `selfadjointView<Lower>` mirrors
the lower triangle. -/
def adjacency (cells : Nat → Nat → Nat) (n : Nat) (keys : List Nat) (a b : Nat) : Nat :=
  (triplets cells n keys).count (if b ≤ a then (a, b) else (b, a))

/-- linear_network.h:47-55 : the second loop reads `v2[i]` with `i` starting at `v1.size()`. -/
def secondLoop (v2 : List Nat) : Nat → Nat → List Nat → Res (List Nat)
  | _, 0, acc => .ok acc
  | i, m + 1, acc =>
    match v2[i]? with
    | none => .ub
    | some x => secondLoop v2 (i + 1) m (acc ++ [x])

/-- linear_network.h:47-55 : `neighbors()` of cell `id`. -/
def cellNeighbors (cells : Nat → Nat → Nat) (n id : Nat) : Res (List Nat) :=
  let v1 := nodeToCells cells n (cells id 0)
  let v2 := nodeToCells cells n (cells id 1)
  secondLoop v2 v1.length v2.length v1

/-- linear_network.h:122 : `node_patch`; `at` throws for a node of no cell. -/
def nodePatch (cells : Nat → Nat → Nat) (n v : Nat) : Res (List Nat) :=
  match nodeToCells cells n v with
  | [] => .throws
  | l => .ok l

end Fdapde.Mesh1D
