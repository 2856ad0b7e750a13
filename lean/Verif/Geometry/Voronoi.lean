import Verif.Mesh1D.Model
import Mathlib.Algebra.Order.Field.Basic
/-
Model of the Voronoi diagram of an interval mesh, fdaPDE/geometry/voronoi.h:196-290.  Scalars are elements of a linearly
ordered field.
-/
namespace Fdapde.Voronoi
open Mesh1D
variable {K : Type} [Field K] [LinearOrder K]

/-- Data members 286-289 and the counter `k` of the constructor. -/
structure V (K : Type) where
  verts : Nat → K
  markers : Nat → Bool
  cells : Nat → List Nat
  k : Nat

def upd {α : Type} (f : Nat → α) (i : Nat) (x : α) : Nat → α := fun j => if j = i then x else f j

/-- interval.h:68 -/
def onBoundary (n id : Nat) : Bool := decide (id = 0 ∨ id = n - 1)

/-- voronoi.h:210-218 : the loop over the local nodes of a boundary cell; `v` is the node id. -/
def bndStep (nodes : List K) (s : V K) (v : Nat) : V K :=
  if onBoundary nodes.length v then
    { verts := upd s.verts s.k (nodes.getD v 0), markers := upd s.markers s.k true,
      cells := upd s.cells v (s.cells v ++ [s.k]), k := s.k + 1 }
  else s

/-- voronoi.h:207-220 : one mesh cell; the cell with id `i` has nodes `i`, `i + 1` (interval.h:47-50), its circumcenter
is the midpoint (simplex.h:78), it is on the boundary if one of its nodes is (segment.h:33-41).  The reads of the node
coordinates are in range. -/
def cellStep (nodes : List K) (s : V K) (i : Nat) : V K :=
  let s1 := { s with
    verts := upd s.verts i ((nodes.getD i 0 + nodes.getD (i + 1) 0) / 2),
    cells := upd (upd s.cells i (s.cells i ++ [i])) (i + 1) (upd s.cells i (s.cells i ++ [i]) (i + 1) ++ [i]) }
  if onBoundary nodes.length i || onBoundary nodes.length (i + 1) then
    bndStep nodes (bndStep nodes s1 i) (i + 1)
  else s1

/-- voronoi.h:222-224 -/
def sortCell : List Nat → List Nat
  | a :: b :: l => if b < a then b :: a :: l else a :: b :: l
  | l => l

/-- voronoi.h:202-225 : constructor. -/
def build (nodes : List K) : V K :=
  let nc := nodes.length - 1
  let s := (List.range nc).foldl (cellStep nodes) ⟨fun _ => 0, fun _ => false, fun _ => [], nc⟩
  { s with cells := fun v => sortCell (s.cells v) }

/-- voronoi.h:235 : `measure()`; indexing the vertex list of a cell out of range is undefined. -/
def measure (s : V K) (id : Nat) : Res K :=
  match s.cells id with
  | a :: b :: _ => .ok |s.verts b - s.verts a|
  | _ => .ub
/-- voronoi.h:236-238 -/
def cellOnBoundary (s : V K) (id : Nat) : Res Bool :=
  match s.cells id with
  | a :: b :: _ => .ok (s.markers a || s.markers b)
  | _ => .ub

/-- voronoi.h:267-284 : `locate` for one point; `minCoeff` returns the first minimum. -/
def locate (nodes : List K) (p : K) : Option (Res Int) :=
  match Mesh1D.locate nodes p with
  | some (.ok j) =>
    if j = -1 then some (.ok (-1))
    else
      let d0 := (nodes.getD j.toNat 0 - p) * (nodes.getD j.toNat 0 - p)
      let d1 := (nodes.getD (j.toNat + 1) 0 - p) * (nodes.getD (j.toNat + 1) 0 - p)
      some (.ok (if d1 < d0 then j + 1 else j))
  | r => r

end Fdapde.Voronoi
