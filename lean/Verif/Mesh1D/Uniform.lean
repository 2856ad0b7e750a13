import Verif.Mesh1D.Model
import Verif.BinMtx.Model
import Mathlib.Algebra.Order.Field.Basic
/-
Model of uniform interval meshes and of the boundary of one dimensional meshes: fdaPDE/geometry/interval.h:58-70 and
fdaPDE/geometry/segment.h:32-39.  Coordinates are elements of an ordered field (rounding is not modelled).
-/
namespace Fdapde.Mesh1D
open BinMtx

section
variable {K : Type} [Field K] [LinearOrder K] [IsStrictOrderedRing K]

/-- Coefficient `i` of `DVector<double>::LinSpaced(n + 1, a, b)`: as documented by Eigen, steps from the end point of smaller
absolute value, with both end points met exactly. -/
def linSpaced (n : Nat) (a b : K) (i : Nat) : K :=
  if |b| < |a| then (if i = 0 then a else b - ((n : K) - (i : K)) * ((b - a) / n))
  else (if i = n then b else a + (i : K) * ((b - a) / n))

/-- interval.h:65 : nodes of `Triangulation<1,1>(a, b, n)`. -/
def uniform (n : Nat) (a b : K) : List K := (List.range (n + 1)).map (linSpaced n a b)
end

/-- interval.h:60-62 : `nodes_markers_`, for `n` nodes. -/
def markers (n : Nat) : Res BMat := (BMat.zero n 1).set 0 0 >>= fun m => m.set ((n : Int) - 1) 0

/-- interval.h:70 : `is_node_on_boundary(id)`. -/
def isNodeOnBoundary (n id : Nat) : Bool := id == 0 || id == n - 1

/-- segment.h:33-38 : `on_boundary()` of cell `c`: at least `n_nodes - 1 = 1` of its two nodes is on the boundary. -/
def segmentOnBoundary (cells : Nat → Nat → Nat) (nb : Nat → Bool) (c : Nat) : Bool :=
  decide (2 - 1 ≤ (List.range 2).countP fun v => nb (cells c v))

section
variable {α : Type}

/-- `range_.row(k) = r` (linear_network.h:65-66): `range_` has type `SVector<2>`, its rows have one coefficient.  Sizes that do
not match violate an assertion of Eigen. -/
def assignRow (r : List α) : Res α :=
  match r with
  | [x] => .ok x
  | _ => .ub

/-- linear_network.h:65-66 : the range of a network, from the rows of the smallest and of the largest coordinates. -/
def networkRange (lo hi : List α) : Res (α × α) := do
  let a ← assignRow lo
  let b ← assignRow hi
  .ok (a, b)
end

end Fdapde.Mesh1D
