import Verif.BinTree.Lemmas2
import Mathlib.Order.Defs.LinearOrder
import Mathlib.Algebra.Order.Ring.Defs
import Mathlib.Algebra.BigOperators.Group.Finset.Defs
/-
Model of fdaPDE/geometry/kd_tree.h.

Coordinates are elements of a linear order (range search) or of an ordered commutative ring (nearest
neighbour search) instead of doubles.  `data i d` is `data_(i, d)`; all rows read are ids stored in
the tree and all columns are reduced modulo `K`, so that no access to `data_` is out of range.
-/
namespace Fdapde.KDTree
open BinTree

/-- binary_tree.h:167-189 : `push(data, less_than)` where the comparator also sees the depth of the
node it compares with. -/
def insertBy {α : Type} (lt : α → α → Nat → Bool) (x : α) (depth : Nat) : BinTree.Tree α → BinTree.Tree α
  | .nil => .node .nil x depth .nil
  | .node l v d r =>
    if lt x v d then .node (insertBy lt x (depth + 1) l) v d r
    else .node l v d (insertBy lt x (depth + 1) r)

section order
variable {R : Type} [LT R] [LE R] [DecidableLT R] [DecidableLE R]

/-- kd_tree.h:68-70 : comparator used at insertion. -/
def kdLt (data : Nat → Nat → R) (K : Nat) (x v d : Nat) : Bool := decide (data x (d % K) < data v (d % K))

/-- kd_tree.h:48-54 : `point_set_t`. -/
structure Seg where
  b : Nat
  e : Nat
  dim : Nat
  deriving Repr, DecidableEq

/-- Local variables of the constructor (45-56). -/
structure BSt where
  ids : List Nat
  stack : List Seg
  sd : Nat
  tree : BT Nat

/-- kd_tree.h:64-66 : `std::nth_element(it + begin, it + median, it + end, by coordinate dim)`:
rearranges the range `[b, e)` with an arbitrary function `nth` (of the direction and of the position
of the median), about which only its contract is assumed in the theorems. -/
def nthRange (nth : Nat → Nat → List Nat → List Nat) (ids : List Nat) (s : Seg) (median : Nat) : List Nat :=
  ids.take s.b ++ nth s.dim (median - s.b) ((ids.drop s.b).take (s.e - s.b)) ++ ids.drop s.e

/-- kd_tree.h:59-74 : one iteration of the construction loop; reading past the end of `ids` (68) is
undefined. -/
def buildStep (nth : Nat → Nat → List Nat → List Nat) (data : Nat → Nat → R) (K : Nat) (s : BSt) : Res BSt :=
  match s.stack with
  | [] => .ok s
  | ps :: st =>
    let median := ps.b + (ps.e - ps.b) / 2
    let ids := nthRange nth s.ids ps median
    match ids[median]? with
    | none => .ub
    | some id =>
      let sd := (s.sd + 1) % K
      let st := if median - ps.b > 0 then ⟨ps.b, median, sd⟩ :: st else st
      let st := if ps.e - (median + 1) > 0 then ⟨median + 1, ps.e, sd⟩ :: st else st
      .ok ⟨ids, st, sd, ⟨insertBy (kdLt data K) id 0 s.tree.root, s.tree.n + 1⟩⟩

/-- kd_tree.h:58-75 : the construction loop, at most `fuel` iterations (`none` if not finished). -/
def buildLoop (nth : Nat → Nat → List Nat → List Nat) (data : Nat → Nat → R) (K : Nat) :
    Nat → BSt → Option (Res BSt)
  | 0, s => if s.stack = [] then some (.ok s) else none
  | fuel + 1, s =>
    if s.stack = [] then some (.ok s)
    else match buildStep nth data K s with
      | .ok s' => buildLoop nth data K fuel s'
      | .throws => some .throws
      | .ub => some .ub

/-- kd_tree.h:43-76 : constructor over `n` points in dimension `K`. -/
def build (nth : Nat → Nat → List Nat → List Nat) (data : Nat → Nat → R) (K n : Nat) : Option (Res (BT Nat)) :=
  (buildLoop nth data K n ⟨List.range n, [⟨0, n, 0⟩], 0, BT.empty⟩).map fun r => r.bind fun s => .ok s.tree

/-- kd_tree.h:121-123 : `RangeType`. -/
structure Box (R : Type) where
  ll : Nat → R
  ur : Nat → R

/-- kd_tree.h:132-137 : `contained`: loop over the dimensions with early exit. -/
def contained (data : Nat → Nat → R) (q : Box R) (i : Nat) : Nat → Nat → Bool
  | _, 0 => true
  | dim, m + 1 =>
    if data i dim > q.ur dim || data i dim < q.ll dim then false else contained data q i (dim + 1) m

/-- kd_tree.h:140-148 : the loop of `range_search`; `stack` head = top, `res` the inserted ids (most
recent first).  Dereferencing a null iterator is undefined; `none` when `fuel` iterations were not
enough. -/
def rangeLoop (data : Nat → Nat → R) (K : Nat) (q : Box R) :
    Nat → List (BinTree.Tree Nat) → List Nat → Option (Res (List Nat))
  | _, [], res => some (.ok res)
  | 0, _ :: _, _ => none
  | _ + 1, .nil :: _, _ => some .ub
  | fuel + 1, .node l v d r :: st, res =>
    let res := if contained data q v 0 K then v :: res else res
    let st := if !l.isNil && decide (data v (d % K) ≥ q.ll (d % K)) then l :: st else st
    let st := if !r.isNil && decide (data v (d % K) ≤ q.ur (d % K)) then r :: st else st
    rangeLoop data K q fuel st res

/-- kd_tree.h:125-150 : `range_search` on a tree. -/
def rangeSearch (data : Nat → Nat → R) (K : Nat) (q : Box R) (t : BT Nat) (fuel : Nat) : Option (Res (List Nat)) :=
  rangeLoop data K q fuel [t.root] []

end order

section ring
variable {R : Type} [CommRing R] [LinearOrder R] [IsStrictOrderedRing R]

/-- kd_tree.h:91-95 : the loop of `walk_down` from a non-null iterator; returns the pushed iterators
(last pushed first) on top of `st`.  Stepping to a missing child and asking for its children is
undefined. -/
def walk (data : Nat → Nat → R) (K : Nat) (p : Nat → R) : BinTree.Tree Nat → List (BinTree.Tree Nat) → Res (List (BinTree.Tree Nat))
  | .nil, _ => .ub
  | .node l v d r, st =>
    if l.isNil && r.isNil then .ok (.node l v d r :: st)
    else if p (d % K) < data v (d % K) then walk data K p l (.node l v d r :: st)
    else walk data K p r (.node l v d r :: st)

/-- kd_tree.h:88-96 : `walk_down`. -/
def walkDown (data : Nat → Nat → R) (K : Nat) (p : Nat → R) (t : BinTree.Tree Nat) (st : List (BinTree.Tree Nat)) :
    Res (List (BinTree.Tree Nat)) :=
  if t.isNil then .ok st else walk data K p t st

/-- kd_tree.h:105 : squared distance of a row of `data_` from `p`. -/
def sqDist (data : Nat → Nat → R) (K : Nat) (p : Nat → R) (i : Nat) : R :=
  ∑ k ∈ Finset.range K, (data i k - p k) * (data i k - p k)

/-- kd_tree.h:106 : `curr_dist < best_dist` (initially infinite). -/
def better : Option (Nat × R) → R → Bool
  | none, _ => true
  | some (_, bd), cd => decide (cd < bd)

/-- kd_tree.h:107-108 : the best point and its distance after the comparison. -/
def newBest (best : Option (Nat × R)) (v : Nat) (cd : R) : Nat × R :=
  if better best cd then (v, cd) else best.getD (v, cd)

/-- kd_tree.h:102-116 : the unwinding loop; `best = none` is the initial infinite distance.
Returns the id of the best node. -/
def nnLoop (data : Nat → Nat → R) (K : Nat) (p : Nat → R) :
    Nat → List (BinTree.Tree Nat) → Option (Nat × R) → Option (Res (Option Nat))
  | _, [], best => some (.ok (best.map Prod.fst))
  | 0, _ :: _, _ => none
  | _ + 1, .nil :: _, _ => some .ub
  | fuel + 1, .node l v d r :: st, best =>
    let cd := sqDist data K p v
    let best' := newBest best v cd
    if better best cd && decide (cd = 0) then some (.ok (some v))
    else
      let r' := data v (d % K) - p (d % K)
      if r' * r' < best'.2 then
        match walkDown data K p (if r' > 0 then l else r) st with
        | .ok st' => nnLoop data K p fuel st' (some best')
        | .throws => some .throws
        | .ub => some .ub
      else nnLoop data K p fuel st (some best')

/-- kd_tree.h:82-118 : `nn_search`; the result is the id of the returned iterator, `none` for the end
iterator. -/
def nnSearch (data : Nat → Nat → R) (K : Nat) (p : Nat → R) (t : BT Nat) (fuel : Nat) : Option (Res (Option Nat)) :=
  if t.n = 0 then some (.ok none)
  else match walkDown data K p t.root [] with
    | .ok st => nnLoop data K p fuel st none
    | .throws => some .throws
    | .ub => some .ub

end ring

end Fdapde.KDTree
