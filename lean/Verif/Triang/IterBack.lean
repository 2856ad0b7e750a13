import Verif.BinMtx.Model
/-
Model of the bidirectional iterators of meshes as they are stored: fdaPDE/geometry/utils.h:69-117 (`index_based_iterator`,
the iterator over cells of every mesh) and the generic iterator of a 3D triangulation, fdaPDE/geometry/triangulation.h:274-305.
An entity is represented by its id.  `index_` is an `int`; the value is `none` before it is first assigned.  Building the
view of an entity whose id is not below the number `n` of entities reads outside the tables of the mesh.
`operator++(int)` and `operator--(int)` (utils.h:87-96) build an iterator from a pointer to an iterator where a pointer to a
mesh is expected, they do not compile.
-/
namespace Fdapde.Triang
open BinMtx

/-- Data members of an iterator, utils.h:71-73. -/
structure It where
  index : Int
  val : Option Nat
deriving DecidableEq

/-- `mesh_->cell(i)`, `ValueType(i, mesh_)`. -/
def entity (n : Nat) (i : Int) : Res Nat := if 0 ≤ i ∧ i < n then .ok i.toNat else .ub

/-! ### Iterators over cells -/

/-- triangulation.h:82-84, interval.h:88-90 : iterator at `index`, `n` cells. -/
def cellAt (n : Nat) (index : Int) : Res It := if index < n then (fun v => ⟨index, some v⟩) <$> entity n index else .ok ⟨index, none⟩

/-- utils.h:97-101 : `++it`. -/
def It.inc (n : Nat) (it : It) : Res It :=
  if it.index + 1 < n then (fun v => ⟨it.index + 1, some v⟩) <$> entity n (it.index + 1) else .ok ⟨it.index + 1, it.val⟩

/-- utils.h:102-106 : `--it`. -/
def It.dec (n : Nat) (it : It) : Res It :=
  if 0 ≤ it.index - 1 then (fun v => ⟨it.index - 1, some v⟩) <$> entity n (it.index - 1) else .ok ⟨it.index - 1, it.val⟩

/-- utils.h:107-110 : `it + i`.  The result is a reference to `it`, so that this is also the new state of `it`. -/
def It.plus (n : Nat) (it : It) (i : Int) : Res It := (fun v => ⟨it.index + i, some v⟩) <$> entity n (it.index + i)

/-- utils.h:111-114 : `it - i`, as above. -/
def It.minus (n : Nat) (it : It) (i : Int) : Res It := (fun v => ⟨it.index - i, some v⟩) <$> entity n (it.index - i)

/-- `*it`; reading the view before it is assigned gives a cell bound to no mesh, taken as undefined. -/
def It.deref (it : It) : Res Nat := Res.ofOptionUB it.val

/-- `while (it != begin) { --it; use(*it); }` for an iterator whose decrement is `prev`; `none`: fuel too short. -/
def backward (prev : It → Res It) (b : Int) : Nat → It → Option (Res (List Nat))
  | 0, _ => none
  | f + 1, it =>
    if it.index = b then some (.ok []) else
      match prev it with
      | .ok it' =>
        match it'.deref with
        | .ok v => (backward prev b f it').map fun r => (fun l => v :: l) <$> r
        | .throws => some .throws
        | .ub => some .ub
      | .throws => some .throws
      | .ub => some .ub

/-- `for (it = begin; it != end; ++it) use(*it);` -/
def forward (next : It → Res It) (e : Int) : Nat → It → Option (Res (List Nat))
  | 0, _ => none
  | f + 1, it =>
    if it.index = e then some (.ok []) else
      match it.deref with
      | .ok v =>
        match next it with
        | .ok it' => (forward next e f it').map fun r => (fun l => v :: l) <$> r
        | .throws => some .throws
        | .ub => some .ub
      | .throws => some .throws
      | .ub => some .ub

/-! ### The generic iterator of a 3D triangulation -/

/-- triangulation.h:281 : `for (; index_ < end_ && !filter_[index_]; ++index_);`, at most `m` steps. -/
def skipUp (filter : BMat) (n : Nat) : Nat → Int → Res Int
  | 0, i => .ok i
  | m + 1, i => if i < n then do
      let b ← filter.read i 0
      if b then .ok i else skipUp filter n m (i + 1)
    else .ok i

/-- triangulation.h:299 : `for (; index_ >= begin_ && !filter_[index_]; --index_);`, at most `m` steps. -/
def skipDown (filter : BMat) : Nat → Int → Res Int
  | 0, i => .ok i
  | m + 1, i => if 0 ≤ i then do
      let b ← filter.read i 0
      if b then .ok i else skipDown filter m (i - 1)
    else .ok i

/-- triangulation.h:282-284 : after the skipping loop. -/
def land (n : Nat) (v : Option Nat) (i : Int) : Res It :=
  if i = n then .ok ⟨i, v⟩ else (fun w => ⟨i + 1, some w⟩) <$> entity n i

/-- triangulation.h:280-285 : `next_`. -/
def It.next (filter : BMat) (n : Nat) (it : It) : Res It := skipUp filter n (n - it.index).toNat it.index >>= land n it.val

/-- triangulation.h:300-303 : after the skipping loop. -/
def landBack (n : Nat) (v : Option Nat) (i : Int) : Res It :=
  if i = -1 then .ok ⟨i, v⟩ else (fun w => ⟨i - 1, some w⟩) <$> entity n i

/-- triangulation.h:298-304 : `--it`. -/
def It.prev (filter : BMat) (n : Nat) (it : It) : Res It := skipDown filter (it.index + 1).toNat it.index >>= landBack n it.val

/-- triangulation.h:287-291 : iterator at `index`. -/
def at3 (filter : BMat) (n : Nat) (index : Int) : Res It := It.next filter n ⟨index, none⟩

/-- Forward traversal from `begin` to `end`. -/
def all3 (filter : BMat) (n : Nat) : Option (Res (List Nat)) :=
  match at3 filter n 0, at3 filter n n with
  | .ok b, .ok e => forward (It.next filter n) e.index (n + 2) b
  | .throws, _ => some .throws
  | _, .throws => some .throws
  | _, _ => some .ub

/-- triangulation.h:292-293, 432-437 : all the faces; the default filter has one bit for each *edge*. -/
def allFaces (nFaces nEdges : Nat) : Option (Res (List Nat)) := all3 (BMat.ones nEdges 1) nFaces

/-- triangulation.h:292-293, 423-428 : all the edges. -/
def allEdges (nEdges : Nat) : Option (Res (List Nat)) := all3 (BMat.ones nEdges 1) nEdges

end Fdapde.Triang
