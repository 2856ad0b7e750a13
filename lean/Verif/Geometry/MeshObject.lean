import Verif.Geometry.Search
import Verif.Common.Loop
/-
Meshes as C++ objects: fdaPDE/geometry/triangulation.h:251-267, 473-492.  A mesh keeps the structure of its last kind of point location
in `mutable std::optional<LocationPolicy> location_policy_`, built by the first `locate` or `node_patch` as `LocationPolicy(this)`, which
stores the address of the mesh (tree_search.h:34, 48).  The copy and move operations of the mesh are the implicit ones: they copy that address.
Objects are named by their addresses; an address can be used again after the object is destroyed.
-/
namespace Fdapde.Geometry
open KDTree BinTree

/-- tree_search.h:33-35 : the mesh `tree_` and `c_` were computed from (`none`: the tree has been moved away, and is empty) and `mesh_`. -/
structure Policy (M : Type) where
  built : Option M
  home : Nat

/-- A mesh object: what its members hold, `none` for an object that has been moved from, and `location_policy_`. -/
structure Obj (M : Type) where
  mesh : Option M
  pol : Option (Policy M)

/-- The objects by address. -/
abbrev Heap (M : Type) := Nat → Option (Obj M)

/-- What a program does with mesh objects. -/
inductive MOp (M Q : Type)
  | construct (x : Nat) (m : M)
  | copy (x y : Nat)
  | assign (x y : Nat)
  | move (x y : Nat)
  | moveAssign (x y : Nat)
  | destroy (x : Nat)
  | ask (x : Nat) (q : Q)

variable {M P Q A : Type}

def Heap.set (h : Heap M) (x : Nat) (o : Option (Obj M)) : Heap M := fun y => if y = x then o else h y

/-- An object that can be used; using one that does not exist is undefined. -/
def Heap.get (h : Heap M) (x : Nat) : Res (Obj M) := Res.ofOptionUB (h x)

/-- A new object at a free address. -/
def Heap.fresh (h : Heap M) (x : Nat) (o : Obj M) : Res (Heap M) :=
  match h x with
  | none => .ok (h.set x (some o))
  | some _ => .ub

/-- Copy of `location_policy_`: a copy of the tree, binary_tree.h:44-48, 256-273, and of the address.  Copying an empty tree throws
(`C15_bug_empty`, `C15_bug_assign_empty`). -/
def copyPolicy : Option (Policy M) → Res (Option (Policy M))
  | none => .ok none
  | some p => match p.built with
    | some b => .ok (some ⟨some b, p.home⟩)
    | none => .throws

/-- Assignment of `location_policy_` to itself: binary_tree.h:45-48, 256-273 on the same object (`C15_bug_self_assign`). -/
def selfPolicy : Option (Policy M) → Res (Option (Policy M))
  | none => .ok none
  | some p => match p.built with
    | some _ => .ub
    | none => .throws

/-- Assignment of `location_policy_`. -/
def assignPolicy (x y : Nat) (p : Option (Policy M)) : Res (Option (Policy M)) := if x = y then selfPolicy p else copyPolicy p

/-- What a move leaves behind: an engaged optional whose tree is empty, binary_tree.h:275-286. -/
def emptied (o : Obj M) : Obj M := ⟨none, o.pol.map fun p => ⟨none, p.home⟩⟩

/-- triangulation.h:252-260, 474-482 : the first request builds `location_policy_`. -/
def ensure (x : Nat) (m : M) : Option (Policy M) → Policy M
  | none => ⟨some m, x⟩
  | some p => p

/-- A request answered by the policy: the tree of `built` and what is at the address `home` are read. -/
def Policy.answer (search : M → M → P → Res A) (h : Heap M) (p : Policy M) (pt : P) : Res A := do
  let b ← Res.ofOptionUB p.built
  let o ← h.get p.home
  let m ← Res.ofOptionUB o.mesh
  search b m pt

/-- One operation; the answer if there is one.  `point` is what is read of the object itself (`Base::node(id)` in `node_patch`),
`search built home` the location with the tree of `built` and the cells of `home`.  Using an object that has been moved from reads matrices
without rows; moving an object to itself leaves its `std::vector` members unspecified, taken as undefined. -/
def MOp.exec (point : M → Q → Res P) (search : M → M → P → Res A) (h : Heap M) : MOp M Q → Res (Heap M × Option A)
  | .construct x m => do
      let h' ← h.fresh x ⟨some m, none⟩
      return (h', none)
  | .copy x y => do
      let o ← h.get y
      let p ← copyPolicy o.pol
      let h' ← h.fresh x ⟨o.mesh, p⟩
      return (h', none)
  | .assign x y => do
      let _ ← h.get x
      let o ← h.get y
      let p ← assignPolicy x y o.pol
      return (h.set x (some ⟨o.mesh, p⟩), none)
  | .move x y => do
      let o ← h.get y
      let h' ← h.fresh x o
      return (h'.set y (some (emptied o)), none)
  | .moveAssign x y => do
      let _ ← h.get x
      let o ← h.get y
      if x = y then .ub else return ((h.set x (some o)).set y (some (emptied o)), none)
  | .destroy x => do
      let _ ← h.get x
      return (h.set x none, none)
  | .ask x q => do
      let o ← h.get x
      let m ← Res.ofOptionUB o.mesh
      let pt ← point m q
      let p := ensure x m o.pol
      let h' := h.set x (some ⟨some m, some p⟩)
      let a ← p.answer search h' pt
      return (h', some a)

/-- A program: the answers to its requests, in order. -/
def runOps (point : M → Q → Res P) (search : M → M → P → Res A) (ops : List (MOp M Q)) : Res (Heap M × List A) :=
  foldRes (fun s op => do
    let r ← op.exec point search s.1
    return (r.1, s.2 ++ r.2.toList)) (fun _ => none, []) ops

/-! ### Triangulations with the tree search -/

noncomputable section
variable {d N : Nat}

/-- A triangulation: nodes, cells (rows of `d + 1` nodes). -/
structure TMesh (d N : Nat) where
  nNodes : Nat
  X : Nat → Vec N
  n : Nat
  cells : Nat → Nat → Nat

/-- triangulation.h:54 : `nodes_.colwise().minCoeff()`. -/
def TMesh.lo (m : TMesh d N) (k : Fin N) : ℝ := (List.range m.nNodes).foldl (fun a i => min a (m.X i k)) (m.X 0 k)
/-- triangulation.h:55 : `nodes_.colwise().maxCoeff()`. -/
def TMesh.hi (m : TMesh d N) (k : Fin N) : ℝ := (List.range m.nNodes).foldl (fun a i => max a (m.X i k)) (m.X 0 k)

/-- What the tree search reads of the mesh; triangulation.h:61, triangle.h:40-45. -/
def TMesh.view (m : TMesh d N) : SMesh d N := ⟨fun c => ⟨fun v => m.X (m.cells c v)⟩, m.n, m.lo, m.hi⟩

/-- Requests: `locate(points)` and `node_patch(id)`. -/
inductive Query (N : Nat)
  | locate (ps : List (Vec N))
  | patch (id : Nat)

/-- The points of a request. -/
inductive Pts (N : Nat)
  | each (ps : List (Vec N))
  | one (p : Vec N)

/-- Answers of `locate` and of `node_patch`. -/
inductive Answer
  | ids (l : List Int)
  | cells (l : List Nat)
deriving DecidableEq

/-- triangulation.h:252, 257-259, 62 : a node which does not exist is read out of range. -/
def pointOf (m : TMesh d N) : Query N → Res (Pts N)
  | .locate ps => .ok (.each ps)
  | .patch id => if id < m.nNodes then .ok (.one (m.X id)) else .ub

/-- tree_search.h:37-43 : the normalisation of `b`, the corner of `h`. -/
def mixedQuery (b h : SMesh d N) (p : Vec N) : Box ℝ :=
  ⟨stack (fun _ => 0) (fun k => (p k - h.lo k) * b.c k), stack (fun k => (p k - h.lo k) * b.c k) (fun _ => 1)⟩

/-- tree_search.h:69, 78 : the search in the tree of `b`; `none`: the loops are not over, which does not happen (`C16_build`, `C16_range`). -/
def mixedCandidates (nth : Nat → Nat → List Nat → List Nat) (ord : List Nat → List Nat) (b h : SMesh d N) (p : Vec N) : Option (Res (List Nat)) :=
  (build nth b.data (2 * N) b.n).bind fun
    | .ok t => (rangeSearch b.data (2 * N) (mixedQuery b h p) t b.n).map fun r => ord <$> r
    | .throws => some .throws
    | .ub => some .ub

/-- tree_search.h:69-71, 78-80 : `mesh_->cell(id)`, which is out of range if `mesh_` has less cells, and `contains`. -/
def tryCell (h : SMesh d N) (eps : ℝ) (p : Vec N) (id : Nat) : Res Bool := if id < h.n then .ok (h.hit eps p id) else .ub

/-- tree_search.h:77-81 -/
def firstHit (h : SMesh d N) (eps : ℝ) (p : Vec N) : List Nat → Res Int
  | [] => .ok (-1)
  | id :: ids => do
      let b ← tryCell h eps p id
      if b then .ok id else firstHit h eps p ids

/-- tree_search.h:68-73 -/
def allHits (h : SMesh d N) (eps : ℝ) (p : Vec N) (ids : List Nat) : Res (List Nat) :=
  foldRes (fun acc id => do
    let b ← tryCell h eps p id
    return if b then acc ++ [id] else acc) [] ids

/-- tree_search.h:76-83 -/
def mixedLocate (nth : Nat → Nat → List Nat → List Nat) (ord : List Nat → List Nat) (eps : ℝ) (b h : SMesh d N) (p : Vec N) : Res Int := do
  let l ← (mixedCandidates nth ord b h p).getD .ub
  firstHit h eps p l

/-- tree_search.h:67-74 -/
def mixedAll (nth : Nat → Nat → List Nat → List Nat) (ord : List Nat → List Nat) (eps : ℝ) (b h : SMesh d N) (p : Vec N) : Res (List Nat) := do
  let l ← (mixedCandidates nth ord b h p).getD .ub
  allHits h eps p l

/-- tree_search.h:84-89, triangulation.h:252-260 -/
def treeAnswer (nth : Nat → Nat → List Nat → List Nat) (ord : List Nat → List Nat) (eps : ℝ) (b h : TMesh d N) : Pts N → Res Answer
  | .each ps => Answer.ids <$> foldRes (fun acc p => do
      let i ← mixedLocate nth ord eps b.view h.view p
      return acc ++ [i]) [] ps
  | .one p => Answer.cells <$> mixedAll nth ord eps b.view h.view p

end
end Fdapde.Geometry
