import Verif.Common.Res
/-
Model of fdaPDE/utils/data_structures/binary_tree.h.

The pointer structure is modelled by an inductive tree; a null pointer is `nil`.  `parent_` pointers
(32, 182, 209, 251) are not modelled: no public operation reads them.  A node pointer / iterator is
either a subtree (when only the part below matters) or a path from the root (when it is used to
write).
-/
namespace Fdapde.BinTree

/-- binary_tree.h:30-38 : `node_type` (data, children, depth); `nil` is `nullptr`. -/
inductive Tree (α : Type) where
  | nil
  | node (l : Tree α) (v : α) (d : Nat) (r : Tree α)
  deriving Repr, DecidableEq

namespace Tree
variable {α : Type}

/-- Truth value of a pointer. -/
def isNil : Tree α → Bool
  | nil => true
  | node .. => false

/-- A pointer pushed only if it is not null (`if (node->r_child_) stack_.push(...)`). -/
def toList? (t : Tree α) : List (Tree α) := if t.isNil then [] else [t]

/-- No children (the loop test at line 143 negated). -/
def isLeaf : Tree α → Bool
  | nil => false
  | node l _ _ r => l.isNil && r.isNil

end Tree

/-- binary_tree.h:288-289 : data members of `BinaryTree`. -/
structure BT (α : Type) where
  root : Tree α
  n : Nat
  deriving Repr, DecidableEq

/-- binary_tree.h:41 : default constructor. -/
def BT.empty {α : Type} : BT α := ⟨.nil, 0⟩

/-- binary_tree.h:43 : construction from root data. -/
def BT.single {α : Type} (x : α) : BT α := ⟨.node .nil x 0 .nil, 1⟩

/-! ### Iterators -/

/-- binary_tree.h:60, 76 / 100 / 124 : an iterator: current node and stack (head = top) or queue
(head = front). -/
structure Iter (α : Type) where
  node : Tree α
  store : List (Tree α)

/-- binary_tree.h:80, 104 : constructor from a node pointer. -/
def Iter.start {α : Type} (t : Tree α) : Iter α := ⟨t, [t]⟩

/-- binary_tree.h:81-91 : `dfs_iterator::operator++`.  Dereferencing a null `node` and popping an
empty stack are undefined. -/
def dfsNext {α : Type} (it : Iter α) : Res (Iter α) :=
  match it.store with
  | [] => .ub
  | _ :: s =>
    match it.node with
    | .nil => .ub
    | .node l _ _ r =>
      let s := r.toList? ++ s
      let s := l.toList? ++ s
      match s with
      | [] => .ok ⟨.nil, []⟩
      | t :: _ => .ok ⟨t, s⟩

/-- binary_tree.h:105-115 : `bfs_iterator::operator++`. -/
def bfsNext {α : Type} (it : Iter α) : Res (Iter α) :=
  match it.store with
  | [] => .ub
  | _ :: q =>
    match it.node with
    | .nil => .ub
    | .node l _ _ r =>
      let q := q ++ l.toList?
      let q := q ++ r.toList?
      match q with
      | [] => .ok ⟨.nil, []⟩
      | t :: _ => .ok ⟨t, q⟩

/-- binary_tree.h:133-145 : `leaf_iterator::operator++`: repeat the depth-first step until the
current node is a leaf or the stack is empty.  `fuel` bounds the number of repetitions; running
out of fuel (never, see `Props.lean`) is reported as `ub`. -/
def leafNext {α : Type} : Nat → Iter α → Res (Iter α)
  | 0, _ => .ub
  | fuel + 1, it =>
    match dfsNext it with
    | .ok it' => if it'.node.isNil || it'.node.isLeaf then .ok it' else leafNext fuel it'
    | .throws => .throws
    | .ub => .ub

/-- binary_tree.h:128-132 : `leaf_iterator` constructor (advances at once when not null). -/
def leafStart {α : Type} (fuel : Nat) (t : Tree α) : Res (Iter α) :=
  if t.isNil then .ok (Iter.start t) else leafNext fuel (Iter.start t)

/-- `operator*` (line 66). -/
def deref {α : Type} (it : Iter α) : Res α :=
  match it.node with
  | .nil => .ub
  | .node _ v _ _ => .ok v

/-- The loop `for (it = begin; it != end; ++it) out.push_back(*it);` where `end` has a null node
(64-65, 94, 118, 148).  At most `fuel` iterations; `none` if the loop did not finish. -/
def collect {α : Type} (next : Iter α → Res (Iter α)) : Nat → Iter α → Option (Res (List α))
  | fuel, it =>
    if it.node.isNil then some (.ok [])
    else match fuel with
      | 0 => none
      | fuel + 1 =>
        match deref it with
        | .ok v =>
          match next it with
          | .ok it' => (collect next fuel it').map fun r => r.bind fun l => .ok (v :: l)
          | .throws => some .throws
          | .ub => some .ub
        | .throws => some .throws
        | .ub => some .ub

/-! ### Insertion -/

/-- binary_tree.h:169-189 : `push(data, less_than)`, the descent with the depth counter. -/
def insert {α : Type} (lt : α → α → Bool) (x : α) (depth : Nat) : Tree α → Tree α
  | .nil => .node .nil x depth .nil
  | .node l v d r =>
    if lt x v then .node (insert lt x (depth + 1) l) v d r
    else .node l v d (insert lt x (depth + 1) r)

/-- binary_tree.h:169-189, 340 : `push`. -/
def BT.push {α : Type} (lt : α → α → Bool) (t : BT α) (x : α) : BT α :=
  ⟨insert lt x 0 t.root, t.n + 1⟩

/-- binary_tree.h:190-196, 341 : push of an initializer list; on an empty list `data.end() - 1`
and the final `*it` are out of range. -/
def BT.pushList {α : Type} (lt : α → α → Bool) (t : BT α) : List α → Res (BT α)
  | [] => .ub
  | [x] => .ok (t.push lt x)
  | x :: y :: xs => BT.pushList lt (t.push lt x) (y :: xs)

/-- A position: path from the root, `true` = left child. -/
abbrev Path := List Bool

/-- The node pointer at a position. -/
def sub {α : Type} : Tree α → Path → Tree α
  | t, [] => t
  | .nil, _ :: _ => .nil
  | .node l _ _ _, true :: p => sub l p
  | .node _ _ _ r, false :: p => sub r p

/-- binary_tree.h:203-214, 245-256 : effect of `emplace`/`push_` below the node at a position;
returns the new tree and whether a node was created.  Dereferencing a null position is undefined. -/
def childPut {α : Type} (x : α) (left : Bool) : Tree α → Path → Res (Tree α × Bool)
  | .nil, _ => .ub
  | .node l v d r, [] =>
    if left then
      match l with
      | .nil => .ok (.node (.node .nil x (d + 1) .nil) v d r, true)
      | .node ll _ ld lr => .ok (.node (.node ll x ld lr) v d r, false)
    else
      match r with
      | .nil => .ok (.node l v d (.node .nil x (d + 1) .nil), true)
      | .node rl _ rd rr => .ok (.node l v d (.node rl x rd rr), false)
  | .node l v d r, true :: p => do
    let (l', b) ← childPut x left l p
    return (.node l' v d r, b)
  | .node l v d r, false :: p => do
    let (r', b) ← childPut x left r p
    return (.node l v d r', b)

/-- binary_tree.h:199-200, 203-221, 245-256 : `push_left/push_right/emplace` at a position. -/
def BT.pushAt {α : Type} (t : BT α) (p : Path) (left : Bool) (x : α) : Res (BT α) := do
  let (r, new) ← childPut x left t.root p
  return ⟨r, if new then t.n + 1 else t.n⟩

/-! ### Erase -/

/-- binary_tree.h:227-232 : `erase(pos)`: deletes the nodes of the subtree at `pos` in depth-first
order, then resets root and counter.  Returns the deleted nodes' data and the new tree. -/
def BT.erase {α : Type} (t : BT α) (p : Path) : Res (List α × BT α) :=
  match collect dfsNext (t.n + 1) (Iter.start (sub t.root p)) with
  | some (.ok freed) => .ok (freed, ⟨.nil, 0⟩)
  | _ => .ub

/-- binary_tree.h:234-236 : `clear()`. -/
def BT.clear {α : Type} (t : BT α) : Res (List α × BT α) :=
  if t.n = 0 then .ok ([], t) else t.erase []

/-! ### Copy and move -/

/-- State of the loop of `clone_` (264-272): iterator on the source, destination tree, queue of
destination positions, `current`. -/
structure CloneSt (α : Type) where
  it : Iter α
  dst : BT α
  queue : List Path
  current : Path

/-- binary_tree.h:269, 270 : `if (it.node->child) queue_.push(push_side(current, it.node->child->data_))`. -/
def cloneChild {α : Type} (current : Path) (left : Bool) (child : Tree α) (dst : BT α) (q : List Path) :
    Res (BT α × List Path) :=
  match child with
  | .nil => .ok (dst, q)
  | .node _ v _ _ =>
    match dst.pushAt current left v with
    | .ok d => .ok (d, q ++ [current ++ [left]])
    | .throws => .throws
    | .ub => .ub

/-- binary_tree.h:271 : `if (!queue_.empty()) current = queue_.front();`. -/
def headOr (current : Path) : List Path → Path
  | [] => current
  | p :: _ => p

/-- binary_tree.h:268-271 : body of the loop of `clone_`. -/
def cloneBody {α : Type} (s : CloneSt α) : Res (CloneSt α) :=
  match s.queue with
  | [] => .ub
  | _ :: q =>
    match s.it.node with
    | .nil => .ub
    | .node l _ _ r => do
      let (dst, q) ← cloneChild s.current true l s.dst q
      let (dst, q) ← cloneChild s.current false r dst q
      return { s with dst := dst, queue := q, current := headOr s.current q }

/-- binary_tree.h:267-272 : the loop of `clone_`; at most `fuel` iterations (`none` otherwise). -/
def cloneLoop {α : Type} : Nat → CloneSt α → Option (Res (CloneSt α))
  | fuel, s =>
    if s.it.node.isNil then some (.ok s)
    else match fuel with
      | 0 => none
      | fuel + 1 =>
        match (do
          let s ← cloneBody s
          let it ← bfsNext s.it
          return { s with it := it }) with
        | .ok s' => cloneLoop fuel s'
        | .throws => some .throws
        | .ub => some .ub

/-- binary_tree.h:45, 258-273 : copy construction from `other` (a different object; `clear()` on the
empty destination does nothing). -/
def BT.copyCtor {α : Type} (other : BT α) : Res (BT α) :=
  if other.n = 0 then .throws
  else match other.root with
    | .nil => .ub
    | .node _ v _ _ =>
      match cloneLoop other.n ⟨Iter.start other.root, ⟨.node .nil v 0 .nil, 1⟩, [[]], []⟩ with
      | some (.ok s) => .ok s.dst
      | some .throws => .throws
      | _ => .ub

/-- binary_tree.h:46-49 : copy assignment `dst = src` of two different objects: the old nodes of
`dst` are deleted first (260), then `src` is copied. -/
def BT.copyAssign {α : Type} (dst src : BT α) : Res (BT α) :=
  if src.n = 0 then .throws
  else do
    let _ ← dst.clear
    src.copyCtor

/-- binary_tree.h:46-49, 258-262 : self assignment `t = t`: `clear()` deletes all nodes and sets
`root_` to null, then `*other.root()` dereferences the null root. -/
def BT.selfAssign {α : Type} (t : BT α) : Res (BT α) :=
  if t.n = 0 then .throws
  else do
    let (_, t') ← t.clear
    match t'.root with
    | .nil => .ub
    | .node .. => t'.copyCtor

/-- binary_tree.h:51-55, 275-286 : `dst = std::move(src)` for two different objects; returns
`(dst, src)` after the move. -/
def BT.moveAssign {α : Type} (dst src : BT α) : Res (BT α × BT α) := do
  let (_, d) ← dst.clear
  if src.n = 0 then return (d, src)
  else match src.root with
    | .nil => .ub
    | .node l v _ r => return (⟨.node l v 0 r, src.n⟩, ⟨.nil, 0⟩)

/-! ### Binary search tree -/

/-- binary_tree.h:358-366 : `BST::find`.  The result is the node found (`some` subtree) or the end
iterator (`none`); evaluating `current->l_child_` for null `current` is undefined. -/
def find {α : Type} (lt eq : α → α → Bool) (x : α) : Tree α → Res (Option (Tree α))
  | .nil => .ub
  | .node l v d r =>
    if l.isNil && r.isNil then .ok none
    else if eq v x then .ok (some (.node l v d r))
    else if lt x v then find lt eq x l
    else find lt eq x r

end Fdapde.BinTree
