import Verif.BinTree.Model
/-
Model of fdaPDE/utils/data_structures/binary_tree.h at the level of pointers: nodes live in a heap, a tree is a variable holding a pointer
to its root and a counter, and programs act on any number of trees (constructors, `push`, `push_left`/`push_right`/`emplace`, copy, move,
`clear`, destruction).  Addresses are never reused.  Loops take a bound on the number of their iterations; reaching it is reported as
undefined behaviour, so that a successful run is a terminating one.  Not modelled: `erase` below the root (see C14), exceptions thrown by
`new` or by the element type.
-/
namespace Fdapde.BinTree
variable {α : Type}

/-- binary_tree.h:30-33 : `node_type`. -/
structure Cell (α : Type) where
  data : α
  parent : Option Nat
  l : Option Nat
  r : Option Nat
  depth : Nat

/-- The heap: `none` is a deleted node. -/
abbrev Mem (α : Type) := List (Option (Cell α))

/-- Reading through a pointer: null and dangling pointers are undefined behaviour. -/
def Mem.get (h : Mem α) (p : Option Nat) : Res (Cell α) :=
  match p with
  | none => .ub
  | some a =>
    match h[a]? with
    | some (some c) => .ok c
    | _ => .ub

/-- Writing a node that was read before. -/
def Mem.put (h : Mem α) (a : Nat) (c : Cell α) : Mem α := h.set a (some c)

/-- binary_tree.h:289-290 : the data members of a `BinaryTree` variable. -/
structure TreeVar where
  root : Option Nat
  n : Nat
  deriving DecidableEq

/-- All the variables of a program (`none`: not constructed, or destroyed) and the heap. -/
structure TWorld (α : Type) where
  mem : Mem α
  vars : Nat → Option TreeVar

/-- Before the program starts. -/
def TWorld.start : TWorld α := ⟨[], fun _ => none⟩

/-- Write a variable. -/
def TWorld.setVar (w : TWorld α) (v : Nat) (t : Option TreeVar) : TWorld α := { w with vars := fun u => if u = v then t else w.vars u }

/-- Read a variable; there must be one. -/
def TWorld.var (w : TWorld α) (v : Nat) : Res TreeVar :=
  match w.vars v with
  | none => .ub
  | some t => .ok t

/-- binary_tree.h:81-91, 227-232 : the loop `for (it = dfs_begin(pos); it != dfs_end(); ++it, delete tmp) tmp = it.node`.  The stack of the
iterator has its top in front; `delete` of a deleted node is undefined. -/
def eraseLoop : Nat → Mem α → List (Option Nat) → Option Nat → Res (Mem α)
  | _, h, _, none => .ok h
  | 0, _, _, some _ => .ub
  | fuel + 1, h, stack, some a =>
    match h.get (some a) with
    | .ok c =>
      match stack with
      | [] => .ub
      | _ :: s =>
        let s := c.r.toList.map some ++ s
        let s := c.l.toList.map some ++ s
        eraseLoop fuel (h.set a none) s (s.headD none)
    | _ => .ub

/-- binary_tree.h:227-236 : `clear()`: the heap and the variable afterwards. -/
def clearTree (h : Mem α) (t : TreeVar) : Res (Mem α × TreeVar) :=
  if t.n = 0 then .ok (h, t)
  else do
    let h ← eraseLoop (h.length + 1) h [t.root] t.root
    return (h, ⟨none, 0⟩)

/-- binary_tree.h:175-188 : the loop of `push`: descend from `current`, then add a node and link it to its parent. -/
def pushLoop (lt : α → α → Bool) (x : α) : Nat → Mem α → Nat → Nat → Res (Mem α)
  | 0, _, _, _ => .ub
  | fuel + 1, h, depth, current =>
    match h.get (some current) with
    | .ok c =>
      match (if lt x c.data then c.l else c.r) with
      | none =>
        let c' := if lt x c.data then { c with l := some h.length } else { c with r := some h.length }
        .ok (Mem.put h current c' ++ [some ⟨x, some current, none, none, depth⟩])
      | some b => pushLoop lt x fuel h (depth + 1) b
    | _ => .ub

/-- binary_tree.h:169-189 : `push(data, less_than)` for comparisons that look at the data. -/
def pushTree (lt : α → α → Bool) (x : α) (h : Mem α) (t : TreeVar) : Res (Mem α × TreeVar) :=
  match t.root with
  | none => .ok (h ++ [some ⟨x, none, none, none, 0⟩], ⟨some h.length, t.n + 1⟩)
  | some a => do
    let h' ← pushLoop lt x (h.length + 1) h 1 a
    return (h', { t with n := t.n + 1 })

/-- binary_tree.h:68-69 : the pointer reached from a root by `l_child()` (`true`) and `r_child()` (`false`). -/
def navigate (h : Mem α) : Option Nat → Path → Res (Option Nat)
  | p, [] => .ok p
  | p, b :: path =>
    match h.get p with
    | .ok c => navigate h (if b then c.l else c.r) path
    | _ => .ub

/-- binary_tree.h:245-256 (and `emplace`, 203-214) : `push_`: heap, pointer to the child, whether it is a new node. -/
def pushNode (h : Mem α) (p : Option Nat) (left : Bool) (x : α) : Res (Mem α × Nat × Bool) :=
  match p with
  | none => .ub
  | some a =>
    match h.get (some a) with
    | .ok c =>
      match (if left then c.l else c.r) with
      | some b =>
        match h.get (some b) with
        | .ok d => .ok (h.put b { d with data := x }, b, false)
        | _ => .ub
      | none =>
        let c' := if left then { c with l := some h.length } else { c with r := some h.length }
        .ok (Mem.put h a c' ++ [some ⟨x, some a, none, none, c.depth + 1⟩], h.length, true)
    | _ => .ub

/-- binary_tree.h:199-200, 217-223 : `push_left`, `push_right`, `emplace_left`, `emplace_right` at a node of the tree. -/
def pushAtTree (path : Path) (left : Bool) (x : α) (h : Mem α) (t : TreeVar) : Res (Mem α × TreeVar) := do
  let p ← navigate h t.root path
  let (h', _, new) ← pushNode h p left x
  return (h', { t with n := if new then t.n + 1 else t.n })

/-- State of the loop of `clone_`: heap, iterator on the source (node and queue), counter of the copy, queue of nodes of the copy, `current`. -/
structure HClone (α : Type) where
  mem : Mem α
  it : Option Nat
  store : List Nat
  n : Nat
  queue : List Nat
  current : Nat

/-- binary_tree.h:269, 270 : `if (it.node->child) queue_.push(push_side(current, it.node->child->data_))`. -/
def hcloneChild (left : Bool) (s : HClone α) : Res (HClone α) :=
  match s.mem.get s.it with
  | .ok c =>
    match (if left then c.l else c.r) with
    | none => .ok s
    | some b =>
      match s.mem.get (some b) with
      | .ok d =>
        match pushNode s.mem (some s.current) left d.data with
        | .ok (h, a, new) => .ok { s with mem := h, n := if new then s.n + 1 else s.n, queue := s.queue ++ [a] }
        | _ => .ub
      | _ => .ub
  | _ => .ub

/-- binary_tree.h:268 : `queue_.pop()`. -/
def hclonePop (s : HClone α) : Res (HClone α) :=
  match s.queue with
  | [] => .ub
  | _ :: q => .ok { s with queue := q }

/-- binary_tree.h:271 : `if (!queue_.empty()) current = queue_.front()`. -/
def hcloneCurrent (s : HClone α) : HClone α := { s with current := s.queue.headD s.current }

/-- binary_tree.h:105-115 : `++it` on the source. -/
def hcloneNext (s : HClone α) : Res (HClone α) :=
  match s.store with
  | [] => .ub
  | _ :: q =>
    match s.mem.get s.it with
    | .ok c =>
      let q := q ++ c.l.toList
      let q := q ++ c.r.toList
      .ok { s with it := q.head?, store := q }
    | _ => .ub

/-- binary_tree.h:267-272 : the loop of `clone_`. -/
def hcloneLoop : Nat → HClone α → Res (HClone α)
  | 0, s => if s.it.isNone then .ok s else .ub
  | fuel + 1, s =>
    if s.it.isNone then .ok s
    else do
      let s ← hclonePop s
      let s ← hcloneChild true s
      let s ← hcloneChild false s
      let s ← hcloneNext (hcloneCurrent s)
      hcloneLoop fuel s

/-- binary_tree.h:258-273 : `clone_(other)` run on the variable `d`, `other` being the variable `s` (possibly the same one). -/
def cloneTree (w : TWorld α) (d s : Nat) : Res (TWorld α) := do
  let other ← w.var s
  if other.n = 0 then .throws
  else do
    let t ← w.var d
    let (h, t) ← clearTree w.mem t
    let w : TWorld α := TWorld.setVar (⟨h, w.vars⟩ : TWorld α) d (some t)
    let other ← w.var s
    match other.root with
    | none => .ub
    | some o =>
      let c ← w.mem.get (some o)
      let a := w.mem.length
      let st ← hcloneLoop (other.n + 1)
        ⟨w.mem ++ [some ⟨c.data, none, none, none, 0⟩], some o, [o], t.n + 1, [a], a⟩
      return TWorld.setVar (⟨st.mem, w.vars⟩ : TWorld α) d (some ⟨some a, st.n⟩)

/-- binary_tree.h:275-286 : `move_(other)` run on the variable `d`, `other` being the variable `s` (possibly the same one). -/
def moveTree (w : TWorld α) (d s : Nat) : Res (TWorld α) := do
  let t ← w.var d
  let (h, t) ← clearTree w.mem t
  let w : TWorld α := TWorld.setVar (⟨h, w.vars⟩ : TWorld α) d (some t)
  let other ← w.var s
  if other.n = 0 then return w
  else
    match other.root with
    | none => .ub
    | some o =>
      let c ← w.mem.get (some o)
      let a := w.mem.length
      let h : Mem α := (w.mem ++ [some (⟨c.data, none, c.l, c.r, 0⟩ : Cell α)]).set o none
      return (TWorld.setVar (⟨h, w.vars⟩ : TWorld α) d (some ⟨some a, other.n⟩)).setVar s (some ⟨none, 0⟩)

/-- The statements of programs on trees. -/
inductive TOp (α : Type) where
  | make (v : Nat)
  | makeRoot (v : Nat) (x : α)
  | push (lt : α → α → Bool) (v : Nat) (x : α)
  | pushAt (v : Nat) (path : Path) (left : Bool) (x : α)
  | copyCtor (d s : Nat)
  | copyAssign (d s : Nat)
  | moveCtor (d s : Nat)
  | moveAssign (d s : Nat)
  | clear (v : Nat)
  | destroy (v : Nat)

/-- One operation on the tree of a variable. -/
def TWorld.on (w : TWorld α) (v : Nat) (f : Mem α → TreeVar → Res (Mem α × TreeVar)) : Res (TWorld α) := do
  let t ← w.var v
  let (h, t) ← f w.mem t
  return TWorld.setVar (⟨h, w.vars⟩ : TWorld α) v (some t)

/-- A constructor must not run on a variable that exists. -/
def TWorld.fresh (w : TWorld α) (v : Nat) (t : TreeVar) : Res (TWorld α) :=
  match w.vars v with
  | some _ => .ub
  | none => .ok (w.setVar v (some t))

/-- binary_tree.h:41-55, 169-236, 242 : the statements. -/
def TWorld.exec (w : TWorld α) : TOp α → Res (TWorld α)
  | .make v => w.fresh v ⟨none, 0⟩
  | .makeRoot v x => Res.bind (w.fresh v ⟨some w.mem.length, 1⟩) fun w => .ok ⟨w.mem ++ [some ⟨x, none, none, none, 0⟩], w.vars⟩
  | .push lt v x => w.on v (pushTree lt x)
  | .pushAt v path left x => w.on v (pushAtTree path left x)
  | .copyCtor d s => Res.bind (w.fresh d ⟨none, 0⟩) fun w => cloneTree w d s
  | .copyAssign d s => cloneTree w d s
  | .moveCtor d s => Res.bind (w.fresh d ⟨none, 0⟩) fun w => moveTree w d s
  | .moveAssign d s => moveTree w d s
  | .clear v => w.on v clearTree
  | .destroy v => Res.bind (w.on v clearTree) fun w => .ok (w.setVar v none)

/-- A program. -/
def TWorld.run (w : TWorld α) : List (TOp α) → Res (TWorld α)
  | [] => .ok w
  | op :: ops => Res.bind (w.exec op) fun w => w.run ops

end Fdapde.BinTree
