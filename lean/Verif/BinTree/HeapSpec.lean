import Verif.BinTree.Heap
import Verif.BinTree.Spec
/- Specification for programs on several trees: value semantics. -/
namespace Fdapde.BinTree
variable {α : Type}

/-- The pointer is the root of the given tree (values, shape and depths) in the heap, all of whose nodes exist. -/
inductive Points (h : Mem α) : Option Nat → Tree α → Prop
  | nil : Points h none .nil
  | node (a : Nat) (c : Cell α) (l r : Tree α) (hc : h[a]? = some (some c)) (hl : Points h c.l l) (hr : Points h c.r r) :
    Points h (some a) (.node l c.data c.depth r)

/-- The values of the variables. -/
abbrev TVals (α : Type) := Nat → Option (BT α)

/-- Change the value of one variable. -/
def TVals.set (s : TVals α) (v : Nat) (t : Option (BT α)) : TVals α := fun u => if u = v then t else s u

/-- The value of a tree after putting `x` as a child of the node at a position. -/
def putValue (path : Path) (left : Bool) (x : α) (t : BT α) : Option (BT α) :=
  match t.pushAt path left x with
  | .ok t' => some t'
  | _ => none

/-- What a statement does to the values of the variables if copies are independent and moves empty their source. -/
def TOp.effect (s : TVals α) : TOp α → TVals α
  | .make v => s.set v (some BT.empty)
  | .makeRoot v x => s.set v (some (BT.single x))
  | .push lt v x => s.set v ((s v).map fun t => t.push lt x)
  | .pushAt v path left x => s.set v ((s v).bind (putValue path left x))
  | .copyCtor d o => s.set d (s o)
  | .copyAssign d o => s.set d (s o)
  | .moveCtor d o => (s.set d (s o)).set o (some BT.empty)
  | .moveAssign d o => (s.set d (s o)).set o (some BT.empty)
  | .clear v => s.set v (some BT.empty)
  | .destroy v => s.set v none

/-- Constructors run on new variables, everything else on existing ones; nodes are added below existing nodes; the source of a copy is not
empty and is not its destination. -/
def TOp.Legal (s : TVals α) : TOp α → Prop
  | .make v => s v = none
  | .makeRoot v _ => s v = none
  | .push _ v _ => ∃ t, s v = some t
  | .pushAt v path _ _ => ∃ t, s v = some t ∧ sub t.root path ≠ .nil
  | .copyCtor d o => s d = none ∧ ∃ t, s o = some t ∧ t.root ≠ .nil
  | .copyAssign d o => d ≠ o ∧ (∃ t, s d = some t) ∧ ∃ t, s o = some t ∧ t.root ≠ .nil
  | .moveCtor d o => s d = none ∧ ∃ t, s o = some t
  | .moveAssign d o => (∃ t, s d = some t) ∧ ∃ t, s o = some t
  | .clear v => ∃ t, s v = some t
  | .destroy v => ∃ t, s v = some t

/-- The values after a program. -/
def TVals.after (s : TVals α) : List (TOp α) → TVals α
  | [] => s
  | op :: ops => TVals.after (op.effect s) ops

/-- All the statements of a program are legal when they run. -/
def TVals.LegalProgram (s : TVals α) : List (TOp α) → Prop
  | [] => True
  | op :: ops => op.Legal s ∧ TVals.LegalProgram (op.effect s) ops

end Fdapde.BinTree
