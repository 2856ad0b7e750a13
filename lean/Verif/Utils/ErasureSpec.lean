import Verif.Utils.Erasure

/-!
# Value semantics

What variables which own their value mean: a variable is dead, or alive and empty, or alive and holding a value.  No pointers.
-/

namespace Fdapde.Utils

variable {V : Type}

/-- `none`: dead; `some none`: empty; `some (some v)`: holds `v`. -/
abbrev Vals (V : Type) := Nat → Option (Option V)

def Vals.set (a : Vals V) (x : Nat) (v : Option (Option V)) : Vals V := fun z => if z = x then v else a z

/-- What each operation does to the values. -/
def Op.effect (a : Vals V) : Op V → Vals V
  | .default x => a.set x (some none)
  | .make x v => a.set x (some (some v))
  | .copyCtor x y => a.set x (a y)
  | .moveCtor x y => (a.set x (a y)).set y (some none)
  | .copyAssign x y => a.set x (a y)
  | .moveAssign x y => (a.set x (a y)).set y (some none)
  | .assign x v => a.set x (some (some v))
  | .destroy x => a.set x none
  | .modify x f => a.set x ((a x).map (Option.map f))

/-- When an operation may be used: constructors on dead variables, everything else on live ones, method calls on holders, and no
assignment of a variable to itself. -/
def Op.Legal (a : Vals V) : Op V → Prop
  | .default x => a x = none
  | .make x _ => a x = none
  | .copyCtor x y => a x = none ∧ a y ≠ none
  | .moveCtor x y => a x = none ∧ a y ≠ none
  | .copyAssign x y => a x ≠ none ∧ a y ≠ none ∧ x ≠ y
  | .moveAssign x y => a x ≠ none ∧ a y ≠ none ∧ x ≠ y
  | .assign x _ => a x ≠ none
  | .destroy x => a x ≠ none
  | .modify x _ => ∃ v, a x = some (some v)

/-- Values after a history. -/
def effects (a : Vals V) : List (Op V) → Vals V
  | [] => a
  | op :: ops => effects (op.effect a) ops

/-- Every operation of the history is legal when it is executed. -/
def LegalHistory (a : Vals V) : List (Op V) → Prop
  | [] => True
  | op :: ops => op.Legal a ∧ LegalHistory (op.effect a) ops

/-- What a variable shows: the object behind its pointer (`none` inside: the object was deleted). -/
def World.view (w : World V) (x : Nat) : Option (Option (Option V)) :=
  (w.vars x).map fun s => s.ptr.map fun p => (w.heap[p]?).join

/-- A variable holds cell `p`. -/
def World.Holds (w : World V) (x p : Nat) : Prop := ∃ s, w.vars x = some s ∧ s.ptr = some p

/-- The objects which are not deleted. -/
def World.Live (w : World V) (p : Nat) : Prop := ∃ v, w.heap[p]? = some (some v)

end Fdapde.Utils
