import Verif.Utils.Storage

/-!
# Reference semantics

Variables which refer to objects: a variable is dead, or alive and empty, or alive and naming an object.  Objects are named by the order of
their creation.  No pointers, no counts, no deletion.
-/

namespace Fdapde.Utils
variable {V : Type}

structure Refs (V : Type) where
  /-- the values of all the objects ever created -/
  vals : List V
  /-- `none`: dead; `some none`: empty; `some (some p)`: names object `p` -/
  name : Nat → Option (Option Nat)

def Refs.set (a : Refs V) (x : Nat) (s : Option (Option Nat)) : Refs V := ⟨a.vals, fun z => if z = x then s else a.name z⟩

/-- What each operation means. -/
def SOp.effect (a : Refs V) : SOp V → Refs V
  | .default x => a.set x (some none)
  | .make x v => ⟨a.vals ++ [v], (a.set x (some (some a.vals.length))).name⟩
  | .copyCtor x y => a.set x (a.name y)
  | .moveCtor x y => (a.set y (some none)).set x (a.name y)
  | .copyAssign x y => a.set x (a.name y)
  | .moveAssign x y => (a.set y (some none)).set x (a.name y)
  | .assign x v => ⟨a.vals ++ [v], (a.set x (some (some a.vals.length))).name⟩
  | .destroy x => a.set x none
  | .modify x f =>
    match a.name x with
    | some (some p) => ⟨a.vals.modify p f, a.name⟩
    | _ => a

/-- When an operation may be used: constructors on dead variables, everything else on live ones, calls on variables naming an object.
Self-assignments are allowed. -/
def SOp.Legal (a : Refs V) : SOp V → Prop
  | .default x => a.name x = none
  | .make x _ => a.name x = none
  | .copyCtor x y => a.name x = none ∧ a.name y ≠ none
  | .moveCtor x y => a.name x = none ∧ a.name y ≠ none
  | .copyAssign x y => a.name x ≠ none ∧ a.name y ≠ none
  | .moveAssign x y => a.name x ≠ none ∧ a.name y ≠ none
  | .assign x _ => a.name x ≠ none
  | .destroy x => a.name x ≠ none
  | .modify x _ => ∃ p, a.name x = some (some p)

def seffects (a : Refs V) : List (SOp V) → Refs V
  | [] => a
  | op :: ops => seffects (op.effect a) ops

def SLegal (a : Refs V) : List (SOp V) → Prop
  | [] => True
  | op :: ops => op.Legal a ∧ SLegal (op.effect a) ops

def Refs.start : Refs V := ⟨[], fun _ => none⟩

/-- The object that a variable shows (`none` inside: it was deleted). -/
def SWorld.view (w : SWorld V) (x : Nat) : Option (Option (Option V)) :=
  (w.vars x).map fun s => s.map fun p => ((w.heap[p]?).join).map Prod.fst

/-- The object is not deleted. -/
def SWorld.Live (w : SWorld V) (p : Nat) : Prop := ∃ v, w.heap[p]? = some (some v)

/-! ## References to the objects of the user -/

/-- The values of the objects, and the name of each variable. -/
structure NRefs (V : Type) where
  objs : Nat → Option V
  name : Nat → Option (Option Nat)

def NRefs.set (a : NRefs V) (x : Nat) (s : Option (Option Nat)) : NRefs V := ⟨a.objs, fun z => if z = x then s else a.name z⟩
def NRefs.put (a : NRefs V) (o : Nat) (v : Option V) : NRefs V := ⟨fun z => if z = o then v else a.objs z, a.name⟩

def NOp.effect (a : NRefs V) : NOp V → NRefs V
  | .create o v => a.put o (some v)
  | .finish o => a.put o none
  | .change o f => a.put o ((a.objs o).map f)
  | .default x => a.set x (some none)
  | .make x o => a.set x (some (some o))
  | .copyCtor x y _ => a.set x (a.name y)
  | .moveCtor x y => a.set x (a.name y)
  | .assignVar x y => a.set x (a.name y)
  | .assign x o => a.set x (some (some o))
  | .destroy x => a.set x none
  | .modify x f =>
    match a.name x with
    | some (some o) => a.put o ((a.objs o).map f)
    | _ => a

/-- As above; moreover calls are made while the object named is alive, and storages are copied as the wrapper does. -/
def NOp.Legal (a : NRefs V) : NOp V → Prop
  | .create o _ => a.objs o = none
  | .finish o => a.objs o ≠ none
  | .change o _ => a.objs o ≠ none
  | .default x => a.name x = none
  | .make x o => a.name x = none ∧ a.objs o ≠ none
  | .copyCtor x y const => a.name x = none ∧ a.name y ≠ none ∧ const = true
  | .moveCtor x y => a.name x = none ∧ a.name y ≠ none
  | .assignVar x y => a.name x ≠ none ∧ a.name y ≠ none
  | .assign x o => a.name x ≠ none ∧ a.objs o ≠ none
  | .destroy x => a.name x ≠ none
  | .modify x _ => ∃ o, a.name x = some (some o) ∧ a.objs o ≠ none

def neffects (a : NRefs V) : List (NOp V) → NRefs V
  | [] => a
  | op :: ops => neffects (op.effect a) ops

def NLegal (a : NRefs V) : List (NOp V) → Prop
  | [] => True
  | op :: ops => op.Legal a ∧ NLegal (op.effect a) ops

def NRefs.start : NRefs V := ⟨fun _ => none, fun _ => none⟩

/-- An operation that only concerns storages and is not a call. -/
def NOp.Quiet : NOp V → Prop
  | .create .. | .finish .. | .change .. | .modify .. => False
  | _ => True

end Fdapde.Utils
