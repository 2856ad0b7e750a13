import Verif.Geometry.MeshObject
import Verif.FEM.SpaceSpec
/-
What a program using mesh objects should observe: objects are values, each request is about the value of the object it is made on.
-/
namespace Fdapde.Geometry
variable {M Q : Type}

/-- The values of the objects: `none` if there is no object, `some none` if it has been moved from. -/
abbrev Values (M : Type) := Nat → Option (Option M)

def Values.set (v : Values M) (x : Nat) (o : Option (Option M)) : Values M := fun y => if y = x then o else v y

/-- Value semantics. -/
def valueStep (v : Values M) : MOp M Q → Values M
  | .construct x m => v.set x (some (some m))
  | .copy x y => v.set x (v y)
  | .assign x y => v.set x (v y)
  | .move x y => (v.set x (v y)).set y (some none)
  | .moveAssign x y => (v.set x (v y)).set y (some none)
  | .destroy x => v.set x none
  | .ask _ _ => v

/-- The request of an operation together with the mesh it is about. -/
def question (v : Values M) : MOp M Q → List (M × Q)
  | .ask x q => match v x with
    | some (some m) => [(m, q)]
    | _ => []
  | _ => []

/-- The requests of a program with the meshes they are about. -/
def questions : Values M → List (MOp M Q) → List (M × Q)
  | _, [] => []
  | v, op :: ops => question v op ++ questions (valueStep v op) ops

/-- The operation uses objects that exist and hold a mesh, and creates objects where there is none: what every C++ program does. -/
def Usable (v : Values M) : MOp M Q → Prop
  | .construct x _ => v x = none
  | .copy x y => v x = none ∧ ∃ m, v y = some (some m)
  | .assign x y => v x ≠ none ∧ ∃ m, v y = some (some m)
  | .move x y => v x = none ∧ ∃ m, v y = some (some m)
  | .moveAssign x y => x ≠ y ∧ v x ≠ none ∧ ∃ m, v y = some (some m)
  | .destroy x => v x ≠ none
  | .ask x _ => ∃ m, v x = some (some m)

/-- A program that uses its objects correctly. -/
def UsableAll : Values M → List (MOp M Q) → Prop
  | _, [] => True
  | v, op :: ops => Usable v op ∧ UsableAll (valueStep v op) ops

/-- The source of an object: the object whose first request built the search structure it uses, `none` if it has none. -/
abbrev Source := Nat → Option Nat

def Source.set (s : Source) (x : Nat) (o : Option Nat) : Source := fun y => if y = x then o else s y

/-- A request makes an object its own source, unless it has one; copies and moves hand it over. -/
def sourceStep (s : Source) : MOp M Q → Source
  | .construct x _ => s.set x none
  | .copy x y => s.set x (s y)
  | .assign x y => s.set x (s y)
  | .move x y => (s.set x (s y)).set y none
  | .moveAssign x y => (s.set x (s y)).set y none
  | .destroy x => s.set x none
  | .ask x _ => s.set x (some ((s x).getD x))

/-- No other object uses the search structure of `x`. -/
def Unshared (s : Source) (x : Nat) : Prop := ∀ z, z ≠ x → s z ≠ some x

/-- What the objects tolerate: an object is changed, moved from or destroyed only if no other object uses its search structure; it is not
moved from if it uses its own; and it is not assigned to itself once it has been asked. -/
def Careful (s : Source) : MOp M Q → Prop
  | .construct _ _ => True
  | .copy _ _ => True
  | .assign x y => Unshared s x ∧ (x = y → s x = none)
  | .move _ y => Unshared s y ∧ s y ≠ some y
  | .moveAssign x y => Unshared s x ∧ Unshared s y ∧ s y ≠ some y
  | .destroy x => Unshared s x
  | .ask _ _ => True

def CarefulAll : Source → List (MOp M Q) → Prop
  | _, [] => True
  | s, op :: ops => Careful s op ∧ CarefulAll (sourceStep s op) ops

/-! ### Right answers on a triangulation -/

section
variable {N : Nat}
open FEM

/-- The triangulation has cells, they have nodes of the mesh as vertices and are proper simplices. -/
def TMesh.Valid (m : TMesh N N) : Prop :=
  0 < m.n ∧ (∀ c < m.n, ∀ v < N + 1, m.cells c v < m.nNodes) ∧ Proper (N + 1) m.n m.cells m.X

/-- The request makes sense: any points; the patch of a vertex of some cell, in a conforming triangulation. -/
def TMesh.Sensible (m : TMesh N N) : Query N → Prop
  | .locate _ => True
  | .patch id => Conforming (N + 1) m.n m.cells m.X ∧ ∃ c < m.n, ∃ v < N + 1, m.cells c v = id

/-- `locate`: for each point -1 if it is outside of the domain, a cell which contains it otherwise; `node_patch`: the cells with that vertex, each
once. -/
def TMesh.Correct (m : TMesh N N) : Query N → Answer → Prop
  | .locate ps, .ids l => List.Forall₂ (fun p i => (i = -1 ∧ p ∉ domain (N + 1) m.n m.cells m.X) ∨
      ∃ c < m.n, i = (c : Int) ∧ p ∈ region (N + 1) m.cells m.X c) ps l
  | .patch id, .cells l => l.Nodup ∧ ∀ c, c ∈ l ↔ c < m.n ∧ ∃ v < N + 1, m.cells c v = id
  | _, _ => False

end
end Fdapde.Geometry
