import Verif.Common.Res
import Verif.Common.Loop

/-!
# Shared and non-owning storage

Model of `shared_storage` and `non_owning_storage` of `fdaPDE/utils/type_erasure.h` (96-122).  `std::shared_ptr` is modelled by its
specification: every object has a count of its owners, a copy adds one, releasing removes one and deletes the object at zero.
-/

namespace Fdapde.Utils
variable {V : Type}

/-! ## Shared storage -/

/-- Every object ever allocated with the number of its owners (`none`: deleted), and the live variables with their pointer. -/
structure SWorld (V : Type) where
  heap : List (Option (V × Nat))
  vars : Nat → Option (Option Nat)

/-- Copy of a `shared_ptr`: one more owner; undefined if the object is gone. -/
def acquire (heap : List (Option (V × Nat))) : Option Nat → Res (List (Option (V × Nat)))
  | none => .ok heap
  | some p =>
    match heap[p]? with
    | some (some (v, c)) => .ok (heap.set p (some (v, c + 1)))
    | _ => .ub

/-- Destruction of a `shared_ptr`: one owner less, the last one deletes the object. -/
def drop (heap : List (Option (V × Nat))) : Option Nat → Res (List (Option (V × Nat)))
  | none => .ok heap
  | some p =>
    match heap[p]? with
    | some (some (v, c)) => .ok (heap.set p (if c ≤ 1 then none else some (v, c - 1)))
    | _ => .ub

inductive SOp (V : Type)
  /-- `shared_storage x;` -/
  | default (x : Nat)
  /-- `shared_storage x(obj);` -/
  | make (x : Nat) (v : V)
  /-- `shared_storage x(y);` -/
  | copyCtor (x y : Nat)
  /-- `shared_storage x(std::move(y));` -/
  | moveCtor (x y : Nat)
  /-- `x = y;` -/
  | copyAssign (x y : Nat)
  /-- `x = std::move(y);` -/
  | moveAssign (x y : Nat)
  /-- `x = shared_storage(obj);` (`erase& operator=(const T&)`, type_erasure.h 254-255) -/
  | assign (x : Nat) (v : V)
  /-- the end of the lifetime of `x` -/
  | destroy (x : Nat)
  /-- a call which changes the held object -/
  | modify (x : Nat) (f : V → V)

def SWorld.slot (w : SWorld V) (x : Nat) : Res (Option Nat) := Res.ofOptionUB (w.vars x)

def SWorld.setVar (w : SWorld V) (heap : List (Option (V × Nat))) (x : Nat) (s : Option (Option Nat)) : SWorld V :=
  ⟨heap, fun z => if z = x then s else w.vars z⟩

/-- `shared_storage` (type_erasure.h 96-103), whose copies, moves and destruction are the implicit ones: assignments are copy (or move) and
swap, so that the old object is released last. -/
def SOp.exec (w : SWorld V) : SOp V → Res (SWorld V)
  | .default x => .ok (w.setVar w.heap x (some none))
  | .make x v => .ok (w.setVar (w.heap ++ [some (v, 1)]) x (some (some w.heap.length)))
  | .copyCtor x y => do
    let s ← w.slot y
    let heap ← acquire w.heap s
    .ok (w.setVar heap x (some s))
  | .moveCtor x y => do
    let s ← w.slot y
    .ok ((w.setVar w.heap y (some none)).setVar w.heap x (some s))
  | .copyAssign x y => do
    let t ← w.slot x
    let s ← w.slot y
    let heap ← acquire w.heap s
    let heap ← drop heap t
    .ok (w.setVar heap x (some s))
  | .moveAssign x y => do
    let t ← w.slot x
    let s ← w.slot y
    if x = y then .ok w
    else do
      let heap ← drop w.heap t
      .ok ((w.setVar heap y (some none)).setVar heap x (some s))
  | .assign x v => do
    let t ← w.slot x
    let heap ← drop (w.heap ++ [some (v, 1)]) t
    .ok (w.setVar heap x (some (some w.heap.length)))
  | .destroy x => do
    let t ← w.slot x
    let heap ← drop w.heap t
    .ok (w.setVar heap x none)
  | .modify x f => do
    let t ← w.slot x
    match t with
    | none => .ub
    | some p =>
      match w.heap[p]? with
      | some (some (v, c)) => .ok ⟨w.heap.set p (some (f v, c)), w.vars⟩
      | _ => .ub

def runSOps (w : SWorld V) (ops : List (SOp V)) : Res (SWorld V) := foldRes (fun w op => op.exec w) w ops

def SWorld.empty : SWorld V := ⟨[], fun _ => none⟩

/-! ## Non-owning storage -/

/-- What a `const void*` may point to: an object of the user, or another storage. -/
inductive Target
  | obj (o : Nat)
  | storage (x : Nat)
deriving DecidableEq

/-- The objects of the user which are alive and the live variables with their pointer. -/
structure NWorld (V : Type) where
  objs : Nat → Option V
  vars : Nat → Option (Option Target)

inductive NOp (V : Type)
  /-- lifetime of the object `o` of the user begins, ends, and its owner changes it -/
  | create (o : Nat) (v : V)
  | finish (o : Nat)
  | change (o : Nat) (f : V → V)
  /-- `non_owning_storage x;` -/
  | default (x : Nat)
  /-- `non_owning_storage x(obj);` -/
  | make (x o : Nat)
  /-- `non_owning_storage x(y);`, `y` const (as the wrapper does) or not -/
  | copyCtor (x y : Nat) (const : Bool)
  /-- `non_owning_storage x(std::move(y));` -/
  | moveCtor (x y : Nat)
  /-- `x = y;`, `x = std::move(y);` -/
  | assignVar (x y : Nat)
  /-- `x = non_owning_storage(obj);` -/
  | assign (x o : Nat)
  /-- the end of the lifetime of `x` -/
  | destroy (x : Nat)
  /-- a call through `x` which changes the object -/
  | modify (x : Nat) (f : V → V)

def NWorld.setVar (w : NWorld V) (x : Nat) (s : Option (Option Target)) : NWorld V := ⟨w.objs, fun z => if z = x then s else w.vars z⟩

def NWorld.setObj (w : NWorld V) (o : Nat) (v : Option V) : NWorld V := ⟨fun z => if z = o then v else w.objs z, w.vars⟩

def NWorld.slot (w : NWorld V) (x : Nat) : Res (Option Target) := Res.ofOptionUB (w.vars x)

/-- `non_owning_storage` (type_erasure.h 105-122).  Constructing from a non-const lvalue storage selects the constructor from an arbitrary
`T&` (111), a better match than the copy constructor (114).  Moves are copies of the pointer.  Calling through a null pointer, a pointer to
an object that is gone or a pointer to a storage is undefined. -/
def NOp.exec (w : NWorld V) : NOp V → Res (NWorld V)
  | .create o v => .ok (w.setObj o (some v))
  | .finish o => .ok (w.setObj o none)
  | .change o f => do
    let v ← Res.ofOptionUB (w.objs o)
    .ok (w.setObj o (some (f v)))
  | .default x => .ok (w.setVar x (some none))
  | .make x o => .ok (w.setVar x (some (some (.obj o))))
  | .copyCtor x y const => do
    let s ← w.slot y
    .ok (w.setVar x (some (if const then s else some (.storage y))))
  | .moveCtor x y => do
    let s ← w.slot y
    .ok (w.setVar x (some s))
  | .assignVar x y => do
    let _ ← w.slot x
    let s ← w.slot y
    .ok (w.setVar x (some s))
  | .assign x o => do
    let _ ← w.slot x
    .ok (w.setVar x (some (some (.obj o))))
  | .destroy x => do
    let _ ← w.slot x
    .ok (w.setVar x none)
  | .modify x f => do
    let t ← w.slot x
    match t with
    | some (.obj o) => do
      let v ← Res.ofOptionUB (w.objs o)
      .ok (w.setObj o (some (f v)))
    | _ => .ub

def runNOps (w : NWorld V) (ops : List (NOp V)) : Res (NWorld V) := foldRes (fun w op => op.exec w) w ops

def NWorld.empty : NWorld V := ⟨fun _ => none, fun _ => none⟩

end Fdapde.Utils
