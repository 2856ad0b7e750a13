import Verif.Common.Res
import Verif.Common.Loop
import Verif.Utils.TypeLists

/-!
# Type erasure

Model of `fdaPDE/utils/type_erasure.h`.  Held objects live in a heap of numbered cells; a cell is emptied by `delete`.  Deleting or reading
an empty cell, and calling through a null function pointer, are undefined behaviour.  Only `heap_storage` is modelled; the vtable array is
owned by its handler and kept as a value.  The cast of an interface reference to `vtable_handler&` in `invoke` relies on all the (empty)
interfaces sharing the address of the handler; this is not modelled.
-/

namespace Fdapde.Utils

/-! ## Heap storage -/

/-- `heap_storage` (type_erasure.h 124-127): the pointer, and whether `del` and `copy` are set. -/
structure Slot where
  ptr : Option Nat
  fns : Bool
deriving DecidableEq

/-- All the objects ever allocated (`none`: deleted) and the live variables of type `heap_storage`. -/
structure World (V : Type) where
  heap : List (Option V)
  vars : Nat → Option Slot

variable {V : Type}

/-- `delete reinterpret_cast<T*>(ptr)`. -/
def delCell (heap : List (Option V)) (p : Nat) : Res (List (Option V)) :=
  match heap[p]? with
  | some (some _) => .ok (heap.set p none)
  | _ => .ub

/-- `if (ptr_) del(ptr_)` (type_erasure.h 142, 156, 169). -/
def release (heap : List (Option V)) (s : Slot) : Res (List (Option V)) :=
  match s.ptr with
  | none => .ok heap
  | some p => if s.fns then delCell heap p else .ub

/-- `other.ptr_ == nullptr ? nullptr : other.copy(other.ptr_)` (type_erasure.h 139, 144) with the function pointers of `other`. -/
def cloneSlot (heap : List (Option V)) (s : Slot) : Res (List (Option V) × Slot) :=
  match s.ptr with
  | none => .ok (heap, ⟨none, s.fns⟩)
  | some p =>
    if s.fns then
      match heap[p]? with
      | some (some v) => .ok (heap ++ [some v], ⟨some heap.length, s.fns⟩)
      | _ => .ub
    else .ub

/-- The operations on variables. -/
inductive Op (V : Type)
  /-- `heap_storage x;` -/
  | default (x : Nat)
  /-- `heap_storage x(obj);` -/
  | make (x : Nat) (v : V)
  /-- `heap_storage x(y);` -/
  | copyCtor (x y : Nat)
  /-- `heap_storage x(std::move(y));` -/
  | moveCtor (x y : Nat)
  /-- `x = y;` -/
  | copyAssign (x y : Nat)
  /-- `x = std::move(y);` -/
  | moveAssign (x y : Nat)
  /-- `x = heap_storage(obj);` (`erase& operator=(const T&)`, type_erasure.h 253) -/
  | assign (x : Nat) (v : V)
  /-- the end of the lifetime of `x` -/
  | destroy (x : Nat)
  /-- a call which changes the held object -/
  | modify (x : Nat) (f : V → V)

/-- The variable which must be alive. -/
def World.slot (w : World V) (x : Nat) : Res Slot := Res.ofOptionUB (w.vars x)

def World.setVar (w : World V) (heap : List (Option V)) (x : Nat) (s : Option Slot) : World V :=
  ⟨heap, fun z => if z = x then s else w.vars z⟩

/-- Model of the members of `heap_storage` (type_erasure.h 129-171). -/
def Op.exec (w : World V) : Op V → Res (World V)
  | .default x => .ok (w.setVar w.heap x (some ⟨none, false⟩))
  | .make x v => .ok (w.setVar (w.heap ++ [some v]) x (some ⟨some w.heap.length, true⟩))
  | .copyCtor x y => do
    let s ← w.slot y
    let (heap, s) ← cloneSlot w.heap s
    .ok (w.setVar heap x (some s))
  | .moveCtor x y => do
    let s ← w.slot y
    .ok ((w.setVar w.heap y (some ⟨none, false⟩)).setVar w.heap x (some s))
  | .copyAssign x y => do
    let t ← w.slot x
    let s ← w.slot y
    let heap ← release w.heap t
    let (heap, s) ← cloneSlot heap s
    .ok (w.setVar heap x (some s))
  | .moveAssign x y => do
    let t ← w.slot x
    let s ← w.slot y
    let heap ← release w.heap t
    .ok ((w.setVar heap y (some ⟨none, false⟩)).setVar heap x (some s))
  | .assign x v => do
    let t ← w.slot x
    let heap := w.heap ++ [some v]
    let heap ← release heap t
    .ok (w.setVar heap x (some ⟨some w.heap.length, true⟩))
  | .destroy x => do
    let t ← w.slot x
    let heap ← release w.heap t
    .ok (w.setVar heap x none)
  | .modify x f => do
    let t ← w.slot x
    match t.ptr with
    | none => .ub
    | some p =>
      match w.heap[p]? with
      | some (some v) => .ok (w.setVar (w.heap.set p (some (f v))) x (some t))
      | _ => .ub

/-- A history. -/
def runOps (w : World V) (ops : List (Op V)) : Res (World V) := foldRes (fun w op => op.exec w) w ops

def World.empty : World V := ⟨[], fun _ => none⟩

/-! ## Virtual tables -/

/-- `init_vtable<N, T>` (type_erasure.h 84-94): the functions written one after the other, starting at `N`; no overload for an empty list. -/
def initVtable {F : Type} : Nat → List F → List (Option F) → Option (List (Option F))
  | _, [], _ => none
  | n, [f], vt => if n < vt.length then some (vt.set n (some f)) else none
  | n, f :: g :: fs, vt => if n < vt.length then initVtable (n + 1) (g :: fs) (vt.set n (some f)) else none

/-- The offset table `std::unordered_map<std::type_index, int>`, as a list of keys with their value. -/
abbrev Offsets := List (Nat × Int)

/-- `offset_table_[key] = value`. -/
def setOffset (t : Offsets) (key : Nat) (value : Int) : Offsets :=
  match t with
  | [] => [(key, value)]
  | (k, v) :: t => if k = key then (k, value) :: t else (k, v) :: setOffset t key value

/-- An interface: its `typeid` and the member functions it lists. -/
structure Interface (F : Type) where
  id : Nat
  fns : List F

/-- `vtable_handler` (type_erasure.h 173-176), `size_ = none` if uninitialised. -/
structure Handler (F : Type) where
  vtable : Option (List (Option F))
  size : Option Nat
  offsets : Offsets

/-- `load_offset` over all the interfaces (type_erasure.h 232-238). -/
def loadOffsets {F : Type} (is : List (Interface F)) (t : Offsets) : Offsets × Int :=
  is.foldl (fun (s : Offsets × Int) i => (setOffset s.1 i.id s.2, s.2 + i.fns.length)) (t, 0)

/-- `_vtable_init` (type_erasure.h 221-239), for a handler with offset table `t`; `none`: does not compile. -/
def vtableInit {F : Type} (is : List (Interface F)) (t : Offsets) : Option (Handler F) := do
  let n := (is.map fun i => i.fns.length).sum
  let fns ← mergeLists (is.map Interface.fns)
  let vt ← initVtable 0 fns (List.replicate n none)
  return ⟨some vt, some n, (loadOffsets is t).1⟩

/-- Conversion of an `int` to `short`. -/
def toShort (v : Int) : Int := (BitVec.ofInt 16 v).toInt

/-- `invoke<RetType, N>` (type_erasure.h 272-277): the function which is called. -/
def invokeFn {F : Type} (h : Handler F) (id n : Nat) : Res F :=
  match h.offsets.lookup id with
  | none => .throws
  | some base =>
    let offset := toShort (base + n)
    match h.vtable with
    | none => .ub
    | some vt => if offset < 0 then .ub else
      match vt[offset.toNat]? with
      | some (some f) => .ok f
      | _ => .ub

/-- `vtable_handler()` (type_erasure.h 187). -/
def Handler.default {F : Type} : Handler F := ⟨none, some 0, []⟩

/-- `vtable_copy` (type_erasure.h 179-184): the table and size of `other`; an uninitialised size is undefined behaviour. -/
def vtableCopy {F : Type} (other : Handler F) : Res (List (Option F) × Nat) :=
  match other.size with
  | none => .ub
  | some n =>
    match other.vtable with
    | none => if n = 0 then .ok ([], 0) else .ub
    | some vt => if n ≤ vt.length then .ok (vt.take n, n) else .ub

/-- The copy constructor (type_erasure.h 189-190): `size_` is set by `vtable_copy` only. -/
def Handler.copyCtor {F : Type} (other : Handler F) : Res (Handler F) :=
  match other.vtable with
  | none => .ok ⟨none, none, other.offsets⟩
  | some _ => (fun r => ⟨some r.1, some r.2, other.offsets⟩) <$> vtableCopy other

/-- The copy assignment (type_erasure.h 191-196) from another object. -/
def Handler.copyAssign {F : Type} (other : Handler F) : Res (Handler F) :=
  (fun r => ⟨some r.1, some r.2, other.offsets⟩) <$> vtableCopy other

/-- `operator bool` (type_erasure.h 216). -/
def Handler.toBool {F : Type} (h : Handler F) : Res Bool :=
  match h.size with
  | none => .ub
  | some n => .ok (n ≠ 0)

/-- `erase<heap_storage, I...>`: the handler and whether the storage holds an object (its address and value are the subject of C78). -/
structure Erased (F V : Type) where
  handler : Handler F
  data : Option V

/-- `erase()` and `erase(const T&)` (type_erasure.h 241, 252). -/
def Erased.default {F V : Type} : Erased F V := ⟨.default, none⟩
def Erased.make {F V : Type} (is : List (Interface F)) (v : V) : Option (Erased F V) := (vtableInit is []).map fun h => ⟨h, some v⟩

/-- `erase(const erase&)` (type_erasure.h 242). -/
def Erased.copyCtor {F V : Type} (other : Erased F V) : Res (Erased F V) := (fun h => ⟨h, other.data⟩) <$> other.handler.copyCtor

/-- `erase(erase&& other)` (type_erasure.h 248): `vtable_handler(other)` is the copy constructor, since `other` is a name; the storage is
moved.  The new object and what is left of `other`. -/
def Erased.moveCtor {F V : Type} (other : Erased F V) : Res (Erased F V × Erased F V) :=
  (fun h => (⟨h, other.data⟩, ⟨other.handler, none⟩)) <$> other.handler.copyCtor

/-- `operator=(erase&& other)` (type_erasure.h 249-253), for two different objects. -/
def Erased.moveAssign {F V : Type} (other : Erased F V) : Res (Erased F V × Erased F V) :=
  (fun h => (⟨h, other.data⟩, ⟨other.handler, none⟩)) <$> other.handler.copyAssign

/-- Calling the `n`-th method of interface `id`: the function called and the object it is applied to; calling on a null object is
undefined behaviour. -/
def Erased.call {F V : Type} (e : Erased F V) (id n : Nat) : Res (F × V) :=
  match invokeFn e.handler id n with
  | .ok f =>
    match e.data with
    | some v => .ok (f, v)
    | none => .ub
  | .throws => .throws
  | .ub => .ub

end Fdapde.Utils
