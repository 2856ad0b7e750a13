import Verif.Common.Res

/-!
# Type lists

Model of the compile-time utilities of `fdaPDE/utils/traits.h` and `fdaPDE/utils/type_erasure.h`.  A type list (`std::tuple`, `TypeList`,
a parameter pack) is a list; template specialisations are the cases of a recursive function; a program which does not compile is `none`.
-/

namespace Fdapde.Utils

variable {T : Type} [DecidableEq T]

/-- `has_type` (traits.h 46-54). -/
def hasType (t : T) : List T → Bool
  | [] => false
  | u :: us => if u = t then true else hasType t us

/-- `unique_types` (traits.h 69-82); no specialisation for an empty pack. -/
def uniqueTypes : List T → Option Bool
  | [] => none
  | [_] => some true
  | [t1, t2] => some (t1 ≠ t2)
  | t1 :: t2 :: t :: ts => do
    let a ← uniqueTypes (t1 :: t :: ts)
    let b ← uniqueTypes (t2 :: t :: ts)
    return (decide (t1 ≠ t2)) && a && b
termination_by l => l.length

/-- The fold expression `((is_same<T, Ts> ? idx + 1 : 0) + ...)` (traits.h 91), with `idx` starting at `k`. -/
def foldIdx (t : T) : Nat → List T → Nat
  | _, [] => 0
  | k, u :: us => (if t = u then k + 1 else 0) + foldIdx t (k + 1) us

/-- `index_of<T, std::tuple<Ts...>>::index` (traits.h 85-95).  A unary fold over `+` does not compile for an empty pack. -/
def indexOf (t : T) (ts : List T) : Option Int := if ts = [] then none else some (-1 + (foldIdx t 0 ts : Int))

/-- `split_tuple_at_index<N>::get_<M>` (traits.h 107-110): `std::get<M + Ns>(t)...` for `Ns = 0 .. n - 1`. -/
def getRange {α : Type} (m n : Nat) (ts : List α) : Option (List α) := (List.range n).mapM fun i => ts[m + i]?

/-- `head`, `tail` (traits.h 112-117); `sizeof...(Ts) - N` is unsigned, and a huge index sequence does not compile. -/
def splitHead {α : Type} (n : Nat) (ts : List α) : Option (List α) := getRange 0 n ts
def splitTail {α : Type} (n : Nat) (ts : List α) : Option (List α) := if n ≤ ts.length then getRange n (ts.length - n) ts else none

/-- `switch_type<switch_type_case<b, T>...>` (traits.h 126-145). -/
def switchType {α : Type} : List (Bool × α) → Option α
  | [] => none
  | [(b, t)] => if b then some t else none
  | (b, t) :: tail => if b then some t else switchType tail

/-- `TypeListGetImpl<I, N, ..>` (type_erasure.h 36-43). -/
def getImpl {α : Type} (i : Nat) : Nat → List α → Option α
  | _, [] => none
  | _, [t] => some t
  | n, t :: ts => do
    let r ← getImpl i (n + 1) ts
    return if n = i then t else r

/-- `get<I, TypeList>` (type_erasure.h 45-49), with its assertion. -/
def typeListGet {α : Type} (i : Nat) (ts : List α) : Option α := if i < ts.length then getImpl i 0 ts else none

/-- `merge` (type_erasure.h 61-71). -/
def mergeLists {α : Type} : List (List α) → Option (List α)
  | [] => none
  | [v] => some v
  | v1 :: v2 :: vs => mergeLists ((v1 ++ v2) :: vs)
termination_by l => l.length

/-- Types, as applications of class templates. -/
inductive Ty
  | prim (id : Nat)
  | app (template : Nat) (args : List Ty)

/-- `is_instance_of<T, E>` (traits.h 41-43). -/
def isInstanceOf (e : Nat) : Ty → Bool
  | .app f _ => f = e
  | .prim _ => false

/-- `has_instance_of<E, std::tuple<..>>` (traits.h 57-66): only instances `E<F>` with one argument match. -/
def hasInstanceOf (e : Nat) : List Ty → Bool
  | [] => false
  | .app f [_] :: ts => if f = e then true else hasInstanceOf e ts
  | _ :: ts => hasInstanceOf e ts

end Fdapde.Utils
