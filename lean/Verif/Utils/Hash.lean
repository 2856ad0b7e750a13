import Mathlib.Data.List.Basic
/-
Model of the hash functions of `fdaPDE/utils/symbols.h` (79-117).  `std::size_t` has 64 bits; `std::hash<T>` is a parameter.
-/
namespace Fdapde.Utils

/-- symbols.h:83, 84, 94, 107 : `hash ^= std::hash<T>()(x) + 0x9e3779b9 + (hash << 6) + (hash >> 2)`, with `x` already hashed. -/
def hashCombine (hash x : BitVec 64) : BitVec 64 :=
  hash ^^^ (x + 0x9e3779b9#64 + (hash <<< 6) + (hash >>> 2))

/-- symbols.h:80-87 : `pair_hash`. -/
def pairHash {α β : Type} (h1 : α → BitVec 64) (h2 : β → BitVec 64) (p : α × β) : BitVec 64 :=
  hashCombine (hashCombine 0#64 (h1 p.1)) (h2 p.2)

/-- symbols.h:103-111 : `std_container_hash` on the elements of the range `[begin, end)`. -/
def rangeHash {α : Type} (h : α → BitVec 64) (xs : List α) : BitVec 64 :=
  xs.foldl (fun hash x => hashCombine hash (h x)) 0#64

/-- symbols.h:113-117 : `std_array_hash`. -/
def arrayHash {α : Type} {n : Nat} (h : α → BitVec 64) (a : Fin n → α) : BitVec 64 := rangeHash h (List.ofFn a)

/-- symbols.h:89-99 : `matrix_hash`, the two nested loops. -/
def matrixHash {α : Type} (h : α → BitVec 64) (rows cols : Nat) (m : Nat → Nat → α) : BitVec 64 :=
  (List.range rows).foldl (fun hash i => (List.range cols).foldl (fun hash j => hashCombine hash (h (m i j))) hash) 0#64

end Fdapde.Utils
