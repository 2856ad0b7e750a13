import Verif.Common.Res

/-!
# The movable wrapper of `Eigen::SparseLU`

Model of `fdapde::SparseLU` (`fdaPDE/utils/symbols.h` 132-160).  The factorization of Eigen itself is a parameter: `lu A` is `some f` if the
factorization of `A` succeeds, and then `f b` is what `solve(b)` returns; it is `none` if `info()` reports a failure.  What `solve` returns after
a failed factorization is not specified by Eigen: here it is undefined behaviour.
-/

namespace Fdapde.Utils

variable {M V : Type}

/-- A variable of type `SparseLU`: the shared pointer `solver_` (an index of the heap, or null) and the flag `computed_` (symbols.h 136-137). -/
structure LuVar where
  solver : Option Nat
  computed : Bool
deriving DecidableEq, Repr

/-- The memory: the factorizations allocated by `make_shared` (each holds the matrix it was computed from) and the variables.  Deallocation by
reference counting is not modelled: an object that is still pointed to is never freed. -/
structure LuMem (M : Type) where
  heap : List M
  var : Nat → LuVar

/-- Every variable default constructed (symbols.h 140). -/
def LuMem.init : LuMem M := ⟨[], fun _ => ⟨none, false⟩⟩

/-- The operations of a program. -/
inductive LuOp (M : Type)
  /-- `v.compute(A)` -/
  | compute (v : Nat) (A : M)
  /-- `dst = src` (implicit copy; it copies the pointer and the flag) -/
  | copy (dst src : Nat)
  /-- `v = SparseLU()` -/
  | reset (v : Nat)

/-- One operation (symbols.h 140-146). -/
def LuMem.step (lu : M → Option (V → V)) (m : LuMem M) : LuOp M → LuMem M
  | .compute v A =>
      { heap := m.heap ++ [A],
        var := fun w => if w = v then ⟨some m.heap.length, if (lu A).isSome then true else (m.var v).computed⟩ else m.var w }
  | .copy d s => { m with var := fun w => if w = d then m.var s else m.var w }
  | .reset d => { m with var := fun w => if w = d then ⟨none, false⟩ else m.var w }

/-- A program. -/
def LuMem.run (lu : M → Option (V → V)) (ops : List (LuOp M)) : LuMem M := ops.foldl (LuMem.step lu) LuMem.init

/-- `v.solve(b)` (symbols.h 148-155): dereferencing a null pointer is undefined. -/
def LuMem.solve (lu : M → Option (V → V)) (m : LuMem M) (v : Nat) (b : V) : Res V :=
  Res.ofOptionUB (m.var v).solver >>= fun p =>
    Res.ofOptionUB (m.heap[p]?) >>= fun A => Res.ofOptionUB (lu A) >>= fun f => Res.ok (f b)

/-- `v.info() == Eigen::Success` (symbols.h 158). -/
def LuMem.info (lu : M → Option (V → V)) (m : LuMem M) (v : Nat) : Res Bool :=
  Res.ofOptionUB (m.var v).solver >>= fun p =>
    Res.ofOptionUB (m.heap[p]?) >>= fun A => Res.ok (lu A).isSome

/-- `operator bool` (symbols.h 159). -/
def LuMem.toBool (m : LuMem M) (v : Nat) : Bool := (m.var v).computed

/-! ## Specification -/

/-- The matrices factorized in the history of the value held by each variable, the most recent one first. -/
def lineage (ops : List (LuOp M)) : Nat → List M :=
  ops.foldl (fun h op => match op with
    | .compute v A => fun w => if w = v then A :: h v else h w
    | .copy d s => fun w => if w = d then h s else h w
    | .reset d => fun w => if w = d then [] else h w) (fun _ => [])

end Fdapde.Utils
