import Verif.Optim.Objects
/-
What a user expects of optimizers as values.  An object is its algorithm, its parameters and what the last call of `optimize` found; a copy, an assignment and a
wrapper carry all of it.  `optimize` depends on nothing but parameters, callbacks, objective and start.
-/
namespace Fdapde.Optim.Objects
open Fdapde Optim

variable {K : Type} [Field K] [LinearOrder K] {n : Nat}

/-- An optimizer as a value. -/
structure Value (K : Type) (n : Nat) where
  alg : Alg
  params : Option (Params K)
  cbs : List (Search K)
  last : Option (Result K n)

/-- Members all zero. -/
def blank : St K n Unit := ⟨0, 0, 0, 0, 0, 0, 0, 0, ()⟩

/-- The result of a run of a new object. -/
def fresh (P : Platform K n) (o : Objective K n) (alg : Alg) (cbs : List (Search K)) (p : Params K) (x0 : Vec K n) : Option (Result K n) :=
  (runAlg P o alg cbs p x0 blank).map Prod.snd

/-- Optimizers with the semantics of values. -/
def values (P : Platform K n) : Class K n (Value K n) where
  make alg p cbs _ := ⟨alg, some p, cbs, none⟩
  default alg cbs _ := ⟨alg, none, cbs, none⟩
  copy y _ := if y.params.isNone then .ub else .ok y
  assign x y := if x.alg = y.alg then if y.params.isNone then .ub else .ok y else .throws
  optimize x o x0 :=
    match x.params with
    | none => some .ub
    | some p => (fresh P o x.alg x.cbs p x0).map fun r => .ok ({ x with last := some r }, r.optimum)
  optimum x := (fun r => r.optimum) <$> read x.last
  value x := (fun r => r.value) <$> read x.last
  nIter x := match x.last with
    | none => 0
    | some r => r.nIter

/-- What the library does instead: a copy has no results, and an assignment leaves the results of the object on its left. -/
def ledger (P : Platform K n) : Class K n (Value K n) :=
  { values P with
    copy := fun y _ => if y.params.isNone then .ub else .ok { y with last := none }
    assign := fun x y => if x.alg = y.alg then if y.params.isNone then .ub else .ok { y with last := x.last } else .throws }

/-- The variables whose results are not their own after a statement, if those before it are `stale`: copies and assignments add a variable, `optimize` and new objects
take it away. -/
def staleObjs (stale : Nat → Prop) : Stmt K n → Nat → Prop
  | .make x _ _ _ _, y => y ≠ x ∧ stale y
  | .default x _ _ _, y => y ≠ x ∧ stale y
  | .copy x _ _, y => y = x ∨ stale y
  | .assign x _, y => y = x ∨ stale y
  | .optimize x _ _, y => y ≠ x ∧ stale y
  | _, y => stale y

/-- The same for wrappers. -/
def staleWraps (stale : Nat → Prop) : Stmt K n → Nat → Prop
  | .wrapEmpty x, y => y ≠ x ∧ stale y
  | .wrap x _ _, y => y = x ∨ stale y
  | .wrapCopy x _ _, y => y = x ∨ stale y
  | .wrapOptimize x _ _ _, y => y ≠ x ∧ stale y
  | _, y => stale y

/-- A statement does not ask for results that are stale. -/
def AsksOwn (stale staleW : Nat → Prop) : Stmt K n → Prop
  | .optimum x => ¬ stale x
  | .value x => ¬ stale x
  | .nIter x => ¬ stale x
  | .wrapOptimum x => ¬ staleW x
  | .wrapValue x => ¬ staleW x
  | _ => True

/-- The results of an object are asked for only after a call of `optimize` on it that comes after the last copy or assignment to it, if there was any. -/
def Settled : (stale staleW : Nat → Prop) → List (Stmt K n) → Prop
  | _, _, [] => True
  | stale, staleW, c :: cs => AsksOwn stale staleW c ∧ Settled (staleObjs stale c) (staleWraps staleW c) cs

end Fdapde.Optim.Objects
