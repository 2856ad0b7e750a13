import Verif.Threads.Pool
/-
Infinite runs of the pool and fair schedulers.
-/
namespace Fdapde.Threads

/-- An infinite run: at each time some thread makes a step or nothing happens. -/
structure PRun (n m : Nat) where
  st : Nat → PSt
  act : Nat → Option Act
  start : st 0 = PSt.init
  next : ∀ k, match act k with
    | some a => step n m (st k) a = some (st (k + 1))
    | none => st (k + 1) = st k

/-- A step of worker `i` (spurious wake-ups are not steps of the worker). -/
def byWorker (i : Nat) (a : Act) : Prop := a = .work i ∨ ∃ o, a = .ntf i o

/-- A step of client `c` inside a member function it has called (making a new call is up to the client, and is not included). -/
def byClient (c : Nat) (a : Act) : Prop := (∃ o, a = .notify c o) ∨ a = .syncStep c ∨ a = .sdStep c

/-- The scheduler (with the mutexes) is fair: a thread which can make a step again and again makes a step again and again. -/
structure Fair {n m : Nat} (r : PRun n m) : Prop where
  worker : ∀ i, (∀ k, ∃ k' ≥ k, ∃ a, byWorker i a ∧ (step n m (r.st k') a).isSome) →
    ∀ k, ∃ k' ≥ k, ∃ a, byWorker i a ∧ r.act k' = some a
  client : ∀ c, (∀ k, ∃ k' ≥ k, ∃ a, byClient c a ∧ (step n m (r.st k') a).isSome) →
    ∀ k, ∃ k' ≥ k, ∃ a, byClient c a ∧ r.act k' = some a

/-- The client is inside `sync()`. -/
def C.inSync : C → Prop
  | .syncWant _ _ => True
  | .syncQ _ _ => True
  | .syncW _ _ _ _ => True
  | .syncSleep _ _ => True
  | _ => False

/-- The client is inside `shutdown()`. -/
def C.inShutdown : C → Prop
  | .sdNotify => True
  | .sdJoin _ => True
  | _ => False

end Fdapde.Threads
