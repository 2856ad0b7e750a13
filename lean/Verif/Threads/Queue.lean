import Mathlib.Data.List.Basic
/-
Model of fdaPDE/multithreading/ConcurrentQueue.h as a transition system: any number of threads, every
lock acquisition, read, write and release is a separate step, and the scheduler is arbitrary.
The `std::queue` is a list.
-/
namespace Fdapde.Threads

/-- Where a thread is inside a call; the comments give the lines of ConcurrentQueue.h. -/
inductive QPc (V : Type) where
  | idle
  | wantPush (v : V)   -- 36, 43: about to lock
  | inPush (v : V)     -- 37, 44: lock held, about to append
  | pushed (v : V)     -- lock held, about to release
  | wantPop            -- 50, 61: about to lock
  | inPop              -- 51, 62: lock held, about to test empty()
  | popFail            -- 52, 63: lock held, about to release and report failure
  | popFront           -- 55, 66: queue seen non-empty, about to read the front
  | popErase (v : V)   -- 56, 67: about to remove the front
  | popped (v : V)     -- lock held, about to release and return v
  | wantClear          -- 73: about to lock
  | inClear            -- 74-76: lock held, loop head
  | cleared            -- lock held, about to release
  deriving DecidableEq

/-- Result of a completed call. -/
inductive QEv (V : Type) where
  | push (v : V)
  | popSome (v : V)
  | popNone
  | clear
  deriving DecidableEq

/-- Shared state, program counters, and the (ghost) list of completed calls in order of completion. -/
structure QSt (V : Type) where
  q : List V
  owner : Option Nat
  pc : Nat → QPc V
  log : List (Nat × QEv V)

def QSt.setPc {V : Type} (s : QSt V) (t : Nat) (p : QPc V) : Nat → QPc V := fun u => if u = t then p else s.pc u

/-- One step of thread `t`. -/
inductive QStep {V : Type} : QSt V → Nat → QSt V → Prop where
  | callPush (s t v) (h : s.pc t = .idle) : QStep s t { s with pc := s.setPc t (.wantPush v) }
  | callPop (s t) (h : s.pc t = .idle) : QStep s t { s with pc := s.setPc t .wantPop }
  | callClear (s t) (h : s.pc t = .idle) : QStep s t { s with pc := s.setPc t .wantClear }
  | lockPush (s t v) (h : s.pc t = .wantPush v) (ho : s.owner = none) :
      QStep s t { s with pc := s.setPc t (.inPush v), owner := some t }
  | push (s t v) (h : s.pc t = .inPush v) : QStep s t { s with pc := s.setPc t (.pushed v), q := s.q ++ [v] }
  | retPush (s t v) (h : s.pc t = .pushed v) :
      QStep s t { s with pc := s.setPc t .idle, owner := none, log := s.log ++ [(t, .push v)] }
  | lockPop (s t) (h : s.pc t = .wantPop) (ho : s.owner = none) :
      QStep s t { s with pc := s.setPc t .inPop, owner := some t }
  | testEmpty (s t) (h : s.pc t = .inPop) (hq : s.q = []) : QStep s t { s with pc := s.setPc t .popFail }
  | testNonempty (s t) (h : s.pc t = .inPop) (hq : s.q ≠ []) : QStep s t { s with pc := s.setPc t .popFront }
  | front (s t v) (h : s.pc t = .popFront) (hq : s.q.head? = some v) : QStep s t { s with pc := s.setPc t (.popErase v) }
  | erase (s t v) (h : s.pc t = .popErase v) : QStep s t { s with pc := s.setPc t (.popped v), q := s.q.tail }
  | retPop (s t v) (h : s.pc t = .popped v) :
      QStep s t { s with pc := s.setPc t .idle, owner := none, log := s.log ++ [(t, .popSome v)] }
  | retFail (s t) (h : s.pc t = .popFail) :
      QStep s t { s with pc := s.setPc t .idle, owner := none, log := s.log ++ [(t, .popNone)] }
  | lockClear (s t) (h : s.pc t = .wantClear) (ho : s.owner = none) :
      QStep s t { s with pc := s.setPc t .inClear, owner := some t }
  | clearOne (s t) (h : s.pc t = .inClear) (hq : s.q ≠ []) : QStep s t { s with q := s.q.tail }
  | clearEnd (s t) (h : s.pc t = .inClear) (hq : s.q = []) : QStep s t { s with pc := s.setPc t .cleared }
  | retClear (s t) (h : s.pc t = .cleared) :
      QStep s t { s with pc := s.setPc t .idle, owner := none, log := s.log ++ [(t, .clear)] }

/-- All threads outside the queue, initial contents `q0` (28, 31). -/
def QSt.init {V : Type} (q0 : List V) : QSt V := ⟨q0, none, fun _ => .idle, []⟩

/-- States reachable under some schedule. -/
inductive QReach {V : Type} (q0 : List V) : QSt V → Prop where
  | init : QReach q0 (QSt.init q0)
  | step (s t s') (h : QReach q0 s) (hs : QStep s t s') : QReach q0 s'

end Fdapde.Threads
