import Mathlib.Data.List.Basic
/-
Model of fdaPDE/multithreading/{ThreadPool.h, ConcurrentQueue.h} that records, in order, every access to a shared variable and every
synchronisation: any number of workers and clients, arbitrary scheduler, one access per step.  Condition variables may wake up at any
time (spurious wake-ups are allowed, so notifying changes nothing).  The record starts when the constructor has returned; what it wrote
is ordered before everything else by the creation of the threads.  A second `join` (which throws) is not modelled.
-/
namespace Fdapde.Threads

/-- Threads. -/
inductive Thr where
  | worker (i : Nat)
  | client (c : Nat)
  deriving DecidableEq

/-- Objects that synchronise: the mutexes (ConcurrentQueue.h:17, ThreadPool.h:22, 27), the end of worker `i` (`join`, 108-110) and the
future of task `t` (76-80). -/
inductive SObj where
  | queueMutex
  | poolMutex
  | syncMutex
  | finish (i : Nat)
  | future (t : Nat)
  deriving DecidableEq

/-- Shared variables: the container of the queue, `kill_`, `sync_`, `state_[i]` (ThreadPool.h:17, 25, 26, ConcurrentQueue.h:16), what the
callable and arguments of task `t` refer to, and what the task writes. -/
inductive Loc where
  | queue
  | kill
  | sync
  | state (i : Nat)
  | arg (t : Nat)
  | res (t : Nat)
  deriving DecidableEq

/-- What is recorded: locking a mutex, returning from `join` or `get` (`acq`); unlocking, ending a thread, fulfilling a future (`rel`);
reading and writing a variable. -/
inductive Kind where
  | acq (o : SObj)
  | rel (o : SObj)
  | rd (x : Loc)
  | wr (x : Loc)
  deriving DecidableEq

structure Ev where
  thr : Thr
  kind : Kind
  deriving DecidableEq

/-- Where a thread is; the comments give the lines of ThreadPool.h. -/
inductive Pc where
  -- workers, `execute` (31-52)
  | want                      -- 36, 37: about to lock `mutex_`
  | pred                      -- 39: about to read `kill_` with `mutex_` held
  | popLock                   -- 39: about to lock the queue
  | popAcc                    -- 39: about to look at the queue and remove its first task
  | popUnl (o : Option Nat)   -- 39: about to unlock the queue
  | popped (o : Option Nat)   -- 37, 41: about to unlock `mutex_`
  | killUnl                   -- 41: `kill_` seen, about to unlock `mutex_`
  | gotKill                   -- 43: about to read `kill_` again
  | asleep                    -- 37: waiting
  | got (t : Nat)             -- 43: about to read `kill_`, task taken
  | pre (t : Nat)             -- 44: about to mark itself BUSY
  | run (t : Nat)             -- 45: about to run the task: read its data
  | res (t : Nat)             -- 45: about to write what the task computes
  | fut (t : Nat)             -- 45: about to fulfil the future
  | fin                       -- 46: about to mark itself IDLE
  | chk                       -- 47: about to read `sync_`
  | ntfLock                   -- 48: about to lock `sync_mutex_`
  | ntfUnl                    -- 49, 50: about to unlock it
  | exiting                   -- 43: about to end
  | exited
  -- clients
  | idle
  | sendLock (t : Nat)        -- 83: task built, about to lock the queue
  | sendPush (t : Nat)        -- 83: about to append to the queue
  | sendUnl                   -- 83: about to unlock the queue
  | notLock                   -- 85: about to lock `mutex_`
  | notUnl                    -- 86, 88: about to unlock it
  | syLock                    -- 92: about to lock `sync_mutex_`
  | sySet                     -- 93: about to write `sync_`
  | syQueue                   -- 95: about to read the queue (without its lock)
  | syState (i : Nat)         -- 96: about to read `state_[i]`
  | sySleep                   -- 94: about to unlock `sync_mutex_` and wait
  | syAsleep                  -- 94: waiting
  | syRelock                  -- 94: woken up, about to lock `sync_mutex_`
  | syUnl                     -- 98: about to unlock `sync_mutex_` and return
  | sdLock                    -- 103: about to lock `mutex_`
  | sdSet                     -- 104: about to write `kill_`
  | sdUnl                     -- 105: about to unlock `mutex_`
  | sdJoin (i : Nat)          -- 108-110: about to join worker `i`
  deriving DecidableEq

/-- State of the program and record of the events. -/
structure ESt where
  queue : List Nat
  kill : Bool
  sync : Bool
  qOwner : Option Thr
  pOwner : Option Thr
  sOwner : Option Thr
  busy : Nat → Bool
  pc : Thr → Pc
  next : Nat
  done : Nat → Bool
  tr : List Ev

/-- Move a thread. -/
def ESt.go (s : ESt) (u : Thr) (p : Pc) : Thr → Pc := fun v => if v = u then p else s.pc v

/-- Record an event. -/
def ESt.log (s : ESt) (u : Thr) (k : Kind) : List Ev := s.tr ++ [⟨u, k⟩]

/-- ThreadPool.h:57-63 : the pool has been constructed with `n` workers. -/
def ESt.init (n : Nat) : ESt where
  queue := []
  kill := false
  sync := false
  qOwner := none
  pOwner := none
  sOwner := none
  busy := fun _ => false
  pc := fun u => match u with
    | .worker i => if i < n then .want else .exited
    | .client _ => .idle
  next := 0
  done := fun _ => false
  tr := []

/-- One step of a worker, ThreadPool.h:31-52 with ConcurrentQueue.h:60-70. -/
inductive WStep : ESt → Nat → ESt → Prop
  | lock (s i) (h : s.pc (.worker i) = .want) (ho : s.pOwner = none) :
      WStep s i { s with pc := s.go (.worker i) .pred, pOwner := some (.worker i), tr := s.log (.worker i) (.acq .poolMutex) }
  | seeKill (s i) (h : s.pc (.worker i) = .pred) (hk : s.kill = true) :
      WStep s i { s with pc := s.go (.worker i) .killUnl, tr := s.log (.worker i) (.rd .kill) }
  | noKill (s i) (h : s.pc (.worker i) = .pred) (hk : s.kill = false) :
      WStep s i { s with pc := s.go (.worker i) .popLock, tr := s.log (.worker i) (.rd .kill) }
  | popLock (s i) (h : s.pc (.worker i) = .popLock) (ho : s.qOwner = none) :
      WStep s i { s with pc := s.go (.worker i) .popAcc, qOwner := some (.worker i), tr := s.log (.worker i) (.acq .queueMutex) }
  | popNone (s i) (h : s.pc (.worker i) = .popAcc) (hq : s.queue = []) :
      WStep s i { s with pc := s.go (.worker i) (.popUnl none), tr := s.log (.worker i) (.rd .queue) }
  | popSome (s i t q) (h : s.pc (.worker i) = .popAcc) (hq : s.queue = t :: q) :
      WStep s i { s with pc := s.go (.worker i) (.popUnl (some t)), queue := q, tr := s.log (.worker i) (.wr .queue) }
  | popUnl (s i o) (h : s.pc (.worker i) = .popUnl o) :
      WStep s i { s with pc := s.go (.worker i) (.popped o), qOwner := none, tr := s.log (.worker i) (.rel .queueMutex) }
  | sleep (s i) (h : s.pc (.worker i) = .popped none) :
      WStep s i { s with pc := s.go (.worker i) .asleep, pOwner := none, tr := s.log (.worker i) (.rel .poolMutex) }
  | wake (s i) (h : s.pc (.worker i) = .asleep) : WStep s i { s with pc := s.go (.worker i) .want }
  | take (s i t) (h : s.pc (.worker i) = .popped (some t)) :
      WStep s i { s with pc := s.go (.worker i) (.got t), pOwner := none, tr := s.log (.worker i) (.rel .poolMutex) }
  | killUnl (s i) (h : s.pc (.worker i) = .killUnl) :
      WStep s i { s with pc := s.go (.worker i) .gotKill, pOwner := none, tr := s.log (.worker i) (.rel .poolMutex) }
  | leave (s i) (h : s.pc (.worker i) = .gotKill) (hk : s.kill = true) :
      WStep s i { s with pc := s.go (.worker i) .exiting, tr := s.log (.worker i) (.rd .kill) }
  | drop (s i t) (h : s.pc (.worker i) = .got t) (hk : s.kill = true) :
      WStep s i { s with pc := s.go (.worker i) .exiting, tr := s.log (.worker i) (.rd .kill) }
  | go (s i t) (h : s.pc (.worker i) = .got t) (hk : s.kill = false) :
      WStep s i { s with pc := s.go (.worker i) (.pre t), tr := s.log (.worker i) (.rd .kill) }
  | setBusy (s i t) (h : s.pc (.worker i) = .pre t) :
      WStep s i { s with pc := s.go (.worker i) (.run t), busy := fun j => if j = i then true else s.busy j, tr := s.log (.worker i) (.wr (.state i)) }
  | readArg (s i t) (h : s.pc (.worker i) = .run t) :
      WStep s i { s with pc := s.go (.worker i) (.res t), tr := s.log (.worker i) (.rd (.arg t)) }
  | writeRes (s i t) (h : s.pc (.worker i) = .res t) :
      WStep s i { s with pc := s.go (.worker i) (.fut t), tr := s.log (.worker i) (.wr (.res t)) }
  | fulfil (s i t) (h : s.pc (.worker i) = .fut t) :
      WStep s i { s with pc := s.go (.worker i) .fin, done := fun t' => if t' = t then true else s.done t', tr := s.log (.worker i) (.rel (.future t)) }
  | setIdle (s i) (h : s.pc (.worker i) = .fin) :
      WStep s i { s with pc := s.go (.worker i) .chk, busy := fun j => if j = i then false else s.busy j, tr := s.log (.worker i) (.wr (.state i)) }
  | noSync (s i) (h : s.pc (.worker i) = .chk) (hs : s.sync = false) :
      WStep s i { s with pc := s.go (.worker i) .want, tr := s.log (.worker i) (.rd .sync) }
  | seeSync (s i) (h : s.pc (.worker i) = .chk) (hs : s.sync = true) :
      WStep s i { s with pc := s.go (.worker i) .ntfLock, tr := s.log (.worker i) (.rd .sync) }
  | ntfLock (s i) (h : s.pc (.worker i) = .ntfLock) (ho : s.sOwner = none) :
      WStep s i { s with pc := s.go (.worker i) .ntfUnl, sOwner := some (.worker i), tr := s.log (.worker i) (.acq .syncMutex) }
  | ntfUnl (s i) (h : s.pc (.worker i) = .ntfUnl) :
      WStep s i { s with pc := s.go (.worker i) .want, sOwner := none, tr := s.log (.worker i) (.rel .syncMutex) }
  | finish (s i) (h : s.pc (.worker i) = .exiting) :
      WStep s i { s with pc := s.go (.worker i) .exited, tr := s.log (.worker i) (.rel (.finish i)) }

/-- One step of a client: `send_async` (72-88), `sync` (91-98), `shutdown` (101-112), waiting for a future, reading what a task wrote. -/
inductive CStep (n : Nat) : ESt → Nat → ESt → Prop
  | send (s c) (h : s.pc (.client c) = .idle) :
      CStep n s c { s with pc := s.go (.client c) (.sendLock s.next), next := s.next + 1, tr := s.log (.client c) (.wr (.arg s.next)) }
  | sendLock (s c t) (h : s.pc (.client c) = .sendLock t) (ho : s.qOwner = none) :
      CStep n s c { s with pc := s.go (.client c) (.sendPush t), qOwner := some (.client c), tr := s.log (.client c) (.acq .queueMutex) }
  | sendPush (s c t) (h : s.pc (.client c) = .sendPush t) :
      CStep n s c { s with pc := s.go (.client c) .sendUnl, queue := s.queue ++ [t], tr := s.log (.client c) (.wr .queue) }
  | sendUnl (s c) (h : s.pc (.client c) = .sendUnl) :
      CStep n s c { s with pc := s.go (.client c) .notLock, qOwner := none, tr := s.log (.client c) (.rel .queueMutex) }
  | notLock (s c) (h : s.pc (.client c) = .notLock) (ho : s.pOwner = none) :
      CStep n s c { s with pc := s.go (.client c) .notUnl, pOwner := some (.client c), tr := s.log (.client c) (.acq .poolMutex) }
  | notUnl (s c) (h : s.pc (.client c) = .notUnl) :
      CStep n s c { s with pc := s.go (.client c) .idle, pOwner := none, tr := s.log (.client c) (.rel .poolMutex) }
  | get (s c t) (h : s.pc (.client c) = .idle) (hd : s.done t = true) :
      CStep n s c { s with tr := s.log (.client c) (.acq (.future t)) }
  | use (s c t) (h : s.pc (.client c) = .idle) :
      CStep n s c { s with tr := s.log (.client c) (.rd (.res t)) }
  | callSync (s c) (h : s.pc (.client c) = .idle) : CStep n s c { s with pc := s.go (.client c) .syLock }
  | syLock (s c) (h : s.pc (.client c) = .syLock) (ho : s.sOwner = none) :
      CStep n s c { s with pc := s.go (.client c) .sySet, sOwner := some (.client c), tr := s.log (.client c) (.acq .syncMutex) }
  | sySet (s c) (h : s.pc (.client c) = .sySet) :
      CStep n s c { s with pc := s.go (.client c) .syQueue, sync := true, tr := s.log (.client c) (.wr .sync) }
  | syQueue (s c) (h : s.pc (.client c) = .syQueue) :
      CStep n s c { s with pc := s.go (.client c) (if s.queue = [] then .syState 0 else .sySleep), tr := s.log (.client c) (.rd .queue) }
  | syState (s c i) (h : s.pc (.client c) = .syState i) (hi : i < n) :
      CStep n s c { s with pc := s.go (.client c) (if s.busy i then .sySleep else .syState (i + 1)), tr := s.log (.client c) (.rd (.state i)) }
  | syEnd (s c i) (h : s.pc (.client c) = .syState i) (hi : n ≤ i) : CStep n s c { s with pc := s.go (.client c) .syUnl }
  | sySleep (s c) (h : s.pc (.client c) = .sySleep) :
      CStep n s c { s with pc := s.go (.client c) .syAsleep, sOwner := none, tr := s.log (.client c) (.rel .syncMutex) }
  | syWake (s c) (h : s.pc (.client c) = .syAsleep) : CStep n s c { s with pc := s.go (.client c) .syRelock }
  | syRelock (s c) (h : s.pc (.client c) = .syRelock) (ho : s.sOwner = none) :
      CStep n s c { s with pc := s.go (.client c) .syQueue, sOwner := some (.client c), tr := s.log (.client c) (.acq .syncMutex) }
  | syUnl (s c) (h : s.pc (.client c) = .syUnl) :
      CStep n s c { s with pc := s.go (.client c) .idle, sOwner := none, tr := s.log (.client c) (.rel .syncMutex) }
  | callShutdown (s c) (h : s.pc (.client c) = .idle) : CStep n s c { s with pc := s.go (.client c) .sdLock }
  | sdLock (s c) (h : s.pc (.client c) = .sdLock) (ho : s.pOwner = none) :
      CStep n s c { s with pc := s.go (.client c) .sdSet, pOwner := some (.client c), tr := s.log (.client c) (.acq .poolMutex) }
  | sdSet (s c) (h : s.pc (.client c) = .sdSet) :
      CStep n s c { s with pc := s.go (.client c) .sdUnl, kill := true, tr := s.log (.client c) (.wr .kill) }
  | sdUnl (s c) (h : s.pc (.client c) = .sdUnl) :
      CStep n s c { s with pc := s.go (.client c) (.sdJoin 0), pOwner := none, tr := s.log (.client c) (.rel .poolMutex) }
  | sdJoin (s c i) (h : s.pc (.client c) = .sdJoin i) (hi : i < n) (he : s.pc (.worker i) = .exited) :
      CStep n s c { s with pc := s.go (.client c) (.sdJoin (i + 1)), tr := s.log (.client c) (.acq (.finish i)) }
  | sdEnd (s c i) (h : s.pc (.client c) = .sdJoin i) (hi : n ≤ i) : CStep n s c { s with pc := s.go (.client c) .idle }

/-- States reachable under some schedule of `n` workers and any number of clients. -/
inductive EReach (n : Nat) : ESt → Prop
  | init : EReach n (ESt.init n)
  | work (s i s') (h : EReach n s) (hs : WStep s i s') : EReach n s'
  | client (s c s') (h : EReach n s) (hs : CStep n s c s') : EReach n s'

end Fdapde.Threads
