import Mathlib.Data.List.Basic
/-
Model of fdaPDE/multithreading/ThreadPool.h as a transition system with `n` workers and `m` client threads
and an arbitrary scheduler.

Granularity.  A predicate passed to `pending_.wait` is evaluated with `mutex_` held and the decision to sleep is
taken before `mutex_` is released, `kill_` is written (103-105) and `pending_.notify_one` is called (85-86) with
`mutex_` held: evaluating the predicate and falling asleep is one step.  `task_queue_` operations are one step
each (C31).  Every other read or write of a shared variable is a step of its own.  Memory is sequentially
consistent; `kill_`, `sync_` and `state_` are plain variables in the C++ and accessed without synchronisation,
see `C34_bug_data_race`.  Tasks are numbered in the order in which they are pushed; a task body terminates in one
step `run -> fin` whenever the scheduler lets it (an exception thrown by the body is stored in the future by
`std::packaged_task`, 78, so it is a completed task here).  Spurious wake-ups are allowed on both condition
variables.  Not modelled: the destructor (there is none, so destroying a pool that was not shut down terminates
the program), joining twice.
-/
namespace Fdapde.Threads

/-- Position of a worker inside `execute` (31-52). -/
inductive W where
  | check          -- 36-40: awake, about to evaluate the wait predicate
  | asleep         -- 37: blocked on `pending_`
  | got (t : Nat)  -- 43: task taken from the queue, lock released, about to read `kill_`
  | pre (t : Nat)  -- 44: about to mark itself BUSY
  | busy (t : Nat) -- 45: marked BUSY, about to call the task
  | run (t : Nat)  -- 45: inside the task
  | fin            -- 46: task returned, about to mark itself IDLE
  | chk            -- 47: about to read `sync_`
  | ntf            -- 48-49: about to lock `sync_mutex_` and notify
  | exited         -- 43: returned
  deriving DecidableEq

/-- Position of a client inside a member function. `S` is the (ghost) number of tasks pushed when sync() was
called and `B` the (ghost) list of tasks whose body had been entered by then. -/
inductive C where
  | idle
  | sending (t : Nat)                                     -- 84-86: pushed, about to notify
  | syncWant (S : Nat) (B : List Nat)                     -- 92: about to lock `sync_mutex_`
  | syncQ (S : Nat) (B : List Nat)                        -- 95: lock held, about to read empty()
  | syncW (S : Nat) (B : List Nat) (i : Nat) (seen : List Nat)
      -- 96: lock held, about to read state_[i]; `seen` (ghost) collects the tasks that a worker had taken from
      -- the queue without being marked BUSY yet when its state was read
  | syncSleep (S : Nat) (B : List Nat)                    -- 94: blocked on `sync_condition_`
  | syncRet (S : Nat) (B : List Nat) (seen : List Nat)    -- 98: sync() has returned
  | sdNotify                                              -- 106: kill_ set, about to notify_all
  | sdJoin (i : Nat)                                      -- 108-110: about to join worker i
  | sdDone                                                -- 111: shutdown() has returned
  deriving DecidableEq

structure PSt where
  queue : List Nat
  kill : Bool
  sync : Bool
  syncOwner : Option Nat       -- client holding `sync_mutex_` (a worker holds it only within one step)
  flag : Nat → Bool            -- state_[i] == BUSY
  w : Nat → W
  c : Nat → C
  next : Nat                   -- number of tasks pushed so far; task ids are 0, ..., next-1
  taken : List Nat             -- ghost: popped tasks, in order
  started : List Nat           -- ghost: tasks whose body was entered
  done : List Nat              -- ghost: tasks whose body returned
  dropped : List Nat           -- ghost: tasks popped and destroyed unrun (43)

def upd {α : Type} (f : Nat → α) (i : Nat) (x : α) : Nat → α := fun j => if j = i then x else f j

/-- Constructor (57-63): `n` workers, all IDLE. -/
def PSt.init : PSt := ⟨[], false, false, none, fun _ => false, fun _ => .check, fun _ => .idle, 0, [], [], [], []⟩

/-- Scheduler choices. -/
inductive Act where
  | work (i : Nat)                      -- worker i makes its next step (all but 48-49)
  | ntf (i : Nat) (o : Option Nat)      -- worker i: lock, notify_one (48-49), waking client o
  | wakeW (i : Nat)                     -- spurious wake-up of worker i
  | send (c : Nat)                      -- client c: send_async up to the push (73-83)
  | notify (c : Nat) (o : Option Nat)   -- client c: 85-86, waking worker o
  | callSync (c : Nat)
  | syncStep (c : Nat)                  -- next step of client c inside sync()
  | wakeC (c : Nat)                     -- spurious wake-up of client c
  | ret (c : Nat)                       -- client c leaves sync()
  | callShutdown (c : Nat)              -- 102-105
  | sdStep (c : Nat)                    -- next step of client c inside shutdown()
  deriving DecidableEq

/-- The task a worker has taken and not yet marked itself BUSY for. -/
def W.window : W → List Nat
  | .got t => [t]
  | .pre t => [t]
  | _ => []

/-- Steps of worker `i` in `execute` (31-52). -/
def workStep (s : PSt) (i : Nat) : Option PSt :=
  match s.w i with
  | .check =>
      if s.kill then some { s with w := upd s.w i .exited }                      -- 39, 43
      else match s.queue with
        | t :: q => some { s with queue := q, taken := s.taken ++ [t], w := upd s.w i (.got t) }
        | [] => some { s with w := upd s.w i .asleep }
  | .got t =>
      if s.kill then some { s with w := upd s.w i .exited, dropped := s.dropped ++ [t] }   -- 43
      else some { s with w := upd s.w i (.pre t) }
  | .pre t => some { s with w := upd s.w i (.busy t), flag := upd s.flag i true }          -- 44
  | .busy t => some { s with w := upd s.w i (.run t), started := s.started ++ [t] }        -- 45
  | .run t => some { s with w := upd s.w i .fin, done := s.done ++ [t] }
  | .fin => some { s with w := upd s.w i .chk, flag := upd s.flag i false }                -- 46
  | .chk => some { s with w := upd s.w i (if s.sync then .ntf else .check) }               -- 47
  | _ => none

/-- Steps of client `c` inside sync() (91-98). -/
def syncStepC (n : Nat) (s : PSt) (c : Nat) : Option PSt :=
  match s.c c with
  | .syncWant S B =>
      if s.syncOwner = none then some { s with c := upd s.c c (.syncQ S B), syncOwner := some c, sync := true }
      else none
  | .syncQ S B =>
      if s.queue = [] then some { s with c := upd s.c c (.syncW S B 0 []) }
      else some { s with c := upd s.c c (.syncSleep S B), syncOwner := none }
  | .syncW S B i seen =>
      if i < n then
        if s.flag i then some { s with c := upd s.c c (.syncSleep S B), syncOwner := none }
        else some { s with c := upd s.c c (.syncW S B (i + 1) ((s.w i).window ++ seen)) }
      else some { s with c := upd s.c c (.syncRet S B seen), syncOwner := none }
  | _ => none

/-- A client blocked on `sync_condition_`. -/
def C.isSleep : C → Bool
  | .syncSleep _ _ => true
  | _ => false

/-- A woken client re-acquires `sync_mutex_` before evaluating the predicate again. -/
def C.wake : C → C
  | .syncSleep S B => .syncWant S B
  | c => c

/-- Steps of client `c` inside shutdown() (106-111). -/
def sdStepC (n : Nat) (s : PSt) (c : Nat) : Option PSt :=
  match s.c c with
  | .sdNotify => some { s with w := fun i => if s.w i = .asleep then .check else s.w i, c := upd s.c c (.sdJoin 0) }
  | .sdJoin i =>
      if i < n then if s.w i = .exited then some { s with c := upd s.c c (.sdJoin (i + 1)) } else none
      else some { s with c := upd s.c c .sdDone }
  | _ => none

/-- One step of the pool. -/
def step (n m : Nat) (s : PSt) : Act → Option PSt
  | .work i => if i < n then workStep s i else none
  | .ntf i o =>
      if i < n ∧ s.w i = .ntf ∧ s.syncOwner = none then
        match o with
        | some c =>
            if c < m ∧ (s.c c).isSleep then some { s with w := upd s.w i .check, c := upd s.c c (s.c c).wake } else none
        | none => if ∀ c < m, ¬ (s.c c).isSleep then some { s with w := upd s.w i .check } else none
      else none
  | .wakeW i => if i < n ∧ s.w i = .asleep then some { s with w := upd s.w i .check } else none
  | .send c =>
      if c < m ∧ s.c c = .idle then
        some { s with queue := s.queue ++ [s.next], next := s.next + 1, c := upd s.c c (.sending s.next) }
      else none
  | .notify c o =>
      if c < m then
        match s.c c with
        | .sending _ =>
            match o with
            | some i => if i < n ∧ s.w i = .asleep then some { s with w := upd s.w i .check, c := upd s.c c .idle } else none
            | none => if ∀ i < n, s.w i ≠ .asleep then some { s with c := upd s.c c .idle } else none
        | _ => none
      else none
  | .callSync c =>
      if c < m ∧ s.c c = .idle then some { s with c := upd s.c c (.syncWant s.next s.started) } else none
  | .syncStep c => if c < m then syncStepC n s c else none
  | .wakeC c => if c < m ∧ (s.c c).isSleep then some { s with c := upd s.c c (s.c c).wake } else none
  | .ret c =>
      if c < m then
        match s.c c with
        | .syncRet _ _ _ => some { s with c := upd s.c c .idle }
        | _ => none
      else none
  | .callShutdown c => if c < m ∧ s.c c = .idle then some { s with kill := true, c := upd s.c c .sdNotify } else none
  | .sdStep c => if c < m then sdStepC n s c else none

/-- States reachable under some schedule. -/
inductive PReach (n m : Nat) : PSt → Prop where
  | init : PReach n m PSt.init
  | step (s : PSt) (a : Act) (s' : PSt) (h : PReach n m s) (hs : step n m s a = some s') : PReach n m s'

/-- Runs a schedule. -/
def runActs (n m : Nat) : PSt → List Act → Option PSt
  | s, [] => some s
  | s, a :: l => (step n m s a).bind (fun s' => runActs n m s' l)

theorem runActs_reach (n m : Nat) : ∀ (l : List Act) (s s' : PSt), PReach n m s → runActs n m s l = some s' → PReach n m s' := by
  intro l
  induction l with
  | nil => intro s s' h e; simp [runActs] at e; exact e ▸ h
  | cons a l ih =>
      intro s s' h e
      simp only [runActs, Option.bind_eq_some_iff] at e
      obtain ⟨s1, h1, h2⟩ := e
      exact ih s1 s' (.step s a s1 h h1) h2

end Fdapde.Threads
