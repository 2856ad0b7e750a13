import Verif.Threads.Events
/- Data races in the sense of the C++ memory model, and the programs that have none. -/
namespace Fdapde.Threads

/-- Happens-before: the order of the events of each thread, and of releasing and later acquiring the same object (unlock and lock of a
mutex, end of a thread and `join`, fulfilling a future and `get`). -/
inductive HB (tr : List Ev) : Nat → Nat → Prop
  | program {i j : Nat} {a b : Ev} (h : i < j) (hi : tr[i]? = some a) (hj : tr[j]? = some b) (e : a.thr = b.thr) : HB tr i j
  | sync {i j : Nat} {u v : Thr} {o : SObj} (h : i < j) (hi : tr[i]? = some ⟨u, .rel o⟩) (hj : tr[j]? = some ⟨v, .acq o⟩) : HB tr i j
  | trans {i j k : Nat} (h : HB tr i j) (h' : HB tr j k) : HB tr i k

/-- The event reads or writes the variable. -/
def Ev.Accesses (e : Ev) (x : Loc) : Prop := e.kind = .rd x ∨ e.kind = .wr x

/-- No data race: of two accesses to the same variable one of which is a write, the earlier one happens before the later one.  (Otherwise
the C++ program has undefined behaviour.) -/
def RaceFree (tr : List Ev) : Prop :=
  ∀ (i j : Nat) (a b : Ev) (x : Loc), i < j → tr[i]? = some a → tr[j]? = some b → a.Accesses x → b.Accesses x →
    (a.kind = .wr x ∨ b.kind = .wr x) → HB tr i j

/-- The clients do not use `sync()`; they read what a task wrote only after waiting for its future; `shutdown()` is called once, by a
client that has waited for the futures of all the tasks sent so far. -/
structure Disciplined (tr : List Ev) : Prop where
  noSync : ∀ c, ⟨.client c, .acq .syncMutex⟩ ∉ tr
  use : ∀ (j c t : Nat), tr[j]? = some ⟨.client c, .rd (.res t)⟩ → ∃ k < j, tr[k]? = some ⟨.client c, .acq (.future t)⟩
  once : ∀ (i j : Nat) (u v : Thr), tr[i]? = some ⟨u, .wr .kill⟩ → tr[j]? = some ⟨v, .wr .kill⟩ → i = j
  waited : ∀ (j c : Nat), tr[j]? = some ⟨.client c, .wr .kill⟩ → ∀ i < j, ∀ (d : Thr) (t : Nat), tr[i]? = some ⟨d, .wr (.arg t)⟩ →
    ∃ k < j, tr[k]? = some ⟨.client c, .acq (.future t)⟩

end Fdapde.Threads
