import Verif.Threads.Pool
import Mathlib.Tactic.Cases
import Mathlib.Data.List.Range
import Mathlib.Tactic.SplitIfs
/- Invariants of the thread pool. -/
namespace Fdapde.Threads

/-- `step` as a relation, one constructor per kind of step. -/
inductive PStep (n m : Nat) (s : PSt) : Act → PSt → Prop where
  | exit (i) (hi : i < n) (h : s.w i = .check) (hk : s.kill = true) : PStep n m s (.work i) { s with w := upd s.w i .exited }
  | pop (i t q) (hi : i < n) (h : s.w i = .check) (hk : s.kill = false) (hq : s.queue = t :: q) :
      PStep n m s (.work i) { s with queue := q, taken := s.taken ++ [t], w := upd s.w i (.got t) }
  | sleep (i) (hi : i < n) (h : s.w i = .check) (hk : s.kill = false) (hq : s.queue = []) :
      PStep n m s (.work i) { s with w := upd s.w i .asleep }
  | drop (i t) (hi : i < n) (h : s.w i = .got t) (hk : s.kill = true) :
      PStep n m s (.work i) { s with w := upd s.w i .exited, dropped := s.dropped ++ [t] }
  | keep (i t) (hi : i < n) (h : s.w i = .got t) (hk : s.kill = false) :
      PStep n m s (.work i) { s with w := upd s.w i (.pre t) }
  | mark (i t) (hi : i < n) (h : s.w i = .pre t) :
      PStep n m s (.work i) { s with w := upd s.w i (.busy t), flag := upd s.flag i true }
  | start (i t) (hi : i < n) (h : s.w i = .busy t) :
      PStep n m s (.work i) { s with w := upd s.w i (.run t), started := s.started ++ [t] }
  | finish (i t) (hi : i < n) (h : s.w i = .run t) :
      PStep n m s (.work i) { s with w := upd s.w i .fin, done := s.done ++ [t] }
  | unmark (i) (hi : i < n) (h : s.w i = .fin) :
      PStep n m s (.work i) { s with w := upd s.w i .chk, flag := upd s.flag i false }
  | chkT (i) (hi : i < n) (h : s.w i = .chk) (hs : s.sync = true) : PStep n m s (.work i) { s with w := upd s.w i .ntf }
  | chkF (i) (hi : i < n) (h : s.w i = .chk) (hs : s.sync = false) : PStep n m s (.work i) { s with w := upd s.w i .check }
  | ntfSome (i c S B) (hi : i < n) (h : s.w i = .ntf) (ho : s.syncOwner = none) (hc : c < m) (hs : s.c c = .syncSleep S B) :
      PStep n m s (.ntf i (some c)) { s with w := upd s.w i .check, c := upd s.c c (.syncWant S B) }
  | ntfNone (i) (hi : i < n) (h : s.w i = .ntf) (ho : s.syncOwner = none) (hs : ∀ c < m, ∀ S B, s.c c ≠ .syncSleep S B) :
      PStep n m s (.ntf i none) { s with w := upd s.w i .check }
  | wakeW (i) (hi : i < n) (h : s.w i = .asleep) : PStep n m s (.wakeW i) { s with w := upd s.w i .check }
  | send (c) (hc : c < m) (h : s.c c = .idle) :
      PStep n m s (.send c) { s with queue := s.queue ++ [s.next], next := s.next + 1, c := upd s.c c (.sending s.next) }
  | notifySome (c t i) (hc : c < m) (h : s.c c = .sending t) (hi : i < n) (hw : s.w i = .asleep) :
      PStep n m s (.notify c (some i)) { s with w := upd s.w i .check, c := upd s.c c .idle }
  | notifyNone (c t) (hc : c < m) (h : s.c c = .sending t) (hw : ∀ i < n, s.w i ≠ .asleep) :
      PStep n m s (.notify c none) { s with c := upd s.c c .idle }
  | callSync (c) (hc : c < m) (h : s.c c = .idle) :
      PStep n m s (.callSync c) { s with c := upd s.c c (.syncWant s.next s.started) }
  | syncLock (c S B) (hc : c < m) (h : s.c c = .syncWant S B) (ho : s.syncOwner = none) :
      PStep n m s (.syncStep c) { s with c := upd s.c c (.syncQ S B), syncOwner := some c, sync := true }
  | syncEmpty (c S B) (hc : c < m) (h : s.c c = .syncQ S B) (hq : s.queue = []) :
      PStep n m s (.syncStep c) { s with c := upd s.c c (.syncW S B 0 []) }
  | syncNonempty (c S B) (hc : c < m) (h : s.c c = .syncQ S B) (hq : s.queue ≠ []) :
      PStep n m s (.syncStep c) { s with c := upd s.c c (.syncSleep S B), syncOwner := none }
  | syncBusy (c S B i seen) (hc : c < m) (h : s.c c = .syncW S B i seen) (hi : i < n) (hf : s.flag i = true) :
      PStep n m s (.syncStep c) { s with c := upd s.c c (.syncSleep S B), syncOwner := none }
  | syncIdle (c S B i seen) (hc : c < m) (h : s.c c = .syncW S B i seen) (hi : i < n) (hf : s.flag i = false) :
      PStep n m s (.syncStep c) { s with c := upd s.c c (.syncW S B (i + 1) ((s.w i).window ++ seen)) }
  | syncEnd (c S B i seen) (hc : c < m) (h : s.c c = .syncW S B i seen) (hi : ¬ i < n) :
      PStep n m s (.syncStep c) { s with c := upd s.c c (.syncRet S B seen), syncOwner := none }
  | wakeC (c S B) (hc : c < m) (h : s.c c = .syncSleep S B) : PStep n m s (.wakeC c) { s with c := upd s.c c (.syncWant S B) }
  | ret (c S B seen) (hc : c < m) (h : s.c c = .syncRet S B seen) : PStep n m s (.ret c) { s with c := upd s.c c .idle }
  | kill (c) (hc : c < m) (h : s.c c = .idle) : PStep n m s (.callShutdown c) { s with kill := true, c := upd s.c c .sdNotify }
  | notifyAll (c) (hc : c < m) (h : s.c c = .sdNotify) :
      PStep n m s (.sdStep c)
        { s with w := fun i => if s.w i = .asleep then .check else s.w i, c := upd s.c c (.sdJoin 0) }
  | join (c i) (hc : c < m) (h : s.c c = .sdJoin i) (hi : i < n) (hw : s.w i = .exited) :
      PStep n m s (.sdStep c) { s with c := upd s.c c (.sdJoin (i + 1)) }
  | joinEnd (c i) (hc : c < m) (h : s.c c = .sdJoin i) (hi : ¬ i < n) :
      PStep n m s (.sdStep c) { s with c := upd s.c c .sdDone }

theorem isSleep_iff (c : C) : c.isSleep = true ↔ ∃ S B, c = .syncSleep S B := by cases c <;> simp [C.isSleep]

theorem step_PStep {n m : Nat} {s s' : PSt} {a : Act} (h : step n m s a = some s') : PStep n m s a s' := by
  cases a with
  | work i =>
      simp only [step, workStep] at h
      split at h
      · rename_i hi
        split at h
        · rename_i hw
          split at h
          · rename_i hk; cases h; exact .exit i hi hw hk
          · rename_i hk
            split at h
            · rename_i t q hq; cases h; exact .pop i t q hi hw (by simpa using hk) hq
            · rename_i hq; cases h; exact .sleep i hi hw (by simpa using hk) hq
        · rename_i t hw
          split at h
          · rename_i hk; cases h; exact .drop i t hi hw hk
          · rename_i hk; cases h; exact .keep i t hi hw (by simpa using hk)
        · rename_i t hw; cases h; exact .mark i t hi hw
        · rename_i t hw; cases h; exact .start i t hi hw
        · rename_i t hw; cases h; exact .finish i t hi hw
        · rename_i hw; cases h; exact .unmark i hi hw
        · rename_i hw
          cases hs : s.sync
          · rw [if_neg (by simp [hs])] at h; cases h; exact PStep.chkF (m := m) i hi hw hs
          · rw [if_pos hs] at h; cases h; exact PStep.chkT (m := m) i hi hw hs
        · cases h
      · cases h
  | ntf i o =>
      simp only [step] at h
      split at h
      · rename_i hc
        obtain ⟨hi, hw, ho⟩ := hc
        split at h
        · rename_i c
          split at h
          · rename_i hc
            obtain ⟨hc, hs⟩ := hc
            obtain ⟨S, B, hs⟩ := (isSleep_iff _).1 hs
            rw [hs] at h
            cases h; exact .ntfSome i c S B hi hw ho hc hs
          · cases h
        · split at h
          · rename_i hs
            cases h
            exact .ntfNone i hi hw ho (fun c hc S B e => hs c hc (by rw [e]; rfl))
          · cases h
      · cases h
  | wakeW i =>
      simp only [step] at h
      split at h
      · rename_i hc; cases h; exact .wakeW i hc.1 hc.2
      · cases h
  | send c =>
      simp only [step] at h
      split at h
      · rename_i hc; cases h; exact .send c hc.1 hc.2
      · cases h
  | notify c o =>
      simp only [step] at h
      split at h
      · rename_i hc
        split at h
        · rename_i t hs
          split at h
          · split at h
            · rename_i i hi; cases h; exact .notifySome c t i hc hs hi.1 hi.2
            · cases h
          · split at h
            · rename_i hi; cases h; exact .notifyNone c t hc hs hi
            · cases h
        · cases h
      · cases h
  | callSync c =>
      simp only [step] at h
      split at h
      · rename_i hc; cases h; exact .callSync c hc.1 hc.2
      · cases h
  | syncStep c =>
      simp only [step, syncStepC] at h
      split at h
      · rename_i hc
        split at h
        · rename_i S B hs
          split at h
          · rename_i ho; cases h; exact .syncLock c S B hc hs ho
          · cases h
        · rename_i S B hs
          split at h
          · rename_i ho; cases h; exact .syncEmpty c S B hc hs ho
          · rename_i ho; cases h; exact .syncNonempty c S B hc hs ho
        · rename_i S B i seen hs
          split at h
          · rename_i hi
            split at h
            · rename_i hf; cases h; exact .syncBusy c S B i seen hc hs hi hf
            · rename_i hf; cases h; exact .syncIdle c S B i seen hc hs hi (by simpa using hf)
          · rename_i hi; cases h; exact .syncEnd c S B i seen hc hs hi
        · cases h
      · cases h
  | wakeC c =>
      simp only [step] at h
      split at h
      · rename_i hc
        obtain ⟨S, B, hs⟩ := (isSleep_iff _).1 hc.2
        rw [hs] at h
        cases h; exact .wakeC c S B hc.1 hs
      · cases h
  | ret c =>
      simp only [step] at h
      split at h
      · rename_i hc
        split at h
        · rename_i S B seen hs; cases h; exact .ret c S B seen hc hs
        · cases h
      · cases h
  | callShutdown c =>
      simp only [step] at h
      split at h
      · rename_i hc; cases h; exact .kill c hc.1 hc.2
      · cases h
  | sdStep c =>
      simp only [step, sdStepC] at h
      split at h
      · rename_i hc
        split at h
        · rename_i hs; cases h; exact .notifyAll c hc hs
        · rename_i i hs
          split at h
          · rename_i hi
            split at h
            · rename_i hw; cases h; exact .join c i hc hs hi hw
            · cases h
          · rename_i hi; cases h; exact .joinEnd c i hc hs hi
        · cases h
      · cases h

/-- The worker has taken `t` and not entered its body. -/
def W.holds (w : W) (t : Nat) : Prop := w = .got t ∨ w = .pre t ∨ w = .busy t

def W.marked (w : W) : Prop := (∃ t, w = .busy t) ∨ (∃ t, w = .run t) ∨ w = .fin

structure Inv (n : Nat) (s : PSt) : Prop where
  order : s.taken ++ s.queue = List.range s.next
  part : ∀ t, t ∈ s.taken ↔ (∃ i < n, (s.w i).holds t) ∨ t ∈ s.started ∨ t ∈ s.dropped
  uniq : ∀ i < n, ∀ j < n, ∀ t, (s.w i).holds t → (s.w j).holds t → i = j
  hns : ∀ i < n, ∀ t, (s.w i).holds t → t ∉ s.started ∧ t ∉ s.dropped
  sd : ∀ t ∈ s.started, t ∉ s.dropped
  snd : s.started.Nodup
  dnd : s.dropped.Nodup
  run : ∀ t, t ∈ s.started ↔ t ∈ s.done ∨ ∃ i < n, s.w i = .run t
  runu : ∀ i < n, ∀ j < n, ∀ t, s.w i = .run t → s.w j = .run t → i = j
  runnd : ∀ i < n, ∀ t, s.w i = .run t → t ∉ s.done
  donend : s.done.Nodup
  flag : ∀ i < n, s.flag i = true ↔ (s.w i).marked
  kill : s.kill = false → s.dropped = []

theorem taken_nodup {n : Nat} {s : PSt} (h : Inv n s) : (s.taken ++ s.queue).Nodup := by
  rw [h.order]; exact List.nodup_range

/-- A step that changes the position of at most one worker, between positions that hold no task. -/
theorem Inv.neutral {n : Nat} {s s' : PSt} (I : Inv n s) (hq : s'.queue = s.queue) (ht : s'.taken = s.taken)
    (hn : s'.next = s.next) (hst : s'.started = s.started) (hd : s'.done = s.done) (hdr : s'.dropped = s.dropped)
    (hk : s'.kill = s.kill ∨ s'.kill = true)
    (hh : ∀ i < n, ∀ t, (s'.w i).holds t ↔ (s.w i).holds t) (hr : ∀ i < n, ∀ t, s'.w i = .run t ↔ s.w i = .run t)
    (hf : ∀ i < n, s'.flag i = true ↔ (s'.w i).marked) : Inv n s' := by
  refine ⟨?_, ?_, ?_, ?_, ?_, ?_, ?_, ?_, ?_, ?_, ?_, hf, ?_⟩
  · rw [hq, ht, hn]; exact I.order
  · intro t; rw [ht, hst, hdr, I.part t]
    constructor
    · rintro (⟨i, hi, h⟩ | h)
      · exact Or.inl ⟨i, hi, (hh i hi t).2 h⟩
      · exact Or.inr h
    · rintro (⟨i, hi, h⟩ | h)
      · exact Or.inl ⟨i, hi, (hh i hi t).1 h⟩
      · exact Or.inr h
  · intro i hi j hj t h1 h2; exact I.uniq i hi j hj t ((hh i hi t).1 h1) ((hh j hj t).1 h2)
  · intro i hi t h; rw [hst, hdr]; exact I.hns i hi t ((hh i hi t).1 h)
  · rw [hst, hdr]; exact I.sd
  · rw [hst]; exact I.snd
  · rw [hdr]; exact I.dnd
  · intro t; rw [hst, hd, I.run t]
    constructor
    · rintro (h | ⟨i, hi, h⟩)
      · exact Or.inl h
      · exact Or.inr ⟨i, hi, (hr i hi t).2 h⟩
    · rintro (h | ⟨i, hi, h⟩)
      · exact Or.inl h
      · exact Or.inr ⟨i, hi, (hr i hi t).1 h⟩
  · intro i hi j hj t h1 h2; exact I.runu i hi j hj t ((hr i hi t).1 h1) ((hr j hj t).1 h2)
  · intro i hi t h; rw [hd]; exact I.runnd i hi t ((hr i hi t).1 h)
  · rw [hd]; exact I.donend
  · intro h; rw [hdr]; exact I.kill (by rcases hk with hk | hk <;> simp_all)

theorem upd_self {α : Type} (f : Nat → α) (i : Nat) (x : α) : upd f i x i = x := by simp [upd]
theorem upd_ne {α : Type} (f : Nat → α) {i j : Nat} (x : α) (h : j ≠ i) : upd f i x j = f j := by simp [upd, h]

theorem Inv.init (n : Nat) : Inv n PSt.init := by
  constructor <;> simp [PSt.init, W.holds, W.marked]

theorem Inv.step {n m : Nat} {s s' : PSt} {a : Act} (I : Inv n s) (h : PStep n m s a s') : Inv n s' := by
  cases h
  case pop i t q hi h hk hq =>
    have hnd := taken_nodup I
    have ht : t ∉ s.taken := by
      intro hm; rw [hq] at hnd
      exact (List.nodup_append.1 hnd).2.2 t hm t (by simp) rfl
    have hnew : ∀ j < n, ¬ (s.w j).holds t := fun j hj hh => ht ((I.part t).2 (Or.inl ⟨j, hj, hh⟩))
    have hns : t ∉ s.started := fun hh => ht ((I.part t).2 (Or.inr (Or.inl hh)))
    have hnd' : t ∉ s.dropped := fun hh => ht ((I.part t).2 (Or.inr (Or.inr hh)))
    have hw : ∀ j < n, ∀ u, (upd s.w i (.got t) j).holds u ↔ (s.w j).holds u ∨ (j = i ∧ u = t) := by
      intro j hj u
      by_cases hji : j = i
      · subst hji; rw [upd_self, h]; simp [W.holds, eq_comm]
      · rw [upd_ne _ _ hji]; simp [hji]
    have hr : ∀ j < n, ∀ u, upd s.w i (.got t) j = .run u ↔ s.w j = .run u := by
      intro j hj u
      by_cases hji : j = i
      · subst hji; rw [upd_self, h]; simp
      · rw [upd_ne _ _ hji]
    refine ⟨?_, ?_, ?_, ?_, I.sd, I.snd, I.dnd, ?_, ?_, ?_, I.donend, ?_, I.kill⟩
    · have := I.order; rw [hq] at this; simpa using this
    · intro u
      simp only [List.mem_append, List.mem_singleton, I.part u]
      constructor
      · rintro ((⟨j, hj, hh⟩ | hh) | rfl)
        · exact Or.inl ⟨j, hj, (hw j hj u).2 (Or.inl hh)⟩
        · exact Or.inr hh
        · exact Or.inl ⟨i, hi, (hw i hi u).2 (Or.inr ⟨rfl, rfl⟩)⟩
      · rintro (⟨j, hj, hh⟩ | hh)
        · rcases (hw j hj u).1 hh with hh | ⟨_, hh⟩
          · exact Or.inl (Or.inl ⟨j, hj, hh⟩)
          · exact Or.inr hh
        · exact Or.inl (Or.inr hh)
    · intro j hj k hk u h1 h2
      rcases (hw j hj u).1 h1 with g1 | ⟨g1, g1'⟩ <;> rcases (hw k hk u).1 h2 with g2 | ⟨g2, g2'⟩
      · exact I.uniq j hj k hk u g1 g2
      · subst g2'; exact absurd g1 (hnew j hj)
      · subst g1'; exact absurd g2 (hnew k hk)
      · omega
    · intro j hj u h1
      rcases (hw j hj u).1 h1 with h1 | ⟨h1, h1'⟩
      · exact I.hns j hj u h1
      · subst h1'; exact ⟨hns, hnd'⟩
    · intro u; rw [I.run u]
      refine or_congr Iff.rfl ⟨?_, ?_⟩
      · rintro ⟨j, hj, hh⟩; exact ⟨j, hj, (hr j hj u).2 hh⟩
      · rintro ⟨j, hj, hh⟩; exact ⟨j, hj, (hr j hj u).1 hh⟩
    · intro j hj k hk u h1 h2; exact I.runu j hj k hk u ((hr j hj u).1 h1) ((hr k hk u).1 h2)
    · intro j hj u h1; exact I.runnd j hj u ((hr j hj u).1 h1)
    · intro j hj
      by_cases hji : j = i
      · subst hji; simp only [upd_self]; rw [I.flag j hj, h]; simp [W.marked]
      · simp only [upd_ne _ _ hji]; exact I.flag j hj
  case drop i t hi h hk =>
    have hold : (s.w i).holds t := Or.inl h
    have hn := I.hns i hi t hold
    have hw : ∀ j < n, ∀ u, (upd s.w i .exited j).holds u ↔ (s.w j).holds u ∧ u ≠ t := by
      intro j hj u
      by_cases hji : j = i
      · subst hji; rw [upd_self, h]; simp [W.holds]; exact fun e => e.symm
      · rw [upd_ne _ _ hji]
        refine ⟨fun hh => ⟨hh, ?_⟩, fun hh => hh.1⟩
        rintro rfl; exact hji (I.uniq j hj i hi _ hh hold)
    have hr : ∀ j < n, ∀ u, upd s.w i .exited j = .run u ↔ s.w j = .run u := by
      intro j hj u
      by_cases hji : j = i
      · subst hji; rw [upd_self, h]; simp
      · rw [upd_ne _ _ hji]
    refine ⟨I.order, ?_, ?_, ?_, ?_, I.snd, ?_, ?_, ?_, ?_, I.donend, ?_, ?_⟩
    · intro u
      rw [I.part u]
      simp only [List.mem_append, List.mem_singleton]
      constructor
      · rintro (⟨j, hj, hh⟩ | hh | hh)
        · by_cases hu : u = t
          · exact Or.inr (Or.inr (Or.inr hu))
          · exact Or.inl ⟨j, hj, (hw j hj u).2 ⟨hh, hu⟩⟩
        · exact Or.inr (Or.inl hh)
        · exact Or.inr (Or.inr (Or.inl hh))
      · rintro (⟨j, hj, hh⟩ | hh | hh | rfl)
        · exact Or.inl ⟨j, hj, ((hw j hj u).1 hh).1⟩
        · exact Or.inr (Or.inl hh)
        · exact Or.inr (Or.inr hh)
        · exact Or.inl ⟨i, hi, hold⟩
    · intro j hj k hk u h1 h2
      exact I.uniq j hj k hk u ((hw j hj u).1 h1).1 ((hw k hk u).1 h2).1
    · intro j hj u h1
      have := (hw j hj u).1 h1
      have h2 := I.hns j hj u this.1
      simp only [List.mem_append, List.mem_singleton]
      exact ⟨h2.1, fun hh => hh.elim h2.2 this.2⟩
    · intro u hu
      simp only [List.mem_append, List.mem_singleton]
      rintro (hh | rfl)
      · exact I.sd u hu hh
      · exact hn.1 hu
    · rw [List.nodup_append]
      refine ⟨I.dnd, by simp, ?_⟩
      intro a ha b hb; simp at hb; subst hb; rintro rfl; exact hn.2 ha
    · intro u; rw [I.run u]
      refine or_congr Iff.rfl ⟨?_, ?_⟩
      · rintro ⟨j, hj, hh⟩; exact ⟨j, hj, (hr j hj u).2 hh⟩
      · rintro ⟨j, hj, hh⟩; exact ⟨j, hj, (hr j hj u).1 hh⟩
    · intro j hj k hk u h1 h2; exact I.runu j hj k hk u ((hr j hj u).1 h1) ((hr k hk u).1 h2)
    · intro j hj u h1; exact I.runnd j hj u ((hr j hj u).1 h1)
    · intro j hj
      by_cases hji : j = i
      · subst hji; simp only [upd_self]; rw [I.flag j hj, h]; simp [W.marked]
      · simp only [upd_ne _ _ hji]; exact I.flag j hj
    · intro hk'; simp at hk'; simp [hk] at hk'
  case start i t hi h =>
    have hold : (s.w i).holds t := Or.inr (Or.inr h)
    have hn := I.hns i hi t hold
    have hw : ∀ j < n, ∀ u, (upd s.w i (.run t) j).holds u ↔ (s.w j).holds u ∧ u ≠ t := by
      intro j hj u
      by_cases hji : j = i
      · subst hji; rw [upd_self, h]; simp [W.holds]; exact fun e => e.symm
      · rw [upd_ne _ _ hji]
        refine ⟨fun hh => ⟨hh, ?_⟩, fun hh => hh.1⟩
        rintro rfl; exact hji (I.uniq j hj i hi _ hh hold)
    have hr : ∀ j < n, ∀ u, upd s.w i (.run t) j = .run u ↔ s.w j = .run u ∨ (j = i ∧ u = t) := by
      intro j hj u
      by_cases hji : j = i
      · subst hji; rw [upd_self, h]; simp [eq_comm]
      · rw [upd_ne _ _ hji]; simp [hji]
    have hnr : ∀ j < n, s.w j ≠ .run t := fun j hj e => hn.1 ((I.run t).2 (Or.inr ⟨j, hj, e⟩))
    have hndn : t ∉ s.done := fun e => hn.1 ((I.run t).2 (Or.inl e))
    refine ⟨I.order, ?_, ?_, ?_, ?_, ?_, I.dnd, ?_, ?_, ?_, I.donend, ?_, I.kill⟩
    · intro u
      rw [I.part u]
      simp only [List.mem_append, List.mem_singleton]
      constructor
      · rintro (⟨j, hj, hh⟩ | hh | hh)
        · by_cases hu : u = t
          · exact Or.inr (Or.inl (Or.inr hu))
          · exact Or.inl ⟨j, hj, (hw j hj u).2 ⟨hh, hu⟩⟩
        · exact Or.inr (Or.inl (Or.inl hh))
        · exact Or.inr (Or.inr hh)
      · rintro (⟨j, hj, hh⟩ | (hh | rfl) | hh)
        · exact Or.inl ⟨j, hj, ((hw j hj u).1 hh).1⟩
        · exact Or.inr (Or.inl hh)
        · exact Or.inl ⟨i, hi, hold⟩
        · exact Or.inr (Or.inr hh)
    · intro j hj k hk u h1 h2
      exact I.uniq j hj k hk u ((hw j hj u).1 h1).1 ((hw k hk u).1 h2).1
    · intro j hj u h1
      have := (hw j hj u).1 h1
      have h2 := I.hns j hj u this.1
      simp only [List.mem_append, List.mem_singleton]
      exact ⟨fun hh => hh.elim h2.1 this.2, h2.2⟩
    · intro u hu
      simp only [List.mem_append, List.mem_singleton] at hu
      rcases hu with hu | rfl
      · exact I.sd u hu
      · exact hn.2
    · show (s.started ++ [t]).Nodup
      rw [List.nodup_append]
      refine ⟨I.snd, by simp, ?_⟩
      intro a ha b hb; simp at hb; subst hb; rintro rfl; exact hn.1 ha
    · intro u
      simp only [List.mem_append, List.mem_singleton, I.run u]
      constructor
      · rintro ((hh | ⟨j, hj, hh⟩) | rfl)
        · exact Or.inl hh
        · exact Or.inr ⟨j, hj, (hr j hj u).2 (Or.inl hh)⟩
        · exact Or.inr ⟨i, hi, (hr i hi u).2 (Or.inr ⟨rfl, rfl⟩)⟩
      · rintro (hh | ⟨j, hj, hh⟩)
        · exact Or.inl (Or.inl hh)
        · rcases (hr j hj u).1 hh with hh | ⟨_, hh⟩
          · exact Or.inl (Or.inr ⟨j, hj, hh⟩)
          · exact Or.inr hh
    · intro j hj k hk u h1 h2
      rcases (hr j hj u).1 h1 with g1 | ⟨g1, g1'⟩ <;> rcases (hr k hk u).1 h2 with g2 | ⟨g2, g2'⟩
      · exact I.runu j hj k hk u g1 g2
      · subst g2'; exact absurd g1 (hnr j hj)
      · subst g1'; exact absurd g2 (hnr k hk)
      · omega
    · intro j hj u h1
      rcases (hr j hj u).1 h1 with h1 | ⟨h1, h1'⟩
      · exact I.runnd j hj u h1
      · subst h1'; exact hndn
    · intro j hj
      by_cases hji : j = i
      · subst hji; simp only [upd_self]; rw [I.flag j hj, h]; simp [W.marked]
      · simp only [upd_ne _ _ hji]; exact I.flag j hj
  case finish i t hi h =>
    have hst : t ∈ s.started := (I.run t).2 (Or.inr ⟨i, hi, h⟩)
    have hw : ∀ j < n, ∀ u, (upd s.w i .fin j).holds u ↔ (s.w j).holds u := by
      intro j hj u
      by_cases hji : j = i
      · subst hji; rw [upd_self, h]; simp [W.holds]
      · rw [upd_ne _ _ hji]
    have hr : ∀ j < n, ∀ u, upd s.w i .fin j = .run u ↔ s.w j = .run u ∧ u ≠ t := by
      intro j hj u
      by_cases hji : j = i
      · subst hji; rw [upd_self, h]; simp; exact fun e => e.symm
      · rw [upd_ne _ _ hji]
        refine ⟨fun hh => ⟨hh, ?_⟩, fun hh => hh.1⟩
        rintro rfl; exact hji (I.runu j hj i hi _ hh h)
    refine ⟨I.order, ?_, ?_, ?_, I.sd, I.snd, I.dnd, ?_, ?_, ?_, ?_, ?_, I.kill⟩
    · intro u; rw [I.part u]
      refine or_congr ⟨?_, ?_⟩ Iff.rfl
      · rintro ⟨j, hj, hh⟩; exact ⟨j, hj, (hw j hj u).2 hh⟩
      · rintro ⟨j, hj, hh⟩; exact ⟨j, hj, (hw j hj u).1 hh⟩
    · intro j hj k hk u h1 h2; exact I.uniq j hj k hk u ((hw j hj u).1 h1) ((hw k hk u).1 h2)
    · intro j hj u h1; exact I.hns j hj u ((hw j hj u).1 h1)
    · intro u; rw [I.run u]
      simp only [List.mem_append, List.mem_singleton]
      constructor
      · rintro (hh | ⟨j, hj, hh⟩)
        · exact Or.inl (Or.inl hh)
        · by_cases hu : u = t
          · exact Or.inl (Or.inr hu)
          · exact Or.inr ⟨j, hj, (hr j hj u).2 ⟨hh, hu⟩⟩
      · rintro ((hh | rfl) | ⟨j, hj, hh⟩)
        · exact Or.inl hh
        · exact Or.inr ⟨i, hi, h⟩
        · exact Or.inr ⟨j, hj, ((hr j hj u).1 hh).1⟩
    · intro j hj k hk u h1 h2; exact I.runu j hj k hk u ((hr j hj u).1 h1).1 ((hr k hk u).1 h2).1
    · intro j hj u h1
      have := (hr j hj u).1 h1
      simp only [List.mem_append, List.mem_singleton]
      rintro (hh | hh)
      · exact I.runnd j hj u this.1 hh
      · exact this.2 hh
    · show (s.done ++ [t]).Nodup
      rw [List.nodup_append]
      refine ⟨I.donend, by simp, ?_⟩
      intro a ha b hb; simp at hb; subst hb; rintro rfl; exact I.runnd i hi _ h ha
    · intro j hj
      by_cases hji : j = i
      · subst hji; simp only [upd_self]; rw [I.flag j hj, h]; simp [W.marked]
      · simp only [upd_ne _ _ hji]; exact I.flag j hj
  case send c hc h =>
    have := I.order
    exact ⟨by simp [List.range_succ, ← this], I.part, I.uniq, I.hns, I.sd, I.snd, I.dnd, I.run, I.runu, I.runnd, I.donend, I.flag, I.kill⟩
  all_goals
    refine I.neutral rfl rfl rfl rfl rfl rfl (by first | exact Or.inl rfl | exact Or.inr rfl) ?_ ?_ ?_ <;>
    first
    | (intro j hj; exact I.flag j hj)
    | (intro j hj u; exact Iff.rfl)
    | (intro j hj u; rename_i hw; simp only; split_ifs with h1 <;> simp_all [W.holds]; done)
    | (intro j hj; have := I.flag j hj; simp only; split_ifs with h1 <;> simp_all [W.marked]; done)
    | (rename_i i hi h; intro j hj u; by_cases hji : j = i <;> simp_all [upd, W.holds, W.marked]; done)
    | (rename_i i _ hi h; intro j hj u; by_cases hji : j = i <;> simp_all [upd, W.holds, W.marked]; done)
    | (rename_i i hi h _; intro j hj u; by_cases hji : j = i <;> simp_all [upd, W.holds, W.marked]; done)
    | (rename_i i hi h _ _; intro j hj u; by_cases hji : j = i <;> simp_all [upd, W.holds, W.marked]; done)
    | (rename_i i _ hi h _; intro j hj u; by_cases hji : j = i <;> simp_all [upd, W.holds, W.marked]; done)
    | (rename_i i _ _ _ hi h _ _ _; intro j hj u; by_cases hji : j = i <;> simp_all [upd, W.holds, W.marked]; done)
    | (rename_i i hi h; intro j hj; have := I.flag j hj; by_cases hji : j = i <;> simp_all [upd, W.holds, W.marked]; done)
    | (rename_i i _ hi h; intro j hj; have := I.flag j hj; by_cases hji : j = i <;> simp_all [upd, W.holds, W.marked]; done)
    | (rename_i i hi h _; intro j hj; have := I.flag j hj; by_cases hji : j = i <;> simp_all [upd, W.holds, W.marked]; done)
    | (rename_i i hi h _ _; intro j hj; have := I.flag j hj; by_cases hji : j = i <;> simp_all [upd, W.holds, W.marked]; done)
    | (rename_i i _ hi h _; intro j hj; have := I.flag j hj; by_cases hji : j = i <;> simp_all [upd, W.holds, W.marked]; done)
    | (rename_i i _ _ _ hi h _ _ _; intro j hj; have := I.flag j hj; by_cases hji : j = i <;> simp_all [upd, W.holds, W.marked]; done)
    | skip

theorem PReach.inv {n m : Nat} {s : PSt} (h : PReach n m s) : Inv n s := by
  induction h with
  | init => exact Inv.init n
  | step s a s' _ hs ih => exact ih.step (step_PStep hs)

end Fdapde.Threads
