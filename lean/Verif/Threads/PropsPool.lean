import Verif.Threads.PoolLemmas
/- C32, C33, C34: the thread pool. -/
namespace Fdapde.Threads

/-! ### C32 -/

/-- For any numbers of workers and clients and any schedule: a task body is entered at most once and completes at
most once, and only tasks that were sent are run. -/
theorem C32_at_most_once {n m : Nat} {s : PSt} (h : PReach n m s) :
    s.started.Nodup ∧ s.done.Nodup ∧ (∀ t ∈ s.done, t ∈ s.started) ∧ ∀ t ∈ s.started, t < s.next := by
  have I := h.inv
  refine ⟨I.snd, I.donend, fun t ht => (I.run t).2 (Or.inl ht), fun t ht => ?_⟩
  have : t ∈ s.taken ++ s.queue := List.mem_append_left _ ((I.part t).2 (Or.inr (Or.inl ht)))
  rw [I.order] at this
  simpa using this

/-- Two workers are never inside, or about to enter, the same task. -/
theorem C32_one_worker_per_task {n m : Nat} {s : PSt} (h : PReach n m s) (i j t : Nat) (hi : i < n) (hj : j < n)
    (h1 : s.w i = .busy t ∨ s.w i = .run t) (h2 : s.w j = .busy t ∨ s.w j = .run t) : i = j := by
  have I := h.inv
  rcases h1 with h1 | h1 <;> rcases h2 with h2 | h2
  · exact I.uniq i hi j hj t (Or.inr (Or.inr h1)) (Or.inr (Or.inr h2))
  · exact absurd ((I.run t).2 (Or.inr ⟨j, hj, h2⟩)) (I.hns i hi t (Or.inr (Or.inr h1))).1
  · exact absurd ((I.run t).2 (Or.inr ⟨i, hi, h1⟩)) (I.hns j hj t (Or.inr (Or.inr h2))).1
  · exact I.runu i hi j hj t h1 h2

/-- Workers take tasks in the order in which they were sent, none is skipped: the tasks taken so far followed by
the tasks in the queue are all the tasks sent, in order. -/
theorem C32_taken_in_order {n m : Nat} {s : PSt} (h : PReach n m s) : s.taken ++ s.queue = List.range s.next :=
  h.inv.order

theorem no_lost_wakeup {n m : Nat} (hn : 0 < n) {s : PSt} (h : PReach n m s) :
    s.queue ≠ [] → (∃ i < n, s.w i ≠ .asleep) ∨ ∃ c < m, ∃ t, s.c c = .sending t := by
  induction h with
  | init => intro hq; exact absurd rfl hq
  | step s a s' _ hs ih =>
      have key : ∀ (i : Nat) (x : W), i < n → x ≠ .asleep → ∃ j < n, upd s.w i x j ≠ .asleep :=
        fun i x hi hx => ⟨i, hi, by rw [upd_self]; exact hx⟩
      have keep : ∀ (c : Nat) (x : C), (∀ t, s.c c ≠ .sending t) →
          (∃ d < m, ∃ t, s.c d = .sending t) → ∃ d < m, ∃ t, upd s.c c x d = .sending t := by
        rintro c x hc ⟨d, hd, t, ht⟩
        have : d ≠ c := by rintro rfl; exact hc t ht
        exact ⟨d, hd, t, by rw [upd_ne _ _ this]; exact ht⟩
      have hp := step_PStep hs
      clear hs
      cases hp
      case exit i hi hw hk => intro _; exact Or.inl (key i _ hi (by simp))
      case pop i t q hi hw hk hq => intro _; exact Or.inl (key i _ hi (by simp))
      case sleep i hi hw hk hq => intro h; exact absurd hq h
      case drop i t hi hw hk => intro _; exact Or.inl (key i _ hi (by simp))
      case keep i t hi hw hk => intro _; exact Or.inl (key i _ hi (by simp))
      case mark i t hi hw => intro _; exact Or.inl (key i _ hi (by simp))
      case start i t hi hw => intro _; exact Or.inl (key i _ hi (by simp))
      case finish i t hi hw => intro _; exact Or.inl (key i _ hi (by simp))
      case unmark i hi hw => intro _; exact Or.inl (key i _ hi (by simp))
      case chkT i hi hw _ => intro _; exact Or.inl (key i _ hi (by simp))
      case chkF i hi hw _ => intro _; exact Or.inl (key i _ hi (by simp))
      case ntfSome i c S B hi hw ho hc hs => intro _; exact Or.inl (key i _ hi (by simp))
      case ntfNone i hi hw ho hs => intro _; exact Or.inl (key i _ hi (by simp))
      case wakeW i hi hw => intro _; exact Or.inl (key i _ hi (by simp))
      case notifySome c t i hc hs hi hw => intro _; exact Or.inl (key i _ hi (by simp))
      case notifyNone c t hc hs hw => intro _; exact Or.inl ⟨0, hn, hw 0 hn⟩
      case send c hc hs => intro _; exact Or.inr ⟨c, hc, s.next, by simp [upd_self]⟩
      case notifyAll c hc hs =>
        intro _; refine Or.inl ⟨0, hn, ?_⟩
        simp only; split_ifs with h <;> simp [h]
      all_goals
        intro hq
        rcases ih hq with h1 | h1
        · exact Or.inl h1
        · refine Or.inr (keep _ _ ?_ h1)
          intro t e; simp_all

/-- No wake-up is lost: as long as a task is waiting in the queue, some worker is not sleeping (so it will look at
the queue again before it sleeps) or some client is still inside send_async about to notify. -/
theorem C32_no_lost_wakeup {n m : Nat} (hn : 0 < n) {s : PSt} (h : PReach n m s) (hq : s.queue ≠ []) :
    (∃ i < n, s.w i ≠ .asleep) ∨ ∃ c < m, ∃ t, s.c c = .sending t := no_lost_wakeup hn h hq

/-- If the pool was not shut down and comes to rest (all workers sleeping, no client inside send_async), every
task that was sent has run to completion, exactly once. -/
theorem C32_all_run_when_quiescent {n m : Nat} (hn : 0 < n) {s : PSt} (h : PReach n m s) (hk : s.kill = false)
    (hw : ∀ i < n, s.w i = .asleep) (hc : ∀ c < m, ∀ t, s.c c ≠ .sending t) :
    ∀ t, t < s.next → s.done.count t = 1 := by
  have I := h.inv
  have hq : s.queue = [] := by
    by_contra hq
    rcases no_lost_wakeup hn h hq with ⟨i, hi, h1⟩ | ⟨c, hc', t, h1⟩
    · exact h1 (hw i hi)
    · exact hc c hc' t h1
  intro t ht
  have h1 : t ∈ s.taken := by
    have : t ∈ s.taken ++ s.queue := by rw [I.order]; simpa using ht
    simpa [hq] using this
  have h2 : t ∈ s.done := by
    rcases (I.part t).1 h1 with ⟨i, hi, hh⟩ | hh | hh
    · rw [hw i hi] at hh; simp [W.holds] at hh
    · rcases (I.run t).1 hh with hh | ⟨i, hi, hh⟩
      · exact hh
      · rw [hw i hi] at hh; cases hh
    · rw [I.kill hk] at hh; simp at hh
  rw [List.Nodup.count I.donend, if_pos h2]

/-- One worker, one client, one task, run to completion. -/
def demo : List Act :=
  [.work 0, .send 0, .notify 0 (some 0), .work 0, .work 0, .work 0, .work 0, .work 0, .work 0, .work 0, .work 0]

example : ∃ s, PReach 1 1 s ∧ s.kill = false ∧ (∀ i < 1, s.w i = .asleep) ∧ (∀ c < 1, ∀ t, s.c c ≠ .sending t) ∧ s.next = 1 ∧ s.done = [0] := by
  have : (runActs 1 1 PSt.init demo).isSome := by decide
  obtain ⟨s, hs⟩ := Option.isSome_iff_exists.1 this
  have e : (runActs 1 1 PSt.init demo).map (fun s => (s.kill, s.w 0, s.c 0, s.next, s.done)) =
      some (false, .asleep, .idle, 1, [0]) := by decide
  rw [hs] at e; simp only [Option.map_some, Option.some.injEq, Prod.mk.injEq] at e
  obtain ⟨e1, e2, e3, e4, e5⟩ := e
  refine ⟨s, runActs_reach 1 1 _ _ _ .init hs, e1, fun i hi => ?_, fun c hc t => ?_, e4, e5⟩
  · obtain rfl : i = 0 := by omega
    exact e2
  · obtain rfl : c = 0 := by omega
    rw [e3]; simp

/-! ### C33 -/

/-- What is known about a client inside sync(). -/
def cOk (n : Nat) (s : PSt) : C → Prop
  | .syncWant S B => S ≤ s.next ∧ ∀ t ∈ B, t ∈ s.started
  | .syncQ S B => S ≤ s.next ∧ ∀ t ∈ B, t ∈ s.started
  | .syncSleep S B => S ≤ s.next ∧ ∀ t ∈ B, t ∈ s.started
  | .syncW S B i seen =>
      (S ≤ s.next ∧ ∀ t ∈ B, t ∈ s.started) ∧ seen.length ≤ i ∧ i ≤ n ∧
      (∀ t < S, t ∈ s.done ∨ t ∈ s.dropped ∨ t ∈ seen ∨ ∃ j, i ≤ j ∧ j < n ∧ ((s.w j).holds t ∨ s.w j = .run t)) ∧
      (∀ t ∈ B, t ∈ s.done ∨ ∃ j, i ≤ j ∧ j < n ∧ s.w j = .run t)
  | .syncRet S B seen =>
      seen.length ≤ n ∧ (∀ t < S, t ∈ s.done ∨ t ∈ s.dropped ∨ t ∈ seen) ∧ ∀ t ∈ B, t ∈ s.done
  | _ => True

theorem evol {n m : Nat} {s s' : PSt} {a : Act} (h : PStep n m s a s') :
    (∀ t ∈ s.done, t ∈ s'.done) ∧ (∀ t ∈ s.dropped, t ∈ s'.dropped) ∧ (∀ t ∈ s.started, t ∈ s'.started) ∧
    s.next ≤ s'.next ∧
    (∀ j < n, ∀ t, ((s.w j).holds t ∨ s.w j = .run t) →
      ((s'.w j).holds t ∨ s'.w j = .run t) ∨ t ∈ s'.done ∨ t ∈ s'.dropped) ∧
    (∀ j < n, ∀ t, s.w j = .run t → s'.w j = .run t ∨ t ∈ s'.done) := by
  cases h
  all_goals
    refine ⟨by first | exact fun _ h => h | simp +contextual, by first | exact fun _ h => h | simp +contextual,
      by first | exact fun _ h => h | simp +contextual, by simp, ?_, ?_⟩
  all_goals
    first
    | (intro j hj t h; exact Or.inl h)
    | (rename_i i _ _ _; intro j hj u; by_cases hji : j = i <;> simp_all [upd, W.holds]; done)
    | (rename_i i _ _ _ _; intro j hj u; by_cases hji : j = i <;> simp_all [upd, W.holds]; done)
    | (rename_i i _ _; intro j hj u; by_cases hji : j = i <;> simp_all [upd, W.holds]; done)
    | (rename_i i _ _ _ _ _; intro j hj u; by_cases hji : j = i <;> simp_all [upd, W.holds]; done)
    | (rename_i i _ _ _ _ _ _; intro j hj u; by_cases hji : j = i <;> simp_all [upd, W.holds]; done)
    | (rename_i i _ _ _ _ _ _ _ _; intro j hj u; by_cases hji : j = i <;> simp_all [upd, W.holds]; done)
    | (intro j hj u; simp only; split_ifs with h1 <;> simp_all [W.holds]; done)
    | (rename_i i t _ _ _; intro j hj u; by_cases hji : j = i
       · subst hji; simp only [upd_self]; simp_all [W.holds]; try (rintro rfl; simp)
       · simp only [upd_ne _ _ hji]; tauto)
    | (rename_i i t _ _; intro j hj u; by_cases hji : j = i
       · subst hji; simp only [upd_self]; simp_all [W.holds]; try (rintro rfl; simp)
       · simp only [upd_ne _ _ hji]; tauto)
    | skip

theorem cOk_mono {n : Nat} {s s' : PSt} {x : C}
    (e : (∀ t ∈ s.done, t ∈ s'.done) ∧ (∀ t ∈ s.dropped, t ∈ s'.dropped) ∧ (∀ t ∈ s.started, t ∈ s'.started) ∧
    s.next ≤ s'.next ∧
    (∀ j < n, ∀ t, ((s.w j).holds t ∨ s.w j = .run t) →
      ((s'.w j).holds t ∨ s'.w j = .run t) ∨ t ∈ s'.done ∨ t ∈ s'.dropped) ∧
    (∀ j < n, ∀ t, s.w j = .run t → s'.w j = .run t ∨ t ∈ s'.done)) (h : cOk n s x) : cOk n s' x := by
  obtain ⟨e1, e2, e3, e4, e5, e6⟩ := e
  cases x with
  | syncWant S B => exact ⟨h.1.trans e4, fun t ht => e3 t (h.2 t ht)⟩
  | syncQ S B => exact ⟨h.1.trans e4, fun t ht => e3 t (h.2 t ht)⟩
  | syncSleep S B => exact ⟨h.1.trans e4, fun t ht => e3 t (h.2 t ht)⟩
  | syncW S B i seen =>
      obtain ⟨h1, h2, h3, h4, h5⟩ := h
      refine ⟨⟨h1.1.trans e4, fun t ht => e3 t (h1.2 t ht)⟩, h2, h3, fun t ht => ?_, fun t ht => ?_⟩
      · rcases h4 t ht with h | h | h | ⟨j, hij, hj, h⟩
        · exact Or.inl (e1 t h)
        · exact Or.inr (Or.inl (e2 t h))
        · exact Or.inr (Or.inr (Or.inl h))
        · rcases e5 j hj t h with h | h | h
          · exact Or.inr (Or.inr (Or.inr ⟨j, hij, hj, h⟩))
          · exact Or.inl h
          · exact Or.inr (Or.inl h)
      · rcases h5 t ht with h | ⟨j, hij, hj, h⟩
        · exact Or.inl (e1 t h)
        · rcases e6 j hj t h with h | h
          · exact Or.inr ⟨j, hij, hj, h⟩
          · exact Or.inl h
  | syncRet S B seen =>
      refine ⟨h.1, fun t ht => ?_, fun t ht => e1 t (h.2.2 t ht)⟩
      rcases h.2.1 t ht with h | h | h
      · exact Or.inl (e1 t h)
      · exact Or.inr (Or.inl (e2 t h))
      · exact Or.inr (Or.inr h)
  | _ => trivial

/-- A step leaves each client where it is, or it is a step of that client leading to an acceptable position. -/
theorem client_step {n m : Nat} {s s' : PSt} {a : Act} (I : Inv n s) (h : PStep n m s a s') (hc : ∀ c, cOk n s (s.c c)) :
    ∀ c, s'.c c = s.c c ∨ cOk n s' (s'.c c) := by
  have gen : ∀ (c : Nat) (x : C), cOk n s' x → ∀ d, upd s.c c x d = s.c d ∨ cOk n s' (upd s.c c x d) := by
    intro c x hx d
    by_cases hd : d = c
    · subst hd; rw [upd_self]; exact Or.inr hx
    · rw [upd_ne _ _ hd]; exact Or.inl rfl
  cases h
  case ntfSome i c S B hi hw ho hcm hs => exact gen c _ (by have := hc c; rw [hs] at this; exact this)
  case send c hcm hs => exact gen c _ trivial
  case notifySome c t i hcm hs hi hw => exact gen c _ trivial
  case notifyNone c t hcm hs hw => exact gen c _ trivial
  case callSync c hcm hs => exact gen c _ ⟨Nat.le_refl _, fun _ h => h⟩
  case syncLock c S B hcm hs ho => exact gen c _ (by have := hc c; rw [hs] at this; exact this)
  case syncEmpty c S B hcm hs hq =>
    refine gen c _ ?_
    have hcc := hc c; rw [hs] at hcc
    refine ⟨hcc, by simp, Nat.zero_le _, fun t ht => ?_, fun t ht => ?_⟩
    · have h1 : t ∈ s.taken ++ s.queue := by rw [I.order]; simpa using Nat.lt_of_lt_of_le ht hcc.1
      rw [hq, List.append_nil, I.part] at h1
      rcases h1 with ⟨j, hj, h1⟩ | h1 | h1
      · exact Or.inr (Or.inr (Or.inr ⟨j, Nat.zero_le _, hj, Or.inl h1⟩))
      · rcases (I.run t).1 h1 with h1 | ⟨j, hj, h1⟩
        · exact Or.inl h1
        · exact Or.inr (Or.inr (Or.inr ⟨j, Nat.zero_le _, hj, Or.inr h1⟩))
      · exact Or.inr (Or.inl h1)
    · rcases (I.run t).1 (hcc.2 t ht) with h1 | ⟨j, hj, h1⟩
      · exact Or.inl h1
      · exact Or.inr ⟨j, Nat.zero_le _, hj, h1⟩
  case syncNonempty c S B hcm hs hq => exact gen c _ (by have := hc c; rw [hs] at this; exact this)
  case syncBusy c S B i seen hcm hs hi hf => exact gen c _ (by have := hc c; rw [hs] at this; exact this.1)
  case syncIdle c S B i seen hcm hs hi hf =>
    refine gen c _ ?_
    have hcc := hc c; rw [hs] at hcc
    obtain ⟨h1, h2, h3, h4, h5⟩ := hcc
    have hnm : ¬ (s.w i).marked := fun hm => by rw [(I.flag i hi).2 hm] at hf; cases hf
    refine ⟨h1, ?_, hi, fun t ht => ?_, fun t ht => ?_⟩
    · have : ((s.w i).window).length ≤ 1 := by cases s.w i <;> simp [W.window]
      simp only [List.length_append]; omega
    · rcases h4 t ht with h | h | h | ⟨j, hij, hj, h⟩
      · exact Or.inl h
      · exact Or.inr (Or.inl h)
      · exact Or.inr (Or.inr (Or.inl (List.mem_append_right _ h)))
      · by_cases hji : j = i
        · subst hji
          refine Or.inr (Or.inr (Or.inl (List.mem_append_left _ ?_)))
          rcases h with (h | h | h) | h
          · rw [h]; simp [W.window]
          · rw [h]; simp [W.window]
          · exact absurd (Or.inl ⟨t, h⟩) hnm
          · exact absurd (Or.inr (Or.inl ⟨t, h⟩)) hnm
        · exact Or.inr (Or.inr (Or.inr ⟨j, by omega, hj, h⟩))
    · rcases h5 t ht with h | ⟨j, hij, hj, h⟩
      · exact Or.inl h
      · by_cases hji : j = i
        · subst hji; exact absurd (Or.inr (Or.inl ⟨t, h⟩)) hnm
        · exact Or.inr ⟨j, by omega, hj, h⟩
  case syncEnd c S B i seen hcm hs hi =>
    refine gen c _ ?_
    have hcc := hc c; rw [hs] at hcc
    obtain ⟨h1, h2, h3, h4, h5⟩ := hcc
    refine ⟨by omega, fun t ht => ?_, fun t ht => ?_⟩
    · rcases h4 t ht with h | h | h | ⟨j, hij, hj, h⟩
      · exact Or.inl h
      · exact Or.inr (Or.inl h)
      · exact Or.inr (Or.inr h)
      · omega
    · rcases h5 t ht with h | ⟨j, hij, hj, h⟩
      · exact h
      · omega
  case wakeC c S B hcm hs => exact gen c _ (by have := hc c; rw [hs] at this; exact this)
  case ret c S B seen hcm hs => exact gen c _ trivial
  case kill c hcm hs => exact gen c _ trivial
  case notifyAll c hcm hs => exact gen c _ trivial
  case join c i hcm hs hi hw => exact gen c _ trivial
  case joinEnd c i hcm hs hi => exact gen c _ trivial
  all_goals exact fun _ => Or.inl rfl

theorem PReach.cOk {n m : Nat} {s : PSt} (h : PReach n m s) : ∀ c, cOk n s (s.c c) := by
  induction h with
  | init => intro c; trivial
  | step s a s' hr hs ih =>
      intro c
      have hp := step_PStep hs
      rcases client_step hr.inv hp ih c with e | e
      · rw [e]; exact cOk_mono (evol hp) (ih c)
      · exact e

/-- When sync() returns, every task whose body had been entered before sync() was called has completed. -/
theorem C33_started_before_sync_partial {n m : Nat} {s : PSt} (h : PReach n m s) (c S : Nat) (B seen : List Nat)
    (hc : s.c c = .syncRet S B seen) : ∀ t ∈ B, t ∈ s.done := by
  have := h.cOk c
  rw [hc] at this
  exact this.2.2

/-- When sync() returns, every task sent before the call has completed, or was destroyed by a shutdown, or was one
of at most `n` tasks (`seen`: one per worker) that a worker had taken from the queue without being marked BUSY yet
when sync() looked at its state. -/
theorem C33_all_but_window_partial {n m : Nat} {s : PSt} (h : PReach n m s) (c S : Nat) (B seen : List Nat)
    (hc : s.c c = .syncRet S B seen) :
    seen.length ≤ n ∧ ∀ t < S, t ∈ s.done ∨ (s.kill = true ∧ t ∈ s.dropped) ∨ t ∈ seen := by
  have := h.cOk c
  rw [hc] at this
  refine ⟨this.1, fun t ht => ?_⟩
  rcases this.2.1 t ht with h1 | h1 | h1
  · exact Or.inl h1
  · refine Or.inr (Or.inl ⟨?_, h1⟩)
    cases hk : s.kill with
    | true => rfl
    | false => rw [h.inv.kill hk] at h1; simp at h1
  · exact Or.inr (Or.inr h1)

/-- A run where sync() has to wait and returns after the task is done. -/
def demoSync : List Act :=
  [.send 0, .notify 0 none, .work 0, .work 0, .work 0, .work 0, .callSync 0, .syncStep 0, .syncStep 0, .syncStep 0,
   .work 0, .work 0, .work 0, .ntf 0 (some 0), .syncStep 0, .syncStep 0, .syncStep 0, .syncStep 0]

example : ∃ s, PReach 1 1 s ∧ s.c 0 = .syncRet 1 [0] [] ∧ s.done = [0] := by
  have : (runActs 1 1 PSt.init demoSync).isSome := by decide
  obtain ⟨s, hs⟩ := Option.isSome_iff_exists.1 this
  have e : (runActs 1 1 PSt.init demoSync).map (fun s => (s.c 0, s.done)) = some (.syncRet 1 [0] [], [0]) := by decide
  rw [hs] at e; simp only [Option.map_some, Option.some.injEq, Prod.mk.injEq] at e
  exact ⟨s, runActs_reach 1 1 _ _ _ .init hs, e.1, e.2⟩

/-- The property is false: `sync()` can return while a task sent before it has not even been started. A worker that
has popped a task is neither counted by `task_queue_.empty()` nor marked `BUSY` until line 44, so `sync()` sees an
empty queue and all workers idle. One worker, one client, one task suffice. -/
theorem C33_bug_returns_early : ∃ s, PReach 1 1 s ∧ s.c 0 = .syncRet 1 [] [0] ∧ s.next = 1 ∧ s.started = [] ∧ s.done = [] := by
  let l : List Act := [.send 0, .notify 0 none, .work 0, .callSync 0, .syncStep 0, .syncStep 0, .syncStep 0, .syncStep 0]
  have : (runActs 1 1 PSt.init l).isSome := by decide
  obtain ⟨s, hs⟩ := Option.isSome_iff_exists.1 this
  have e : (runActs 1 1 PSt.init l).map (fun s => (s.c 0, s.next, s.started, s.done)) = some (.syncRet 1 [] [0], 1, [], []) := by decide
  rw [hs] at e; simp only [Option.map_some, Option.some.injEq, Prod.mk.injEq] at e
  exact ⟨s, runActs_reach 1 1 _ _ _ .init hs, e.1, e.2.1, e.2.2.1, e.2.2.2⟩

/-- Two clients calling `sync()` concurrently: workers call `notify_one`, so one of the two can stay blocked forever
although all tasks are done, all workers sleep and nobody else will notify. -/
theorem C33_bug_two_syncs : ∃ s, PReach 1 2 s ∧ s.c 0 = .idle ∧ s.c 1 = .syncSleep 1 [] ∧ s.w 0 = .asleep ∧
    s.queue = [] ∧ s.done = [0] ∧ s.kill = false := by
  let l : List Act := [.send 0, .notify 0 none, .work 0, .work 0, .work 0, .callSync 0, .syncStep 0, .syncStep 0, .syncStep 0,
    .callSync 1, .syncStep 1, .syncStep 1, .syncStep 1, .work 0, .work 0, .work 0, .work 0, .ntf 0 (some 0), .work 0,
    .syncStep 0, .syncStep 0, .syncStep 0, .syncStep 0, .ret 0]
  have : (runActs 1 2 PSt.init l).isSome := by decide
  obtain ⟨s, hs⟩ := Option.isSome_iff_exists.1 this
  have e : (runActs 1 2 PSt.init l).map (fun s => (s.c 0, s.c 1, s.w 0)) = some (.idle, .syncSleep 1 [], .asleep) := by decide
  have e' : (runActs 1 2 PSt.init l).map (fun s => (s.queue, s.done, s.kill)) = some ([], [0], false) := by decide
  rw [hs] at e e'; simp only [Option.map_some, Option.some.injEq, Prod.mk.injEq] at e e'
  exact ⟨s, runActs_reach 1 2 _ _ _ .init hs, e.1, e.2.1, e.2.2, e'.1, e'.2.1, e'.2.2⟩

/-- The worker is on its way to a notification of `sync_condition_`. -/
def W.active : W → Prop
  | .check => False
  | .asleep => False
  | .exited => False
  | _ => True

theorem single_client {n : Nat} {s : PSt} (h : PReach n 1 s) :
    ((∃ S B, s.c 0 = .syncSleep S B) → s.sync = true ∧ (s.kill = false → s.queue ≠ [] ∨ ∃ i < n, (s.w i).active)) ∧
    ((∃ S B, s.c 0 = .syncQ S B) ∨ (∃ S B i seen, s.c 0 = .syncW S B i seen) → s.sync = true) := by
  induction h with
  | init => simp [PSt.init]
  | step s a s' hr hs ih =>
      have act : ∀ (i : Nat) (x : W), i < n → x.active → ∃ j < n, (upd s.w i x j).active :=
        fun i x hi hx => ⟨i, hi, by rw [upd_self]; exact hx⟩
      have stay : ∀ (i : Nat) (x : W), i < n → ¬ (s.w i).active → (∃ j < n, (s.w j).active) → ∃ j < n, (upd s.w i x j).active := by
        rintro i x hi hx ⟨j, hj, h⟩
        have : j ≠ i := by rintro rfl; exact hx h
        exact ⟨j, hj, by rw [upd_ne _ _ this]; exact h⟩
      have hp := step_PStep hs
      clear hs
      cases hp
      case exit i hi hw hk => exact ⟨fun h => ⟨(ih.1 h).1, fun hk' => by simp_all⟩, ih.2⟩
      case pop i t q hi hw hk hq =>
        exact ⟨fun h => ⟨(ih.1 h).1, fun _ => Or.inr (act i _ hi trivial)⟩, ih.2⟩
      case sleep i hi hw hk hq =>
        refine ⟨fun h => ⟨(ih.1 h).1, fun hk' => ?_⟩, ih.2⟩
        rcases (ih.1 h).2 hk with h1 | h1
        · exact absurd hq h1
        · exact Or.inr (stay i _ hi (by rw [hw]; exact id) h1)
      case drop i t hi hw hk => exact ⟨fun h => ⟨(ih.1 h).1, fun hk' => by simp_all⟩, ih.2⟩
      case keep i t hi hw hk => exact ⟨fun h => ⟨(ih.1 h).1, fun _ => Or.inr (act i _ hi trivial)⟩, ih.2⟩
      case mark i t hi hw => exact ⟨fun h => ⟨(ih.1 h).1, fun _ => Or.inr (act i _ hi trivial)⟩, ih.2⟩
      case start i t hi hw => exact ⟨fun h => ⟨(ih.1 h).1, fun _ => Or.inr (act i _ hi trivial)⟩, ih.2⟩
      case finish i t hi hw => exact ⟨fun h => ⟨(ih.1 h).1, fun _ => Or.inr (act i _ hi trivial)⟩, ih.2⟩
      case unmark i hi hw => exact ⟨fun h => ⟨(ih.1 h).1, fun _ => Or.inr (act i _ hi trivial)⟩, ih.2⟩
      case chkT i hi hw hs => exact ⟨fun h => ⟨(ih.1 h).1, fun _ => Or.inr (act i _ hi trivial)⟩, ih.2⟩
      case chkF i hi hw hs =>
        refine ⟨fun h => ?_, ih.2⟩
        have := (ih.1 h).1; rw [hs] at this; cases this
      case ntfSome i c S B hi hw ho hc hs =>
        obtain rfl : c = 0 := by omega
        simp [upd_self]
      case ntfNone i hi hw ho hs =>
        refine ⟨fun h => ?_, ih.2⟩
        obtain ⟨S, B, h⟩ := h
        exact absurd h (hs 0 (by omega) S B)
      case wakeW i hi hw =>
        refine ⟨fun h => ⟨(ih.1 h).1, fun hk' => ?_⟩, ih.2⟩
        rcases (ih.1 h).2 hk' with h1 | h1
        · exact Or.inl h1
        · exact Or.inr (stay i _ hi (by rw [hw]; exact id) h1)
      case send c hc hs => obtain rfl : c = 0 := by omega
                           simp [upd_self]
      case notifySome c t i hc hs hi hw => obtain rfl : c = 0 := by omega
                                           simp [upd_self]
      case notifyNone c t hc hs hw => obtain rfl : c = 0 := by omega
                                      simp [upd_self]
      case callSync c hc hs => obtain rfl : c = 0 := by omega
                               simp [upd_self]
      case syncLock c S B hc hs ho => obtain rfl : c = 0 := by omega
                                      simp [upd_self]
      case syncEmpty c S B hc hs hq =>
        obtain rfl : c = 0 := by omega
        have := ih.2 (Or.inl ⟨S, B, hs⟩)
        simp [upd_self, this]
      case syncNonempty c S B hc hs hq =>
        obtain rfl : c = 0 := by omega
        have := ih.2 (Or.inl ⟨S, B, hs⟩)
        simp [upd_self, this, hq]
      case syncBusy c S B i seen hc hs hi hf =>
        obtain rfl : c = 0 := by omega
        have := ih.2 (Or.inr ⟨S, B, i, seen, hs⟩)
        refine ⟨fun _ => ⟨this, fun _ => Or.inr ⟨i, hi, ?_⟩⟩, fun _ => this⟩
        rcases (hr.inv.flag i hi).1 hf with ⟨t, h⟩ | ⟨t, h⟩ | h <;> (show (s.w i).active; rw [h]; trivial)
      case syncIdle c S B i seen hc hs hi hf =>
        obtain rfl : c = 0 := by omega
        have := ih.2 (Or.inr ⟨S, B, i, seen, hs⟩)
        simp [upd_self, this]
      case syncEnd c S B i seen hc hs hi => obtain rfl : c = 0 := by omega
                                            simp [upd_self]
      case wakeC c S B hc hs => obtain rfl : c = 0 := by omega
                                simp [upd_self]
      case ret c S B seen hc hs => obtain rfl : c = 0 := by omega
                                   simp [upd_self]
      case kill c hc hs => obtain rfl : c = 0 := by omega
                           simp [upd_self]
      case notifyAll c hc hs => obtain rfl : c = 0 := by omega
                                simp [upd_self]
      case join c i hc hs hi hw => obtain rfl : c = 0 := by omega
                                   simp [upd_self]
      case joinEnd c i hc hs hi => obtain rfl : c = 0 := by omega
                                   simp [upd_self]

/-- With one client thread, sync() does not miss its notification: while it sleeps and the pool is not shut down,
some task is still in the queue or some worker is between taking a task and notifying. -/
theorem C33_single_client_not_forgotten {n : Nat} {s : PSt} (h : PReach n 1 s) (S : Nat) (B : List Nat)
    (hc : s.c 0 = .syncSleep S B) (hk : s.kill = false) :
    s.queue ≠ [] ∨ ∃ i < n, s.w i ≠ .check ∧ s.w i ≠ .asleep ∧ s.w i ≠ .exited := by
  rcases ((single_client h).1 ⟨S, B, hc⟩).2 hk with h1 | ⟨i, hi, h1⟩
  · exact Or.inl h1
  · refine Or.inr ⟨i, hi, ?_, ?_, ?_⟩ <;> (intro e; rw [e] at h1; exact h1)

example : ∃ s, PReach 1 1 s ∧ s.c 0 = .syncSleep 1 [0] ∧ s.kill = false := by
  have : (runActs 1 1 PSt.init (demoSync.take 10)).isSome := by decide
  obtain ⟨s, hs⟩ := Option.isSome_iff_exists.1 this
  have e : (runActs 1 1 PSt.init (demoSync.take 10)).map (fun s => (s.c 0, s.kill)) = some (.syncSleep 1 [0], false) := by decide
  rw [hs] at e; simp only [Option.map_some, Option.some.injEq, Prod.mk.injEq] at e
  exact ⟨s, runActs_reach 1 1 _ _ _ .init hs, e.1, e.2⟩

/-! ### C34 -/

/-- Known about a client inside or after shutdown(). -/
def sdOk (n : Nat) (s : PSt) : C → Prop
  | .sdNotify => s.kill = true
  | .sdJoin i => s.kill = true ∧ (∀ j < n, s.w j ≠ .asleep) ∧ ∀ j < i, j < n → s.w j = .exited
  | .sdDone => s.kill = true ∧ ∀ j < n, s.w j = .exited
  | _ => True

theorem kill_evol {n m : Nat} {s s' : PSt} {a : Act} (h : PStep n m s a s') :
    (s.kill = true → s'.kill = true) ∧ (∀ j, s.w j = .exited → s'.w j = .exited) ∧
    (s.kill = true → ∀ j, s.w j ≠ .asleep → s'.w j ≠ .asleep) := by
  cases h
  case notifyAll c hc h =>
    refine ⟨id, fun j hj => by simp [hj], fun _ j hj => by simp [hj]⟩
  all_goals
    refine ⟨by simp_all, ?_, ?_⟩
  all_goals
    first
    | (intro j h; exact h)
    | (intro _ j h; exact h)
    | (intro j hj; by_contra hh; simp only [upd] at hh; split_ifs at hh with e <;> simp_all; done)
    | (intro hk j hj; simp only [upd]; split_ifs with e <;> simp_all; done)

theorem sdOk_mono {n m : Nat} {s s' : PSt} {a : Act} (h : PStep n m s a s') {x : C} (hx : sdOk n s x) : sdOk n s' x := by
  obtain ⟨e1, e2, e3⟩ := kill_evol h
  cases x with
  | sdNotify => exact e1 hx
  | sdJoin i => exact ⟨e1 hx.1, fun j hj => e3 hx.1 j (hx.2.1 j hj), fun j hji hj => e2 j (hx.2.2 j hji hj)⟩
  | sdDone => exact ⟨e1 hx.1, fun j hj => e2 j (hx.2 j hj)⟩
  | _ => trivial

theorem PReach.sdOk {n m : Nat} {s : PSt} (h : PReach n m s) : ∀ c, sdOk n s (s.c c) := by
  induction h with
  | init => intro c; trivial
  | step s a s' hr hs ih =>
      have hp := step_PStep hs
      have mono := fun c => sdOk_mono hp (ih c)
      have gen : ∀ (c : Nat) (x : C), Threads.sdOk n s' x → ∀ d, Threads.sdOk n s' (upd s.c c x d) := by
        intro c x hx d
        by_cases hd : d = c
        · subst hd; rw [upd_self]; exact hx
        · rw [upd_ne _ _ hd]; exact mono d
      cases hp
      case kill c hc h => exact gen c _ rfl
      case notifyAll c hc h =>
        refine gen c _ ⟨?_, ?_, fun j hj => by omega⟩
        · have := ih c; rw [h] at this; exact this
        · intro j hj; simp only; split_ifs with h <;> simp [h]
      case join c i hc h hi hw =>
        have := ih c; rw [h] at this
        refine gen c _ ⟨this.1, this.2.1, fun j hj hjn => ?_⟩
        by_cases hji : j = i
        · subst hji; exact hw
        · exact this.2.2 j (by omega) hjn
      case joinEnd c i hc h hi =>
        have := ih c; rw [h] at this
        exact gen c _ ⟨this.1, fun j hj => this.2.2 j (by omega) hj⟩
      all_goals first
        | exact mono
        | exact gen _ _ trivial

/-- When shutdown() has returned, all workers have exited. -/
theorem C34_workers_exited {n m : Nat} {s : PSt} (h : PReach n m s) (c : Nat) (hc : s.c c = .sdDone) :
    ∀ i < n, s.w i = .exited := by
  have := h.sdOk c
  rw [hc] at this
  exact this.2

theorem exited_frozen {n m : Nat} {s s' : PSt} {a : Act} (h : PStep n m s a s') (hw : ∀ i < n, s.w i = .exited) :
    s'.started = s.started ∧ s'.done = s.done ∧ s'.dropped = s.dropped ∧ ∀ i < n, s'.w i = .exited := by
  have e2 := (kill_evol h).2.1
  refine ⟨?_, ?_, ?_, fun i hi => e2 i (hw i hi)⟩ <;>
  · cases h <;> first | rfl | (have := hw _ ‹_›; simp_all; done)

/-- After shutdown() has returned no task starts, finishes or is dropped, whatever happens later. -/
theorem C34_nothing_after_shutdown {n m : Nat} {s s' : PSt} (h : PReach n m s) (c : Nat) (hc : s.c c = .sdDone)
    (l : List Act) (hl : runActs n m s l = some s') : s'.started = s.started ∧ s'.done = s.done ∧ s'.dropped = s.dropped := by
  have hw := C34_workers_exited h c hc
  clear hc h
  induction l generalizing s with
  | nil => simp [runActs] at hl; subst hl; exact ⟨rfl, rfl, rfl⟩
  | cons a l ih =>
      simp only [runActs, Option.bind_eq_some_iff] at hl
      obtain ⟨s1, h1, h2⟩ := hl
      obtain ⟨e1, e2, e3, e4⟩ := exited_frozen (step_PStep h1) hw
      obtain ⟨g1, g2, g3⟩ := ih h2 e4
      exact ⟨g1.trans e1, g2.trans e2, g3.trans e3⟩

/-- When shutdown() has returned every task that was started has completed, and every task that was sent has
completed, or was destroyed without running (its future reports broken_promise), or is still in the queue.
Missing for the full property: tasks left in the queue are neither run nor reported (C34_bug_lost_task). -/
theorem C34_fate_partial {n m : Nat} {s : PSt} (h : PReach n m s) (c : Nat) (hc : s.c c = .sdDone) :
    (∀ t ∈ s.started, t ∈ s.done) ∧
    ∀ t < s.next, (t ∈ s.done ∧ t ∉ s.dropped ∧ t ∉ s.queue) ∨ (t ∈ s.dropped ∧ t ∉ s.started) ∨
      (t ∈ s.queue ∧ t ∉ s.started) := by
  have hw := C34_workers_exited h c hc
  have I := h.inv
  have hs : ∀ t ∈ s.started, t ∈ s.done := by
    intro t ht
    rcases (I.run t).1 ht with h1 | ⟨i, hi, h1⟩
    · exact h1
    · rw [hw i hi] at h1; cases h1
  have hdisj : ∀ t ∈ s.taken, t ∉ s.queue := fun t h1 h2 =>
    (List.nodup_append.1 (taken_nodup I)).2.2 t h1 t h2 rfl
  refine ⟨hs, fun t ht => ?_⟩
  have h1 : t ∈ s.taken ++ s.queue := by rw [I.order]; simpa using ht
  rcases List.mem_append.1 h1 with h1 | h1
  · rcases (I.part t).1 h1 with ⟨i, hi, h2⟩ | h2 | h2
    · rw [hw i hi] at h2; simp [W.holds] at h2
    · exact Or.inl ⟨hs t h2, I.sd t h2, hdisj t h1⟩
    · exact Or.inr (Or.inl ⟨h2, fun h3 => I.sd t h3 h2⟩)
  · exact Or.inr (Or.inr ⟨h1, fun h2 => hdisj t ((I.part t).2 (Or.inr (Or.inl h2))) h1⟩)

/-- Steps a worker has left before it exits, once `kill_` is set. -/
def W.rank : W → Nat
  | .exited => 0 | .check => 1 | .asleep => 2 | .got _ => 2 | .ntf => 2 | .chk => 3 | .fin => 4 | .run _ => 5
  | .busy _ => 6 | .pre _ => 7

theorem rank_step {n m : Nat} {s s' : PSt} {a : Act} (h : PStep n m s a s') (hk : s.kill = true) (i : Nat) :
    (s'.w i).rank ≤ (s.w i).rank ∧ ((a = .work i ∨ ∃ o, a = .ntf i o) → (s'.w i).rank < (s.w i).rank) := by
  cases h
  case notifyAll c hc h =>
    refine ⟨?_, by simp⟩
    simp only; split_ifs with e
    · rw [e]; decide
    · exact Nat.le_refl _
  all_goals
    first
    | (refine ⟨Nat.le_refl _, by simp⟩)
    | (simp only [upd]; split_ifs with e <;> simp_all [W.rank] <;> exact fun e' => absurd e'.symm e)

theorem ownerOk {n m : Nat} {s : PSt} (h : PReach n m s) :
    (∀ c, s.syncOwner = some c → c < m ∧ ((∃ S B, s.c c = .syncQ S B) ∨ ∃ S B i seen, s.c c = .syncW S B i seen)) ∧
    (∀ c, ((∃ S B, s.c c = .syncQ S B) ∨ ∃ S B i seen, s.c c = .syncW S B i seen) → s.syncOwner = some c) := by
  induction h with
  | init => simp [PSt.init]
  | step s a s' hr hs ih =>
      obtain ⟨i1, i2⟩ := ih
      have hp := step_PStep hs
      clear hs
      have gen : ∀ (c : Nat) (x : C), ¬((∃ S B, s.c c = .syncQ S B) ∨ ∃ S B i seen, s.c c = .syncW S B i seen) →
          ¬((∃ S B, x = .syncQ S B) ∨ ∃ S B i seen, x = .syncW S B i seen) →
          (∀ d, s.syncOwner = some d → d < m ∧ ((∃ S B, upd s.c c x d = .syncQ S B) ∨ ∃ S B i seen, upd s.c c x d = .syncW S B i seen)) ∧
          (∀ d, ((∃ S B, upd s.c c x d = .syncQ S B) ∨ ∃ S B i seen, upd s.c c x d = .syncW S B i seen) → s.syncOwner = some d) := by
        intro c x h1 h2
        constructor
        · intro d hd
          have := i1 d hd
          have hne : d ≠ c := by rintro rfl; exact h1 this.2
          rw [upd_ne _ _ hne]; exact this
        · intro d hd
          by_cases hdc : d = c
          · subst hdc; rw [upd_self] at hd; exact absurd hd h2
          · rw [upd_ne _ _ hdc] at hd; exact i2 d hd
      have rel : ∀ (c : Nat) (x : C), s.syncOwner = some c →
          ¬((∃ S B, x = .syncQ S B) ∨ ∃ S B i seen, x = .syncW S B i seen) →
          (∀ d, (none : Option Nat) = some d → d < m ∧ ((∃ S B, upd s.c c x d = .syncQ S B) ∨ ∃ S B i seen, upd s.c c x d = .syncW S B i seen)) ∧
          (∀ d, ((∃ S B, upd s.c c x d = .syncQ S B) ∨ ∃ S B i seen, upd s.c c x d = .syncW S B i seen) → (none : Option Nat) = some d) := by
        intro c x h1 h2
        refine ⟨by simp, fun d hd => ?_⟩
        by_cases hdc : d = c
        · subst hdc; rw [upd_self] at hd; exact absurd hd h2
        · rw [upd_ne _ _ hdc] at hd
          have := i2 d hd
          rw [h1] at this; simp at this; exact absurd this.symm hdc
      have sam : ∀ (c : Nat) (x : C), c < m → s.syncOwner = some c →
          ((∃ S B, x = .syncQ S B) ∨ ∃ S B i seen, x = .syncW S B i seen) →
          (∀ d, s.syncOwner = some d → d < m ∧ ((∃ S B, upd s.c c x d = .syncQ S B) ∨ ∃ S B i seen, upd s.c c x d = .syncW S B i seen)) ∧
          (∀ d, ((∃ S B, upd s.c c x d = .syncQ S B) ∨ ∃ S B i seen, upd s.c c x d = .syncW S B i seen) → s.syncOwner = some d) := by
        intro c x hcm h1 h2
        refine ⟨fun d hd => ?_, fun d hd => ?_⟩
        · rw [h1] at hd; simp at hd; subst hd; rw [upd_self]; exact ⟨hcm, h2⟩
        · by_cases hdc : d = c
          · subst hdc; exact h1
          · rw [upd_ne _ _ hdc] at hd; exact i2 d hd
      cases hp
      case ntfSome i c S B hi hw ho hc hs => exact gen c _ (by simp [hs]) (by simp)
      case send c hc hs => exact gen c _ (by simp [hs]) (by simp)
      case notifySome c t i hc hs hi hw => exact gen c _ (by simp [hs]) (by simp)
      case notifyNone c t hc hs hw => exact gen c _ (by simp [hs]) (by simp)
      case callSync c hc hs => exact gen c _ (by simp [hs]) (by simp)
      case wakeC c S B hc hs => exact gen c _ (by simp [hs]) (by simp)
      case ret c S B seen hc hs => exact gen c _ (by simp [hs]) (by simp)
      case kill c hc hs => exact gen c _ (by simp [hs]) (by simp)
      case notifyAll c hc hs => exact gen c _ (by simp [hs]) (by simp)
      case join c i hc hs hi hw => exact gen c _ (by simp [hs]) (by simp)
      case joinEnd c i hc hs hi => exact gen c _ (by simp [hs]) (by simp)
      case syncLock c S B hc hs ho =>
        refine ⟨fun d hd => ?_, fun d hd => ?_⟩
        · simp at hd; subst hd; exact ⟨hc, by simp [upd_self]⟩
        · by_cases hdc : d = c
          · subst hdc; rfl
          · simp only [upd_ne _ _ hdc] at hd
            have := i2 d hd; rw [ho] at this; cases this
      case syncEmpty c S B hc hs hq => exact sam c _ hc (i2 c (Or.inl ⟨S, B, hs⟩)) (by simp)
      case syncNonempty c S B hc hs hq => exact rel c _ (i2 c (Or.inl ⟨S, B, hs⟩)) (by simp)
      case syncBusy c S B i seen hc hs hi hf => exact rel c _ (i2 c (Or.inr ⟨S, B, i, seen, hs⟩)) (by simp)
      case syncIdle c S B i seen hc hs hi hf => exact sam c _ hc (i2 c (Or.inr ⟨S, B, i, seen, hs⟩)) (by simp)
      case syncEnd c S B i seen hc hs hi => exact rel c _ (i2 c (Or.inr ⟨S, B, i, seen, hs⟩)) (by simp)
      all_goals exact ⟨i1, i2⟩

/-- Once `kill_` is set, every own step of a worker brings it closer to exit and no step of another thread takes it
further away, so each worker makes at most seven more steps. -/
theorem C34_workers_terminate {n m : Nat} {s s' : PSt} {a : Act} (_h : PReach n m s) (hk : s.kill = true)
    (hs : step n m s a = some s') (i : Nat) :
    (s'.w i).rank ≤ (s.w i).rank ∧ ((a = .work i ∨ ∃ o, a = .ntf i o) → (s'.w i).rank < (s.w i).rank) ∧ (s.w i).rank ≤ 7 := by
  obtain ⟨h1, h2⟩ := rank_step (step_PStep hs) hk i
  exact ⟨h1, h2, by cases s.w i <;> simp [W.rank]⟩

/-- shutdown() does not block for ever: while it waits for workers, either its own next step is possible, or the
worker it waits for can take a step, or that worker waits for a mutex whose owner can take a step. -/
theorem C34_shutdown_progress {n m : Nat} {s : PSt} (h : PReach n m s) (c i : Nat) (hcm : c < m) (hc : s.c c = .sdJoin i) :
    (step n m s (.sdStep c)).isSome ∨
    (i < n ∧ ((step n m s (.work i)).isSome ∨ ∃ o, (step n m s (.ntf i o)).isSome)) ∨
    (∃ d, s.syncOwner = some d ∧ (step n m s (.syncStep d)).isSome) := by
  have hsd := h.sdOk c
  rw [hc] at hsd
  obtain ⟨hk, hna, hex⟩ := hsd
  by_cases hi : i < n
  · cases hw : s.w i with
    | exited => left; simp [step, sdStepC, hcm, hc, hi, hw]
    | asleep => exact absurd hw (hna i hi)
    | ntf =>
        right
        cases ho : s.syncOwner with
        | none =>
            left
            refine ⟨hi, Or.inr ?_⟩
            by_cases hsl : ∀ d < m, ¬ (s.c d).isSleep
            · exact ⟨none, by simp [step, hi, hw, ho]; simpa using hsl⟩
            · push Not at hsl
              obtain ⟨d, hd, hs⟩ := hsl
              exact ⟨some d, by simp [step, hi, hw, ho, hd, hs]⟩
        | some d =>
            right
            obtain ⟨hd, h1⟩ := (ownerOk h).1 d ho
            refine ⟨d, rfl, ?_⟩
            rcases h1 with ⟨S, B, h1⟩ | ⟨S, B, j, seen, h1⟩
            · simp only [step, syncStepC, hd, h1, if_true]; split_ifs <;> rfl
            · simp only [step, syncStepC, hd, h1, if_true]; split_ifs <;> rfl
    | check => right; left; exact ⟨hi, Or.inl (by simp [step, workStep, hi, hw, hk])⟩
    | got t => right; left; exact ⟨hi, Or.inl (by simp [step, workStep, hi, hw, hk])⟩
    | pre t => right; left; exact ⟨hi, Or.inl (by simp [step, workStep, hi, hw])⟩
    | busy t => right; left; exact ⟨hi, Or.inl (by simp [step, workStep, hi, hw])⟩
    | run t => right; left; exact ⟨hi, Or.inl (by simp [step, workStep, hi, hw])⟩
    | fin => right; left; exact ⟨hi, Or.inl (by simp [step, workStep, hi, hw])⟩
    | chk => right; left; exact ⟨hi, Or.inl (by simp [step, workStep, hi, hw])⟩
  · left; simp [step, sdStepC, hcm, hc, hi]

/-- A run in which one task completes, one is dropped and one stays in the queue. -/
def demoShutdown : List Act :=
  [.send 0, .notify 0 none, .work 0, .work 0, .work 0, .work 0, .work 0, .work 0, .work 0, .send 0, .notify 0 none, .work 0,
   .send 0, .notify 0 none, .callShutdown 0, .sdStep 0, .work 0, .sdStep 0, .sdStep 0]

example : ∃ s, PReach 1 1 s ∧ s.c 0 = .sdDone ∧ s.done = [0] ∧ s.dropped = [1] ∧ s.queue = [2] := by
  have : (runActs 1 1 PSt.init demoShutdown).isSome := by decide
  obtain ⟨s, hs⟩ := Option.isSome_iff_exists.1 this
  have e : (runActs 1 1 PSt.init demoShutdown).map (fun s => (s.c 0, s.done, s.dropped, s.queue)) = some (.sdDone, [0], [1], [2]) := by decide
  rw [hs] at e; simp only [Option.map_some, Option.some.injEq, Prod.mk.injEq] at e
  exact ⟨s, runActs_reach 1 1 _ _ _ .init hs, e.1, e.2.1, e.2.2.1, e.2.2.2⟩

/-- A task sent before shutdown() can be left in the queue for ever: it is not run and, as the queue still owns its
`packaged_task`, its future never becomes ready while the pool exists. -/
theorem C34_bug_lost_task : ∃ s, PReach 1 1 s ∧ s.c 0 = .sdDone ∧ s.next = 1 ∧ s.queue = [0] ∧ s.done = [] ∧ s.dropped = [] ∧
    ∀ l s', runActs 1 1 s l = some s' → s'.started = [] ∧ s'.dropped = [] := by
  let l : List Act := [.send 0, .notify 0 none, .callShutdown 0, .sdStep 0, .work 0, .sdStep 0, .sdStep 0]
  have : (runActs 1 1 PSt.init l).isSome := by decide
  obtain ⟨s, hs⟩ := Option.isSome_iff_exists.1 this
  have e : (runActs 1 1 PSt.init l).map (fun s => (s.c 0, s.next, s.queue)) = some (.sdDone, 1, [0]) := by decide
  have e' : (runActs 1 1 PSt.init l).map (fun s => (s.done, s.dropped, s.started)) = some ([], [], []) := by decide
  rw [hs] at e e'; simp only [Option.map_some, Option.some.injEq, Prod.mk.injEq] at e e'
  obtain ⟨e1, e2, e3⟩ := e
  obtain ⟨e4, e5, e6⟩ := e'
  have hr := runActs_reach 1 1 _ _ _ .init hs
  refine ⟨s, hr, e1, e2, e3, e4, e5, fun l' s' h' => ?_⟩
  obtain ⟨g1, g2, g3⟩ := C34_nothing_after_shutdown hr 0 e1 l' h'
  exact ⟨g1.trans e6, g3.trans e5⟩

/-- A task that a worker has already taken from the queue can be destroyed unrun: line 43 returns when `kill_` was
set between the wait and the test, although a task was popped. -/
theorem C34_bug_popped_task_dropped : ∃ s, PReach 1 2 s ∧ s.c 1 = .sdDone ∧ s.next = 1 ∧ s.dropped = [0] ∧ s.started = [] := by
  let l : List Act := [.send 0, .notify 0 none, .work 0, .callShutdown 1, .sdStep 1, .work 0, .sdStep 1, .sdStep 1]
  have : (runActs 1 2 PSt.init l).isSome := by decide
  obtain ⟨s, hs⟩ := Option.isSome_iff_exists.1 this
  have e : (runActs 1 2 PSt.init l).map (fun s => (s.c 1, s.next, s.dropped, s.started)) = some (.sdDone, 1, [0], []) := by decide
  rw [hs] at e; simp only [Option.map_some, Option.some.injEq, Prod.mk.injEq] at e
  exact ⟨s, runActs_reach 1 2 _ _ _ .init hs, e.1, e.2.1, e.2.2.1, e.2.2.2⟩

/-- Data race on `kill_`: a state is reachable in which a worker is about to read `kill_` on line 43 (no lock held)
and another thread is about to write it on line 104; both accesses are enabled. Likewise for `state_`: a worker is
about to write `state_[0]` (line 44) while sync() is about to read it (line 96). -/
theorem C34_bug_data_race :
    (∃ s, PReach 1 2 s ∧ s.w 0 = .got 0 ∧ (step 1 2 s (.work 0)).isSome ∧ (step 1 2 s (.callShutdown 1)).isSome) ∧
    (∃ s, PReach 1 2 s ∧ s.w 0 = .pre 0 ∧ (step 1 2 s (.work 0)).isSome ∧ s.c 1 = .syncW 1 [] 0 [] ∧ (step 1 2 s (.syncStep 1)).isSome) := by
  constructor
  · let l : List Act := [.send 0, .notify 0 none, .work 0]
    have : (runActs 1 2 PSt.init l).isSome := by decide
    obtain ⟨s, hs⟩ := Option.isSome_iff_exists.1 this
    have e : (runActs 1 2 PSt.init l).map (fun s => (s.w 0, (step 1 2 s (.work 0)).isSome, (step 1 2 s (.callShutdown 1)).isSome)) =
        some (.got 0, true, true) := by decide
    rw [hs] at e; simp only [Option.map_some, Option.some.injEq, Prod.mk.injEq] at e
    exact ⟨s, runActs_reach 1 2 _ _ _ .init hs, e.1, e.2.1, e.2.2⟩
  · let l : List Act := [.send 0, .notify 0 none, .work 0, .work 0, .callSync 1, .syncStep 1, .syncStep 1]
    have : (runActs 1 2 PSt.init l).isSome := by decide
    obtain ⟨s, hs⟩ := Option.isSome_iff_exists.1 this
    have e : (runActs 1 2 PSt.init l).map (fun s => (s.w 0, (step 1 2 s (.work 0)).isSome, s.c 1, (step 1 2 s (.syncStep 1)).isSome)) =
        some (.pre 0, true, .syncW 1 [] 0 [], true) := by decide
    rw [hs] at e; simp only [Option.map_some, Option.some.injEq, Prod.mk.injEq] at e
    exact ⟨s, runActs_reach 1 2 _ _ _ .init hs, e.1, e.2.1, e.2.2.1, e.2.2.2⟩

end Fdapde.Threads
