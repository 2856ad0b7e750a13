import Verif.Threads.RaceInv4
/- C145: data races of programs that use the thread pool. -/
namespace Fdapde.Threads
variable {n : Nat} {tr : List Ev}

/-- **C145 (data races), partial.** For every number of workers and clients and every schedule: if the clients do not call `sync()`, read
what a task wrote only after waiting for its future, and shut the pool down once, after waiting for the futures of all tasks, then no two
conflicting accesses — to the queue, to the flags of the pool, to what the callables refer to, to what the tasks write — are unordered.
Missing: programs that do not keep to these rules, which do have races (the theorems below). -/
theorem C145_race_free_partial (n : Nat) (s : ESt) (h : EReach n s) (hd : Disciplined s.tr) : RaceFree s.tr :=
  reach_raceFree h hd

/-- **C145.** What a client wrote before sending a task is visible to the worker that runs it, whatever the other clients do. -/
theorem C145_argument_visible (n : Nat) (s : ESt) (h : EReach n s) (i j : Nat) (d u : Thr) (t : Nat)
    (hi : s.tr[i]? = some ⟨d, .wr (.arg t)⟩) (hj : s.tr[j]? = some ⟨u, .rd (.arg t)⟩) : HB s.tr i j := by
  revert i j d u t
  refine EReach.ind (P := fun s => ∀ (i j : Nat) (d u : Thr) (t : Nat), s.tr[i]? = some ⟨d, .wr (.arg t)⟩ →
    s.tr[j]? = some ⟨u, .rd (.arg t)⟩ → HB s.tr i j) ?_ ?_ h
  · intro i j d u t h1; simp [ESt.init] at h1
  · intro s s' hr hr' ih hs i j d u t hi hj
    have hS := reach_said hr
    have hA := reach_arg hr
    have hT := reach_tasks hr
    have key0 : s'.tr = s.tr → HB s'.tr i j := by
      intro e; rw [e] at hi hj ⊢; exact ih i j d u t hi hj
    have key : ∀ (w : Thr) (k : Kind), s'.tr = s.tr ++ [⟨w, k⟩] → (∀ t, k = .wr (.arg t) → s.next ≤ t) →
        (∀ t, k = .rd (.arg t) → (s.pc w).task = some t) → HB s'.tr i j := by
      intro w k e h1 h2
      rw [e] at hi hj ⊢
      replace hi := snoc_cases hi
      replace hj := snoc_cases hj
      rcases hi with hi | ⟨rfl, hi⟩
      · rcases hj with hj | ⟨rfl, hj⟩
        · exact (ih i j d u t hi hj).append _
        · injection hj with e1 e2
          subst e1
          subst e2
          exact (hA.hand i d u t hi (h2 t rfl)).hb _
      · injection hi with e1 e2
        have h3 := h1 t e2.symm
        rcases hj with hj | ⟨rfl, hj⟩
        · have := hS.argR u t (mem_of_get hj)
          omega
        · injection hj with _ e3
          rw [← e2] at e3; cases e3
    rcases hs with ⟨w, hs⟩ | ⟨w, hs⟩
    · cases hs
      case readArg t' h =>
        refine key _ _ rfl (by simp) ?_
        intro t'' e
        obtain rfl : t' = t'' := by simpa using e
        rw [h]; rfl
      all_goals first | exact key0 rfl | (refine key _ _ rfl ?_ ?_ <;> simp; done)
    · cases hs
      case send h =>
        refine key _ _ rfl ?_ (by simp)
        intro t' e
        obtain rfl : s.next = t' := by simpa using e
        exact Nat.le_refl _
      all_goals first | exact key0 rfl | (refine key _ _ rfl ?_ ?_ <;> simp; done)

/-- **C145.** What a task wrote is visible to every client that has waited for its future, whatever the other clients do. -/
theorem C145_result_visible (n : Nat) (s : ESt) (h : EReach n s) (i k : Nat) (u : Thr) (c t : Nat)
    (hi : s.tr[i]? = some ⟨u, .wr (.res t)⟩) (hk : s.tr[k]? = some ⟨.client c, .acq (.future t)⟩) : HB s.tr i k := by
  revert i k u c t
  refine EReach.ind (P := fun s => ∀ (i k : Nat) (u : Thr) (c t : Nat), s.tr[i]? = some ⟨u, .wr (.res t)⟩ →
    s.tr[k]? = some ⟨.client c, .acq (.future t)⟩ → HB s.tr i k) ?_ ?_ h
  · intro i j d u t h1; simp [ESt.init] at h1
  · intro s s' hr hr' ih hs i k u c t hi hk
    have hS := reach_said hr
    have hW := reach_resW hr
    have hT := reach_tasks hr
    have key0 : s'.tr = s.tr → HB s'.tr i k := by
      intro e; rw [e] at hi hk ⊢; exact ih i k u c t hi hk
    have key : ∀ (w : Thr) (e : Kind), s'.tr = s.tr ++ [⟨w, e⟩] → (∀ t, e = .wr (.res t) → s.done t = false) →
        (∀ t, e = .acq (.future t) → s.done t = true) → HB s'.tr i k := by
      intro w e h0 h1 h2
      rw [h0] at hi hk ⊢
      replace hi := snoc_cases hi
      replace hk := snoc_cases hk
      rcases hk with hk | ⟨rfl, hk⟩
      · rcases hi with hi | ⟨rfl, hi⟩
        · exact (ih i k u c t hi hk).append _
        · injection hi with e1 e2
          have h3 := h1 t e2.symm
          have h4 := hS.acq _ _ (mem_of_get hk)
          rw [h3] at h4; cases h4
      · injection hk with e1 e2
        subst e1
        subst e2
        rcases hi with hi | ⟨rfl, hi⟩
        · rcases hW i u t hi with hu | ⟨-, r, v, hr1, hr2⟩
          · have h3 := (hT.task u t (by rw [hu]; rfl)).2.1
            rw [h2 t rfl] at h3; cases h3
          · have h4 : HB (s.tr ++ [⟨.client c, .acq (.future t)⟩]) r s.tr.length := .sync (get_lt hr1) (snoc_old hr1) (snoc_new _ _)
            rcases hr2 with rfl | hr2
            · exact h4
            · exact .trans (hr2.append _) h4
        · injection hi with _ e2; cases e2
    rcases hs with ⟨w, hs⟩ | ⟨w, hs⟩
    · cases hs
      case writeRes t' h =>
        refine key _ _ rfl ?_ (by simp)
        intro t'' e
        obtain rfl : t' = t'' := by simpa using e
        exact (hT.task (.worker w) t' (by rw [h]; rfl)).2.1
      all_goals first | exact key0 rfl | (refine key _ _ rfl ?_ ?_ <;> simp; done)
    · cases hs
      case get t' h hd =>
        refine key _ _ rfl (by simp) ?_
        intro t'' e
        obtain rfl : t' = t'' := by simpa using e
        exact hd
      all_goals first | exact key0 rfl | (refine key _ _ rfl ?_ ?_ <;> simp; done)

/-! ### A program that keeps to the rules -/

theorem disciplined_nil : Disciplined [] := ⟨by simp, by simp, by simp, by simp⟩

/-- Events the rules say nothing about. -/
def Ev.plain (e : Ev) : Bool := match e with
  | ⟨.client _, .acq .syncMutex⟩ | ⟨_, .rd (.res _)⟩ | ⟨_, .wr .kill⟩ => false
  | _ => true

theorem Disciplined.plain (h : Disciplined tr) {e : Ev} (he : e.plain = true) : Disciplined (tr ++ [e]) where
  noSync := by
    intro c hc
    rcases List.mem_append.1 hc with hc | hc
    · exact h.noSync c hc
    · obtain rfl : _ = e := by simpa using hc
      cases he
  use := by
    intro j c t hj
    rcases snoc_cases hj with hj | ⟨-, hj⟩
    · obtain ⟨k, hk, h1⟩ := h.use j c t hj
      exact ⟨k, hk, snoc_old h1⟩
    · subst hj; cases he
  once := by
    intro i j u v hi hj
    rcases snoc_cases hi with hi | ⟨-, hi⟩
    · rcases snoc_cases hj with hj | ⟨-, hj⟩
      · exact h.once i j u v hi hj
      · subst hj; simp [Ev.plain] at he
    · subst hi; simp [Ev.plain] at he
  waited := by
    intro j c hj i hij d t hi
    rcases snoc_cases hj with hj | ⟨-, hj⟩
    · have := get_lt hj
      rw [List.getElem?_append_left (by omega)] at hi
      obtain ⟨k, hk, h1⟩ := h.waited j c hj i hij d t hi
      exact ⟨k, hk, snoc_old h1⟩
    · subst hj; cases he

theorem Disciplined.read (h : Disciplined tr) {c t : Nat} (he : (⟨.client c, .acq (.future t)⟩ : Ev) ∈ tr) :
    Disciplined (tr ++ [⟨.client c, .rd (.res t)⟩]) where
  noSync := by
    intro c hc
    rcases List.mem_append.1 hc with hc | hc
    · exact h.noSync c hc
    · simp at hc
  use := by
    intro j c' t' hj
    replace hj := snoc_cases hj
    rcases hj with hj | ⟨rfl, hj⟩
    · obtain ⟨k, hk, h1⟩ := h.use j c' t' hj
      exact ⟨k, hk, snoc_old h1⟩
    · simp only [Ev.mk.injEq, Thr.client.injEq, Kind.rd.injEq, Loc.res.injEq] at hj
      obtain ⟨rfl, rfl⟩ := hj
      obtain ⟨k, hk⟩ := List.getElem?_of_mem he
      exact ⟨k, get_lt hk, snoc_old hk⟩
  once := by
    intro i j u v hi hj
    rcases snoc_cases hi with hi | ⟨-, hi⟩
    · rcases snoc_cases hj with hj | ⟨-, hj⟩
      · exact h.once i j u v hi hj
      · cases hj
    · cases hi
  waited := by
    intro j c hj i hij d t hi
    rcases snoc_cases hj with hj | ⟨-, hj⟩
    · have := get_lt hj
      rw [List.getElem?_append_left (by omega)] at hi
      obtain ⟨k, hk, h1⟩ := h.waited j c hj i hij d t hi
      exact ⟨k, hk, snoc_old h1⟩
    · cases hj

/-- Nobody has shut the pool down, and the client has waited for every task sent. -/
def readyFor (tr : List Ev) (c : Nat) : Bool := tr.all fun e => match e with
  | ⟨_, .wr .kill⟩ => false
  | ⟨_, .wr (.arg t)⟩ => decide (⟨.client c, .acq (.future t)⟩ ∈ tr)
  | _ => true

theorem Disciplined.kill (h : Disciplined tr) {c : Nat} (he : readyFor tr c = true) : Disciplined (tr ++ [⟨.client c, .wr .kill⟩]) where
  noSync := by
    intro c hc
    rcases List.mem_append.1 hc with hc | hc
    · exact h.noSync c hc
    · simp at hc
  use := by
    intro j c' t' hj
    rcases snoc_cases hj with hj | ⟨-, hj⟩
    · obtain ⟨k, hk, h1⟩ := h.use j c' t' hj
      exact ⟨k, hk, snoc_old h1⟩
    · cases hj
  once := by
    have no : ∀ (i : Nat) (u : Thr), tr[i]? ≠ some ⟨u, .wr .kill⟩ := by
      intro i u hi
      have := List.all_eq_true.1 he _ (mem_of_get hi)
      cases this
    intro i j u v hi hj
    rcases snoc_cases hi with hi | ⟨hi1, -⟩
    · exact absurd hi (no i u)
    · rcases snoc_cases hj with hj | ⟨hj1, -⟩
      · exact absurd hj (no j v)
      · rw [hi1, hj1]
  waited := by
    intro j c' hj i hij d t hi
    replace hj := snoc_cases hj
    rcases hj with hj | ⟨rfl, hj⟩
    · have := get_lt hj
      rw [List.getElem?_append_left (by omega)] at hi
      obtain ⟨k, hk, h1⟩ := h.waited j c' hj i hij d t hi
      exact ⟨k, hk, snoc_old h1⟩
    · simp only [Ev.mk.injEq, Thr.client.injEq, and_true] at hj
      subst hj
      rw [List.getElem?_append_left hij] at hi
      have h1 := List.all_eq_true.1 he _ (mem_of_get hi)
      dsimp only at h1
      obtain ⟨k, hk⟩ := List.getElem?_of_mem (of_decide_eq_true h1)
      exact ⟨k, get_lt hk, snoc_old hk⟩

/-- The rules, checked event by event. -/
def follows (pre : List Ev) : List Ev → Bool
  | [] => true
  | e :: r => (match e with
      | ⟨.client c, .rd (.res t)⟩ => decide (⟨.client c, .acq (.future t)⟩ ∈ pre)
      | ⟨.client c, .wr .kill⟩ => readyFor pre c
      | e => e.plain) && follows (pre ++ [e]) r

theorem follows_disciplined (r : List Ev) : ∀ pre, Disciplined pre → follows pre r = true → Disciplined (pre ++ r) := by
  induction r with
  | nil => intro pre h _; simpa using h
  | cons e r ih =>
    intro pre h hf
    simp only [follows, Bool.and_eq_true] at hf
    have h1 : Disciplined (pre ++ [e]) := by
      obtain ⟨hf, -⟩ := hf
      split at hf
      · exact h.read (of_decide_eq_true hf)
      · exact h.kill hf
      · exact h.plain hf
    have := ih (pre ++ [e]) h1 hf.2
    simpa using this

theorem disciplined_of_follows {tr : List Ev} (h : follows [] tr = true) : Disciplined tr := by
  simpa using follows_disciplined tr [] disciplined_nil h

/-- Sending a task, waiting for it, using what it wrote, shutting down and joining, with one worker. -/
def tidyRun : List Ev :=
  [⟨.client 0, .wr (.arg 0)⟩, ⟨.client 0, .acq .queueMutex⟩, ⟨.client 0, .wr .queue⟩, ⟨.client 0, .rel .queueMutex⟩,
   ⟨.worker 0, .acq .poolMutex⟩, ⟨.worker 0, .rd .kill⟩, ⟨.worker 0, .acq .queueMutex⟩, ⟨.worker 0, .wr .queue⟩,
   ⟨.worker 0, .rel .queueMutex⟩, ⟨.worker 0, .rel .poolMutex⟩, ⟨.client 0, .acq .poolMutex⟩, ⟨.client 0, .rel .poolMutex⟩,
   ⟨.worker 0, .rd .kill⟩, ⟨.worker 0, .wr (.state 0)⟩, ⟨.worker 0, .rd (.arg 0)⟩, ⟨.worker 0, .wr (.res 0)⟩, ⟨.worker 0, .rel (.future 0)⟩,
   ⟨.client 0, .acq (.future 0)⟩, ⟨.client 0, .rd (.res 0)⟩, ⟨.client 0, .acq .poolMutex⟩, ⟨.client 0, .wr .kill⟩, ⟨.client 0, .rel .poolMutex⟩,
   ⟨.worker 0, .wr (.state 0)⟩, ⟨.worker 0, .rd .sync⟩, ⟨.worker 0, .acq .poolMutex⟩, ⟨.worker 0, .rd .kill⟩, ⟨.worker 0, .rel .poolMutex⟩,
   ⟨.worker 0, .rd .kill⟩, ⟨.worker 0, .rel (.finish 0)⟩, ⟨.client 0, .acq (.finish 0)⟩]

theorem tidyRun_reachable : ∃ s, EReach 1 s ∧ s.tr = tidyRun := by
  have h := EReach.client _ 0 _ (EReach.init (n := 1)) (.send _ 0 rfl)
  have h := EReach.client _ 0 _ h (.sendLock _ 0 0 rfl rfl)
  have h := EReach.client _ 0 _ h (.sendPush _ 0 0 rfl)
  have h := EReach.client _ 0 _ h (.sendUnl _ 0 rfl)
  have h := EReach.work _ 0 _ h (.lock _ 0 rfl rfl)
  have h := EReach.work _ 0 _ h (.noKill _ 0 rfl rfl)
  have h := EReach.work _ 0 _ h (.popLock _ 0 rfl rfl)
  have h := EReach.work _ 0 _ h (.popSome _ 0 0 [] rfl rfl)
  have h := EReach.work _ 0 _ h (.popUnl _ 0 (some 0) rfl)
  have h := EReach.work _ 0 _ h (.take _ 0 0 rfl)
  have h := EReach.client _ 0 _ h (.notLock _ 0 rfl rfl)
  have h := EReach.client _ 0 _ h (.notUnl _ 0 rfl)
  have h := EReach.work _ 0 _ h (.go _ 0 0 rfl rfl)
  have h := EReach.work _ 0 _ h (.setBusy _ 0 0 rfl)
  have h := EReach.work _ 0 _ h (.readArg _ 0 0 rfl)
  have h := EReach.work _ 0 _ h (.writeRes _ 0 0 rfl)
  have h := EReach.work _ 0 _ h (.fulfil _ 0 0 rfl)
  have h := EReach.client _ 0 _ h (.get _ 0 0 rfl rfl)
  have h := EReach.client _ 0 _ h (.use _ 0 0 rfl)
  have h := EReach.client _ 0 _ h (.callShutdown _ 0 rfl)
  have h := EReach.client _ 0 _ h (.sdLock _ 0 rfl rfl)
  have h := EReach.client _ 0 _ h (.sdSet _ 0 rfl)
  have h := EReach.client _ 0 _ h (.sdUnl _ 0 rfl)
  have h := EReach.work _ 0 _ h (.setIdle _ 0 rfl)
  have h := EReach.work _ 0 _ h (.noSync _ 0 rfl rfl)
  have h := EReach.work _ 0 _ h (.lock _ 0 rfl rfl)
  have h := EReach.work _ 0 _ h (.seeKill _ 0 rfl rfl)
  have h := EReach.work _ 0 _ h (.killUnl _ 0 rfl)
  have h := EReach.work _ 0 _ h (.leave _ 0 rfl rfl)
  have h := EReach.work _ 0 _ h (.finish _ 0 rfl)
  have h := EReach.client _ 0 _ h (.sdJoin _ 0 0 rfl (by decide) rfl)
  exact ⟨_, h, rfl⟩

example : ∃ s, EReach 1 s ∧ Disciplined s.tr ∧ s.tr.length = 30 ∧ RaceFree s.tr := by
  obtain ⟨s, h1, h2⟩ := tidyRun_reachable
  have hd : Disciplined s.tr := by rw [h2]; exact disciplined_of_follows (by decide)
  exact ⟨s, h1, hd, by rw [h2]; rfl, C145_race_free_partial 1 s h1 hd⟩

/-! ### Programs with races -/

/-- Edges of happens-before, as a test. -/
def hbEdge (tr : List Ev) (a b : Nat) : Bool := decide (a < b) && match tr[a]?, tr[b]? with
  | some x, some y => decide (x.thr = y.thr) || (match x.kind, y.kind with
    | .rel o, .acq o' => decide (o = o')
    | _, _ => false)
  | _, _ => false

/-- An event does not happen before another one if the former is in a set that no edge leaves and the latter is not. -/
theorem not_hb (tr : List Ev) (S : List Nat) {i j : Nat} (hi : i ∈ S) (hj : j ∉ S)
    (hc : (S.all fun a => (List.range tr.length).all fun b => !hbEdge tr a b || decide (b ∈ S)) = true) : ¬ HB tr i j := by
  have step : ∀ a b : Nat, a ∈ S → b < tr.length → hbEdge tr a b = true → b ∈ S := by
    intro a b ha hb he
    have h1 := List.all_eq_true.1 (List.all_eq_true.1 hc a ha) b (List.mem_range.2 hb)
    rw [he] at h1
    simpa using h1
  have key : ∀ a b : Nat, HB tr a b → a ∈ S → b ∈ S := by
    intro a b h
    induction h with
    | program h hi hj e => exact fun ha => step _ _ ha (get_lt hj) (by simp [hbEdge, h, hi, hj, e])
    | sync h hi hj => exact fun ha => step _ _ ha (get_lt hj) (by simp [hbEdge, h, hi, hj])
    | trans _ _ h1 h2 => exact fun ha => h2 (h1 ha)
  exact fun h => hj (key i j h hi)

/-- Two conflicting accesses that are not ordered. -/
def RaceOn (tr : List Ev) (x : Loc) : Prop :=
  ∃ (i j : Nat) (a b : Ev), i < j ∧ tr[i]? = some a ∧ tr[j]? = some b ∧ a.Accesses x ∧ b.Accesses x ∧
    (a.kind = .wr x ∨ b.kind = .wr x) ∧ ¬ HB tr i j

theorem RaceOn.not_raceFree {x : Loc} (h : RaceOn tr x) : ¬ RaceFree tr := by
  obtain ⟨i, j, a, b, h1, h2, h3, h4, h5, h6, h7⟩ := h
  exact fun hr => h7 (hr i j a b x h1 h2 h3 h4 h5 h6)

/-- **C145 (bug): `sync()` races with the workers.**  With one worker and one client that sends a task, waits for its future and then calls
`sync()`: the client reads `state_[0]` (ThreadPool.h:96) while the worker, having fulfilled the future, writes it (46).  Neither access
is protected.  The write of `sync_` (93) is not ordered with the worker's read of it (47) either. -/
theorem C145_bug_sync : ∃ s, EReach 1 s ∧ ⟨.client 0, .acq (.future 0)⟩ ∈ s.tr ∧ RaceOn s.tr (.state 0) ∧ RaceOn s.tr .sync := by
  have h := EReach.client _ 0 _ (EReach.init (n := 1)) (.send _ 0 rfl)
  have h := EReach.client _ 0 _ h (.sendLock _ 0 0 rfl rfl)
  have h := EReach.client _ 0 _ h (.sendPush _ 0 0 rfl)
  have h := EReach.client _ 0 _ h (.sendUnl _ 0 rfl)
  have h := EReach.client _ 0 _ h (.notLock _ 0 rfl rfl)
  have h := EReach.client _ 0 _ h (.notUnl _ 0 rfl)
  have h := EReach.work _ 0 _ h (.lock _ 0 rfl rfl)
  have h := EReach.work _ 0 _ h (.noKill _ 0 rfl rfl)
  have h := EReach.work _ 0 _ h (.popLock _ 0 rfl rfl)
  have h := EReach.work _ 0 _ h (.popSome _ 0 0 [] rfl rfl)
  have h := EReach.work _ 0 _ h (.popUnl _ 0 (some 0) rfl)
  have h := EReach.work _ 0 _ h (.take _ 0 0 rfl)
  have h := EReach.work _ 0 _ h (.go _ 0 0 rfl rfl)
  have h := EReach.work _ 0 _ h (.setBusy _ 0 0 rfl)
  have h := EReach.work _ 0 _ h (.readArg _ 0 0 rfl)
  have h := EReach.work _ 0 _ h (.writeRes _ 0 0 rfl)
  have h := EReach.work _ 0 _ h (.fulfil _ 0 0 rfl)
  have h := EReach.work _ 0 _ h (.setIdle _ 0 rfl)
  have h := EReach.work _ 0 _ h (.noSync _ 0 rfl rfl)
  have h := EReach.client _ 0 _ h (.get _ 0 0 rfl rfl)
  have h := EReach.client _ 0 _ h (.callSync _ 0 rfl)
  have h := EReach.client _ 0 _ h (.syLock _ 0 rfl rfl)
  have h := EReach.client _ 0 _ h (.sySet _ 0 rfl)
  have h := EReach.client _ 0 _ h (.syQueue _ 0 rfl)
  have h := EReach.client _ 0 _ h (.syState _ 0 0 rfl (by decide))
  refine ⟨_, h, by decide, ⟨17, 23, ⟨.worker 0, .wr (.state 0)⟩, ⟨.client 0, .rd (.state 0)⟩, by decide, rfl, rfl, .inr rfl, .inl rfl, .inl rfl,
    not_hb _ [17, 18] (by decide) (by decide) (by decide +kernel)⟩,
    ⟨18, 21, ⟨.worker 0, .rd .sync⟩, ⟨.client 0, .wr .sync⟩, by decide, rfl, rfl, .inl rfl, .inr rfl, .inr rfl,
    not_hb _ [18] (by decide) (by decide) (by decide +kernel)⟩⟩

/-- **C145 (bug): `sync()` does not make the results visible.**  A client sends a task and calls `sync()`, which returns because the queue
is empty and the only worker is idle; reading what the task wrote is then a data race: nothing the worker did is ordered before it. -/
theorem C145_bug_sync_result : ∃ s, EReach 1 s ∧ s.pc (.client 0) = .idle ∧ s.done 0 = true ∧
    s.tr.getLast? = some ⟨.client 0, .rd (.res 0)⟩ ∧ ⟨.client 0, .rel .syncMutex⟩ ∈ s.tr ∧ RaceOn s.tr (.res 0) := by
  have h := EReach.client _ 0 _ (EReach.init (n := 1)) (.send _ 0 rfl)
  have h := EReach.client _ 0 _ h (.sendLock _ 0 0 rfl rfl)
  have h := EReach.client _ 0 _ h (.sendPush _ 0 0 rfl)
  have h := EReach.client _ 0 _ h (.sendUnl _ 0 rfl)
  have h := EReach.client _ 0 _ h (.notLock _ 0 rfl rfl)
  have h := EReach.client _ 0 _ h (.notUnl _ 0 rfl)
  have h := EReach.work _ 0 _ h (.lock _ 0 rfl rfl)
  have h := EReach.work _ 0 _ h (.noKill _ 0 rfl rfl)
  have h := EReach.work _ 0 _ h (.popLock _ 0 rfl rfl)
  have h := EReach.work _ 0 _ h (.popSome _ 0 0 [] rfl rfl)
  have h := EReach.work _ 0 _ h (.popUnl _ 0 (some 0) rfl)
  have h := EReach.work _ 0 _ h (.take _ 0 0 rfl)
  have h := EReach.work _ 0 _ h (.go _ 0 0 rfl rfl)
  have h := EReach.work _ 0 _ h (.setBusy _ 0 0 rfl)
  have h := EReach.work _ 0 _ h (.readArg _ 0 0 rfl)
  have h := EReach.work _ 0 _ h (.writeRes _ 0 0 rfl)
  have h := EReach.work _ 0 _ h (.fulfil _ 0 0 rfl)
  have h := EReach.work _ 0 _ h (.setIdle _ 0 rfl)
  have h := EReach.client _ 0 _ h (.callSync _ 0 rfl)
  have h := EReach.client _ 0 _ h (.syLock _ 0 rfl rfl)
  have h := EReach.client _ 0 _ h (.sySet _ 0 rfl)
  have h := EReach.client _ 0 _ h (.syQueue _ 0 rfl)
  have h := EReach.client _ 0 _ h (.syState _ 0 0 rfl (by decide))
  have h := EReach.client _ 0 _ h (.syEnd _ 0 1 rfl (by decide))
  have h := EReach.client _ 0 _ h (.syUnl _ 0 rfl)
  have h := EReach.client _ 0 _ h (.use _ 0 0 rfl)
  exact ⟨_, h, rfl, rfl, rfl, by decide, 15, 23, ⟨.worker 0, .wr (.res 0)⟩, ⟨.client 0, .rd (.res 0)⟩, by decide, rfl, rfl, .inr rfl, .inl rfl,
    .inl rfl, not_hb _ [15, 16, 17] (by decide) (by decide) (by decide +kernel)⟩

/-- **C145 (bug): `sync()` reads the queue without its lock** (ThreadPool.h:95, ConcurrentQueue.h `empty`), so it races with another client
that sends a task. -/
theorem C145_bug_sync_queue : ∃ s, EReach 1 s ∧ RaceOn s.tr .queue := by
  have h := EReach.client _ 1 _ (EReach.init (n := 1)) (.send _ 1 rfl)
  have h := EReach.client _ 1 _ h (.sendLock _ 1 0 rfl rfl)
  have h := EReach.client _ 1 _ h (.sendPush _ 1 0 rfl)
  have h := EReach.client _ 0 _ h (.callSync _ 0 rfl)
  have h := EReach.client _ 0 _ h (.syLock _ 0 rfl rfl)
  have h := EReach.client _ 0 _ h (.sySet _ 0 rfl)
  have h := EReach.client _ 0 _ h (.syQueue _ 0 rfl)
  exact ⟨_, h, 2, 5, ⟨.client 1, .wr .queue⟩, ⟨.client 0, .rd .queue⟩, by decide, rfl, rfl, .inr rfl, .inl rfl, .inl rfl,
    not_hb _ [2] (by decide) (by decide) (by decide +kernel)⟩

/-- **C145 (bug): `shutdown()` races with a worker that has taken a task.**  The worker reads `kill_` at line 43 after unlocking `mutex_`,
the client writes it at line 104: one task, one worker, no `sync()`. -/
theorem C145_bug_shutdown : ∃ s, EReach 1 s ∧ (∀ u, ⟨u, .acq .syncMutex⟩ ∉ s.tr) ∧ RaceOn s.tr .kill := by
  have h := EReach.client _ 0 _ (EReach.init (n := 1)) (.send _ 0 rfl)
  have h := EReach.client _ 0 _ h (.sendLock _ 0 0 rfl rfl)
  have h := EReach.client _ 0 _ h (.sendPush _ 0 0 rfl)
  have h := EReach.client _ 0 _ h (.sendUnl _ 0 rfl)
  have h := EReach.client _ 0 _ h (.notLock _ 0 rfl rfl)
  have h := EReach.client _ 0 _ h (.notUnl _ 0 rfl)
  have h := EReach.work _ 0 _ h (.lock _ 0 rfl rfl)
  have h := EReach.work _ 0 _ h (.noKill _ 0 rfl rfl)
  have h := EReach.work _ 0 _ h (.popLock _ 0 rfl rfl)
  have h := EReach.work _ 0 _ h (.popSome _ 0 0 [] rfl rfl)
  have h := EReach.work _ 0 _ h (.popUnl _ 0 (some 0) rfl)
  have h := EReach.work _ 0 _ h (.take _ 0 0 rfl)
  have h := EReach.work _ 0 _ h (.go _ 0 0 rfl rfl)
  have h := EReach.client _ 0 _ h (.callShutdown _ 0 rfl)
  have h := EReach.client _ 0 _ h (.sdLock _ 0 rfl rfl)
  have h := EReach.client _ 0 _ h (.sdSet _ 0 rfl)
  refine ⟨_, h, ?_, 12, 14, ⟨.worker 0, .rd .kill⟩, ⟨.client 0, .wr .kill⟩, by decide, rfl, rfl, .inl rfl, .inr rfl, .inr rfl,
    not_hb _ [12] (by decide) (by decide) (by decide +kernel)⟩
  intro u
  simp [ESt.log, ESt.init]

end Fdapde.Threads
