import Verif.Threads.RaceInv2
namespace Fdapde.Threads
variable {n : Nat} {s s' : ESt}

theorem mem_of_get {l : List Ev} {i : Nat} {a : Ev} (h : l[i]? = some a) : a ∈ l := List.mem_of_getElem? h

theorem go_other {w u : Thr} {p : Pc} (h : u ≠ w) : s.go w p u = s.pc u := by simp [ESt.go, h]
theorem go_here {w : Thr} {p : Pc} : s.go w p w = p := by simp [ESt.go]

/-! ### Futures -/

/-- Whoever has waited for a future knows what was done before it was fulfilled. -/
def FutKnow (s : ESt) : Prop :=
  ∀ (k r : Nat) (u v : Thr) (t : Nat), s.tr[k]? = some ⟨u, .acq (.future t)⟩ → s.tr[r]? = some ⟨v, .rel (.future t)⟩ → Knows s.tr u r

theorem reach_fut (h : EReach n s) : FutKnow s := by
  refine EReach.ind (P := FutKnow) ?_ ?_ h
  · intro k r u v t h1; simp [ESt.init] at h1
  · intro s s' hr hr' ih hs
    have hT := reach_tasks hr
    have hS := reach_said hr
    have key : ∀ (w : Thr) (e : Kind), s'.tr = s.tr ++ [⟨w, e⟩] → (∀ t, e = .rel (.future t) → s.done t = false) → FutKnow s' := by
      intro w e he hne k r u v t hk hr1
      rw [he] at hk hr1 ⊢
      replace hk := snoc_cases hk
      rcases hk with hk | ⟨rfl, hk⟩
      · replace hr1 := snoc_cases hr1
        rcases hr1 with hr1 | ⟨rfl, hr1⟩
        · exact (ih k r u v t hk hr1).append _
        · injection hr1 with _ e1
          have h1 := hne t e1.symm
          have h2 := hS.acq u t (mem_of_get hk)
          rw [h1] at h2; cases h2
      · replace hr1 := snoc_cases hr1
        rcases hr1 with hr1 | ⟨rfl, hr1⟩
        · injection hk with e0 e1
          subst e0; subst e1
          exact RelKnows.acquired ⟨r, v, hr1, .inl rfl⟩ _
        · rw [← hk] at hr1; simp at hr1
    have key0 : s'.tr = s.tr → FutKnow s' := by
      intro he k r u v t hk hr1
      rw [he] at hk hr1 ⊢
      exact ih k r u v t hk hr1
    rcases hs with ⟨w, hs⟩ | ⟨w, hs⟩
    · cases hs
      case fulfil t h =>
        refine key _ _ rfl ?_
        intro t' e
        obtain rfl : t = t' := by simpa using e
        exact (hT.task (.worker w) t (by rw [h]; rfl)).2.1
      all_goals first | exact key0 rfl | (refine key _ _ rfl ?_; simp)
    · cases hs <;> first | exact key0 rfl | (refine key _ _ rfl ?_; simp)

/-! ### What tasks write -/

/-- What a task writes is released with its future. -/
def ResW (s : ESt) : Prop :=
  ∀ (i : Nat) (u : Thr) (t : Nat), s.tr[i]? = some ⟨u, .wr (.res t)⟩ → s.pc u = .fut t ∨ (s.done t = true ∧ RelKnows s.tr (.future t) i)

theorem resW_same (ih : ResW s) {w : Thr} {p p' : Pc} (h : s.pc w = p) (e : ∀ t, p ≠ .fut t) (h1 : s'.pc = s.go w p')
    (h2 : s'.done = s.done) {k : Kind} (h3 : s'.tr = s.tr ∨ s'.tr = s.tr ++ [⟨w, k⟩]) (h4 : ∀ t, k ≠ .wr (.res t)) : ResW s' := by
  intro i u t hi
  have old : s.tr[i]? = some ⟨u, .wr (.res t)⟩ := by
    rcases h3 with h3 | h3 <;> rw [h3] at hi
    · exact hi
    · replace hi := snoc_cases hi
      rcases hi with hi | ⟨-, hi⟩
      · exact hi
      · injection hi with _ e2; exact absurd e2.symm (h4 t)
  rcases ih i u t old with hu | ⟨g1, g2⟩
  · left
    rw [h1, go_other, hu]
    intro he; subst he
    exact e t (h ▸ hu)
  · right
    refine ⟨by rw [h2]; exact g1, ?_⟩
    rcases h3 with h3 | h3 <;> rw [h3]
    · exact g2
    · exact g2.append _

theorem reach_resW (h : EReach n s) : ResW s := by
  refine EReach.ind (P := ResW) ?_ ?_ h
  · intro i u t h1; simp [ESt.init] at h1
  · intro s s' hr hr' ih hs
    have hT := reach_tasks hr
    have hS := reach_said hr
    rcases hs with ⟨w, hs⟩ | ⟨w, hs⟩
    · cases hs
      case writeRes t h =>
        intro i u t' hi
        replace hi := snoc_cases hi
        rcases hi with hi | ⟨-, hi⟩
        · rcases ih i u t' hi with hu | ⟨g1, g2⟩
          · left
            show s.go _ _ u = _
            rw [go_other, hu]
            intro he; subst he
            rw [hu] at h; cases h
          · exact .inr ⟨g1, g2.append _⟩
        · injection hi with e1 e2
          subst e1
          obtain rfl : t' = t := by simpa using e2
          left; exact go_here
      case fulfil t h =>
        intro i u t' hi
        replace hi := snoc_cases hi
        rcases hi with hi | ⟨-, hi⟩
        · rcases ih i u t' hi with hu | ⟨g1, g2⟩
          · by_cases he : u = .worker w
            · subst he
              obtain rfl : t' = t := by rw [hu] at h; simpa using h
              right
              refine ⟨by simp, ?_⟩
              exact (knows_own hi).released _
            · left
              show s.go _ _ u = _
              rw [go_other he, hu]
          · right
            refine ⟨?_, g2.append _⟩
            dsimp only
            split
            · rfl
            · exact g1
        · injection hi with e1 e2; cases e2
      case wake h => exact resW_same (k := .rd .kill) ih h (by simp) rfl rfl (.inl rfl) (by simp)
      all_goals
        refine resW_same ih (by assumption) ?_ rfl rfl (.inr rfl) ?_ <;> simp
    · cases hs
      case callSync h => exact resW_same (k := .rd .kill) ih h (by simp) rfl rfl (.inl rfl) (by simp)
      case callShutdown h => exact resW_same (k := .rd .kill) ih h (by simp) rfl rfl (.inl rfl) (by simp)
      case syEnd i h hi => exact resW_same (k := .rd .kill) ih h (by simp) rfl rfl (.inl rfl) (by simp)
      case syWake h => exact resW_same (k := .rd .kill) ih h (by simp) rfl rfl (.inl rfl) (by simp)
      case sdEnd i h hi => exact resW_same (k := .rd .kill) ih h (by simp) rfl rfl (.inl rfl) (by simp)
      case get t h hd => exact resW_same ih h (by simp) (go_self h) rfl (.inr rfl) (by simp)
      case use t h => exact resW_same ih h (by simp) (go_self h) rfl (.inr rfl) (by simp)
      all_goals
        refine resW_same ih (by assumption) ?_ rfl rfl (.inr rfl) ?_ <;> simp

/-! ### What tasks read -/

/-- Whoever has a task in hand knows what it refers to; a queued task is protected by the lock of the queue. -/
structure ArgKnow (s : ESt) : Prop where
  hand : ∀ (i : Nat) (d u : Thr) (t : Nat), s.tr[i]? = some ⟨d, .wr (.arg t)⟩ → (s.pc u).task = some t → Knows s.tr u i
  queue : ∀ (i : Nat) (d : Thr) (t : Nat), s.tr[i]? = some ⟨d, .wr (.arg t)⟩ → t ∈ s.queue → Prot s.tr .queueMutex s.qOwner i

theorem argKnow_same (ih : ArgKnow s) {w : Thr} {p p' : Pc} (h : s.pc w = p) (e : p'.task = p.task ∨ p'.task = none)
    (h1 : s'.pc = s.go w p') (h2 : s'.queue = s.queue) (hr : EReach n s) (hs : EStep n s s')
    {k : Kind} (h3 : s'.tr = s.tr ∨ s'.tr = s.tr ++ [⟨w, k⟩]) (h4 : ∀ t, k ≠ .wr (.arg t)) : ArgKnow s' := by
  have old : ∀ (i : Nat) (d : Thr) (t : Nat), s'.tr[i]? = some ⟨d, .wr (.arg t)⟩ → s.tr[i]? = some ⟨d, .wr (.arg t)⟩ := by
    intro i d t hi
    rcases h3 with h3 | h3 <;> rw [h3] at hi
    · exact hi
    · replace hi := snoc_cases hi
      rcases hi with hi | ⟨-, hi⟩
      · exact hi
      · injection hi with _ e2; exact absurd e2.symm (h4 t)
  have key : ∀ u t, (s.go w p' u).task = some t → (s.pc u).task = some t := by
    intro u t hu
    replace hu := go_task hu
    rcases hu with ⟨rfl, hu⟩ | ⟨-, hu⟩
    · rcases e with e | e
      · rw [h, ← e, hu]
      · rw [e] at hu; cases hu
    · exact hu
  constructor
  · intro i d u t hi hu
    rw [h1] at hu
    exact hs.knows (ih.hand i d u t (old i d t hi) (key u t hu))
  · intro i d t hi ht
    rw [h2] at ht
    exact hs.protQ hr (ih.queue i d t (old i d t hi) ht)

theorem reach_arg (h : EReach n s) : ArgKnow s := by
  refine EReach.ind (P := ArgKnow) ?_ ?_ h
  · constructor
    · intro i d u t h1; simp [ESt.init] at h1
    · intro i d t h1; simp [ESt.init] at h1
  · intro s s' hr hr' ih hs
    have hT := reach_tasks hr
    have hS := reach_said hr
    have hO := owner_queue hr
    have hs0 := hs
    rcases hs with ⟨w, hs⟩ | ⟨w, hs⟩
    · cases hs
      case popSome t q h hq =>
        have own : s.qOwner = some (.worker w) := (hO _).2 (by rw [h]; rfl)
        constructor
        · intro i d u t' hi hu
          replace hi := snoc_cases hi
          rcases hi with hi | ⟨-, hi⟩
          · replace hu := go_task hu
            rcases hu with ⟨rfl, hu⟩ | ⟨-, hu⟩
            · obtain rfl : t = t' := by simpa [Pc.task] using hu
              have := ih.queue i d t hi (by simp [hq])
              rw [own] at this
              exact Knows.append this _
            · exact (ih.hand i d u t' hi hu).append _
          · injection hi with _ e2; cases e2
        · intro i d t' hi ht
          replace hi := snoc_cases hi
          rcases hi with hi | ⟨-, hi⟩
          · exact hs0.protQ hr (ih.queue i d t' hi (by rw [hq]; exact List.mem_cons_of_mem _ ht))
          · injection hi with _ e2; cases e2
      case wake h => exact argKnow_same (p' := .want) (k := .rd .kill) ih h (.inl rfl) rfl rfl hr hs0 (.inl rfl) (by simp)
      all_goals
        first
        | (refine argKnow_same ih (by assumption) (.inl ?_) rfl rfl hr hs0 (.inr rfl) ?_ <;> first | rfl | simp; done)
        | (refine argKnow_same ih (by assumption) (.inr ?_) rfl rfl hr hs0 (.inr rfl) ?_ <;> first | rfl | simp; done)
    · cases hs
      case send h =>
        constructor
        · intro i d u t hi hu
          replace hi := snoc_cases hi
          rcases hi with hi | ⟨rfl, hi⟩
          · replace hu := go_task hu
            rcases hu with ⟨rfl, hu⟩ | ⟨-, hu⟩
            · obtain rfl : s.next = t := by simpa [Pc.task] using hu
              exact absurd (hS.argW _ _ (mem_of_get hi)) (Nat.lt_irrefl _)
            · exact (ih.hand i d u t hi hu).append _
          · injection hi with e1 e2
            obtain rfl : t = s.next := by simpa using e2
            replace hu := go_task hu
            rcases hu with ⟨rfl, -⟩ | ⟨-, hu⟩
            · exact knows_new _ _
            · exact absurd (hT.task u _ hu).1 (Nat.lt_irrefl _)
        · intro i d t hi ht
          replace hi := snoc_cases hi
          rcases hi with hi | ⟨rfl, hi⟩
          · exact hs0.protQ hr (ih.queue i d t hi ht)
          · injection hi with e1 e2
            obtain rfl : t = s.next := by simpa using e2
            exact absurd (hT.queue _ ht).1 (Nat.lt_irrefl _)
      case sendPush t h =>
        have own : s.qOwner = some (.client w) := (hO _).2 (by rw [h]; rfl)
        constructor
        · intro i d u t' hi hu
          replace hi := snoc_cases hi
          rcases hi with hi | ⟨-, hi⟩
          · replace hu := go_task hu
            rcases hu with ⟨rfl, hu⟩ | ⟨-, hu⟩
            · simp [Pc.task] at hu
            · exact (ih.hand i d u t' hi hu).append _
          · injection hi with _ e2; cases e2
        · intro i d t' hi ht
          replace hi := snoc_cases hi
          rcases hi with hi | ⟨-, hi⟩
          · rcases List.mem_append.1 ht with ht | ht
            · exact hs0.protQ hr (ih.queue i d t' hi ht)
            · obtain rfl : t' = t := by simpa using ht
              have := ih.hand i d (.client w) t' hi (by rw [h]; rfl)
              show Prot _ _ s.qOwner i
              rw [own]
              exact Knows.append this _
          · injection hi with _ e2; cases e2
      case callSync h => exact argKnow_same (p' := .syLock) (k := .rd .kill) ih h (.inl rfl) rfl rfl hr hs0 (.inl rfl) (by simp)
      case callShutdown h => exact argKnow_same (p' := .sdLock) (k := .rd .kill) ih h (.inl rfl) rfl rfl hr hs0 (.inl rfl) (by simp)
      case syEnd i h hi => exact argKnow_same (p' := .syUnl) (k := .rd .kill) ih h (.inl rfl) rfl rfl hr hs0 (.inl rfl) (by simp)
      case syWake h => exact argKnow_same (p' := .syRelock) (k := .rd .kill) ih h (.inl rfl) rfl rfl hr hs0 (.inl rfl) (by simp)
      case sdEnd i h hi => exact argKnow_same (p' := .idle) (k := .rd .kill) ih h (.inl rfl) rfl rfl hr hs0 (.inl rfl) (by simp)
      case get t h hd => exact argKnow_same ih h (.inl rfl) (go_self h) rfl hr hs0 (.inr rfl) (by simp)
      case use t h => exact argKnow_same ih h (.inl rfl) (go_self h) rfl hr hs0 (.inr rfl) (by simp)
      case syQueue h =>
        by_cases hq : s.queue = []
        · exact argKnow_same (p' := .syState 0) ih h (.inr rfl) (by dsimp only; rw [if_pos hq]) rfl hr hs0 (.inr rfl) (by simp)
        · exact argKnow_same (p' := .sySleep) ih h (.inr rfl) (by dsimp only; rw [if_neg hq]) rfl hr hs0 (.inr rfl) (by simp)
      case syState i h hi =>
        by_cases hq : s.busy i = true
        · exact argKnow_same (p' := .sySleep) ih h (.inr rfl) (by dsimp only; rw [if_pos hq]) rfl hr hs0 (.inr rfl) (by simp)
        · exact argKnow_same (p' := .syState (i + 1)) ih h (.inr rfl) (by dsimp only; rw [if_neg hq]) rfl hr hs0 (.inr rfl) (by simp)
      all_goals
        first
        | (refine argKnow_same ih (by assumption) (.inl ?_) rfl rfl hr hs0 (.inr rfl) ?_ <;> first | rfl | simp; done)
        | (refine argKnow_same ih (by assumption) (.inr ?_) rfl rfl hr hs0 (.inr rfl) ?_ <;> first | rfl | simp; done)

end Fdapde.Threads
