import Verif.Threads.RaceInv3
namespace Fdapde.Threads
variable {n : Nat} {s s' : ESt}

/-- No `sync()` under the discipline. -/
theorem no_inSync (h : EReach n s) (hd : Disciplined s.tr) (u : Thr) : (s.pc u).inSync = false := by
  cases e : (s.pc u).inSync with
  | false => rfl
  | true =>
    obtain ⟨c, hc⟩ := (reach_saidSync h).pc u e
    exact absurd hc (hd.noSync c)

/-! ### The queue -/

def AccQ (s : ESt) : Prop := ∀ (i : Nat) (a : Ev), s.tr[i]? = some a → a.Accesses .queue → Prot s.tr .queueMutex s.qOwner i

theorem reach_accQ (h : EReach n s) : Disciplined s.tr → AccQ s := by
  refine EReach.ind (P := fun s => Disciplined s.tr → AccQ s) ?_ ?_ h
  · intro _ i a h1; simp [ESt.init] at h1
  · intro s s' hr hr' ih hs hd
    replace ih := ih (hs.disc hd)
    have hns := no_inSync hr (hs.disc hd)
    have hO := owner_queue hr
    have key0 : s'.tr = s.tr → AccQ s' := fun e i a hi ha => hs.protQ hr (ih i a (by rwa [← e]) ha)
    have key : ∀ (w : Thr) (k : Kind), s'.tr = s.tr ++ [⟨w, k⟩] → (Ev.Accesses ⟨w, k⟩ .queue → s'.qOwner = some w) → AccQ s' := by
      intro w k e hk i a hi ha
      have hi0 := hi
      rw [e] at hi
      replace hi := snoc_cases hi
      rcases hi with hi | ⟨rfl, rfl⟩
      · exact hs.protQ hr (ih i a hi ha)
      · rw [hk ha]
        exact knows_own hi0
    rcases hs with ⟨w, hs⟩ | ⟨w, hs⟩
    · cases hs
      case popNone h hq => exact key _ _ rfl fun _ => (hO _).2 (by rw [h]; rfl)
      case popSome t q h hq => exact key _ _ rfl fun _ => (hO _).2 (by rw [h]; rfl)
      all_goals first | exact key0 rfl | (refine key _ _ rfl ?_; simp [Ev.Accesses])
    · cases hs
      case sendPush t h => exact key _ _ rfl fun _ => (hO _).2 (by rw [h]; rfl)
      case syQueue h =>
        have := hns (.client w)
        rw [h] at this; cases this
      all_goals first | exact key0 rfl | (refine key _ _ rfl ?_; simp [Ev.Accesses])

/-! ### `kill_` -/

/-- Positions of a worker between having read `kill_ = false` and having fulfilled a future. -/
def Pc.past : Pc → Bool
  | .popLock | .popAcc | .popUnl _ | .popped _ | .got _ | .pre _ | .run _ | .res _ | .fut _ => true
  | _ => false

/-- Positions of a worker that has seen `kill_ = true`. -/
def Pc.seen : Pc → Bool
  | .killUnl | .gotKill => true
  | _ => false

/-- Positions of a worker that has decided to run a task. -/
def Pc.runs : Pc → Option Nat
  | .pre t | .run t | .res t | .fut t => some t
  | _ => none

theorem Pc.runs_task {p : Pc} {t : Nat} (h : p.runs = some t) : p.task = some t := by
  cases p <;> simp_all [Pc.runs, Pc.task]

/-- The client that shuts down has waited for every task sent. -/
theorem waited_done (hr : EReach n s) {c : Nat} (hd : Disciplined (s.tr ++ [⟨.client c, .wr .kill⟩])) {t : Nat} (ht : t < s.next) :
    ∃ k : Nat, s.tr[k]? = some ⟨.client c, .acq (.future t)⟩ := by
  obtain ⟨u, hu⟩ := (reach_said hr).arg t ht
  obtain ⟨i, hi⟩ := List.getElem?_of_mem hu
  obtain ⟨k, hk, h1⟩ := hd.waited s.tr.length c (snoc_new _ _) i (get_lt hi) u t (snoc_old hi)
  refine ⟨k, ?_⟩
  rw [List.getElem?_append_left hk] at h1
  exact h1

theorem no_task (hr : EReach n s) {c : Nat} (hd : Disciplined (s.tr ++ [⟨.client c, .wr .kill⟩])) (u : Thr) (t : Nat) :
    (s.pc u).task ≠ some t := by
  intro h
  obtain ⟨h1, h2, -, -⟩ := (reach_tasks hr).task u t h
  obtain ⟨k, hk⟩ := waited_done hr hd h1
  have := (reach_said hr).acq _ _ (mem_of_get hk)
  rw [h2] at this; cases this

/-- Once `kill_` is set no worker is about to start a task, and only then a worker has seen it. -/
structure KillPc (s : ESt) : Prop where
  past : s.kill = true → ∀ u, (s.pc u).past = false
  seen : ∀ u, (s.pc u).seen = true → s.kill = true
  know : ∀ u, (s.pc u).seen = true → ∀ (i : Nat) (v : Thr), s.tr[i]? = some ⟨v, .wr .kill⟩ → Knows s.tr u i
  prot : ∀ (i : Nat) (v : Thr), s.tr[i]? = some ⟨v, .wr .kill⟩ → Prot s.tr .poolMutex s.pOwner i

theorem killPc_same (ih : KillPc s) {w : Thr} {p p' : Pc} (h : s.pc w = p) (e : p'.past = true → p.past = true ∨ s.kill = false)
    (e' : p'.seen = true → p.seen = true) (h1 : s'.pc = s.go w p') (h2 : s'.kill = s.kill) (hr : EReach n s) (hs : EStep n s s')
    {k : Kind} (h3 : s'.tr = s.tr ∨ s'.tr = s.tr ++ [⟨w, k⟩]) (h4 : k ≠ .wr .kill) : KillPc s' := by
  have old : ∀ (i : Nat) (v : Thr), s'.tr[i]? = some ⟨v, .wr .kill⟩ → s.tr[i]? = some ⟨v, .wr .kill⟩ := by
    intro i v hi
    rcases h3 with h3 | h3 <;> rw [h3] at hi
    · exact hi
    · replace hi := snoc_cases hi
      rcases hi with hi | ⟨-, hi⟩
      · exact hi
      · injection hi with _ e2; exact absurd e2.symm h4
  have seen : ∀ u, (s'.pc u).seen = true → (s.pc u).seen = true := by
    intro u hu
    rw [h1] at hu
    simp only [ESt.go] at hu
    split at hu
    · rename_i hw; subst hw; rw [h]; exact e' hu
    · exact hu
  constructor
  · intro hk u
    rw [h2] at hk
    rw [h1]
    simp only [ESt.go]
    split
    · cases hp : p'.past with
      | false => rfl
      | true =>
        rcases e hp with e | e
        · have := ih.past hk w
          rw [h, e] at this; cases this
        · rw [hk] at e; cases e
    · exact ih.past hk u
  · intro u hu; rw [h2]; exact ih.seen u (seen u hu)
  · intro u hu i v hi; exact hs.knows (ih.know u (seen u hu) i v (old i v hi))
  · intro i v hi; exact hs.protP hr (ih.prot i v (old i v hi))

theorem reach_killPc (h : EReach n s) : Disciplined s.tr → KillPc s := by
  refine EReach.ind (P := fun s => Disciplined s.tr → KillPc s) ?_ ?_ h
  · intro _
    constructor
    · simp [ESt.init]
    · intro u hu
      cases u with
      | worker i => simp only [ESt.init] at hu; split at hu <;> simp [Pc.seen] at hu
      | client c => simp [ESt.init, Pc.seen] at hu
    · intro u hu i v hi; simp [ESt.init] at hi
    · intro i v hi; simp [ESt.init] at hi
  · intro s s' hr hr' ih hs hd
    replace ih := ih (hs.disc hd)
    have hO := owner_pool hr
    have hS := reach_said hr
    have hns := no_inSync hr (hs.disc hd)
    have hs0 := hs
    rcases hs with ⟨w, hs⟩ | ⟨w, hs⟩
    · cases hs
      case seeKill h hk =>
        have own : s.pOwner = some (.worker w) := (hO _).2 (by rw [h]; rfl)
        have old : ∀ (i : Nat) (v : Thr), (s.log (.worker w) (.rd .kill))[i]? = some ⟨v, .wr .kill⟩ → s.tr[i]? = some ⟨v, .wr .kill⟩ := by
          intro i v hi
          replace hi := snoc_cases hi
          rcases hi with hi | ⟨-, hi⟩
          · exact hi
          · injection hi with _ e2; cases e2
        constructor
        · intro _ u
          simp only [ESt.go]
          split
          · rfl
          · exact ih.past hk u
        · intro _ _; exact hk
        · intro u hu i v hi
          replace hi := old i v hi
          simp only [ESt.go] at hu
          split at hu
          · rename_i e; subst e
            have := ih.prot i v hi
            rw [own] at this
            exact Knows.append this _
          · exact (ih.know u hu i v hi).append _
        · intro i v hi; exact hs0.protP hr (ih.prot i v (old i v hi))
      case noKill h hk => exact killPc_same (p' := .popLock) ih h (fun _ => .inr hk) (by simp [Pc.seen]) rfl rfl hr hs0 (.inr rfl) (by simp)
      case wake h => exact killPc_same (p' := .want) (k := .rd .kill) ih h (by simp [Pc.past]) (by simp [Pc.seen]) rfl rfl hr hs0 (.inl rfl) (by simp)
      all_goals
        refine killPc_same ih (by assumption) ?_ ?_ rfl rfl hr hs0 (.inr rfl) ?_ <;> simp [Pc.past, Pc.seen]
    · cases hs
      case sdSet h =>
        have own : s.pOwner = some (.client w) := (hO _).2 (by rw [h]; rfl)
        have first : ∀ (i : Nat) (v : Thr), s.tr[i]? ≠ some ⟨v, .wr .kill⟩ := by
          intro i v hi
          have := hd.once i s.tr.length v (.client w) (snoc_old hi) (snoc_new _ _)
          have := get_lt hi
          omega
        have hk : s.kill = false := by
          cases e : s.kill with
          | false => rfl
          | true =>
            obtain ⟨u, hu⟩ := hS.kill.1 e
            obtain ⟨i, hi⟩ := List.getElem?_of_mem hu
            exact absurd hi (first i u)
        constructor
        · intro _ u
          simp only [ESt.go]
          split
          · rfl
          · rename_i hne
            have hp : (s.pc u).holdsP = false := by
              cases e : (s.pc u).holdsP with
              | false => rfl
              | true =>
                have := (hO u).2 e
                rw [own] at this
                exact absurd (Option.some.inj this).symm hne
            have ht := no_task hr hd u
            cases e : s.pc u <;> rw [e] at hp ht <;> simp_all [Pc.past, Pc.holdsP, Pc.task]
        · intro _ _; rfl
        · intro u hu i v hi
          simp only [ESt.go] at hu
          split at hu
          · simp [Pc.seen] at hu
          · have := ih.seen u hu
            rw [hk] at this; cases this
        · intro i v hi
          have hi0 := hi
          replace hi := snoc_cases hi
          rcases hi with hi | ⟨rfl, e⟩
          · exact absurd hi (first i v)
          · injection e with e1 _
            subst e1
            show Prot _ _ s.pOwner _
            rw [own]
            exact knows_own hi0
      case get t h hd => exact killPc_same ih h (by simp [Pc.past]) (by simp [Pc.seen]) (go_self h) rfl hr hs0 (.inr rfl) (by simp)
      case use t h => exact killPc_same ih h (by simp [Pc.past]) (by simp [Pc.seen]) (go_self h) rfl hr hs0 (.inr rfl) (by simp)
      case callSync h => exact killPc_same (p' := .syLock) (k := .rd .kill) ih h (by simp [Pc.past]) (by simp [Pc.seen]) rfl rfl hr hs0 (.inl rfl) (by simp)
      case callShutdown h => exact killPc_same (p' := .sdLock) (k := .rd .kill) ih h (by simp [Pc.past]) (by simp [Pc.seen]) rfl rfl hr hs0 (.inl rfl) (by simp)
      case syEnd i h hi => exact killPc_same (p' := .syUnl) (k := .rd .kill) ih h (by simp [Pc.past]) (by simp [Pc.seen]) rfl rfl hr hs0 (.inl rfl) (by simp)
      case syWake h => exact killPc_same (p' := .syRelock) (k := .rd .kill) ih h (by simp [Pc.past]) (by simp [Pc.seen]) rfl rfl hr hs0 (.inl rfl) (by simp)
      case sdEnd i h hi => exact killPc_same (p' := .idle) (k := .rd .kill) ih h (by simp [Pc.past]) (by simp [Pc.seen]) rfl rfl hr hs0 (.inl rfl) (by simp)
      case syQueue h => have := hns (.client w); rw [h] at this; cases this
      case syState i h hi => have := hns (.client w); rw [h] at this; cases this
      all_goals
        refine killPc_same ih (by assumption) ?_ ?_ rfl rfl hr hs0 (.inr rfl) ?_ <;> simp [Pc.past, Pc.seen]

/-- Where a read of `kill_` is ordered. -/
def RdK (s : ESt) : Prop :=
  ∀ (i : Nat) (u : Thr), s.tr[i]? = some ⟨u, .rd .kill⟩ →
    Prot s.tr .poolMutex s.pOwner i ∨ (∃ t, (s.pc u).runs = some t) ∨ (∃ t, s.done t = true ∧ RelKnows s.tr (.future t) i) ∨ s.kill = true

theorem rdK_same (ih : RdK s) {w : Thr} {p p' : Pc} (h : s.pc w = p) (e : p'.runs = p.runs ∨ p.runs = none)
    (h1 : s'.pc = s.go w p') (h2 : s.kill = true → s'.kill = true) (h5 : s'.done = s.done) (hr : EReach n s) (hs : EStep n s s')
    {k : Kind} (h3 : s'.tr = s.tr ∨ s'.tr = s.tr ++ [⟨w, k⟩]) (h4 : k ≠ .rd .kill) : RdK s' := by
  intro i u hi
  have old : s.tr[i]? = some ⟨u, .rd .kill⟩ := by
    rcases h3 with h3 | h3 <;> rw [h3] at hi
    · exact hi
    · replace hi := snoc_cases hi
      rcases hi with hi | ⟨-, hi⟩
      · exact hi
      · injection hi with _ e2; exact absurd e2.symm h4
  rcases ih i u old with g | ⟨t, g⟩ | ⟨t, g1, g2⟩ | g
  · exact .inl (hs.protP hr g)
  · right; left
    refine ⟨t, ?_⟩
    rw [h1]
    simp only [ESt.go]
    split
    · rename_i hw; subst hw
      rw [h] at g
      rcases e with e | e
      · rw [e]; exact g
      · rw [e] at g; cases g
    · exact g
  · exact .inr (.inr (.inl ⟨t, by rw [h5]; exact g1, hs.relKnows g2⟩))
  · exact .inr (.inr (.inr (h2 g)))

theorem reach_rdK (h : EReach n s) : Disciplined s.tr → RdK s := by
  refine EReach.ind (P := fun s => Disciplined s.tr → RdK s) ?_ ?_ h
  · intro _ i u hi; simp [ESt.init] at hi
  · intro s s' hr hr' ih hs hd
    replace ih := ih (hs.disc hd)
    have hK := reach_killPc hr (hs.disc hd)
    have hO := owner_pool hr
    have hns := no_inSync hr (hs.disc hd)
    have hs0 := hs
    have new : ∀ (w : Thr) (p p' : Pc), s.pc w = p → p.runs = none → s'.pc = s.go w p' → s'.kill = s.kill → s'.done = s.done →
        s'.tr = s.tr ++ [⟨w, .rd .kill⟩] → (s'.pOwner = some w ∨ (∃ t, p'.runs = some t) ∨ s.kill = true) → RdK s' := by
      intro w p p' h hp h1 h2 h5 h3 hn i u hi
      have hi0 := hi
      rw [h3] at hi
      replace hi := snoc_cases hi
      rcases hi with hi | ⟨rfl, hi⟩
      · rcases ih i u hi with g | ⟨t, g⟩ | ⟨t, g1, g2⟩ | g
        · exact .inl (hs0.protP hr g)
        · right; left
          refine ⟨t, ?_⟩
          rw [h1, go_other]
          · exact g
          · intro e; subst e
            rw [h, hp] at g; cases g
        · exact .inr (.inr (.inl ⟨t, by rw [h5]; exact g1, hs0.relKnows g2⟩))
        · exact .inr (.inr (.inr (by rw [h2]; exact g)))
      · injection hi with e1 _
        subst e1
        rcases hn with hn | hn | hn
        · left; rw [hn]; exact knows_own hi0
        · right; left
          obtain ⟨t, ht⟩ := hn
          exact ⟨t, by rw [h1, go_here]; exact ht⟩
        · exact .inr (.inr (.inr (by rw [h2]; exact hn)))
    rcases hs with ⟨w, hs⟩ | ⟨w, hs⟩
    · cases hs
      case seeKill h hk => exact new _ _ .killUnl h rfl rfl rfl rfl rfl (.inr (.inr hk))
      case noKill h hk => exact new _ _ .popLock h rfl rfl rfl rfl rfl (.inl ((hO _).2 (by rw [h]; rfl)))
      case leave h hk => exact new _ _ .exiting h rfl rfl rfl rfl rfl (.inr (.inr hk))
      case drop t h hk => exact new _ _ .exiting h rfl rfl rfl rfl rfl (.inr (.inr hk))
      case go t h hk => exact new _ _ (.pre t) h rfl rfl rfl rfl rfl (.inr (.inl ⟨t, rfl⟩))
      case fulfil t h =>
        intro i u hi
        replace hi := snoc_cases hi
        rcases hi with hi | ⟨-, hi⟩
        · rcases ih i u hi with g | ⟨t', g⟩ | ⟨t', g1, g2⟩ | g
          · exact .inl (hs0.protP hr g)
          · by_cases e : u = .worker w
            · subst e
              right; right; left
              exact ⟨t, by simp, (knows_own hi).released _⟩
            · right; left
              refine ⟨t', ?_⟩
              show (s.go _ _ u).runs = _
              rw [go_other e]; exact g
          · right; right; left
            refine ⟨t', ?_, g2.append _⟩
            dsimp only
            split
            · rfl
            · exact g1
          · exact .inr (.inr (.inr g))
        · injection hi with _ e2; cases e2
      case wake h => exact rdK_same (p' := .want) (k := .acq .poolMutex) ih h (.inl rfl) rfl id rfl hr hs0 (.inl rfl) (by simp)
      all_goals
        first
        | (refine rdK_same ih (by assumption) (.inl ?_) rfl id rfl hr hs0 (.inr rfl) ?_ <;> first | rfl | simp; done)
    · cases hs
      case sdSet h => exact rdK_same (p' := .sdUnl) ih h (.inl rfl) rfl (fun _ => rfl) rfl hr hs0 (.inr rfl) (by simp)
      case get t h hd => exact rdK_same ih h (.inl rfl) (go_self h) id rfl hr hs0 (.inr rfl) (by simp)
      case use t h => exact rdK_same ih h (.inl rfl) (go_self h) id rfl hr hs0 (.inr rfl) (by simp)
      case callSync h => exact rdK_same (p' := .syLock) (k := .acq .poolMutex) ih h (.inl rfl) rfl id rfl hr hs0 (.inl rfl) (by simp)
      case callShutdown h => exact rdK_same (p' := .sdLock) (k := .acq .poolMutex) ih h (.inl rfl) rfl id rfl hr hs0 (.inl rfl) (by simp)
      case syEnd i h hi => exact rdK_same (p' := .syUnl) (k := .acq .poolMutex) ih h (.inl rfl) rfl id rfl hr hs0 (.inl rfl) (by simp)
      case syWake h => exact rdK_same (p' := .syRelock) (k := .acq .poolMutex) ih h (.inl rfl) rfl id rfl hr hs0 (.inl rfl) (by simp)
      case sdEnd i h hi => exact rdK_same (p' := .idle) (k := .acq .poolMutex) ih h (.inl rfl) rfl id rfl hr hs0 (.inl rfl) (by simp)
      case syQueue h => have := hns (.client w); rw [h] at this; cases this
      case syState i h hi => have := hns (.client w); rw [h] at this; cases this
      all_goals
        first
        | (refine rdK_same ih (by assumption) (.inl ?_) rfl id rfl hr hs0 (.inr rfl) ?_ <;> first | rfl | simp; done)

/-! ### All together -/

theorem acc_rd {u : Thr} {x y : Loc} (h : Ev.Accesses ⟨u, .rd x⟩ y) : y = x := by
  rcases h with h | h <;> simp at h; exact h.symm
theorem acc_wr {u : Thr} {x y : Loc} (h : Ev.Accesses ⟨u, .wr x⟩ y) : y = x := by
  rcases h with h | h <;> simp at h; exact h.symm

theorem reach_raceFree (h : EReach n s) : Disciplined s.tr → RaceFree s.tr := by
  refine EReach.ind (P := fun s => Disciplined s.tr → RaceFree s.tr) ?_ ?_ h
  · intro _ i j a b x _ h1; simp [ESt.init] at h1
  · intro s s' hr hr' ih hs hd
    have hd0 := hs.disc hd
    replace ih := ih hd0
    have hOq := owner_queue hr
    have hOp := owner_pool hr
    have hns := no_inSync hr hd0
    have hT := reach_tasks hr
    have hS := reach_said hr
    have hY := reach_saidSync hr
    have hQ := reach_accQ hr hd0
    have hK := reach_killPc hr hd0
    have hR := reach_rdK hr hd0
    have hF := reach_fut hr
    have hW := reach_resW hr
    have hA := reach_arg hr
    have silent : ∀ (w : Thr) (k : Kind), (∀ x, k ≠ .rd x ∧ k ≠ .wr x) → RaceFree (s.tr ++ [⟨w, k⟩]) := by
      intro w k hk
      refine raceFree_snoc ih w k ?_
      intro i a x _ _ hb
      rcases hb with hb | hb
      · exact absurd hb (hk x).1
      · exact absurd hb (hk x).2
    have queue : ∀ (w : Thr) (k : Kind), k = .rd .queue ∨ k = .wr .queue → s.qOwner = some w → RaceFree (s.tr ++ [⟨w, k⟩]) := by
      intro w k hk ho
      refine raceFree_snoc ih w k ?_
      intro i a x hi ha hb _
      have hx : x = .queue := by
        rcases hk with rfl | rfl
        · exact acc_rd hb
        · exact acc_wr hb
      subst hx
      have := hQ i a hi ha
      rw [ho] at this
      exact this
    have killR : ∀ w : Thr, (∀ (i : Nat) (v : Thr), s.tr[i]? = some ⟨v, .wr .kill⟩ → Knows s.tr w i) → RaceFree (s.tr ++ [⟨w, .rd .kill⟩]) := by
      intro w hw
      refine raceFree_snoc ih w _ ?_
      intro i a x hi ha hb hk
      have hx := acc_rd hb
      subst hx
      rcases hk with hk | hk
      · obtain ⟨v, k⟩ := a
        dsimp only at hk
        subst hk
        exact hw i v hi
      · cases hk
    have killOff : s.kill = false → ∀ (w : Thr) (i : Nat) (v : Thr), s.tr[i]? = some ⟨v, .wr .kill⟩ → Knows s.tr w i := by
      intro hk w i v hi
      have := hS.kill.2 ⟨v, mem_of_get hi⟩
      rw [hk] at this; cases this
    have state : ∀ w : Nat, RaceFree (s.tr ++ [⟨.worker w, .wr (.state w)⟩]) := by
      intro w
      refine raceFree_snoc ih _ _ ?_
      intro i a x hi ha hb _
      have hx := acc_wr hb
      subst hx
      obtain ⟨v, k⟩ := a
      rcases ha with ha | ha <;> dsimp only at ha <;> subst ha
      · obtain ⟨c, hc⟩ := hY.state v w (mem_of_get hi)
        exact absurd hc (hd0.noSync c)
      · have := hS.stateW v w (mem_of_get hi)
        subst this
        exact knows_own hi
    have sync : ∀ w : Thr, RaceFree (s.tr ++ [⟨w, .rd .sync⟩]) := by
      intro w
      refine raceFree_snoc ih _ _ ?_
      intro i a x hi ha hb hk
      have hx := acc_rd hb
      subst hx
      obtain ⟨v, k⟩ := a
      rcases hk with hk | hk
      · dsimp only at hk
        subst hk
        obtain ⟨c, hc⟩ := hY.sync v (mem_of_get hi)
        exact absurd hc (hd0.noSync c)
      · cases hk
    rcases hs with ⟨w, hs⟩ | ⟨w, hs⟩
    · cases hs
      case wake => exact ih
      case seeKill h hk =>
        refine killR _ fun i v hi => ?_
        have := hK.prot i v hi
        rw [(hOp (.worker w)).2 (by rw [h]; rfl)] at this
        exact this
      case noKill h hk => exact killR _ (killOff hk _)
      case leave h hk => exact killR _ (hK.know (.worker w) (by rw [h]; rfl))
      case drop t h hk =>
        have := hK.past hk (.worker w)
        rw [h] at this; cases this
      case go t h hk => exact killR _ (killOff hk _)
      case popNone h hq => exact queue _ _ (.inl rfl) ((hOq _).2 (by rw [h]; rfl))
      case popSome t q h hq => exact queue _ _ (.inr rfl) ((hOq _).2 (by rw [h]; rfl))
      case setBusy t h => exact state w
      case setIdle h => exact state w
      case noSync h hs => exact sync _
      case seeSync h hs => exact sync _
      case readArg t h =>
        refine raceFree_snoc ih _ _ ?_
        intro i a x hi ha hb hk
        have hx := acc_rd hb
        subst hx
        obtain ⟨v, k⟩ := a
        rcases hk with hk | hk
        · dsimp only at hk
          subst hk
          exact hA.hand i v (.worker w) t hi (by rw [h]; rfl)
        · cases hk
      case writeRes t h =>
        obtain ⟨t1, t2, t3, t4⟩ := hT.task (.worker w) t (by rw [h]; rfl)
        refine raceFree_snoc ih _ _ ?_
        intro i a x hi ha hb _
        have hx := acc_wr hb
        subst hx
        obtain ⟨v, k⟩ := a
        rcases ha with ha | ha <;> dsimp only at ha <;> subst ha
        · obtain ⟨c, rfl⟩ := hS.resR v t (mem_of_get hi)
          obtain ⟨k, -, hk⟩ := hd0.use i c t hi
          have := hS.acq _ _ (mem_of_get hk)
          rw [t2] at this; cases this
        · rcases hW i v t hi with hv | ⟨hv, -⟩
          · have := t4 v (by rw [hv]; rfl)
            subst this
            rw [h] at hv; cases hv
          · rw [t2] at hv; cases hv
      all_goals exact silent _ _ (by simp)
    · cases hs
      case callSync => exact ih
      case callShutdown => exact ih
      case syEnd => exact ih
      case syWake => exact ih
      case sdEnd => exact ih
      case sySet h => have := hns (.client w); rw [h] at this; cases this
      case syQueue h => have := hns (.client w); rw [h] at this; cases this
      case syState i h hi => have := hns (.client w); rw [h] at this; cases this
      case send h =>
        refine raceFree_snoc ih _ _ ?_
        intro i a x hi ha hb _
        have hx := acc_wr hb
        subst hx
        obtain ⟨v, k⟩ := a
        rcases ha with ha | ha <;> dsimp only at ha <;> subst ha
        · exact absurd (hS.argR v _ (mem_of_get hi)) (Nat.lt_irrefl _)
        · exact absurd (hS.argW v _ (mem_of_get hi)) (Nat.lt_irrefl _)
      case sendPush t h => exact queue _ _ (.inr rfl) ((hOq _).2 (by rw [h]; rfl))
      case use t h =>
        obtain ⟨k, hk, h1⟩ := hd.use s.tr.length w t (snoc_new _ _)
        have h2 : s.tr[k]? = some ⟨.client w, .acq (.future t)⟩ := by
          have h3 : (s.tr ++ [⟨.client w, .rd (.res t)⟩])[k]? = _ := h1
          rwa [List.getElem?_append_left hk] at h3
        refine raceFree_snoc ih _ _ ?_
        intro i a x hi ha hb hkd
        have hx := acc_rd hb
        subst hx
        obtain ⟨v, kd⟩ := a
        rcases hkd with hkd | hkd
        · dsimp only at hkd
          subst hkd
          rcases hW i v t hi with hv | ⟨hv, r, v', hr1, hr2⟩
          · have h3 := (hT.task v t (by rw [hv]; rfl)).2.1
            have h4 := hS.acq _ _ (mem_of_get h2)
            rw [h3] at h4; cases h4
          · exact (hF k r _ v' t h2 hr1).trans hr2
        · cases hkd
      case sdSet h =>
        have own : s.pOwner = some (.client w) := (hOp _).2 (by rw [h]; rfl)
        have first : ∀ (i : Nat) (v : Thr), s.tr[i]? ≠ some ⟨v, .wr .kill⟩ := by
          intro i v hi
          have := hd.once i s.tr.length v (.client w) (snoc_old hi) (snoc_new _ _)
          have := get_lt hi
          omega
        refine raceFree_snoc ih _ _ ?_
        intro i a x hi ha hb _
        have hx := acc_wr hb
        subst hx
        obtain ⟨v, k⟩ := a
        rcases ha with ha | ha <;> dsimp only at ha <;> subst ha
        · rcases hR i v hi with g | ⟨t, g⟩ | ⟨t, g1, r, v', hr1, hr2⟩ | g
          · rw [own] at g; exact g
          · exact absurd (Pc.runs_task g) (no_task hr hd v t)
          · obtain ⟨k, hk⟩ := waited_done hr hd (hT.done t g1)
            exact (hF k r _ v' t hk hr1).trans hr2
          · obtain ⟨u, hu⟩ := hS.kill.1 g
            obtain ⟨j, hj⟩ := List.getElem?_of_mem hu
            exact absurd hj (first j u)
        · exact absurd hi (first i v)
      all_goals exact silent _ _ (by simp)

end Fdapde.Threads
