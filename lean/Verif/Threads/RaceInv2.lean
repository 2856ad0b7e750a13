import Verif.Threads.RaceInv
namespace Fdapde.Threads
variable {n : Nat} {s s' : ESt}

/-- One step of some thread. -/
inductive EStep (n : Nat) (s s' : ESt) : Prop
  | work (i : Nat) (hs : WStep s i s')
  | client (c : Nat) (hs : CStep n s c s')

theorem EReach.ind {P : ESt → Prop} (h0 : P (ESt.init n)) (h1 : ∀ s s', EReach n s → EReach n s' → P s → EStep n s s' → P s')
    (h : EReach n s) : P s := by
  induction h with
  | init => exact h0
  | work s i s' h hs ih => exact h1 s s' h (.work s i s' h hs) ih (.work i hs)
  | client s c s' h hs ih => exact h1 s s' h (.client s c s' h hs) ih (.client c hs)

/-- A step records at most one event. -/
theorem EStep.tr (h : EStep n s s') : s'.tr = s.tr ∨ ∃ e, s'.tr = s.tr ++ [e] := by
  rcases h with ⟨i, hs⟩ | ⟨c, hs⟩ <;> cases hs <;> first | exact .inl rfl | exact .inr ⟨_, rfl⟩

theorem EStep.disc (h : EStep n s s') (hd : Disciplined s'.tr) : Disciplined s.tr := by
  rcases h.tr with e | ⟨e, he⟩
  · rwa [e] at hd
  · rw [he] at hd; exact hd.of_snoc

theorem EStep.knows (h : EStep n s s') {u : Thr} {i : Nat} (hk : Knows s.tr u i) : Knows s'.tr u i := by
  rcases h.tr with e | ⟨e, he⟩
  · rwa [e]
  · rw [he]; exact hk.append _

theorem EStep.relKnows (h : EStep n s s') {o : SObj} {i : Nat} (hk : RelKnows s.tr o i) : RelKnows s'.tr o i := by
  rcases h.tr with e | ⟨e, he⟩
  · rwa [e]
  · rw [he]; exact hk.append _

theorem EStep.old (h : EStep n s s') {i : Nat} {a : Ev} (hk : s.tr[i]? = some a) : s'.tr[i]? = some a := by
  rcases h.tr with e | ⟨e, he⟩
  · rwa [e]
  · rw [he]; exact snoc_old hk

/-- Protection by the mutex of the queue is kept. -/
theorem EStep.protQ (hr : EReach n s) (h : EStep n s s') {i : Nat} (hp : Prot s.tr .queueMutex s.qOwner i) :
    Prot s'.tr .queueMutex s'.qOwner i := by
  have ho := owner_queue hr
  rcases h with ⟨w, hs⟩ | ⟨w, hs⟩
  · cases hs
    case popLock h hq => rw [hq] at hp; exact RelKnows.acquired hp _
    case popUnl o h => rw [(ho (.worker w)).2 (by rw [h]; rfl)] at hp; exact Knows.released hp _
    all_goals first | exact hp | exact hp.append _
  · cases hs
    case sendLock t h hq => rw [hq] at hp; exact RelKnows.acquired hp _
    case sendUnl h => rw [(ho (.client w)).2 (by rw [h]; rfl)] at hp; exact Knows.released hp _
    all_goals first | exact hp | exact hp.append _

/-- Protection by `mutex_` is kept. -/
theorem EStep.protP (hr : EReach n s) (h : EStep n s s') {i : Nat} (hp : Prot s.tr .poolMutex s.pOwner i) :
    Prot s'.tr .poolMutex s'.pOwner i := by
  have ho := owner_pool hr
  rcases h with ⟨w, hs⟩ | ⟨w, hs⟩
  · cases hs
    case lock h hq => rw [hq] at hp; exact RelKnows.acquired hp _
    case sleep h => rw [(ho (.worker w)).2 (by rw [h]; rfl)] at hp; exact Knows.released hp _
    case take t h => rw [(ho (.worker w)).2 (by rw [h]; rfl)] at hp; exact Knows.released hp _
    case killUnl h => rw [(ho (.worker w)).2 (by rw [h]; rfl)] at hp; exact Knows.released hp _
    all_goals first | exact hp | exact hp.append _
  · cases hs
    case notLock h hq => rw [hq] at hp; exact RelKnows.acquired hp _
    case notUnl h => rw [(ho (.client w)).2 (by rw [h]; rfl)] at hp; exact Knows.released hp _
    case sdLock h hq => rw [hq] at hp; exact RelKnows.acquired hp _
    case sdUnl h => rw [(ho (.client w)).2 (by rw [h]; rfl)] at hp; exact Knows.released hp _
    all_goals first | exact hp | exact hp.append _

/-- Positions inside `sync()`. -/
def Pc.inSync : Pc → Bool
  | .sySet | .syQueue | .syState _ | .sySleep | .syAsleep | .syRelock | .syUnl => true
  | _ => false

/-- What the record says about the state. -/
structure Said (s : ESt) : Prop where
  kill : s.kill = true ↔ ∃ u, ⟨u, .wr .kill⟩ ∈ s.tr
  killC : ∀ u, ⟨u, .wr .kill⟩ ∈ s.tr → ∃ c, u = .client c
  arg : ∀ t, t < s.next → ∃ u, ⟨u, .wr (.arg t)⟩ ∈ s.tr
  argW : ∀ u t, ⟨u, .wr (.arg t)⟩ ∈ s.tr → t < s.next
  argR : ∀ u t, ⟨u, .rd (.arg t)⟩ ∈ s.tr → t < s.next
  rel : ∀ u t, ⟨u, .rel (.future t)⟩ ∈ s.tr → s.done t = true
  acq : ∀ u t, ⟨u, .acq (.future t)⟩ ∈ s.tr → s.done t = true
  resR : ∀ u t, ⟨u, .rd (.res t)⟩ ∈ s.tr → ∃ c, u = .client c
  stateW : ∀ u k, ⟨u, .wr (.state k)⟩ ∈ s.tr → u = .worker k

theorem reach_said (h : EReach n s) : Said s := by
  refine EReach.ind (P := Said) ?_ ?_ h
  · constructor <;> simp [ESt.init]
  · intro s s' hr hr' ih hs
    have hT := reach_tasks hr
    rcases hs with ⟨w, hs⟩ | ⟨w, hs⟩
    · cases hs
      case readArg t h =>
        have := (hT.task (.worker w) t (by rw [h]; rfl)).1
        constructor <;> simp [ESt.log] <;> first | exact ih.kill | exact ih.killC | exact ih.arg | exact ih.argW | exact ih.rel | exact ih.acq | exact ih.resR | exact ih.stateW | skip
        rintro u t' (h1 | ⟨-, rfl⟩)
        · exact ih.argR u t' h1
        · exact this
      case fulfil t h =>
        constructor <;> simp [ESt.log] <;> first | exact ih.kill | exact ih.killC | exact ih.arg | exact ih.argW | exact ih.argR | exact ih.resR | exact ih.stateW | skip
        · rintro u t' (h1 | ⟨-, rfl⟩)
          · exact .inr (ih.rel u t' h1)
          · exact .inl rfl
        · intro u t' h1; exact .inr (ih.acq u t' h1)
      case setBusy t h =>
        constructor <;> simp [ESt.log] <;> first | exact ih.kill | exact ih.killC | exact ih.arg | exact ih.argW | exact ih.argR | exact ih.rel | exact ih.acq | exact ih.resR | skip
        rintro u t' (h1 | ⟨rfl, rfl⟩)
        · exact ih.stateW u t' h1
        · rfl
      case setIdle h =>
        constructor <;> simp [ESt.log] <;> first | exact ih.kill | exact ih.killC | exact ih.arg | exact ih.argW | exact ih.argR | exact ih.rel | exact ih.acq | exact ih.resR | skip
        rintro u t' (h1 | ⟨rfl, rfl⟩)
        · exact ih.stateW u t' h1
        · rfl
      all_goals
        constructor <;> simp [ESt.log] <;> first | exact ih.kill | exact ih.killC | exact ih.arg | exact ih.argW | exact ih.argR | exact ih.rel | exact ih.acq | exact ih.resR | exact ih.stateW
    · cases hs
      case send h =>
        constructor <;> simp [ESt.log] <;> first | exact ih.kill | exact ih.killC | exact ih.rel | exact ih.acq | exact ih.resR | exact ih.stateW | skip
        · intro t ht
          rcases Nat.lt_succ_iff_lt_or_eq.1 ht with ht | ht
          · obtain ⟨u, hu⟩ := ih.arg t ht
            exact ⟨u, .inl hu⟩
          · exact ⟨.client w, .inr ⟨rfl, ht⟩⟩
        · rintro u t' (h1 | ⟨-, rfl⟩)
          · exact Nat.lt_succ_of_lt (ih.argW u t' h1)
          · exact Nat.lt_succ_self _
        · intro u t' h1; exact Nat.lt_succ_of_lt (ih.argR u t' h1)
      case get t h hd =>
        constructor <;> simp [ESt.log] <;> first | exact ih.kill | exact ih.killC | exact ih.arg | exact ih.argW | exact ih.argR | exact ih.rel | exact ih.resR | exact ih.stateW | skip
        rintro u t' (h1 | ⟨-, rfl⟩)
        · exact ih.acq u t' h1
        · exact hd
      case use t h =>
        constructor <;> simp [ESt.log] <;> first | exact ih.kill | exact ih.killC | exact ih.arg | exact ih.argW | exact ih.argR | exact ih.rel | exact ih.acq | exact ih.stateW | skip
        rintro u t' (h1 | ⟨rfl, -⟩)
        · exact ih.resR u t' h1
        · exact ⟨w, rfl⟩
      case sdSet h =>
        constructor <;> simp [ESt.log] <;> first | exact ih.arg | exact ih.argW | exact ih.argR | exact ih.rel | exact ih.acq | exact ih.resR | exact ih.stateW | skip
        rintro u (h1 | rfl)
        · exact ih.killC u h1
        · exact ⟨w, rfl⟩
      all_goals
        constructor <;> simp [ESt.log] <;> first | exact ih.kill | exact ih.killC | exact ih.arg | exact ih.argW | exact ih.argR | exact ih.rel | exact ih.acq | exact ih.resR | exact ih.stateW

/-- Traces of `sync()`. -/
structure SaidSync (s : ESt) : Prop where
  pc : ∀ u, (s.pc u).inSync = true → ∃ c, ⟨.client c, .acq .syncMutex⟩ ∈ s.tr
  sync : ∀ u, ⟨u, .wr .sync⟩ ∈ s.tr → ∃ c, ⟨.client c, .acq .syncMutex⟩ ∈ s.tr
  state : ∀ u k, ⟨u, .rd (.state k)⟩ ∈ s.tr → ∃ c, ⟨.client c, .acq .syncMutex⟩ ∈ s.tr

theorem go_inSync {w u : Thr} {p' : Pc} (h : (s.go w p' u).inSync = true) :
    p'.inSync = true ∨ (s.pc u).inSync = true := by
  simp only [ESt.go] at h
  split at h
  · exact .inl h
  · exact .inr h

theorem saidSync_same (ih : SaidSync s) {w : Thr} {p p' : Pc} (h : s.pc w = p) (e : p'.inSync = true → p.inSync = true) {s' : ESt}
    (h1 : s'.pc = s.go w p') {k : Kind} (h2 : s'.tr = s.tr ∨ s'.tr = s.tr ++ [⟨w, k⟩])
    (h3 : k = .wr .sync → p.inSync = true) (h4 : ∀ i, k = .rd (.state i) → p.inSync = true) : SaidSync s' := by
  have sub : ∀ c, ⟨.client c, .acq .syncMutex⟩ ∈ s.tr → ⟨.client c, .acq .syncMutex⟩ ∈ s'.tr := by
    intro c hc
    rcases h2 with h2 | h2 <;> rw [h2]
    · exact hc
    · exact List.mem_append_left _ hc
  have inv : ∀ e, e ∈ s'.tr → e ∈ s.tr ∨ e = ⟨w, k⟩ := by
    intro e he
    rcases h2 with h2 | h2 <;> rw [h2] at he
    · exact .inl he
    · rcases List.mem_append.1 he with he | he
      · exact .inl he
      · exact .inr (by simpa using he)
  have hp : p.inSync = true → ∃ c, ⟨.client c, .acq .syncMutex⟩ ∈ s'.tr := by
    intro hp
    obtain ⟨c, hc⟩ := ih.pc w (by rw [h]; exact hp)
    exact ⟨c, sub c hc⟩
  constructor
  · intro u hu
    rw [h1] at hu
    rcases go_inSync hu with hu | hu
    · exact hp (e hu)
    · obtain ⟨c, hc⟩ := ih.pc u hu
      exact ⟨c, sub c hc⟩
  · intro u hu
    rcases inv _ hu with hu | hu
    · obtain ⟨c, hc⟩ := ih.sync u hu
      exact ⟨c, sub c hc⟩
    · exact hp (h3 (by injection hu with _ e; exact e.symm))
  · intro u i hu
    rcases inv _ hu with hu | hu
    · obtain ⟨c, hc⟩ := ih.state u i hu
      exact ⟨c, sub c hc⟩
    · exact hp (h4 i (by injection hu with _ e; exact e.symm))

theorem go_self {u : Thr} {p : Pc} (h : s.pc u = p) : s.pc = s.go u p := by
  funext v
  simp only [ESt.go]
  split
  · rename_i hv; rw [hv, h]
  · rfl

theorem reach_saidSync (h : EReach n s) : SaidSync s := by
  refine EReach.ind (P := SaidSync) ?_ ?_ h
  · constructor
    · intro u hu
      cases u with
      | worker i => simp only [ESt.init] at hu; split at hu <;> simp [Pc.inSync] at hu
      | client c => simp [ESt.init, Pc.inSync] at hu
    · simp [ESt.init]
    · simp [ESt.init]
  · intro s s' hr hr' ih hs
    rcases hs with ⟨w, hs⟩ | ⟨w, hs⟩
    · cases hs
      case wake h => exact saidSync_same (k := .rd .kill) ih h (by simp [Pc.inSync]) rfl (.inl rfl) (by simp) (by simp)
      all_goals
        refine saidSync_same ih (by assumption) ?_ rfl (.inr rfl) ?_ ?_ <;> simp [Pc.inSync]
    · cases hs
      case syLock h ho =>
        constructor
        · intro u _; exact ⟨w, by simp [ESt.log]⟩
        · intro u _; exact ⟨w, by simp [ESt.log]⟩
        · intro u k _; exact ⟨w, by simp [ESt.log]⟩
      case callSync h => exact saidSync_same (k := .rd .kill) ih h (by simp [Pc.inSync]) rfl (.inl rfl) (by simp) (by simp)
      case callShutdown h => exact saidSync_same (k := .rd .kill) ih h (by simp [Pc.inSync]) rfl (.inl rfl) (by simp) (by simp)
      case syEnd i h hi => exact saidSync_same (k := .rd .kill) ih h (by simp [Pc.inSync]) rfl (.inl rfl) (by simp) (by simp)
      case syWake h => exact saidSync_same (k := .rd .kill) ih h (by simp [Pc.inSync]) rfl (.inl rfl) (by simp) (by simp)
      case sdEnd i h hi => exact saidSync_same (k := .rd .kill) ih h (by simp [Pc.inSync]) rfl (.inl rfl) (by simp) (by simp)
      case get t h hd => exact saidSync_same ih h (by simp [Pc.inSync]) (go_self h) (.inr rfl) (by simp) (by simp)
      case use t h => exact saidSync_same ih h (by simp [Pc.inSync]) (go_self h) (.inr rfl) (by simp) (by simp)
      all_goals
        refine saidSync_same ih (by assumption) ?_ rfl (.inr rfl) ?_ ?_ <;> simp [Pc.inSync]

end Fdapde.Threads
