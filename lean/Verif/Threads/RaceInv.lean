import Verif.Threads.RaceLemmas
namespace Fdapde.Threads
variable {n : Nat} {s : ESt}

/-- Positions at which the queue is locked. -/
def Pc.holdsQ : Pc → Bool
  | .popAcc | .popUnl _ | .sendPush _ | .sendUnl => true
  | _ => false

/-- Positions at which `mutex_` is locked. -/
def Pc.holdsP : Pc → Bool
  | .pred | .popLock | .popAcc | .popUnl _ | .popped _ | .killUnl | .notUnl | .sdSet | .sdUnl => true
  | _ => false

/-- The task in the hands of a thread. -/
def Pc.task : Pc → Option Nat
  | .popUnl o | .popped o => o
  | .got t | .pre t | .run t | .res t | .fut t | .sendLock t | .sendPush t => some t
  | _ => none

section owners
variable {H : Pc → Bool} {o : Option Thr} {w : Thr} {p p' : Pc}

theorem own_same (ih : ∀ u, o = some u ↔ H (s.pc u) = true) (h : s.pc w = p) (e : H p = H p') :
    ∀ u, o = some u ↔ H (s.go w p' u) = true := by
  intro u
  simp only [ESt.go]
  split
  · rename_i hu; subst hu; rw [ih, h, e]
  · exact ih u

theorem own_acq (ih : ∀ u, o = some u ↔ H (s.pc u) = true) (h : s.pc w = p) (ho : o = none) (e : H p' = true) :
    ∀ u, some w = some u ↔ H (s.go w p' u) = true := by
  intro u
  simp only [ESt.go]
  split
  · rename_i hu; subst hu; simp [e]
  · rename_i hu
    rw [← ih, ho]
    simp [Ne.symm hu]

theorem own_rel (ih : ∀ u, o = some u ↔ H (s.pc u) = true) (h : s.pc w = p) (e : H p = true) (e' : H p' = false) :
    ∀ u, none = some u ↔ H (s.go w p' u) = true := by
  intro u
  simp only [ESt.go]
  split
  · simp [e']
  · rename_i hu
    rw [← ih, (ih w).2 (by rw [h, e])]
    simp [Ne.symm hu]

theorem own_ite {q : Prop} [Decidable q] {p'' : Pc} (ih : ∀ u, o = some u ↔ H (s.pc u) = true) (h : s.pc w = p) (e : H p = H p')
    (e' : H p = H p'') : ∀ u, o = some u ↔ H (s.go w (if q then p' else p'') u) = true := by
  split
  · exact own_same ih h e
  · exact own_same ih h e'
end owners

macro "owner" ih:ident : tactic => `(tactic| first
  | exact $ih
  | (refine own_same $ih (by assumption) ?_; rfl)
  | (refine own_acq $ih (by assumption) (by assumption) ?_; rfl)
  | (refine own_rel $ih (by assumption) ?_ ?_ <;> rfl)
  | (refine own_ite $ih (by assumption) ?_ ?_ <;> rfl))

theorem owner_queue (h : EReach n s) : ∀ u, s.qOwner = some u ↔ (s.pc u).holdsQ = true := by
  induction h with
  | init =>
    intro u
    cases u with
    | worker i => simp only [ESt.init]; split <;> simp [Pc.holdsQ]
    | client c => simp [ESt.init, Pc.holdsQ]
  | work s i s' h hs ih => cases hs <;> dsimp only <;> owner ih
  | client s c s' h hs ih => cases hs <;> dsimp only <;> owner ih

theorem owner_pool (h : EReach n s) : ∀ u, s.pOwner = some u ↔ (s.pc u).holdsP = true := by
  induction h with
  | init =>
    intro u
    cases u with
    | worker i => simp only [ESt.init]; split <;> simp [Pc.holdsP]
    | client c => simp [ESt.init, Pc.holdsP]
  | work s i s' h hs ih => cases hs <;> dsimp only <;> owner ih
  | client s c s' h hs ih => cases hs <;> dsimp only <;> owner ih

/-- A task is sent once and is in one place at a time. -/
structure Tasks (s : ESt) : Prop where
  task : ∀ u t, (s.pc u).task = some t → t < s.next ∧ s.done t = false ∧ t ∉ s.queue ∧ ∀ v, (s.pc v).task = some t → v = u
  nodup : s.queue.Nodup
  queue : ∀ t ∈ s.queue, t < s.next ∧ s.done t = false
  done : ∀ t, s.done t = true → t < s.next

theorem go_task {w u : Thr} {p' : Pc} {t : Nat} (h : (s.go w p' u).task = some t) :
    (u = w ∧ p'.task = some t) ∨ (u ≠ w ∧ (s.pc u).task = some t) := by
  simp only [ESt.go] at h
  split at h
  · rename_i hu; exact .inl ⟨hu, h⟩
  · rename_i hu; exact .inr ⟨hu, h⟩

theorem tasks_same (ih : Tasks s) {w : Thr} {p p' : Pc} (h : s.pc w = p) (e : p'.task = p.task ∨ p'.task = none) {s' : ESt}
    (h1 : s'.pc = s.go w p') (h2 : s'.next = s.next) (h3 : s'.done = s.done) (h4 : s'.queue = s.queue) : Tasks s' := by
  have key : ∀ u t, (s.go w p' u).task = some t → (s.pc u).task = some t := by
    intro u t hu
    replace hu := go_task hu
    rcases hu with ⟨rfl, hu⟩ | ⟨-, hu⟩
    · rcases e with e | e
      · rw [h, ← e, hu]
      · rw [e] at hu; cases hu
    · exact hu
  refine ⟨?_, by rw [h4]; exact ih.nodup, by rw [h2, h3, h4]; exact ih.queue, by rw [h2, h3]; exact ih.done⟩
  rw [h1, h2, h3, h4]
  intro u t hu
  obtain ⟨g1, g2, g3, g4⟩ := ih.task u t (key u t hu)
  exact ⟨g1, g2, g3, fun v hv => g4 v (key v t hv)⟩

theorem tasks_ite (ih : Tasks s) {q : Prop} [Decidable q] {w : Thr} {p p' p'' : Pc} (h : s.pc w = p) (e : p'.task = none) (e' : p''.task = none) {s' : ESt}
    (h1 : s'.pc = s.go w (if q then p' else p'')) (h2 : s'.next = s.next) (h3 : s'.done = s.done) (h4 : s'.queue = s.queue) : Tasks s' := by
  split at h1
  · exact tasks_same ih h (.inr e) h1 h2 h3 h4
  · exact tasks_same ih h (.inr e') h1 h2 h3 h4

macro "tasks" ih:ident : tactic => `(tactic| first
  | (refine tasks_same $ih (by assumption) (.inl ?_) rfl rfl rfl rfl; rfl)
  | (refine tasks_same $ih (by assumption) (.inr ?_) rfl rfl rfl rfl; rfl)
  | (refine tasks_ite $ih (by assumption) ?_ ?_ rfl rfl rfl rfl <;> rfl))

theorem reach_tasks (h : EReach n s) : Tasks s := by
  induction h with
  | init =>
    refine ⟨?_, List.nodup_nil, by simp [ESt.init], by simp [ESt.init]⟩
    intro u t hu
    cases u with
    | worker i => simp only [ESt.init] at hu; split at hu <;> simp [Pc.task] at hu
    | client c => simp [ESt.init, Pc.task] at hu
  | work s i s' h hs ih =>
    cases hs
    case popSome t q h hq =>
      have hn := ih.nodup
      rw [hq, List.nodup_cons] at hn
      have hnot : ∀ u, (s.pc u).task ≠ some t := fun u hu => (ih.task u t hu).2.2.1 (by simp [hq])
      refine ⟨?_, hn.2, fun t' ht' => ih.queue t' (by simp [hq, ht']), ih.done⟩
      intro u t' hu
      replace hu := go_task hu
      rcases hu with ⟨rfl, hu⟩ | ⟨hne, hu⟩
      · obtain rfl : t = t' := by simpa [Pc.task] using hu
        refine ⟨(ih.queue t (by simp [hq])).1, (ih.queue t (by simp [hq])).2, hn.1, fun v hv => ?_⟩
        replace hv := go_task hv
        rcases hv with ⟨rfl, -⟩ | ⟨-, hv⟩
        · rfl
        · exact absurd hv (hnot v)
      · obtain ⟨g1, g2, g3, g4⟩ := ih.task u t' hu
        refine ⟨g1, g2, fun hm => g3 (by simp [hq, hm]), fun v hv => ?_⟩
        replace hv := go_task hv
        rcases hv with ⟨rfl, hv⟩ | ⟨-, hv⟩
        · obtain rfl : t = t' := by simpa [Pc.task] using hv
          exact absurd hu (hnot u)
        · exact g4 v hv
    case fulfil t h =>
      obtain ⟨t1, t2, t3, t4⟩ := ih.task (.worker i) t (by rw [h]; rfl)
      refine ⟨?_, ih.nodup, ?_, ?_⟩
      · intro u t' hu
        replace hu := go_task hu
        rcases hu with ⟨rfl, hu⟩ | ⟨hne, hu⟩
        · simp [Pc.task] at hu
        · obtain ⟨g1, g2, g3, g4⟩ := ih.task u t' hu
          have htt : t' ≠ t := fun e => hne (t4 u (e ▸ hu))
          refine ⟨g1, by simp [htt, g2], g3, fun v hv => ?_⟩
          replace hv := go_task hv
          rcases hv with ⟨rfl, hv⟩ | ⟨-, hv⟩
          · simp [Pc.task] at hv
          · exact g4 v hv
      · intro t' ht'
        have htt : t' ≠ t := fun e => t3 (e ▸ ht')
        simpa [htt] using ih.queue t' ht'
      · intro t' ht'
        by_cases e : t' = t
        · rw [e]; exact t1
        · exact ih.done t' (by simpa [e] using ht')
    all_goals tasks ih
  | client s c s' h hs ih =>
    cases hs
    case send h =>
      refine ⟨?_, ih.nodup, fun t ht => ⟨Nat.lt_succ_of_lt (ih.queue t ht).1, (ih.queue t ht).2⟩, fun t ht => Nat.lt_succ_of_lt (ih.done t ht)⟩
      intro u t hu
      replace hu := go_task hu
      rcases hu with ⟨rfl, hu⟩ | ⟨hne, hu⟩
      · obtain rfl : s.next = t := by simpa [Pc.task] using hu
        refine ⟨Nat.lt_succ_self _, ?_, fun hm => Nat.lt_irrefl _ (ih.queue _ hm).1, fun v hv => ?_⟩
        · cases hd : s.done s.next with
          | false => rfl
          | true => exact absurd (ih.done _ hd) (Nat.lt_irrefl _)
        · replace hv := go_task hv
          rcases hv with ⟨rfl, -⟩ | ⟨-, hv⟩
          · rfl
          · exact absurd (ih.task v _ hv).1 (Nat.lt_irrefl _)
      · obtain ⟨g1, g2, g3, g4⟩ := ih.task u t hu
        refine ⟨Nat.lt_succ_of_lt g1, g2, g3, fun v hv => ?_⟩
        replace hv := go_task hv
        rcases hv with ⟨rfl, hv⟩ | ⟨-, hv⟩
        · obtain rfl : s.next = t := by simpa [Pc.task] using hv
          exact absurd g1 (Nat.lt_irrefl _)
        · exact g4 v hv
    case sendPush t h =>
      obtain ⟨t1, t2, t3, t4⟩ := ih.task (.client c) t (by rw [h]; rfl)
      refine ⟨?_, ?_, ?_, ih.done⟩
      · intro u t' hu
        replace hu := go_task hu
        rcases hu with ⟨rfl, hu⟩ | ⟨hne, hu⟩
        · simp [Pc.task] at hu
        · obtain ⟨g1, g2, g3, g4⟩ := ih.task u t' hu
          have htt : t' ≠ t := fun e => hne (t4 u (e ▸ hu))
          refine ⟨g1, g2, by simp [g3, htt], fun v hv => ?_⟩
          replace hv := go_task hv
          rcases hv with ⟨rfl, hv⟩ | ⟨-, hv⟩
          · simp [Pc.task] at hv
          · exact g4 v hv
      · show (s.queue ++ [t]).Nodup
        rw [List.nodup_append]
        refine ⟨ih.nodup, by simp, fun a ha b hb => ?_⟩
        simp only [List.mem_singleton] at hb
        subst hb
        exact fun e => t3 (e ▸ ha)
      · intro t' ht'
        rcases List.mem_append.1 ht' with ht' | ht'
        · exact ih.queue t' ht'
        · simp only [List.mem_singleton] at ht'
          subst ht'
          exact ⟨t1, t2⟩
    case get t h hd => exact ⟨ih.task, ih.nodup, ih.queue, ih.done⟩
    case use t h => exact ⟨ih.task, ih.nodup, ih.queue, ih.done⟩
    all_goals tasks ih

end Fdapde.Threads
