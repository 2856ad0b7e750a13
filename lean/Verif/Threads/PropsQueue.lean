import Verif.Threads.Queue
import Mathlib.Tactic.Cases
import Mathlib.Data.List.Induction
/- C31: the concurrent queue. -/
namespace Fdapde.Threads

variable {V : Type}

/-! ### Specification: the sequential queue -/

/-- Effect of one completed call on a sequential FIFO queue; `none` if its result is wrong. -/
def seqStep (q : List V) [DecidableEq V] : QEv V → Option (List V)
  | .push v => some (q ++ [v])
  | .popSome v => match q with | [] => none | x :: r => if x = v then some r else none
  | .popNone => match q with | [] => some [] | _ :: _ => none
  | .clear => some []

/-- Replays a list of completed calls. -/
def replay [DecidableEq V] (q0 : List V) (l : List (Nat × QEv V)) : Option (List V) :=
  l.foldlM (fun q e => seqStep q e.2) q0

variable [DecidableEq V]

theorem replay_snoc {q0 q q' : List V} {l : List (Nat × QEv V)} {e : Nat × QEv V} (h : replay q0 l = some q)
    (he : seqStep q e.2 = some q') : replay q0 (l ++ [e]) = some q' := by
  simp only [replay, List.foldlM_append] at h ⊢
  rw [h]; simp [he]

/-- Program counters at which the lock is held. -/
def locked : QPc V → Bool
  | .inPush _ | .pushed _ | .inPop | .popFail | .popFront | .popErase _ | .popped _ | .inClear | .cleared => true
  | _ => false

/-- Relation between the queue `q0` after the completed calls and the queue seen by the lock owner. -/
def rel (q0 q : List V) : QPc V → Prop
  | .inPush _ => q = q0
  | .pushed v => q = q0 ++ [v]
  | .inPop => q = q0
  | .popFail => q = q0 ∧ q = []
  | .popFront => q = q0 ∧ q ≠ []
  | .popErase v => q = q0 ∧ q.head? = some v
  | .popped v => q0 = v :: q
  | .inClear => ∃ r, q0 = r ++ q
  | .cleared => q = []
  | _ => False

structure QInv (q0 : List V) (s : QSt V) : Prop where
  mutex : ∀ t, locked (s.pc t) = true ↔ s.owner = some t
  free : s.owner = none → replay q0 s.log = some s.q
  held : ∀ t, s.owner = some t → ∃ q, replay q0 s.log = some q ∧ rel q s.q (s.pc t)

theorem setPc_self (s : QSt V) (t p) : s.setPc t p t = p := by simp [QSt.setPc]
theorem setPc_ne (s : QSt V) {t u} (p) (h : u ≠ t) : s.setPc t p u = s.pc u := by simp [QSt.setPc, h]

theorem qinv_step {q0 : List V} {s s' : QSt V} {t : Nat} (hi : QInv q0 s) (hs : QStep s t s') : QInv q0 s' := by
  have hm := hi.mutex t
  -- acquiring the lock
  have acq : ∀ p, locked p = true → s.owner = none → (∀ q, rel q q p) →
      QInv q0 { s with pc := s.setPc t p, owner := some t } := by
    intro p hp ho hr
    refine ⟨fun u => ?_, by simp, fun u hu => ?_⟩
    · by_cases hut : u = t
      · subst hut; simp [setPc_self, hp]
      · simp only [setPc_ne s p hut, Option.some.injEq]
        have := (hi.mutex u)
        rw [ho] at this
        simp at this
        simp [this]; exact fun h => hut h.symm
    · have : t = u := by simpa using hu
      subst this
      simp only [setPc_self]
      exact ⟨s.q, hi.free ho, hr _⟩
  -- outside the lock
  have out : ∀ p, locked (s.pc t) = false → locked p = false → QInv q0 { s with pc := s.setPc t p } := by
    intro p h1 h2
    refine ⟨fun u => ?_, hi.free, fun u hu => ?_⟩
    · by_cases hut : u = t
      · subst hut
        simp only [setPc_self, h2]
        rw [h1] at hm
        simp at hm ⊢; exact hm
      · simp only [setPc_ne s p hut]; exact hi.mutex u
    · simp only at hu
      have hut : u ≠ t := by
        rintro rfl
        have := hm.2 hu
        rw [h1] at this; simp at this
      simp only [setPc_ne s p hut]
      exact hi.held u hu
  -- inside the lock
  have ins : ∀ p q, locked (s.pc t) = true → locked p = true →
      (∀ q1, rel q1 s.q (s.pc t) → rel q1 q p) → QInv q0 { s with pc := s.setPc t p, q := q } := by
    intro p q h1 h2 hr
    have ho := hm.1 h1
    refine ⟨fun u => ?_, fun h => ?_, fun u hu => ?_⟩
    · by_cases hut : u = t
      · subst hut; simp [setPc_self, h2, ho]
      · simp only [setPc_ne s p hut]; exact hi.mutex u
    · simp only at h; rw [ho] at h; simp at h
    · simp only at hu
      rw [ho] at hu
      have : t = u := by simpa using hu
      subst this
      simp only [setPc_self]
      obtain ⟨q1, h3, h4⟩ := hi.held t ho
      exact ⟨q1, h3, hr q1 h4⟩
  -- releasing the lock
  have rls : ∀ e, locked (s.pc t) = true → (∀ q1, rel q1 s.q (s.pc t) → seqStep q1 e = some s.q) →
      QInv q0 { s with pc := s.setPc t .idle, owner := none, log := s.log ++ [(t, e)] } := by
    intro e h1 hr
    have ho := hm.1 h1
    refine ⟨fun u => ?_, fun _ => ?_, by simp⟩
    · by_cases hut : u = t
      · subst hut; simp [setPc_self, locked]
      · simp only [setPc_ne s _ hut]
        have := hi.mutex u
        rw [ho] at this
        simp at this
        simp [this]; exact fun h => hut h.symm
    · obtain ⟨q1, h3, h4⟩ := hi.held t ho
      exact replay_snoc h3 (hr q1 h4)
  cases hs with
  | callPush v h => exact out _ (by rw [h]; rfl) rfl
  | callPop h => exact out _ (by rw [h]; rfl) rfl
  | callClear h => exact out _ (by rw [h]; rfl) rfl
  | lockPush v h ho => exact acq _ rfl ho (fun q => rfl)
  | push v h =>
    refine ins _ _ (by rw [h]; rfl) rfl ?_
    intro q1 hr; rw [h] at hr; simp only [rel] at hr ⊢; rw [hr]
  | retPush v h =>
    refine rls _ (by rw [h]; rfl) ?_
    intro q1 hr; rw [h] at hr; simp only [rel] at hr; simp [seqStep, hr]
  | lockPop h ho => exact acq _ rfl ho (fun q => rfl)
  | testEmpty h hq =>
    refine ins _ _ (by rw [h]; rfl) rfl ?_
    intro q1 hr; rw [h] at hr; exact ⟨hr, hq⟩
  | testNonempty h hq =>
    refine ins _ _ (by rw [h]; rfl) rfl ?_
    intro q1 hr; rw [h] at hr; exact ⟨hr, hq⟩
  | front v h hq =>
    refine ins _ _ (by rw [h]; rfl) rfl ?_
    intro q1 hr; rw [h] at hr; exact ⟨hr.1, hq⟩
  | erase v h =>
    refine ins _ _ (by rw [h]; rfl) rfl ?_
    intro q1 hr; rw [h] at hr
    obtain ⟨h1, h2⟩ := hr
    simp only [rel]
    cases hq : s.q with
    | nil => rw [hq] at h2; simp at h2
    | cons x r => rw [hq] at h2; simp at h2; rw [← h1, hq, h2]; rfl
  | retPop v h =>
    refine rls _ (by rw [h]; rfl) ?_
    intro q1 hr; rw [h] at hr; simp only [rel] at hr; simp [seqStep, hr]
  | retFail h =>
    refine rls _ (by rw [h]; rfl) ?_
    intro q1 hr; rw [h] at hr
    obtain ⟨h1, h2⟩ := hr
    rw [← h1, h2]; rfl
  | lockClear h ho => exact acq _ rfl ho (fun q => ⟨[], rfl⟩)
  | clearOne h hq =>
    have := ins .inClear s.q.tail (by rw [h]; rfl) rfl (by
      intro q1 hr; rw [h] at hr
      obtain ⟨r, hr⟩ := hr
      cases hq' : s.q with
      | nil => exact absurd hq' hq
      | cons x l => exact ⟨r ++ [x], by rw [hr, hq']; simp⟩)
    have hpc : s.setPc t .inClear = s.pc := by
      funext u; by_cases hu : u = t
      · subst hu; rw [setPc_self, h]
      · rw [setPc_ne s _ hu]
    rwa [hpc] at this
  | clearEnd h hq =>
    refine ins _ _ (by rw [h]; rfl) rfl ?_
    intro q1 hr; exact hq
  | retClear h =>
    refine rls _ (by rw [h]; rfl) ?_
    intro q1 hr; rw [h] at hr; simp only [rel] at hr; simp [seqStep, hr]

theorem qreach_inv {q0 : List V} {s : QSt V} (h : QReach q0 s) : QInv q0 s := by
  induction h with
  | init => exact ⟨by simp [QSt.init, locked], by simp [QSt.init, replay], by simp [QSt.init]⟩
  | step s t s' _ hs ih => exact qinv_step ih hs

/-- C31: linearizability.  Under every schedule of any number of threads, the completed calls, taken in
order of completion, are a correct run of the sequential FIFO queue, and whenever no thread is inside a
call the queue holds what that run leaves. -/
theorem C31_linearizable (q0 : List V) (s : QSt V) (h : QReach q0 s) :
    ∃ q, replay q0 s.log = some q ∧ (s.owner = none → s.q = q) := by
  have hi := qreach_inv h
  cases ho : s.owner with
  | none => exact ⟨s.q, hi.free ho, fun _ => rfl⟩
  | some t =>
    obtain ⟨q, h1, _⟩ := hi.held t ho
    exact ⟨q, h1, by simp⟩

/-- C31: at most one thread is inside a critical section. -/
theorem C31_mutual_exclusion (q0 : List V) (s : QSt V) (h : QReach q0 s) (t u : Nat) (ht : locked (s.pc t) = true)
    (hu : locked (s.pc u) = true) : t = u := by
  have hi := qreach_inv h
  have h1 := (hi.mutex t).1 ht
  have h2 := (hi.mutex u).1 hu
  rw [h1] at h2; simpa using h2

/-- Values pushed, and values popped, by the completed calls. -/
def pushesOf (l : List (Nat × QEv V)) : List V := l.filterMap fun e => match e.2 with | .push v => some v | _ => none
def popsOf (l : List (Nat × QEv V)) : List V := l.filterMap fun e => match e.2 with | .popSome v => some v | _ => none

theorem replay_split {q0 q : List V} {l : List (Nat × QEv V)} (h : replay q0 l = some q) :
    ∃ removed, q0 ++ pushesOf l = removed ++ q ∧ (popsOf l).Sublist removed ∧
      ((∀ e ∈ l, e.2 ≠ .clear) → removed = popsOf l) := by
  induction l using List.reverseRecOn generalizing q with
  | nil => simp [replay] at h; subst h; exact ⟨[], by simp [pushesOf], by simp [popsOf], by simp [popsOf]⟩
  | append_singleton l e ih =>
    simp only [replay, List.foldlM_append] at h
    cases hq : List.foldlM (fun q e => seqStep q e.2) q0 l with
    | none => rw [hq] at h; simp at h
    | some q1 =>
      rw [hq] at h
      simp at h
      obtain ⟨r, h1, h2, h3⟩ := ih hq
      have hcl : (∀ x ∈ l ++ [e], x.2 ≠ QEv.clear) → ∀ x ∈ l, x.2 ≠ QEv.clear := fun hh x hx => hh x (by simp [hx])
      rcases e with ⟨t, ev⟩
      cases ev with
      | push v =>
        simp [seqStep] at h; subst h
        refine ⟨r, ?_, ?_, ?_⟩
        · simp only [pushesOf, List.filterMap_append] at h1 ⊢
          simp [← h1, ← List.append_assoc]
        · simpa [popsOf, List.filterMap_append] using h2
        · intro hh
          simpa [popsOf, List.filterMap_append] using h3 (hcl hh)
      | popSome v =>
        cases q1 with
        | nil => simp [seqStep] at h
        | cons x q1 =>
          simp [seqStep] at h
          obtain ⟨rfl, rfl⟩ := h
          refine ⟨r ++ [x], ?_, ?_, ?_⟩
          · simp only [pushesOf, List.filterMap_append] at h1 ⊢
            simpa using h1
          · simp only [popsOf, List.filterMap_append] at h2 ⊢
            exact h2.append (List.Sublist.refl _)
          · intro hh
            have := h3 (hcl hh)
            simp only [popsOf, List.filterMap_append] at this ⊢
            rw [this]; rfl
      | popNone =>
        cases q1 with
        | nil =>
          simp [seqStep] at h; subst h
          refine ⟨r, ?_, ?_, ?_⟩
          · simpa [pushesOf, List.filterMap_append] using h1
          · simpa [popsOf, List.filterMap_append] using h2
          · intro hh
            simpa [popsOf, List.filterMap_append] using h3 (hcl hh)
        | cons x q1 => simp [seqStep] at h
      | clear =>
        simp [seqStep] at h; subst h
        refine ⟨r ++ q1, ?_, ?_, ?_⟩
        · simpa [pushesOf, List.filterMap_append] using h1
        · simp only [popsOf, List.filterMap_append] at h2 ⊢
          simpa using h2.trans (List.sublist_append_left r q1)
        · intro hh; exact absurd rfl (hh (t, .clear) (by simp))

/-- C31: elements come out in push order, none twice, none invented: the popped values are a
subsequence of the values put in; without `clear` they are exactly its first elements. -/
theorem C31_fifo (q0 : List V) (s : QSt V) (h : QReach q0 s) :
    (popsOf s.log).Sublist (q0 ++ pushesOf s.log) ∧
    ((∀ e ∈ s.log, e.2 ≠ .clear) → popsOf s.log <+: q0 ++ pushesOf s.log) := by
  obtain ⟨q, h1, _⟩ := C31_linearizable q0 s h
  obtain ⟨r, h2, h3, h4⟩ := replay_split h1
  constructor
  · rw [h2]; exact h3.trans (List.sublist_append_left r q)
  · intro hh; rw [h2, h4 hh]; exact List.prefix_append _ _

/-- C31: `pop` fails exactly when the queue is empty at that point of the run. -/
theorem C31_pop_fails_iff_empty (q0 : List V) (s : QSt V) (h : QReach q0 s) (pre post : List (Nat × QEv V)) (t : Nat) (e : QEv V)
    (hl : s.log = pre ++ (t, e) :: post) :
    ∃ q, replay q0 pre = some q ∧ (e = .popNone → q = []) ∧ (∀ v, e = .popSome v → q.head? = some v) := by
  obtain ⟨q, h1, _⟩ := C31_linearizable q0 s h
  rw [hl] at h1
  simp only [replay, List.foldlM_append] at h1
  cases hq : List.foldlM (fun q e => seqStep q e.2) q0 pre with
  | none => rw [hq] at h1; simp at h1
  | some q1 =>
    rw [hq] at h1
    simp at h1
    refine ⟨q1, hq, ?_, ?_⟩
    · rintro rfl
      cases q1 with
      | nil => rfl
      | cons x r => simp [seqStep] at h1
    · rintro v rfl
      cases q1 with
      | nil => simp [seqStep] at h1
      | cons x r =>
        by_cases hx : x = v
        · simp [hx]
        · simp [seqStep, hx] at h1

/-- Two pushes by different threads and a pop: a reachable, non-trivial run. -/
example : ∃ s : QSt Int, QReach [] s ∧ s.log = [(0, .push 5), (1, .popSome 5)] := by
  have r0 := QReach.init (V := Int) (q0 := [])
  have r1 := QReach.step _ 0 _ r0 (.callPush _ 0 5 rfl)
  have r2 := QReach.step _ 1 _ r1 (.callPop _ 1 rfl)
  have r3 := QReach.step _ 0 _ r2 (.lockPush _ 0 5 rfl rfl)
  have r4 := QReach.step _ 0 _ r3 (.push _ 0 5 rfl)
  have r5 := QReach.step _ 0 _ r4 (.retPush _ 0 5 rfl)
  have r6 := QReach.step _ 1 _ r5 (.lockPop _ 1 rfl rfl)
  have r7 := QReach.step _ 1 _ r6 (.testNonempty _ 1 rfl (by simp [QSt.init]))
  have r8 := QReach.step _ 1 _ r7 (.front _ 1 5 rfl rfl)
  have r9 := QReach.step _ 1 _ r8 (.erase _ 1 5 rfl)
  have r10 := QReach.step _ 1 _ r9 (.retPop _ 1 5 rfl)
  exact ⟨_, r10, rfl⟩

/-- C31 (finding): `size()` and `empty()` (ConcurrentQueue.h:32-33) read the queue without taking the
lock: there are reachable states in which one thread is about to modify the queue inside its critical
section while another, outside any critical section, is free to read it, i.e. a data race. -/
theorem C31_bug_unlocked_empty : ∃ s : QSt Int, QReach [] s ∧ ∃ t u v, t ≠ u ∧ s.pc t = .inPush v ∧ s.owner = some t ∧ s.pc u = .idle := by
  have r0 := QReach.init (V := Int) (q0 := [])
  have r1 := QReach.step _ 0 _ r0 (.callPush _ 0 5 rfl)
  have r2 := QReach.step _ 0 _ r1 (.lockPush _ 0 5 rfl rfl)
  exact ⟨_, r2, 0, 1, 5, by decide, rfl, rfl, rfl⟩

end Fdapde.Threads
