import Verif.Threads.FairSpec
import Verif.Threads.PropsPool
/-!
# What happens eventually (C121)
-/
namespace Fdapde.Threads
set_option linter.unusedSectionVars false
variable {n m : Nat}

theorem descent (f : Nat → Nat) (k : Nat) (hm : ∀ j ≥ k, f (j + 1) ≤ f j) (hs : ∀ j ≥ k, ∃ j' ≥ j, f (j' + 1) < f j') : False := by
  have mono : ∀ d j, j ≥ k → f (j + d) ≤ f j := by
    intro d
    induction d with
    | zero => intro j _; exact le_rfl
    | succ d ih => intro j hj; exact le_trans (hm (j + d) (by omega)) (ih j hj)
  have key : ∀ v j, j ≥ k → f j ≤ v → False := by
    intro v
    induction v with
    | zero =>
        intro j hj h
        obtain ⟨j', h1, h2⟩ := hs j hj
        have := mono (j' - j) j hj
        rw [Nat.add_sub_cancel' h1] at this
        omega
    | succ v ih =>
        intro j hj h
        obtain ⟨j', h1, h2⟩ := hs j hj
        have := mono (j' - j) j hj
        rw [Nat.add_sub_cancel' h1] at this
        exact ih (j' + 1) (by omega) (by omega)
  exact key (f k) k le_rfl le_rfl

/-- A quantity that never grows is constant from some time on. -/
theorem settles (f : Nat → Nat) (k : Nat) (hm : ∀ j ≥ k, f (j + 1) ≤ f j) : ∃ k' ≥ k, ∀ j ≥ k', f (j + 1) = f j := by
  by_contra h
  push Not at h
  refine descent f k hm fun j hj => ?_
  obtain ⟨j', h1, h2⟩ := h j hj
  exact ⟨j', h1, lt_of_le_of_ne (hm j' (by omega)) h2⟩

theorem PRun.cases (r : PRun n m) (k : Nat) : (r.act k = none ∧ r.st (k + 1) = r.st k) ∨
    ∃ a, r.act k = some a ∧ step n m (r.st k) a = some (r.st (k + 1)) := by
  have := r.next k
  cases h : r.act k with
  | none => rw [h] at this; exact Or.inl ⟨rfl, this⟩
  | some a => rw [h] at this; exact Or.inr ⟨a, rfl, this⟩

theorem PRun.reach (r : PRun n m) : ∀ k, PReach n m (r.st k) := by
  intro k
  induction k with
  | zero => rw [r.start]; exact .init
  | succ k ih =>
      rcases r.cases k with ⟨_, h⟩ | ⟨a, _, h⟩
      · rw [h]; exact ih
      · exact .step _ a _ ih h

/-- A step of a run, as a relation. -/
theorem PRun.pstep (r : PRun n m) (k : Nat) (P : PSt → PSt → Prop) (refl : ∀ s, P s s)
    (h : ∀ a, r.act k = some a → PStep n m (r.st k) a (r.st (k + 1)) → P (r.st k) (r.st (k + 1))) : P (r.st k) (r.st (k + 1)) := by
  rcases r.cases k with ⟨_, e⟩ | ⟨a, ha, e⟩
  · rw [e]; exact refl _
  · exact h a ha (step_PStep e)

/-- Steps of other threads leave a worker where it is, unless it sleeps. -/
theorem worker_still {s s' : PSt} {a : Act} (h : PStep n m s a s') (i : Nat) (ha : ¬ byWorker i a) (hw : s.w i ≠ .asleep) :
    s'.w i = s.w i := by
  cases h
  case notifyAll c hc h => simp [hw]
  all_goals
    first
    | rfl
    | (simp only [upd]; split_ifs with e <;> simp_all [byWorker]; done)

/-- The client is at a point where only its own next step moves it. -/
def C.own : C → Prop
  | .idle => False
  | .syncSleep _ _ => False
  | .syncRet _ _ _ => False
  | _ => True

theorem client_still {s s' : PSt} {a : Act} (h : PStep n m s a s') (c : Nat) (ha : ¬ byClient c a) (hc : (s.c c).own) :
    s'.c c = s.c c := by
  cases h
  all_goals
    first
    | rfl
    | (simp only [upd]; split_ifs with e <;> simp_all [byClient, C.own]; done)

theorem exited_kill {s : PSt} (h : PReach n m s) (i : Nat) (hw : s.w i = .exited) : s.kill = true := by
  induction h with
  | init => simp [PSt.init] at hw
  | step s a s' _ hs ih =>
      have hp := step_PStep hs
      cases hp
      case exit j hj h hk => exact hk
      case drop j t hj h hk => exact hk
      case kill => rfl
      case notifyAll c hc h =>
        refine ih ?_
        simp only at hw
        split_ifs at hw
        exact hw
      all_goals
        refine ih ?_
        first
        | exact hw
        | (simp only [upd] at hw; split_ifs at hw with e <;> simp_all; done)

/-- Position of a client between locking `sync_mutex_` and releasing it: steps left. -/
def C.left (n : Nat) : C → Nat
  | .syncWant _ _ => n + 3
  | .syncQ _ _ => n + 2
  | .syncW _ _ i _ => n + 1 - i
  | _ => 0

theorem holder_enabled {s : PSt} (h : PReach n m s) (c : Nat) (ho : s.syncOwner = some c) : (step n m s (.syncStep c)).isSome := by
  obtain ⟨hd, h1⟩ := (ownerOk h).1 c ho
  rcases h1 with ⟨S, B, h1⟩ | ⟨S, B, j, seen, h1⟩
  · simp only [step, syncStepC, hd, h1, if_true]; split_ifs <;> rfl
  · simp only [step, syncStepC, hd, h1, if_true]; split_ifs <;> rfl

theorem holder_step {s s' : PSt} {a : Act} (hr : PReach n m s) (h : PStep n m s a s') (c : Nat) (ho : s.syncOwner = some c)
    (ho' : s'.syncOwner ≠ none) : s'.syncOwner = some c ∧ (s'.c c).left n ≤ (s.c c).left n ∧
      (byClient c a → (s'.c c).left n < (s.c c).left n) := by
  obtain ⟨hd, h1⟩ := (ownerOk hr).1 c ho
  have hw : ∀ S B i seen, s.c c = .syncW S B i seen → i ≤ n := by
    intro S B i seen e
    have := hr.cOk c
    rw [e] at this
    exact this.2.2.1
  have hown : (s.c c).own := by rcases h1 with ⟨S, B, h1⟩ | ⟨S, B, j, seen, h1⟩ <;> rw [h1] <;> trivial
  by_cases hb : byClient c a
  · have : a = .syncStep c := by
      rcases hb with ⟨o, rfl⟩ | rfl | rfl
      · cases h <;> rcases h1 with ⟨S, B, h1⟩ | ⟨S, B, j, seen, h1⟩ <;> simp_all
      · rfl
      · cases h <;> rcases h1 with ⟨S, B, h1⟩ | ⟨S, B, j, seen, h1⟩ <;> simp_all
    subst this
    cases h
    case syncLock S B hn hc h => rw [hn] at ho; cases ho
    case syncEmpty S B hq hc h => simp [upd_self, h, C.left, ho]
    case syncNonempty S B hc h hq => exact absurd rfl ho'
    case syncBusy S B i seen hc h hi hf => exact absurd rfl ho'
    case syncIdle S B i seen hi hf hc h =>
      simp only [upd_self, h, C.left]
      exact ⟨ho, by omega, fun _ => by omega⟩
    case syncEnd S B i seen hc h hi => exact absurd rfl ho'
  · rw [client_still h c hb hown]
    refine ⟨?_, le_rfl, fun h => absurd h hb⟩
    cases h
    case syncLock d S B hc h hn => rw [hn] at ho; cases ho
    case syncNonempty => exact absurd rfl ho'
    case syncBusy => exact absurd rfl ho'
    case syncEnd => exact absurd rfl ho'
    all_goals exact ho

/-- Whoever holds `sync_mutex_` releases it. -/
theorem released {r : PRun n m} (hf : Fair r) (k : Nat) : ∃ k' ≥ k, (r.st k').syncOwner = none := by
  by_contra hne
  push Not at hne
  obtain ⟨c, hc⟩ := Option.ne_none_iff_exists'.1 (hne k le_rfl)
  have hown : ∀ j ≥ k, (r.st j).syncOwner = some c := by
    intro j hj
    induction j, hj using Nat.le_induction with
    | base => exact hc
    | succ j hj ih =>
        rcases r.cases j with ⟨_, e⟩ | ⟨a, _, e⟩
        · rw [e]; exact ih
        · exact (holder_step (r.reach j) (step_PStep e) c ih (hne (j + 1) (by omega))).1
  have hen : ∀ k0, ∃ k' ≥ k0, ∃ a, byClient c a ∧ (step n m (r.st k') a).isSome := fun k0 =>
    ⟨max k k0, le_max_right _ _, .syncStep c, Or.inr (Or.inl rfl), holder_enabled (r.reach _) c (hown _ (le_max_left _ _))⟩
  refine descent (fun j => ((r.st j).c c).left n) k (fun j hj => ?_) (fun j hj => ?_)
  · rcases r.cases j with ⟨_, e⟩ | ⟨a, _, e⟩
    · simp only [e]; exact le_rfl
    · exact (holder_step (r.reach j) (step_PStep e) c (hown j hj) (hne (j + 1) (by omega))).2.1
  · obtain ⟨j', h1, a, h2, h3⟩ := hf.client c hen j
    refine ⟨j', h1, ?_⟩
    rcases r.cases j' with ⟨e, _⟩ | ⟨a', ha, e⟩
    · rw [e] at h3; cases h3
    · rw [ha] at h3; cases h3
      exact (holder_step (r.reach j') (step_PStep e) c (hown j' (by omega)) (hne (j' + 1) (by omega))).2.2 h2

/-- A worker which is not asleep and has not exited makes its next step. -/
theorem worker_moves {r : PRun n m} (hf : Fair r) (k i : Nat) (hi : i < n) (ha : (r.st k).w i ≠ .asleep) (he : (r.st k).w i ≠ .exited) :
    ∃ k' ≥ k, (r.st k').w i = (r.st k).w i ∧ ∃ a, byWorker i a ∧ r.act k' = some a := by
  by_contra hne
  push Not at hne
  have hst : ∀ j ≥ k, (r.st j).w i = (r.st k).w i := by
    intro j hj
    induction j, hj using Nat.le_induction with
    | base => rfl
    | succ j hj ih =>
        rcases r.cases j with ⟨_, e⟩ | ⟨a, h, e⟩
        · rw [e]; exact ih
        · rw [worker_still (step_PStep e) i (fun hb => hne j hj ih a hb h) (by rw [ih]; exact ha), ih]
  have hen : ∀ k0, ∃ k' ≥ k0, ∃ a, byWorker i a ∧ (step n m (r.st k') a).isSome := by
    intro k0
    obtain ⟨k1, h1, ho⟩ := released hf (max k k0)
    have hw := hst k1 (le_trans (le_max_left _ _) h1)
    refine ⟨k1, le_trans (le_max_right _ _) h1, ?_⟩
    cases hx : (r.st k).w i with
    | asleep => exact absurd hx ha
    | exited => exact absurd hx he
    | ntf =>
        rw [hx] at hw
        by_cases hsl : ∀ d < m, ¬ ((r.st k1).c d).isSleep
        · exact ⟨.ntf i none, Or.inr ⟨_, rfl⟩, by simp [step, hi, hw, ho]; simpa using hsl⟩
        · push Not at hsl
          obtain ⟨d, hd, hs⟩ := hsl
          exact ⟨.ntf i (some d), Or.inr ⟨_, rfl⟩, by simp [step, hi, hw, ho, hd, hs]⟩
    | check =>
        rw [hx] at hw
        refine ⟨.work i, Or.inl rfl, ?_⟩
        simp only [step, hi, if_true, workStep, hw]
        split_ifs
        · rfl
        · cases (r.st k1).queue <;> rfl
    | got t =>
        rw [hx] at hw
        refine ⟨.work i, Or.inl rfl, ?_⟩
        simp only [step, hi, if_true, workStep, hw]
        split_ifs <;> rfl
    | pre t => rw [hx] at hw; exact ⟨.work i, Or.inl rfl, by simp [step, workStep, hi, hw]⟩
    | busy t => rw [hx] at hw; exact ⟨.work i, Or.inl rfl, by simp [step, workStep, hi, hw]⟩
    | run t => rw [hx] at hw; exact ⟨.work i, Or.inl rfl, by simp [step, workStep, hi, hw]⟩
    | fin => rw [hx] at hw; exact ⟨.work i, Or.inl rfl, by simp [step, workStep, hi, hw]⟩
    | chk => rw [hx] at hw; exact ⟨.work i, Or.inl rfl, by simp [step, workStep, hi, hw]⟩
  obtain ⟨k', h1, a, h2, h3⟩ := hf.worker i hen k
  exact hne k' h1 (hst k' h1) a h2 h3

/-- A client which can make its next step from now on makes it. -/
theorem client_moves {r : PRun n m} (hf : Fair r) (k c : Nat) (ho : ((r.st k).c c).own)
    (hen : ∀ j ≥ k, (r.st j).c c = (r.st k).c c → ∃ k' ≥ j, (r.st k').c c ≠ (r.st k).c c ∨ ∃ a, byClient c a ∧ (step n m (r.st k') a).isSome) :
    ∃ k' ≥ k, (r.st k').c c = (r.st k).c c ∧ ∃ a, byClient c a ∧ r.act k' = some a := by
  by_contra hne
  push Not at hne
  have hst : ∀ j ≥ k, (r.st j).c c = (r.st k).c c := by
    intro j hj
    induction j, hj using Nat.le_induction with
    | base => rfl
    | succ j hj ih =>
        rcases r.cases j with ⟨_, e⟩ | ⟨a, h, e⟩
        · rw [e]; exact ih
        · rw [client_still (step_PStep e) c (fun hb => hne j hj ih a hb h) (by rw [ih]; exact ho), ih]
  have hen' : ∀ k0, ∃ k' ≥ k0, ∃ a, byClient c a ∧ (step n m (r.st k') a).isSome := by
    intro k0
    obtain ⟨k', h1, h2⟩ := hen (max k k0) (le_max_left _ _) (hst _ (le_max_left _ _))
    have hk : k ≤ k' := le_trans (le_max_left _ _) h1
    exact ⟨k', le_trans (le_max_right _ _) h1, h2.resolve_left fun h => h (hst k' hk)⟩
  obtain ⟨k', h1, a, h2, h3⟩ := hf.client c hen' k
  exact hne k' h1 (hst k' h1) a h2 h3

/-- Steps of a worker until it looks at the queue. -/
def W.toCheck : W → Nat
  | .ntf => 1 | .chk => 2 | .fin => 3 | .run _ => 4 | .busy _ => 5 | .pre _ => 6 | .got _ => 7 | _ => 0

theorem counts_mono {s s' : PSt} {a : Act} (h : PStep n m s a s') :
    s.taken.length ≤ s'.taken.length ∧ s.next ≤ s'.next ∧ (∀ t ∈ s.taken, t ∈ s'.taken) := by
  cases h <;> simp
  intro t ht
  exact Or.inl ht

theorem PRun.counts_mono (r : PRun n m) (k : Nat) : ∀ j ≥ k, (r.st k).taken.length ≤ (r.st j).taken.length ∧ (r.st k).next ≤ (r.st j).next := by
  intro j hj
  induction j, hj using Nat.le_induction with
  | base => exact ⟨le_rfl, le_rfl⟩
  | succ j hj ih =>
      rcases r.cases j with ⟨_, e⟩ | ⟨a, _, e⟩
      · rw [e]; exact ih
      · have := Threads.counts_mono (step_PStep e)
        exact ⟨le_trans ih.1 this.1, le_trans ih.2 this.2.1⟩

theorem own_step {s s' : PSt} {a : Act} (h : PStep n m s a s') (i : Nat) (ha : byWorker i a) (hk : s.kill = false) (hq : s.queue ≠ [])
    (ht : s'.taken.length = s.taken.length) : s'.w i ≠ .asleep ∧ (s'.w i).toCheck < (s.w i).toCheck := by
  cases h
  case pop j t q hj hw hk' hq' => simp at ht
  all_goals
    first
    | (simp_all [byWorker, upd, W.toCheck]; done)
    | (exfalso; simp_all [byWorker]; done)

theorem sending_enabled {s : PSt} (c t : Nat) (hc : c < m) (h : s.c c = .sending t) : ∃ a, byClient c a ∧ (step n m s a).isSome := by
  by_cases hw : ∀ i < n, s.w i ≠ .asleep
  · exact ⟨.notify c none, Or.inl ⟨_, rfl⟩, by simp only [step, hc, h, if_true]; rw [if_pos hw]; rfl⟩
  · push Not at hw
    obtain ⟨i, hi, hw⟩ := hw
    exact ⟨.notify c (some i), Or.inl ⟨_, rfl⟩, by simp [step, hc, h, hi, hw]⟩

/-- Some worker is awake at some later time if a task waits. -/
theorem some_awake {r : PRun n m} (hf : Fair r) (hn : 0 < n) (k : Nat) (hq : (r.st k).queue ≠ []) :
    ∃ k' ≥ k, ∃ i < n, (r.st k').w i ≠ .asleep := by
  rcases no_lost_wakeup hn (r.reach k) hq with h | ⟨c, hc, t, h⟩
  · exact ⟨k, le_rfl, h⟩
  · obtain ⟨k', h1, h2, a, h3, h4⟩ := client_moves hf k c (by rw [h]; trivial)
      (fun j _ e => ⟨j, le_rfl, Or.inr (sending_enabled c t hc (by rw [e, h]))⟩)
    rw [h] at h2
    rcases r.cases k' with ⟨e, _⟩ | ⟨a', ha, e⟩
    · rw [e] at h4; cases h4
    · rw [ha] at h4; cases h4
      have hp := step_PStep e
      refine ⟨k' + 1, by omega, ?_⟩
      generalize r.st (k' + 1) = s' at hp ⊢
      rcases h3 with ⟨o, rfl⟩ | rfl | rfl
      · cases hp
        case notifySome t' i hi hw hc' h' => exact ⟨i, hi, by simp [upd_self]⟩
        case notifyNone t' hw hc' h' => exact ⟨0, hn, hw 0 hn⟩
      · cases hp <;> simp_all
      · cases hp <;> simp_all

theorem taken_grows {r : PRun n m} (hf : Fair r) (hn : 0 < n) (hk : ∀ j, (r.st j).kill = false) (k : Nat) (hq : (r.st k).queue ≠ []) :
    ∃ k' ≥ k, (r.st k).taken.length < (r.st k').taken.length := by
  by_contra hne
  push Not at hne
  have heq : ∀ j ≥ k, (r.st j).taken.length = (r.st k).taken.length := fun j hj => le_antisymm (hne j hj) (r.counts_mono k j hj).1
  have hq' : ∀ j ≥ k, (r.st j).queue ≠ [] := by
    intro j hj e
    have h1 := congrArg List.length (r.reach j).inv.order
    have h2 := congrArg List.length (r.reach k).inv.order
    have h3 := List.length_pos_iff.mpr hq
    have h4 := (r.counts_mono k j hj).2
    rw [e] at h1
    simp only [List.length_append, List.length_range, List.length_nil] at h1 h2
    have := heq j hj
    omega
  obtain ⟨k1, hk1, i, hi, hw⟩ := some_awake hf hn k hq
  have haw : ∀ j ≥ k1, (r.st j).w i ≠ .asleep := by
    intro j hj
    induction j, hj using Nat.le_induction with
    | base => exact hw
    | succ j hj ih =>
        rcases r.cases j with ⟨_, e⟩ | ⟨a, _, e⟩
        · rw [e]; exact ih
        · by_cases hb : byWorker i a
          · exact (own_step (step_PStep e) i hb (hk j) (hq' j (by omega)) (by rw [heq j (by omega), heq (j + 1) (by omega)])).1
          · rw [worker_still (step_PStep e) i hb ih]; exact ih
  have hex : ∀ j, (r.st j).w i ≠ .exited := fun j e => by
    have := exited_kill (r.reach j) i e
    rw [hk j] at this; cases this
  refine descent (fun j => ((r.st j).w i).toCheck) k1 (fun j hj => ?_) (fun j hj => ?_)
  · rcases r.cases j with ⟨_, e⟩ | ⟨a, _, e⟩
    · simp only [e]; exact le_rfl
    · by_cases hb : byWorker i a
      · exact (own_step (step_PStep e) i hb (hk j) (hq' j (by omega)) (by rw [heq j (by omega), heq (j + 1) (by omega)])).2.le
      · simp only [worker_still (step_PStep e) i hb (haw j hj)]; exact le_rfl
  · obtain ⟨j', h1, _, a, h3, h4⟩ := worker_moves hf j i hi (haw j hj) (hex j)
    refine ⟨j', h1, ?_⟩
    rcases r.cases j' with ⟨e, _⟩ | ⟨a', ha, e⟩
    · rw [e] at h4; cases h4
    · rw [ha] at h4; cases h4
      exact (own_step (step_PStep e) i h3 (hk j') (hq' j' (by omega)) (by rw [heq j' (by omega), heq (j' + 1) (by omega)])).2

theorem mem_taken_iff {s : PSt} (h : PReach n m s) (t : Nat) : t ∈ s.taken ↔ t < s.taken.length := by
  have e : s.taken = List.range s.taken.length := by
    have h1 := h.inv.order
    have h2 := congrArg (List.take s.taken.length) h1
    rw [List.take_left', List.take_range] at h2
    · have h3 := congrArg List.length h1
      simp only [List.length_append, List.length_range] at h3
      rw [Nat.min_eq_left (by omega)] at h2
      exact h2
    · rfl
  constructor
  · intro ht; rw [e] at ht; simpa using ht
  · intro ht; rw [e]; simpa using ht

theorem eventually_taken {r : PRun n m} (hf : Fair r) (hn : 0 < n) (hk : ∀ j, (r.st j).kill = false) (t : Nat) :
    ∀ k, t < (r.st k).next → ∃ k' ≥ k, t ∈ (r.st k').taken := by
  have key : ∀ d k, t < (r.st k).next → t + 1 - (r.st k).taken.length ≤ d → ∃ k' ≥ k, t ∈ (r.st k').taken := by
    intro d
    induction d with
    | zero =>
        intro k _ h
        exact ⟨k, le_rfl, (mem_taken_iff (r.reach k) t).2 (by omega)⟩
    | succ d ih =>
        intro k ht h
        by_cases hd : t ∈ (r.st k).taken
        · exact ⟨k, le_rfl, hd⟩
        · have hq : (r.st k).queue ≠ [] := by
            intro e
            have h1 := (r.reach k).inv.order
            rw [e, List.append_nil] at h1
            exact hd (by rw [h1]; simpa using ht)
          obtain ⟨k1, h1, h2⟩ := taken_grows hf hn hk k hq
          obtain ⟨k2, h3, h4⟩ := ih k1 (lt_of_lt_of_le ht (r.counts_mono k k1 h1).2) (by omega)
          exact ⟨k2, by omega, h4⟩
  intro k ht
  exact key _ k ht le_rfl

/-- The next step of a worker inside of a task. -/
theorem own_next {r : PRun n m} (hf : Fair r) (k i : Nat) (hi : i < n) (x y : W) (hx : (r.st k).w i = x) (ha : x ≠ .asleep) (he : x ≠ .exited)
    (h : ∀ j a, byWorker i a → (r.st j).w i = x → PStep n m (r.st j) a (r.st (j + 1)) → (r.st (j + 1)).w i = y) :
    ∃ k' ≥ k, (r.st k').w i = y ∧ ∃ j a, k' = j + 1 ∧ (r.st j).w i = x ∧ byWorker i a ∧ PStep n m (r.st j) a (r.st (j + 1)) := by
  obtain ⟨j, h1, h2, a, h3, h4⟩ := worker_moves hf k i hi (by rw [hx]; exact ha) (by rw [hx]; exact he)
  rcases r.cases j with ⟨e, _⟩ | ⟨a', ha, e⟩
  · rw [e] at h4; cases h4
  · rw [ha] at h4; cases h4
    have hp := step_PStep e
    exact ⟨j + 1, by omega, h j a h3 (by rw [h2, hx]) hp, j, a, rfl, by rw [h2, hx], h3, hp⟩

theorem run_done {r : PRun n m} (hf : Fair r) (k i t : Nat) (hi : i < n) (hx : (r.st k).w i = .run t) : ∃ k' ≥ k, t ∈ (r.st k').done := by
  obtain ⟨k', h1, _, j, a, rfl, h2, h3, h4⟩ := own_next hf k i hi (.run t) .fin hx (by simp) (by simp) (fun j a hb hw hp => by
    generalize r.st (j + 1) = s' at hp ⊢
    cases hp <;> simp_all [byWorker, upd_self])
  refine ⟨j + 1, h1, ?_⟩
  generalize r.st (j + 1) = s' at h4 ⊢
  cases h4 <;> simp_all [byWorker]

/-- **C121.** Under a fair scheduler, as long as the pool is not shut down, every task sent is eventually executed to the end, whatever
the numbers of workers (at least one) and clients and whatever else the clients do. -/
theorem C121_every_task_runs {r : PRun n m} (hf : Fair r) (hn : 0 < n) (hk : ∀ j, (r.st j).kill = false) (k t : Nat)
    (ht : t < (r.st k).next) : ∃ k' ≥ k, t ∈ (r.st k').done := by
  obtain ⟨k1, h1, h2⟩ := eventually_taken hf hn hk t k ht
  have I := (r.reach k1).inv
  have busy : ∀ k i, i < n → (r.st k).w i = .busy t → ∃ k' ≥ k, t ∈ (r.st k').done := by
    intro k i hi hw
    obtain ⟨k', g1, g2, _⟩ := own_next hf k i hi (.busy t) (.run t) hw (by simp) (by simp) (fun j a hb hw hp => by
      generalize r.st (j + 1) = s' at hp ⊢
      cases hp <;> simp_all [byWorker, upd_self])
    obtain ⟨k'', g3, g4⟩ := run_done hf k' i t hi g2
    exact ⟨k'', by omega, g4⟩
  have pre : ∀ k i, i < n → (r.st k).w i = .pre t → ∃ k' ≥ k, t ∈ (r.st k').done := by
    intro k i hi hw
    obtain ⟨k', g1, g2, _⟩ := own_next hf k i hi (.pre t) (.busy t) hw (by simp) (by simp) (fun j a hb hw hp => by
      generalize r.st (j + 1) = s' at hp ⊢
      cases hp <;> simp_all [byWorker, upd_self])
    obtain ⟨k'', g3, g4⟩ := busy k' i hi g2
    exact ⟨k'', by omega, g4⟩
  have got : ∀ k i, i < n → (r.st k).w i = .got t → ∃ k' ≥ k, t ∈ (r.st k').done := by
    intro k i hi hw
    obtain ⟨k', g1, g2, _⟩ := own_next hf k i hi (.got t) (.pre t) hw (by simp) (by simp) (fun j a hb hw hp => by
      have hkj := hk j
      generalize r.st (j + 1) = s' at hp ⊢
      cases hp <;> simp_all [byWorker, upd_self])
    obtain ⟨k'', g3, g4⟩ := pre k' i hi g2
    exact ⟨k'', by omega, g4⟩
  have fin : ∃ k' ≥ k1, t ∈ (r.st k').done := by
    rcases (I.part t).1 h2 with ⟨i, hi, hh⟩ | hh | hh
    · rcases hh with hh | hh | hh
      · exact got k1 i hi hh
      · exact pre k1 i hi hh
      · exact busy k1 i hi hh
    · rcases (I.run t).1 hh with hh | ⟨i, hi, hh⟩
      · exact ⟨k1, le_rfl, hh⟩
      · exact run_done hf k1 i t hi hh
    · rw [I.kill (hk k1)] at hh; simp at hh
  obtain ⟨k2, h3, h4⟩ := fin
  exact ⟨k2, by omega, h4⟩

/-! ### shutdown() returns -/

theorem client_lt {s : PSt} (h : PReach n m s) (c : Nat) (hc : s.c c ≠ .idle) : c < m := by
  induction h with
  | init => simp [PSt.init] at hc
  | step s a s' _ hs ih =>
      have hp := step_PStep hs
      cases hp
      all_goals
        first
        | exact ih hc
        | (simp only [upd] at hc; split_ifs at hc with e
           · subst e; assumption
           · exact ih hc)

theorem kill_stays (r : PRun n m) (k : Nat) (hk : (r.st k).kill = true) : ∀ j ≥ k, (r.st j).kill = true := by
  intro j hj
  induction j, hj using Nat.le_induction with
  | base => exact hk
  | succ j hj ih =>
      rcases r.cases j with ⟨_, e⟩ | ⟨a, _, e⟩
      · rw [e]; exact ih
      · exact (kill_evol (step_PStep e)).1 ih

theorem awake_stays (r : PRun n m) (k i : Nat) (hk : (r.st k).kill = true) (hw : (r.st k).w i ≠ .asleep) : ∀ j ≥ k, (r.st j).w i ≠ .asleep := by
  intro j hj
  induction j, hj using Nat.le_induction with
  | base => exact hw
  | succ j hj ih =>
      rcases r.cases j with ⟨_, e⟩ | ⟨a, _, e⟩
      · rw [e]; exact ih
      · exact (kill_evol (step_PStep e)).2.2 (kill_stays r k hk j hj) i ih

theorem exited_stays (r : PRun n m) (k i : Nat) (hw : (r.st k).w i = .exited) : ∀ j ≥ k, (r.st j).w i = .exited := by
  intro j hj
  induction j, hj using Nat.le_induction with
  | base => exact hw
  | succ j hj ih =>
      rcases r.cases j with ⟨_, e⟩ | ⟨a, _, e⟩
      · rw [e]; exact ih
      · exact (kill_evol (step_PStep e)).2.1 i ih

theorem worker_exits {r : PRun n m} (hf : Fair r) (k i : Nat) (hi : i < n) (hk : (r.st k).kill = true) (hw : (r.st k).w i ≠ .asleep) :
    ∃ k' ≥ k, (r.st k').w i = .exited := by
  by_contra hne
  push Not at hne
  refine descent (fun j => ((r.st j).w i).rank) k (fun j hj => ?_) (fun j hj => ?_)
  · rcases r.cases j with ⟨_, e⟩ | ⟨a, _, e⟩
    · simp only [e]; exact le_rfl
    · exact (rank_step (step_PStep e) (kill_stays r k hk j hj) i).1
  · obtain ⟨j', h1, _, a, h3, h4⟩ := worker_moves hf j i hi (awake_stays r k i hk hw j hj) (hne j hj)
    refine ⟨j', h1, ?_⟩
    rcases r.cases j' with ⟨e, _⟩ | ⟨a', ha, e⟩
    · rw [e] at h4; cases h4
    · rw [ha] at h4; cases h4
      exact (rank_step (step_PStep e) (kill_stays r k hk j' (by omega)) i).2 h3

/-- The next step of a client. -/
theorem client_next {r : PRun n m} (hf : Fair r) (k c : Nat) (x y : C) (hx : (r.st k).c c = x) (ho : x.own)
    (hen : ∀ j ≥ k, (r.st j).c c = x → ∃ k' ≥ j, (r.st k').c c ≠ x ∨ ∃ a, byClient c a ∧ (step n m (r.st k') a).isSome)
    (h : ∀ j ≥ k, ∀ a, byClient c a → (r.st j).c c = x → PStep n m (r.st j) a (r.st (j + 1)) → (r.st (j + 1)).c c = y) :
    ∃ k' ≥ k, (r.st k').c c = y := by
  obtain ⟨j, h1, h2, a, h3, h4⟩ := client_moves hf k c (by rw [hx]; exact ho) (by rw [hx]; exact hen)
  rcases r.cases j with ⟨e, _⟩ | ⟨a', ha, e⟩
  · rw [e] at h4; cases h4
  · rw [ha] at h4; cases h4
    exact ⟨j + 1, by omega, h j h1 a h3 (by rw [h2, hx]) (step_PStep e)⟩

/-- **C121.** Under a fair scheduler every call of shutdown() returns. -/
theorem C121_shutdown_returns {r : PRun n m} (hf : Fair r) (k c : Nat) (hc : ((r.st k).c c).inShutdown) :
    ∃ k' ≥ k, (r.st k').c c = .sdDone := by
  have hcm : c < m := client_lt (r.reach k) c (by intro e; rw [e] at hc; exact hc)
  have last : ∀ k i, n ≤ i → (r.st k).c c = .sdJoin i → ∃ k' ≥ k, (r.st k').c c = .sdDone := by
    intro k i hi hx
    refine client_next hf k c (.sdJoin i) .sdDone hx trivial ?_ ?_
    · intro j _ e
      exact ⟨j, le_rfl, Or.inr ⟨.sdStep c, Or.inr (Or.inr rfl), by simp [step, sdStepC, hcm, e, Nat.not_lt.mpr hi]⟩⟩
    · intro j _ a hb e hp
      generalize r.st (j + 1) = s' at hp ⊢
      rcases hb with ⟨o, rfl⟩ | rfl | rfl
      · cases hp <;> simp_all
      · cases hp <;> simp_all
      · cases hp
        case joinEnd => simp [upd_self]
        case notifyAll h => rw [e] at h; cases h
        case join i' h1 h2 h3 h4 => rw [e] at h4; cases h4; omega
  have join : ∀ d k i, n - i ≤ d → (r.st k).c c = .sdJoin i → ∃ k' ≥ k, (r.st k').c c = .sdDone := by
    intro d
    induction d with
    | zero => intro k i hi hx; exact last k i (by omega) hx
    | succ d ih =>
        intro k i hi hx
        by_cases hin : i < n
        · have hok := (r.reach k).sdOk c
          rw [hx] at hok
          obtain ⟨k1, h1, h2⟩ := worker_exits hf k i hin hok.1 (hok.2.1 i hin)
          have nxt : ∃ k' ≥ k, (r.st k').c c = .sdJoin (i + 1) := by
            refine client_next hf k c (.sdJoin i) (.sdJoin (i + 1)) hx trivial ?_ ?_
            · intro j hj e
              refine ⟨max j k1, le_max_left _ _, ?_⟩
              by_cases hh : (r.st (max j k1)).c c = .sdJoin i
              · refine Or.inr ⟨.sdStep c, Or.inr (Or.inr rfl), ?_⟩
                simp [step, sdStepC, hcm, hh, hin, exited_stays r k1 i h2 _ (le_max_right _ _)]
              · exact Or.inl hh
            · intro j _ a hb e hp
              generalize r.st (j + 1) = s' at hp ⊢
              rcases hb with ⟨o, rfl⟩ | rfl | rfl
              · cases hp <;> simp_all
              · cases hp <;> simp_all
              · cases hp
                case joinEnd i' h3 h4 h5 => rw [e] at h5; cases h5; omega
                case notifyAll h => rw [e] at h; cases h
                case join i' h1 h2 h3 h4 => rw [e] at h4; cases h4; simp [upd_self]
          obtain ⟨k2, g1, g2⟩ := nxt
          obtain ⟨k3, g3, g4⟩ := ih k2 (i + 1) (by omega) g2
          exact ⟨k3, by omega, g4⟩
        · exact last k i (by omega) hx
  cases hx : (r.st k).c c with
  | sdJoin i => exact join (n - i) k i le_rfl hx
  | sdNotify =>
      have nxt : ∃ k' ≥ k, (r.st k').c c = .sdJoin 0 := by
        refine client_next hf k c .sdNotify (.sdJoin 0) hx trivial ?_ ?_
        · intro j _ e
          exact ⟨j, le_rfl, Or.inr ⟨.sdStep c, Or.inr (Or.inr rfl), by simp [step, sdStepC, hcm, e]⟩⟩
        · intro j _ a hb e hp
          generalize r.st (j + 1) = s' at hp ⊢
          rcases hb with ⟨o, rfl⟩ | rfl | rfl
          · cases hp <;> simp_all
          · cases hp <;> simp_all
          · cases hp
            case notifyAll h => simp [upd_self]
            case joinEnd i' h3 h4 h5 => rw [e] at h5; cases h5
            case join i' h1 h2 h3 h4 => rw [e] at h4; cases h4
      obtain ⟨k2, g1, g2⟩ := nxt
      obtain ⟨k3, g3, g4⟩ := join (n - 0) k2 0 le_rfl g2
      exact ⟨k3, by omega, g4⟩
  | _ => rw [hx] at hc; exact absurd hc id

/-! ### sync() returns -/

theorem done_mono (r : PRun n m) (k t : Nat) (h : t ∈ (r.st k).done) : ∀ j ≥ k, t ∈ (r.st j).done := by
  intro j hj
  induction j, hj using Nat.le_induction with
  | base => exact h
  | succ j hj ih =>
      rcases r.cases j with ⟨_, e⟩ | ⟨a, _, e⟩
      · rw [e]; exact ih
      · have hp := step_PStep e
        generalize r.st (j + 1) = s' at hp ⊢
        cases hp <;> simp [ih]

theorem all_done {r : PRun n m} (hf : Fair r) (hn : 0 < n) (hk : ∀ j, (r.st j).kill = false) (k : Nat) :
    ∀ d ≤ (r.st k).next, ∃ k' ≥ k, ∀ t < d, t ∈ (r.st k').done := by
  intro d
  induction d with
  | zero => intro _; exact ⟨k, le_rfl, fun t ht => absurd ht (Nat.not_lt_zero t)⟩
  | succ d ih =>
      intro hd
      obtain ⟨k1, h1, h2⟩ := ih (by omega)
      obtain ⟨k2, h3, h4⟩ := C121_every_task_runs hf hn hk k d (by omega)
      refine ⟨max k1 k2, le_trans h1 (le_max_left _ _), fun t ht => ?_⟩
      by_cases e : t = d
      · subst e; exact done_mono r k2 t h4 _ (le_max_right _ _)
      · exact done_mono r k1 t (h2 t (by omega)) _ (le_max_left _ _)

/-- The only client is inside sync(): it stays there or returns, and no task is sent. -/
theorem sync_step {s s' : PSt} {a : Act} (h : PStep n 1 s a s') (hc : (s.c 0).inSync) :
    ((s'.c 0).inSync ∨ ∃ S B seen, s'.c 0 = .syncRet S B seen) ∧ s'.next = s.next := by
  cases h
  all_goals
    first
    | exact ⟨Or.inl hc, rfl⟩
    | (have e0 : 0 = _ := (Nat.lt_one_iff.mp ‹_ < 1›).symm
       subst e0
       simp_all [upd_self, C.inSync]; done)
    | (rename_i c _ _
       have e0 : c = 0 := Nat.lt_one_iff.mp ‹c < 1›
       subst e0
       simp_all [upd_self, C.inSync]; done)

/-- Once all tasks are done the workers only go back to sleep. -/
theorem idle_step {s s' : PSt} {a : Act} (h : PStep n m s a s') (hq : s.queue = []) (i : Nat) :
    (s'.w i).toCheck ≤ (s.w i).toCheck ∧ (byWorker i a → 0 < (s.w i).toCheck → (s'.w i).toCheck < (s.w i).toCheck) := by
  cases h
  case notifyAll c hc h =>
    refine ⟨?_, by simp [byWorker]⟩
    simp only; split_ifs with e
    · rw [e]; decide
    · exact Nat.le_refl _
  all_goals
    first
    | (refine ⟨Nat.le_refl _, by simp [byWorker]⟩)
    | (simp only [upd]; split_ifs with e <;> simp_all [W.toCheck, byWorker] <;> exact fun e' => absurd e'.symm e)

theorem idle_workers {r : PRun n m} (hf : Fair r) (k : Nat) (hq : ∀ j ≥ k, (r.st j).queue = []) (d : Nat) :
    d ≤ n → ∃ k' ≥ k, ∀ j ≥ k', ∀ i < d, ((r.st j).w i).toCheck = 0 := by
  induction d with
  | zero => intro _; exact ⟨k, le_rfl, fun j _ i hi => absurd hi (Nat.not_lt_zero i)⟩
  | succ d ih =>
      intro hd
      obtain ⟨k1, h1, h2⟩ := ih (by omega)
      have hm : ∀ j ≥ k, ((r.st (j + 1)).w d).toCheck ≤ ((r.st j).w d).toCheck := by
        intro j hj
        rcases r.cases j with ⟨_, e⟩ | ⟨a, _, e⟩
        · rw [e]
        · exact (idle_step (step_PStep e) (hq j hj) d).1
      obtain ⟨k2, h3, h4⟩ := settles (fun j => ((r.st j).w d).toCheck) k1 (fun j hj => hm j (by omega))
      refine ⟨k2, by omega, fun j hj i hi => ?_⟩
      by_cases e : i = d
      · subst e
        by_contra hne
        have hpos := Nat.pos_of_ne_zero hne
        obtain ⟨j', g1, g2, a, g3, g4⟩ := worker_moves hf j i (by omega) (by intro e; rw [e] at hne; exact hne rfl)
          (by intro e; rw [e] at hne; exact hne rfl)
        have g5 := h4 j' (by omega)
        rcases r.cases j' with ⟨e, _⟩ | ⟨a', ha, e⟩
        · rw [e] at g4; cases g4
        · rw [ha] at g4; cases g4
          have := (idle_step (step_PStep e) (hq j' (by omega)) i).2 g3 (by rw [g2]; exact hpos)
          omega
      · exact h2 j (by omega) i (by omega)

/-- The client inside sync() advances when the pool is at rest. -/
theorem rest_step {s s' : PSt} {a : Act} (hr : PReach n 1 s) (h : PStep n 1 s a s') (hc : (s.c 0).inSync) (hs : ∀ S B, s.c 0 ≠ .syncSleep S B)
    (hc' : (s'.c 0).inSync) (hq : s.queue = []) (hfl : ∀ i < n, s.flag i = false) :
    (s'.c 0).left n ≤ (s.c 0).left n ∧ (byClient 0 a → (s'.c 0).left n < (s.c 0).left n) := by
  have hw : ∀ S B i seen, s.c 0 = .syncW S B i seen → i ≤ n := by
    intro S B i seen e
    have := hr.cOk 0
    rw [e] at this
    exact this.2.2.1
  have hown : (s.c 0).own := by
    cases hx : s.c 0 with
    | syncSleep S B => exact absurd hx (hs S B)
    | idle => rw [hx] at hc; exact hc
    | syncRet => rw [hx] at hc; exact hc
    | _ => trivial
  by_cases hb : byClient 0 a
  · have : a = .syncStep 0 := by
      rcases hb with ⟨o, rfl⟩ | rfl | rfl
      · cases h <;> simp_all [C.inSync]
      · rfl
      · cases h <;> simp_all [C.inSync]
    subst this
    cases h
    case syncLock S B hn hc h => simp [upd_self, h, C.left]
    case syncEmpty S B hq hc h => simp [upd_self, h, C.left]
    case syncNonempty S B hq' hc h => exact absurd hq hq'
    case syncBusy S B i seen hi hf hc h => rw [hfl i hi] at hf; cases hf
    case syncIdle S B i seen hi hf hc h =>
      simp only [upd_self, h, C.left]
      exact ⟨by omega, fun _ => by omega⟩
    case syncEnd S B i seen hc h hi => simp [upd_self, C.inSync] at hc'
  · rw [client_still h 0 hb hown]
    exact ⟨le_rfl, fun h => absurd h hb⟩

theorem kill_client {s : PSt} (h : PReach n 1 s) (hk : s.kill = true) : ¬ (s.c 0).inSync := by
  have key : s.kill = true → (s.c 0).inShutdown ∨ s.c 0 = .sdDone := by
    clear hk
    induction h with
    | init => simp [PSt.init]
    | step s a s' _ hs ih =>
        intro hk
        have hp := step_PStep hs
        cases hp
        all_goals
          first
          | exact ih hk
          | (rename_i c _ _
             have e0 : c = 0 := Nat.lt_one_iff.mp ‹c < 1›
             subst e0
             simp_all [upd_self, C.inShutdown]; done)
          | (have e0 : 0 = _ := (Nat.lt_one_iff.mp ‹_ < 1›).symm
             subst e0
             simp_all [upd_self, C.inShutdown]; done)
  intro h1
  rcases key hk with h2 | h2
  · cases hx : s.c 0 <;> rw [hx] at h1 h2 <;> first | exact h1 | exact h2
  · rw [h2] at h1; exact h1

/-- **C121.** With one client thread and a fair scheduler every call of sync() returns. -/
theorem C121_sync_returns {r : PRun n 1} (hf : Fair r) (hn : 0 < n) (k : Nat)
    (hc : ((r.st k).c 0).inSync) : ∃ k' ≥ k, ∃ S B seen, (r.st k').c 0 = .syncRet S B seen := by
  by_contra hne
  push Not at hne
  have hin : ∀ j ≥ k, ((r.st j).c 0).inSync ∧ (r.st j).next = (r.st k).next := by
    intro j hj
    induction j, hj using Nat.le_induction with
    | base => exact ⟨hc, rfl⟩
    | succ j hj ih =>
        rcases r.cases j with ⟨_, e⟩ | ⟨a, _, e⟩
        · rw [e]; exact ih
        · obtain ⟨h1, h2⟩ := sync_step (step_PStep e) ih.1
          refine ⟨h1.resolve_right ?_, h2.trans ih.2⟩
          rintro ⟨S, B, seen, h⟩
          exact hne (j + 1) (by omega) S B seen h
  have hk : ∀ j, (r.st j).kill = false := by
    intro j
    rw [← Bool.not_eq_true]
    intro hkj
    exact kill_client (r.reach (max j k)) (kill_stays r j hkj _ (le_max_left _ _)) (hin _ (le_max_right _ _)).1
  obtain ⟨k1, h1, h2⟩ := all_done hf hn hk k _ le_rfl
  have hd : ∀ j ≥ k1, ∀ t < (r.st j).next, t ∈ (r.st j).done := fun j hj t ht =>
    done_mono r k1 t (h2 t (by rw [← (hin j (by omega)).2]; exact ht)) j hj
  have hq : ∀ j ≥ k1, (r.st j).queue = [] := by
    intro j hj
    have I := (r.reach j).inv
    rw [List.eq_nil_iff_forall_not_mem]
    intro t ht
    have ht' : t < (r.st j).next := by
      have : t ∈ (r.st j).taken ++ (r.st j).queue := List.mem_append_right _ ht
      rw [I.order] at this; simpa using this
    have h3 := (I.part t).2 (Or.inr (Or.inl ((I.run t).2 (Or.inl (hd j hj t ht')))))
    exact (List.nodup_append.1 (taken_nodup I)).2.2 t h3 t ht rfl
  obtain ⟨k2, h3, h4⟩ := idle_workers hf k1 hq n le_rfl
  have hns : ∀ j ≥ k2, ∀ S B, (r.st j).c 0 ≠ .syncSleep S B := by
    intro j hj S B e
    rcases C33_single_client_not_forgotten (r.reach j) S B e (hk j) with h | ⟨i, hi, g1, g2, g3⟩
    · exact h (hq j (by omega))
    · have := h4 j hj i hi
      cases hx : (r.st j).w i <;> simp_all [W.toCheck]
  have hfl : ∀ j ≥ k2, ∀ i < n, (r.st j).flag i = false := by
    intro j hj i hi
    have h5 := h4 j hj i hi
    have h6 := ((r.reach j).inv.flag i hi).not
    rw [Bool.not_eq_true] at h6
    refine h6.2 ?_
    rintro (⟨t, e⟩ | ⟨t, e⟩ | e) <;> rw [e] at h5 <;> cases h5
  have hen : ∀ k0, ∃ k' ≥ k0, ∃ a, byClient 0 a ∧ (step n 1 (r.st k') a).isSome := by
    intro k0
    obtain ⟨k', g1, g2⟩ := released hf (max k2 k0)
    refine ⟨k', le_trans (le_max_right _ _) g1, .syncStep 0, Or.inr (Or.inl rfl), ?_⟩
    have hk' : k2 ≤ k' := le_trans (le_max_left _ _) g1
    have hs := (hin k' (by omega)).1
    simp only [step, Nat.zero_lt_one, if_true, syncStepC]
    cases hx : (r.st k').c 0 with
    | syncWant S B => simp [g2]
    | syncQ S B => simp [hq k' (by omega)]
    | syncW S B i seen =>
        dsimp only
        split_ifs <;> rfl
    | syncSleep S B => exact absurd hx (hns k' hk' S B)
    | _ => rw [hx] at hs; exact absurd hs id
  refine descent (fun j => ((r.st j).c 0).left n) k2 (fun j hj => ?_) (fun j hj => ?_)
  · rcases r.cases j with ⟨_, e⟩ | ⟨a, _, e⟩
    · simp only [e]; exact le_rfl
    · exact (rest_step (r.reach j) (step_PStep e) (hin j (by omega)).1 (hns j hj) (hin (j + 1) (by omega)).1 (hq j (by omega)) (hfl j hj)).1
  · obtain ⟨j', g1, a, g2, g3⟩ := hf.client 0 hen j
    refine ⟨j', g1, ?_⟩
    rcases r.cases j' with ⟨e, _⟩ | ⟨a', ha, e⟩
    · rw [e] at g3; cases g3
    · rw [ha] at g3; cases g3
      exact (rest_step (r.reach j') (step_PStep e) (hin j' (by omega)).1 (hns j' (by omega)) (hin (j' + 1) (by omega)).1
        (hq j' (by omega)) (hfl j' (by omega))).2 g2

/-! ### Runs which come to rest -/

/-- The states along a schedule, the last one repeated for ever. -/
def trace (n m : Nat) : PSt → List Act → Nat → PSt
  | s, [], _ => s
  | s, _ :: _, 0 => s
  | s, a :: l, k + 1 => trace n m ((step n m s a).getD s) l k

theorem trace_zero (s : PSt) (l : List Act) : trace n m s l 0 = s := by cases l <;> rfl

theorem trace_next : ∀ (l : List Act) (s s' : PSt), runActs n m s l = some s' → ∀ k,
    match l[k]? with
    | some a => step n m (trace n m s l k) a = some (trace n m s l (k + 1))
    | none => trace n m s l (k + 1) = trace n m s l k := by
  intro l
  induction l with
  | nil => intro s s' _ k; simp [trace]
  | cons a l ih =>
      intro s s' h k
      simp only [runActs, Option.bind_eq_some_iff] at h
      obtain ⟨s1, h1, h2⟩ := h
      cases k with
      | zero => simp [trace, h1, trace_zero]
      | succ k => simpa [trace, h1] using ih s1 s' h2 k

theorem trace_end : ∀ (l : List Act) (s s' : PSt), runActs n m s l = some s' → ∀ k ≥ l.length, trace n m s l k = s' := by
  intro l
  induction l with
  | nil => intro s s' h k _; simpa [trace, runActs] using h
  | cons a l ih =>
      intro s s' h k hk
      simp only [runActs, Option.bind_eq_some_iff] at h
      obtain ⟨s1, h1, h2⟩ := h
      cases k with
      | zero => simp at hk
      | succ k => simpa [trace, h1] using ih s1 s' h2 k (by simpa using hk)

/-- The run that follows a schedule and then does nothing. -/
def PRun.ofList (l : List Act) (s : PSt) (h : runActs n m PSt.init l = some s) : PRun n m :=
  ⟨trace n m PSt.init l, fun k => l[k]?, trace_zero _ _, trace_next l _ s h⟩

/-- A run that ends with all workers asleep or exited and no client in the middle of a call that could go on is fair. -/
theorem fair_ofList (l : List Act) (s : PSt) (h : runActs n m PSt.init l = some s) (hw : ∀ i < n, s.w i = .asleep ∨ s.w i = .exited)
    (hc : ∀ c < m, ¬ (s.c c).own ∨ s.c c = .sdDone) : Fair (PRun.ofList l s h) := by
  have hend : ∀ k ≥ l.length, (PRun.ofList l s h).st k = s := trace_end l _ s h
  constructor
  · intro i hen
    obtain ⟨k', h1, a, h2, h3⟩ := hen l.length
    rw [hend k' h1] at h3
    exfalso
    obtain ⟨s', hs⟩ := Option.isSome_iff_exists.1 h3
    have hp := step_PStep hs
    rcases h2 with rfl | ⟨o, rfl⟩
    · cases hp <;> rcases hw i ‹_› with e | e <;> simp_all
    · cases hp <;> rcases hw i ‹_› with e | e <;> simp_all
  · intro c hen
    obtain ⟨k', h1, a, h2, h3⟩ := hen l.length
    rw [hend k' h1] at h3
    exfalso
    obtain ⟨s', hs⟩ := Option.isSome_iff_exists.1 h3
    have hp := step_PStep hs
    rcases h2 with ⟨o, rfl⟩ | rfl | rfl
    · cases hp <;> rcases hc c ‹_› with e | e <;> simp_all [C.own]
    · cases hp <;> rcases hc c ‹_› with e | e <;> simp_all [C.own]
    · cases hp <;> rcases hc c ‹_› with e | e <;> simp_all [C.own]

/-- A fair run in which a task is sent and sync() is called, as in `C121_every_task_runs` and `C121_sync_returns`. -/
example : ∃ r : PRun 1 1, Fair r ∧ (r.st 1).next = 1 ∧ (r.st 7).c 0 = .syncWant 1 [0] ∧ (∀ j, (r.st j).kill = false) := by
  have hs : (runActs 1 1 PSt.init (demoSync ++ [.work 0])).isSome := by decide
  obtain ⟨s, hs⟩ := Option.isSome_iff_exists.1 hs
  have e : (runActs 1 1 PSt.init (demoSync ++ [.work 0])).map (fun s => (s.c 0, s.w 0, s.kill)) = some (.syncRet 1 [0] [], .asleep, false) := by decide
  rw [hs] at e; simp only [Option.map_some, Option.some.injEq, Prod.mk.injEq] at e
  refine ⟨PRun.ofList _ s hs, fair_ofList _ s hs (fun i hi => ?_) (fun c hc => ?_), ?_, ?_, fun j => ?_⟩
  · obtain rfl : i = 0 := by omega
    exact Or.inl e.2.1
  · obtain rfl : c = 0 := by omega
    rw [e.1]; exact Or.inl id
  · show (trace 1 1 PSt.init (demoSync ++ [.work 0]) 1).next = 1; decide
  · show (trace 1 1 PSt.init (demoSync ++ [.work 0]) 7).c 0 = .syncWant 1 [0]; decide
  · rw [← Bool.not_eq_true]
    intro hk
    have h1 := kill_stays _ j hk (max j 19) (le_max_left _ _)
    have h2 : (PRun.ofList _ s hs).st (max j 19) = s := trace_end _ _ s hs _ (le_max_right _ _)
    rw [h2, e.2.2] at h1
    cases h1

/-- A fair run in which shutdown() is called, as in `C121_shutdown_returns`. -/
example : ∃ r : PRun 1 1, Fair r ∧ (r.st 15).c 0 = .sdNotify ∧ (r.st 19).c 0 = .sdDone := by
  have hs : (runActs 1 1 PSt.init demoShutdown).isSome := by decide
  obtain ⟨s, hs⟩ := Option.isSome_iff_exists.1 hs
  have e : (runActs 1 1 PSt.init demoShutdown).map (fun s => (s.c 0, s.w 0)) = some (.sdDone, .exited) := by decide
  rw [hs] at e; simp only [Option.map_some, Option.some.injEq, Prod.mk.injEq] at e
  refine ⟨PRun.ofList _ s hs, fair_ofList _ s hs (fun i hi => ?_) (fun c hc => ?_), ?_, ?_⟩
  · obtain rfl : i = 0 := by omega
    exact Or.inr e.2
  · obtain rfl : c = 0 := by omega
    exact Or.inr e.1
  · show (trace 1 1 PSt.init demoShutdown 15).c 0 = .sdNotify; decide
  · show (trace 1 1 PSt.init demoShutdown 19).c 0 = .sdDone; decide

/-- Two clients: `sync()` need not return even if the scheduler is fair and the pool is never shut down. In this fair run both clients
wait in `sync()`, the worker notifies one of them, and the other one waits for ever although its task is done and the pool is idle. -/
theorem C121_bug_two_syncs : ∃ r : PRun 1 2, Fair r ∧ (∀ j, (r.st j).kill = false) ∧ ∃ k, (r.st k).done = [0] ∧ (r.st k).next = 1 ∧
    ∀ j ≥ k, ((r.st j).c 1).inSync := by
  let l : List Act := [.send 0, .notify 0 none, .work 0, .work 0, .work 0, .callSync 0, .syncStep 0, .syncStep 0, .syncStep 0,
    .callSync 1, .syncStep 1, .syncStep 1, .syncStep 1, .work 0, .work 0, .work 0, .work 0, .ntf 0 (some 0), .work 0,
    .syncStep 0, .syncStep 0, .syncStep 0, .syncStep 0, .ret 0]
  have hs : (runActs 1 2 PSt.init l).isSome := by decide
  obtain ⟨s, hs⟩ := Option.isSome_iff_exists.1 hs
  have e : (runActs 1 2 PSt.init l).map (fun s => (s.c 0, s.c 1, s.w 0)) = some (.idle, .syncSleep 1 [], .asleep) := by decide
  have e' : (runActs 1 2 PSt.init l).map (fun s => (s.next, s.done, s.kill)) = some (1, [0], false) := by decide
  rw [hs] at e e'; simp only [Option.map_some, Option.some.injEq, Prod.mk.injEq] at e e'
  have hend : ∀ j ≥ 24, (PRun.ofList l s hs).st j = s := trace_end l _ s hs
  refine ⟨PRun.ofList l s hs, fair_ofList l s hs (fun i hi => ?_) (fun c hc => ?_), fun j => ?_, 24, ?_, ?_, fun j hj => ?_⟩
  · obtain rfl : i = 0 := by omega
    exact Or.inl e.2.2
  · have : c = 0 ∨ c = 1 := by omega
    rcases this with rfl | rfl
    · rw [e.1]; exact Or.inl id
    · rw [e.2.1]; exact Or.inl id
  · rw [← Bool.not_eq_true]
    intro hk
    have := kill_stays _ j hk (max j 24) (le_max_left _ _)
    rw [hend _ (le_max_right _ _), e'.2.2] at this
    cases this
  · rw [hend 24 le_rfl]; exact e'.2.1
  · rw [hend 24 le_rfl]; exact e'.1
  · rw [hend j hj, e.2.1]; trivial

theorem stuck_sync {s s' : PSt} {a : Act} (h : PStep 1 2 s a s') (hw : s.w 0 = .exited) (hq : s.queue ≠ [])
    (hc : (∃ S B, s.c 1 = .syncWant S B) ∨ (∃ S B, s.c 1 = .syncQ S B) ∨ ∃ S B, s.c 1 = .syncSleep S B) :
    s'.w 0 = .exited ∧ s'.queue ≠ [] ∧
    ((∃ S B, s'.c 1 = .syncWant S B) ∨ (∃ S B, s'.c 1 = .syncQ S B) ∨ ∃ S B, s'.c 1 = .syncSleep S B) := by
  refine ⟨(kill_evol h).2.1 0 hw, ?_, ?_⟩
  · cases h
    case pop i t q hi h hk hq' =>
      obtain rfl : i = 0 := by omega
      rw [hw] at h; cases h
    case send => simp
    all_goals exact hq
  · cases h
    all_goals
      first
      | exact hc
      | (rename_i c _ _
         by_cases e1 : c = 1
         · subst e1; simp_all [upd_self]; done
         · have e2 : (1 : Nat) ≠ c := fun e => e1 e.symm
           simp only [upd_ne _ _ e2]; exact hc)
      | (simp only [upd]
         split_ifs with e1
         · subst e1; simp_all; done
         · exact hc)

/-- A client inside `sync()` when another one shuts the pool down never returns, whatever happens later, if a task is left in the queue:
the workers have exited and `sync()` waits for the queue to be empty. -/
theorem C121_bug_sync_during_shutdown : ∃ s, PReach 1 2 s ∧ s.c 0 = .sdDone ∧ (s.c 1).inSync ∧
    ∀ l s', runActs 1 2 s l = some s' → (s'.c 1).inSync := by
  let l : List Act := [.send 0, .notify 0 none, .callSync 1, .callShutdown 0, .sdStep 0, .work 0, .sdStep 0, .sdStep 0]
  have hs : (runActs 1 2 PSt.init l).isSome := by decide
  obtain ⟨s, hs⟩ := Option.isSome_iff_exists.1 hs
  have e : (runActs 1 2 PSt.init l).map (fun s => (s.c 0, s.c 1, s.w 0, s.queue)) = some (.sdDone, .syncWant 1 [], .exited, [0]) := by decide
  rw [hs] at e; simp only [Option.map_some, Option.some.injEq, Prod.mk.injEq] at e
  obtain ⟨e1, e2, e3, e4⟩ := e
  refine ⟨s, runActs_reach 1 2 _ _ _ .init hs, e1, by rw [e2]; trivial, fun l' => ?_⟩
  have key : ∀ (l' : List Act) (s : PSt), s.w 0 = .exited → s.queue ≠ [] →
      ((∃ S B, s.c 1 = .syncWant S B) ∨ (∃ S B, s.c 1 = .syncQ S B) ∨ ∃ S B, s.c 1 = .syncSleep S B) →
      ∀ s', runActs 1 2 s l' = some s' → (s'.c 1).inSync := by
    intro l'
    induction l' with
    | nil =>
        intro s _ _ hc s' h
        simp only [runActs, Option.some.injEq] at h
        subst h
        rcases hc with ⟨S, B, h⟩ | ⟨S, B, h⟩ | ⟨S, B, h⟩ <;> rw [h] <;> trivial
    | cons a l' ih =>
        intro s hw hq hc s' h
        simp only [runActs, Option.bind_eq_some_iff] at h
        obtain ⟨s1, h1, h2⟩ := h
        obtain ⟨g1, g2, g3⟩ := stuck_sync (step_PStep h1) hw hq hc
        exact ih s1 g1 g2 g3 s' h2
  exact key l' s e3 (by rw [e4]; simp) (Or.inl ⟨1, [], e2⟩)

end Fdapde.Threads
