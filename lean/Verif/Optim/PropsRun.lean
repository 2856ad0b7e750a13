import Verif.Optim.PropsLineSearch
import Mathlib.LinearAlgebra.Matrix.DotProduct
import Mathlib.Data.Matrix.Basic
import Mathlib.Tactic.Abel

/-!
# Runs of the optimizers (C65, C66, C67, C68)
-/

set_option linter.unusedSectionVars false

namespace Fdapde.Optim

variable {K : Type} [Field K] [LinearOrder K] {n : Nat} {σ : Type}

/-! ## The main loop -/

/-- A run of the main loop as the sequence of its states: every turn but the last goes on; at the end either the guard fails and
the last `x_old` is returned, or the turn itself returns. -/
theorem mainLoop_trace (body : St K n σ → Option (Turn K n σ)) (maxIter : Nat) (tol : K) (s' : St K n σ) (x : Vec K n) :
    ∀ (k : Nat) (s : St K n σ) (err : K) (stop : Bool), mainLoop body maxIter tol k s err stop = some (s', x) →
    ∃ (N : Nat) (ss : Nat → St K n σ) (errs : Nat → K) (stops : Nat → Bool), ss 0 = s ∧ errs 0 = err ∧ stops 0 = stop ∧
      (∀ i < N, ((ss i).nIter < maxIter ∧ tol < errs i ∧ stops i = false) ∧
        ∃ b, body (ss i) = some (.cont (ss (i + 1)) (errs (i + 1)) b) ∧ stops (i + 1) = (stops i || b)) ∧
      ((x = (ss N).xOld ∧ s' = ss N ∧ ¬ ((ss N).nIter < maxIter ∧ tol < errs N ∧ stops N = false)) ∨
        (((ss N).nIter < maxIter ∧ tol < errs N ∧ stops N = false) ∧ body (ss N) = some (.ret s' x))) := by
  intro k
  induction k with
  | zero =>
    intro s err stop h
    rw [mainLoop] at h
    split_ifs at h with hg
    simp only [Option.some.injEq, Prod.mk.injEq] at h
    exact ⟨0, fun _ => s, fun _ => err, fun _ => stop, rfl, rfl, rfl, fun i hi => absurd hi (by omega), .inl ⟨h.2.symm, h.1.symm, hg⟩⟩
  | succ k ih =>
    intro s err stop h
    rw [mainLoop] at h
    split_ifs at h with hg
    · cases hb : body s with
      | none => simp [hb] at h
      | some t =>
        cases t with
        | ret s1 x1 =>
          simp only [hb] at h
          cases h
          exact ⟨0, fun _ => s, fun _ => err, fun _ => stop, rfl, rfl, rfl, fun i hi => absurd hi (by omega), .inr ⟨hg, hb⟩⟩
        | cont s1 err1 b1 =>
          simp only [hb] at h
          obtain ⟨N, ss, errs, stops, h1, h2, h3, h4, h5⟩ := ih s1 err1 (stop || b1) h
          refine ⟨N + 1, fun i => if i = 0 then s else ss (i - 1), fun i => if i = 0 then err else errs (i - 1),
            fun i => if i = 0 then stop else stops (i - 1), rfl, rfl, rfl, fun i hi => ?_, ?_⟩
          · cases i with
            | zero => exact ⟨hg, b1, by simpa [h1, h2] using hb, by simp [h3]⟩
            | succ i => simpa using h4 i (by omega)
          · simpa using h5
    · simp only [Option.some.injEq, Prod.mk.injEq] at h
      exact ⟨0, fun _ => s, fun _ => err, fun _ => stop, rfl, rfl, rfl, fun i hi => absurd hi (by omega), .inl ⟨h.2.symm, h.1.symm, hg⟩⟩

/-- The loop ends within `max_iter` turns when every turn returns and counts. -/
theorem mainLoop_returns (body : St K n σ → Option (Turn K n σ)) (maxIter : Nat) (tol : K)
    (hb : ∀ s, ∃ t, body s = some t ∧ ∀ s' e b, t = .cont s' e b → s'.nIter = s.nIter + 1) :
    ∀ (k : Nat) (s : St K n σ) (err : K) (stop : Bool), maxIter ≤ s.nIter + k → (mainLoop body maxIter tol k s err stop).isSome := by
  intro k
  induction k with
  | zero =>
    intro s err stop hk
    rw [mainLoop, if_neg (by omega)]
    rfl
  | succ k ih =>
    intro s err stop hk
    rw [mainLoop]
    split_ifs
    · obtain ⟨t, h1, h2⟩ := hb s
      simp only [h1]
      cases t with
      | ret s1 x1 => rfl
      | cont s1 e1 b1 =>
        have := h2 _ _ _ rfl
        exact ih s1 e1 _ (by omega)
    · rfl

theorem runAll_onlyStep : ∀ (cs : List (Callback K n σ)), (∀ c ∈ cs, OnlyStep c) → OnlyStep (runAll cs)
  | [], _, s, s', b, h => by cases h; rfl
  | c :: cs, hc, s, s', b, h => by
    rw [runAll] at h
    cases h1 : c s with
    | none => simp [h1] at h
    | some r =>
      obtain ⟨s1, b1⟩ := r
      simp only [h1] at h
      cases h2 : runAll cs s1 with
      | none => simp [h2] at h
      | some r =>
        obtain ⟨s2, b2⟩ := r
        simp only [h2] at h
        cases h
        have e1 := hc c (by simp) s s1 b1 h1
        have e2 := runAll_onlyStep cs (fun c' h' => hc c' (by simp [h'])) s1 s' b2 h2
        rw [e2, e1]

theorem runAll_onlyLooks : ∀ (cs : List (Callback K n σ)), (∀ c ∈ cs, OnlyLooks c) → OnlyLooks (runAll cs)
  | [], _, s, s', b, h => by cases h; rfl
  | c :: cs, hc, s, s', b, h => by
    rw [runAll] at h
    cases h1 : c s with
    | none => simp [h1] at h
    | some r =>
      obtain ⟨s1, b1⟩ := r
      simp only [h1] at h
      cases h2 : runAll cs s1 with
      | none => simp [h2] at h
      | some r =>
        obtain ⟨s2, b2⟩ := r
        simp only [h2] at h
        cases h
        have e1 := hc c (by simp) s s1 b1 h1
        have e2 := runAll_onlyLooks cs (fun c' h' => hc c' (by simp [h'])) s1 s' b2 h2
        rw [e2, e1]

theorem runAll_neverStops : ∀ (cs : List (Callback K n σ)), (∀ c ∈ cs, NeverStops c) → NeverStops (runAll cs)
  | [], _, s, s', b, h => by cases h; rfl
  | c :: cs, hc, s, s', b, h => by
    rw [runAll] at h
    cases h1 : c s with
    | none => simp [h1] at h
    | some r =>
      obtain ⟨s1, b1⟩ := r
      simp only [h1] at h
      cases h2 : runAll cs s1 with
      | none => simp [h2] at h
      | some r =>
        obtain ⟨s2, b2⟩ := r
        simp only [h2] at h
        cases h
        rw [hc c (by simp) s s1 b1 h1, runAll_neverStops cs (fun c' h' => hc c' (by simp [h'])) s1 s' b2 h2]
        rfl

theorem runAll_returns : ∀ (cs : List (Callback K n σ)), (∀ c ∈ cs, Returns c) → Returns (runAll cs)
  | [], _, s => rfl
  | c :: cs, hc, s => by
    obtain ⟨r, h1⟩ := Option.isSome_iff_exists.1 (hc c (by simp) s)
    obtain ⟨r2, h2⟩ := Option.isSome_iff_exists.1 (runAll_returns cs (fun c' h' => hc c' (by simp [h'])) r.1)
    rw [runAll]
    simp only [h1, h2]
    rfl

/-- The end of a turn: the new point becomes the old one. -/
theorem endTurn_spec (env : Env K n σ) (hp : ∀ c ∈ env.post, OnlyLooks c) (hc : OnlyLooks env.crit) (s : St K n σ) (b : Bool)
    (t : Turn K n σ) (h : endTurn env s b = some t) : ∃ s' stop, t = .cont s' (env.nrm s.gradNew) stop ∧ s'.xOld = s.xNew ∧
      s'.gradOld = s.gradNew ∧ s'.nIter = s.nIter + 1 ∧ s'.h = s.h ∧ s'.invHessian = s.invHessian ∧
      ((∀ c ∈ env.post, NeverStops c) → NeverStops env.crit → stop = b) := by
  unfold endTurn at h
  simp only at h
  cases hpc : postOrCrit env s with
  | none => simp [hpc] at h
  | some r =>
    obtain ⟨s1, b1⟩ := r
    have key : s1 = { s with aux := s1.aux } ∧ ((∀ c ∈ env.post, NeverStops c) → NeverStops env.crit → b1 = false) := by
      unfold postOrCrit at hpc
      cases hr : runAll env.post s with
      | none => simp [hr] at hpc
      | some r =>
        obtain ⟨s2, b2⟩ := r
        have e2 := runAll_onlyLooks _ hp s s2 b2 hr
        cases b2 with
        | true =>
          simp only [hr] at hpc
          cases hpc
          refine ⟨e2, fun h1 _ => runAll_neverStops _ h1 s _ _ hr⟩
        | false =>
          simp only [hr] at hpc
          have e1 := hc s2 s1 b1 hpc
          refine ⟨?_, fun _ h2 => h2 s2 s1 b1 hpc⟩
          rw [e1, e2]
    simp only [hpc] at h
    cases h
    obtain ⟨e, hn⟩ := key
    refine ⟨_, _, rfl, ?_, ?_, ?_, ?_, ?_, fun h1 h2 => by rw [hn h1 h2, Bool.or_false]⟩
    all_goals (simp only; rw [e])

theorem endTurn_returns (env : Env K n σ) (hp : ∀ c ∈ env.post, Returns c) (hc : Returns env.crit) (s : St K n σ) (b : Bool) :
    ∃ t, endTurn env s b = some t := by
  obtain ⟨⟨s1, b1⟩, h1⟩ := Option.isSome_iff_exists.1 (runAll_returns _ hp s)
  obtain ⟨⟨s2, b2⟩, h2⟩ := Option.isSome_iff_exists.1 (hc s1)
  unfold endTurn postOrCrit
  cases b1 <;> simp [h1, h2]

/-! ## Turns -/

/-- One turn of gradient descent with proper callbacks. -/
theorem gdTurn_spec (env : Env K n σ) (hp : Proper env) (s : St K n σ) (t : Turn K n σ) (h : gdTurn env s = some t) :
    ∃ s1 b s' stop, runAll env.pre { s with update := -s.gradOld } = some (s1, b) ∧ t = .cont s' (env.nrm (env.grad s'.xOld)) stop ∧
      s1.h = s'.h ∧ s'.xOld = s.xOld + s'.h • -s.gradOld ∧ s'.gradOld = env.grad s'.xOld ∧ s'.nIter = s.nIter + 1 ∧
      (Quiet env → stop = false) ∧ (env.pre = [] → s'.h = s.h) := by
  unfold gdTurn at h
  cases hr : runAll env.pre { s with update := -s.gradOld } with
  | none => simp [hr] at h
  | some r =>
    obtain ⟨s1, b⟩ := r
    simp only [hr] at h
    have e1 := runAll_onlyStep _ hp.pre _ s1 b hr
    obtain ⟨s', stop, h1, h2, h3, h4, h5, _, h7⟩ := endTurn_spec env hp.post hp.crit _ b t h
    simp only at h1 h2 h3 h4 h5
    have hx : s1.xOld = s.xOld := by rw [e1]
    have hu : s1.update = -s.gradOld := by rw [e1]
    have hn : s1.nIter = s.nIter := by rw [e1]
    refine ⟨s1, b, s', stop, rfl, by rw [h1, h2], h5.symm, by rw [h2, h5, hx, hu], by rw [h3, h2], by rw [h4, hn], fun hq => ?_, fun h0 => ?_⟩
    · rw [h7 hq.post hq.crit, runAll_neverStops _ hq.pre _ _ _ hr]
    · rw [h0] at hr
      cases hr
      exact h5

/-- One turn of Newton's method with proper callbacks. -/
theorem newtonTurn_spec (env : Env K n σ) (hp : Proper env) (s : St K n σ) (t : Turn K n σ) (h : newtonTurn env s = some t) :
    ∃ s' stop, t = .cont s' (env.nrm (env.grad s'.xOld)) stop ∧
      s'.xOld = s.xOld + s'.h • -env.lu (env.hess s.xOld) (env.grad s.xOld) ∧ s'.nIter = s.nIter + 1 ∧
      (Quiet env → stop = false) ∧ (env.pre = [] → s'.h = s.h) := by
  unfold newtonTurn at h
  simp only at h
  cases hr : runAll env.pre { s with gradOld := env.grad s.xOld, update := -env.lu (env.hess s.xOld) (env.grad s.xOld) } with
  | none => simp [hr] at h
  | some r =>
    obtain ⟨s1, b⟩ := r
    simp only [hr] at h
    have e1 := runAll_onlyStep _ hp.pre _ s1 b hr
    obtain ⟨s', stop, h1, h2, h3, h4, h5, _, h7⟩ := endTurn_spec env hp.post hp.crit _ b t h
    simp only at h1 h2 h3 h4 h5
    have hx : s1.xOld = s.xOld := by rw [e1]
    have hu : s1.update = -env.lu (env.hess s.xOld) (env.grad s.xOld) := by rw [e1]
    have hn : s1.nIter = s.nIter := by rw [e1]
    refine ⟨s', stop, by rw [h1, h2], by rw [h2, h5, hx, hu], by rw [h4, hn], fun hq => ?_, fun h0 => ?_⟩
    · rw [h7 hq.post hq.crit, runAll_neverStops _ hq.pre _ _ _ hr]
    · rw [h0] at hr
      cases hr
      exact h5

/-- One turn of BFGS with proper callbacks: it goes on, or returns the old point when the gradient vanishes at the new one. -/
theorem bfgsTurn_spec (env : Env K n σ) (hp : Proper env) (s : St K n σ) (t : Turn K n σ) (h : bfgsTurn env s = some t) :
    ∃ s1 b, runAll env.pre { s with update := -(s.invHessian.mulVec s.gradOld) } = some (s1, b) ∧
    ((∃ s' stop, t = .cont s' (env.nrm (env.grad s'.xOld)) stop ∧ s1.h = s'.h ∧
      s'.xOld = s.xOld + s'.h • -(s.invHessian.mulVec s.gradOld) ∧ s'.gradOld = env.grad s'.xOld ∧ env.grad s'.xOld ≠ 0 ∧
      s'.nIter = s.nIter + 1 ∧ s'.invHessian = bfgsUpdate s.invHessian (s'.xOld - s.xOld) (env.grad s'.xOld - s.gradOld) ∧
      (Quiet env → stop = false) ∧ (env.pre = [] → s'.h = s.h)) ∨
    (∃ s', t = .ret s' s.xOld ∧ s'.nIter = s.nIter ∧ env.grad (s.xOld + s1.h • -(s.invHessian.mulVec s.gradOld)) = 0)) := by
  unfold bfgsTurn at h
  cases hr : runAll env.pre { s with update := -(s.invHessian.mulVec s.gradOld) } with
  | none => simp [hr] at h
  | some r =>
    obtain ⟨s1, b⟩ := r
    simp only [hr] at h
    have e1 := runAll_onlyStep _ hp.pre _ s1 b hr
    have hx : s1.xOld = s.xOld := by rw [e1]
    have hu : s1.update = -(s.invHessian.mulVec s.gradOld) := by rw [e1]
    have hn : s1.nIter = s.nIter := by rw [e1]
    have hH : s1.invHessian = s.invHessian := by rw [e1]
    have hg : s1.gradOld = s.gradOld := by rw [e1]
    rw [hx, hu, hH, hg] at h
    refine ⟨s1, b, rfl, ?_⟩
    by_cases hz : env.grad (s.xOld + s1.h • -(s.invHessian.mulVec s.gradOld)) = 0
    · rw [if_pos hz] at h
      cases h
      exact .inr ⟨_, rfl, hn, hz⟩
    · rw [if_neg hz] at h
      obtain ⟨s', stop, h1, h2, h3, h4, h5, h6, h7⟩ := endTurn_spec env hp.post hp.crit _ b t h
      simp only at h1 h2 h3 h4 h5 h6
      refine .inl ⟨s', stop, by rw [h1, h2], h5.symm, by rw [h2, h5], by rw [h3, h2], by rw [h2]; exact hz, by rw [h4, hn],
        by rw [h6, h2], fun hq => ?_, fun h0 => ?_⟩
      · rw [h7 hq.post hq.crit, runAll_neverStops _ hq.pre _ _ _ hr]
      · rw [h0] at hr
        cases hr
        exact h5

/-! ## C65 -/

/-- **C65**, gradient descent, for proper callbacks and every run which returns: at most `max_iter` updates, each along the
negative gradient at the current point (with the constructor's step if no callback chooses it); the point returned is the last
iterate and the value that of the objective there; the gradient norm exceeds `tol` at the iterates it does not stop at; and if it
stops before `max_iter` without being asked to, the gradient norm at the returned point is at most `tol`. -/
theorem C65_gradient_descent (env : Env K n σ) (hp : Proper env) (huge tol step : K) (ht : tol < huge) (maxIter : Nat) (x0 : Vec K n)
    (s : St K n σ) (r : Result K n) (h : gdOptimize env huge maxIter tol step x0 s = some r) :
    ∃ (x : Nat → Vec K n) (hs : Nat → K), r.nIter ≤ maxIter ∧ Descent (fun k => -env.grad (x k)) hs x0 x r.nIter ∧
      r.optimum = x r.nIter ∧ r.value = env.obj r.optimum ∧
      (∀ k, 0 < k → k < r.nIter → tol < env.nrm (env.grad (x k))) ∧
      (Quiet env → r.nIter < maxIter → env.nrm (env.grad r.optimum) ≤ tol) ∧
      (env.pre = [] → ∀ k < r.nIter, hs k = step) := by
  unfold gdOptimize at h
  cases hm : mainLoop (gdTurn env) maxIter tol maxIter
    { s with h := step, nIter := 0, xOld := x0, xNew := x0, gradOld := env.grad x0 } huge false with
  | none => rw [hm] at h; cases h
  | some q =>
    obtain ⟨s', xr⟩ := q
    rw [hm] at h
    cases h
    obtain ⟨N, ss, errs, stops, h1, h2, h3, h4, h5⟩ := mainLoop_trace _ _ _ _ _ _ _ _ _ hm
    have inv : ∀ i ≤ N, (ss i).nIter = i ∧ (ss i).gradOld = env.grad (ss i).xOld ∧ (0 < i → errs i = env.nrm (env.grad (ss i).xOld)) ∧
        (Quiet env → stops i = false) ∧ (env.pre = [] → (ss i).h = step) := by
      intro i
      induction i with
      | zero => intro _; simp [h1, h3]
      | succ i ih =>
        intro hi
        obtain ⟨a1, a2, a3, a4, a5⟩ := ih (by omega)
        obtain ⟨_, b, hb, hst⟩ := h4 i (by omega)
        obtain ⟨s1, b1, s2, stop, _, e, _, _, e2, e3, e4, e5⟩ := gdTurn_spec env hp _ _ hb
        obtain ⟨rfl, eb, rfl⟩ := Turn.cont.inj e
        exact ⟨by rw [e3, a1], e2, fun _ => eb, fun hq => by rw [hst, a4 hq, e4 hq]; rfl, fun h0 => by rw [e5 h0, a5 h0]⟩
    have step' : ∀ i < N, (ss (i + 1)).xOld = (ss i).xOld + (ss (i + 1)).h • -env.grad (ss i).xOld := by
      intro i hi
      obtain ⟨_, b, hb, hst⟩ := h4 i hi
      obtain ⟨s1, b1, s2, stop, _, e, _, e1, _⟩ := gdTurn_spec env hp _ _ hb
      obtain ⟨rfl, eb, rfl⟩ := Turn.cont.inj e
      rw [e1, (inv i (by omega)).2.1]
    rcases h5 with ⟨hx, hs', hg⟩ | ⟨_, hb⟩
    · subst hs' hx
      have hN := (inv N (le_refl _)).1
      simp only [hN]
      refine ⟨fun i => (ss i).xOld, fun i => (ss (i + 1)).h, ?_, ⟨by simp [h1], step'⟩, rfl, trivial, fun k hk hkN => ?_, fun hq hlt => ?_,
        fun h0 k hk => (inv (k + 1) hk).2.2.2.2 h0⟩
      · cases N with
        | zero => omega
        | succ N =>
          have := (h4 N (by omega)).1.1
          rw [(inv N (by omega)).1] at this
          omega
      · rw [← (inv k (by omega)).2.2.1 hk]
        exact (h4 k hkN).1.2.1
      · obtain ⟨a1, a2, a3, a4, a5⟩ := inv N (le_refl _)
        by_cases h0 : N = 0
        · subst h0
          exfalso
          apply hg
          rw [a1, h2, h3]
          exact ⟨hlt, ht, rfl⟩
        · rw [← a3 (by omega)]
          by_contra hc
          exact hg ⟨by omega, not_le.1 hc, a4 hq⟩
    · obtain ⟨s1, b1, s2, stop, _, e, _⟩ := gdTurn_spec env hp _ _ hb
      cases e

/-- **C65**, Newton's method: as for gradient descent, with the Newton direction at the current point. -/
theorem C65_newton (env : Env K n σ) (hp : Proper env) (huge tol step : K) (ht : tol < huge) (maxIter : Nat) (x0 : Vec K n)
    (s : St K n σ) (r : Result K n) (h : newtonOptimize env huge maxIter tol step x0 s = some r) :
    ∃ (x : Nat → Vec K n) (hs : Nat → K), r.nIter ≤ maxIter ∧
      Descent (fun k => -env.lu (env.hess (x k)) (env.grad (x k))) hs x0 x r.nIter ∧
      r.optimum = x r.nIter ∧ r.value = env.obj r.optimum ∧
      (∀ k, 0 < k → k < r.nIter → tol < env.nrm (env.grad (x k))) ∧
      (Quiet env → r.nIter < maxIter → env.nrm (env.grad r.optimum) ≤ tol) ∧
      (env.pre = [] → ∀ k < r.nIter, hs k = step) := by
  unfold newtonOptimize at h
  cases hm : mainLoop (newtonTurn env) maxIter tol maxIter
    { s with h := step, nIter := 0, xOld := x0, xNew := x0 } huge false with
  | none => rw [hm] at h; cases h
  | some q =>
    obtain ⟨s', xr⟩ := q
    rw [hm] at h
    cases h
    obtain ⟨N, ss, errs, stops, h1, h2, h3, h4, h5⟩ := mainLoop_trace _ _ _ _ _ _ _ _ _ hm
    have inv : ∀ i ≤ N, (ss i).nIter = i ∧ (0 < i → errs i = env.nrm (env.grad (ss i).xOld)) ∧
        (Quiet env → stops i = false) ∧ (env.pre = [] → (ss i).h = step) := by
      intro i
      induction i with
      | zero => intro _; simp [h1, h3]
      | succ i ih =>
        intro hi
        obtain ⟨a1, a3, a4, a5⟩ := ih (by omega)
        obtain ⟨_, b, hb, hst⟩ := h4 i (by omega)
        obtain ⟨s2, stop, e, _, e3, e4, e5⟩ := newtonTurn_spec env hp _ _ hb
        obtain ⟨rfl, eb, rfl⟩ := Turn.cont.inj e
        exact ⟨by rw [e3, a1], fun _ => eb, fun hq => by rw [hst, a4 hq, e4 hq]; rfl, fun h0 => by rw [e5 h0, a5 h0]⟩
    have step' : ∀ i < N, (ss (i + 1)).xOld = (ss i).xOld + (ss (i + 1)).h • -env.lu (env.hess (ss i).xOld) (env.grad (ss i).xOld) := by
      intro i hi
      obtain ⟨_, b, hb, hst⟩ := h4 i hi
      obtain ⟨s2, stop, e, e1, _⟩ := newtonTurn_spec env hp _ _ hb
      obtain ⟨rfl, eb, rfl⟩ := Turn.cont.inj e
      exact e1
    rcases h5 with ⟨hx, hs', hg⟩ | ⟨_, hb⟩
    · subst hs' hx
      have hN := (inv N (le_refl _)).1
      simp only [hN]
      refine ⟨fun i => (ss i).xOld, fun i => (ss (i + 1)).h, ?_, ⟨by simp [h1], step'⟩, rfl, trivial, fun k hk hkN => ?_, fun hq hlt => ?_,
        fun h0 k hk => (inv (k + 1) hk).2.2.2 h0⟩
      · cases N with
        | zero => omega
        | succ N =>
          have := (h4 N (by omega)).1.1
          rw [(inv N (by omega)).1] at this
          omega
      · rw [← (inv k (by omega)).2.1 hk]
        exact (h4 k hkN).1.2.1
      · obtain ⟨a1, a3, a4, a5⟩ := inv N (le_refl _)
        by_cases h0 : N = 0
        · subst h0
          exfalso
          apply hg
          rw [a1, h2, h3]
          exact ⟨hlt, ht, rfl⟩
        · rw [← a3 (by omega)]
          by_contra hc
          exact hg ⟨by omega, not_le.1 hc, a4 hq⟩
    · obtain ⟨s2, stop, e, _⟩ := newtonTurn_spec env hp _ _ hb
      cases e

/-- The states of a run of BFGS (main loop), with the callbacks' results. -/
theorem bfgsRun_trace (env : Env K n σ) (hp : Proper env) (tol step : K) (maxIter : Nat) (x0 : Vec K n)
    (s s' : St K n σ) (xr : Vec K n) (h : bfgsRun env maxIter tol step x0 s = some (s', xr)) :
    ∃ (N : Nat) (ss : Nat → St K n σ), N = s'.nIter ∧ N ≤ maxIter ∧ xr = (ss N).xOld ∧ (ss 0).xOld = x0 ∧ (ss 0).invHessian = 1 ∧
      (∀ i ≤ N, (ss i).gradOld = env.grad (ss i).xOld ∧ (0 < i → env.grad (ss i).xOld ≠ 0)) ∧
      (∀ i < N, tol < env.nrm (env.grad (ss i).xOld) ∧
        ∃ s1 b, runAll env.pre { ss i with gradOld := env.grad (ss i).xOld, update := -((ss i).invHessian.mulVec (env.grad (ss i).xOld)) } = some (s1, b) ∧
          s1.h = (ss (i + 1)).h ∧ (ss (i + 1)).xOld = (ss i).xOld + (ss (i + 1)).h • -((ss i).invHessian.mulVec (env.grad (ss i).xOld)) ∧
          (ss (i + 1)).invHessian = bfgsUpdate (ss i).invHessian ((ss (i + 1)).xOld - (ss i).xOld)
            (env.grad (ss (i + 1)).xOld - env.grad (ss i).xOld)) ∧
      (env.pre = [] → ∀ i ≤ N, (ss i).h = step) ∧
      (Quiet env → N < maxIter → env.nrm (env.grad xr) ≤ tol ∨
        ∃ a : K, env.grad (xr + a • -((ss N).invHessian.mulVec (env.grad xr))) = 0) := by
  unfold bfgsRun at h
  obtain ⟨N, ss, errs, stops, h1, h2, h3, h4, h5⟩ := mainLoop_trace _ _ _ _ _ _ _ _ _ h
  have inv : ∀ i ≤ N, (ss i).nIter = i ∧ (ss i).gradOld = env.grad (ss i).xOld ∧ errs i = env.nrm (env.grad (ss i).xOld) ∧
      (Quiet env → stops i = false) ∧ (env.pre = [] → (ss i).h = step) ∧ (0 < i → env.grad (ss i).xOld ≠ 0) := by
    intro i
    induction i with
    | zero => intro _; simp [h1, h2, h3]
    | succ i ih =>
      intro hi
      obtain ⟨a1, a2, a3, a4, a5, _⟩ := ih (by omega)
      obtain ⟨_, b, hb, hst⟩ := h4 i (by omega)
      obtain ⟨s1, b1, _, ⟨s2, stop, e, _, _, e2, e0, e3, _, e4, e5⟩ | ⟨s2, e, _⟩⟩ := bfgsTurn_spec env hp _ _ hb
      · obtain ⟨rfl, eb, rfl⟩ := Turn.cont.inj e
        exact ⟨by rw [e3, a1], e2, eb, fun hq => by rw [hst, a4 hq, e4 hq]; rfl, fun h0 => by rw [e5 h0, a5 h0], fun _ => e0⟩
      · cases e
  have steps : ∀ i < N, tol < env.nrm (env.grad (ss i).xOld) ∧
        ∃ s1 b, runAll env.pre { ss i with gradOld := env.grad (ss i).xOld, update := -((ss i).invHessian.mulVec (env.grad (ss i).xOld)) } = some (s1, b) ∧
          s1.h = (ss (i + 1)).h ∧ (ss (i + 1)).xOld = (ss i).xOld + (ss (i + 1)).h • -((ss i).invHessian.mulVec (env.grad (ss i).xOld)) ∧
          (ss (i + 1)).invHessian = bfgsUpdate (ss i).invHessian ((ss (i + 1)).xOld - (ss i).xOld)
            (env.grad (ss (i + 1)).xOld - env.grad (ss i).xOld) := by
    intro i hi
    obtain ⟨hg, b, hb, hst⟩ := h4 i hi
    have hi' := inv i (by omega)
    refine ⟨by rw [← hi'.2.2.1]; exact hg.2.1, ?_⟩
    obtain ⟨s1, b1, e0, ⟨s2, stop, e, eh, ex, e2, _, e3, eH, e4, e5⟩ | ⟨s2, e, _⟩⟩ := bfgsTurn_spec env hp _ _ hb
    · obtain ⟨rfl, eb, rfl⟩ := Turn.cont.inj e
      rw [hi'.2.1] at e0 ex eH
      exact ⟨s1, b1, e0, eh, ex, eH⟩
    · cases e
  have hNm : N ≤ maxIter := by
    cases N with
    | zero => omega
    | succ N =>
      have := (h4 N (by omega)).1.1
      rw [(inv N (by omega)).1] at this
      omega
  have hN := inv N (le_refl _)
  rcases h5 with ⟨hx, hs', hg⟩ | ⟨hg, hb⟩
  · refine ⟨N, ss, by rw [hs', hN.1], hNm, hx, by simp [h1], by simp [h1], fun i hi => ⟨(inv i hi).2.1, (inv i hi).2.2.2.2.2⟩, steps,
      fun h0 i hi => (inv i hi).2.2.2.2.1 h0, fun hq hlt => .inl ?_⟩
    rw [hx, ← hN.2.2.1]
    by_contra hc
    exact hg ⟨by rw [hN.1]; exact hlt, not_le.1 hc, hN.2.2.2.1 hq⟩
  · obtain ⟨s1, b1, e0, ⟨s2, stop, e, _⟩ | ⟨s2, e, en, ez⟩⟩ := bfgsTurn_spec env hp _ _ hb
    · cases e
    · cases e
      refine ⟨N, ss, by rw [en, hN.1], hNm, rfl, by simp [h1], by simp [h1], fun i hi => ⟨(inv i hi).2.1, (inv i hi).2.2.2.2.2⟩, steps,
        fun h0 i hi => (inv i hi).2.2.2.2.1 h0, fun hq hlt => .inr ⟨s1.h, ?_⟩⟩
      rw [← hN.2.1]
      exact ez

/-- **C65**, BFGS: as for gradient descent, with the quasi-Newton direction; but (missing, see `C66_bug_returns_old`) it may
also stop early at a point whose gradient exceeds `tol` because the gradient vanishes at the *next* iterate. -/
theorem C65_bfgs_partial (env : Env K n σ) (hp : Proper env) (tol step : K) (hz : env.nrm 0 ≤ tol) (maxIter : Nat) (x0 : Vec K n)
    (s : St K n σ) (r : Result K n) (h : bfgsOptimize env maxIter tol step x0 s = some r) :
    ∃ (x : Nat → Vec K n) (hs : Nat → K) (H : Nat → Mat K n), r.nIter ≤ maxIter ∧ H 0 = 1 ∧
      Descent (fun k => -((H k).mulVec (env.grad (x k)))) hs x0 x r.nIter ∧
      (∀ k < r.nIter, H (k + 1) = bfgsUpdate (H k) (x (k + 1) - x k) (env.grad (x (k + 1)) - env.grad (x k))) ∧
      r.optimum = x r.nIter ∧ r.value = env.obj r.optimum ∧
      (∀ k < r.nIter, tol < env.nrm (env.grad (x k))) ∧
      (env.pre = [] → ∀ k < r.nIter, hs k = step) ∧
      (Quiet env → r.nIter < maxIter → env.nrm (env.grad r.optimum) ≤ tol ∨
        ∃ a : K, env.grad (r.optimum + a • -((H r.nIter).mulVec (env.grad r.optimum))) = 0) := by
  unfold bfgsOptimize at h
  split_ifs at h with h0
  · cases h
    refine ⟨fun _ => x0, fun _ => 0, fun _ => 1, Nat.zero_le _, rfl, ⟨rfl, fun k hk => absurd hk (Nat.not_lt_zero _)⟩,
      fun k hk => absurd hk (Nat.not_lt_zero _), rfl, rfl, fun k hk => absurd hk (Nat.not_lt_zero _),
      fun _ k hk => absurd hk (Nat.not_lt_zero _), fun _ _ => .inl (by rw [h0]; exact hz)⟩
  · cases hm : bfgsRun env maxIter tol step x0 s with
    | none => rw [hm] at h; cases h
    | some q =>
      obtain ⟨s', xr⟩ := q
      rw [hm] at h
      cases h
      obtain ⟨N, ss, hN, h1, h2, h3, h4, h5, h6, h7, h8⟩ := bfgsRun_trace env hp tol step maxIter x0 s s' xr hm
      simp only
      rw [← hN]
      refine ⟨fun i => (ss i).xOld, fun i => (ss (i + 1)).h, fun i => (ss i).invHessian, h1, h4, ⟨h3, fun k hk => ?_⟩, fun k hk => ?_, h2,
        trivial, fun k hk => (h6 k hk).1, fun h0 k hk => h7 h0 (k + 1) hk, h8⟩
      · obtain ⟨_, s1, b, _, _, e, _⟩ := h6 k hk
        exact e
      · obtain ⟨_, s1, b, _, _, _, e⟩ := h6 k hk
        exact e

/-- **C65**, if every callback returns so do the optimizers. -/
theorem C65_returns (env : Env K n σ) (hp : Proper env) (h1 : ∀ c ∈ env.pre, Returns c) (h2 : ∀ c ∈ env.post, Returns c)
    (h3 : Returns env.crit) (huge tol step : K) (maxIter : Nat) (x0 : Vec K n) (s : St K n σ) :
    (gdOptimize env huge maxIter tol step x0 s).isSome ∧ (newtonOptimize env huge maxIter tol step x0 s).isSome ∧
      (bfgsOptimize env maxIter tol step x0 s).isSome := by
  have fin : ∀ q : Option (St K n σ × Vec K n), q.isSome → (finish env q).isSome := by
    intro q hq
    cases q with
    | none => cases hq
    | some q => rfl
  refine ⟨fin _ ?_, fin _ ?_, ?_⟩
  · refine mainLoop_returns _ _ _ (fun s => ?_) _ _ _ _ (by simp)
    obtain ⟨⟨s1, b⟩, e⟩ := Option.isSome_iff_exists.1 (runAll_returns _ h1 { s with update := -s.gradOld })
    obtain ⟨t, et⟩ := endTurn_returns env h2 h3
      { s1 with xNew := s1.xOld + s1.h • s1.update, gradNew := env.grad (s1.xOld + s1.h • s1.update) } b
    have eg : gdTurn env s = some t := by unfold gdTurn; simp only [e]; exact et
    refine ⟨t, eg, fun s' e b ht => ?_⟩
    obtain ⟨_, _, s2, _, _, e2, _, _, _, e3, _⟩ := gdTurn_spec env hp s t eg
    rw [ht] at e2
    cases e2
    exact e3
  · refine mainLoop_returns _ _ _ (fun s => ?_) _ _ _ _ (by simp)
    obtain ⟨⟨s1, b⟩, e⟩ := Option.isSome_iff_exists.1 (runAll_returns _ h1
      { s with gradOld := env.grad s.xOld, update := -env.lu (env.hess s.xOld) (env.grad s.xOld) })
    obtain ⟨t, et⟩ := endTurn_returns env h2 h3
      { s1 with xNew := s1.xOld + s1.h • s1.update, gradNew := env.grad (s1.xOld + s1.h • s1.update) } b
    have eg : newtonTurn env s = some t := by unfold newtonTurn; simp only [e]; exact et
    refine ⟨t, eg, fun s' e b ht => ?_⟩
    obtain ⟨s2, _, e2, _, e3, _⟩ := newtonTurn_spec env hp s t eg
    rw [ht] at e2
    cases e2
    exact e3
  · unfold bfgsOptimize
    split_ifs
    · rfl
    · refine fin _ (mainLoop_returns _ _ _ (fun s => ?_) _ _ _ _ (by simp))
      obtain ⟨⟨s1, b⟩, e⟩ := Option.isSome_iff_exists.1 (runAll_returns _ h1 { s with update := -(s.invHessian.mulVec s.gradOld) })
      have hex : ∃ t, bfgsTurn env s = some t := by
        unfold bfgsTurn
        simp only [e]
        split_ifs
        · exact ⟨_, rfl⟩
        · exact endTurn_returns env h2 h3 _ b
      obtain ⟨t, eg⟩ := hex
      refine ⟨t, eg, fun s' e b ht => ?_⟩
      obtain ⟨_, _, _, ⟨s2, _, e2, _, _, _, _, e3, _⟩ | ⟨s2, e2, _⟩⟩ := bfgsTurn_spec env hp s t eg
      · rw [ht] at e2
        cases e2
        exact e3
      · rw [ht] at e2
        cases e2

end Fdapde.Optim
