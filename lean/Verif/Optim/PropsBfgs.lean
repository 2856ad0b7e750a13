import Verif.Optim.PropsRun
import Mathlib.Tactic.LinearCombination

/-!
# BFGS and descent with line searches (C66, C67, C68)
-/

set_option linter.unusedSectionVars false

namespace Fdapde.Optim

open Matrix

variable {K : Type} [Field K] [LinearOrder K] [IsStrictOrderedRing K] {n : Nat} {σ : Type}

/-! ## C67: the update -/

theorem bfgsUpdate_mulVec (H : Mat K n) (dx dg w : Vec K n) : (bfgsUpdate H dx dg).mulVec w =
    H.mulVec w + ((1 + dotProduct dg (H.mulVec dg) / dotProduct dx dg) * (dotProduct dx dg)⁻¹ * dotProduct dx w) • dx -
      ((dotProduct dx dg)⁻¹ * dotProduct dx w) • H.mulVec dg - ((dotProduct dx dg)⁻¹ * dotProduct (H.mulVec dg) w) • dx := by
  unfold bfgsUpdate
  simp only [add_mulVec, sub_mulVec, smul_mulVec, vecMulVec_mulVec, op_smul_eq_smul]
  funext i
  simp only [Pi.add_apply, Pi.sub_apply, Pi.smul_apply, smul_eq_mul]
  ring

theorem sym_dot (H : Mat K n) (hH : H.transpose = H) (u v : Vec K n) : dotProduct u (H.mulVec v) = dotProduct v (H.mulVec u) := by
  rw [dotProduct_mulVec, ← mulVec_transpose, hH, dotProduct_comm]

/-- **C67**, one update: from a symmetric positive definite approximation and `dx · dg > 0` the update makes a symmetric positive
definite one which satisfies the secant equation. -/
theorem C67_update (H : Mat K n) (dx dg : Vec K n) (hH : SPD H) (hpos : 0 < dotProduct dx dg) :
    SPD (bfgsUpdate H dx dg) ∧ (bfgsUpdate H dx dg).mulVec dg = dx := by
  have hne := hpos.ne'
  refine ⟨⟨?_, fun v hv => ?_⟩, ?_⟩
  · unfold bfgsUpdate
    simp only [transpose_add, transpose_sub, transpose_smul, transpose_vecMulVec, hH.1]
    congr 2
    rw [add_comm]
  · obtain ⟨ρ, hρ⟩ : ∃ ρ, ρ = dotProduct dx dg := ⟨_, rfl⟩
    obtain ⟨c, hc⟩ : ∃ c, c = dotProduct dx v / ρ := ⟨_, rfl⟩
    rw [← hρ] at hpos hne
    have key : dotProduct v ((bfgsUpdate H dx dg).mulVec v) =
        dotProduct (v - c • dg) (H.mulVec (v - c • dg)) + c * c * ρ := by
      rw [bfgsUpdate_mulVec, ← hρ]
      simp only [dotProduct_add, dotProduct_sub, dotProduct_smul, sub_dotProduct, smul_dotProduct, mulVec_sub, mulVec_smul, smul_eq_mul]
      rw [sym_dot H hH.1 dg v, dotProduct_comm v dx, dotProduct_comm (H.mulVec dg) v, hc]
      field_simp
      ring
    rw [key]
    by_cases h0 : c = 0
    · rw [h0]
      simpa using hH.2 v hv
    · have h1 : 0 < c * c * ρ := mul_pos (mul_self_pos.2 h0) hpos
      by_cases h2 : v - c • dg = 0
      · rw [h2]; simpa using h1
      · exact add_pos (hH.2 _ h2) h1
  · rw [bfgsUpdate_mulVec]
    funext i
    simp only [Pi.add_apply, Pi.sub_apply, Pi.smul_apply, smul_eq_mul]
    rw [dotProduct_comm (H.mulVec dg) dg]
    field_simp
    ring

theorem spd_one : SPD (1 : Mat K n) := by
  refine ⟨transpose_one, fun v hv => ?_⟩
  rw [one_mulVec]
  obtain ⟨i, hi⟩ := Function.ne_iff.1 hv
  unfold dotProduct
  exact Finset.sum_pos' (fun j _ => mul_self_nonneg _) ⟨i, Finset.mem_univ _, mul_self_pos.2 hi⟩

/-- **C67**, histories: along any sequence of updates with `dx · dg > 0` starting from the identity, the approximation is symmetric
positive definite and satisfies the secant equation of the last update. -/
theorem C67_history (x g : Nat → Vec K n) (H : Nat → Mat K n) (N : Nat) (h0 : H 0 = 1)
    (hu : ∀ k < N, H (k + 1) = bfgsUpdate (H k) (x (k + 1) - x k) (g (k + 1) - g k))
    (hpos : ∀ k < N, 0 < dotProduct (x (k + 1) - x k) (g (k + 1) - g k)) :
    (∀ k ≤ N, SPD (H k)) ∧ ∀ k < N, (H (k + 1)).mulVec (g (k + 1) - g k) = x (k + 1) - x k := by
  have h1 : ∀ k ≤ N, SPD (H k) := by
    intro k
    induction k with
    | zero => intro _; rw [h0]; exact spd_one
    | succ k ih =>
      intro hk
      rw [hu k hk]
      exact (C67_update _ _ _ (ih (by omega)) (hpos k hk)).1
  exact ⟨h1, fun k hk => by rw [hu k hk]; exact (C67_update _ _ _ (h1 k hk.le) (hpos k hk)).2⟩

/-- **C67**, with the Wolfe search: BFGS with the Wolfe line search (positive first candidate, `c2 < 1`, `0 ≤ c1`) keeps the
approximation symmetric positive definite for the whole run whatever the objective, so that every direction is a descent
direction, every step is positive, the secant equation holds after every update and the objective never increases. -/
theorem C67_wolfe (env : Env K n σ) (alpha c1 c2 : K) (fuel : Nat) (ha : 0 < alpha) (hc1 : 0 ≤ c1) (hc2 : c2 < 1)
    (hpre : env.pre = [wolfe env.obj env.grad alpha c1 c2 fuel]) (hpost : ∀ c ∈ env.post, OnlyLooks c) (hcrit : OnlyLooks env.crit)
    (tol step : K) (maxIter : Nat) (x0 : Vec K n) (s : St K n σ) (r : Result K n)
    (h : bfgsOptimize env maxIter tol step x0 s = some r) :
    ∃ (x : Nat → Vec K n) (hs : Nat → K) (H : Nat → Mat K n), H 0 = 1 ∧ r.optimum = x r.nIter ∧
      Descent (fun k => -((H k).mulVec (env.grad (x k)))) hs x0 x r.nIter ∧
      (∀ k ≤ r.nIter, SPD (H k)) ∧
      ∀ k < r.nIter, 0 < hs k ∧ dotProduct (env.grad (x k)) (-((H k).mulVec (env.grad (x k)))) < 0 ∧
        (H (k + 1)).mulVec (env.grad (x (k + 1)) - env.grad (x k)) = x (k + 1) - x k ∧ env.obj (x (k + 1)) ≤ env.obj (x k) := by
  have hp : Proper env := by
    refine ⟨fun c hc => ?_, hpost, hcrit⟩
    rw [hpre, List.mem_singleton] at hc
    subst hc
    intro t t' b ht
    have := (C69_wolfe _ _ _ _ _ _ _ _ _ ht).2.1
    rw [this]
  unfold bfgsOptimize at h
  split_ifs at h with h0
  · cases h
    exact ⟨fun _ => x0, fun _ => 0, fun _ => 1, rfl, rfl, ⟨rfl, fun k hk => absurd hk (Nat.not_lt_zero _)⟩, fun _ _ => spd_one,
      fun k hk => absurd hk (Nat.not_lt_zero _)⟩
  · cases hm : bfgsRun env maxIter tol step x0 s with
    | none => rw [hm] at h; cases h
    | some q =>
      obtain ⟨s', xr⟩ := q
      rw [hm] at h
      cases h
      obtain ⟨N, ss, hN, h1, h2, h3, h4, h5, h6, _, _⟩ := bfgsRun_trace env hp tol step maxIter x0 s s' xr hm
      have turn : ∀ i < N, SPD (ss i).invHessian → 0 < (ss (i + 1)).h ∧
          dotProduct (env.grad (ss i).xOld) (-((ss i).invHessian.mulVec (env.grad (ss i).xOld))) < 0 ∧
          0 < dotProduct ((ss (i + 1)).xOld - (ss i).xOld) (env.grad (ss (i + 1)).xOld - env.grad (ss i).xOld) ∧
          env.obj (ss (i + 1)).xOld ≤ env.obj (ss i).xOld := by
        intro i hi hspd
        obtain ⟨_, s1, b, e0, eh, ex, _⟩ := h6 i hi
        have hgne : env.grad (ss i).xOld ≠ 0 := by
          cases i with
          | zero => rw [h3]; exact h0
          | succ i => exact (h5 (i + 1) (by omega)).2 (by omega)
        have hlt : dotProduct (env.grad (ss i).xOld) (-((ss i).invHessian.mulVec (env.grad (ss i).xOld))) < 0 := by
          rw [dotProduct_neg]
          exact neg_lt_zero.2 (hspd.2 _ hgne)
        rw [hpre] at e0
        have e0' : wolfe env.obj env.grad alpha c1 c2 fuel { ss i with gradOld := env.grad (ss i).xOld, update := -((ss i).invHessian.mulVec (env.grad (ss i).xOld)) } = some (s1, b) := by
          rw [runAll] at e0
          cases hw : wolfe env.obj env.grad alpha c1 c2 fuel { ss i with gradOld := env.grad (ss i).xOld, update := -((ss i).invHessian.mulVec (env.grad (ss i).xOld)) } with
          | none => simp [hw] at e0
          | some q =>
            obtain ⟨s2, b2⟩ := q
            simp only [hw, runAll, Bool.or_false] at e0
            exact e0
        obtain ⟨_, _, hA, hC, hpos⟩ := C69_wolfe _ _ _ _ _ _ _ _ _ e0'
        have hpos := hpos ha
        rw [eh] at hA hC hpos
        simp only [Armijo, Curvature] at hA hC
        rw [← ex] at hA hC
        refine ⟨hpos, hlt, ?_, ?_⟩
        · have hdx : (ss (i + 1)).xOld - (ss i).xOld = (ss (i + 1)).h • -((ss i).invHessian.mulVec (env.grad (ss i).xOld)) := by
            rw [ex]; abel
          rw [hdx, smul_dotProduct, dotProduct_sub, smul_eq_mul, dotProduct_comm _ (env.grad (ss (i + 1)).xOld),
            dotProduct_comm _ (env.grad (ss i).xOld)]
          refine mul_pos hpos ?_
          nlinarith
        · have : c1 * (ss (i + 1)).h * dotProduct (env.grad (ss i).xOld) (-((ss i).invHessian.mulVec (env.grad (ss i).xOld))) ≤ 0 :=
            mul_nonpos_of_nonneg_of_nonpos (mul_nonneg hc1 hpos.le) hlt.le
          linarith
      have hspd : ∀ i ≤ N, SPD (ss i).invHessian := by
        intro i
        induction i with
        | zero => intro _; rw [h4]; exact spd_one
        | succ i ih =>
          intro hi
          obtain ⟨_, s1, b, _, _, _, eH⟩ := h6 i hi
          rw [eH]
          exact (C67_update _ _ _ (ih (by omega)) (turn i hi (ih (by omega))).2.2.1).1
      simp only
      rw [← hN]
      refine ⟨fun i => (ss i).xOld, fun i => (ss (i + 1)).h, fun i => (ss i).invHessian, h4, h2, ⟨h3, fun k hk => ?_⟩, hspd, fun k hk => ?_⟩
      · obtain ⟨_, s1, b, _, _, e, _⟩ := h6 k hk
        exact e
      · obtain ⟨t1, t2, t3, t4⟩ := turn k hk (hspd k hk.le)
        refine ⟨t1, t2, ?_, t4⟩
        obtain ⟨_, s1, b, _, _, _, eH⟩ := h6 k hk
        show (ss (k + 1)).invHessian.mulVec _ = _
        rw [eH]
        exact (C67_update _ _ _ (hspd k hk.le) t3).2

/-! ## C66 -/

/-- **C66**, for a start at a stationary point (missing: later stationary points, for which it is false, `C66_bug_returns_old`):
the stationary point is returned. -/
theorem C66_start_partial (env : Env K n σ) (maxIter : Nat) (tol step : K) (x0 : Vec K n) (s : St K n σ) (h : env.grad x0 = 0) :
    ∃ r, bfgsOptimize env maxIter tol step x0 s = some r ∧ r.optimum = x0 ∧ env.grad r.optimum = 0 ∧ r.value = env.obj x0 :=
  ⟨_, by rw [bfgsOptimize, if_pos h], rfl, h, rfl⟩

/-- BFGS returns the iterate *before* the stationary point it has found: if one gradient step from `x0` reaches a point where the
gradient is zero, the point returned is `x0` itself, with its non-zero gradient, and its value. -/
theorem C66_bug_returns_old (env : Env K n σ) (maxIter : Nat) (tol step : K) (x0 : Vec K n) (s : St K n σ) (hpre : env.pre = [])
    (hm : 0 < maxIter) (h0 : env.grad x0 ≠ 0) (ht : tol < env.nrm (env.grad x0)) (hst : env.grad (x0 + step • -env.grad x0) = 0) :
    ∃ r, bfgsOptimize env maxIter tol step x0 s = some r ∧ r.optimum = x0 ∧ r.value = env.obj x0 := by
  obtain ⟨k, rfl⟩ : ∃ k, maxIter = k + 1 := ⟨maxIter - 1, by omega⟩
  rw [bfgsOptimize, if_neg h0, bfgsRun, mainLoop, if_pos ⟨hm, ht, rfl⟩]
  simp only [bfgsTurn, hpre, runAll, one_mulVec, hst, if_true]
  exact ⟨_, rfl, rfl, rfl⟩

/-- The objective `x²` from 1 with step 1/2: the minimum 0 is reached in one step, but the optimum reported is 1. -/
example : (bfgsOptimize (σ := Unit) (n := 1) (K := ℚ)
    { obj := fun x => x 0 * x 0, grad := fun x => 2 • x, hess := fun _ => 2, nrm := fun x => |x 0|, lu := fun _ x => x, pre := [],
      post := [], crit := fun s => some (s, false) } 10 (1 / 1000) (1 / 2) ![1]
    ⟨0, 0, 0, 0, 0, 0, 0, 0, ()⟩).map (fun r => (r.optimum 0, r.value)) = some (1, 1) := by decide +kernel

/-! ## C68: descent -/

/-- A run of gradient descent with the backtracking search. -/
theorem backtracking_trace (env : Env K n σ) (alpha beta gamma : K) (fuel : Nat)
    (hpre : env.pre = [backtracking env.obj alpha beta gamma fuel]) (hpost : ∀ c ∈ env.post, OnlyLooks c) (hcrit : OnlyLooks env.crit)
    (huge tol step : K) (maxIter : Nat) (x0 : Vec K n) (s : St K n σ) (r : Result K n)
    (h : gdOptimize env huge maxIter tol step x0 s = some r) :
    ∃ (x : Nat → Vec K n) (hs : Nat → K), r.nIter ≤ maxIter ∧ Descent (fun k => -env.grad (x k)) hs x0 x r.nIter ∧ r.optimum = x r.nIter ∧
      r.value = env.obj r.optimum ∧ (∀ k, 0 < k → k < r.nIter → tol < env.nrm (env.grad (x k))) ∧
      ((∀ c ∈ env.post, NeverStops c) → NeverStops env.crit → tol < huge → r.nIter < maxIter → env.nrm (env.grad r.optimum) ≤ tol) ∧
      ∀ k < r.nIter, (env.grad (x k) = 0 → hs k = alpha) ∧
        (env.grad (x k) ≠ 0 → Armijo env.obj (x k) (-env.grad (x k)) (dotProduct (env.grad (x k)) (-env.grad (x k))) gamma (hs k) ∧
          ∃ j, hs k = alpha * beta ^ j ∧ ∀ i < j,
            ¬ Armijo env.obj (x k) (-env.grad (x k)) (dotProduct (env.grad (x k)) (-env.grad (x k))) gamma (alpha * beta ^ i)) := by
  have hp : Proper env := by
    refine ⟨fun c hc => ?_, hpost, hcrit⟩
    rw [hpre, List.mem_singleton] at hc
    subst hc
    intro t t' b ht
    have := (C68_armijo _ _ _ _ _ _ _ _ ht).2.1
    rw [this]
  have hns : ∀ c ∈ env.pre, NeverStops c := by
    intro c hc
    rw [hpre, List.mem_singleton] at hc
    subst hc
    exact fun t t' b ht => (C68_armijo _ _ _ _ _ _ _ _ ht).1
  unfold gdOptimize at h
  cases hm : mainLoop (gdTurn env) maxIter tol maxIter
    { s with h := step, nIter := 0, xOld := x0, xNew := x0, gradOld := env.grad x0 } huge false with
  | none => rw [hm] at h; cases h
  | some q =>
    obtain ⟨s', xr⟩ := q
    rw [hm] at h
    cases h
    obtain ⟨N, ss, errs, stops, h1, h2, h3, h4, h5⟩ := mainLoop_trace _ _ _ _ _ _ _ _ _ hm
    have inv : ∀ i ≤ N, (ss i).nIter = i ∧ (ss i).gradOld = env.grad (ss i).xOld ∧ (0 < i → errs i = env.nrm (env.grad (ss i).xOld)) ∧
        (Quiet env → stops i = false) := by
      intro i
      induction i with
      | zero => intro _; simp [h1, h3]
      | succ i ih =>
        intro hi
        obtain ⟨a1, a2, a3, a4⟩ := ih (by omega)
        obtain ⟨_, b, hb, hst⟩ := h4 i (by omega)
        obtain ⟨s1, b1, s2, stop, _, e, _, _, e2, e3, e4, e5⟩ := gdTurn_spec env hp _ _ hb
        obtain ⟨rfl, eb, rfl⟩ := Turn.cont.inj e
        exact ⟨by rw [e3, a1], e2, fun _ => eb, fun hq => by rw [hst, a4 hq, e4 hq]; rfl⟩
    have steps : ∀ i < N, (ss (i + 1)).xOld = (ss i).xOld + (ss (i + 1)).h • -env.grad (ss i).xOld ∧
        (env.grad (ss i).xOld = 0 → (ss (i + 1)).h = alpha) ∧
        (env.grad (ss i).xOld ≠ 0 → Armijo env.obj (ss i).xOld (-env.grad (ss i).xOld) (dotProduct (env.grad (ss i).xOld) (-env.grad (ss i).xOld)) gamma (ss (i + 1)).h ∧
          ∃ j, (ss (i + 1)).h = alpha * beta ^ j ∧ ∀ i' < j,
            ¬ Armijo env.obj (ss i).xOld (-env.grad (ss i).xOld) (dotProduct (env.grad (ss i).xOld) (-env.grad (ss i).xOld)) gamma (alpha * beta ^ i')) := by
      intro i hi
      obtain ⟨_, b, hb', hst⟩ := h4 i hi
      obtain ⟨s1, b1, s2, stop, e0, e, eh, e1, _⟩ := gdTurn_spec env hp _ _ hb'
      obtain ⟨rfl, eb, rfl⟩ := Turn.cont.inj e
      have hgi := (inv i hi.le).2.1
      rw [hpre] at e0
      have e0' : backtracking env.obj alpha beta gamma fuel { ss i with update := -(ss i).gradOld } = some (s1, b1) := by
        rw [runAll] at e0
        cases hw : backtracking env.obj alpha beta gamma fuel { ss i with update := -(ss i).gradOld } with
        | none => simp [hw] at e0
        | some q =>
          obtain ⟨s2, b2⟩ := q
          simp only [hw, runAll, Bool.or_false] at e0
          exact e0
      obtain ⟨_, es1, har, hge⟩ := C68_armijo _ _ _ _ _ _ _ _ e0'
      rw [hgi] at e1
      refine ⟨e1, fun hz => ?_, fun hz => ?_⟩
      · rw [← eh]
        apply hge
        simp only [hgi, hz, neg_zero, dotProduct_zero, le_refl]
      · have hlt : dotProduct (ss i).gradOld (-(ss i).gradOld) < 0 := by
          rw [dotProduct_neg, hgi]
          have := (spd_one (K := K) (n := n)).2 _ hz
          rw [one_mulVec] at this
          exact neg_lt_zero.2 this
        have := har hlt
        simp only [hgi, eh] at this
        exact this
    rcases h5 with ⟨hx, hs', hg⟩ | ⟨_, hb⟩
    · subst hs' hx
      simp only [(inv N (le_refl _)).1]
      refine ⟨fun i => (ss i).xOld, fun i => (ss (i + 1)).h, ?_, ⟨by simp [h1], fun k hk => (steps k hk).1⟩, rfl, trivial, fun k hk hkN => ?_,
        fun hq1 hq2 ht hlt => ?_, fun k hk => (steps k hk).2⟩
      · cases N with
        | zero => omega
        | succ N =>
          have := (h4 N (by omega)).1.1
          rw [(inv N (by omega)).1] at this
          omega
      · rw [← (inv k (by omega)).2.2.1 hk]
        exact (h4 k hkN).1.2.1
      · obtain ⟨a1, a2, a3, a4⟩ := inv N (le_refl _)
        by_cases h0 : N = 0
        · subst h0
          exfalso
          apply hg
          rw [a1, h2, h3]
          exact ⟨hlt, ht, rfl⟩
        · rw [← a3 (by omega)]
          by_contra hc
          exact hg ⟨by omega, not_le.1 hc, a4 ⟨hns, hq1, hq2⟩⟩
    · obtain ⟨s1, b1, s2, stop, _, e, _⟩ := gdTurn_spec env hp _ _ hb
      cases e

/-- **C68**, runs: gradient descent with the backtracking search never increases the objective from one iterate to the next. -/
theorem C68_descent (env : Env K n σ) (alpha beta gamma : K) (fuel : Nat) (ha : 0 < alpha) (hb : 0 < beta) (hg : 0 ≤ gamma)
    (hpre : env.pre = [backtracking env.obj alpha beta gamma fuel]) (hpost : ∀ c ∈ env.post, OnlyLooks c) (hcrit : OnlyLooks env.crit)
    (huge tol step : K) (maxIter : Nat) (x0 : Vec K n) (s : St K n σ) (r : Result K n)
    (h : gdOptimize env huge maxIter tol step x0 s = some r) :
    ∃ (x : Nat → Vec K n) (hs : Nat → K), Descent (fun k => -env.grad (x k)) hs x0 x r.nIter ∧ r.optimum = x r.nIter ∧
      ∀ k < r.nIter, 0 < hs k ∧ env.obj (x (k + 1)) ≤ env.obj (x k) ∧
        (0 < gamma → env.grad (x k) ≠ 0 → env.obj (x (k + 1)) < env.obj (x k)) := by
  obtain ⟨x, hs, _, h2, h3, _, _, _, h7⟩ := backtracking_trace env alpha beta gamma fuel hpre hpost hcrit huge tol step maxIter x0 s r h
  refine ⟨x, hs, h2, h3, fun k hk => ?_⟩
  have hx : x (k + 1) = x k + hs k • -env.grad (x k) := h2.2 k hk
  by_cases hz : env.grad (x k) = 0
  · rw [(h7 k hk).1 hz]
    refine ⟨ha, ?_, fun _ hn => absurd hz hn⟩
    rw [hx, hz, neg_zero, smul_zero, add_zero]
  · obtain ⟨h8, j, h9, _⟩ := (h7 k hk).2 hz
    have hpos : 0 < hs k := by rw [h9]; positivity
    have hlt : dotProduct (env.grad (x k)) (-env.grad (x k)) < 0 := by
      rw [dotProduct_neg]
      have := (spd_one (K := K) (n := n)).2 _ hz
      rw [one_mulVec] at this
      exact neg_lt_zero.2 this
    unfold Armijo at h8
    rw [← hx] at h8
    refine ⟨hpos, ?_, fun hg' _ => ?_⟩
    · have : gamma * hs k * dotProduct (env.grad (x k)) (-env.grad (x k)) ≤ 0 := mul_nonpos_of_nonneg_of_nonpos (by positivity) hlt.le
      linarith
    · have : gamma * hs k * dotProduct (env.grad (x k)) (-env.grad (x k)) < 0 := mul_neg_of_pos_of_neg (by positivity) hlt
      linarith

/-- Environments which meet the hypotheses: `x² + 3 y²` with exact gradient, the Wolfe search for BFGS and the backtracking search for
gradient descent; both runs return after some iterations. -/
example :
    let obj : Vec ℚ 2 → ℚ := fun x => x 0 * x 0 + 3 * x 1 * x 1
    let grad : Vec ℚ 2 → Vec ℚ 2 := fun x => ![2 * x 0, 6 * x 1]
    let env (c : Callback ℚ 2 Unit) : Env ℚ 2 Unit :=
      { obj := obj, grad := grad, hess := fun _ => 1, nrm := fun x => max |x 0| |x 1|, lu := fun _ x => x, pre := [c], post := [],
        crit := fun s => some (s, false) }
    ((bfgsOptimize (env (wolfe obj grad 1 (1 / 10000) (9 / 10) 20)) 3 (1 / 100) 1 ![1, 1] ⟨0, 0, 0, 0, 0, 0, 0, 0, ()⟩).map
      (fun r => decide (0 < r.nIter) && decide (r.value < 4))) = some true ∧
    ((gdOptimize (env (backtracking obj 2 (1 / 2) (1 / 2) 20)) 1000000 3 (1 / 100) 1 ![1, 1] ⟨0, 0, 0, 0, 0, 0, 0, 0, ()⟩).map
      (fun r => decide (r.nIter = 3) && decide (r.value < 4))) = some true := by
  refine ⟨by decide +kernel, by decide +kernel⟩

end Fdapde.Optim
