import Verif.Optim.LemmasBfgs
import Verif.Optim.PropsConvergence

/-!
# C133: BFGS with the Wolfe line search on uniformly convex objectives
-/

set_option linter.unusedSectionVars false

namespace Fdapde.Optim

open Matrix

variable {n : Nat} {σ : Type}

/-- What a run of BFGS with the Wolfe line search goes through. -/
theorem bfgs_wolfe_trace (env : Env ℝ n σ) (alpha c1 c2 : ℝ) (fuel : Nat) (ha : 0 < alpha) (hc2 : c2 < 1)
    (hpre : env.pre = [wolfe env.obj env.grad alpha c1 c2 fuel]) (hpost : ∀ c ∈ env.post, OnlyLooks c) (hcrit : OnlyLooks env.crit)
    (hnrm : Euclidean env.nrm) (tol step : ℝ) (htol : 0 ≤ tol) (maxIter : Nat) (x0 : Vec ℝ n) (s : St ℝ n σ) (r : Result ℝ n)
    (h : bfgsOptimize env maxIter tol step x0 s = some r) :
    ∃ (x : Nat → Vec ℝ n) (hs : Nat → ℝ) (H : Nat → Mat ℝ n), r.nIter ≤ maxIter ∧ x 0 = x0 ∧ H 0 = 1 ∧ r.optimum = x r.nIter ∧
      r.value = env.obj r.optimum ∧
      (∀ k < r.nIter, x (k + 1) = x k + hs k • -((H k).mulVec (env.grad (x k))) ∧
        H (k + 1) = bfgsUpdate (H k) (x (k + 1) - x k) (env.grad (x (k + 1)) - env.grad (x k)) ∧
        tol < env.nrm (env.grad (x k)) ∧ env.grad (x k) ≠ 0 ∧ 0 < hs k ∧ SPD (H k) ∧
        Armijo env.obj (x k) (-((H k).mulVec (env.grad (x k)))) (dotProduct (env.grad (x k)) (-((H k).mulVec (env.grad (x k))))) c1 (hs k) ∧
        Curvature env.grad (x k) (-((H k).mulVec (env.grad (x k)))) (dotProduct (env.grad (x k)) (-((H k).mulVec (env.grad (x k))))) c2 (hs k)) ∧
      (Quiet env → r.nIter < maxIter → env.nrm (env.grad r.optimum) ≤ tol ∨
        ∃ a : ℝ, env.grad (r.optimum + a • -((H r.nIter).mulVec (env.grad r.optimum))) = 0) := by
  have hp : Proper env := by
    refine ⟨fun c hc => ?_, hpost, hcrit⟩
    rw [hpre, List.mem_singleton] at hc
    subst hc
    intro t t' b ht
    have := (C69_wolfe _ _ _ _ _ _ _ _ _ ht).2.1
    rw [this]
  have hn0 : env.nrm 0 ≤ tol := by
    obtain ⟨a, b⟩ := hnrm 0
    rw [dotProduct_zero, mul_self_eq_zero] at b
    rw [b]; exact htol
  unfold bfgsOptimize at h
  split_ifs at h with h0
  · cases h
    exact ⟨fun _ => x0, fun _ => 0, fun _ => 1, Nat.zero_le _, rfl, rfl, rfl, rfl, fun k hk => absurd hk (Nat.not_lt_zero _),
      fun _ _ => .inl (by rw [h0]; exact hn0)⟩
  · cases hm : bfgsRun env maxIter tol step x0 s with
    | none => rw [hm] at h; cases h
    | some q =>
      obtain ⟨s', xr⟩ := q
      rw [hm] at h
      cases h
      obtain ⟨N, ss, hN, h1, h2, h3, h4, h5, h6, _, h8⟩ := bfgsRun_trace env hp tol step maxIter x0 s s' xr hm
      have turn : ∀ i < N, SPD (ss i).invHessian → 0 < (ss (i + 1)).h ∧ env.grad (ss i).xOld ≠ 0 ∧
          0 < dotProduct ((ss (i + 1)).xOld - (ss i).xOld) (env.grad (ss (i + 1)).xOld - env.grad (ss i).xOld) ∧
          Armijo env.obj (ss i).xOld (-((ss i).invHessian.mulVec (env.grad (ss i).xOld)))
            (dotProduct (env.grad (ss i).xOld) (-((ss i).invHessian.mulVec (env.grad (ss i).xOld)))) c1 (ss (i + 1)).h ∧
          Curvature env.grad (ss i).xOld (-((ss i).invHessian.mulVec (env.grad (ss i).xOld)))
            (dotProduct (env.grad (ss i).xOld) (-((ss i).invHessian.mulVec (env.grad (ss i).xOld)))) c2 (ss (i + 1)).h := by
        intro i hi hspd
        obtain ⟨_, s1, b, e0, eh, ex, _⟩ := h6 i hi
        have hgne : env.grad (ss i).xOld ≠ 0 := by
          cases i with
          | zero => rw [h3]; exact h0
          | succ i => exact (h5 (i + 1) (by omega)).2 (by omega)
        have hlt : dotProduct (env.grad (ss i).xOld) (-((ss i).invHessian.mulVec (env.grad (ss i).xOld))) < 0 := by
          rw [dotProduct_neg]
          exact neg_lt_zero.2 (hspd.2 _ hgne)
        rw [hpre] at e0
        have e0' : wolfe env.obj env.grad alpha c1 c2 fuel { ss i with gradOld := env.grad (ss i).xOld, update := -((ss i).invHessian.mulVec (env.grad (ss i).xOld)) } = some (s1, b) := by
          rw [runAll] at e0
          cases hw : wolfe env.obj env.grad alpha c1 c2 fuel { ss i with gradOld := env.grad (ss i).xOld, update := -((ss i).invHessian.mulVec (env.grad (ss i).xOld)) } with
          | none => simp [hw] at e0
          | some q =>
            obtain ⟨s2, b2⟩ := q
            simp only [hw, runAll, Bool.or_false] at e0
            exact e0
        obtain ⟨_, _, hA, hC, hpos⟩ := C69_wolfe _ _ _ _ _ _ _ _ _ e0'
        have hpos := hpos ha
        rw [eh] at hA hC hpos
        refine ⟨hpos, hgne, ?_, hA, hC⟩
        simp only [Curvature] at hC
        rw [← ex] at hC
        have hdx : (ss (i + 1)).xOld - (ss i).xOld = (ss (i + 1)).h • -((ss i).invHessian.mulVec (env.grad (ss i).xOld)) := by
          rw [ex]; abel
        rw [hdx, smul_dotProduct, dotProduct_sub, smul_eq_mul, dotProduct_comm _ (env.grad (ss (i + 1)).xOld),
          dotProduct_comm _ (env.grad (ss i).xOld)]
        refine mul_pos hpos ?_
        nlinarith
      have hspd : ∀ i ≤ N, SPD (ss i).invHessian := by
        intro i
        induction i with
        | zero => intro _; rw [h4]; exact spd_one
        | succ i ih =>
          intro hi
          obtain ⟨_, s1, b, _, _, _, eH⟩ := h6 i hi
          rw [eH]
          exact (C67_update _ _ _ (ih (by omega)) (turn i hi (ih (by omega))).2.2.1).1
      simp only
      rw [← hN]
      refine ⟨fun i => (ss i).xOld, fun i => (ss (i + 1)).h, fun i => (ss i).invHessian, h1, h3, h4, h2, trivial, fun k hk => ?_, h8⟩
      obtain ⟨ht, s1, b, _, _, e, eH⟩ := h6 k hk
      obtain ⟨t1, t2, _, t4, t5⟩ := turn k hk (hspd k hk.le)
      exact ⟨e, eH, ht, t2, t1, hspd k hk.le, t4, t5⟩

/-- Factor by which the distance to the minimum shrinks at each iteration of BFGS. -/
noncomputable def bfgsRate (L μ c1 c2 : ℝ) : ℝ := Real.exp (-(2 * μ ^ 2 * (c1 * (1 - c2)) / L * Real.exp (1 - L)))

/-- **C133**, rate: whenever BFGS with the Wolfe line search returns on an objective with curvature between `μ` and `L`, the distance of the value from
the minimum has been multiplied by at most `bfgsRate` at each iteration, which is less than one; the number of iterations is the least
`k` for which that bound is below `tol² / 2L` or less, whatever `max_iter` is; and the gradient is at most `tol` at the point returned
and the value is within `tol² / 2μ` of the minimum.  Partial: the last holds unless the last step led to a point with zero gradient,
when the point before it is returned (`C66_bug_returns_old`). -/
theorem C133_rate_partial (env : Env ℝ n σ) (alpha c1 c2 : ℝ) (fuel : Nat) (ha : 0 < alpha) (hc1 : 0 < c1) (hc2 : c2 < 1)
    (hpre : env.pre = [wolfe env.obj env.grad alpha c1 c2 fuel]) (hpost : ∀ c ∈ env.post, OnlyLooks c) (hcrit : OnlyLooks env.crit)
    (hnrm : Euclidean env.nrm) {L μ : ℝ} (hμ : 0 < μ) (hL : 0 < L) (hS : Smooth env.obj env.grad L) (hC : StronglyConvex env.obj env.grad μ)
    (y : Vec ℝ n) (hy : ∀ x, env.obj y ≤ env.obj x) (tol step : ℝ) (htol : 0 < tol) (maxIter : Nat) (x0 : Vec ℝ n) (s : St ℝ n σ)
    (r : Result ℝ n) (h : bfgsOptimize env maxIter tol step x0 s = some r) :
    bfgsRate L μ c1 c2 < 1 ∧ r.value = env.obj r.optimum ∧
      r.value - env.obj y ≤ bfgsRate L μ c1 c2 ^ r.nIter * (env.obj x0 - env.obj y) ∧
      (∀ k, bfgsRate L μ c1 c2 ^ k * (env.obj x0 - env.obj y) ≤ tol ^ 2 / (2 * L) → r.nIter ≤ k) ∧
      (Quiet env → r.nIter < maxIter → (env.nrm (env.grad r.optimum) ≤ tol ∧ r.value - env.obj y ≤ tol ^ 2 / (2 * μ)) ∨
        ∃ (H : Mat ℝ n) (a : ℝ), SPD H ∧ env.grad (r.optimum + a • -(H.mulVec (env.grad r.optimum))) = 0) := by
  obtain ⟨x, hs, H, h1, h2, h3, h4, h5, h6, h7⟩ :=
    bfgs_wolfe_trace env alpha c1 c2 fuel ha hc2 hpre hpost hcrit hnrm tol step htol.le maxIter x0 s r h
  have hlin : ∀ N ≤ r.nIter, env.obj (x N) - env.obj y ≤ bfgsRate L μ c1 c2 ^ N * (env.obj x0 - env.obj y) := by
    intro N hN
    have := run_linear hS hC hμ hL hc1.le hc2.le x hs H N h3 (fun k hk => (h6 k (by omega)).1) (fun k hk => (h6 k (by omega)).2.1)
      (fun k hk => (h6 k (by omega)).2.2.2.1) (fun k hk => (h6 k (by omega)).2.2.2.2.1) (fun k hk => (h6 k (by omega)).2.2.2.2.2.1)
      (fun k hk => (h6 k (by omega)).2.2.2.2.2.2.1) (fun k hk => (h6 k (by omega)).2.2.2.2.2.2.2) y hy
    rwa [h2] at this
  have hpos : 0 < 2 * μ ^ 2 * (c1 * (1 - c2)) / L * Real.exp (1 - L) := by
    have : 0 < 1 - c2 := by linarith
    have := Real.exp_pos (1 - L)
    positivity
  refine ⟨(Real.exp_lt_exp.2 (by linarith)).trans_eq Real.exp_zero, h5, ?_, fun k hk => ?_, fun hq hn => ?_⟩
  · rw [h5, h4]
    exact hlin _ le_rfl
  · by_contra hlt
    have a1 := hlin k (by omega)
    have a2 := value_lower hS hL (x k) y hy
    have a3 := (h6 k (by omega)).2.2.1
    have a4 := (hnrm (env.grad (x k))).2
    have a5 : tol ^ 2 < dotProduct (env.grad (x k)) (env.grad (x k)) := by rw [← a4]; nlinarith
    have a6 : tol ^ 2 / (2 * L) < dotProduct (env.grad (x k)) (env.grad (x k)) / (2 * L) := div_lt_div_of_pos_right a5 (by positivity)
    linarith
  · rcases h7 hq hn with h | ⟨a, h⟩
    · refine .inl ⟨h, ?_⟩
      rw [h5]
      refine (value_upper hC hμ _ y).trans (div_le_div_of_nonneg_right ?_ (by positivity))
      obtain ⟨b1, b2⟩ := hnrm (env.grad r.optimum)
      rw [← b2]
      nlinarith
    · refine .inr ⟨_, a, ?_, h⟩
      rcases Nat.eq_zero_or_pos r.nIter with h0 | h0
      · rw [h0, h3]; exact spd_one
      · obtain ⟨k, hk⟩ : ∃ k, r.nIter = k + 1 := ⟨r.nIter - 1, by omega⟩
        obtain ⟨e1, e2, _, e4, e5, e6, _, e8⟩ := h6 k (by omega)
        rw [hk, e2]
        refine (C67_update _ _ _ e6 ?_).1
        have hne : x (k + 1) - x k ≠ 0 := by
          rw [e1, add_sub_cancel_left]
          refine smul_ne_zero e5.ne' (neg_ne_zero.2 fun e => ?_)
          have := e6.2 _ e4
          rw [e, dotProduct_zero] at this
          exact lt_irrefl _ this
        have := convex_mono hC (x k) (x (k + 1) - x k)
        rw [add_sub_cancel] at this
        exact lt_of_lt_of_le (mul_pos hμ (dot_self_pos hne)) this

/-! ## The runs return -/

section Fuel
variable {K : Type} [Field K] [LinearOrder K] [IsStrictOrderedRing K]

theorem wolfeLoop_mono (obj : Vec K n → K) (grad : Vec K n → Vec K n) (c1 c2 : K) (x u : Vec K n) (m : K) (q : K × K × Option K) :
    ∀ (k : Nat) (alpha lo : K) (hi : Option K), wolfeLoop obj grad c1 c2 x u m k alpha lo hi = some q →
      ∀ k' ≥ k, wolfeLoop obj grad c1 c2 x u m k' alpha lo hi = some q := by
  intro k
  induction k with
  | zero =>
    intro alpha lo hi h k' hk'
    unfold wolfeLoop at h ⊢
    split_ifs at h ⊢ with h1 h2
    exact h
  | succ k ih =>
    intro alpha lo hi h k' hk'
    obtain ⟨j, rfl⟩ : ∃ j, k' = j + 1 := ⟨k' - 1, by omega⟩
    unfold wolfeLoop at h ⊢
    split_ifs at h ⊢ with h1 h2
    · exact ih _ _ _ h j (by omega)
    · cases hi with
      | none => exact ih _ _ _ h j (by omega)
      | some b => exact ih _ _ _ h j (by omega)
    · exact h

theorem wolfe_mono (obj : Vec K n → K) (grad : Vec K n → Vec K n) (alpha c1 c2 : K) (s : St K n σ) (q : St K n σ × Bool) (k : Nat)
    (h : wolfe obj grad alpha c1 c2 k s = some q) : ∀ k' ≥ k, wolfe obj grad alpha c1 c2 k' s = some q := by
  intro k' hk'
  unfold wolfe at h ⊢
  cases hl : wolfeLoop obj grad c1 c2 s.xOld s.update (dotProduct s.gradOld s.update) k alpha 0 none with
  | none => rw [hl] at h; cases h
  | some p =>
    rw [hl] at h
    rw [wolfeLoop_mono _ _ _ _ _ _ _ _ _ _ _ _ hl k' hk']
    exact h

/-- A main loop whose turns return when their searches are given enough turns returns. -/
theorem mainLoop_fuel (body : Nat → St K n σ → Option (Turn K n σ)) (I : St K n σ → Prop) (maxIter : Nat) (tol : K)
    (hb : ∀ s, I s → ∃ f t, (∀ f' ≥ f, body f' s = some t) ∧ ∀ s' e b, t = .cont s' e b → I s' ∧ s'.nIter = s.nIter + 1) :
    ∀ (k : Nat) (s : St K n σ) (err : K) (stop : Bool), I s → maxIter ≤ s.nIter + k →
      ∃ f, ∀ f' ≥ f, (mainLoop (body f') maxIter tol k s err stop).isSome := by
  intro k
  induction k with
  | zero =>
    intro s err stop _ hk
    refine ⟨0, fun f' _ => ?_⟩
    rw [mainLoop, if_neg (by omega)]
    rfl
  | succ k ih =>
    intro s err stop hI hk
    obtain ⟨f, t, h1, h2⟩ := hb s hI
    cases t with
    | ret s' x =>
      refine ⟨f, fun f' hf' => ?_⟩
      rw [mainLoop]
      split_ifs
      · rw [h1 f' hf']
        rfl
      · rfl
    | cont s' e b =>
      obtain ⟨i1, i2⟩ := h2 s' e b rfl
      obtain ⟨g, hg⟩ := ih s' e (stop || b) i1 (by omega)
      refine ⟨max f g, fun f' hf' => ?_⟩
      rw [mainLoop]
      split_ifs
      · rw [h1 f' (le_trans (le_max_left _ _) hf')]
        exact hg f' (le_trans (le_max_right _ _) hf')
      · rfl

end Fuel

theorem smooth_deriv {obj : Vec ℝ n → ℝ} {grad : Vec ℝ n → Vec ℝ n} {L μ : ℝ} (hS : Smooth obj grad L) (hC : StronglyConvex obj grad μ)
    (hμ : 0 ≤ μ) (hL : 0 ≤ L) (x u : Vec ℝ n) (t : ℝ) :
    HasDerivAt (fun t : ℝ => obj (x + t • u)) (dotProduct (grad (x + t • u)) u) t := by
  rw [hasDerivAt_iff_isLittleO]
  refine Asymptotics.IsBigO.trans_isLittleO (g := fun h => ‖h - t‖ ^ 2) ?_ ?_
  · refine Asymptotics.IsBigO.of_bound (L / 2 * dotProduct u u) (Filter.Eventually.of_forall fun h => ?_)
    have h1 := hS (x + t • u) ((h - t) • u)
    have h2 := hC (x + t • u) ((h - t) • u)
    rw [show x + t • u + (h - t) • u = x + h • u by module] at h1 h2
    simp only [dotProduct_smul, smul_dotProduct, smul_eq_mul] at h1 h2
    have h3 : 0 ≤ μ / 2 * ((h - t) * ((h - t) * dotProduct u u)) := by
      have := mul_nonneg (mul_nonneg (div_nonneg hμ (zero_le_two : (0 : ℝ) ≤ 2)) (sq_nonneg (h - t))) (dot_nonneg u)
      nlinarith
    rw [Real.norm_eq_abs, Real.norm_eq_abs, Real.norm_eq_abs, abs_of_nonneg (sq_nonneg |h - t|), sq_abs, abs_le]
    have h4 : 0 ≤ L / 2 * dotProduct u u * (h - t) ^ 2 := mul_nonneg (mul_nonneg (by linarith) (dot_nonneg u)) (sq_nonneg _)
    simp only [smul_eq_mul]
    constructor <;> nlinarith
  · exact Asymptotics.isLittleO_pow_sub_sub t one_lt_two

theorem smooth_cont {obj : Vec ℝ n → ℝ} {grad : Vec ℝ n → Vec ℝ n} {L μ : ℝ} (hS : Smooth obj grad L) (hC : StronglyConvex obj grad μ)
    (hμ : 0 ≤ μ) (x u : Vec ℝ n) : Continuous fun t : ℝ => dotProduct (grad (x + t • u)) u := by
  refine (LipschitzWith.of_dist_le_mul (K := (|L| * dotProduct u u).toNNReal) fun s t => ?_).continuous
  rw [Real.dist_eq, Real.dist_eq, Real.coe_toNNReal _ (mul_nonneg (abs_nonneg _) (dot_nonneg u))]
  rcases eq_or_ne s t with rfl | hst
  · simp
  have h1 := smooth_mono hS (x + t • u) ((s - t) • u)
  have h2 := convex_mono hC (x + t • u) ((s - t) • u)
  rw [show x + t • u + (s - t) • u = x + s • u by module] at h1 h2
  simp only [dotProduct_sub, dotProduct_smul, smul_dotProduct, smul_eq_mul] at h1 h2
  rw [dotProduct_comm u (grad (x + s • u)), dotProduct_comm u (grad (x + t • u))] at h1 h2
  set A := dotProduct (grad (x + s • u)) u - dotProduct (grad (x + t • u)) u with hA
  have h3 : 0 ≤ (s - t) * A := by
    have := mul_nonneg (mul_nonneg hμ (sq_nonneg (s - t))) (dot_nonneg u)
    nlinarith
  have h4 : (s - t) * A ≤ |L| * dotProduct u u * (s - t) ^ 2 := by
    have := mul_le_mul_of_nonneg_right (le_abs_self L) (mul_nonneg (sq_nonneg (s - t)) (dot_nonneg u))
    nlinarith
  have h5 : 0 < |s - t| := abs_pos.2 (sub_ne_zero.2 hst)
  refine le_of_mul_le_mul_left ?_ h5
  rw [← abs_mul, abs_of_nonneg h3, ← mul_assoc, mul_comm |s - t|, mul_assoc, abs_mul_abs_self]
  linarith [sq (s - t)]

/-- **C133**, termination: on an objective with curvature between `μ` and `L` all the searches of the run end, and so does the run. -/
theorem C133_returns (env : Env ℝ n σ) (alpha c1 c2 : ℝ) (ha : 0 < alpha) (h1 : 0 < c1) (h12 : c1 < c2) (hc2 : c2 < 1)
    (hpost : ∀ c ∈ env.post, OnlyLooks c ∧ Returns c) (hcrit : OnlyLooks env.crit ∧ Returns env.crit)
    {L μ : ℝ} (hμ : 0 < μ) (hL : 0 < L) (hS : Smooth env.obj env.grad L) (hC : StronglyConvex env.obj env.grad μ)
    (y : Vec ℝ n) (hy : ∀ x, env.obj y ≤ env.obj x) (tol step : ℝ) (maxIter : Nat) (x0 : Vec ℝ n) (s : St ℝ n σ) :
    ∃ fuel, ∀ fuel' ≥ fuel,
      (bfgsOptimize { env with pre := [wolfe env.obj env.grad alpha c1 c2 fuel'] } maxIter tol step x0 s).isSome := by
  have hp : ∀ f, Proper { env with pre := [wolfe env.obj env.grad alpha c1 c2 f] } := by
    refine fun f => ⟨fun c hc => ?_, fun c hc => (hpost c hc).1, hcrit.1⟩
    rw [List.mem_singleton] at hc
    subst hc
    intro t t' b ht
    have := (C69_wolfe _ _ _ _ _ _ _ _ _ ht).2.1
    rw [this]
  by_cases h0 : env.grad x0 = 0
  · refine ⟨0, fun f _ => ?_⟩
    rw [bfgsOptimize, if_pos h0]
    rfl
  obtain ⟨f, hf⟩ := mainLoop_fuel (fun f => bfgsTurn { env with pre := [wolfe env.obj env.grad alpha c1 c2 f] })
    (fun s => SPD s.invHessian ∧ s.gradOld = env.grad s.xOld ∧ env.grad s.xOld ≠ 0) maxIter tol (fun s hI => by
      obtain ⟨i1, i2, i3⟩ := hI
      have hm : dotProduct s.gradOld (-(s.invHessian.mulVec s.gradOld)) < 0 := by
        rw [dotProduct_neg, i2]
        exact neg_lt_zero.2 (i1.2 _ i3)
      obtain ⟨f, hf⟩ := C69_terminates env.obj env.grad alpha c1 c2 ha h1 h12 hc2 { s with update := -(s.invHessian.mulVec s.gradOld) } i2 hm
        (fun t => smooth_deriv hS hC hμ.le hL.le _ _ t) (smooth_cont hS hC hμ.le _ _) (env.obj y) (fun t => hy _)
      obtain ⟨⟨s1, b⟩, e⟩ := Option.isSome_iff_exists.1 hf
      have hall : ∀ f' ≥ f, runAll [wolfe env.obj env.grad alpha c1 c2 f'] { s with update := -(s.invHessian.mulVec s.gradOld) } = some (s1, b) := by
        intro f' hf'
        have := wolfe_mono _ _ _ _ _ _ _ _ e f' hf'
        simp only [runAll, this, Bool.or_false]
      have hex : ∃ t, ∀ f' ≥ f, bfgsTurn { env with pre := [wolfe env.obj env.grad alpha c1 c2 f'] } s = some t := by
        have hu : ∀ f' ≥ f, bfgsTurn { env with pre := [wolfe env.obj env.grad alpha c1 c2 f'] } s =
            if env.grad (s1.xOld + s1.h • s1.update) = 0 then
              some (.ret { s1 with xNew := s1.xOld + s1.h • s1.update, gradNew := env.grad (s1.xOld + s1.h • s1.update) } s1.xOld)
            else endTurn env { s1 with xNew := s1.xOld + s1.h • s1.update, gradNew := env.grad (s1.xOld + s1.h • s1.update),
                                       invHessian := bfgsUpdate s1.invHessian (s1.xOld + s1.h • s1.update - s1.xOld)
                                        (env.grad (s1.xOld + s1.h • s1.update) - s1.gradOld) } b := by
          intro f' hf'
          unfold bfgsTurn
          simp only [hall f' hf']
          rfl
        by_cases hz : env.grad (s1.xOld + s1.h • s1.update) = 0
        · exact ⟨_, fun f' hf' => by rw [hu f' hf', if_pos hz]⟩
        · obtain ⟨t, ht⟩ := endTurn_returns env (fun c hc => (hpost c hc).2) hcrit.2
            { s1 with
              xNew := s1.xOld + s1.h • s1.update, gradNew := env.grad (s1.xOld + s1.h • s1.update),
              invHessian := bfgsUpdate s1.invHessian (s1.xOld + s1.h • s1.update - s1.xOld) (env.grad (s1.xOld + s1.h • s1.update) - s1.gradOld) } b
          exact ⟨t, fun f' hf' => by rw [hu f' hf', if_neg hz, ht]⟩
      obtain ⟨t, ht⟩ := hex
      refine ⟨f, t, ht, fun s' e' b' et => ?_⟩
      obtain ⟨s1', b1, er, ⟨s2, stop, e2, e3, e4, e5, e6, e7, e8, _⟩ | ⟨s2, e2, _⟩⟩ := bfgsTurn_spec _ (hp f) s t (ht f le_rfl)
      · rw [et] at e2
        cases e2
        have er' := (hall f le_rfl).symm.trans er
        simp only [Option.some.injEq, Prod.mk.injEq] at er'
        obtain ⟨rfl, rfl⟩ := er'
        have hpos : 0 < s'.h := by
          have := (C69_wolfe _ _ _ _ _ _ _ _ _ e).2.2.2.2 ha
          rwa [e3] at this
        refine ⟨⟨?_, e5, e6⟩, e7⟩
        rw [e8, i2]
        refine (C67_update _ _ _ i1 ?_).1
        have hne : s'.xOld - s.xOld ≠ 0 := by
          rw [e4, add_sub_cancel_left]
          refine smul_ne_zero hpos.ne' (neg_ne_zero.2 fun e => ?_)
          have := i1.2 _ i3
          rw [← i2, e, dotProduct_zero] at this
          exact lt_irrefl _ this
        have := convex_mono hC s.xOld (s'.xOld - s.xOld)
        rw [add_sub_cancel] at this
        exact lt_of_lt_of_le (mul_pos hμ (dot_self_pos hne)) this
      · rw [et] at e2
        cases e2) maxIter { s with h := step, nIter := 0, xOld := x0, xNew := x0, invHessian := 1, gradOld := env.grad x0 } (env.nrm (env.grad x0)) false
    ⟨spd_one, rfl, h0⟩ (by simp)
  refine ⟨f, fun f' hf' => ?_⟩
  rw [bfgsOptimize, if_neg h0]
  obtain ⟨q, hq⟩ := Option.isSome_iff_exists.1 (hf f' hf')
  rw [bfgsRun, hq]
  rfl

/-- **C133**: BFGS with the Wolfe line search and no other callback, on an objective with curvature between `μ` and `L` and from any point, returns
within the number of iterations given by the rate a point where the gradient is at most `tol` and the value is within `tol² / 2μ`
of the minimum.  Partial: unless the last step led to a point with zero gradient, see `C66_bug_returns_old`. -/
theorem C133_bfgs_partial (obj : Vec ℝ n → ℝ) (grad : Vec ℝ n → Vec ℝ n) (nrm : Vec ℝ n → ℝ) (hnrm : Euclidean nrm)
    (alpha c1 c2 : ℝ) (ha : 0 < alpha) (h1 : 0 < c1) (h12 : c1 < c2) (hc2 : c2 < 1)
    {L μ : ℝ} (hμ : 0 < μ) (hL : 0 < L) (hS : Smooth obj grad L) (hC : StronglyConvex obj grad μ)
    (y : Vec ℝ n) (hy : ∀ x, obj y ≤ obj x) (tol step : ℝ) (htol : 0 < tol) (x0 : Vec ℝ n) :
    ∃ k0 : Nat, (∀ k, bfgsRate L μ c1 c2 ^ k * (obj x0 - obj y) ≤ tol ^ 2 / (2 * L) → k0 ≤ k) ∧
      ∀ maxIter > k0, ∀ (env : Env ℝ n σ), env.obj = obj → env.grad = grad → env.nrm = nrm → env.post = [] →
        env.crit = (fun s => some (s, false)) → ∀ s : St ℝ n σ, ∃ fuel, ∀ fuel' ≥ fuel,
        ∃ r, bfgsOptimize { env with pre := [wolfe obj grad alpha c1 c2 fuel'] } maxIter tol step x0 s = some r ∧
          r.value = obj r.optimum ∧ r.nIter ≤ k0 ∧
          ((nrm (grad r.optimum) ≤ tol ∧ r.value - obj y ≤ tol ^ 2 / (2 * μ)) ∨
            ∃ (H : Mat ℝ n) (a : ℝ), SPD H ∧ grad (r.optimum + a • -(H.mulVec (grad r.optimum))) = 0) := by
  have hlt : bfgsRate L μ c1 c2 < 1 := by
    have : 0 < 1 - c2 := by linarith
    have := Real.exp_pos (1 - L)
    have : 0 < 2 * μ ^ 2 * (c1 * (1 - c2)) / L * Real.exp (1 - L) := by positivity
    exact (Real.exp_lt_exp.2 (by linarith)).trans_eq Real.exp_zero
  have hex : ∃ k : Nat, bfgsRate L μ c1 c2 ^ k * (obj x0 - obj y) ≤ tol ^ 2 / (2 * L) := by
    have hd : 0 ≤ obj x0 - obj y := sub_nonneg.2 (hy _)
    have ht : 0 < tol ^ 2 / (2 * L) := by positivity
    obtain ⟨k, hk⟩ := exists_pow_lt_of_lt_one (div_pos ht (by linarith : 0 < obj x0 - obj y + 1)) hlt
    refine ⟨k, ?_⟩
    rw [lt_div_iff₀ (by linarith)] at hk
    have := pow_nonneg (Real.exp_pos (-(2 * μ ^ 2 * (c1 * (1 - c2)) / L * Real.exp (1 - L)))).le k
    have h0 : 0 ≤ bfgsRate L μ c1 c2 ^ k := this
    nlinarith
  classical
  refine ⟨Nat.find hex, fun k hk => Nat.find_min' hex hk, ?_⟩
  intro maxIter hmax env e1 e2 e3 e4 e5 s
  subst e1 e2 e3
  obtain ⟨fuel, hf⟩ := C133_returns env alpha c1 c2 ha h1 h12 hc2 (by rw [e4]; simp)
    (by rw [e5]; exact ⟨fun s s' b h => by cases h; rfl, fun s => rfl⟩) hμ hL hS hC y hy tol step maxIter x0 s
  refine ⟨fuel, fun f' hf' => ?_⟩
  obtain ⟨r, hr⟩ := Option.isSome_iff_exists.1 (hf f' hf')
  obtain ⟨-, q2, -, q4, q5⟩ := C133_rate_partial { env with pre := [wolfe env.obj env.grad alpha c1 c2 f'] } alpha c1 c2 f' ha h1 hc2 rfl (by simp [e4])
    (by show OnlyLooks env.crit; rw [e5]; exact fun s s' b h => by cases h; rfl) hnrm hμ hL hS hC y hy tol step htol maxIter x0 s r hr
  have hk := q4 _ (Nat.find_spec hex)
  refine ⟨r, hr, q2, hk, q5 ⟨fun c hc => ?_, by simp [e4], ?_⟩ (by omega)⟩
  · rw [List.mem_singleton] at hc
    subst hc
    intro s s' b h
    exact (C69_wolfe _ _ _ _ _ _ _ _ _ h).1
  · show NeverStops env.crit
    rw [e5]
    exact fun s s' b h => by cases h; rfl

/-- The objective `x² / 2 + y²`, without callbacks. -/
noncomputable def bowl : Env ℝ 2 Unit where
  obj x := x 0 ^ 2 / 2 + x 1 ^ 2
  grad x := ![x 0, 2 * x 1]
  hess _ := 0
  nrm v := Real.sqrt (dotProduct v v)
  lu _ v := v
  pre := []
  post := []
  crit s := some (s, false)

theorem bowl_smooth : Smooth bowl.obj bowl.grad 2 := by
  intro x d
  simp [bowl, dotProduct, Fin.sum_univ_two]
  nlinarith [sq_nonneg (d 0), sq_nonneg (d 1)]

theorem bowl_convex : StronglyConvex bowl.obj bowl.grad 1 := by
  intro x d
  simp [bowl, dotProduct, Fin.sum_univ_two]
  nlinarith [sq_nonneg (d 0), sq_nonneg (d 1)]

theorem bowl_norm : Euclidean bowl.nrm := fun v => ⟨Real.sqrt_nonneg _, Real.mul_self_sqrt (dot_nonneg v)⟩

theorem bowl_nonneg (x : Vec ℝ 2) : 0 ≤ bowl.obj x := by
  simp only [bowl]
  positivity

/-- The hypotheses are met by `x² / 2 + y²` with the default parameters of the line search, from any point. -/
example (x0 : Vec ℝ 2) : ∃ k0 : Nat, ∀ maxIter > k0, ∃ fuel, ∀ fuel' ≥ fuel, ∃ r,
    bfgsOptimize { bowl with pre := [wolfe bowl.obj bowl.grad 1 (1 / 10000) (9 / 10) fuel'] } maxIter (1 / 1000) 1 x0
      ⟨0, 0, 0, 0, 0, 0, 0, 0, ()⟩ = some r ∧ r.nIter ≤ k0 := by
  obtain ⟨k0, -, h⟩ := C133_bfgs_partial (σ := Unit) _ _ _ bowl_norm 1 (1 / 10000) (9 / 10) one_pos (by norm_num) (by norm_num) (by norm_num)
    one_pos two_pos bowl_smooth bowl_convex 0 (fun x => le_trans (by simp [bowl]) (bowl_nonneg x)) (1 / 1000) 1 (by norm_num) x0
  refine ⟨k0, fun m hm => ?_⟩
  obtain ⟨fuel, hf⟩ := h m hm bowl rfl rfl rfl rfl rfl ⟨0, 0, 0, 0, 0, 0, 0, 0, ()⟩
  refine ⟨fuel, fun f' hf' => ?_⟩
  obtain ⟨r, r1, -, r3, -⟩ := hf f' hf'
  exact ⟨r, r1, r3⟩

/-! ## Gradient descent with backtracking returns -/

section Backtracking
variable {K : Type} [Field K] [LinearOrder K] [IsStrictOrderedRing K]

theorem backtrackLoop_mono (obj : Vec K n → K) (beta gamma : K) (x u : Vec K n) (m a : K) :
    ∀ (k : Nat) (alpha : K), backtrackLoop obj beta gamma x u m k alpha = some a →
      ∀ k' ≥ k, backtrackLoop obj beta gamma x u m k' alpha = some a := by
  intro k
  induction k with
  | zero =>
    intro alpha h k' hk'
    unfold backtrackLoop at h ⊢
    split_ifs at h ⊢ with h1
    exact h
  | succ k ih =>
    intro alpha h k' hk'
    obtain ⟨j, rfl⟩ : ∃ j, k' = j + 1 := ⟨k' - 1, by omega⟩
    unfold backtrackLoop at h ⊢
    split_ifs at h ⊢ with h1
    · exact ih _ h j (by omega)
    · exact h

theorem backtracking_mono (obj : Vec K n → K) (alpha beta gamma : K) (s : St K n σ) (q : St K n σ × Bool) (k : Nat)
    (h : backtracking obj alpha beta gamma k s = some q) : ∀ k' ≥ k, backtracking obj alpha beta gamma k' s = some q := by
  intro k' hk'
  unfold backtracking at h ⊢
  simp only at h ⊢
  split_ifs at h ⊢ with hm
  · cases hl : backtrackLoop obj beta gamma s.xOld s.update (dotProduct s.gradOld s.update) k alpha with
    | none => rw [hl] at h; cases h
    | some p =>
      rw [hl] at h
      rw [backtrackLoop_mono _ _ _ _ _ _ _ _ _ hl k' hk']
      exact h
  · exact h

theorem backtrackLoop_returns (obj : Vec K n → K) (beta gamma : K) (x u : Vec K n) (m : K) :
    ∀ (k : Nat) (alpha : K), Armijo obj x u m gamma (alpha * beta ^ k) → (backtrackLoop obj beta gamma x u m k alpha).isSome := by
  intro k
  induction k with
  | zero =>
    intro alpha h
    rw [pow_zero, mul_one] at h
    unfold backtrackLoop
    rw [if_neg ((armijo_iff _ _ _ _ _ _).2 h)]
    rfl
  | succ k ih =>
    intro alpha h
    unfold backtrackLoop
    split_ifs
    · exact ih _ (by rwa [mul_assoc, ← pow_succ'])
    · rfl

/-- **C133**, gradient descent: with the backtracking line search it returns on every objective with curvature at most `L` and bounded below,
within the number of iterations of `C107_backtracking`, and the gradient at the point it returns is at most `tol`. -/
theorem C133_gradient_descent [Archimedean K] (env : Env K n σ) (alpha beta gamma : K) (ha : 0 < alpha) (hb : 0 < beta) (hb1 : beta < 1) (hg : 0 < gamma)
    (hg1 : gamma < 1) (hpost : ∀ c ∈ env.post, OnlyLooks c ∧ NeverStops c ∧ Returns c)
    (hcrit : OnlyLooks env.crit ∧ NeverStops env.crit ∧ Returns env.crit) (hnrm : Euclidean env.nrm) (L m : K) (hL : 0 < L)
    (hS : Smooth env.obj env.grad L) (hm : ∀ x, m ≤ env.obj x) (huge tol step : K) (htol : 0 < tol) (ht : tol < huge)
    (maxIter : Nat) (x0 : Vec K n) (s : St K n σ)
    (hN : ∃ N : Nat, N < maxIter ∧ env.obj x0 - m < N * (gamma * min alpha (2 * beta * (1 - gamma) / L) * (tol * tol))) :
    ∃ fuel, ∀ fuel' ≥ fuel, ∃ r, gdOptimize { env with pre := [backtracking env.obj alpha beta gamma fuel'] } huge maxIter tol step x0 s = some r ∧
      r.value = env.obj r.optimum ∧ r.value ≤ env.obj x0 ∧ env.nrm (env.grad r.optimum) ≤ tol := by
  have hp : ∀ f, Proper { env with pre := [backtracking env.obj alpha beta gamma f] } := by
    refine fun f => ⟨fun c hc => ?_, fun c hc => (hpost c hc).1, hcrit.1⟩
    rw [List.mem_singleton] at hc
    subst hc
    intro t t' b ht
    have := (C68_armijo _ _ _ _ _ _ _ _ ht).2.1
    rw [this]
  obtain ⟨f, hf⟩ := mainLoop_fuel (fun f => gdTurn { env with pre := [backtracking env.obj alpha beta gamma f] })
    (fun s => s.gradOld = env.grad s.xOld) maxIter tol (fun s i2 => by
      have hs : ∃ f, (backtracking env.obj alpha beta gamma f { s with update := -s.gradOld }).isSome := by
        by_cases hz : dotProduct s.gradOld (-s.gradOld) < 0
        · obtain ⟨k, hk⟩ := exists_pow_lt_of_lt_one (div_pos (show (0 : K) < 2 * (1 - gamma) by linarith) (mul_pos ha hL)) hb1
          have hA : Armijo env.obj s.xOld (-s.gradOld) (dotProduct s.gradOld (-s.gradOld)) gamma (alpha * beta ^ k) := by
            have h1 := smooth_step hS s.xOld (alpha * beta ^ k)
            rw [lt_div_iff₀ (mul_pos ha hL)] at hk
            rw [dotProduct_neg] at hz
            unfold Armijo
            rw [dotProduct_neg, i2]
            rw [i2] at hz
            set a := alpha * beta ^ k with had
            have hapos : 0 < a := by rw [had]; positivity
            have h2 : a * L ≤ 2 * (1 - gamma) := by rw [had]; linarith
            have h3 : gamma * a * dotProduct (env.grad s.xOld) (env.grad s.xOld) ≤ a * (1 - a * L / 2) * dotProduct (env.grad s.xOld) (env.grad s.xOld) := by
              refine mul_le_mul_of_nonneg_right ?_ (by linarith)
              have := mul_le_mul_of_nonneg_left (show gamma ≤ 1 - a * L / 2 by linarith) hapos.le
              linarith
            linarith
          obtain ⟨a, e⟩ := Option.isSome_iff_exists.1 (backtrackLoop_returns env.obj beta gamma s.xOld (-s.gradOld) _ k alpha hA)
          refine ⟨k, ?_⟩
          unfold backtracking
          simp only [if_pos hz, e]
          rfl
        · refine ⟨0, ?_⟩
          unfold backtracking
          simp only [if_neg hz]
          rfl
      obtain ⟨f, hf⟩ := hs
      obtain ⟨⟨s1, b⟩, e⟩ := Option.isSome_iff_exists.1 hf
      have hall : ∀ f' ≥ f, runAll [backtracking env.obj alpha beta gamma f'] { s with update := -s.gradOld } = some (s1, b) := by
        intro f' hf'
        have := backtracking_mono _ _ _ _ _ _ _ e f' hf'
        simp only [runAll, this, Bool.or_false]
      obtain ⟨t, et⟩ := endTurn_returns env (fun c hc => (hpost c hc).2.2) hcrit.2.2
        { s1 with xNew := s1.xOld + s1.h • s1.update, gradNew := env.grad (s1.xOld + s1.h • s1.update) } b
      have hu : ∀ f' ≥ f, gdTurn { env with pre := [backtracking env.obj alpha beta gamma f'] } s = some t := by
        intro f' hf'
        unfold gdTurn
        simp only [hall f' hf']
        exact et
      refine ⟨f, t, hu, fun s' e' b' ht => ?_⟩
      obtain ⟨_, _, s2, _, _, e2, _, _, e4, e3, _⟩ := gdTurn_spec _ (hp f) s t (hu f le_rfl)
      rw [ht] at e2
      cases e2
      exact ⟨e4, e3⟩) maxIter { s with h := step, nIter := 0, xOld := x0, xNew := x0, gradOld := env.grad x0 } huge false rfl (by simp)
  refine ⟨f, fun f' hf' => ?_⟩
  obtain ⟨q, hq⟩ := Option.isSome_iff_exists.1 (hf f' hf')
  have hr : gdOptimize { env with pre := [backtracking env.obj alpha beta gamma f'] } huge maxIter tol step x0 s =
      finish { env with pre := [backtracking env.obj alpha beta gamma f'] } (some q) := by rw [gdOptimize, hq]
  obtain ⟨r1, r2, -, r4⟩ := C107_backtracking { env with pre := [backtracking env.obj alpha beta gamma f'] } alpha beta gamma f' ha hb hg hg1 rfl
    (fun c hc => ⟨(hpost c hc).1, (hpost c hc).2.1⟩) ⟨hcrit.1, hcrit.2.1⟩ hnrm L m hL hS hm huge tol step htol ht maxIter x0 s _ hr
  exact ⟨_, hr, r1, r2, r4 hN⟩

end Backtracking

/-- The hypotheses are met by `x² / 2 + y²` with the default parameters of the search. -/
example (x0 : Vec ℝ 2) : ∃ maxIter fuel, ∀ fuel' ≥ fuel, ∃ r,
    gdOptimize { bowl with pre := [backtracking bowl.obj 2 (1 / 2) (1 / 2) fuel'] } 1000 maxIter (1 / 1000) 1 x0
      ⟨0, 0, 0, 0, 0, 0, 0, 0, ()⟩ = some r ∧ bowl.nrm (bowl.grad r.optimum) ≤ 1 / 1000 := by
  obtain ⟨N, hN⟩ := exists_nat_gt (bowl.obj x0 * 8000000)
  obtain ⟨f, hf⟩ := C133_gradient_descent bowl 2 (1 / 2) (1 / 2) (by norm_num) (by norm_num) (by norm_num) (by norm_num) (by norm_num)
    (by simp [bowl]) ⟨fun s s' b h => by cases h; rfl, fun s s' b h => by cases h; rfl, fun s => rfl⟩ bowl_norm 2 0 (by norm_num) bowl_smooth
    bowl_nonneg 1000 (1 / 1000) 1 (by norm_num) (by norm_num) (N + 1) x0 ⟨0, 0, 0, 0, 0, 0, 0, 0, ()⟩ ⟨N, by omega, by norm_num; linarith⟩
  refine ⟨N + 1, f, fun f' hf' => ?_⟩
  obtain ⟨r, r1, -, -, r4⟩ := hf f' hf'
  exact ⟨r, r1, r4⟩

end Fdapde.Optim
