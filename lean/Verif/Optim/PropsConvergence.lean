import Verif.Optim.PropsBfgs
import Verif.Optim.ConvergenceSpec
import Mathlib.Analysis.Calculus.Deriv.MeanValue
import Mathlib.Analysis.Calculus.Deriv.Pow
import Mathlib.Analysis.Calculus.Deriv.Mul
import Mathlib.Analysis.Calculus.Deriv.Add
import Mathlib.Tactic.Linarith
import Mathlib.Tactic.FieldSimp
/-!
# C107: convergence of the optimizers
-/
set_option linter.unusedSectionVars false

namespace Fdapde.Optim

variable {K : Type} [Field K] [LinearOrder K] [IsStrictOrderedRing K] {n : Nat} {σ : Type}

theorem dot_self_nonneg (v : Vec K n) : 0 ≤ dotProduct v v := Finset.sum_nonneg fun _ _ => mul_self_nonneg _

/-- One step along the negative gradient. -/
theorem smooth_step {obj : Vec K n → K} {grad : Vec K n → Vec K n} {L : K} (hS : Smooth obj grad L) (x : Vec K n) (h : K) :
    obj (x + h • -grad x) ≤ obj x - h * (1 - h * L / 2) * dotProduct (grad x) (grad x) := by
  have := hS x (h • -grad x)
  rw [dotProduct_smul, dotProduct_neg, smul_dotProduct, dotProduct_smul, dotProduct_neg, neg_dotProduct] at this
  simp only [smul_eq_mul] at this
  linarith

/-- A sequence which decreases by `c` times the square of the norm of the gradient. -/
theorem sum_decrease {obj : Vec K n → K} {x : Nat → Vec K n} {c tol : K} {g : Nat → K} (N : Nat) (hc : 0 < c) (ht : 0 ≤ tol)
    (hstep : ∀ k < N, obj (x (k + 1)) ≤ obj (x k) - c * (g k * g k)) (hg : ∀ k, 0 < k → k < N → tol < g k) :
    ∀ k, k ≤ N → obj (x k) ≤ obj (x 0) ∧ obj (x k) + ((k - 1 : Nat) : K) * (c * (tol * tol)) ≤ obj (x 0) := by
  intro k
  induction k with
  | zero => intro _; simp
  | succ k ih =>
    intro hk
    obtain ⟨h1, h2⟩ := ih (by omega)
    have h3 := hstep k (by omega)
    have h4 : 0 ≤ c * (g k * g k) := mul_nonneg hc.le (mul_self_nonneg _)
    refine ⟨by linarith, ?_⟩
    rcases k with _ | k
    · simp only [Nat.zero_add, Nat.sub_self, Nat.cast_zero, zero_mul, add_zero]
      simp only [Nat.zero_add] at h3
      linarith
    · have h5 := hg (k + 1) (by omega) (by omega)
      have h6 : c * (tol * tol) ≤ c * (g (k + 1) * g (k + 1)) := mul_le_mul_of_nonneg_left (mul_self_le_mul_self ht h5.le) hc.le
      simp only [Nat.add_sub_cancel, Nat.cast_add, Nat.cast_one] at h2 ⊢
      linarith

/-- C107, fixed step: on a function with curvature at most `L`, gradient descent with a step less than `2 / L` never increases the
objective; on a function bounded below by `m` it makes at most `1 + (f(x0) - m) / (h (1 - h L / 2) tol²)` iterations, and when
`max_iter` is larger than that (and no callback stops it) the norm of the gradient at the returned point is at most `tol`. -/
theorem C107_gradient_descent (env : Env K n σ) (hp : Proper env) (hq : Quiet env) (hpre : env.pre = []) (hnrm : Euclidean env.nrm) (L m : K)
    (hS : Smooth env.obj env.grad L) (hm : ∀ x, m ≤ env.obj x) (huge tol step : K) (htol : 0 < tol) (ht : tol < huge)
    (h0 : 0 < step) (h2 : step * L < 2) (maxIter : Nat) (x0 : Vec K n) (s : St K n σ) (r : Result K n)
    (h : gdOptimize env huge maxIter tol step x0 s = some r) :
    r.value = env.obj r.optimum ∧ r.value ≤ env.obj x0 ∧
      ((r.nIter - 1 : Nat) : K) * (step * (1 - step * L / 2) * (tol * tol)) ≤ env.obj x0 - m ∧
      ((∃ N : Nat, N < maxIter ∧ env.obj x0 - m < N * (step * (1 - step * L / 2) * (tol * tol))) → env.nrm (env.grad r.optimum) ≤ tol) := by
  obtain ⟨x, hs, h1, hd, h3, h4, h5, h6, h7⟩ := C65_gradient_descent env hp huge tol step ht maxIter x0 s r h
  have hc : 0 < step * (1 - step * L / 2) := mul_pos h0 (by linarith)
  have hstep : ∀ k < r.nIter, env.obj (x (k + 1)) ≤ env.obj (x k) - step * (1 - step * L / 2) * (env.nrm (env.grad (x k)) * env.nrm (env.grad (x k))) := by
    intro k hk
    have hx : x (k + 1) = x k + hs k • -env.grad (x k) := hd.2 k hk
    rw [hx, h7 hpre k hk, (hnrm _).2]
    exact smooth_step hS _ _
  have key := sum_decrease r.nIter hc htol.le hstep h5 r.nIter le_rfl
  rw [← h3, ← h4, hd.1] at key
  have hb := hm r.optimum
  rw [← h4] at hb
  refine ⟨h4, key.1, by linarith [key.2], ?_⟩
  rintro ⟨N, hN, hN'⟩
  refine h6 hq ?_
  by_contra hcon
  have hle : (N : K) ≤ ((r.nIter - 1 : Nat) : K) := by
    exact_mod_cast (by omega : N ≤ r.nIter - 1)
  have := mul_le_mul_of_nonneg_right hle (mul_pos hc (mul_pos htol htol)).le
  linarith [key.2]

/-- C107, backtracking: on a function with curvature at most `L` the backtracking search accepts a step of at least
`min(alpha, 2 beta (1 - gamma) / L)`; gradient descent with it makes at most `1 + (f(x0) - m) / (gamma hmin tol²)` iterations, whatever
`alpha`, and ends with gradient at most `tol` when `max_iter` is larger than that. -/
theorem C107_backtracking (env : Env K n σ) (alpha beta gamma : K) (fuel : Nat) (ha : 0 < alpha) (hb : 0 < beta) (hg : 0 < gamma) (hg1 : gamma < 1)
    (hpre : env.pre = [backtracking env.obj alpha beta gamma fuel]) (hpost : ∀ c ∈ env.post, OnlyLooks c ∧ NeverStops c)
    (hcrit : OnlyLooks env.crit ∧ NeverStops env.crit) (hnrm : Euclidean env.nrm) (L m : K) (hL : 0 < L)
    (hS : Smooth env.obj env.grad L) (hm : ∀ x, m ≤ env.obj x) (huge tol step : K) (htol : 0 < tol) (ht : tol < huge)
    (maxIter : Nat) (x0 : Vec K n) (s : St K n σ) (r : Result K n)
    (h : gdOptimize env huge maxIter tol step x0 s = some r) :
    r.value = env.obj r.optimum ∧ r.value ≤ env.obj x0 ∧
      ((r.nIter - 1 : Nat) : K) * (gamma * min alpha (2 * beta * (1 - gamma) / L) * (tol * tol)) ≤ env.obj x0 - m ∧
      ((∃ N : Nat, N < maxIter ∧ env.obj x0 - m < N * (gamma * min alpha (2 * beta * (1 - gamma) / L) * (tol * tol))) →
        env.nrm (env.grad r.optimum) ≤ tol) := by
  obtain ⟨x, hs, h1, hd, h3, h4, h5, h6, h7⟩ := backtracking_trace env alpha beta gamma fuel hpre (fun c hc => (hpost c hc).1) hcrit.1 huge tol step
    maxIter x0 s r h
  have hmin : 0 < min alpha (2 * beta * (1 - gamma) / L) := lt_min ha (div_pos (mul_pos (by linarith) (by linarith)) hL)
  have hc : 0 < gamma * min alpha (2 * beta * (1 - gamma) / L) := mul_pos hg hmin
  have hstep : ∀ k < r.nIter, env.obj (x (k + 1)) ≤ env.obj (x k) -
      gamma * min alpha (2 * beta * (1 - gamma) / L) * (env.nrm (env.grad (x k)) * env.nrm (env.grad (x k))) := by
    intro k hk
    have hx : x (k + 1) = x k + hs k • -env.grad (x k) := hd.2 k hk
    rw [(hnrm _).2]
    by_cases hz : env.grad (x k) = 0
    · rw [hx, hz]; simp
    · obtain ⟨h8, j, h9, h10⟩ := (h7 k hk).2 hz
      have hge : min alpha (2 * beta * (1 - gamma) / L) ≤ hs k := by
        rcases j with _ | j
        · rw [h9, pow_zero, mul_one]; exact min_le_left _ _
        · refine (min_le_right _ _).trans ?_
          have hno := h10 j (by omega)
          have hS' := smooth_step hS (x k) (alpha * beta ^ j)
          set a := alpha * beta ^ j with hadef
          have hapos : 0 < a := by rw [hadef]; positivity
          have hgg : 0 < dotProduct (env.grad (x k)) (env.grad (x k)) := by
            have := (spd_one (K := K) (n := n)).2 _ hz
            rwa [Matrix.one_mulVec] at this
          have hlt : 2 * (1 - gamma) < a * L := by
            by_contra hcon
            push Not at hcon
            apply hno
            unfold Armijo
            rw [dotProduct_neg]
            have : gamma * a * dotProduct (env.grad (x k)) (env.grad (x k)) ≤ a * (1 - a * L / 2) * dotProduct (env.grad (x k)) (env.grad (x k)) := by
              refine mul_le_mul_of_nonneg_right ?_ hgg.le
              have := mul_le_mul_of_nonneg_left (show gamma ≤ 1 - a * L / 2 by linarith) hapos.le
              linarith
            linarith
          have hja : hs k = a * beta := by rw [h9, hadef, pow_succ]; ring
          rw [hja, div_le_iff₀ hL]
          nlinarith
      have := h8
      unfold Armijo at this
      rw [← hx, dotProduct_neg] at this
      have h11 : gamma * min alpha (2 * beta * (1 - gamma) / L) * dotProduct (env.grad (x k)) (env.grad (x k)) ≤
          gamma * hs k * dotProduct (env.grad (x k)) (env.grad (x k)) :=
        mul_le_mul_of_nonneg_right (mul_le_mul_of_nonneg_left hge hg.le) (dot_self_nonneg _)
      linarith
  have key := sum_decrease r.nIter hc htol.le hstep h5 r.nIter le_rfl
  rw [← h3, ← h4, hd.1] at key
  have hb' := hm r.optimum
  rw [← h4] at hb'
  refine ⟨h4, key.1, by linarith [key.2], ?_⟩
  rintro ⟨N, hN, hN'⟩
  refine h6 (fun c hc => (hpost c hc).2) hcrit.2 ht ?_
  by_contra hcon
  have hle : (N : K) ≤ ((r.nIter - 1 : Nat) : K) := by
    exact_mod_cast (by omega : N ≤ r.nIter - 1)
  have := mul_le_mul_of_nonneg_right hle (mul_pos hc (mul_pos htol htol)).le
  linarith [key.2]

/-- The gap of a strongly convex function is at most the square of the gradient over `2 μ`. -/
theorem gap_le {obj : Vec K n → K} {grad : Vec K n → Vec K n} {μ : K} (hμ : 0 < μ) (hC : StronglyConvex obj grad μ) (x y : Vec K n) :
    obj x - obj y ≤ dotProduct (grad x) (grad x) / (2 * μ) := by
  have h1 := hC x (y - x)
  rw [add_sub_cancel] at h1
  have h2 := dot_self_nonneg (grad x + μ • (y - x))
  rw [add_dotProduct, dotProduct_add, dotProduct_add, smul_dotProduct, dotProduct_smul, smul_dotProduct, dotProduct_smul,
    dotProduct_comm (y - x) (grad x)] at h2
  simp only [smul_eq_mul] at h2
  rw [le_div_iff₀ (by linarith)]
  have h3 := mul_le_mul_of_nonneg_left h1 hμ.le
  nlinarith

/-- C107, rate: if the function is moreover strongly convex with constant `μ`, the distance from the least value decreases at each
iteration by the factor `1 - 2 μ h (1 - h L / 2)`, and a run ended by the tolerance returns a value within `tol² / (2 μ)` of the
least one. -/
theorem C107_rate (env : Env K n σ) (hp : Proper env) (hpre : env.pre = []) (hnrm : Euclidean env.nrm) (L μ : K) (hμ : 0 < μ)
    (hS : Smooth env.obj env.grad L) (hC : StronglyConvex env.obj env.grad μ) (huge tol step : K) (ht : tol < huge)
    (h0 : 0 < step) (h2 : step * L < 2) (maxIter : Nat) (x0 : Vec K n) (s : St K n σ) (r : Result K n)
    (h : gdOptimize env huge maxIter tol step x0 s = some r) (y : Vec K n) (hy : ∀ x, env.obj y ≤ env.obj x) :
    (0 ≤ 1 - 2 * μ * (step * (1 - step * L / 2)) →
      r.value - env.obj y ≤ (1 - 2 * μ * (step * (1 - step * L / 2))) ^ r.nIter * (env.obj x0 - env.obj y)) ∧
      (Quiet env → r.nIter < maxIter → 0 ≤ tol → r.value - env.obj y ≤ tol * tol / (2 * μ)) := by
  obtain ⟨x, hs, h1, hd, h3, h4, h5, h6, h7⟩ := C65_gradient_descent env hp huge tol step ht maxIter x0 s r h
  have hc : 0 < step * (1 - step * L / 2) := mul_pos h0 (by linarith)
  refine ⟨fun hrate => ?_, fun hq hlt htol => ?_⟩
  · set c := step * (1 - step * L / 2) with hcdef
    have key : ∀ k, k ≤ r.nIter → env.obj (x k) - env.obj y ≤ (1 - 2 * μ * c) ^ k * (env.obj x0 - env.obj y) := by
      intro k
      induction k with
      | zero => intro _; rw [hd.1, pow_zero, one_mul]
      | succ k ih =>
        intro hk
        have hx : x (k + 1) = x k + hs k • -env.grad (x k) := hd.2 k hk
        rw [h7 hpre k hk] at hx
        have e1 := smooth_step hS (x k) step
        rw [← hx, ← hcdef] at e1
        have e2 := gap_le hμ hC (x k) y
        rw [le_div_iff₀ (by linarith)] at e2
        have e3 := mul_le_mul_of_nonneg_left e2 hc.le
        have e4 := mul_le_mul_of_nonneg_left (ih (by omega)) hrate
        rw [pow_succ]
        nlinarith
    rw [h4, h3]
    exact key r.nIter le_rfl
  · have e1 := h6 hq hlt
    have e2 := gap_le hμ hC r.optimum y
    rw [← (hnrm _).2] at e2
    rw [h4]
    refine e2.trans (div_le_div_of_nonneg_right (mul_self_le_mul_self (hnrm _).1 e1) (by linarith))

/-- The first turn of Newton's method is always made. -/
theorem newton_first (env : Env K n σ) (hp : Proper env) (huge tol step : K) (ht : tol < huge) (maxIter : Nat) (hmax : 0 < maxIter)
    (x0 : Vec K n) (s : St K n σ) (r : Result K n) (h : newtonOptimize env huge maxIter tol step x0 s = some r) : r.nIter ≠ 0 := by
  unfold newtonOptimize at h
  cases hm : mainLoop (newtonTurn env) maxIter tol maxIter
    { s with h := step, nIter := 0, xOld := x0, xNew := x0 } huge false with
  | none => rw [hm] at h; cases h
  | some q =>
    obtain ⟨s', xr⟩ := q
    rw [hm] at h
    cases h
    obtain ⟨N, ss, errs, stops, h1, h2, h3, h4, h5⟩ := mainLoop_trace _ _ _ _ _ _ _ _ _ hm
    have inv : ∀ i ≤ N, (ss i).nIter = i := by
      intro i
      induction i with
      | zero => intro _; simp [h1]
      | succ i ih =>
        intro hi
        obtain ⟨_, b, hb, hst⟩ := h4 i (by omega)
        obtain ⟨s2, stop, e, _, e3, _⟩ := newtonTurn_spec env hp _ _ hb
        obtain ⟨rfl, eb, rfl⟩ := Turn.cont.inj e
        rw [e3, ih (by omega)]
    rcases h5 with ⟨hx, hs', hg⟩ | ⟨_, hb⟩
    · intro h0
      have h0' : s'.nIter = 0 := h0
      rw [hs', inv N le_rfl] at h0'
      subst h0'
      exact hg ⟨by rw [h1]; exact hmax, by rw [h2]; exact ht, h3⟩
    · obtain ⟨s2, stop, e, _⟩ := newtonTurn_spec env hp _ _ hb
      cases e

/-- C107, Newton's method with step one on a quadratic function with invertible matrix: one iteration, which ends at the stationary
point; it is the minimum when the matrix is symmetric and non-negative. -/
theorem C107_newton_quadratic (env : Env K n σ) (hp : Proper env) (hpre : env.pre = []) (A : Mat K n) (b : Vec K n)
    (hobj : env.obj = quad A b) (hgrad : env.grad = fun x => A.mulVec x - b) (hhess : ∀ x, env.hess x = A)
    (hlu : ∀ v, A.mulVec (env.lu A v) = v) (huge tol : K) (ht : tol < huge) (hz : env.nrm 0 ≤ tol) (maxIter : Nat) (hmax : 0 < maxIter)
    (x0 : Vec K n) (s : St K n σ) (r : Result K n) (h : newtonOptimize env huge maxIter tol 1 x0 s = some r) :
    r.nIter = 1 ∧ A.mulVec r.optimum = b ∧ r.value = quad A b r.optimum ∧
      (A.transpose = A → (∀ v, 0 ≤ dotProduct v (A.mulVec v)) → ∀ y, r.value ≤ quad A b y) := by
  obtain ⟨x, hs, h1, hd, h3, h4, h5, h6, h7⟩ := C65_newton env hp huge tol 1 ht maxIter x0 s r h
  have hstep : ∀ k < r.nIter, A.mulVec (x (k + 1)) = b := by
    intro k hk
    have hx : x (k + 1) = x k + hs k • -env.lu (env.hess (x k)) (env.grad (x k)) := hd.2 k hk
    rw [hx, h7 hpre k hk, one_smul, hhess, Matrix.mulVec_add, Matrix.mulVec_neg, hlu, hgrad]
    simp
  have hn : r.nIter = 1 := by
    have h8 : r.nIter ≠ 0 := by
      intro h0
      exact absurd h0 (newton_first env hp huge tol 1 ht maxIter hmax x0 s r h)
    by_contra hne
    have h9 := h5 1 (by omega) (by omega)
    have h10 : env.grad (x 1) = 0 := by
      rw [hgrad]
      have := hstep 0 (by omega)
      simp only [Nat.zero_add] at this
      simp [this]
    rw [h10] at h9
    exact absurd hz (not_le.2 h9)
  have hA : A.mulVec r.optimum = b := by rw [h3, hn]; exact hstep 0 (by omega)
  rw [hobj] at h4
  refine ⟨hn, hA, h4, fun hsym hpos y => ?_⟩
  have e := hpos (y - r.optimum)
  rw [Matrix.mulVec_sub, hA, sub_dotProduct, dotProduct_sub, dotProduct_sub] at e
  have e1 : dotProduct r.optimum (A.mulVec y) = dotProduct b y := by
    rw [Matrix.dotProduct_mulVec, ← Matrix.mulVec_transpose, hsym, hA]
  rw [h4, quad, quad, hA]
  rw [e1, dotProduct_comm y b, dotProduct_comm r.optimum b] at e
  rw [dotProduct_comm r.optimum b]
  linarith

/-- C107, Newton's method with step one near a stationary point `y`: if within distance `R` of it the linearization of the gradient is
exact up to `L/2` times the square of the distance and the hessian does not shrink vectors by more than `μ`, with `L R < 2 μ`, then from
any starting point in the ball the number of correct digits doubles at each iteration. -/
theorem C107_newton_rate (env : Env K n σ) (hp : Proper env) (hpre : env.pre = []) (hnrm : Euclidean env.nrm) (y : Vec K n)
    (hy : env.grad y = 0) (L μ R : K) (hL : 0 ≤ L) (hμ : 0 < μ) (hR : L * R < 2 * μ)
    (hlin : ∀ x, env.nrm (x - y) ≤ R →
      env.nrm (env.grad y - env.grad x - (env.hess x).mulVec (y - x)) ≤ L / 2 * (env.nrm (x - y) * env.nrm (x - y)))
    (hinv : ∀ x, env.nrm (x - y) ≤ R → ∀ v, μ * env.nrm v ≤ env.nrm ((env.hess x).mulVec v))
    (hlu : ∀ x, env.nrm (x - y) ≤ R → ∀ v, (env.hess x).mulVec (env.lu (env.hess x) v) = v)
    (huge tol : K) (ht : tol < huge) (maxIter : Nat) (x0 : Vec K n) (hx0 : env.nrm (x0 - y) ≤ R) (s : St K n σ) (r : Result K n)
    (h : newtonOptimize env huge maxIter tol 1 x0 s = some r) :
    env.nrm (r.optimum - y) ≤ R ∧
      L / (2 * μ) * env.nrm (r.optimum - y) ≤ (L / (2 * μ) * env.nrm (x0 - y)) ^ 2 ^ r.nIter := by
  obtain ⟨x, hs, h1, hd, h3, h4, h5, h6, h7⟩ := C65_newton env hp huge tol 1 ht maxIter x0 s r h
  have key : ∀ k, k ≤ r.nIter → env.nrm (x k - y) ≤ R ∧
      L / (2 * μ) * env.nrm (x k - y) ≤ (L / (2 * μ) * env.nrm (x0 - y)) ^ 2 ^ k := by
    intro k
    induction k with
    | zero => intro _; rw [hd.1, pow_zero, pow_one]; exact ⟨hx0, le_rfl⟩
    | succ k ih =>
      intro hk
      obtain ⟨i1, i2⟩ := ih (by omega)
      have hx : x (k + 1) = x k + hs k • -env.lu (env.hess (x k)) (env.grad (x k)) := hd.2 k hk
      rw [h7 hpre k hk, one_smul] at hx
      have e1 : (env.hess (x k)).mulVec (x (k + 1) - y) = env.grad y - env.grad (x k) - (env.hess (x k)).mulVec (y - x k) := by
        rw [hx, hy, Matrix.mulVec_sub, Matrix.mulVec_add, Matrix.mulVec_neg, hlu _ i1, Matrix.mulVec_sub]
        abel
      have e2 := hinv _ i1 (x (k + 1) - y)
      rw [e1] at e2
      have e3 := e2.trans (hlin _ i1)
      have n0 := (hnrm (x k - y)).1
      have e4 : env.nrm (x (k + 1) - y) ≤ L / (2 * μ) * env.nrm (x k - y) * env.nrm (x k - y) := by
        rw [← mul_le_mul_iff_right₀ hμ]
        refine e3.trans (le_of_eq ?_)
        field_simp
      have e5 : L / (2 * μ) * env.nrm (x k - y) ≤ 1 := by
        rw [div_mul_eq_mul_div, div_le_one (by linarith)]
        exact (mul_le_mul_of_nonneg_left i1 hL).trans hR.le
      refine ⟨(e4.trans (mul_le_of_le_one_left n0 e5)).trans i1, ?_⟩
      have hc : 0 ≤ L / (2 * μ) := by positivity
      rw [pow_succ, pow_mul, pow_two]
      refine (mul_le_mul_of_nonneg_left e4 hc).trans ?_
      rw [show L / (2 * μ) * (L / (2 * μ) * env.nrm (x k - y) * env.nrm (x k - y)) =
        L / (2 * μ) * env.nrm (x k - y) * (L / (2 * μ) * env.nrm (x k - y)) by ring]
      exact mul_self_le_mul_self (mul_nonneg hc n0) i2
  rw [h3]
  exact key r.nIter le_rfl

/-- The hypothesis on the curvature holds for a real function whose gradient is Lipschitz continuous with constant `L`. -/
theorem C107_lipschitz (obj : Vec ℝ n → ℝ) (grad : Vec ℝ n → Vec ℝ n) (L : ℝ)
    (hd : ∀ x d t, HasDerivAt (fun t : ℝ => obj (x + t • d)) (dotProduct (grad (x + t • d)) d) t)
    (hL : ∀ x d, dotProduct (grad (x + d) - grad x) d ≤ L * dotProduct d d) : Smooth obj grad L := by
  intro x d
  have hder : ∀ t : ℝ, HasDerivAt (fun t : ℝ => obj (x + t • d) - t * dotProduct (grad x) d - L / 2 * t ^ 2 * dotProduct d d)
      (dotProduct (grad (x + t • d)) d - dotProduct (grad x) d - L * t * dotProduct d d) t := by
    intro t
    have h1 := (hd x d t).sub ((hasDerivAt_id t).mul_const (dotProduct (grad x) d))
    have h2 := h1.sub ((((hasDerivAt_id t).pow 2).const_mul (L / 2)).mul_const (dotProduct d d))
    refine HasDerivAt.congr_deriv (f := fun t : ℝ => obj (x + t • d) - t * dotProduct (grad x) d - L / 2 * t ^ 2 * dotProduct d d) h2 ?_
    simp only [id, Nat.cast_ofNat, Nat.add_one_sub_one, pow_one, one_mul, mul_one]
    ring
  have hanti : AntitoneOn (fun t : ℝ => obj (x + t • d) - t * dotProduct (grad x) d - L / 2 * t ^ 2 * dotProduct d d) (Set.Ici 0) := by
    refine antitoneOn_of_deriv_nonpos (convex_Ici 0) (fun t _ => (hder t).continuousAt.continuousWithinAt)
      (fun t _ => (hder t).differentiableAt.differentiableWithinAt) ?_
    intro t ht
    rw [interior_Ici, Set.mem_Ioi] at ht
    rw [(hder t).deriv]
    have := hL x (t • d)
    rw [dotProduct_smul, sub_dotProduct, dotProduct_smul, smul_dotProduct] at this
    simp only [smul_eq_mul] at this
    have h3 : t * (dotProduct (grad (x + t • d)) d - dotProduct (grad x) d - L * t * dotProduct d d) ≤ 0 := by linarith
    nlinarith
  have := hanti (Set.mem_Ici.2 le_rfl) (Set.mem_Ici.2 zero_le_one) zero_le_one
  simp only [one_smul, zero_smul, add_zero] at this
  linarith

/-! ### A concrete case: the parabola `x² / 2` in one dimension -/

/-- Objective `x² / 2` on vectors of size one, without callbacks. -/
def parabola : Env ℚ 1 Unit :=
  { obj := quad 1 0, grad := fun x => Matrix.mulVec 1 x - 0, hess := fun _ => 1, lu := fun _ v => v, nrm := fun v => |v 0|,
    pre := [], post := [], crit := fun s => some (s, false) }

theorem parabola_crit : OnlyLooks parabola.crit ∧ NeverStops parabola.crit :=
  ⟨fun s s' b h => by cases h; rfl, fun s s' b h => by cases h; rfl⟩

theorem parabola_hyp : Proper parabola ∧ Quiet parabola ∧ Euclidean parabola.nrm ∧ Smooth parabola.obj parabola.grad 1 ∧
    StronglyConvex parabola.obj parabola.grad 1 ∧ ∀ x, 0 ≤ parabola.obj x := by
  refine ⟨⟨fun c hc => absurd hc List.not_mem_nil, fun c hc => absurd hc List.not_mem_nil, parabola_crit.1⟩,
    ⟨fun c hc => absurd hc List.not_mem_nil, fun c hc => absurd hc List.not_mem_nil, parabola_crit.2⟩, fun v => ⟨abs_nonneg _, ?_⟩,
    fun x d => ?_, fun x d => ?_, fun x => ?_⟩
  · simp [parabola, dotProduct]
  · simp [parabola, quad, dotProduct]; ring_nf; rfl
  · simp [parabola, quad, dotProduct]; ring_nf; rfl
  · simp only [parabola, quad, Matrix.one_mulVec, zero_dotProduct, sub_zero]
    exact div_nonneg (dot_self_nonneg _) (by norm_num)

/-- Half steps from `3`, at most 400 iterations: the run ends by the tolerance, as the theorem says. -/
example : (∃ r, gdOptimize parabola 1000 400 (1 / 4) (1 / 2) (fun _ => 3) ⟨0, 0, 0, 0, 0, 0, 0, 0, ()⟩ = some r) ∧
    ∀ r, gdOptimize parabola 1000 400 (1 / 4) (1 / 2) (fun _ => 3) ⟨0, 0, 0, 0, 0, 0, 0, 0, ()⟩ = some r → |r.optimum 0| ≤ 1 / 4 := by
  obtain ⟨h1, h2, h3, h4, h5, h6⟩ := parabola_hyp
  refine ⟨Option.isSome_iff_exists.1 (C65_returns parabola h1 (fun c hc => absurd hc List.not_mem_nil)
    (fun c hc => absurd hc List.not_mem_nil) (fun s => rfl) _ _ _ _ _ _).1, fun r hr => ?_⟩
  have := (C107_gradient_descent parabola h1 h2 rfl h3 1 0 h4 h6 _ _ _ (by norm_num) (by norm_num) (by norm_num) (by norm_num) _ _ _ r hr).2.2.2
    ⟨200, by norm_num, by norm_num [parabola, quad, dotProduct]⟩
  simpa [parabola] using this

example : (gdOptimize parabola 1000 8 (1 / 4) (1 / 2) (fun _ => 3) ⟨0, 0, 0, 0, 0, 0, 0, 0, ()⟩).map (fun r => (r.nIter, r.optimum 0)) =
      some (4, 3 / 16) ∧
    (gdOptimize { parabola with pre := [backtracking parabola.obj 2 (1 / 2) (1 / 2) 10] } 1000 8 (1 / 4) (1 / 2) (fun _ => 3)
      ⟨0, 0, 0, 0, 0, 0, 0, 0, ()⟩).map (fun r => (r.nIter, r.optimum 0)) = some (1, 0) ∧
    (newtonOptimize parabola 1000 8 (1 / 4) 1 (fun _ => 3) ⟨0, 0, 0, 0, 0, 0, 0, 0, ()⟩).map (fun r => (r.nIter, r.optimum 0)) = some (1, 0) := by
  decide +kernel

/-- Objective `x³ / 3 + x² / 2` on vectors of size one. -/
def cubic : Env ℚ 1 Unit :=
  { obj := fun x => x 0 ^ 3 / 3 + x 0 ^ 2 / 2, grad := fun x _ => x 0 ^ 2 + x 0, hess := fun x _ _ => 2 * x 0 + 1,
    lu := fun A v _ => v 0 / A 0 0, nrm := fun v => |v 0|, pre := [], post := [], crit := fun s => some (s, false) }

/-- The hypotheses of the theorem are met near zero, with `L = 2`, `μ = 1/2`, `R = 1/4`. -/
example (r : Result ℚ 1) (h : newtonOptimize cubic 1000 3 0 1 (fun _ => 1 / 4) ⟨0, 0, 0, 0, 0, 0, 0, 0, ()⟩ = some r) :
    2 * |r.optimum 0| ≤ (1 / 2) ^ 2 ^ r.nIter := by
  have hb : ∀ x : Vec ℚ 1, cubic.nrm (x - 0) ≤ 1 / 4 → 1 / 2 ≤ 2 * x 0 + 1 := by
    intro x hx
    have : |x 0| ≤ 1 / 4 := by simpa [cubic] using hx
    linarith [(abs_le.1 this).1]
  have := (C107_newton_rate cubic ⟨fun c hc => absurd hc List.not_mem_nil, fun c hc => absurd hc List.not_mem_nil,
      fun s s' b h => by cases h; rfl⟩ rfl (fun v => ⟨abs_nonneg _, by simp [cubic, dotProduct]⟩) 0 (by funext i; simp [cubic])
    2 (1 / 2) (1 / 4) (by norm_num) (by norm_num) (by norm_num)
    (fun x hx => by
      refine le_of_eq ?_
      simp [cubic, Matrix.mulVec, dotProduct]
      rw [show -(x 0) + -(x 0 ^ 2) + (2 * x 0 + 1) * x 0 = x 0 * x 0 by ring, abs_mul_self])
    (fun x hx v => by
      have := hb x hx
      simp only [cubic, Matrix.mulVec, dotProduct, Finset.univ_unique, Finset.sum_singleton, Fin.default_eq_zero]
      rw [abs_mul, abs_of_pos (show (0 : ℚ) < 2 * x 0 + 1 by linarith)]
      exact mul_le_mul_of_nonneg_right this (abs_nonneg _))
    (fun x hx v => by
      have := hb x hx
      have h0 : 2 * x 0 + 1 ≠ 0 := by linarith
      funext i
      have : i = 0 := Subsingleton.elim _ _
      subst this
      simp only [cubic, Matrix.mulVec, dotProduct, Finset.univ_unique, Finset.sum_singleton, Fin.default_eq_zero]
      field_simp)
    1000 0 (by norm_num) 3 (fun _ => 1 / 4) (by simp [cubic]) ⟨0, 0, 0, 0, 0, 0, 0, 0, ()⟩ r h).2
  simp [cubic] at this
  norm_num [abs_of_pos] at this ⊢
  exact this

end Fdapde.Optim
