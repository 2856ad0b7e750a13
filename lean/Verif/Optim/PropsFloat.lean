import Verif.Optim.FloatModel

/-!
# C148: the line searches in floating point
-/

namespace Fdapde.Optim.Flt
open Fdapde.Fp Fdapde.Fp.Dbl Classical

variable {n : Nat}

theorem round_zero : Dbl.round 0 = .fin 0 := by simp [Dbl.round, fit_zero]

theorem round_of_format {r : ℝ} (h : Format r) (h2 : |r| < 2 ^ 1024) : Dbl.round r = .fin r := by
  rw [Dbl.round, fit_format h, if_pos h2]

theorem round_ok (x : ℝ) : (Dbl.round x).Ok := by
  unfold Dbl.round
  split_ifs with h
  · exact ⟨fit_isFormat x, h⟩
  · trivial

theorem add_ok (a b : Dbl) : (a.add b).Ok := by
  cases a <;> cases b <;> simp only [Dbl.add] <;> first | exact round_ok _ | trivial | (split_ifs <;> trivial)

theorem mul_ok (a b : Dbl) : (a.mul b).Ok := by
  cases a <;> cases b <;> simp only [Dbl.mul] <;> first | exact round_ok _ | trivial | (split_ifs <;> trivial)

/-- A term that is not finite makes the scalar product not finite. -/
theorem dot_finite {g u : FVec n} {ord : Order n} {i : Fin n} (hi : ord.Has i) (h : (dot g u ord).Finite) : (u i).Finite := by
  induction ord with
  | term j =>
    obtain rfl : i = j := hi
    simp only [dot] at h
    cases hg : g i <;> cases hu : u i <;> simp only [hg, hu, Dbl.mul, Dbl.Finite] at h ⊢ <;> split_ifs at h <;> exact h
  | plus l r hl hr =>
    simp only [dot] at h
    have : (dot g u l).Finite ∧ (dot g u r).Finite := by
      cases hg : dot g u l <;> cases hu : dot g u r <;> simp only [hg, hu, Dbl.add, Dbl.Finite, and_self, and_true, true_and] at h ⊢ <;> split_ifs at h <;> exact h
    rcases hi with hi | hi
    · exact hl hi this.1
    · exact hr hi this.2

/-- The step zero is always accepted. -/
theorem accept_zero (obj : FVec n → Dbl) (ord : Order n) (hord : ∀ i, ord.Has i) (gamma : Dbl) (x g u : FVec n) (hx : ∀ i, (x i).Ok) :
    ¬ tooHigh obj gamma x u (dot g u ord) (.fin 0) := by
  intro h
  unfold tooHigh at h
  by_cases hf : (dot g u ord).Finite
  · have e : axpy x (.fin 0) u = x := by
      funext i
      have hu := dot_finite (hord i) hf
      have hxi := hx i
      unfold axpy
      cases hui : u i with
      | fin r =>
        rw [Dbl.mul, zero_mul, round_zero]
        cases hxx : x i with
        | fin q => rw [hxx] at hxi; rw [Dbl.add, add_zero, round_of_format hxi.1 hxi.2]
        | inf s => rfl
        | nan => rfl
      | inf s => rw [hui] at hu; exact hu.elim
      | nan => rw [hui] at hu; exact hu.elim
    rw [e] at h
    cases hm : dot g u ord with
    | fin m =>
      rw [hm] at h
      cases gamma with
      | fin c =>
        simp only [Dbl.mul, mul_zero, round_zero, zero_mul] at h
        cases ho : obj x with
        | fin f => rw [ho] at h; simp [Dbl.sub, Dbl.neg, Dbl.add, round_zero, Dbl.Lt] at h
        | inf s => rw [ho] at h; cases s <;> simp [Dbl.sub, Dbl.neg, Dbl.add, Dbl.Lt] at h
        | nan => rw [ho] at h; simp [Dbl.sub, Dbl.neg, Dbl.add, Dbl.Lt] at h
      | inf s =>
        simp only [Dbl.mul, if_true] at h
        cases ho : (obj x).sub (obj x) <;> rw [ho] at h <;> simp [Dbl.add, Dbl.Lt] at h
      | nan =>
        simp only [Dbl.mul] at h
        cases ho : (obj x).sub (obj x) <;> rw [ho] at h <;> simp [Dbl.add, Dbl.Lt] at h
    | inf s => rw [hm] at hf; exact hf.elim
    | nan => rw [hm] at hf; exact hf.elim
  · have hn : (gamma.mul (.fin 0)).mul (dot g u ord) = .nan := by
      cases hm : dot g u ord with
      | fin m => rw [hm] at hf; exact (hf trivial).elim
      | inf s => cases gamma <;> simp [Dbl.mul, round_zero]
      | nan => cases gamma <;> simp [Dbl.mul, round_zero]
    rw [hn] at h
    cases ho : (obj x).sub (obj (axpy x (.fin 0) u)) <;> rw [ho] at h <;> simp [Dbl.add, Dbl.Lt] at h

/-- A step below a power of two needs as many halvings as the power is above the smallest number of the format. -/
theorem btLoop_some (obj : FVec n → Dbl) (ord : Order n) (hord : ∀ i, ord.Has i) {b : ℝ} (hb : |b| ≤ 1 / 2) (gamma : Dbl) (x g u : FVec n)
    (hx : ∀ i, (x i).Ok) : ∀ (k : Nat), k ≤ 2099 → ∀ (a : ℝ), |a| ≤ (2 : ℝ) ^ ((k : ℤ) - 1075) →
      ∃ h, btLoop obj (.fin b) gamma x u (dot g u ord) (k + 1) (.fin a) = some h ∧ ¬ tooHigh obj gamma x u (dot g u ord) h := by
  intro k
  induction k with
  | zero =>
    intro _ a ha
    rw [btLoop]
    by_cases hc : tooHigh obj gamma x u (dot g u ord) (.fin a)
    · rw [if_pos hc]
      have e : (Dbl.fin a).mul (.fin b) = .fin 0 := by
        rw [Dbl.mul, Dbl.round, fit_tiny, abs_zero, if_pos (by positivity)]
        rw [abs_mul]
        calc |a| * |b| ≤ (2 : ℝ) ^ (((0 : Nat) : ℤ) - 1075) * 1 := mul_le_mul ha (by linarith) (abs_nonneg _) (by positivity)
          _ = _ := by norm_num
      rw [e, btLoop, if_neg (accept_zero obj ord hord gamma x g u hx)]
      exact ⟨_, rfl, accept_zero obj ord hord gamma x g u hx⟩
    · rw [if_neg hc]
      exact ⟨_, rfl, hc⟩
  | succ k ih =>
    intro hk a ha
    rw [btLoop]
    by_cases hc : tooHigh obj gamma x u (dot g u ord) (.fin a)
    · rw [if_pos hc]
      have h1 : |a * b| ≤ (2 : ℝ) ^ ((k : ℤ) - 1075) := by
        rw [abs_mul]
        calc |a| * |b| ≤ (2 : ℝ) ^ (((k + 1 : Nat) : ℤ) - 1075) * (1 / 2) := mul_le_mul ha hb (abs_nonneg _) (by positivity)
          _ = _ := by
            rw [show (((k + 1 : Nat) : ℤ) - 1075) = ((k : ℤ) - 1075) + 1 by push_cast; ring, zpow_add₀ (by norm_num), zpow_one]
            ring
      have h2 : |fit (a * b)| ≤ (2 : ℝ) ^ ((k : ℤ) - 1075) := by
        rcases Nat.eq_zero_or_pos k with rfl | hk0
        · rw [fit_tiny (by simpa using h1), abs_zero]; positivity
        · obtain ⟨l1, l2⟩ := abs_le.1 h1
          have up : ∀ y : ℝ, 0 ≤ y → y ≤ (2 : ℝ) ^ ((k : ℤ) - 1075) → |fit y| ≤ (2 : ℝ) ^ ((k : ℤ) - 1075) := fun y h0 hy => by
            rw [abs_of_nonneg (fit_nonneg h0), fit_pos h0]
            exact fitPos_le_pow h0 (by omega) hy
          rcases le_total 0 (a * b) with h0 | h0
          · exact up _ h0 l2
          · have := up (-(a * b)) (by linarith) (by linarith)
            rwa [fit_neg, abs_neg] at this
      have e : (Dbl.fin a).mul (.fin b) = .fin (fit (a * b)) := by
        rw [Dbl.mul, Dbl.round, if_pos]
        refine h2.trans_lt ?_
        rw [← zpow_natCast]
        exact zpow_lt_zpow_right₀ (by norm_num) (by push_cast; omega)
      rw [e]
      exact ih (by omega) _ h2
    · rw [if_neg hc]
      exact ⟨_, rfl, hc⟩

/-- **C148**: with a factor of at most one half (the default) the backtracking line search returns after at most 2100 reductions, for every objective
whatsoever (not continuous, infinite or NaN somewhere), every point, direction and gradient, every order of summation and every finite initial step; the step
it returns passes the test of the code. -/
theorem C148_backtracking_returns (obj : FVec n → Dbl) (ord : Order n) (hord : ∀ i, ord.Has i) {a b : ℝ} (ha : |a| < 2 ^ 1024) (hb : |b| ≤ 1 / 2) (gamma : Dbl)
    (x g u : FVec n) (hx : ∀ i, (x i).Ok) :
    ∃ h, btSearch obj ord (.fin a) (.fin b) gamma x g u 2100 = some h ∧ ((dot g u ord).Lt (.fin 0) → ¬ tooHigh obj gamma x u (dot g u ord) h) := by
  unfold btSearch
  by_cases hm : (dot g u ord).Lt (.fin 0)
  · rw [if_pos hm]
    have h1 : |a| ≤ (2 : ℝ) ^ (((2099 : Nat) : ℤ) - 1075) := by
      refine ha.le.trans (le_of_eq ?_)
      rw [← zpow_natCast]
      norm_num
    obtain ⟨h, e, hh⟩ := btLoop_some obj ord hord hb gamma x g u hx 2099 le_rfl a h1
    exact ⟨h, e, fun _ => hh⟩
  · rw [if_neg hm]
    exact ⟨_, rfl, fun h => (hm h).elim⟩

/-- **C148**: the step of the backtracking line search is the first of α, α·β, α·β·β, … (products rounded one after the other) that passes the test; when the
slope is not less than zero it is α itself. -/
theorem C148_backtracking_first (obj : FVec n → Dbl) (ord : Order n) (alpha beta gamma : Dbl) (x g u : FVec n) (fuel : Nat) {h : Dbl}
    (e : btSearch obj ord alpha beta gamma x g u fuel = some h) :
    ∃ k, h = (fun a => a.mul beta)^[k] alpha ∧ (¬ (dot g u ord).Lt (.fin 0) → k = 0) ∧
      ((dot g u ord).Lt (.fin 0) → ∀ j ≤ k, (((obj x).sub (obj fun i => (x i).add (((fun a => a.mul beta)^[j] alpha).mul (u i)))).add
        ((gamma.mul ((fun a => a.mul beta)^[j] alpha)).mul (dot g u ord))).Lt (.fin 0) ↔ j < k) := by
  unfold btSearch at e
  by_cases hm : (dot g u ord).Lt (.fin 0)
  · rw [if_pos hm] at e
    have key : ∀ (fuel : Nat) (alpha h : Dbl), btLoop obj beta gamma x u (dot g u ord) fuel alpha = some h →
        ∃ k, h = (fun a => a.mul beta)^[k] alpha ∧ ∀ j ≤ k, tooHigh obj gamma x u (dot g u ord) ((fun a => a.mul beta)^[j] alpha) ↔ j < k := by
      intro fuel
      induction fuel with
      | zero =>
        intro alpha h e
        rw [btLoop] at e
        split_ifs at e with hc
        obtain rfl := Option.some.inj e
        refine ⟨0, rfl, fun j hj => ?_⟩
        obtain rfl : j = 0 := by omega
        simpa using hc
      | succ f ih =>
        intro alpha h e
        rw [btLoop] at e
        split_ifs at e with hc
        · obtain ⟨k, k1, k2⟩ := ih _ _ e
          refine ⟨k + 1, by rw [k1, Function.iterate_succ_apply], fun j hj => ?_⟩
          cases j with
          | zero => simpa using hc
          | succ j =>
            rw [Function.iterate_succ_apply, k2 j (by omega)]
            omega
        · obtain rfl := Option.some.inj e
          refine ⟨0, rfl, fun j hj => ?_⟩
          obtain rfl : j = 0 := by omega
          simpa using hc
    obtain ⟨k, k1, k2⟩ := key _ _ _ e
    exact ⟨k, k1, fun h => (h hm).elim, fun _ j hj => k2 j hj⟩
  · rw [if_neg hm] at e
    exact ⟨0, (Option.some.inj e).symm, fun _ => rfl, fun h => (hm h).elim⟩

/-- **C148**: when the Wolfe line search returns, neither of the tests of the code that reject a step holds of the step returned, as computed in
floating point.  That it returns is not part of this theorem: it does not always (`C148_bug_wolfe_hangs`). -/
theorem C148_wolfe_partial (obj : FVec n → Dbl) (grad : FVec n → FVec n) (ord : Order n) (alpha c1 c2 : Dbl) (x g u : FVec n) (fuel : Nat) {h : Dbl}
    (e : wolfeSearch obj grad ord alpha c1 c2 x g u fuel = some h) :
    ¬ (((obj x).sub (obj fun i => (x i).add (h.mul (u i)))).add ((c1.mul h).mul (dot g u ord))).Lt (.fin 0) ∧
      ¬ (dot (grad fun i => (x i).add (h.mul (u i))) u ord).Lt (c2.mul (dot g u ord)) := by
  unfold wolfeSearch at e
  have key : ∀ (fuel : Nat) (alpha lo hi : Dbl), wolfeLoop obj grad ord c1 c2 x u (dot g u ord) fuel alpha lo hi = some h →
      ¬ tooHigh obj c1 x u (dot g u ord) h ∧ ¬ (dot (grad (axpy x h u)) u ord).Lt (c2.mul (dot g u ord)) := by
    intro fuel
    induction fuel with
    | zero => intro alpha lo hi e; cases e
    | succ f ih =>
      intro alpha lo hi e
      rw [wolfeLoop] at e
      split_ifs at e with h1 h2
      · exact ih _ _ _ e
      · exact ih _ _ _ e
      · obtain rfl := Option.some.inj e
        exact ⟨h1, h2⟩
  exact key _ _ _ _ e

/-- **C148**: gradient descent with the backtracking line search returns in floating point, for every objective, gradient, starting point, tolerance and number
of iterations. -/
theorem C148_gradient_descent_returns (obj : FVec n → Dbl) (grad : FVec n → FVec n) (nrm : FVec n → Dbl) (ord : Order n) (hord : ∀ i, ord.Has i) {a b : ℝ}
    (ha : |a| < 2 ^ 1024) (hb : |b| ≤ 1 / 2) (gamma tol huge : Dbl) (maxIter : Nat) (x0 : FVec n) (hx : ∀ i, (x0 i).Ok) :
    ∃ x, gdOptimize obj grad nrm ord (.fin a) (.fin b) gamma tol 2100 huge maxIter x0 = some x := by
  unfold gdOptimize
  generalize grad x0 = g
  generalize huge = error
  induction maxIter generalizing x0 g error with
  | zero => exact ⟨x0, rfl⟩
  | succ k ih =>
    rw [gdLoop]
    split_ifs with h
    · obtain ⟨s, e, -⟩ := C148_backtracking_returns obj ord hord ha hb gamma x0 g (fun i => (g i).neg) hx
      rw [e]
      exact ih _ (fun i => add_ok _ _) _ _
    · exact ⟨x0, rfl⟩

/-- The steps tried are numbers of the format between zero and the first one. -/
theorem btLoop_range (obj : FVec n → Dbl) {b : ℝ} (hb0 : 0 ≤ b) (hb : b ≤ 1) (gamma : Dbl) (x u : FVec n) (m : Dbl) :
    ∀ (k : Nat) (a : ℝ), 0 ≤ a → (Dbl.fin a).Ok → ∀ h, btLoop obj (.fin b) gamma x u m k (.fin a) = some h →
      (∃ r, h = .fin r ∧ 0 ≤ r ∧ r ≤ a ∧ (Dbl.fin r).Ok) ∧ ¬ tooHigh obj gamma x u m h := by
  intro k
  induction k with
  | zero =>
    intro a ha hok h e
    rw [btLoop] at e
    split_ifs at e with hc
    obtain rfl := Option.some.inj e
    exact ⟨⟨a, rfl, ha, le_rfl, hok⟩, hc⟩
  | succ k ih =>
    intro a ha hok h e
    rw [btLoop] at e
    split_ifs at e with hc
    · have h1 : 0 ≤ a * b := mul_nonneg ha hb0
      have h2 : fit (a * b) ≤ a := (fit_mono (mul_le_of_le_one_right ha hb)).trans (le_of_eq (fit_format hok.1))
      have h3 : |fit (a * b)| < 2 ^ 1024 := by
        rw [abs_of_nonneg (fit_nonneg h1)]
        exact h2.trans_lt ((le_abs_self a).trans_lt hok.2)
      have e1 : (Dbl.fin a).mul (.fin b) = .fin (fit (a * b)) := by rw [Dbl.mul, Dbl.round, if_pos h3]
      rw [e1] at e
      obtain ⟨⟨r, e2, r0, r1, r2⟩, hh⟩ := ih _ (fit_nonneg h1) ⟨fit_isFormat _, h3⟩ h e
      exact ⟨⟨r, e2, r0, r1.trans h2, r2⟩, hh⟩
    · obtain rfl := Option.some.inj e
      exact ⟨⟨a, rfl, ha, le_rfl, hok⟩, hc⟩

theorem round_nonpos {y : ℝ} (h : y ≤ 0) : (∃ r, Dbl.round y = .fin r ∧ r ≤ 0 ∧ Format r) ∨ Dbl.round y = .inf true := by
  unfold Dbl.round
  split_ifs with h1
  · refine .inl ⟨_, rfl, ?_, fit_isFormat y⟩
    have := fit_nonneg (x := -y) (by linarith)
    rw [fit_neg] at this
    linarith
  · right
    have : y < 0 := by
      rcases h.lt_or_eq with h | rfl
      · exact h
      · rw [fit_zero, abs_zero] at h1
        exact absurd (by positivity) h1
    simp [this]

/-- If a rounded sum is not negative, neither is the sum. -/
theorem not_lt_sum {a b : ℝ} (ha : Format a) (hb : Format b) (h : ¬ ((Dbl.fin a).add (.fin b)).Lt (.fin 0)) : 0 ≤ a + b := by
  rw [Dbl.add, Dbl.round] at h
  split_ifs at h with h1
  · simp only [Dbl.Lt, not_lt] at h
    exact fit_sign (ha.grid.add hb.grid) h
  · simpa [Dbl.Lt] using h

/-- What the test of the line searches says of the two values of the objective when the term of the slope is not positive. -/
theorem accepted_decrease {a b t : Dbl} (hox : a.Ok) (hoy : b.Ok) (ht : (∃ z, t = .fin z ∧ z ≤ 0 ∧ Format z) ∨ t = .inf true)
    (hh : ¬ ((a.sub b).add t).Lt (.fin 0)) : b.Le a ∨ b = .nan ∨ a = .nan := by
  cases a with
  | nan => exact .inr (.inr rfl)
  | inf s =>
    cases b with
    | nan => exact .inr (.inl rfl)
    | fin q =>
      left
      cases s with
      | false => rfl
      | true => rcases ht with ⟨z, rfl, -⟩ | rfl <;> exact (hh (by simp [Dbl.sub, Dbl.neg, Dbl.add, Dbl.Lt])).elim
    | inf s' =>
      left
      cases s with
      | false => exact .inr rfl
      | true =>
        cases s' with
        | true => exact .inl rfl
        | false => rcases ht with ⟨z, rfl, -⟩ | rfl <;> exact (hh (by simp [Dbl.sub, Dbl.neg, Dbl.add, Dbl.Lt])).elim
  | fin p =>
    cases b with
    | nan => exact .inr (.inl rfl)
    | inf s =>
      left
      cases s with
      | true => rfl
      | false => rcases ht with ⟨z, rfl, -⟩ | rfl <;> exact (hh (by simp [Dbl.sub, Dbl.neg, Dbl.add, Dbl.Lt])).elim
    | fin q =>
      left
      change q ≤ p
      by_contra hqp
      push Not at hqp
      have hd : p + -q ≤ 0 := by linarith
      have es : (Dbl.fin p).sub (.fin q) = Dbl.round (p + -q) := rfl
      rw [es] at hh
      have hd0 : ¬ 0 ≤ fit (p + -q) := fun h' => by
        have := fit_sign (hox.1.grid.add hoy.1.neg.grid) h'
        linarith
      rcases round_nonpos hd with ⟨d, ed, d0, df⟩ | ed
      · rw [ed] at hh
        have hdd : d < 0 := by
          unfold Dbl.round at ed
          split_ifs at ed with h1
          have : fit (p + -q) = d := Dbl.fin.inj ed
          rw [← this]
          exact not_le.1 hd0
        rcases ht with ⟨z, rfl, z0, zf⟩ | rfl
        · have := not_lt_sum df zf hh
          linarith
        · exact hh (by simp [Dbl.add, Dbl.Lt])
      · rw [ed] at hh
        rcases ht with ⟨z, rfl, -⟩ | rfl <;> exact hh (by simp [Dbl.add, Dbl.Lt])

/-- The term of the slope is not positive. -/
theorem slopeTerm {c r m : ℝ} (hc0 : 0 ≤ c) (hc : c ≤ 1) (r0 : 0 ≤ r) (rok : (Dbl.fin r).Ok) (hm0 : m < 0) :
    (∃ z, ((Dbl.fin c).mul (.fin r)).mul (.fin m) = .fin z ∧ z ≤ 0 ∧ Format z) ∨ ((Dbl.fin c).mul (.fin r)).mul (.fin m) = .inf true := by
  have e1 : (Dbl.fin c).mul (.fin r) = .fin (fit (c * r)) := by
    rw [Dbl.mul, Dbl.round, if_pos]
    rw [abs_of_nonneg (fit_nonneg (mul_nonneg hc0 r0))]
    exact ((fit_mono (mul_le_of_le_one_left r0 hc)).trans (le_of_eq (fit_format rok.1))).trans_lt ((le_abs_self r).trans_lt rok.2)
  have hle : fit (c * r) * m ≤ 0 := mul_nonpos_of_nonneg_of_nonpos (fit_nonneg (mul_nonneg hc0 r0)) hm0.le
  rw [e1]
  exact round_nonpos hle

/-- **C148**: also in floating point the objective does not increase: if the line search accepts a step along a direction of descent (slope less than zero and
finite), the computed objective after the step is not greater than before, unless one of the two is NaN (see `C148_bug_nan`). -/
theorem C148_backtracking_decrease_partial (obj : FVec n → Dbl) (hobj : ∀ y, (obj y).Ok) (ord : Order n) {a b c : ℝ} (ha : 0 ≤ a) (hok : (Dbl.fin a).Ok)
    (hb0 : 0 ≤ b) (hb : b ≤ 1) (hc0 : 0 ≤ c) (hc : c ≤ 1) (x g u : FVec n) {m : ℝ} (hm : dot g u ord = .fin m) (hm0 : m < 0) {fuel : Nat} {h : Dbl}
    (e : btSearch obj ord (.fin a) (.fin b) (.fin c) x g u fuel = some h) :
    (obj (axpy x h u)).Le (obj x) ∨ obj (axpy x h u) = .nan ∨ obj x = .nan := by
  rw [btSearch, hm, if_pos (by exact hm0)] at e
  obtain ⟨⟨r, rfl, r0, r1, rok⟩, hh⟩ := btLoop_range obj hb0 hb _ x u _ fuel a ha hok h e
  exact accepted_decrease (hobj _) (hobj _) (slopeTerm hc0 hc r0 rok hm0) hh

/-- Not negative: a number of the format or infinity. -/
def Step0 (d : Dbl) : Prop := (∃ r, d = .fin r ∧ 0 ≤ r ∧ (Dbl.fin r).Ok) ∨ d = .inf false

theorem Step0.round {y : ℝ} (h : 0 ≤ y) : Step0 (Dbl.round y) := by
  have h1 := round_ok y
  unfold Dbl.round at h1 ⊢
  split_ifs at h1 ⊢ with h2
  · exact .inl ⟨_, rfl, fit_nonneg h, h1⟩
  · right; simp [h]

theorem Step0.scale {d : Dbl} (h : Step0 d) {c : ℝ} (hc : 0 < c) : Step0 (d.mul (.fin c)) ∧ Step0 ((Dbl.fin c).mul d) := by
  rcases h with ⟨r, rfl, r0, -⟩ | rfl
  · exact ⟨Step0.round (mul_nonneg r0 hc.le), Step0.round (mul_nonneg hc.le r0)⟩
  · constructor <;> right <;> simp [Dbl.mul, hc.ne', hc.le]

theorem Step0.add {d e : Dbl} (h : Step0 d) (h' : Step0 e) : Step0 (d.add e) := by
  rcases h with ⟨r, rfl, r0, -⟩ | rfl <;> rcases h' with ⟨s, rfl, s0, -⟩ | rfl
  · exact Step0.round (add_nonneg r0 s0)
  · exact .inr rfl
  · exact .inr rfl
  · exact .inr (by simp [Dbl.add])

/-- **C148**, Wolfe: when the line search returns along a direction of descent, the objective after the step, as computed, is not greater than before, unless one
of the two is NaN. -/
theorem C148_wolfe_decrease_partial (obj : FVec n → Dbl) (hobj : ∀ y, (obj y).Ok) (grad : FVec n → FVec n) (ord : Order n) {a c : ℝ} (ha : 0 ≤ a)
    (hok : (Dbl.fin a).Ok) (hc0 : 0 < c) (hc : c ≤ 1) (c2 : Dbl) (x g u : FVec n) {m : ℝ} (hm : dot g u ord = .fin m) (hm0 : m < 0) {fuel : Nat} {h : Dbl}
    (e : wolfeSearch obj grad ord (.fin a) (.fin c) c2 x g u fuel = some h) :
    (obj (axpy x h u)).Le (obj x) ∨ obj (axpy x h u) = .nan ∨ obj x = .nan := by
  have key : ∀ (fuel : Nat) (alpha lo hi : Dbl), Step0 alpha → Step0 lo → Step0 hi →
      wolfeLoop obj grad ord (.fin c) c2 x u (dot g u ord) fuel alpha lo hi = some h → Step0 h := by
    intro fuel
    induction fuel with
    | zero => intro alpha lo hi _ _ _ e; cases e
    | succ f ih =>
      intro alpha lo hi s1 s2 s3 e
      rw [wolfeLoop] at e
      split_ifs at e with h1 h2
      · exact ih _ _ _ ((s2.add s1).scale (by norm_num)).1 s2 s1 e
      · refine ih _ _ _ ?_ s1 s3 e
        unfold longer
        split_ifs
        · exact (s1.scale (by norm_num)).2
        · exact ((s1.add s3).scale (by norm_num)).1
      · obtain rfl := Option.some.inj e
        exact s1
  have f0 : (Dbl.fin 0).Ok := ⟨⟨0, 0, by norm_num, by norm_num, by norm_num⟩, by rw [abs_zero]; positivity⟩
  have hs := key _ _ _ _ (.inl ⟨a, rfl, ha, hok⟩) (.inl ⟨0, rfl, le_rfl, f0⟩) (.inr rfl) e
  obtain ⟨h1, -⟩ := C148_wolfe_partial obj grad ord _ _ _ x g u fuel e
  refine accepted_decrease (hobj _) (hobj _) ?_ h1
  rw [hm]
  rcases hs with ⟨r, rfl, r0, rok⟩ | rfl
  · exact slopeTerm hc0.le hc r0 rok hm0
  · right
    simp [Dbl.mul, hc0.ne', hc0.le, hm0, hm0.ne]

/-- **C148 fails when the objective is NaN**: both line searches accept the first step whenever the objective and the gradient are NaN there, because no
comparison with NaN is true; an objective with a logarithm or a square root is left for ever as soon as the first step leaves its domain. -/
theorem C148_bug_nan (obj : FVec n → Dbl) (grad : FVec n → FVec n) (ord : Order n) (alpha beta gamma c1 c2 : Dbl) (x g u : FVec n) (fuel : Nat)
    (h : obj (axpy x alpha u) = .nan) (hg : dot (grad (axpy x alpha u)) u ord = .nan) :
    btSearch obj ord alpha beta gamma x g u fuel = some alpha ∧ wolfeSearch obj grad ord alpha c1 c2 x g u (fuel + 1) = some alpha := by
  have hn : ∀ c m, ¬ tooHigh obj c x u m alpha := by
    intro c m hh
    unfold tooHigh at hh
    rw [h] at hh
    cases hx : obj x <;> rw [hx] at hh <;> simp [Dbl.sub, Dbl.neg, Dbl.add, Dbl.Lt] at hh
  constructor
  · unfold btSearch
    split_ifs with hm
    · cases fuel <;> rw [btLoop, if_neg (hn _ _)]
    · rfl
  · rw [wolfeSearch, wolfeLoop, if_neg (hn _ _), if_neg]
    rw [hg]
    intro hh
    exact hh

/-! ### Searches that never return -/

theorem format_int (k : ℤ) (h : |k| < 2 ^ 53) : Format (k : ℝ) := ⟨k, 0, h, by norm_num, by simp⟩

/-- Rounding stays between numbers of the format. -/
theorem round_range {y lo hi : ℝ} (h1 : lo ≤ y) (h2 : y ≤ hi) (fl : Format lo) (fh : Format hi) (bl : -2 ^ 1024 < lo) (bh : hi < 2 ^ 1024) :
    ∃ r, Dbl.round y = .fin r ∧ lo ≤ r ∧ r ≤ hi ∧ Format r := by
  have h3 := fit_mono h1
  have h4 := fit_mono h2
  rw [fit_format fl] at h3
  rw [fit_format fh] at h4
  exact ⟨fit y, by rw [Dbl.round, if_pos (abs_lt.2 ⟨by linarith, by linarith⟩)], h3, h4, fit_isFormat y⟩

theorem huge_gt {q : ℝ} (h : q ≤ 2 ^ 100) : q < 2 ^ 1024 :=
  h.trans_lt (pow_lt_pow_right₀ (by norm_num) (by norm_num))

theorem neg_huge_lt {q : ℝ} (h : -2 ^ 100 ≤ q) : -2 ^ 1024 < q :=
  lt_of_lt_of_le (neg_lt_neg (pow_lt_pow_right₀ (by norm_num) (by norm_num))) h

/-- The objective 2^70 + v². -/
noncomputable def highBowl (v : FVec 1) : Dbl := (Dbl.fin (2 ^ 70)).add ((v 0).mul (v 0))

theorem highBowl_eq {v : FVec 1} {q : ℝ} (hv : v 0 = .fin q) (h1 : -3 ≤ q) (h2 : q ≤ 1) : highBowl v = .fin (2 ^ 70) := by
  obtain ⟨s, e, s0, s1, -⟩ := round_range (y := q * q) (lo := ((0 : ℤ) : ℝ)) (hi := ((9 : ℤ) : ℝ)) (by push_cast; nlinarith) (by push_cast; nlinarith)
    (format_int 0 (by norm_num)) (format_int 9 (by norm_num)) (neg_huge_lt (by norm_num)) (huge_gt (by norm_num))
  rw [highBowl, hv, Dbl.mul, e, Dbl.add]
  push_cast at s0 s1
  have h := fit_absorb (m := 2 ^ 52) (e := 18) (t := s) (by norm_num) (by norm_num; linarith) (by norm_num; linarith)
    (by rw [abs_of_nonneg s0]; norm_num; linarith)
  have e1 : ((2 ^ 52 : ℤ) : ℝ) * (2 : ℝ) ^ (18 : ℤ) = 2 ^ 70 := by norm_num
  rw [e1] at h
  rw [Dbl.round, h, if_pos]
  rw [abs_of_pos (by positivity)]
  exact pow_lt_pow_right₀ (by norm_num) (by norm_num)

/-- **C148 fails when the factor is at least 3/4**: on the objective 2^70 + v², from v = 1 along minus the gradient, the backtracking line search never
returns, for every factor from 3/4 on and every constant from 1/2 (the default) on.  The objective is flat in floating point, the test fails at every step, and
the step does not become zero: the smallest numbers of the format are rounded to themselves when multiplied by the factor. -/
theorem C148_bug_backtracking_hangs {b c : ℝ} (hb0 : 3 / 4 ≤ b) (hb : b ≤ 1) (hc0 : 1 / 2 ≤ c) (hc : c ≤ 1) (fuel : Nat) :
    btSearch highBowl (.term 0) (.fin 2) (.fin b) (.fin c) (fun _ => .fin 1) (fun _ => .fin 2) (fun _ => .fin (-2)) fuel = none := by
  have hm : dot (fun _ : Fin 1 => Dbl.fin 2) (fun _ => .fin (-2)) (.term 0) = .fin (-4) := by
    rw [dot, Dbl.mul, show (2 : ℝ) * -2 = ((-4 : ℤ) : ℝ) by norm_num, round_of_format (format_int _ (by norm_num))]
    · norm_num
    · exact abs_lt.2 ⟨neg_huge_lt (by norm_num), huge_gt (by norm_num)⟩
  rw [btSearch, hm, if_pos (by norm_num [Dbl.Lt])]
  have f2 : Format (2 : ℝ) := by exact_mod_cast format_int 2 (by norm_num)
  have hlow : fit (3 / 2 * (2 : ℝ) ^ (-1074 : ℤ)) = (2 : ℝ) ^ (-1073 : ℤ) := by
    have hx0 : (0 : ℝ) < 3 / 2 * (2 : ℝ) ^ (-1074 : ℤ) := by positivity
    have hl : Int.log 2 |3 / 2 * (2 : ℝ) ^ (-1074 : ℤ)| < -1073 := by
      rw [abs_of_pos hx0, ← Int.lt_zpow_iff_log_lt (by norm_num) hx0]
      push_cast
      rw [show (-1073 : ℤ) = -1074 + 1 by norm_num, zpow_add₀ (by norm_num), zpow_one, mul_comm]
      exact mul_lt_mul_of_pos_left (by norm_num) (by positivity)
    have hg : gap (3 / 2 * (2 : ℝ) ^ (-1074 : ℤ)) = (2 : ℝ) ^ (-1074 : ℤ) := by unfold gap; congr 1; omega
    have hn : nearest (3 / 2 : ℝ) = 2 := by
      have hf : ⌊(3 / 2 : ℝ)⌋ = 1 := by rw [Int.floor_eq_iff]; norm_num
      unfold nearest
      rw [hf, if_neg (by norm_num), if_neg (by norm_num), if_neg (by decide)]
      norm_num
    rw [fit_pos hx0.le, fitPos, hg, mul_div_assoc, div_self (by positivity), mul_one, hn,
      show (-1073 : ℤ) = -1074 + 1 by norm_num, zpow_add₀ (by norm_num), zpow_one, mul_comm]
    norm_num
  have e73 : (2 : ℝ) ^ (-1073 : ℤ) = 2 * (2 : ℝ) ^ (-1074 : ℤ) := by
    rw [show (-1073 : ℤ) = -1074 + 1 by norm_num, zpow_add₀ (by norm_num), zpow_one, mul_comm]
  have key : ∀ (fuel : Nat) (a : ℝ), (2 : ℝ) ^ (-1073 : ℤ) ≤ a → a ≤ 2 →
      btLoop highBowl (.fin b) (.fin c) (fun _ => .fin 1) (fun _ => .fin (-2)) (.fin (-4)) fuel (.fin a) = none := by
    intro fuel
    induction fuel with
    | zero | succ k ih =>
      intro a ha1 ha2
      have ha0 : 0 < a := lt_of_lt_of_le (by positivity) ha1
      have hhigh : tooHigh highBowl (.fin c) (fun _ => .fin 1) (fun _ => .fin (-2)) (.fin (-4)) (.fin a) := by
        unfold tooHigh
        obtain ⟨p, ep, p0, p1, -⟩ := round_range (y := a * -2) (lo := ((-4 : ℤ) : ℝ)) (hi := ((0 : ℤ) : ℝ)) (by push_cast; linarith) (by push_cast; linarith)
          (format_int (-4) (by norm_num)) (format_int 0 (by norm_num)) (neg_huge_lt (by norm_num)) (huge_gt (by norm_num))
        push_cast at p0 p1
        obtain ⟨q, eq, q0, q1, -⟩ := round_range (y := 1 + p) (lo := ((-3 : ℤ) : ℝ)) (hi := ((1 : ℤ) : ℝ)) (by push_cast; linarith) (by push_cast; linarith)
          (format_int (-3) (by norm_num)) (format_int 1 (by norm_num)) (neg_huge_lt (by norm_num)) (huge_gt (by norm_num))
        push_cast at q0 q1
        have e1 : highBowl (axpy (fun _ => .fin 1) (.fin a) fun _ => .fin (-2)) = .fin (2 ^ 70) :=
          highBowl_eq (q := q) (by rw [axpy, Dbl.mul, ep, Dbl.add, eq]) q0 q1
        have e0 : highBowl (fun _ => .fin 1) = .fin (2 ^ 70) := highBowl_eq (q := 1) rfl (by norm_num) le_rfl
        obtain ⟨z, ez, z0, z1, -⟩ := round_range (y := c * a) (lo := (2 : ℝ) ^ (-1074 : ℤ)) (hi := 2) (by nlinarith) (by nlinarith)
          (format_zpow le_rfl) f2 (neg_huge_lt (le_trans (by norm_num) (by positivity : (0 : ℝ) ≤ (2 : ℝ) ^ (-1074 : ℤ)))) (huge_gt (by norm_num))
        obtain ⟨w, ew, w0, w1, wf⟩ := round_range (y := z * -4) (lo := ((-8 : ℤ) : ℝ)) (hi := -(2 : ℝ) ^ (-1074 : ℤ)) (by push_cast; linarith)
          (by nlinarith [(by positivity : (0 : ℝ) < (2 : ℝ) ^ (-1074 : ℤ))])
          (format_int (-8) (by norm_num)) (format_zpow le_rfl).neg (neg_huge_lt (by norm_num))
          (huge_gt (le_trans (neg_nonpos.2 (by positivity)) (by norm_num)))
        push_cast at w0
        have hw : w < 0 := lt_of_le_of_lt w1 (neg_lt_zero.2 (by positivity))
        rw [e0, e1, Dbl.sub, Dbl.neg, Dbl.add, add_neg_cancel, round_zero, Dbl.mul, ez, Dbl.mul, ew, Dbl.add, zero_add,
          round_of_format wf (abs_lt.2 ⟨neg_huge_lt (by linarith), huge_gt (by linarith)⟩)]
        exact hw
      rw [btLoop, if_pos hhigh]
      all_goals
        obtain ⟨z, ez, z0, z1, -⟩ := round_range (y := a * b) (lo := 0) (hi := 2) (by nlinarith) (by nlinarith)
          (by exact_mod_cast format_int 0 (by norm_num)) f2 (neg_huge_lt (by norm_num)) (huge_gt (by norm_num))
        have hz : (2 : ℝ) ^ (-1073 : ℤ) ≤ z := by
          have h1 : 3 / 2 * (2 : ℝ) ^ (-1074 : ℤ) ≤ a * b := by nlinarith [(by positivity : (0 : ℝ) < (2 : ℝ) ^ (-1074 : ℤ))]
          have h2 := fit_mono h1
          rw [hlow] at h2
          have : fit (a * b) = z := by
            unfold Dbl.round at ez
            split_ifs at ez
            exact Dbl.fin.inj ez
          rwa [this] at h2
        rw [Dbl.mul, ez]
        exact ih z hz z1
  refine key fuel 2 ?_ le_rfl
  have : (2 : ℝ) ^ (-1073 : ℤ) ≤ (2 : ℝ) ^ (1 : ℤ) := zpow_le_zpow_right₀ (by norm_num) (by norm_num)
  simpa using this

/-- The objective 1 + v². -/
noncomputable def bowl (v : FVec 1) : Dbl := (Dbl.fin 1).add ((v 0).mul (v 0))

/-- Its gradient 2 v. -/
noncomputable def bowlGrad (v : FVec 1) : FVec 1 := fun _ => (Dbl.fin 2).mul (v 0)

theorem bowl_eq {v : FVec 1} {q : ℝ} (hv : v 0 = .fin q) (h1 : -(3 * (2 : ℝ) ^ (-31 : ℤ)) ≤ q) (h2 : q ≤ 3 * (2 : ℝ) ^ (-31 : ℤ)) : bowl v = .fin 1 := by
  have hq : q * q ≤ 9 * (2 : ℝ) ^ (-62 : ℤ) := by
    have e : (2 : ℝ) ^ (-62 : ℤ) = (2 : ℝ) ^ (-31 : ℤ) * (2 : ℝ) ^ (-31 : ℤ) := by rw [← zpow_add₀ (by norm_num)]; norm_num
    nlinarith
  obtain ⟨s, e, s0, s1, -⟩ := round_range (y := q * q) (lo := ((0 : ℤ) : ℝ)) (hi := 9 * (2 : ℝ) ^ (-62 : ℤ)) (by push_cast; nlinarith) hq
    (format_int 0 (by norm_num)) ⟨9, -62, by norm_num, by norm_num, by norm_num⟩ (neg_huge_lt (by norm_num)) (huge_gt (by norm_num))
  rw [bowl, hv, Dbl.mul, e, Dbl.add]
  push_cast at s0
  have s2 : s < (2 : ℝ) ^ (-53 : ℤ) := s1.trans_lt (by norm_num)
  have h := fit_absorb (m := 2 ^ 52) (e := -52) (t := s) (by norm_num) (by norm_num; linarith) (by norm_num at s2 ⊢; linarith)
    (by rw [abs_of_nonneg s0]; exact s2.trans_le (by norm_num))
  have e1 : ((2 ^ 52 : ℤ) : ℝ) * (2 : ℝ) ^ (-52 : ℤ) = 1 := by norm_num
  rw [e1] at h
  rw [Dbl.round, h, if_pos]
  rw [abs_one]
  exact one_lt_pow₀ (by norm_num) (by norm_num)

/-- **C148 fails for the Wolfe line search**: on the objective 1 + v², from v = 3·2^-31 (about 1.4e-9) along minus the gradient, the line search never returns,
for every first step between 2^-900 and 1, every `c1` between 2^-14 and 1 and every `c2` up to 15/16: in particular with the default parameters 1, 1e-4 and 0.9.
The objective is flat in floating point around its minimum, so the first condition fails for every step but those so small that the slope underflows, and
these do not change the point, so that the second condition fails. -/
theorem C148_bug_wolfe_hangs {a c d : ℝ} (ha0 : (2 : ℝ) ^ (-900 : ℤ) ≤ a) (ha : a ≤ 1) (hc0 : (2 : ℝ) ^ (-14 : ℤ) ≤ c) (hc : c ≤ 1) (hd0 : 0 ≤ d) (hd : d ≤ 15 / 16)
    (fuel : Nat) :
    wolfeSearch bowl bowlGrad (.term 0) (.fin a) (.fin c) (.fin d) (fun _ => .fin (3 * (2 : ℝ) ^ (-31 : ℤ))) (bowlGrad fun _ => .fin (3 * (2 : ℝ) ^ (-31 : ℤ)))
      (fun i => (bowlGrad (fun _ => .fin (3 * (2 : ℝ) ^ (-31 : ℤ))) i).neg) fuel = none := by
  have f0 : Format (0 : ℝ) := by exact_mod_cast format_int 0 (by norm_num)
  have f1 : Format (1 : ℝ) := by exact_mod_cast format_int 1 (by norm_num)
  have f2 : Format (2 : ℝ) := by exact_mod_cast format_int 2 (by norm_num)
  have fx : Format (3 * (2 : ℝ) ^ (-31 : ℤ)) := ⟨3, -31, by norm_num, by norm_num, by norm_num⟩
  have fg : Format (3 * (2 : ℝ) ^ (-30 : ℤ)) := ⟨3, -30, by norm_num, by norm_num, by norm_num⟩
  have fm : Format (-(9 * (2 : ℝ) ^ (-60 : ℤ))) := ⟨-9, -60, by norm_num, by norm_num, by norm_num⟩
  have hg : (bowlGrad fun _ => .fin (3 * (2 : ℝ) ^ (-31 : ℤ))) = fun _ => .fin (3 * (2 : ℝ) ^ (-30 : ℤ)) := by
    funext i
    rw [bowlGrad, Dbl.mul, show (2 : ℝ) * (3 * (2 : ℝ) ^ (-31 : ℤ)) = 3 * (2 : ℝ) ^ (-30 : ℤ) by norm_num, round_of_format fg]
    exact abs_lt.2 ⟨neg_huge_lt (by norm_num), huge_gt (by norm_num)⟩
  have hm : dot (fun _ : Fin 1 => Dbl.fin (3 * (2 : ℝ) ^ (-30 : ℤ))) (fun _ => .fin (-(3 * (2 : ℝ) ^ (-30 : ℤ)))) (.term 0) = .fin (-(9 * (2 : ℝ) ^ (-60 : ℤ))) := by
    rw [dot, Dbl.mul, show 3 * (2 : ℝ) ^ (-30 : ℤ) * -(3 * (2 : ℝ) ^ (-30 : ℤ)) = -(9 * (2 : ℝ) ^ (-60 : ℤ)) by norm_num, round_of_format fm]
    exact abs_lt.2 ⟨neg_huge_lt (by norm_num), huge_gt (by norm_num)⟩
  rw [wolfeSearch, hg]
  simp only [Dbl.neg]
  rw [hm]
  -- long steps do not pass the first condition
  have long : ∀ r : ℝ, (2 : ℝ) ^ (-900 : ℤ) ≤ r → r ≤ 1 → tooHigh bowl (.fin c) (fun _ => .fin (3 * (2 : ℝ) ^ (-31 : ℤ)))
      (fun _ => .fin (-(3 * (2 : ℝ) ^ (-30 : ℤ)))) (.fin (-(9 * (2 : ℝ) ^ (-60 : ℤ)))) (.fin r) := by
    intro r h1 h2
    have h0 : 0 < r := lt_of_lt_of_le (by positivity) h1
    unfold tooHigh
    obtain ⟨p, ep, p0, p1, -⟩ := round_range (y := r * -(3 * (2 : ℝ) ^ (-30 : ℤ))) (lo := -(3 * (2 : ℝ) ^ (-30 : ℤ))) (hi := 0)
      (by nlinarith [(by positivity : (0 : ℝ) < 3 * (2 : ℝ) ^ (-30 : ℤ))]) (by nlinarith [(by positivity : (0 : ℝ) < 3 * (2 : ℝ) ^ (-30 : ℤ))])
      fg.neg f0 (neg_huge_lt (by norm_num)) (huge_gt (by norm_num))
    have e30 : 3 * (2 : ℝ) ^ (-30 : ℤ) = 3 * (2 : ℝ) ^ (-31 : ℤ) + 3 * (2 : ℝ) ^ (-31 : ℤ) := by norm_num
    obtain ⟨q, eq, q0, q1, -⟩ := round_range (y := 3 * (2 : ℝ) ^ (-31 : ℤ) + p) (lo := -(3 * (2 : ℝ) ^ (-31 : ℤ))) (hi := 3 * (2 : ℝ) ^ (-31 : ℤ))
      (by linarith) (by linarith) fx.neg fx (neg_huge_lt (by norm_num)) (huge_gt (by norm_num))
    have e1 : bowl (axpy (fun _ => .fin (3 * (2 : ℝ) ^ (-31 : ℤ))) (.fin r) fun _ => .fin (-(3 * (2 : ℝ) ^ (-30 : ℤ)))) = .fin 1 :=
      bowl_eq (q := q) (by rw [axpy, Dbl.mul, ep, Dbl.add, eq]) q0 q1
    have e0 : bowl (fun _ => .fin (3 * (2 : ℝ) ^ (-31 : ℤ))) = .fin 1 := bowl_eq rfl (by norm_num) le_rfl
    have hcr : (2 : ℝ) ^ (-914 : ℤ) ≤ c * r := by
      calc (2 : ℝ) ^ (-914 : ℤ) = (2 : ℝ) ^ (-14 : ℤ) * (2 : ℝ) ^ (-900 : ℤ) := by rw [← zpow_add₀ (by norm_num)]; norm_num
        _ ≤ _ := mul_le_mul hc0 h1 (by positivity) (le_trans (by positivity) hc0)
    have hc00 : 0 ≤ c := le_trans (by positivity) hc0
    obtain ⟨z, ez, z0, z1, -⟩ := round_range (y := c * r) (lo := (2 : ℝ) ^ (-914 : ℤ)) (hi := 1) hcr (by nlinarith)
      (format_zpow (by norm_num)) f1 (neg_huge_lt (le_trans (by norm_num) (by positivity : (0 : ℝ) ≤ (2 : ℝ) ^ (-914 : ℤ)))) (huge_gt (by norm_num))
    have e974 : (2 : ℝ) ^ (-914 : ℤ) * (2 : ℝ) ^ (-60 : ℤ) = (2 : ℝ) ^ (-974 : ℤ) := by rw [← zpow_add₀ (by norm_num)]; norm_num
    obtain ⟨w, ew, w0, w1, wf⟩ := round_range (y := z * -(9 * (2 : ℝ) ^ (-60 : ℤ))) (lo := -(9 * (2 : ℝ) ^ (-60 : ℤ))) (hi := -(2 : ℝ) ^ (-974 : ℤ))
      (by nlinarith [(by positivity : (0 : ℝ) < (2 : ℝ) ^ (-60 : ℤ))])
      (by
        have h3 := mul_le_mul_of_nonneg_right z0 (by positivity : (0 : ℝ) ≤ (2 : ℝ) ^ (-60 : ℤ))
        rw [e974] at h3
        have h4 : (0 : ℝ) < (2 : ℝ) ^ (-974 : ℤ) := by positivity
        linarith)
      fm (format_zpow (by norm_num)).neg (neg_huge_lt (by norm_num)) (huge_gt (le_trans (neg_nonpos.2 (by positivity)) (by norm_num)))
    have hw : w < 0 := lt_of_le_of_lt w1 (neg_lt_zero.2 (by positivity))
    rw [e0, e1, Dbl.sub, Dbl.neg, Dbl.add, add_neg_cancel, round_zero, Dbl.mul, ez, Dbl.mul, ew, Dbl.add, zero_add,
      round_of_format wf (abs_lt.2 ⟨neg_huge_lt (le_trans (by norm_num) w0), huge_gt (by linarith)⟩)]
    exact hw
  -- short steps do not pass the second
  have short : ∀ r : ℝ, 0 ≤ r → r < (2 : ℝ) ^ (-900 : ℤ) → (dot (bowlGrad (axpy (fun _ => .fin (3 * (2 : ℝ) ^ (-31 : ℤ))) (.fin r)
      fun _ => .fin (-(3 * (2 : ℝ) ^ (-30 : ℤ))))) (fun _ => .fin (-(3 * (2 : ℝ) ^ (-30 : ℤ)))) (.term 0)).Lt ((Dbl.fin d).mul (.fin (-(9 * (2 : ℝ) ^ (-60 : ℤ))))) := by
    intro r h1 h2
    have e930 : (2 : ℝ) ^ (-900 : ℤ) * (2 : ℝ) ^ (-30 : ℤ) = (2 : ℝ) ^ (-930 : ℤ) := by rw [← zpow_add₀ (by norm_num)]; norm_num
    have h3 := mul_le_mul_of_nonneg_right h2.le (by positivity : (0 : ℝ) ≤ (2 : ℝ) ^ (-30 : ℤ))
    rw [e930] at h3
    have hp3 : (0 : ℝ) ≤ r * (2 : ℝ) ^ (-30 : ℤ) := by positivity
    obtain ⟨p, ep, p0, p1, -⟩ := round_range (y := r * -(3 * (2 : ℝ) ^ (-30 : ℤ))) (lo := -(3 * (2 : ℝ) ^ (-930 : ℤ))) (hi := 0)
      (by linarith) (by linarith) (Format.neg ⟨3, -930, by norm_num, by norm_num, by push_cast; ring⟩) f0
      (neg_huge_lt (by
        have : (2 : ℝ) ^ (-930 : ℤ) ≤ 1 := zpow_le_one_of_nonpos₀ (by norm_num) (by norm_num)
        norm_num at this ⊢
        linarith)) (huge_gt (by norm_num))
    have hsm : 3 * (2 : ℝ) ^ (-930 : ℤ) < (2 : ℝ) ^ (-83 : ℤ) := by
      calc 3 * (2 : ℝ) ^ (-930 : ℤ) ≤ (2 : ℝ) ^ (2 : ℤ) * (2 : ℝ) ^ (-930 : ℤ) := mul_le_mul_of_nonneg_right (by norm_num) (by positivity)
        _ = (2 : ℝ) ^ (-928 : ℤ) := by rw [← zpow_add₀ (by norm_num)]; norm_num
        _ < _ := zpow_lt_zpow_right₀ (by norm_num) (by norm_num)
    have hp : |p| < (2 : ℝ) ^ (-83 : ℤ) := by rw [abs_of_nonpos p1]; linarith
    have hp' := abs_lt.1 hp
    have e3 : ((3 * 2 ^ 51 : ℤ) : ℝ) * (2 : ℝ) ^ (-82 : ℤ) = 3 * (2 : ℝ) ^ (-31 : ℤ) := by norm_num
    have hab := fit_absorb (m := 3 * 2 ^ 51) (e := -82) (t := p) (by norm_num)
      (by rw [e3]; have := hp'.1; norm_num at this ⊢; linarith) (by rw [e3]; have := hp'.2; norm_num at this ⊢; linarith) (hp.trans_le (by norm_num))
    rw [e3] at hab
    have ey : axpy (fun _ => .fin (3 * (2 : ℝ) ^ (-31 : ℤ))) (.fin r) (fun _ : Fin 1 => .fin (-(3 * (2 : ℝ) ^ (-30 : ℤ)))) = fun _ => .fin (3 * (2 : ℝ) ^ (-31 : ℤ)) := by
      funext i
      rw [axpy, Dbl.mul, ep, Dbl.add, Dbl.round, hab, if_pos]
      exact abs_lt.2 ⟨neg_huge_lt (by norm_num), huge_gt (by norm_num)⟩
    rw [ey, hg, hm]
    obtain ⟨w, ew, w0, w1, wf⟩ := round_range (y := d * -(9 * (2 : ℝ) ^ (-60 : ℤ))) (lo := -(135 * (2 : ℝ) ^ (-64 : ℤ))) (hi := 0)
      (by
        have : d * (2 : ℝ) ^ (-60 : ℤ) ≤ 15 / 16 * (2 : ℝ) ^ (-60 : ℤ) := mul_le_mul_of_nonneg_right hd (by positivity)
        have e : 9 * (15 / 16 * (2 : ℝ) ^ (-60 : ℤ)) = 135 * (2 : ℝ) ^ (-64 : ℤ) := by norm_num
        rw [← e, mul_neg, neg_le_neg_iff, mul_left_comm]
        exact mul_le_mul_of_nonneg_left this (by norm_num))
      (by
        have : 0 ≤ d * (2 : ℝ) ^ (-60 : ℤ) := by positivity
        linarith) ⟨-135, -64, by norm_num, by norm_num, by norm_num⟩ f0 (neg_huge_lt (by norm_num)) (huge_gt (by norm_num))
    rw [Dbl.mul, ew]
    exact lt_of_lt_of_le (by norm_num) w0
  have half : ∀ r t : ℝ, 0 ≤ r → r ≤ 1 → 0 ≤ t → t ≤ 1 → ∃ q, ((Dbl.fin r).add (.fin t)).mul (.fin (1 / 2)) = .fin q ∧ 0 ≤ q ∧ q ≤ 1 := by
    intro r t r0 r1 t0 t1
    obtain ⟨z, ez, z0, z1, -⟩ := round_range (y := r + t) (lo := 0) (hi := 2) (by linarith) (by linarith) f0 f2 (neg_huge_lt (by norm_num)) (huge_gt (by norm_num))
    obtain ⟨w, ew, w0, w1, -⟩ := round_range (y := z * (1 / 2)) (lo := 0) (hi := 1) (by linarith) (by linarith) f0 f1 (neg_huge_lt (by norm_num)) (huge_gt (by norm_num))
    exact ⟨w, by rw [Dbl.add, ez, Dbl.mul, ew], w0, w1⟩
  have key : ∀ (fuel : Nat) (r t : ℝ) (hi : Dbl), 0 ≤ r → r ≤ 1 → 0 ≤ t → t ≤ 1 →
      ((∃ q, hi = .fin q ∧ 0 ≤ q ∧ q ≤ 1) ∨ (hi = .inf false ∧ (2 : ℝ) ^ (-900 : ℤ) ≤ r)) →
      wolfeLoop bowl bowlGrad (.term 0) (.fin c) (.fin d) (fun _ => .fin (3 * (2 : ℝ) ^ (-31 : ℤ))) (fun _ => .fin (-(3 * (2 : ℝ) ^ (-30 : ℤ))))
        (.fin (-(9 * (2 : ℝ) ^ (-60 : ℤ)))) fuel (.fin r) (.fin t) hi = none := by
    intro fuel
    induction fuel with
    | zero => intros; rfl
    | succ k ih =>
      intro r t hi r0 r1 t0 t1 hhi
      rw [wolfeLoop]
      split_ifs with hA hB
      · obtain ⟨q, eq, q0, q1⟩ := half t r t0 t1 r0 r1
        rw [eq]
        exact ih q t _ q0 q1 t0 t1 (.inl ⟨r, rfl, r0, r1⟩)
      · rcases hhi with ⟨q, rfl, q0, q1⟩ | ⟨rfl, hr⟩
        · obtain ⟨z, ez, z0, z1⟩ := half r q r0 r1 q0 q1
          have el : longer (.fin r) (.fin q) = ((Dbl.fin r).add (.fin q)).mul (.fin (1 / 2)) := rfl
          rw [el, ez]
          exact ih z r _ z0 z1 r0 r1 (.inl ⟨q, rfl, q0, q1⟩)
        · exact absurd (long r hr r1) hA
      · rcases lt_or_ge r ((2 : ℝ) ^ (-900 : ℤ)) with h | h
        · exact absurd (short r r0 h) hB
        · exact absurd (long r h r1) hA
  exact key fuel a 0 _ (le_trans (by positivity) ha0) ha le_rfl zero_le_one (.inr ⟨rfl, ha0⟩)

/-- The default parameters: the doubles nearest to 1, 1e-4 and 0.9. -/
example (fuel : Nat) : wolfeSearch bowl bowlGrad (.term 0) (.fin 1) (.fin (fit (1 / 10000))) (.fin (fit (9 / 10))) (fun _ => .fin (3 * (2 : ℝ) ^ (-31 : ℤ)))
    (bowlGrad fun _ => .fin (3 * (2 : ℝ) ^ (-31 : ℤ))) (fun i => (bowlGrad (fun _ => .fin (3 * (2 : ℝ) ^ (-31 : ℤ))) i).neg) fuel = none := by
  have f1 : Format (1 : ℝ) := by exact_mod_cast format_int 1 (by norm_num)
  refine C148_bug_wolfe_hangs (zpow_le_one_of_nonpos₀ (by norm_num) (by norm_num)) le_rfl ?_ ?_ (fit_nonneg (by norm_num)) ?_ fuel
  · have := fit_mono (show (2 : ℝ) ^ (-14 : ℤ) ≤ 1 / 10000 by norm_num)
    rwa [fit_format (format_zpow (by norm_num))] at this
  · have := fit_mono (show (1 / 10000 : ℝ) ≤ 1 by norm_num)
    rwa [fit_format f1] at this
  · have := fit_mono (show (9 / 10 : ℝ) ≤ 15 / 16 by norm_num)
    rwa [fit_format (x := 15 / 16) ⟨15, -4, by norm_num, by norm_num, by norm_num⟩] at this

/-- On the same objective, from v = 1 along minus the gradient, the Wolfe line search with the first step 1/2 returns it: the minimum is met exactly. -/
example (fuel : Nat) : wolfeSearch bowl bowlGrad (.term 0) (.fin (1 / 2)) (.fin (1 / 4)) (.fin (1 / 2)) (fun _ => .fin 1) (fun _ => .fin 2) (fun _ => .fin (-2))
    (fuel + 1) = some (.fin (1 / 2)) := by
  have hr : ∀ j : ℤ, |j| < 64 → Dbl.round ((j : ℝ) / 8) = .fin ((j : ℝ) / 8) := fun j hj => by
    have hj' : |(j : ℝ)| < 64 := by exact_mod_cast hj
    refine round_of_format ⟨j, -3, hj.trans (by norm_num), by norm_num, by norm_num [div_eq_mul_inv]⟩ ?_
    rw [abs_div, abs_of_pos (show (0 : ℝ) < 8 by norm_num)]
    exact lt_of_lt_of_le (by linarith : |(j : ℝ)| / 8 < 2 ^ 4) (pow_le_pow_right₀ (by norm_num) (by norm_num))
  have hrr : ∀ (y : ℝ) (j : ℤ), |j| < 64 → y = (j : ℝ) / 8 → Dbl.round y = .fin y := fun y j hj e => by rw [e]; exact hr j hj
  have hax : axpy (fun _ : Fin 1 => Dbl.fin 1) (.fin (1 / 2)) (fun _ => .fin (-2)) = fun _ => .fin 0 := by
    funext i
    rw [axpy, Dbl.mul, hrr _ (-8) (by norm_num) (by norm_num), Dbl.add, hrr _ 0 (by norm_num) (by norm_num)]
    norm_num
  have hm : dot (fun _ : Fin 1 => Dbl.fin 2) (fun _ => .fin (-2)) (.term 0) = .fin (-4) := by
    rw [dot, Dbl.mul, hrr _ (-32) (by norm_num) (by norm_num)]
    norm_num
  have hg : bowlGrad (fun _ => .fin 0) = fun _ => .fin 0 := by
    funext i
    rw [bowlGrad, Dbl.mul, hrr _ 0 (by norm_num) (by norm_num)]
    norm_num
  have hd : dot (fun _ : Fin 1 => Dbl.fin 0) (fun _ => .fin (-2)) (.term 0) = .fin 0 := by
    rw [dot, Dbl.mul, hrr _ 0 (by norm_num) (by norm_num)]
    norm_num
  have b0 : bowl (fun _ => .fin 0) = .fin 1 := by
    rw [bowl, Dbl.mul, hrr _ 0 (by norm_num) (by norm_num), Dbl.add, hrr _ 8 (by norm_num) (by norm_num)]
    norm_num
  have b1 : bowl (fun _ => .fin 1) = .fin 2 := by
    rw [bowl, Dbl.mul, hrr _ 8 (by norm_num) (by norm_num), Dbl.add, hrr _ 16 (by norm_num) (by norm_num)]
    norm_num
  rw [wolfeSearch, hm, wolfeLoop, if_neg, if_neg]
  · rw [hax, hg, hd, Dbl.mul, hrr _ (-16) (by norm_num) (by norm_num)]
    norm_num [Dbl.Lt]
  · rw [tooHigh, hax, b0, b1, Dbl.mul, hrr _ 1 (by norm_num) (by norm_num), Dbl.mul, hrr _ (-4) (by norm_num) (by norm_num), Dbl.sub, Dbl.neg, Dbl.add,
      hrr _ 8 (by norm_num) (by norm_num), Dbl.add, hrr _ 4 (by norm_num) (by norm_num)]
    norm_num [Dbl.Lt]

/-- The default parameters of the backtracking line search, on the objective on which it never returns with a factor of 3/4, and on the square. -/
example : (∃ h, btSearch highBowl (.term 0) (.fin 2) (.fin (1 / 2)) (.fin (1 / 2)) (fun _ => .fin 1) (fun _ => .fin 2) (fun _ => .fin (-2)) 2100 = some h) ∧
    ∃ h, btSearch (fun v : FVec 1 => (v 0).mul (v 0)) (.term 0) (.fin 2) (.fin (1 / 2)) (.fin (1 / 2)) (fun _ => .fin 1) (fun _ => .fin 2) (fun _ => .fin (-2)) 2100 =
      some h ∧ (((Dbl.fin 1).add (h.mul (.fin (-2)))).mul ((Dbl.fin 1).add (h.mul (.fin (-2))))).Le ((Dbl.fin 1).mul (.fin 1)) := by
  have f1 : (Dbl.fin 1).Ok := ⟨by exact_mod_cast format_int 1 (by norm_num), abs_lt.2 ⟨neg_huge_lt (by norm_num), huge_gt (by norm_num)⟩⟩
  have f2 : (Dbl.fin 2).Ok := ⟨by exact_mod_cast format_int 2 (by norm_num), abs_lt.2 ⟨neg_huge_lt (by norm_num), huge_gt (by norm_num)⟩⟩
  have hord : ∀ i : Fin 1, (Order.term 0).Has i := fun i => Subsingleton.elim _ _
  constructor
  · obtain ⟨h, e, -⟩ := C148_backtracking_returns highBowl (.term 0) hord (a := 2) (b := 1 / 2) (abs_lt.2 ⟨neg_huge_lt (by norm_num), huge_gt (by norm_num)⟩)
      (by rw [abs_of_pos] <;> norm_num) (.fin (1 / 2)) (fun _ => .fin 1) (fun _ => .fin 2) (fun _ => .fin (-2)) fun _ => f1
    exact ⟨h, e⟩
  · obtain ⟨h, e, -⟩ := C148_backtracking_returns (fun v : FVec 1 => (v 0).mul (v 0)) (.term 0) hord (a := 2) (b := 1 / 2)
      (abs_lt.2 ⟨neg_huge_lt (by norm_num), huge_gt (by norm_num)⟩)
      (by rw [abs_of_pos] <;> norm_num) (.fin (1 / 2)) (fun _ => .fin 1) (fun _ => .fin 2) (fun _ => .fin (-2)) fun _ => f1
    refine ⟨h, e, ?_⟩
    have hm : dot (fun _ : Fin 1 => Dbl.fin 2) (fun _ => .fin (-2)) (.term 0) = .fin (-4) := by
      rw [dot, Dbl.mul, show (2 : ℝ) * -2 = ((-4 : ℤ) : ℝ) by norm_num, round_of_format (format_int _ (by norm_num))]
      · norm_num
      · exact abs_lt.2 ⟨neg_huge_lt (by norm_num), huge_gt (by norm_num)⟩
    have hs : ∀ v : Dbl, v.mul v ≠ .nan ∨ v = .nan := fun v => by
      cases v with
      | fin r => left; rw [Dbl.mul, Dbl.round]; split_ifs <;> simp
      | inf s => left; simp [Dbl.mul]
      | nan => right; rfl
    obtain ⟨⟨r, rfl, -⟩, -⟩ := btLoop_range (fun v : FVec 1 => (v 0).mul (v 0)) (b := 1 / 2) (by norm_num) (by norm_num) _ _ _ _ 2100 2 (by norm_num) f2 h (by
      rw [btSearch, hm, if_pos (by norm_num [Dbl.Lt])] at e
      exact e)
    have ha : (Dbl.fin 1).add ((Dbl.fin r).mul (.fin (-2))) ≠ .nan := by
      rw [Dbl.mul, Dbl.round]
      split_ifs
      · rw [Dbl.add, Dbl.round]; split_ifs <;> simp
      · simp [Dbl.add]
    rcases C148_backtracking_decrease_partial (fun v : FVec 1 => (v 0).mul (v 0)) (fun _ => mul_ok _ _) (.term 0) (a := 2) (b := 1 / 2) (c := 1 / 2) (by norm_num)
      f2 (by norm_num) (by norm_num) (by norm_num) (by norm_num) _ _ _ hm (by norm_num) e with h1 | h1 | h1
    · exact h1
    · rcases hs ((Dbl.fin 1).add ((Dbl.fin r).mul (.fin (-2)))) with h2 | h2
      · exact absurd h1 h2
      · exact absurd h2 ha
    · rcases hs (.fin 1) with h2 | h2
      · exact absurd h1 h2
      · exact absurd h2 (by simp)

end Fdapde.Optim.Flt
