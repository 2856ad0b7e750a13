import Verif.Optim.Spec
import Mathlib.Analysis.Calculus.Deriv.MeanValue
import Mathlib.Analysis.Calculus.Deriv.Slope
import Mathlib.Analysis.SpecificLimits.Basic
import Mathlib.Topology.UniformSpace.HeineCantor
import Mathlib.Tactic.Linarith
import Mathlib.Tactic.SplitIfs
import Mathlib.Tactic.FieldSimp
import Mathlib.Tactic.Positivity
import Mathlib.Data.Fin.VecNotation

/-!
# Line searches (C68, C69)
-/

set_option linter.unusedSectionVars false

namespace Fdapde.Optim

variable {K : Type} [Field K] [LinearOrder K] [IsStrictOrderedRing K] {n : Nat} {σ : Type}

/-- Sufficient decrease (Armijo) of the step `a` from `x` along `u`, with slope `m` and constant `c`. -/
def Armijo (obj : Vec K n → K) (x u : Vec K n) (m c a : K) : Prop := obj (x + a • u) ≤ obj x + c * a * m

/-- Weak curvature condition of the step `a` from `x` along `u`. -/
def Curvature (grad : Vec K n → Vec K n) (x u : Vec K n) (m c a : K) : Prop := c * m ≤ dotProduct (grad (x + a • u)) u

theorem armijo_iff (obj : Vec K n → K) (x u : Vec K n) (m c a : K) :
    ¬ obj x - obj (x + a • u) + c * a * m < 0 ↔ Armijo obj x u m c a := by
  unfold Armijo
  constructor <;> intro h <;> linarith

theorem backtrackLoop_spec (obj : Vec K n → K) (beta gamma : K) (x u : Vec K n) (m : K) : ∀ (k : Nat) (alpha a : K),
    backtrackLoop obj beta gamma x u m k alpha = some a →
    Armijo obj x u m gamma a ∧ ∃ j, a = alpha * beta ^ j ∧ ∀ i < j, ¬ Armijo obj x u m gamma (alpha * beta ^ i)
  | 0, alpha, a, h => by
    unfold backtrackLoop at h
    split_ifs at h with hc
    cases h
    exact ⟨(armijo_iff _ _ _ _ _ _).1 hc, 0, by simp, fun i hi => absurd hi (by omega)⟩
  | k + 1, alpha, a, h => by
    unfold backtrackLoop at h
    split_ifs at h with hc
    · obtain ⟨h1, j, h2, h3⟩ := backtrackLoop_spec obj beta gamma x u m k (alpha * beta) a h
      refine ⟨h1, j + 1, by rw [h2, pow_succ]; ring, fun i hi => ?_⟩
      cases i with
      | zero =>
        rw [pow_zero, mul_one]
        exact fun h' => (armijo_iff _ _ _ _ _ _).2 h' hc
      | succ i =>
        have := h3 i (by omega)
        rwa [show alpha * beta ^ (i + 1) = alpha * beta * beta ^ i by rw [pow_succ]; ring]
    · cases h
      exact ⟨(armijo_iff _ _ _ _ _ _).1 hc, 0, by simp, fun i hi => absurd hi (by omega)⟩

/-! ## C68 -/

/-- **C68**, the step: whenever the backtracking search returns, it has changed nothing but the step and does not ask to stop;
along a descent direction the step is the first of `alpha, alpha beta, alpha beta^2, ...` which satisfies the Armijo condition,
otherwise it is `alpha`. -/
theorem C68_armijo (obj : Vec K n → K) (alpha beta gamma : K) (fuel : Nat) (s s' : St K n σ) (b : Bool)
    (h : backtracking obj alpha beta gamma fuel s = some (s', b)) :
    b = false ∧ s' = { s with h := s'.h } ∧
    (dotProduct s.gradOld s.update < 0 → Armijo obj s.xOld s.update (dotProduct s.gradOld s.update) gamma s'.h ∧
      ∃ j, s'.h = alpha * beta ^ j ∧ ∀ i < j, ¬ Armijo obj s.xOld s.update (dotProduct s.gradOld s.update) gamma (alpha * beta ^ i)) ∧
    (0 ≤ dotProduct s.gradOld s.update → s'.h = alpha) := by
  unfold backtracking at h
  simp only at h
  split_ifs at h with hm
  · cases hl : backtrackLoop obj beta gamma s.xOld s.update (dotProduct s.gradOld s.update) fuel alpha with
    | none => rw [hl] at h; cases h
    | some a =>
      rw [hl] at h
      cases h
      exact ⟨rfl, rfl, fun _ => backtrackLoop_spec _ _ _ _ _ _ _ _ _ hl, fun h0 => absurd hm (not_lt.2 h0)⟩
  · cases h
    exact ⟨rfl, rfl, fun h0 => absurd h0 hm, fun _ => rfl⟩

/-- **C68**, decrease: for a descent direction the objective at the new point is not larger, and smaller if `gamma > 0`. -/
theorem C68_decrease (obj : Vec K n → K) (alpha beta gamma : K) (ha : 0 < alpha) (hb : 0 < beta) (hg : 0 ≤ gamma) (fuel : Nat)
    (s s' : St K n σ) (b : Bool) (hm : dotProduct s.gradOld s.update < 0)
    (h : backtracking obj alpha beta gamma fuel s = some (s', b)) :
    0 < s'.h ∧ obj (s'.xOld + s'.h • s'.update) ≤ obj s.xOld ∧ (0 < gamma → obj (s'.xOld + s'.h • s'.update) < obj s.xOld) := by
  obtain ⟨_, h1, h2, _⟩ := C68_armijo obj alpha beta gamma fuel s s' b h
  obtain ⟨h3, j, h4, _⟩ := h2 hm
  have hx : s'.xOld = s.xOld := by rw [h1]
  have hu : s'.update = s.update := by rw [h1]
  have hpos : 0 < s'.h := by rw [h4]; positivity
  rw [hx, hu]
  unfold Armijo at h3
  refine ⟨hpos, ?_, fun hg' => ?_⟩
  · have : gamma * s'.h * dotProduct s.gradOld s.update ≤ 0 := mul_nonpos_of_nonneg_of_nonpos (by positivity) hm.le
    linarith
  · have : gamma * s'.h * dotProduct s.gradOld s.update < 0 := mul_neg_of_pos_of_neg (by positivity) hm
    linarith

/-- **C68**, termination: if the objective is differentiable at the current point with the slope the search uses, and
`gamma < 1`, `0 < beta < 1`, the search returns. -/
theorem C68_terminates (obj : Vec ℝ n → ℝ) (alpha beta gamma : ℝ) (ha : 0 < alpha) (hb : 0 < beta) (hb1 : beta < 1) (hg : gamma < 1)
    (s : St ℝ n σ) (hd : HasDerivAt (fun t : ℝ => obj (s.xOld + t • s.update)) (dotProduct s.gradOld s.update) 0) :
    ∃ fuel, (backtracking obj alpha beta gamma fuel s).isSome := by
  by_cases hm : dotProduct s.gradOld s.update < 0
  · obtain ⟨x, u, m, hx, hu, hmm⟩ : ∃ x u m, x = s.xOld ∧ u = s.update ∧ m = dotProduct s.gradOld s.update := ⟨_, _, _, rfl, rfl, rfl⟩
    rw [← hmm, ← hx, ← hu] at hd
    rw [← hmm] at hm
    -- small steps satisfy the condition
    have hlt : m < gamma * m := by nlinarith
    have hsl := (hasDerivAt_iff_tendsto_slope.1 hd).eventually (gt_mem_nhds hlt)
    have hex : ∃ j, Armijo obj x u m gamma (alpha * beta ^ j) := by
      have ht : Filter.Tendsto (fun j : Nat => alpha * beta ^ j) Filter.atTop (nhdsWithin 0 {0}ᶜ) := by
        refine tendsto_nhdsWithin_iff.2 ⟨?_, .of_forall fun j => ?_⟩
        · have := (tendsto_pow_atTop_nhds_zero_of_lt_one hb.le hb1).const_mul alpha
          simpa using this
        · have : 0 < alpha * beta ^ j := by positivity
          exact this.ne'
      obtain ⟨j, hj⟩ := (ht.eventually hsl).exists
      refine ⟨j, ?_⟩
      have hp : 0 < alpha * beta ^ j := by positivity
      rw [slope_def_field] at hj
      simp only [zero_smul, add_zero, sub_zero] at hj
      rw [div_lt_iff₀ hp] at hj
      unfold Armijo
      linarith
    obtain ⟨j, hj⟩ := hex
    have key : ∀ k a, Armijo obj x u m gamma (a * beta ^ k) → (backtrackLoop obj beta gamma x u m k a).isSome := by
      intro k
      induction k with
      | zero =>
        intro a h
        unfold backtrackLoop
        rw [if_neg ((armijo_iff _ _ _ _ _ _).2 (by simpa using h))]
        rfl
      | succ k ih =>
        intro a h
        unfold backtrackLoop
        split_ifs
        · exact ih _ (by rwa [mul_assoc, ← pow_succ'])
        · rfl
    obtain ⟨a, ha'⟩ := Option.isSome_iff_exists.1 (key j alpha hj)
    refine ⟨j, ?_⟩
    unfold backtracking
    simp only
    rw [← hmm, ← hx, ← hu, if_pos hm, ha']
    rfl
  · refine ⟨0, ?_⟩
    unfold backtracking
    simp only
    rw [if_neg hm]
    rfl

/-! ## C69 -/

/-- What a bracket of the Wolfe search means: the candidate lies inside it, the Armijo condition holds but the curvature condition
fails at its positive lower end, and the Armijo condition fails at its upper end. -/
def Bracket (obj : Vec K n → K) (grad : Vec K n → Vec K n) (c1 c2 : K) (x u : Vec K n) (m a lo : K) (hi : Option K) : Prop :=
  0 ≤ lo ∧ lo < a ∧ (lo = 0 ∨ (Armijo obj x u m c1 lo ∧ ¬ Curvature grad x u m c2 lo)) ∧ ∀ b ∈ hi, a < b ∧ ¬ Armijo obj x u m c1 b

theorem bracket_right {obj : Vec K n → K} {grad : Vec K n → Vec K n} {c1 c2 : K} {x u : Vec K n} {m a lo : K} {hi : Option K}
    (h : Bracket obj grad c1 c2 x u m a lo hi) (hc : ¬ Armijo obj x u m c1 a) :
    Bracket obj grad c1 c2 x u m ((lo + a) * (1 / 2)) lo (some a) := by
  obtain ⟨h1, h2, h3, _⟩ := h
  refine ⟨h1, by linarith, h3, fun b hb => ?_⟩
  cases hb
  exact ⟨by linarith, hc⟩

theorem bracket_left {obj : Vec K n → K} {grad : Vec K n → Vec K n} {c1 c2 : K} {x u : Vec K n} {m a lo b : K}
    (h : Bracket obj grad c1 c2 x u m a lo (some b)) (hc : Armijo obj x u m c1 a) (hv : ¬ Curvature grad x u m c2 a) :
    Bracket obj grad c1 c2 x u m ((a + b) * (1 / 2)) a (some b) := by
  obtain ⟨h1, h2, h3, h4⟩ := h
  have h5 := h4 b rfl
  refine ⟨by linarith, by linarith [h5.1], .inr ⟨hc, hv⟩, fun b' hb => ?_⟩
  cases hb
  exact ⟨by linarith [h5.1], h5.2⟩

theorem bracket_double {obj : Vec K n → K} {grad : Vec K n → Vec K n} {c1 c2 : K} {x u : Vec K n} {m a lo : K}
    (h : Bracket obj grad c1 c2 x u m a lo none) (hc : Armijo obj x u m c1 a) (hv : ¬ Curvature grad x u m c2 a) :
    Bracket obj grad c1 c2 x u m (2 * a) a none := by
  obtain ⟨h1, h2, h3, h4⟩ := h
  refine ⟨by linarith, by linarith, .inr ⟨hc, hv⟩, fun b hb => by cases hb⟩

theorem wolfeLoop_spec (obj : Vec K n → K) (grad : Vec K n → Vec K n) (c1 c2 : K) (x u : Vec K n) (m : K) :
    ∀ (k : Nat) (alpha lo : K) (hi : Option K) (a lo' : K) (hi' : Option K),
    wolfeLoop obj grad c1 c2 x u m k alpha lo hi = some (a, lo', hi') →
    Armijo obj x u m c1 a ∧ Curvature grad x u m c2 a ∧
      (Bracket obj grad c1 c2 x u m alpha lo hi → Bracket obj grad c1 c2 x u m a lo' hi') := by
  intro k
  induction k with
  | zero =>
    intro alpha lo hi a lo' hi' h
    unfold wolfeLoop at h
    split_ifs at h with h1 h2
    cases h
    exact ⟨(armijo_iff _ _ _ _ _ _).1 h1, not_lt.1 h2, id⟩
  | succ k ih =>
    intro alpha lo hi a lo' hi' h
    unfold wolfeLoop at h
    split_ifs at h with h1 h2
    · obtain ⟨e1, e2, e3⟩ := ih _ _ _ _ _ _ h
      exact ⟨e1, e2, fun hb => e3 (bracket_right hb fun hA => (armijo_iff _ _ _ _ _ _).2 hA h1)⟩
    · cases hi with
      | none =>
        obtain ⟨e1, e2, e3⟩ := ih _ _ _ _ _ _ h
        exact ⟨e1, e2, fun hb => e3 (bracket_double hb ((armijo_iff _ _ _ _ _ _).1 h1) (not_le.2 h2))⟩
      | some b =>
        obtain ⟨e1, e2, e3⟩ := ih _ _ _ _ _ _ h
        exact ⟨e1, e2, fun hb => e3 (bracket_left hb ((armijo_iff _ _ _ _ _ _).1 h1) (not_le.2 h2))⟩
    · cases h
      exact ⟨(armijo_iff _ _ _ _ _ _).1 h1, not_lt.1 h2, id⟩

/-- **C69**, the loop: when it ends both Wolfe conditions hold at the candidate, and (if the first candidate is positive) the
final bracket contains the candidate strictly and has the meaning of `Bracket`. -/
theorem C69_bracket (obj : Vec K n → K) (grad : Vec K n → Vec K n) (alpha c1 c2 : K) (ha : 0 < alpha) (x u : Vec K n) (m : K) (fuel : Nat)
    (a lo : K) (hi : Option K) (h : wolfeLoop obj grad c1 c2 x u m fuel alpha 0 none = some (a, lo, hi)) :
    Armijo obj x u m c1 a ∧ Curvature grad x u m c2 a ∧ Bracket obj grad c1 c2 x u m a lo hi := by
  obtain ⟨h1, h2, h3⟩ := wolfeLoop_spec obj grad c1 c2 x u m fuel alpha 0 none a lo hi h
  exact ⟨h1, h2, h3 ⟨le_refl _, ha, .inl rfl, fun b hb => by cases hb⟩⟩

/-- **C69**: when the Wolfe search returns, it has changed nothing but the step and does not ask to stop; the step satisfies the
sufficient decrease and the weak curvature condition, and is positive if the first candidate is. -/
theorem C69_wolfe (obj : Vec K n → K) (grad : Vec K n → Vec K n) (alpha c1 c2 : K) (fuel : Nat) (s s' : St K n σ) (b : Bool)
    (h : wolfe obj grad alpha c1 c2 fuel s = some (s', b)) :
    b = false ∧ s' = { s with h := s'.h } ∧
    Armijo obj s.xOld s.update (dotProduct s.gradOld s.update) c1 s'.h ∧
    Curvature grad s.xOld s.update (dotProduct s.gradOld s.update) c2 s'.h ∧ (0 < alpha → 0 < s'.h) := by
  unfold wolfe at h
  cases hl : wolfeLoop obj grad c1 c2 s.xOld s.update (dotProduct s.gradOld s.update) fuel alpha 0 none with
  | none => rw [hl] at h; cases h
  | some r =>
    obtain ⟨a, lo, hi⟩ := r
    rw [hl] at h
    cases h
    obtain ⟨h1, h2, _⟩ := wolfeLoop_spec obj grad c1 c2 _ _ _ fuel alpha 0 none a lo hi hl
    refine ⟨rfl, rfl, h1, h2, fun ha => ?_⟩
    obtain ⟨_, _, h3⟩ := C69_bracket obj grad alpha c1 c2 ha _ _ _ fuel a lo hi hl
    exact lt_of_le_of_lt h3.1 h3.2.1

/-- Bisection phase of the Wolfe search: with a bracket shorter than `2^N` times a length on which the slope varies by less
than `(c1 - c2) m`, the search ends within `N` turns. -/
theorem wolfe_bisection (obj : Vec ℝ n → ℝ) (grad : Vec ℝ n → Vec ℝ n) (c1 c2 : ℝ) (x u : Vec ℝ n) (m B δ : ℝ)
    (hc2 : c2 < 1) (hm : m < 0) (hm0 : dotProduct (grad x) u = m)
    (hd : ∀ t : ℝ, HasDerivAt (fun t : ℝ => obj (x + t • u)) (dotProduct (grad (x + t • u)) u) t)
    (hδ : ∀ s ∈ Set.Icc 0 B, ∀ t ∈ Set.Icc 0 B, |s - t| < δ →
      |dotProduct (grad (x + s • u)) u - dotProduct (grad (x + t • u)) u| < (c1 - c2) * m) :
    ∀ (N : Nat) (lo b : ℝ), b ≤ B → b - lo < 2 ^ N * δ →
    Bracket obj grad c1 c2 x u m ((lo + b) * (1 / 2)) lo (some b) →
    (wolfeLoop obj grad c1 c2 x u m N ((lo + b) * (1 / 2)) lo (some b)).isSome := by
  -- the bracket cannot be shorter than δ
  have hshort : ∀ a lo b, b ≤ B → Bracket obj grad c1 c2 x u m a lo (some b) → ¬ b - lo < δ := by
    intro a lo b hbB hbr hlt
    obtain ⟨h1, h2, h3, h4⟩ := hbr
    obtain ⟨h5, h6⟩ := h4 b rfl
    have hlo : Armijo obj x u m c1 lo ∧ ¬ Curvature grad x u m c2 lo := by
      rcases h3 with rfl | h3
      · refine ⟨by simp [Armijo], ?_⟩
        unfold Curvature
        rw [zero_smul, add_zero, hm0]
        nlinarith
      · exact h3
    unfold Armijo Curvature at *
    obtain ⟨ξ, hξ, hξ'⟩ := exists_hasDerivAt_eq_slope (fun t : ℝ => obj (x + t • u)) (fun t => dotProduct (grad (x + t • u)) u)
      (show lo < b by linarith) (fun t _ => (hd t).continuousAt.continuousWithinAt) (fun t _ => hd t)
    rw [eq_div_iff (by linarith)] at hξ'
    have h7 := hδ ξ ⟨by linarith [hξ.1], by linarith [hξ.2]⟩ lo ⟨h1, by linarith⟩
      (by rw [abs_of_pos (by linarith [hξ.1])]; linarith [hξ.2])
    have h8 : c1 * m < dotProduct (grad (x + ξ • u)) u := by
      by_contra hcon
      have hbl : 0 < b - lo := by linarith
      have := mul_le_mul_of_nonneg_right (not_lt.1 hcon) hbl.le
      have h9 := not_le.1 h6
      nlinarith [hlo.1]
    have := (abs_lt.1 h7).2
    have h10 := not_le.1 hlo.2
    nlinarith
  intro N
  induction N with
  | zero =>
    intro lo b hbB hlen hbr
    exact absurd (by simpa using hlen) (hshort _ lo b hbB hbr)
  | succ N ih =>
    intro lo b hbB hlen hbr
    unfold wolfeLoop
    have hlt : lo < b := hbr.2.1.trans (hbr.2.2.2 b rfl).1
    have hp : (2 : ℝ) ^ (N + 1) * δ = 2 * (2 ^ N * δ) := by ring
    split_ifs with h1 h2
    · exact ih _ _ (by linarith) (by linarith) (bracket_right hbr fun hA => (armijo_iff _ _ _ _ _ _).2 hA h1)
    · exact ih _ _ hbB (by linarith) (bracket_left hbr ((armijo_iff _ _ _ _ _ _).1 h1) (not_le.2 h2))
    · rfl

/-- **C69**, termination: along a descent direction on which the objective is bounded below and continuously differentiable, with
`0 < c1 < c2 < 1` and the exact slope, the search returns. -/
theorem C69_terminates (obj : Vec ℝ n → ℝ) (grad : Vec ℝ n → Vec ℝ n) (alpha c1 c2 : ℝ) (ha : 0 < alpha) (h1 : 0 < c1) (h12 : c1 < c2)
    (hc2 : c2 < 1) (s : St ℝ n σ) (hg : s.gradOld = grad s.xOld) (hm : dotProduct s.gradOld s.update < 0)
    (hd : ∀ t : ℝ, HasDerivAt (fun t : ℝ => obj (s.xOld + t • s.update)) (dotProduct (grad (s.xOld + t • s.update)) s.update) t)
    (hcont : Continuous fun t : ℝ => dotProduct (grad (s.xOld + t • s.update)) s.update)
    (L : ℝ) (hL : ∀ t : ℝ, L ≤ obj (s.xOld + t • s.update)) :
    ∃ fuel, (wolfe obj grad alpha c1 c2 fuel s).isSome := by
  obtain ⟨x, u, m, hx, hu, hmm⟩ : ∃ x u m, x = s.xOld ∧ u = s.update ∧ m = dotProduct s.gradOld s.update := ⟨_, _, _, rfl, rfl, rfl⟩
  have hm0 : dotProduct (grad x) u = m := by rw [hmm, hg, hx, hu]
  rw [← hmm] at hm
  simp only [← hx, ← hu] at hd hcont hL
  have hε : 0 < (c1 - c2) * m := mul_pos_of_neg_of_neg (by linarith) hm
  -- the second phase ends
  have phase2 : ∀ lo b, Bracket obj grad c1 c2 x u m ((lo + b) * (1 / 2)) lo (some b) →
      ∃ fuel, (wolfeLoop obj grad c1 c2 x u m fuel ((lo + b) * (1 / 2)) lo (some b)).isSome := by
    intro lo b hbr
    have huc := (isCompact_Icc (a := (0 : ℝ)) (b := b)).uniformContinuousOn_of_continuous hcont.continuousOn
    obtain ⟨δ, hδ, hδ'⟩ := Metric.uniformContinuousOn_iff.1 huc _ hε
    obtain ⟨N, hN⟩ := pow_unbounded_of_one_lt ((b - lo) / δ) (one_lt_two : (1 : ℝ) < 2)
    exact ⟨N, wolfe_bisection obj grad c1 c2 x u m b δ hc2 hm hm0 hd (fun s hs t ht hst => hδ' s hs t ht hst) N lo b (le_refl _)
      ((div_lt_iff₀ hδ).1 hN) hbr⟩
  -- the first phase ends
  have phase1 : ∀ (N : Nat) (a lo : ℝ), (obj x - L) / (-(c1 * m)) < 2 ^ N * a → Bracket obj grad c1 c2 x u m a lo none →
      ∃ fuel, (wolfeLoop obj grad c1 c2 x u m fuel a lo none).isSome := by
    have hcm : 0 < -(c1 * m) := by nlinarith
    intro N
    induction N with
    | zero =>
      intro a lo hN hbr
      have hA : ¬ Armijo obj x u m c1 a := by
        intro hA
        unfold Armijo at hA
        rw [pow_zero, one_mul, div_lt_iff₀ hcm] at hN
        linarith [hL a]
      obtain ⟨fuel, hf⟩ := phase2 lo a (bracket_right hbr hA)
      refine ⟨fuel + 1, ?_⟩
      unfold wolfeLoop
      rw [if_pos (by by_contra h; exact hA ((armijo_iff _ _ _ _ _ _).1 h))]
      exact hf
    | succ N ih =>
      intro a lo hN hbr
      by_cases hA : Armijo obj x u m c1 a
      · by_cases hC : Curvature grad x u m c2 a
        · refine ⟨0, ?_⟩
          unfold wolfeLoop
          rw [if_neg ((armijo_iff _ _ _ _ _ _).2 hA), if_neg (not_lt.2 hC)]
          rfl
        · obtain ⟨fuel, hf⟩ := ih (2 * a) a (by rw [pow_succ] at hN; linarith) (bracket_double hbr hA hC)
          refine ⟨fuel + 1, ?_⟩
          unfold wolfeLoop
          rw [if_neg ((armijo_iff _ _ _ _ _ _).2 hA), if_pos (not_le.1 hC)]
          exact hf
      · obtain ⟨fuel, hf⟩ := phase2 lo a (bracket_right hbr hA)
        refine ⟨fuel + 1, ?_⟩
        unfold wolfeLoop
        rw [if_pos (by by_contra h; exact hA ((armijo_iff _ _ _ _ _ _).1 h))]
        exact hf
  obtain ⟨N, hN⟩ := pow_unbounded_of_one_lt ((obj x - L) / (-(c1 * m)) / alpha) (one_lt_two : (1 : ℝ) < 2)
  obtain ⟨fuel, hf⟩ := phase1 N alpha 0 ((div_lt_iff₀ ha).1 hN) ⟨le_refl _, ha, .inl rfl, fun b hb => by cases hb⟩
  refine ⟨fuel, ?_⟩
  obtain ⟨r, hr⟩ := Option.isSome_iff_exists.1 hf
  unfold wolfe
  rw [← hmm, ← hx, ← hu, hr]
  rfl

/-- Concrete searches: for `x²` from 1 along -2 the backtracking search halves the step 2 twice; the Wolfe search starting from 4
bisects to 1/2. -/
example : (backtracking (σ := Unit) (fun x : Vec ℚ 1 => x 0 * x 0) 2 (1 / 2) (1 / 4) 5
      ⟨![1], ![1], ![-2], ![2], ![2], 1, 1, 0, ()⟩).map (fun r => r.1.h) = some (1 / 2) ∧
    (wolfe (σ := Unit) (fun x : Vec ℚ 1 => x 0 * x 0) (fun x => 2 • x) 4 (1 / 10000) (9 / 10) 5
      ⟨![1], ![1], ![-2], ![2], ![2], 1, 1, 0, ()⟩).map (fun r => r.1.h) = some (1 / 2) :=
  ⟨by decide +kernel, by decide +kernel⟩

end Fdapde.Optim
