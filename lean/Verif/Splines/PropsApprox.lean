import Verif.Splines.LemmasApprox
import Mathlib.Analysis.Calculus.MeanValue
import Mathlib.Analysis.Convex.Deriv
import Mathlib.Topology.UniformSpace.HeineCantor
/-
C158: how well splines approximate functions, and how their shape follows their coefficients.
-/
namespace Fdapde.Splines
open Polynomial Set
set_option linter.unusedSectionVars false

theorem spacing_nonneg {knots : List ℝ} (hk : knots.Pairwise (· < ·)) (h2 : 2 ≤ knots.length) {h : ℝ}
    (hh : ∀ j, j + 1 < knots.length → knots.getD (j + 1) 0 - knots.getD j 0 ≤ h) : 0 ≤ h := by
  have := hh 0 (by omega)
  have := getD_lt hk (show 0 < 1 by omega) (by omega)
  linarith

theorem size_padded (R : Nat) (knots : List ℝ) (h : 2 ≤ knots.length) : size R (tab (knots.length + 2 * R) (padFn R knots)) = knots.length + R - 1 := by
  unfold size; rw [tab_length]; omega

/-- Values of an expansion with coefficients given by a function. -/
theorem expansion_map {tol : ℝ} {R : Nat} {knots : List ℝ} (g : Good tol knots) (c : Nat → ℝ) (x : ℝ) :
    expansion tol R (tab (knots.length + 2 * R) (padFn R knots)) ((List.range (knots.length + R - 1)).map c) x =
      .ok (∑ i ∈ Finset.range (knots.length + R - 1), c i * cdb (padFn R knots) (z0 tol R (knots.length + 2 * R) (padFn R knots) x) x R i) := by
  rw [expansion_values g (by simp), Finset.sum_congr rfl fun i hi => by rw [getD_map_range _ _ _ (Finset.mem_range.1 hi)]]

/-- The distance of an expansion from a value is bounded by that of the coefficients of the functions which do not vanish. -/
theorem expansion_dist {tol : ℝ} {R : Nat} {knots : List ℝ} (g : Good tol knots) {x v E : ℝ} (hx : x ∈ Icc (knots.getD 0 0) (knots.getD (knots.length - 1) 0))
    (c : Nat → ℝ) (r : Nat → ℝ)
    (hr : ∑ i ∈ Finset.range (knots.length + R - 1), r i * cdb (padFn R knots) (z0 tol R (knots.length + 2 * R) (padFn R knots) x) x R i = v)
    (hE : ∀ i, cdb (padFn R knots) (z0 tol R (knots.length + 2 * R) (padFn R knots) x) x R i ≠ 0 → |c i - r i| ≤ E) :
    |∑ i ∈ Finset.range (knots.length + R - 1), c i * cdb (padFn R knots) (z0 tol R (knots.length + 2 * R) (padFn R knots) x) x R i - v| ≤ E := by
  have two := g.two
  obtain ⟨j, hj, hlo, hhi⟩ := exists_span two hx.1 hx.2
  have sp := inSpan_of (R := R) g hj hlo hhi
  have hm := padFn_mono R g.incr (by omega)
  have h1 := cdb_sum hm sp (knots.length + R - 1) (by omega) R (by omega)
  rw [← hr, ← Finset.sum_sub_distrib]
  refine (Finset.abs_sum_le_sum_abs _ _).trans ?_
  calc _ ≤ ∑ i ∈ Finset.range (knots.length + R - 1), E * cdb (padFn R knots) (z0 tol R (knots.length + 2 * R) (padFn R knots) x) x R i := by
        refine Finset.sum_le_sum fun i _ => ?_
        have hn := cdb_nonneg hm sp R i
        rw [← sub_mul, abs_mul, abs_of_nonneg hn]
        by_cases h0 : cdb (padFn R knots) (z0 tol R (knots.length + 2 * R) (padFn R knots) x) x R i = 0
        · rw [h0]; simp
        · exact mul_le_mul_of_nonneg_right (hE i h0) hn
    _ = E := by rw [← Finset.mul_sum, h1, mul_one]

/-- The distance between the coefficients of the approximation and those of the Taylor polynomial at a point of the support. -/
theorem coef_dist {tol : ℝ} {R : Nat} {knots : List ℝ} (g : Good tol knots) {h M : ℝ}
    (hh : ∀ j, j + 1 < knots.length → knots.getD (j + 1) 0 - knots.getD j 0 ≤ h) {F : Nat → ℝ → ℝ}
    (hF : ∀ k ≤ R, ∀ y ∈ Icc (knots.getD 0 0) (knots.getD (knots.length - 1) 0), HasDerivAt (F k) (F (k + 1) y) y)
    (hM : ∀ y ∈ Icc (knots.getD 0 0) (knots.getD (knots.length - 1) 0), |F (R + 1) y| ≤ M) {x : ℝ}
    (hx : x ∈ Icc (knots.getD 0 0) (knots.getD (knots.length - 1) 0)) {i : Nat} (hd : |padFn R knots (i + (R + 2) / 2) - x| ≤ ((R + 2) / 2 : ℕ) * h) :
    |coefOf (padFn R knots) R i (padFn R knots (i + (R + 2) / 2)) (taylorPoly F (R + 1) (padFn R knots (i + (R + 2) / 2))) -
      coefOf (padFn R knots) R i (padFn R knots (i + (R + 2) / 2)) (taylorPoly F (R + 1) x)| ≤ M * ((R + 2) * h) ^ (R + 1) / (R + 1).factorial := by
  have two := g.two
  have h0 := spacing_nonneg g.incr two hh
  have hM0 : 0 ≤ M := (abs_nonneg _).trans (hM _ ⟨le_rfl, getD_le g.incr (by omega) (by omega)⟩)
  set H : ℝ := ((R + 2) / 2 : ℕ) * h with hH
  have hH0 : 0 ≤ H := by positivity
  have e : coefOf (padFn R knots) R i (padFn R knots (i + (R + 2) / 2)) (taylorPoly F (R + 1) (padFn R knots (i + (R + 2) / 2))) -
      coefOf (padFn R knots) R i (padFn R knots (i + (R + 2) / 2)) (taylorPoly F (R + 1) x) =
      coefOf (padFn R knots) R i (padFn R knots (i + (R + 2) / 2)) (taylorPoly F (R + 1) (padFn R knots (i + (R + 2) / 2)) - taylorPoly F (R + 1) x) := by
    unfold coefOf
    rw [pairing_sub, eval_sub, sub_div]
  rw [e]
  refine (coef_le hH0 (fun l hl => padFn_dist g.incr two h0 hh (by omega) (by omega)) _).trans ?_
  calc _ ≤ ∑ k ∈ Finset.range (R + 1), M * H ^ (R + 1) * (1 / ((k.factorial : ℝ) * (R + 1 - k).factorial)) := by
        refine Finset.sum_le_sum fun k hk => ?_
        have hk := Nat.lt_succ_iff.1 (Finset.mem_range.1 hk)
        have t1 := taylor_difference R hF hM hx (padFn_mem (R := R) g.incr two (i + (R + 2) / 2)) k hk
        have t2 : |padFn R knots (i + (R + 2) / 2) - x| ^ (R + 1 - k) ≤ H ^ (R + 1 - k) := pow_le_pow_left₀ (abs_nonneg _) hd _
        calc _ ≤ H ^ k / k.factorial * (M / (R + 1 - k).factorial * H ^ (R + 1 - k)) :=
              mul_le_mul_of_nonneg_left (t1.trans (mul_le_mul_of_nonneg_left t2 (by positivity))) (by positivity)
          _ = _ := by
              have : H ^ (R + 1) = H ^ k * H ^ (R + 1 - k) := by rw [← pow_add]; congr 1; omega
              rw [this]
              field_simp
    _ ≤ M * H ^ (R + 1) * (2 ^ (R + 1) / (R + 1).factorial) := by
        rw [← Finset.mul_sum]
        exact mul_le_mul_of_nonneg_left (factorial_sum_le (R + 1)) (by positivity)
    _ = M * (2 * H) ^ (R + 1) / (R + 1).factorial := by rw [mul_pow]; ring
    _ ≤ _ := by
        have : 2 * H ≤ (R + 2) * h := by
          have e1 : (2 * ((R + 2) / 2) : ℕ) ≤ R + 2 := by omega
          have e2 : (2 : ℝ) * ((R + 2) / 2 : ℕ) ≤ R + 2 := by exact_mod_cast e1
          rw [hH, ← mul_assoc]
          exact mul_le_mul_of_nonneg_right e2 h0
        gcongr

theorem iteratedDeriv_chain {n : Nat} {f : ℝ → ℝ} (hf : ContDiff ℝ (n + 1 : ℕ) f) (k : Nat) (hk : k ≤ n) (y : ℝ) :
    HasDerivAt (iteratedDeriv k f) (iteratedDeriv (k + 1) f y) y := by
  have hd : Differentiable ℝ (iteratedDeriv k f) := hf.differentiable_iteratedDeriv k (by exact_mod_cast (by omega : k < n + 1))
  rw [iteratedDeriv_succ]
  exact (hd y).hasDerivAt

/-- **C158** (partial: the last span must not be shorter than the tolerance).  Splines of order `R` approximate functions with `R + 1`
continuous derivatives with an error of order `R + 1`: on any knots at distances not larger than `h` there are coefficients whose
expansion differs from the function, at every point between the first and the last knot, by at most
`M ((R + 2) h)^(R+1) / (R+1)!`, where `M` bounds the derivative of order `R + 1`.  At the points of the span of the knots `j` and
`j + 1` the combination of the derivatives of order `k` of the basis, with the same coefficients, differs from that of the function by at
most this error times `(2 R / d)^k`, where `d` is the length of the span. -/
theorem C158_order_partial (tol : ℝ) (R : Nat) (knots : List ℝ) (g : Good tol knots) (h M : ℝ)
    (hh : ∀ j, j + 1 < knots.length → knots.getD (j + 1) 0 - knots.getD j 0 ≤ h) (f : ℝ → ℝ) (hf : ContDiff ℝ (R + 1 : ℕ) f)
    (hM : ∀ x ∈ Icc (knots.getD 0 0) (knots.getD (knots.length - 1) 0), |iteratedDeriv (R + 1) f x| ≤ M) :
    ∃ t, pad R knots = .ok t ∧ ∃ c : List ℝ, c.length = size R t ∧
      (∀ x ∈ Icc (knots.getD 0 0) (knots.getD (knots.length - 1) 0),
        ∃ y, expansion tol R t c x = .ok y ∧ |y - f x| ≤ M * ((R + 2) * h) ^ (R + 1) / (R + 1).factorial) ∧
      ∀ k ≤ R, ∀ j, j + 1 < knots.length → ∀ x, knots.getD j 0 ≤ x → x < knots.getD (j + 1) 0 →
        ∃ v : Nat → ℝ, (∀ i < size R t, derive tol R t k R i x = .ok (v i)) ∧
          |∑ i ∈ Finset.range (size R t), c.getD i 0 * v i - iteratedDeriv k f x| ≤
            (2 * R / (knots.getD (j + 1) 0 - knots.getD j 0)) ^ k * (M * ((R + 2) * h) ^ (R + 1) / (R + 1).factorial) := by
  have two := g.two
  have h0 := spacing_nonneg g.incr two hh
  have hs := size_padded R knots two
  have hm := padFn_mono R g.incr (by omega)
  set F : Nat → ℝ → ℝ := fun k => iteratedDeriv k f with hFd
  have hF : ∀ k ≤ R, ∀ y ∈ Icc (knots.getD 0 0) (knots.getD (knots.length - 1) 0), HasDerivAt (F k) (F (k + 1) y) y :=
    fun k hk y _ => iteratedDeriv_chain hf k hk y
  refine ⟨_, pad_eq R knots (by omega), (List.range (knots.length + R - 1)).map fun i => coefOf (padFn R knots) R i (padFn R knots (i + (R + 2) / 2))
    (taylorPoly F (R + 1) (padFn R knots (i + (R + 2) / 2))),
    by rw [hs]; simp, fun x hx => ⟨_, expansion_map g _ x, ?_⟩, fun k hk j hj x h1 h2 => ⟨fun i => fD tol R knots k i x, fun i hi => ?_, ?_⟩⟩
  · obtain ⟨j, hj, hlo, hhi⟩ := exists_span two hx.1 hx.2
    have sp := inSpan_of (R := R) g hj hlo hhi
    have rep := coef_sum hm sp (knots.length + R - 1) (by omega) R (by omega) (taylorPoly_natDegree F R x) fun i => padFn R knots (i + (R + 2) / 2)
    rw [taylorPoly_center] at rep
    exact expansion_dist g hx _ _ (by simpa [hFd] using rep) fun i hi => coef_dist g hh hF hM hx (support_dist g.incr two h0 hh sp hi (by omega) (by omega))
  · rw [hs] at hi
    exact derive_eq tol R _ _ x k R i (by omega)
  · have hx : x ∈ Icc (knots.getD 0 0) (knots.getD (knots.length - 1) 0) :=
      ⟨(getD_le g.incr (Nat.zero_le _) (by omega)).trans h1, h2.le.trans (getD_le g.incr (by omega) (by omega))⟩
    have sp := inSpan_of (R := R) g hj h1 (Or.inl h2)
    have hz := z0_span (R := R) g hj h1 h2
    have k0 := padFn_knot R knots j (by omega)
    have k1 := padFn_knot R knots (j + 1) hj
    rw [show j + 1 + R = j + R + 1 by omega] at k1
    have rep := coef_sum_derivative hm sp.lt (knots.length + R - 1) (by omega) R (by omega) (taylorPoly_natDegree F R x)
      (fun i => padFn R knots (i + (R + 2) / 2)) k x
    rw [taylorPoly_iterate, show R + 1 - k = R - k + 1 by omega, taylorPoly_center] at rep
    have hB := cdbD_abs_sum hm sp (knots.length + R - 1) (by omega) k R (by omega)
    rw [hz, k0, k1] at hB
    rw [hs, Finset.sum_congr rfl fun i hi => by rw [getD_map_range _ _ _ (Finset.mem_range.1 hi)], show iteratedDeriv k f x = F (k + 0) x from rfl, ← rep,
      ← Finset.sum_sub_distrib]
    unfold fD
    rw [hz]
    refine (Finset.abs_sum_le_sum_abs _ _).trans ?_
    refine le_trans ?_ (mul_le_mul_of_nonneg_right hB ?_)
    · rw [Finset.sum_mul]
      refine Finset.sum_le_sum fun i _ => ?_
      rw [← sub_mul, abs_mul, mul_comm]
      by_cases hi : j + R < i ∨ i + R < j + R
      · have zero : ∀ z : Nat → ℝ, (∀ l, l ≠ j + R → z l = 0) → |cdbD (padFn R knots) z x k R i| = 0 := fun z hz => by
          rw [cdbD_zero _ _ _ k R i fun l h1 h2 => hz l (by omega), abs_zero]
        refine le_of_eq ?_
        rw [zero _ fun l hl => if_neg hl, zero_mul, zero_mul]
      · push Not at hi
        refine mul_le_mul_of_nonneg_left (coef_dist g hh hF hM hx ?_) (abs_nonneg _)
        have a1 := padFn_dist (R := R) g.incr two h0 hh (i := i + (R + 2) / 2) (j := i) (n := (R + 2) / 2) (by omega) (by omega)
        have a2 := padFn_dist (R := R) g.incr two h0 hh (i := i + (R + 2) / 2) (j := i + R + 1) (n := (R + 2) / 2) (by omega) (by omega)
        have b1 := hm hi.1
        have b2 := hm (show j + R + 1 ≤ i + R + 1 by omega)
        have := sp.lo
        have := sp.hi
        rw [abs_le] at a1 a2 ⊢
        constructor <;> linarith [a1.1, a1.2, a2.1, a2.2]
    · have hM0 : 0 ≤ M := (abs_nonneg _).trans (hM _ hx)
      positivity

/-- **C158**: the coefficients can be read from the function.  With the values of the function at the averages of `R` consecutive knots
as coefficients the error is at most `M (R h)^2 / 2`, where `M` bounds the second derivative. -/
theorem C158_greville_partial (tol : ℝ) (R : Nat) (hR : 0 < R) (knots : List ℝ) (g : Good tol knots) (h M : ℝ)
    (hh : ∀ j, j + 1 < knots.length → knots.getD (j + 1) 0 - knots.getD j 0 ≤ h) (f : ℝ → ℝ) (hf : ContDiff ℝ 2 f)
    (hM : ∀ x ∈ Icc (knots.getD 0 0) (knots.getD (knots.length - 1) 0), |iteratedDeriv 2 f x| ≤ M) :
    ∃ t, pad R knots = .ok t ∧ ∃ c : List ℝ, c.length = size R t ∧
      (∀ i < size R t, c.getD i 0 = f ((∑ j ∈ Finset.range R, t.getD (i + 1 + j) 0) / R)) ∧
      ∀ x ∈ Icc (knots.getD 0 0) (knots.getD (knots.length - 1) 0), ∃ y, expansion tol R t c x = .ok y ∧ |y - f x| ≤ M / 2 * (R * h) ^ 2 := by
  have two := g.two
  have h0 := spacing_nonneg g.incr two hh
  have hs := size_padded R knots two
  have hR0 : (0 : ℝ) < R := Nat.cast_pos.2 hR
  set F : Nat → ℝ → ℝ := fun k => iteratedDeriv k f with hFd
  have hF : ∀ k ≤ 1, ∀ y ∈ Icc (knots.getD 0 0) (knots.getD (knots.length - 1) 0), HasDerivAt (F k) (F (k + 1) y) y :=
    fun k hk y _ => iteratedDeriv_chain (n := 1) (by exact_mod_cast hf) k hk y
  have hM0 : 0 ≤ M := (abs_nonneg _).trans (hM _ ⟨le_rfl, getD_le g.incr (by omega) (by omega)⟩)
  refine ⟨_, pad_eq R knots (by omega), (List.range (knots.length + R - 1)).map fun i => f ((∑ j ∈ Finset.range R, padFn R knots (i + 1 + j)) / R),
    by rw [hs]; simp, fun i hi => ?_, fun x hx => ⟨_, expansion_map g _ x, ?_⟩⟩
  · rw [hs] at hi
    rw [getD_map_range _ _ _ hi]
    congr 2
    refine Finset.sum_congr rfl fun j hj => ?_
    have hj := Finset.mem_range.1 hj
    rw [tab, getD_map_range _ _ _ (by omega)]
  · obtain ⟨j, hj, hlo, hhi⟩ := exists_span two hx.1 hx.2
    have sp := inSpan_of (R := R) g hj hlo hhi
    have hm := padFn_mono R g.incr (by omega)
    have h1 := cdb_sum hm sp (knots.length + R - 1) (by omega) R (by omega)
    have hg := greville_knots hR g hx.1 hx.2
    refine expansion_dist g hx _ (fun i => F 0 x + F 1 x * ((∑ j ∈ Finset.range R, padFn R knots (i + 1 + j)) / R - x)) ?_ fun i hi => ?_
    · have : ∀ i, (F 0 x + F 1 x * ((∑ j ∈ Finset.range R, padFn R knots (i + 1 + j)) / R - x)) *
          cdb (padFn R knots) (z0 tol R (knots.length + 2 * R) (padFn R knots) x) x R i =
          (F 0 x - F 1 x * x) * cdb (padFn R knots) (z0 tol R (knots.length + 2 * R) (padFn R knots) x) x R i +
          F 1 x * ((∑ j ∈ Finset.range R, padFn R knots (i + 1 + j)) / R * cdb (padFn R knots) (z0 tol R (knots.length + 2 * R) (padFn R knots) x) x R i) :=
        fun i => by ring
      rw [Finset.sum_congr rfl fun i _ => this i, Finset.sum_add_distrib, ← Finset.mul_sum, ← Finset.mul_sum, h1, hg]
      simp [hFd]
    · set ξ : ℝ := (∑ j ∈ Finset.range R, padFn R knots (i + 1 + j)) / R with hξ
      have hin : ξ ∈ Icc (knots.getD 0 0) (knots.getD (knots.length - 1) 0) := by
        refine ⟨avg_ge hR fun j _ => (padFn_mem g.incr two _).1, ?_⟩
        rw [hξ, div_le_iff₀ hR0]
        refine (Finset.sum_le_card_nsmul _ _ (knots.getD (knots.length - 1) 0) fun j _ => (padFn_mem g.incr two _).2).trans ?_
        rw [Finset.card_range, nsmul_eq_mul, mul_comm]
      have hd : |ξ - x| ≤ R * h := by
        have e : ξ - x = (∑ j ∈ Finset.range R, (padFn R knots (i + 1 + j) - x)) / R := by
          rw [Finset.sum_sub_distrib, Finset.sum_const, Finset.card_range, nsmul_eq_mul, hξ]
          field_simp
        rw [e, abs_div, abs_of_pos hR0, div_le_iff₀ hR0]
        refine (Finset.abs_sum_le_sum_abs _ _).trans ?_
        refine (Finset.sum_le_card_nsmul _ _ (R * h) fun j hj => ?_).trans ?_
        · have hj := Finset.mem_range.1 hj
          exact support_dist g.incr two h0 hh sp hi (by omega) (by omega)
        · rw [Finset.card_range, nsmul_eq_mul, mul_comm]
      have key := taylor_two_sided 1 hF hM hx hin
      have e2 : (taylorPoly F (1 + 1) x).eval ξ = F 0 x + F 1 x * (ξ - x) := by
        rw [taylorPoly_eval]
        simp [Finset.sum_range_succ]
      rw [e2] at key
      have e3 : F 0 ξ = f ξ := by simp [hFd]
      rw [e3] at key
      refine key.trans ?_
      have : (((1 + 1).factorial : ℕ) : ℝ) = 2 := by norm_num [Nat.factorial]
      rw [this]
      exact mul_le_mul_of_nonneg_left (pow_le_pow_left₀ (abs_nonneg _) hd 2) (by positivity)

/-- **C158**: splines of every order approximate every continuous function on an interval, as closely as wanted, on all knots which are
close enough. -/
theorem C158_dense_partial (R : Nat) (a b : ℝ) (f : ℝ → ℝ) (hf : ContinuousOn f (Icc a b)) (ε : ℝ) (hε : 0 < ε) :
    ∃ δ > 0, ∀ (tol : ℝ) (knots : List ℝ), Good tol knots → knots.getD 0 0 = a → knots.getD (knots.length - 1) 0 = b →
      (∀ j, j + 1 < knots.length → knots.getD (j + 1) 0 - knots.getD j 0 ≤ δ) →
      ∃ t, pad R knots = .ok t ∧ ∃ c : List ℝ, c.length = size R t ∧ ∀ x ∈ Icc a b, ∃ y, expansion tol R t c x = .ok y ∧ |y - f x| ≤ ε := by
  have hu := isCompact_Icc.uniformContinuousOn_of_continuous hf
  rw [Metric.uniformContinuousOn_iff] at hu
  obtain ⟨η, hη, hc⟩ := hu ε hε
  refine ⟨η / (R + 2), by positivity, fun tol knots g ha hb hh => ?_⟩
  have two := g.two
  have h0 : (0 : ℝ) ≤ η / (R + 2) := by positivity
  refine ⟨_, pad_eq R knots (by omega), (List.range (knots.length + R - 1)).map fun i => f (padFn R knots (i + (R + 2) / 2)),
    by rw [size_padded R knots two]; simp, fun x hx => ⟨_, expansion_map g _ x, ?_⟩⟩
  have hx' : x ∈ Icc (knots.getD 0 0) (knots.getD (knots.length - 1) 0) := by rw [ha, hb]; exact hx
  obtain ⟨j, hj, hlo, hhi⟩ := exists_span two hx'.1 hx'.2
  have sp := inSpan_of (R := R) g hj hlo hhi
  have hm := padFn_mono R g.incr (by omega)
  have h1 := cdb_sum hm sp (knots.length + R - 1) (by omega) R (by omega)
  refine expansion_dist g hx' _ (fun _ => f x) (by rw [← Finset.mul_sum, h1, mul_one]) fun i hi => ?_
  have hd := support_dist g.incr two h0 hh sp hi (l := i + (R + 2) / 2) (n := (R + 2) / 2) (by omega) (by omega)
  have hin := padFn_mem (R := R) g.incr two (i + (R + 2) / 2)
  rw [ha, hb] at hin
  refine (le_of_lt ?_ : |f (padFn R knots (i + (R + 2) / 2)) - f x| ≤ ε)
  refine hc _ hin _ hx (lt_of_le_of_lt hd ?_)
  have e1 : (((R + 2) / 2 : ℕ) : ℝ) ≤ (R + 2) / 2 := by
    have := Nat.cast_div_le (α := ℝ) (m := R + 2) (n := 2)
    push_cast at this
    exact this
  calc _ ≤ ((R : ℝ) + 2) / 2 * (η / (R + 2)) := mul_le_mul_of_nonneg_right e1 h0
    _ = η / 2 := by field_simp
    _ < η := by linarith

/-! ### Shape -/

/-- Summation by parts in the derivative of an expansion. -/
theorem derivative_parts {t z : Nat → ℝ} {x : ℝ} {μ : Nat} (sp : InSpan t z x μ) (m : Nat) (hm : μ < m) (k r : Nat) (hr : r < μ) (c : Nat → ℝ) :
    ∑ i ∈ Finset.range m, c i * cdbD t z x (k + 1) (r + 1) i =
      ∑ i ∈ Finset.range m, ((r + 1 : ℕ) : ℝ) * ca t (r + 1) i * (c i - c (i - 1)) * cdbD t z x k r i := by
  have z0 : cdbD t z x k r 0 = 0 := cdbD_zero t z x k r 0 fun j _ h2 => sp.z0 j (by omega)
  have zm : cdbD t z x k r m = 0 := cdbD_zero t z x k r m fun j h1 _ => sp.z0 j (by omega)
  have e1 := Finset.sum_range_succ (fun i => c (i - 1) * (((r + 1 : ℕ) : ℝ) * ca t (r + 1) i * cdbD t z x k r i)) m
  have e2 := Finset.sum_range_succ' (fun i => c (i - 1) * (((r + 1 : ℕ) : ℝ) * ca t (r + 1) i * cdbD t z x k r i)) m
  rw [zm, mul_zero, mul_zero, add_zero] at e1
  rw [z0, mul_zero, mul_zero, add_zero, e1] at e2
  simp only [Nat.add_sub_cancel] at e2
  simp only [cdbD, mul_sub, sub_mul, Finset.sum_sub_distrib]
  rw [← e2]
  congr 1
  · exact Finset.sum_congr rfl fun i _ => by ring
  · exact Finset.sum_congr rfl fun i _ => by ring

/-- The function from the right of a point. -/
theorem fD_right {tol : ℝ} {R : Nat} {knots : List ℝ} (g : Good tol knots) (k i : Nat) {x : ℝ}
    (hx : x ∈ Ico (knots.getD 0 0) (knots.getD (knots.length - 1) 0)) : HasDerivWithinAt (fD tol R knots k i) (fD tol R knots (k + 1) i x) (Ici x) x := by
  have two := g.two
  obtain ⟨j, hj, hlo, hhi⟩ := exists_span two hx.1 hx.2.le
  have hhi : x < knots.getD (j + 1) 0 := by
    rcases hhi with h | ⟨h, h'⟩
    · exact h
    · have := hx.2
      rw [h', show j + 1 = knots.length - 1 by omega] at this; exact absurd this (lt_irrefl _)
  have hD := cdbD_hasDerivAt (padFn_mono R g.incr (by omega)) (fun m => if m = j + R then 1 else 0) x k R i
  unfold fD
  rw [z0_span g hj hlo hhi]
  refine hD.hasDerivWithinAt.congr_of_eventuallyEq_of_mem ?_ self_mem_Ici
  filter_upwards [Ico_mem_nhdsGE hhi] with y hy
  rw [z0_span g hj (hlo.trans hy.1) hy.2]

/-- A continuous function with nonnegative derivatives from the right. -/
theorem monotoneOn_of_right {a b : ℝ} {f f' : ℝ → ℝ} (hc : ContinuousOn f (Icc a b)) (hd : ∀ x ∈ Ico a b, HasDerivWithinAt f (f' x) (Ici x) x)
    (h0 : ∀ x ∈ Ico a b, 0 ≤ f' x) : MonotoneOn f (Icc a b) := by
  intro x hx y hy hxy
  exact image_le_of_deriv_right_le_deriv_boundary (f := fun _ => f x) (f' := fun _ => 0) (a := x) (b := y) continuousOn_const
    (fun _ _ => hasDerivWithinAt_const _ _ _) le_rfl (hc.mono (Icc_subset_Icc hx.1 hy.2)) (fun s hs => hd s ⟨hx.1.trans hs.1, hs.2.trans_le hy.2⟩)
    (fun s hs => h0 s ⟨hx.1.trans hs.1, hs.2.trans_le hy.2⟩) ⟨hxy, le_rfl⟩

/-- **C158**: a spline whose coefficients do not decrease does not decrease. -/
theorem C158_monotone_partial (tol : ℝ) (R : Nat) (hR : 0 < R) (knots : List ℝ) (g : Good tol knots) (c : List ℝ)
    (hc : ∀ i, i + 1 < c.length → c.getD i 0 ≤ c.getD (i + 1) 0) :
    ∃ t, pad R knots = .ok t ∧ (c.length = size R t → ∃ s : ℝ → ℝ, (∀ x, expansion tol R t c x = .ok (s x)) ∧
      MonotoneOn s (Icc (knots.getD 0 0) (knots.getD (knots.length - 1) 0))) := by
  have two := g.two
  have hs := size_padded R knots two
  refine ⟨_, pad_eq R knots (by omega), fun hl => ⟨_, fun x => expansion_values g (by rw [hl, hs]) x, ?_⟩⟩
  rw [hs] at hl
  refine monotoneOn_of_right (f' := fun x => ∑ i ∈ Finset.range (knots.length + R - 1), c.getD i 0 * fD tol R knots 1 i x)
    (continuousOn_finsetSum _ fun i _ => continuousOn_const.mul (fD_continuous g hR i))
    (fun x hx => HasDerivWithinAt.fun_sum fun i _ => (fD_right g 0 i hx).const_mul _) fun x hx => ?_
  obtain ⟨j, hj, hlo, hhi⟩ := exists_span two hx.1 hx.2.le
  have sp := inSpan_of (R := R) g hj hlo hhi
  have hm := padFn_mono R g.incr (by omega)
  obtain ⟨r, rfl⟩ : ∃ r, R = r + 1 := ⟨R - 1, by omega⟩
  unfold fD
  rw [derivative_parts sp _ (by omega) 0 r (by omega)]
  refine Finset.sum_nonneg fun i hi => ?_
  have hi := Finset.mem_range.1 hi
  refine mul_nonneg (mul_nonneg (mul_nonneg (by positivity) (ca_nonneg hm _ _)) ?_) (cdb_nonneg hm sp r i)
  rcases Nat.eq_zero_or_pos i with rfl | h
  · simp
  · have := hc (i - 1) (by omega)
    rw [show i - 1 + 1 = i by omega] at this
    linarith

/-- The slopes of the polygon through the coefficients, in terms of the knots. -/
theorem polygon_slope (t : Nat → ℝ) {R : Nat} (hR : 0 < R) (c : Nat → ℝ) (i : Nat) :
    (c (i + 1) - c i) / ((∑ j ∈ Finset.range R, t (i + 1 + 1 + j)) / R - (∑ j ∈ Finset.range R, t (i + 1 + j)) / R) =
      (R : ℝ) * ca t R (i + 1) * (c (i + 1) - c i) := by
  have hR0 : (R : ℝ) ≠ 0 := Nat.cast_ne_zero.2 hR.ne'
  have e1 := Finset.sum_range_succ (fun j => t (i + 1 + j)) R
  have e2 := Finset.sum_range_succ' (fun j => t (i + 1 + j)) R
  have e : (∑ j ∈ Finset.range R, t (i + 1 + 1 + j)) - ∑ j ∈ Finset.range R, t (i + 1 + j) = t (i + 1 + R) - t (i + 1) := by
    have e3 : ∑ j ∈ Finset.range R, t (i + 1 + 1 + j) = ∑ j ∈ Finset.range R, t (i + 1 + (j + 1)) :=
      Finset.sum_congr rfl fun j _ => by rw [show i + 1 + 1 + j = i + 1 + (j + 1) by omega]
    rw [e3]
    rw [e1] at e2
    simp only [add_zero] at e2
    linarith
  rw [← sub_div, e]
  unfold ca
  split_ifs with h
  · field_simp
  · push Not at h
    rw [h]; simp

/-- **C158**: a spline is convex if the polygon through its coefficients, placed at the averages of `R` consecutive knots, is convex. -/
theorem C158_convex_partial (tol : ℝ) (R : Nat) (hR : 2 ≤ R) (knots : List ℝ) (g : Good tol knots) (c : List ℝ) :
    ∃ t, pad R knots = .ok t ∧ (c.length = size R t → ∀ ξ : Nat → ℝ, (∀ i, ξ i = (∑ j ∈ Finset.range R, t.getD (i + 1 + j) 0) / R) →
      (∀ i, i + 2 < c.length → (c.getD (i + 1) 0 - c.getD i 0) / (ξ (i + 1) - ξ i) ≤ (c.getD (i + 2) 0 - c.getD (i + 1) 0) / (ξ (i + 2) - ξ (i + 1))) →
      ∃ s : ℝ → ℝ, (∀ x, expansion tol R t c x = .ok (s x)) ∧ ConvexOn ℝ (Icc (knots.getD 0 0) (knots.getD (knots.length - 1) 0)) s) := by
  have two := g.two
  have hs := size_padded R knots two
  refine ⟨_, pad_eq R knots (by omega), fun hl ξ hξ hsl => ⟨_, fun x => expansion_values g (by rw [hl, hs]) x, ?_⟩⟩
  rw [hs] at hl
  have hm := padFn_mono R g.incr (by omega)
  have hξ' : ∀ i, i < knots.length + R - 1 → ξ i = (∑ j ∈ Finset.range R, padFn R knots (i + 1 + j)) / R := by
    intro i hi
    rw [hξ]
    congr 1
    refine Finset.sum_congr rfl fun j hj => ?_
    have hj := Finset.mem_range.1 hj
    rw [tab, getD_map_range _ _ _ (by omega)]
  obtain ⟨r, rfl⟩ : ∃ r, R = r + 2 := ⟨R - 2, by omega⟩
  have mono : MonotoneOn (fun x => ∑ i ∈ Finset.range (knots.length + (r + 2) - 1), c.getD i 0 * fD tol (r + 2) knots 1 i x)
      (Icc (knots.getD 0 0) (knots.getD (knots.length - 1) 0)) := by
    refine monotoneOn_of_right (f' := fun x => ∑ i ∈ Finset.range (knots.length + (r + 2) - 1), c.getD i 0 * fD tol (r + 2) knots 2 i x)
      (continuousOn_finsetSum _ fun i _ => continuousOn_const.mul (fD_continuous g (by omega) i))
      (fun x hx => HasDerivWithinAt.fun_sum fun i _ => (fD_right g 1 i hx).const_mul _) fun x hx => ?_
    obtain ⟨j, hj, hlo, hhi⟩ := exists_span two hx.1 hx.2.le
    have sp := inSpan_of (R := r + 2) g hj hlo hhi
    unfold fD
    rw [derivative_parts sp _ (by omega) 1 (r + 1) (by omega), derivative_parts sp _ (by omega) 0 r (by omega)]
    refine Finset.sum_nonneg fun i hi => ?_
    have hi := Finset.mem_range.1 hi
    rcases Nat.lt_or_ge i 2 with h | h
    · have : cdbD (padFn (r + 2) knots) (z0 tol (r + 2) (knots.length + 2 * (r + 2)) (padFn (r + 2) knots) x) x 0 r i = 0 :=
        cdb_support sp r i (by omega)
      rw [this, mul_zero]
    · refine mul_nonneg (mul_nonneg (mul_nonneg (by positivity) (ca_nonneg hm _ _)) ?_) (cdb_nonneg hm sp r i)
      obtain ⟨l, rfl⟩ : ∃ l, i = l + 2 := ⟨i - 2, by omega⟩
      have h1 := hsl l (by omega)
      have p1 := polygon_slope (padFn (r + 2) knots) (show 0 < r + 2 by omega) (fun i => c.getD i 0) l
      have p2 := polygon_slope (padFn (r + 2) knots) (show 0 < r + 2 by omega) (fun i => c.getD i 0) (l + 1)
      rw [hξ' l (by omega), hξ' (l + 1) (by omega), hξ' (l + 2) (by omega)] at h1
      rw [p1] at h1
      rw [show l + 1 + 1 = l + 2 by omega] at p2
      rw [p2] at h1
      simp only [show l + 2 - 1 = l + 1 by omega, show l + 1 - 1 = l by omega]
      linarith
  have hint : interior (Icc (knots.getD 0 0) (knots.getD (knots.length - 1) 0)) = Ioo (knots.getD 0 0) (knots.getD (knots.length - 1) 0) := interior_Icc
  have hder : ∀ x ∈ Ioo (knots.getD 0 0) (knots.getD (knots.length - 1) 0),
      HasDerivAt (fun x => ∑ i ∈ Finset.range (knots.length + (r + 2) - 1), c.getD i 0 *
        cdb (padFn (r + 2) knots) (z0 tol (r + 2) (knots.length + 2 * (r + 2)) (padFn (r + 2) knots) x) x (r + 2) i)
        (∑ i ∈ Finset.range (knots.length + (r + 2) - 1), c.getD i 0 * fD tol (r + 2) knots 1 i x) x := by
    intro x hx
    refine HasDerivAt.fun_sum fun i _ => HasDerivAt.const_mul _ ?_
    exact (fD_hasDeriv (R := r + 2) g (k := 0) (by omega) i x).hasDerivAt (Icc_mem_nhds hx.1 hx.2)
  refine MonotoneOn.convexOn_of_deriv (convex_Icc _ _)
    (continuousOn_finsetSum _ fun i _ => continuousOn_const.mul (fD_continuous (R := r + 2) (k := 0) g (by omega) i)) ?_ ?_
  · rw [hint]
    exact fun x hx => (hder x hx).differentiableAt.differentiableWithinAt
  · rw [hint]
    intro x hx y hy hxy
    rw [(hder x hx).deriv, (hder y hy).deriv]
    exact mono (Ioo_subset_Icc_self hx) (Ioo_subset_Icc_self hy) hxy

/-! ### The hypotheses are met -/

theorem demo_knots_real : Good (1 / 100 : ℝ) [0, 1 / 2, 1, 3] := ⟨by simp, by norm_num, by norm_num, by norm_num⟩

example : ∀ j, j + 1 < ([0, 1 / 2, 1, 3] : List ℝ).length → ([0, 1 / 2, 1, 3] : List ℝ).getD (j + 1) 0 - ([0, 1 / 2, 1, 3] : List ℝ).getD j 0 ≤ 2 := by
  intro j hj
  simp only [List.length_cons, List.length_nil] at hj
  have hj : j < 3 := by omega
  interval_cases j <;> norm_num

example : ContDiff ℝ (3 + 1 : ℕ) Real.sin ∧ ∀ x, |iteratedDeriv (3 + 1) Real.sin x| ≤ 1 :=
  ⟨Real.contDiff_sin, fun x => by
    rw [show (3 + 1 : ℕ) = 4 from rfl]
    simp only [iteratedDeriv_succ, iteratedDeriv_zero, Real.deriv_sin, Real.deriv_cos', deriv.fun_neg']
    simpa using Real.abs_sin_le_one x⟩

/-- Coefficients which do not decrease, of a quadratic spline. -/
example : ∀ i, i + 1 < ([0, 1, 1, 2, 5] : List ℝ).length → ([0, 1, 1, 2, 5] : List ℝ).getD i 0 ≤ ([0, 1, 1, 2, 5] : List ℝ).getD (i + 1) 0 := by
  intro i hi
  simp only [List.length_cons, List.length_nil] at hi
  have hi : i < 4 := by omega
  interval_cases i <;> norm_num

/-- The hypotheses of the theorem on convexity, for a quadratic spline: the slopes of the polygon are -2, 0, 1, 2. -/
example : ∃ t, pad 2 ([0, 1, 2, 3] : List ℝ) = .ok t ∧ ([1, 0, 0, 1, 2] : List ℝ).length = size 2 t ∧
    ∀ i, i + 2 < ([1, 0, 0, 1, 2] : List ℝ).length →
      ((([1, 0, 0, 1, 2] : List ℝ).getD (i + 1) 0 - ([1, 0, 0, 1, 2] : List ℝ).getD i 0) /
        ((∑ j ∈ Finset.range 2, t.getD (i + 1 + 1 + j) 0) / (2 : ℕ) - (∑ j ∈ Finset.range 2, t.getD (i + 1 + j) 0) / (2 : ℕ)) ≤
      (([1, 0, 0, 1, 2] : List ℝ).getD (i + 2) 0 - ([1, 0, 0, 1, 2] : List ℝ).getD (i + 1) 0) /
        ((∑ j ∈ Finset.range 2, t.getD (i + 2 + 1 + j) 0) / (2 : ℕ) - (∑ j ∈ Finset.range 2, t.getD (i + 1 + 1 + j) 0) / (2 : ℕ))) := by
  refine ⟨[0, 0, 0, 1, 2, 3, 3, 3], rfl, rfl, fun i hi => ?_⟩
  simp only [List.length_cons, List.length_nil] at hi
  have hi : i < 3 := by omega
  interval_cases i <;> norm_num [Finset.sum_range_succ]

end Fdapde.Splines
