import Verif.PDE.PropsSmoothRounded
/- C170 : the criterion of smoothing splines computed in floating point. -/
namespace Fdapde.PDE
open Finset Fdapde.Fp
variable {tol : ℝ} {R : Nat} {knots qn qw locs : List ℝ}

/-- **C170**, the criterion (partial as above).  The penalized sum of squares of the spline computed in floating point, from the observations up to the relative
error ε, exceeds that of no other spline of the basis by more than C times the square of ε times the largest observation; `P'` is the exact penalty matrix. -/
theorem C170_optimal_partial (h : Splines.SmoothData tol R knots qn qw locs) (lam : ℝ) (hl : 0 < lam) (lu' : Solver ℝ)
    (hlu : ExactLU (knots.length + R - 1) lu') (hlc : CompleteLU (knots.length + R - 1) lu') :
    ∃ C : ℝ, 0 ≤ C ∧ ∀ (r : Rounding) (S : List ℝ → ℝ), r.Summation S → r.rnd tol = tol →
      ∀ (y y' : Nat → ℝ) (ε : ℝ) (lu : Solver ℝ), r.u ≤ ε → C * ε ≤ 1 →
      BackwardLU (knots.length + R - 1) ε lu → CompleteLU (knots.length + R - 1) lu →
      ∃ t P P' c c', smoothR r S tol R knots qn qw lu locs lam y' = .ok (some (t, P, c)) ∧
        Splines.smooth tol R knots qn qw lu' locs lam y = .ok (some (t, P', c')) ∧ c.length = Splines.size R t ∧
        ∃ V : ℝ → ℝ, (∀ x, Splines.expansion tol R t c x = .ok (V x)) ∧
        ∀ Y, 0 ≤ Y → (∀ j < locs.length, |y j| ≤ Y ∧ |y' j - y j| ≤ ε * Y) → ∀ d : List ℝ, d.length = Splines.size R t →
          ∃ W : ℝ → ℝ, (∀ x, Splines.expansion tol R t d x = .ok (W x)) ∧
            Splines.misfit locs y V + lam * Splines.rough P' c ≤ Splines.misfit locs y W + lam * Splines.rough P' d + C * (ε * Y) ^ 2 := by
  have two := h.good.two
  obtain ⟨l, S0, hV, hP, hs⟩ := Splines.smooth_core h hlu hlc
  obtain ⟨-, hs⟩ := hs lam hl
  obtain ⟨C, c0, hC⟩ := C170_smoothing_partial h lam hl
  set n := knots.length + R - 1 with hn
  set K := ∑ j ∈ range locs.length, (∑ i ∈ range n, |Splines.entry l j i|) ^ 2 + lam * ∑ i ∈ range n, ∑ j ∈ range n, |S0 i j| with hK
  have k1 : 0 ≤ ∑ j ∈ range locs.length, (∑ i ∈ range n, |Splines.entry l j i|) ^ 2 := sum_nonneg fun _ _ => sq_nonneg _
  have k2 : 0 ≤ ∑ i ∈ range n, ∑ j ∈ range n, |S0 i j| := sum_nonneg fun _ _ => sum_nonneg fun _ _ => abs_nonneg _
  have K0 : 0 ≤ K := by positivity
  refine ⟨C + K * C ^ 2, by positivity, fun r S hS ht y y' ε lu hu hε b1 b2 => ?_⟩
  have ε0 : 0 ≤ ε := r.u_pos.trans hu
  have p1 : 0 ≤ K * C ^ 2 * ε := by positivity
  obtain ⟨t, P, P', c, c', r1, r2, hc, hc', hh⟩ := hC r S hS ht y y' ε lu lu' hu (by linarith) b1 b2 hlu hlc
  obtain ⟨c2, hc2, e, hN⟩ := hs y
  have r3 := r2
  rw [e] at r3
  obtain ⟨rfl, rfl, rfl⟩ : Splines.tab (knots.length + 2 * R) (Splines.padFn R knots) = t ∧ S0 = P' ∧ c2 = c' := by simpa using r3
  have hsz := Splines.size_padded R knots two
  refine ⟨_, _, _, c, _, r1, r2, by rw [hc, hsz], _, fun x => Splines.expansion_values h.good hc x, fun Y hY hy d hd => ?_⟩
  rw [hsz] at hd
  refine ⟨_, fun x => Splines.expansion_values h.good hd x, ?_⟩
  change Splines.misfit locs y (Splines.fS tol R knots 0 fun i => c.getD i 0) + _ ≤ Splines.misfit locs y (Splines.fS tol R knots 0 fun i => d.getD i 0) + _ + _
  have hle := Splines.fit_le h hV hP hl.le hN fun i => d.getD i 0
  have hex := Splines.normal_expand hN (Splines.pform_symm hP) fun i => c.getD i 0
  rw [Splines.rough_eq hc, Splines.rough_eq hd, Splines.misfit_eq hV y fun i => c.getD i 0, hex]
  rw [Splines.misfit_eq hV y fun i => c2.getD i 0] at hle
  set w : Nat → ℝ := fun i => c.getD i 0 - c2.getD i 0 with hw
  have hwb : ∀ i < n, |w i| ≤ C * ε * Y := (hh Y hY hy).1
  set D := C * ε * Y with hD
  have D0 : 0 ≤ D := by positivity
  have q1 : ∑ j ∈ range locs.length, Splines.vals n (Splines.entry l) w j * Splines.vals n (Splines.entry l) w j ≤
      (∑ j ∈ range locs.length, (∑ i ∈ range n, |Splines.entry l j i|) ^ 2) * D ^ 2 := by
    rw [sum_mul]
    refine sum_le_sum fun j _ => ?_
    have : |Splines.vals n (Splines.entry l) w j| ≤ (∑ i ∈ range n, |Splines.entry l j i|) * D := by
      rw [Splines.vals, sum_mul]
      refine (abs_sum_le_sum_abs _ _).trans (sum_le_sum fun i hi => ?_)
      rw [abs_mul]
      exact mul_le_mul_of_nonneg_left (hwb i (mem_range.1 hi)) (abs_nonneg _)
    rw [← abs_mul_abs_self, ← mul_pow, pow_two]
    exact mul_self_le_mul_self (abs_nonneg _) this
  have q2 : Splines.pform n S0 w w ≤ (∑ i ∈ range n, ∑ j ∈ range n, |S0 i j|) * D ^ 2 := by
    rw [Splines.pform, sum_mul]
    refine sum_le_sum fun i hi => ?_
    rw [sum_mul]
    refine sum_le_sum fun j hj => (le_abs_self _).trans ?_
    rw [abs_mul, abs_mul]
    have m1 := mul_le_mul (hwb i (mem_range.1 hi)) (hwb j (mem_range.1 hj)) (abs_nonneg _) D0
    calc _ = |S0 i j| * (|w i| * |w j|) := by ring
      _ ≤ |S0 i j| * (D * D) := mul_le_mul_of_nonneg_left m1 (abs_nonneg _)
      _ = _ := by ring
  have q3 := mul_le_mul_of_nonneg_left q2 hl.le
  have q4 : K * D ^ 2 ≤ (C + K * C ^ 2) * (ε * Y) ^ 2 := by
    have : 0 ≤ C * (ε * Y) ^ 2 := by positivity
    rw [hD]
    linarith [show K * (C * ε * Y) ^ 2 = K * C ^ 2 * (ε * Y) ^ 2 by ring]
  have q5 : K * D ^ 2 = (∑ j ∈ range locs.length, (∑ i ∈ range n, |Splines.entry l j i|) ^ 2) * D ^ 2 + lam * ((∑ i ∈ range n, ∑ j ∈ range n, |S0 i j|) * D ^ 2) := by
    rw [hK]; ring
  linarith

/-- The example of C161, with an arithmetic and a solver that are not exact; the spline `d` is any other one. -/
example (y : Nat → ℝ) (d : List ℝ) (hd : d.length = 5) : ∃ (C : ℝ) (r : Rounding) (lu : Solver ℝ) (t : List ℝ) (P P' : Nat → Nat → ℝ) (c : List ℝ) (V W : ℝ → ℝ), 0 < r.u ∧
    smoothR r r.sumLeft (1 / 10) 3 [0, 1, 3] (Splines.splineNodes ℝ) (Splines.splineWeights ℝ) lu [1 / 2, 2, 3] 7 y = .ok (some (t, P, c)) ∧
    (∀ x, Splines.expansion (1 / 10) 3 t c x = .ok (V x)) ∧ (∀ x, Splines.expansion (1 / 10) 3 t d x = .ok (W x)) ∧
    Splines.misfit [1 / 2, 2, 3] y V + 7 * Splines.rough P' c ≤ Splines.misfit [1 / 2, 2, 3] y W + 7 * Splines.rough P' d + C * (r.u * (|y 0| + |y 1| + |y 2|)) ^ 2 := by
  obtain ⟨lu', x1, x2⟩ := exists_exactLU (K := ℝ) 5
  obtain ⟨C, c0, hC⟩ := C170_optimal_partial Splines.demo_smooth 7 (by norm_num) lu' x1 x2
  have hp : 0 < 1 / (C + 2) := by positivity
  have hp1 : 1 / (C + 2) < 1 := by rw [div_lt_one (by linarith)]; linarith
  obtain ⟨lu, b1, b2, -⟩ := exists_inflatedLU 5 hp.le
  obtain ⟨t, P, P', c, c', r1, r2, hc, V, hV, hh⟩ := hC (upwardAbove _ hp.le hp1) _ (fun l => Rounding.sumLeft_adds _ l) (if_pos (by norm_num)) y y (1 / (C + 2)) lu le_rfl
    (by rw [mul_one_div, div_le_one (by linarith)]; linarith) b1 b2
  have y0 := abs_nonneg (y 0)
  have y1 := abs_nonneg (y 1)
  have y2 := abs_nonneg (y 2)
  obtain ⟨s, s', _, _, q1, q2, _⟩ := hC (upwardAbove _ hp.le hp1) _ (fun l => Rounding.sumLeft_adds _ l) (if_pos (by norm_num)) y y (1 / (C + 2)) lu le_rfl
    (by rw [mul_one_div, div_le_one (by linarith)]; linarith) b1 b2
  have hsz : Splines.size 3 t = 5 := by
    obtain ⟨C2, _, h2⟩ := C170_smoothing_partial Splines.demo_smooth 7 (by norm_num)
    obtain ⟨_, _, hV5, _, hs5⟩ := Splines.smooth_core Splines.demo_smooth x1 x2
    obtain ⟨c5, hc5, e5, -⟩ := (hs5 7 (by norm_num)).2 y
    rw [r2] at e5
    obtain ⟨rfl, -, -⟩ : t = _ ∧ P' = _ ∧ c' = c5 := by simpa using e5
    exact Splines.size_padded 3 [0, 1, 3] (by simp)
  obtain ⟨W, hW, hb⟩ := hh (|y 0| + |y 1| + |y 2|) (by positivity) (by
    intro j hj
    have hj : j < 3 := hj
    refine ⟨?_, by rw [sub_self, abs_zero]; positivity⟩
    rcases (by omega : j = 0 ∨ j = 1 ∨ j = 2) with rfl | rfl | rfl <;> linarith) d (by rw [hsz, hd])
  exact ⟨C, upwardAbove _ hp.le hp1, lu, t, P, P', c, V, W, hp, r1, hV, hW, hb⟩

end Fdapde.PDE
