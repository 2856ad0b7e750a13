import Verif.PDE.PropsWellPosed
import Verif.PDE.EulerSpec
import Mathlib.Analysis.Calculus.Deriv.MeanValue
import Mathlib.Analysis.Calculus.Deriv.Pow
import Mathlib.Analysis.Calculus.Deriv.Mul
import Mathlib.Analysis.Calculus.Deriv.Add
import Mathlib.Algebra.QuadraticDiscriminant
/-!
# C109: the time stepping converges with order one
-/
namespace Fdapde.PDE
open Fdapde.Quadrature

/-- Second order Taylor bound. -/
theorem taylor_back (φ φ1 φ2 : ℝ → ℝ) (h1 : ∀ t, HasDerivAt φ (φ1 t) t) (h2 : ∀ t, HasDerivAt φ1 (φ2 t) t) (T h C : ℝ) (hh : 0 ≤ h)
    (hC : ∀ t ∈ Set.Icc (T - h) T, |φ2 t| ≤ C) : φ T - φ (T - h) - h * φ1 T ≤ C * h ^ 2 / 2 := by
  have hlip : ∀ s ∈ Set.Icc (0 : ℝ) h, φ1 (T - s) - φ1 T ≤ C * s := by
    intro s hs
    have := (convex_Icc (T - h) T).norm_image_sub_le_of_norm_hasDerivWithin_le (f := φ1) (f' := φ2) (C := C)
      (fun t _ => (h2 t).hasDerivWithinAt) (fun t ht => by rw [Real.norm_eq_abs]; exact hC t ht)
      (x := T) (y := T - s) ⟨by linarith, le_rfl⟩ ⟨by linarith [hs.2], by linarith [hs.1]⟩
    rw [Real.norm_eq_abs, Real.norm_eq_abs, show T - s - T = -s by ring, abs_neg, abs_of_nonneg hs.1] at this
    exact (le_abs_self _).trans this
  have hder : ∀ s : ℝ, HasDerivAt (fun s : ℝ => C * s ^ 2 / 2 - (φ T - φ (T - s) - s * φ1 T)) (C * s - (φ1 (T - s) - φ1 T)) s := by
    intro s
    have e1 : HasDerivAt (fun s : ℝ => T - s) (-1) s := by simpa using (hasDerivAt_id s).const_sub T
    have e2 : HasDerivAt (fun s : ℝ => φ (T - s)) (φ1 (T - s) * (-1)) s := (h1 (T - s)).comp s e1
    have e3 : HasDerivAt (fun s : ℝ => s * φ1 T) (1 * φ1 T) s := (hasDerivAt_id s).mul_const _
    have e4 : HasDerivAt (fun s : ℝ => C * s ^ 2 / 2) (C * (2 * s) / 2) s := by
      have := (((hasDerivAt_id s).pow 2).const_mul C).div_const 2
      refine HasDerivAt.congr_deriv (f := fun s : ℝ => C * s ^ 2 / 2) this ?_
      simp
    refine HasDerivAt.congr_deriv (e4.sub ((e2.const_sub (φ T)).sub e3)) ?_
    ring
  have hmono : MonotoneOn (fun s : ℝ => C * s ^ 2 / 2 - (φ T - φ (T - s) - s * φ1 T)) (Set.Icc 0 h) := by
    refine monotoneOn_of_deriv_nonneg (convex_Icc 0 h) (fun t _ => (hder t).continuousAt.continuousWithinAt)
      (fun t _ => (hder t).differentiableAt.differentiableWithinAt) ?_
    intro t ht
    rw [interior_Icc] at ht
    rw [(hder t).deriv]
    linarith [hlip t ⟨ht.1.le, ht.2.le⟩]
  have := hmono (Set.left_mem_Icc.2 hh) (Set.right_mem_Icc.2 hh) hh
  simp only [sub_zero, sub_self, zero_mul] at this
  norm_num at this
  linarith

variable (P : Prob ℝ)

theorem l2_right (hP : P.Ok) (x y : ℝ) (u v v' : Nat → ℝ) :
    P.l2 u (fun p => x * v p + y * v' p) = x * P.l2 u v + y * P.l2 u v' := by
  rw [l2_symm, l2_left P hP, l2_symm P v, l2_symm P v']

theorem l2_cauchy (hP : P.Ok) (hme : ∀ c < P.n, 0 < P.measure c) (hw : ∀ k < size P.t, 0 < weight ℝ P.t k) (u v : Nat → ℝ) :
    |P.l2 u v| ≤ P.nrm u * P.nrm v := by
  have h : ∀ x : ℝ, 0 ≤ P.l2 v v * (x * x) + 2 * P.l2 u v * x + P.l2 u u := by
    intro x
    have := l2_nonneg P hme hw (fun p => 1 * u p + x * v p)
    rw [l2_left P hP, l2_right P hP, l2_right P hP, l2_symm P v u] at this
    linarith
  have hd := discrim_le_zero h
  unfold discrim at hd
  rw [Prob.nrm, Prob.nrm, ← Real.sqrt_mul (l2_nonneg P hme hw u)]
  refine Real.abs_le_sqrt ?_
  nlinarith

/-- The derivative of the product with a fixed function. -/
theorem l2_deriv (hP : P.Ok) (u u1 : ℝ → Nat → ℝ) (r : Nat → ℝ) (t : ℝ) (h : ∀ p, HasDerivAt (fun t => u t p) (u1 t p) t) :
    HasDerivAt (fun t => P.l2 (u t) r) (P.l2 (u1 t) r) t := by
  obtain ⟨A, hA⟩ := l2_matrix P hP
  simp only [← hA]
  refine HasDerivAt.fun_sum fun p _ => HasDerivAt.fun_sum fun q _ => (h q).const_mul _

/-- The truncation error of a step. -/
theorem truncation (hP : P.Ok) (hme : ∀ c < P.n, 0 < P.measure c) (hw : ∀ k < size P.t, 0 < weight ℝ P.t k)
    (u u1 u2 : ℝ → Nat → ℝ) (hu : Curve u u1 u2) (T h B : ℝ) (hh : 0 < h) (hB : ∀ t ∈ Set.Icc (T - h) T, P.nrm (u2 t) ≤ B) :
    P.nrm (fun p => (u T p - u (T - h) p) / h - u1 T p) ≤ h * B / 2 := by
  set r : Nat → ℝ := fun p => (u T p - u (T - h) p) / h - u1 T p with hr
  have hB0 : 0 ≤ B := (Real.sqrt_nonneg _).trans (hB T ⟨by linarith, le_rfl⟩)
  have h1 := taylor_back (fun t => P.l2 (u t) r) (fun t => P.l2 (u1 t) r) (fun t => P.l2 (u2 t) r)
    (fun t => l2_deriv P hP u u1 r t fun p => (hu p t).1) (fun t => l2_deriv P hP u1 u2 r t fun p => (hu p t).2) T h (B * P.nrm r) hh.le
    (fun t ht => (l2_cauchy P hP hme hw _ _).trans (mul_le_mul_of_nonneg_right (hB t ht) (Real.sqrt_nonneg _)))
  have h2 : P.l2 r r = h⁻¹ * (P.l2 (u T) r - P.l2 (u (T - h)) r - h * P.l2 (u1 T) r) := by
    have e : r = fun p => h⁻¹ * (fun p => 1 * u T p + -1 * u (T - h) p) p + -1 * u1 T p := by
      funext p
      rw [hr]
      field_simp
      ring
    have e' : P.l2 r r = P.l2 (fun p => h⁻¹ * (fun p => 1 * u T p + -1 * u (T - h) p) p + -1 * u1 T p) r := congrArg (fun w => P.l2 w r) e
    rw [e', l2_left P hP, l2_left P hP]
    field_simp
    ring
  have h3 : P.l2 r r ≤ h * (B * P.nrm r) / 2 := by
    rw [h2]
    have := mul_le_mul_of_nonneg_left h1 (inv_pos.2 hh).le
    refine this.trans (le_of_eq ?_)
    field_simp
  have h4 : P.nrm r * P.nrm r = P.l2 r r := Real.mul_self_sqrt (l2_nonneg P hme hw r)
  by_contra hcon
  push Not at hcon
  have hpos : 0 < P.nrm r := lt_of_le_of_lt (by positivity) hcon
  have := mul_lt_mul_of_pos_right hcon hpos
  linarith

/-- C109 (dof 0 on the boundary): if `u` solves the semi-discrete problem and its second derivative in time is bounded by `B` in the
L2 norm, the solution computed at the i-th instant differs from `u` by at most `t_i dt B / 2`, `t_i` being the elapsed time. -/
theorem C109_order_partial (hP : P.Ok) (hop : hasDT P.op = true)
    (hE : ∀ c < P.n, ∀ k < size P.t, ∀ (u : ℝ) (g : Nat → ℝ), 0 ≤ form P.N P.op (size P.t * c + k) u u g g)
    (hme : ∀ c < P.n, 0 < P.measure c) (hw : ∀ k < size P.t, 0 < weight ℝ P.t k)
    (lu : Solver ℝ) (hlu : ExactLU P.m lu)
    (data : Dense ℝ) (hr : P.n * size P.t ≤ data.rows) (hc : 0 < data.cols)
    (g : Dense ℝ) (hg : P.m ≤ g.rows) (hgc : data.cols ≤ g.cols)
    (hm : 0 < P.m) (h0 : P.bd 0 = true) (junk ic : Nat → ℝ) (t0 t1 : ℝ) (ht : t0 < t1) (ts : List ℝ)
    (u u1 u2 : ℝ → Nat → ℝ) (hu : Curve u u1 u2) (B : ℝ)
    (hB : ∀ t ∈ Set.Icc t0 (t0 + (data.cols - 1 : Nat) * (t1 - t0)), P.nrm (u2 t) ≤ B)
    (hsd : ∀ i, i + 1 < data.cols → P.SemiDiscrete u u1 (t0 + (i + 1 : Nat) * (t1 - t0))
      (fun c k => data.at' (size P.t * c + k) (i + 1)) (fun p => g.at' p (i + 1)))
    (hic : ic = u t0) :
    ∃ b sol, (P.init data junk >>= pdeSolveParabolic lu (t0 :: t1 :: ts) data.cols ic g) = .ok (b, sol) ∧
      (b = true → ∀ i < data.cols, P.nrm (fun p => sol i p - u (t0 + i * (t1 - t0)) p) ≤ (i * (t1 - t0)) * (t1 - t0) * B / 2) := by
  obtain ⟨b, sol, e1, e2, e3⟩ := C102_parabolic_partial P hP hop lu hlu data hr hc g hg hgc hm h0 junk ic t0 t1 ts
  refine ⟨b, sol, e1, fun hb i => ?_⟩
  have hdt : 0 < t1 - t0 := by linarith
  set h := t1 - t0 with hh
  induction i with
  | zero =>
    intro _
    have : (fun p => sol 0 p - u (t0 + (0 : Nat) * h) p) = fun p => 0 * (0 : Nat → ℝ) p + 0 * (0 : Nat → ℝ) p := by
      funext p; simp [e2, hic]
    rw [this, Prob.nrm, l2_left P hP]
    simp
  | succ i ih =>
    intro hi
    have ih := ih (by omega)
    obtain ⟨e4, e5⟩ := e3 hb i hi
    obtain ⟨s1, s2⟩ := hsd i hi
    set T := t0 + ((i + 1 : Nat) : ℝ) * h with hT
    have hTh : T - h = t0 + (i : ℝ) * h := by rw [hT]; push_cast; ring
    set e : Nat → ℝ := fun p => sol (i + 1) p - u T p with he
    set e' : Nat → ℝ := fun p => sol i p - u (t0 + (i : ℝ) * h) p with he'
    set r : Nat → ℝ := fun p => (u T p - u (T - h) p) / h - u1 T p with hr'
    have hTest : P.Test e := fun p hp hbp => by
      rw [he]; simp only; rw [e4 p hp hbp, s1 p hp hbp, sub_self]
    have q1 := e5 e hTest
    have q2 := s2 e hTest
    have hb0 : 0 ≤ P.bilin e e :=
      Finset.sum_nonneg fun c hc => mul_nonneg (hme c (Finset.mem_range.1 hc)).le
        (Finset.sum_nonneg fun k hk => mul_nonneg (hw k (Finset.mem_range.1 hk)).le
          (hE c (Finset.mem_range.1 hc) k (Finset.mem_range.1 hk) _ _))
    have q3 : P.bilin e e = P.bilin (sol (i + 1)) e - P.bilin (u T) e := by
      have := bilin_left P hP (-1) (sol (i + 1)) (u T) e
      rw [show (fun p => sol (i + 1) p + -1 * u T p) = e by funext p; rw [he]; ring] at this
      rw [this]; ring
    have q4 : P.l2 (fun p => (sol (i + 1) p - sol i p) / h) e - P.l2 (u1 T) e = h⁻¹ * (P.l2 e e - P.l2 e' e) + P.l2 r e := by
      have a1 : (fun p => (sol (i + 1) p - sol i p) / h) =
          fun p => 1 * (fun p => h⁻¹ * (fun p => 1 * e p + -1 * e' p) p + 1 * r p) p + 1 * u1 T p := by
        funext p
        simp only [he, he', hr', hTh]
        field_simp
        ring
      rw [a1, l2_left P hP, l2_left P hP, l2_left P hP]
      ring
    have q5 : P.l2 e e ≤ P.l2 e' e - h * P.l2 r e := by
      have : h⁻¹ * (P.l2 e e - P.l2 e' e) + P.l2 r e ≤ 0 := by linarith
      have := mul_le_mul_of_nonneg_left this hdt.le
      rw [mul_add, ← mul_assoc, mul_inv_cancel₀ hdt.ne'] at this
      linarith
    have q6 := truncation P hP hme hw u u1 u2 hu T h B hdt (fun t ht => hB t ⟨by
        have : 0 ≤ (i : ℝ) * h := by positivity
        linarith [ht.1], by
        refine ht.2.trans ?_
        have : ((i + 1 : Nat) : ℝ) ≤ ((data.cols - 1 : Nat) : ℝ) := by exact_mod_cast (by omega : i + 1 ≤ data.cols - 1)
        have := mul_le_mul_of_nonneg_right this hdt.le
        linarith⟩)
    have c1 := (le_abs_self _).trans (l2_cauchy P hP hme hw e' e)
    have c2 := (neg_abs_le _).trans' (neg_le_neg (l2_cauchy P hP hme hw r e))
    have q7 : P.nrm e * P.nrm e = P.l2 e e := Real.mul_self_sqrt (l2_nonneg P hme hw e)
    have q8 : P.nrm e ≤ P.nrm e' + h * P.nrm r := by
      by_contra hcon
      push Not at hcon
      have n1 : 0 ≤ P.nrm e' := Real.sqrt_nonneg _
      have n2 : 0 ≤ P.nrm r := Real.sqrt_nonneg _
      have hpos : 0 < P.nrm e := lt_of_le_of_lt (by positivity) hcon
      have m1 := mul_lt_mul_of_pos_right hcon hpos
      have m2 := mul_le_mul_of_nonneg_left c2 hdt.le
      nlinarith
    have q9 := mul_le_mul_of_nonneg_left q6 hdt.le
    push_cast
    linarith

/-- The unit interval with two cells. -/
noncomputable def realProb : Prob ℝ where
  t := rule1_2
  N := 1
  op := .add .dT (.neg .lap)
  measure := fun _ => 1 / 2
  psi := fun i x => if i = 0 then 1 - x 0 else x 0
  grad := fun _ i _ _ => if i = 0 then -2 else 2
  n := 2
  nb := 2
  m := 3
  dofs := fun c i => c + i
  bd := fun p => p != 1

/-- The hypotheses are met by `u(t, x) = t² x`, which solves the heat equation with forcing `2 t x`; after the first step the
error at `t = 2` is below twice the norm of `x`. -/
example : ∃ (lu : Solver ℝ) (b : Bool) (sol : Nat → Nat → ℝ),
    (realProb.init ⟨4, 3, fun r j => j * ((r / 2 : Nat) + node ℝ rule1_2 (r % 2) 0)⟩ (fun _ => 0) >>=
      pdeSolveParabolic lu [0, 1, 2] 3 (fun _ => 0) ⟨3, 3, fun p j => (j : ℝ) ^ 2 * p / 2⟩) = .ok (b, sol) ∧
      (b = true → realProb.nrm (fun p => sol 2 p - 2 ^ 2 * p / 2) ≤ realProb.nrm fun p => (p : ℝ)) := by
  obtain ⟨lu, h1, _⟩ := exists_exactLU (K := ℝ) 3
  obtain ⟨b, sol, e1, e2⟩ := C109_order_partial realProb
    ⟨by decide, fun _ => ⟨trivial, trivial⟩, ⟨trivial, trivial⟩⟩ rfl
    (fun c hc k hk u g => by simp [realProb, form, dot]; exact mul_self_nonneg _) (fun c _ => by norm_num [realProb])
    (fun k hk => by
      have : k < 2 := hk
      rcases (by omega : k = 0 ∨ k = 1) with rfl | rfl <;> norm_num [realProb, weight, rule1_2]) lu h1
    ⟨4, 3, fun r j => j * ((r / 2 : Nat) + node ℝ rule1_2 (r % 2) 0)⟩ (by decide) (by decide)
    ⟨3, 3, fun p j => (j : ℝ) ^ 2 * p / 2⟩ (by decide) (by decide) (by decide) rfl (fun _ => 0) (fun _ => 0) 0 1 (by norm_num) [2]
    (fun t p => t ^ 2 * p / 2) (fun t p => t * p) (fun _ p => p)
    (by
      intro p t
      refine ⟨?_, ?_⟩
      · have := (((hasDerivAt_id t).pow 2).mul_const (p : ℝ)).div_const 2
        refine HasDerivAt.congr_deriv (f := fun t : ℝ => t ^ 2 * p / 2) this ?_
        simp; ring
      · have := (hasDerivAt_id t).mul_const (p : ℝ)
        refine HasDerivAt.congr_deriv (f := fun t : ℝ => t * p) this ?_
        simp)
    (realProb.nrm fun p => (p : ℝ)) (fun t _ => le_rfl)
    (by
      intro i hi
      refine ⟨fun p _ _ => by push_cast; ring, fun v hv => ?_⟩
      have v0 : v 0 = 0 := hv 0 (by decide) rfl
      have v2 : v 2 = 0 := hv 2 (by decide) rfl
      have hs : size realProb.t = 2 := rfl
      have w0 : weight ℝ rule1_2 0 = 1 / 2 := by norm_num [weight, rule1_2]
      have w1 : weight ℝ rule1_2 1 = 1 / 2 := by norm_num [weight, rule1_2]
      simp only [Prob.l2, Prob.bilin, Prob.load, hs]
      simp [realProb, form, dot, feValue, feGrad, Finset.sum_range_succ, w0, w1, v0, v2]
      ring)
    (by funext p; simp)
  refine ⟨lu, b, sol, e1, fun hb => ?_⟩
  have := e2 hb 2 (by decide)
  norm_num at this ⊢
  linarith

end Fdapde.PDE
