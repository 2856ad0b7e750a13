import Verif.Optim.PropsBfgs
import Verif.Optim.ConvergenceSpec
import Mathlib.LinearAlgebra.Matrix.SchurComplement
import Mathlib.Analysis.Matrix.Spectrum
import Mathlib.Analysis.Matrix.PosDef
import Mathlib.Analysis.SpecialFunctions.Log.Basic

/-!
# Trace and determinant of the Hessian approximation of BFGS

The inverse of the approximation kept by BFGS, its trace and its determinant along a run on a uniformly convex objective: the angles
between the directions and the gradients stay away from the right angle on average.
-/

set_option linter.unusedSectionVars false

namespace Fdapde.Optim

open Matrix

section Algebra
variable {K : Type} [Field K] [LinearOrder K] [IsStrictOrderedRing K] {n : Nat}

/-- The update of the approximation of the Hessian itself. -/
def directUpdate (B : Mat K n) (dx dg : Vec K n) : Mat K n :=
  B - (dotProduct dx (B.mulVec dx))⁻¹ • vecMulVec (B.mulVec dx) (B.mulVec dx) + (dotProduct dx dg)⁻¹ • vecMulVec dg dg

theorem directUpdate_mulVec (B : Mat K n) (dx dg w : Vec K n) : (directUpdate B dx dg).mulVec w =
    B.mulVec w - ((dotProduct dx (B.mulVec dx))⁻¹ * dotProduct (B.mulVec dx) w) • B.mulVec dx +
      ((dotProduct dx dg)⁻¹ * dotProduct dg w) • dg := by
  unfold directUpdate
  simp only [add_mulVec, sub_mulVec, smul_mulVec, vecMulVec_mulVec, op_smul_eq_smul]
  funext i
  simp only [Pi.add_apply, Pi.sub_apply, Pi.smul_apply, smul_eq_mul]
  ring

theorem direct_symm (B : Mat K n) (dx dg : Vec K n) (hB : B.transpose = B) : (directUpdate B dx dg).transpose = directUpdate B dx dg := by
  unfold directUpdate
  simp only [transpose_add, transpose_sub, transpose_smul, transpose_vecMulVec, hB]

/-- The updates of the Hessian and of its inverse are inverse of each other. -/
theorem direct_inverse {B H : Mat K n} (hB : B.transpose = B) (hH : H.transpose = H) (hBH : B * H = 1) (dx dg : Vec K n)
    (h1 : dotProduct dx dg ≠ 0) (h2 : dotProduct dx (B.mulVec dx) ≠ 0) : directUpdate B dx dg * bfgsUpdate H dx dg = 1 := by
  apply Matrix.ext_of_mulVec_single
  intro i
  rw [one_mulVec, ← mulVec_mulVec]
  generalize (Pi.single i 1 : Vec K n) = w
  have hcan : ∀ v, B.mulVec (H.mulVec v) = v := fun v => by rw [mulVec_mulVec, hBH, one_mulVec]
  rw [directUpdate_mulVec]
  set z := (bfgsUpdate H dx dg).mulVec w with hz
  rw [bfgsUpdate_mulVec] at hz
  set xg := dotProduct dx dg
  set q := dotProduct dx (B.mulVec dx)
  set r := dotProduct dg (H.mulVec dg)
  set a := (1 + r / xg) * xg⁻¹ * dotProduct dx w with ha
  set b := xg⁻¹ * dotProduct dx w with hb
  set c := xg⁻¹ * dotProduct (H.mulVec dg) w with hc
  have e1 : B.mulVec z = w + (a - c) • B.mulVec dx - b • dg := by
    rw [hz]
    simp only [mulVec_add, mulVec_sub, mulVec_smul, hcan]
    module
  have e2 : dotProduct (B.mulVec dx) z = dotProduct dx w + (a - c) * q - b * xg := by
    rw [dotProduct_comm, sym_dot B hB, e1]
    simp only [dotProduct_add, dotProduct_sub, dotProduct_smul, smul_eq_mul]
    rfl
  have e3 : dotProduct dg z = dotProduct (H.mulVec dg) w + (a - c) * xg - b * r := by
    rw [hz]
    simp only [dotProduct_add, dotProduct_sub, dotProduct_smul, smul_eq_mul]
    rw [sym_dot H hH, dotProduct_comm w, dotProduct_comm dg dx]
    ring
  rw [e1, e2, e3]
  have k1 : (a - c) - q⁻¹ * (dotProduct dx w + (a - c) * q - b * xg) = 0 := by
    rw [hb]; field_simp; ring
  have k2 : -b + xg⁻¹ * (dotProduct (H.mulVec dg) w + (a - c) * xg - b * r) = 0 := by
    rw [ha, hb, hc]; field_simp; ring
  rw [show w + (a - c) • B.mulVec dx - b • dg - (q⁻¹ * (dotProduct dx w + (a - c) * q - b * xg)) • B.mulVec dx +
      (xg⁻¹ * (dotProduct (H.mulVec dg) w + (a - c) * xg - b * r)) • dg =
    w + ((a - c) - q⁻¹ * (dotProduct dx w + (a - c) * q - b * xg)) • B.mulVec dx +
      (-b + xg⁻¹ * (dotProduct (H.mulVec dg) w + (a - c) * xg - b * r)) • dg by module, k1, k2]
  simp

theorem direct_trace (B : Mat K n) (dx dg : Vec K n) : (directUpdate B dx dg).trace =
    B.trace - dotProduct (B.mulVec dx) (B.mulVec dx) / dotProduct dx (B.mulVec dx) + dotProduct dg dg / dotProduct dx dg := by
  unfold directUpdate
  rw [trace_add, trace_sub, trace_smul, trace_smul, trace_vecMulVec, trace_vecMulVec, smul_eq_mul, smul_eq_mul]
  ring

/-- The determinant is multiplied by the ratio of the curvatures along the step. -/
theorem direct_det {B H : Mat K n} (hB : B.transpose = B) (hH : H.transpose = H) (hBH : B * H = 1) (dx dg : Vec K n)
    (h1 : dotProduct dx dg ≠ 0) (h2 : dotProduct dx (B.mulVec dx) ≠ 0) :
    (directUpdate B dx dg).det = B.det * (dotProduct dx dg / dotProduct dx (B.mulVec dx)) := by
  have hcan : ∀ v, H.mulVec (B.mulVec v) = v := fun v => by rw [mulVec_mulVec, mul_eq_one_comm.1 hBH, one_mulVec]
  set xg := dotProduct dx dg with hxg
  set q := dotProduct dx (B.mulVec dx) with hq
  set P : Matrix (Fin n) (Fin 2) K := .of fun i j => ![B.mulVec dx i, dg i] j
  set Q : Matrix (Fin 2) (Fin n) K := .of fun j i => ![-(q⁻¹ * dx i), xg⁻¹ * H.mulVec dg i] j
  have e1 : directUpdate B dx dg * H = 1 + P * Q := by
    apply Matrix.ext_of_mulVec_single
    intro i
    rw [← mulVec_mulVec, directUpdate_mulVec, add_mulVec, one_mulVec, ← mulVec_mulVec]
    generalize (Pi.single i 1 : Vec K n) = w
    rw [mulVec_mulVec, hBH, one_mulVec, dotProduct_comm, ← sym_dot H hH, dotProduct_comm, hcan]
    have : P.mulVec (Q.mulVec w) = (-(q⁻¹ * dotProduct dx w)) • B.mulVec dx + (xg⁻¹ * dotProduct (H.mulVec dg) w) • dg := by
      funext k
      have a1 : Q.mulVec w 0 = -(q⁻¹ * dotProduct dx w) := by
        show ∑ i, -(q⁻¹ * dx i) * w i = _
        simp only [dotProduct, Finset.mul_sum, ← Finset.sum_neg_distrib]
        exact Finset.sum_congr rfl fun i _ => by ring
      have a2 : Q.mulVec w 1 = xg⁻¹ * dotProduct (H.mulVec dg) w := by
        show ∑ i, (xg⁻¹ * H.mulVec dg i) * w i = _
        simp only [dotProduct, Finset.mul_sum]
        exact Finset.sum_congr rfl fun i _ => by ring
      show ∑ j, P k j * Q.mulVec w j = _
      rw [Fin.sum_univ_two, a1, a2]
      show B.mulVec dx k * _ + dg k * _ = _
      simp only [Pi.add_apply, Pi.smul_apply, smul_eq_mul]
      ring
    rw [this, sym_dot H hH dg w, dotProduct_comm (H.mulVec dg) w, dotProduct_comm dx w]
    module
  have e2 : (1 + P * Q).det = xg / q := by
    rw [det_one_add_mul_comm, det_fin_two]
    have b00 : (Q * P) 0 0 = -1 := by
      show ∑ i, -(q⁻¹ * dx i) * B.mulVec dx i = _
      rw [show ∑ i, -(q⁻¹ * dx i) * B.mulVec dx i = -(q⁻¹ * q) by
        rw [hq, dotProduct, Finset.mul_sum, ← Finset.sum_neg_distrib]; exact Finset.sum_congr rfl fun i _ => by ring]
      rw [inv_mul_cancel₀ h2]
    have b01 : (Q * P) 0 1 = -(xg / q) := by
      show ∑ i, -(q⁻¹ * dx i) * dg i = _
      rw [hxg, dotProduct, Finset.sum_div, ← Finset.sum_neg_distrib]
      exact Finset.sum_congr rfl fun i _ => by ring
    have b10 : (Q * P) 1 0 = 1 := by
      show ∑ i, (xg⁻¹ * H.mulVec dg i) * B.mulVec dx i = _
      rw [show ∑ i, (xg⁻¹ * H.mulVec dg i) * B.mulVec dx i = xg⁻¹ * dotProduct (B.mulVec dx) (H.mulVec dg) by
        rw [dotProduct, Finset.mul_sum]; exact Finset.sum_congr rfl fun i _ => by ring]
      rw [sym_dot H hH, hcan, dotProduct_comm, inv_mul_cancel₀ h1]
    rw [Matrix.add_apply, Matrix.add_apply, Matrix.add_apply, Matrix.add_apply, b00, b01, b10]
    simp
  have e3 : B.det * H.det = 1 := by rw [← det_mul, hBH, det_one]
  have e4 := congrArg det e1
  rw [det_mul, e2] at e4
  calc (directUpdate B dx dg).det = (directUpdate B dx dg).det * (B.det * H.det) := by rw [e3, mul_one]
    _ = B.det * ((directUpdate B dx dg).det * H.det) := by ring
    _ = _ := by rw [e4]

end Algebra

section Real
variable {n : Nat}

theorem spd_posDef {B : Mat ℝ n} (h : SPD B) : B.PosDef := by
  refine .of_dotProduct_mulVec_pos ?_ ?_
  · rw [IsHermitian, conjTranspose_eq_transpose_of_trivial]
    exact h.1
  · intro v hv
    simpa using h.2 v hv

/-- `n ≤ tr B - log det B` for a positive definite matrix. -/
theorem trace_log_det {B : Mat ℝ n} (h : SPD B) : 0 < B.det ∧ (n : ℝ) ≤ B.trace - Real.log B.det := by
  have hp := spd_posDef h
  refine ⟨hp.det_pos, ?_⟩
  rw [hp.1.det_eq_prod_eigenvalues, hp.1.trace_eq_sum_eigenvalues]
  simp only [RCLike.ofReal_real_eq_id, id]
  rw [Real.log_prod (fun i _ => (hp.eigenvalues_pos i).ne'), ← Finset.sum_sub_distrib]
  calc (n : ℝ) = ∑ _i : Fin n, (1 : ℝ) := by simp
    _ ≤ _ := Finset.sum_le_sum fun i _ => by linarith [Real.log_le_sub_one_of_pos (hp.eigenvalues_pos i)]

/-- The inverse of a positive definite matrix is positive definite. -/
theorem spd_inv {B H : Mat ℝ n} (hB : B.transpose = B) (hBH : B * H = 1) (h : SPD H) : SPD B := by
  refine ⟨hB, fun v hv => ?_⟩
  have hcan : H.mulVec (B.mulVec v) = v := by rw [mulVec_mulVec, mul_eq_one_comm.1 hBH, one_mulVec]
  have := h.2 (B.mulVec v) fun e => hv (by rw [← hcan, e, mulVec_zero])
  rwa [hcan, dotProduct_comm] at this

/-- Square of the cosine of the angle between the gradient and the direction of the step. -/
noncomputable def cos2 (H : Mat ℝ n) (g : Vec ℝ n) : ℝ :=
  dotProduct g (H.mulVec g) ^ 2 / (dotProduct g g * dotProduct (H.mulVec g) (H.mulVec g))

theorem dot_self_pos {v : Vec ℝ n} (h : v ≠ 0) : 0 < dotProduct v v :=
  lt_of_le_of_ne (Finset.sum_nonneg fun i _ => mul_self_nonneg (v i)) fun e => h (dotProduct_self_eq_zero.1 e.symm)

/-- One update, with the potential `tr B - log det B`. -/
theorem potential_step {B H : Mat ℝ n} (hB : B.transpose = B) (hH : SPD H) (hBH : B * H = 1) {g y : Vec ℝ n} (hg : g ≠ 0) {h L μ : ℝ}
    (hh : 0 < h) (hμ : 0 < μ) (h1 : μ * dotProduct (h • -(H.mulVec g)) (h • -(H.mulVec g)) ≤ dotProduct (h • -(H.mulVec g)) y)
    (h2 : dotProduct y y ≤ L * dotProduct (h • -(H.mulVec g)) y) :
    (directUpdate B (h • -(H.mulVec g)) y).trace - Real.log (directUpdate B (h • -(H.mulVec g)) y).det ≤
      B.trace - Real.log B.det + (L - 1 - Real.log μ) + Real.log (cos2 H g) := by
  have hcan : B.mulVec (H.mulVec g) = g := by rw [mulVec_mulVec, hBH, one_mulVec]
  have hu : H.mulVec g ≠ 0 := fun e => hg (by rw [← hcan, e, mulVec_zero])
  set s := h • -(H.mulVec g) with hs
  have hBs : B.mulVec s = -(h • g) := by rw [hs, mulVec_smul, mulVec_neg, hcan, smul_neg]
  have hp := hH.2 g hg
  have hgg := dot_self_pos hg
  have huu := dot_self_pos hu
  set p := dotProduct g (H.mulVec g)
  set G := dotProduct g g
  set U := dotProduct (H.mulVec g) (H.mulVec g)
  have k1 : dotProduct s (B.mulVec s) = h ^ 2 * p := by
    rw [hBs, hs]
    simp only [dotProduct_neg, smul_dotProduct, neg_dotProduct, dotProduct_smul, smul_eq_mul]
    rw [dotProduct_comm]
    ring
  have k2 : dotProduct (B.mulVec s) (B.mulVec s) = h ^ 2 * G := by
    rw [hBs]
    simp only [dotProduct_neg, smul_dotProduct, neg_dotProduct, dotProduct_smul, smul_eq_mul]
    ring
  have k3 : dotProduct s s = h ^ 2 * U := by
    rw [hs]
    simp only [dotProduct_neg, smul_dotProduct, neg_dotProduct, dotProduct_smul, smul_eq_mul]
    ring
  rw [k3] at h1
  have hsy : 0 < dotProduct s y := lt_of_lt_of_le (by positivity) h1
  have hq : 0 < h ^ 2 * p := by positivity
  obtain ⟨hdet, -⟩ := trace_log_det (spd_inv hB hBH hH)
  rw [direct_trace, direct_det hB hH.1 hBH _ _ hsy.ne' (by rw [k1]; exact hq.ne'), k1, k2, Real.log_mul hdet.ne' (div_pos hsy hq).ne',
    Real.log_div hsy.ne' hq.ne']
  have a1 : dotProduct y y / dotProduct s y ≤ L := (div_le_iff₀ hsy).2 h2
  have a2 : Real.log (μ * (h ^ 2 * U)) ≤ Real.log (dotProduct s y) := Real.log_le_log (by positivity) h1
  rw [Real.log_mul hμ.ne' (by positivity), Real.log_mul (by positivity) huu.ne'] at a2
  rw [Real.log_mul (by positivity) hp.ne']
  have a3 : Real.log (cos2 H g) = 2 * Real.log p - (Real.log G + Real.log U) := by
    show Real.log (p ^ 2 / (G * U)) = _
    rw [Real.log_div (by positivity) (by positivity), Real.log_mul hgg.ne' huu.ne', Real.log_pow]
    norm_num
  have a4 : h ^ 2 * G / (h ^ 2 * p) = G / p := mul_div_mul_left _ _ (by positivity)
  have a5 := Real.log_le_sub_one_of_pos (div_pos hgg hp)
  rw [Real.log_div hgg.ne' hp.ne'] at a5
  rw [a3, a4]
  linarith

/-- Along a run the squares of the cosines are on average at least `μ exp (1 - L)`. -/
theorem cos2_sum (x g : Nat → Vec ℝ n) (hs : Nat → ℝ) (H : Nat → Mat ℝ n) (N : Nat) {L μ : ℝ} (hμ : 0 < μ) (h0 : H 0 = 1)
    (hx : ∀ k < N, x (k + 1) = x k + hs k • -((H k).mulVec (g k)))
    (hu : ∀ k < N, H (k + 1) = bfgsUpdate (H k) (x (k + 1) - x k) (g (k + 1) - g k)) (hg : ∀ k < N, g k ≠ 0) (hp : ∀ k < N, 0 < hs k)
    (h1 : ∀ k < N, μ * dotProduct (x (k + 1) - x k) (x (k + 1) - x k) ≤ dotProduct (x (k + 1) - x k) (g (k + 1) - g k))
    (h2 : ∀ k < N, dotProduct (g (k + 1) - g k) (g (k + 1) - g k) ≤ L * dotProduct (x (k + 1) - x k) (g (k + 1) - g k)) :
    N * (μ * Real.exp (1 - L)) ≤ ∑ k ∈ Finset.range N, cos2 (H k) (g k) := by
  have key : ∀ k ≤ N, SPD (H k) ∧ ∃ B : Mat ℝ n, B.transpose = B ∧ B * H k = 1 ∧
      B.trace - Real.log B.det ≤ n + k * (L - 1 - Real.log μ) + ∑ i ∈ Finset.range k, Real.log (cos2 (H i) (g i)) := by
    intro k
    induction k with
    | zero =>
      intro _
      rw [h0]
      exact ⟨spd_one, 1, transpose_one, one_mul 1, by simp⟩
    | succ k ih =>
      intro hk
      obtain ⟨hS, B, b1, b2, b3⟩ := ih (by omega)
      have ek : x (k + 1) - x k = hs k • -((H k).mulVec (g k)) := by rw [hx k hk]; abel
      have e1 := h1 k hk
      have e2 := h2 k hk
      have e3 := hu k hk
      rw [ek] at e1 e2 e3
      have hcan : B.mulVec ((H k).mulVec (g k)) = g k := by rw [mulVec_mulVec, b2, one_mulVec]
      have hu0 : (H k).mulVec (g k) ≠ 0 := fun e => hg k hk (by rw [← hcan, e, mulVec_zero])
      have hss : 0 < dotProduct (hs k • -((H k).mulVec (g k))) (hs k • -((H k).mulVec (g k))) :=
        dot_self_pos (smul_ne_zero (hp k hk).ne' (neg_ne_zero.2 hu0))
      have hpos : 0 < dotProduct (hs k • -((H k).mulVec (g k))) (g (k + 1) - g k) := lt_of_lt_of_le (by positivity) e1
      have hBp := (spd_inv b1 b2 hS).2 _ (smul_ne_zero (hp k hk).ne' (neg_ne_zero.2 hu0))
      refine ⟨by rw [e3]; exact (C67_update _ _ _ hS hpos).1, directUpdate B (hs k • -((H k).mulVec (g k))) (g (k + 1) - g k),
        direct_symm _ _ _ b1, by rw [e3]; exact direct_inverse b1 hS.1 b2 _ _ hpos.ne' hBp.ne', ?_⟩
      have := potential_step b1 hS b2 (hg k hk) (hp k hk) hμ e1 e2
      rw [Finset.sum_range_succ]
      push_cast
      linarith
  obtain ⟨hS, B, b1, b2, b3⟩ := key N le_rfl
  have b4 := (trace_log_det (spd_inv b1 b2 hS)).2
  have hc : ∀ k < N, 0 < cos2 (H k) (g k) := by
    intro k hk
    obtain ⟨hS, B, b1, b2, -⟩ := key k hk.le
    have hcan : B.mulVec ((H k).mulVec (g k)) = g k := by rw [mulVec_mulVec, b2, one_mulVec]
    have hu0 : (H k).mulVec (g k) ≠ 0 := fun e => hg k hk (by rw [← hcan, e, mulVec_zero])
    exact div_pos (pow_pos (hS.2 _ (hg k hk)) 2) (mul_pos (dot_self_pos (hg k hk)) (dot_self_pos hu0))
  set c := L - 1 - Real.log μ with hcd
  have ee : μ * Real.exp (1 - L) = Real.exp (-c) := by
    rw [hcd, show -(L - 1 - Real.log μ) = Real.log μ + (1 - L) by ring, Real.exp_add, Real.exp_log hμ]
  have hk : ∀ k ∈ Finset.range N, Real.exp (-c) * (1 + (Real.log (cos2 (H k) (g k)) + c)) ≤ cos2 (H k) (g k) := by
    intro k hk
    have h1 := Real.add_one_le_exp (Real.log (cos2 (H k) (g k)) + c)
    calc _ ≤ Real.exp (-c) * Real.exp (Real.log (cos2 (H k) (g k)) + c) := mul_le_mul_of_nonneg_left (by linarith) (Real.exp_pos _).le
      _ = Real.exp (Real.log (cos2 (H k) (g k))) := by rw [← Real.exp_add]; congr 1; ring
      _ = _ := Real.exp_log (hc k (Finset.mem_range.1 hk))
  refine le_trans ?_ (Finset.sum_le_sum hk)
  rw [ee, ← Finset.mul_sum, Finset.sum_add_distrib, Finset.sum_add_distrib, Finset.sum_const, Finset.sum_const, Finset.card_range,
    nsmul_eq_mul, nsmul_eq_mul, mul_one, mul_comm (N : ℝ)]
  refine mul_le_mul_of_nonneg_left ?_ (Real.exp_pos _).le
  linarith

/-! ## Smooth and strongly convex objectives -/

variable {obj : Vec ℝ n → ℝ} {grad : Vec ℝ n → Vec ℝ n} {L μ : ℝ}

theorem convex_mono (hC : StronglyConvex obj grad μ) (x d : Vec ℝ n) : μ * dotProduct d d ≤ dotProduct d (grad (x + d) - grad x) := by
  have h1 := hC x d
  have h2 := hC (x + d) (-d)
  rw [add_neg_cancel_right, dotProduct_neg, dotProduct_neg, neg_dotProduct, neg_neg] at h2
  rw [dotProduct_sub, dotProduct_comm d (grad (x + d)), dotProduct_comm d (grad x)]
  linarith

theorem smooth_mono (hS : Smooth obj grad L) (x d : Vec ℝ n) : dotProduct d (grad (x + d) - grad x) ≤ L * dotProduct d d := by
  have h1 := hS x d
  have h2 := hS (x + d) (-d)
  rw [add_neg_cancel_right, dotProduct_neg, dotProduct_neg, neg_dotProduct, neg_neg] at h2
  rw [dotProduct_sub, dotProduct_comm d (grad (x + d)), dotProduct_comm d (grad x)]
  linarith

theorem dot_nonneg (v : Vec ℝ n) : 0 ≤ dotProduct v v := Finset.sum_nonneg fun i _ => mul_self_nonneg (v i)

theorem coercive_half (hS : Smooth obj grad L) (hC : StronglyConvex obj grad μ) (hL : 0 < L) (hμ : 0 ≤ μ) (x d : Vec ℝ n) :
    obj x + dotProduct (grad x) d + dotProduct (grad (x + d) - grad x) (grad (x + d) - grad x) / (2 * L) ≤ obj (x + d) := by
  set D := grad (x + d) - grad x with hD
  have h1 := hC x (d - L⁻¹ • D)
  have h2 := hS (x + d) (-(L⁻¹ • D))
  rw [show x + d + -(L⁻¹ • D) = x + (d - L⁻¹ • D) by abel] at h2
  have h3 : 0 ≤ μ / 2 * dotProduct (d - L⁻¹ • D) (d - L⁻¹ • D) := mul_nonneg (by linarith) (dot_nonneg _)
  have h4 : dotProduct (grad (x + d)) D = dotProduct D D + dotProduct (grad x) D := by
    rw [← add_dotProduct, hD, sub_add_cancel]
  simp only [dotProduct_sub, dotProduct_neg, neg_dotProduct, dotProduct_smul, smul_dotProduct, smul_eq_mul] at h1 h2 h3
  rw [h4] at h2
  have h5 : L / 2 * -(L⁻¹ * -(L⁻¹ * dotProduct D D)) = dotProduct D D / (2 * L) := by field_simp
  have h6 : L⁻¹ * dotProduct D D = 2 * (dotProduct D D / (2 * L)) := by field_simp
  rw [h5, mul_add, h6] at h2
  linarith

theorem coercive (hS : Smooth obj grad L) (hC : StronglyConvex obj grad μ) (hL : 0 < L) (hμ : 0 ≤ μ) (x d : Vec ℝ n) :
    dotProduct (grad (x + d) - grad x) (grad (x + d) - grad x) ≤ L * dotProduct d (grad (x + d) - grad x) := by
  have h1 := coercive_half hS hC hL hμ x d
  have h2 := coercive_half hS hC hL hμ (x + d) (-d)
  rw [add_neg_cancel_right, dotProduct_neg] at h2
  have h3 : dotProduct (grad x - grad (x + d)) (grad x - grad (x + d)) = dotProduct (grad (x + d) - grad x) (grad (x + d) - grad x) := by
    rw [← neg_sub, neg_dotProduct, dotProduct_neg, neg_neg]
  rw [h3] at h2
  have h4 : dotProduct d (grad (x + d) - grad x) = dotProduct (grad (x + d)) d - dotProduct (grad x) d := by
    rw [dotProduct_sub, dotProduct_comm d (grad (x + d)), dotProduct_comm d (grad x)]
  set E := dotProduct (grad (x + d) - grad x) (grad (x + d) - grad x)
  have h5 : E / (2 * L) + E / (2 * L) ≤ dotProduct d (grad (x + d) - grad x) := by rw [h4]; linarith
  have h6 : E / (2 * L) + E / (2 * L) = E / L := by field_simp; ring
  rw [h6, div_le_iff₀ hL] at h5
  linarith

theorem value_lower (hS : Smooth obj grad L) (hL : 0 < L) (x y : Vec ℝ n) (hy : ∀ x, obj y ≤ obj x) :
    dotProduct (grad x) (grad x) / (2 * L) ≤ obj x - obj y := by
  have h1 := hS x (-(L⁻¹ • grad x))
  have h2 := hy (x + -(L⁻¹ • grad x))
  simp only [dotProduct_neg, neg_dotProduct, dotProduct_smul, smul_dotProduct, smul_eq_mul] at h1
  have h5 : L / 2 * -(L⁻¹ * -(L⁻¹ * dotProduct (grad x) (grad x))) = dotProduct (grad x) (grad x) / (2 * L) := by field_simp
  have h6 : L⁻¹ * dotProduct (grad x) (grad x) = 2 * (dotProduct (grad x) (grad x) / (2 * L)) := by field_simp
  rw [h5, h6] at h1
  linarith

theorem value_upper (hC : StronglyConvex obj grad μ) (hμ : 0 < μ) (x y : Vec ℝ n) :
    obj x - obj y ≤ dotProduct (grad x) (grad x) / (2 * μ) := by
  have h1 := hC x (y - x)
  rw [add_sub_cancel] at h1
  have h2 := dot_nonneg (μ⁻¹ • grad x + (y - x))
  set d := y - x
  simp only [dotProduct_add, add_dotProduct, dotProduct_smul, smul_dotProduct, smul_eq_mul] at h2
  rw [dotProduct_comm d] at h2
  have h3 : μ / 2 * (μ⁻¹ * (μ⁻¹ * dotProduct (grad x) (grad x)) + μ⁻¹ * dotProduct (grad x) d + (μ⁻¹ * dotProduct (grad x) d + dotProduct d d)) =
      dotProduct (grad x) (grad x) / (2 * μ) + dotProduct (grad x) d + μ / 2 * dotProduct d d := by field_simp; ring
  have h4 : 0 ≤ μ / 2 * (μ⁻¹ * (μ⁻¹ * dotProduct (grad x) (grad x)) + μ⁻¹ * dotProduct (grad x) d + (μ⁻¹ * dotProduct (grad x) d + dotProduct d d)) :=
    mul_nonneg (by linarith) (by linarith)
  rw [h3] at h4
  linarith

/-- A step with the two conditions of the line search decreases the objective by a multiple of the squares of the gradient and the cosine. -/
theorem wolfe_decrease (hS : Smooth obj grad L) (hL : 0 < L) {c1 c2 h : ℝ} (hc1 : 0 ≤ c1) (x : Vec ℝ n) {H : Mat ℝ n}
    (hH : SPD H) (hg : grad x ≠ 0) (hh : 0 < h)
    (hA : Armijo obj x (-(H.mulVec (grad x))) (dotProduct (grad x) (-(H.mulVec (grad x)))) c1 h)
    (hW : Curvature grad x (-(H.mulVec (grad x))) (dotProduct (grad x) (-(H.mulVec (grad x)))) c2 h) :
    obj (x + h • -(H.mulVec (grad x))) ≤ obj x - c1 * (1 - c2) / L * (cos2 H (grad x) * dotProduct (grad x) (grad x)) := by
  have hp := hH.2 _ hg
  have hgg := dot_self_pos hg
  have hu : H.mulVec (grad x) ≠ 0 := fun e => by rw [e, dotProduct_zero] at hp; exact lt_irrefl _ hp
  have huu := dot_self_pos hu
  have hs := smooth_mono hS x (h • -(H.mulVec (grad x)))
  unfold Armijo at hA
  unfold Curvature at hW
  simp only [dotProduct_neg, neg_dotProduct, dotProduct_smul, smul_dotProduct, smul_eq_mul, neg_neg, dotProduct_sub] at hs hA hW
  rw [dotProduct_comm _ (grad (x + _)), dotProduct_comm _ (grad x)] at hs
  set p := dotProduct (grad x) (H.mulVec (grad x)) with hpd
  set U := dotProduct (H.mulVec (grad x)) (H.mulVec (grad x)) with hU
  set G := dotProduct (grad x) (grad x) with hG
  set q := dotProduct (grad (x + h • -(H.mulVec (grad x)))) (H.mulVec (grad x))
  have e1 : (1 - c2) * p ≤ L * h * U := by
    have : h * ((1 - c2) * p) ≤ h * (L * h * U) := by nlinarith
    exact le_of_mul_le_mul_left this hh
  have e2 : cos2 H (grad x) * G = p ^ 2 / U := by
    show p ^ 2 / (G * U) * G = _
    field_simp
  have e3 : (1 - c2) / L * (p ^ 2 / U) ≤ h * p := by
    rw [div_mul_div_comm, div_le_iff₀ (by positivity)]
    nlinarith
  rw [e2]
  have e4 := mul_le_mul_of_nonneg_left e3 hc1
  have e5 : c1 * (1 - c2) / L * (p ^ 2 / U) = c1 * ((1 - c2) / L * (p ^ 2 / U)) := by ring
  rw [e5]
  linarith

/-- The values along a run with the two conditions of the line search decrease linearly. -/
theorem run_linear (hS : Smooth obj grad L) (hC : StronglyConvex obj grad μ) (hμ : 0 < μ) (hL : 0 < L) {c1 c2 : ℝ} (hc1 : 0 ≤ c1)
    (hc2 : c2 ≤ 1) (x : Nat → Vec ℝ n) (hs : Nat → ℝ) (H : Nat → Mat ℝ n) (N : Nat) (h0 : H 0 = 1)
    (hx : ∀ k < N, x (k + 1) = x k + hs k • -((H k).mulVec (grad (x k))))
    (hu : ∀ k < N, H (k + 1) = bfgsUpdate (H k) (x (k + 1) - x k) (grad (x (k + 1)) - grad (x k))) (hg : ∀ k < N, grad (x k) ≠ 0)
    (hp : ∀ k < N, 0 < hs k) (hH : ∀ k < N, SPD (H k))
    (hA : ∀ k < N, Armijo obj (x k) (-((H k).mulVec (grad (x k)))) (dotProduct (grad (x k)) (-((H k).mulVec (grad (x k))))) c1 (hs k))
    (hW : ∀ k < N, Curvature grad (x k) (-((H k).mulVec (grad (x k)))) (dotProduct (grad (x k)) (-((H k).mulVec (grad (x k))))) c2 (hs k))
    (y : Vec ℝ n) (hy : ∀ x, obj y ≤ obj x) :
    obj (x N) - obj y ≤ Real.exp (-(2 * μ ^ 2 * (c1 * (1 - c2)) / L * Real.exp (1 - L))) ^ N * (obj (x 0) - obj y) := by
  have hκ : 0 ≤ c1 * (1 - c2) / L := div_nonneg (mul_nonneg hc1 (by linarith)) hL.le
  have hsum := cos2_sum x (fun k => grad (x k)) hs H N (L := L) hμ h0 hx hu hg hp
    (fun k _ => by have := convex_mono hC (x k) (x (k + 1) - x k); rwa [add_sub_cancel] at this)
    (fun k _ => by have := coercive hS hC hL hμ.le (x k) (x (k + 1) - x k); rwa [add_sub_cancel] at this)
  have key : ∀ k ≤ N, obj (x k) - obj y ≤
      Real.exp (-(2 * μ * (c1 * (1 - c2) / L) * ∑ i ∈ Finset.range k, cos2 (H i) (grad (x i)))) * (obj (x 0) - obj y) := by
    intro k
    induction k with
    | zero => intro _; simp
    | succ k ih =>
      intro hk
      have h1 := wolfe_decrease hS hL hc1 (x k) (hH k hk) (hg k hk) (hp k hk) (hA k hk) (hW k hk)
      rw [← hx k hk] at h1
      have h2 := value_upper hC hμ (x k) y
      rw [le_div_iff₀ (by positivity)] at h2
      have hc : 0 ≤ cos2 (H k) (grad (x k)) := div_nonneg (sq_nonneg _) (mul_nonneg (dot_nonneg _) (dot_nonneg _))
      have h3 : obj (x (k + 1)) - obj y ≤ (1 - 2 * μ * (c1 * (1 - c2) / L) * cos2 (H k) (grad (x k))) * (obj (x k) - obj y) := by
        have := mul_le_mul_of_nonneg_left h2 (mul_nonneg hκ hc)
        nlinarith
      have h4 := Real.add_one_le_exp (-(2 * μ * (c1 * (1 - c2) / L) * cos2 (H k) (grad (x k))))
      have h5 : 0 ≤ obj (x k) - obj y := sub_nonneg.2 (hy _)
      calc obj (x (k + 1)) - obj y ≤ Real.exp (-(2 * μ * (c1 * (1 - c2) / L) * cos2 (H k) (grad (x k)))) * (obj (x k) - obj y) :=
            h3.trans (mul_le_mul_of_nonneg_right (by linarith) h5)
        _ ≤ Real.exp (-(2 * μ * (c1 * (1 - c2) / L) * cos2 (H k) (grad (x k)))) * _ :=
            mul_le_mul_of_nonneg_left (ih (by omega)) (Real.exp_pos _).le
        _ = _ := by
          rw [← mul_assoc, ← Real.exp_add, Finset.sum_range_succ]
          congr 2
          ring
  refine (key N le_rfl).trans (mul_le_mul_of_nonneg_right ?_ (sub_nonneg.2 (hy _)))
  rw [← Real.exp_nat_mul, Real.exp_le_exp]
  have := mul_le_mul_of_nonneg_left hsum (by positivity : 0 ≤ 2 * μ * (c1 * (1 - c2) / L))
  have e : 2 * μ * (c1 * (1 - c2) / L) * (N * (μ * Real.exp (1 - L))) = N * (2 * μ ^ 2 * (c1 * (1 - c2)) / L * Real.exp (1 - L)) := by ring
  rw [e] at this
  linarith

end Real

end Fdapde.Optim
