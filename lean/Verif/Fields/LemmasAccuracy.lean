import Verif.Fields.AccuracySpec
import Verif.Fields.Derivatives
import Mathlib.Analysis.Calculus.MeanValue
import Mathlib.Analysis.Calculus.ContDiff.Operations
import Mathlib.Analysis.Calculus.Deriv.Pi
import Mathlib.Analysis.Calculus.Deriv.Pow
import Mathlib.Analysis.Calculus.ContDiff.RCLike
/-
Errors of central differences by repeated integration of bounds on derivatives.
-/
namespace Fdapde.Fields
open Set

/-- A function that is zero at 0 and whose derivative is at most `C s ^ k` at `s` is at most `C s ^ (k + 1) / (k + 1)`. -/
theorem grow {p p' : ℝ → ℝ} {h C : ℝ} (k : Nat) (hp : ∀ s ∈ Icc 0 h, HasDerivAt p (p' s) s) (h0 : p 0 = 0) (hb : ∀ s ∈ Icc 0 h, |p' s| ≤ C * s ^ k) :
    ∀ s ∈ Icc 0 h, |p s| ≤ C / (k + 1) * s ^ (k + 1) := by
  have key := image_norm_le_of_norm_deriv_right_le_deriv_boundary (f := p) (f' := p') (a := 0) (b := h) (B := fun s => C / (k + 1) * s ^ (k + 1))
    (B' := fun s => C * s ^ k) (fun s hs => (hp s hs).continuousAt.continuousWithinAt)
    (fun s hs => (hp s ⟨hs.1, hs.2.le⟩).hasDerivWithinAt) (by simp [h0])
    (fun s => by
      have := (hasDerivAt_pow (k + 1) s).const_mul (C / ((k : ℝ) + 1))
      refine this.congr_deriv ?_
      have : ((k : ℝ) + 1) ≠ 0 := by positivity
      push_cast
      field_simp)
    (fun s hs => hb s ⟨hs.1, hs.2.le⟩)
  exact fun s hs => key hs

/-- First central difference. -/
theorem central1 {G : Nat → ℝ → ℝ} {x h M : ℝ} (hG : ∀ k < 3, ∀ t, |t - x| ≤ h → HasDerivAt (G k) (G (k + 1) t) t)
    (hM : ∀ t, |t - x| ≤ h → |G 3 t| ≤ M) (h0 : 0 ≤ h) : |G 0 (x + h) - G 0 (x - h) - 2 * h * G 1 x| ≤ M / 3 * h ^ 3 := by
  have up : ∀ k < 3, ∀ s ∈ Icc 0 h, HasDerivAt (fun s => G k (x + s)) (G (k + 1) (x + s)) s := fun k hk s hs => by
    have := (hG k hk (x + s) (by rw [add_sub_cancel_left, abs_of_nonneg hs.1]; exact hs.2)).comp s ((hasDerivAt_id s).const_add x)
    exact this.congr_deriv (by simp)
  have dn : ∀ k < 3, ∀ s ∈ Icc 0 h, HasDerivAt (fun s => G k (x - s)) (-G (k + 1) (x - s)) s := fun k hk s hs => by
    have := (hG k hk (x - s) (by rw [sub_sub_cancel_left, abs_neg, abs_of_nonneg hs.1]; exact hs.2)).comp s ((hasDerivAt_id s).const_sub x)
    exact this.congr_deriv (by simp)
  have b : ∀ s ∈ Icc 0 h, |G 3 (x + s) - -G 3 (x - s)| ≤ 2 * M * s ^ 0 := fun s hs => by
    have h1 := hM (x + s) (by rw [add_sub_cancel_left, abs_of_nonneg hs.1]; exact hs.2)
    have h2 := hM (x - s) (by rw [sub_sub_cancel_left, abs_neg, abs_of_nonneg hs.1]; exact hs.2)
    rw [sub_neg_eq_add, pow_zero, mul_one]
    exact (abs_add_le _ _).trans (by linarith)
  have s2 := grow (p := fun s => G 2 (x + s) - G 2 (x - s)) 0 (fun s hs => (up 2 (by omega) s hs).sub (dn 2 (by omega) s hs)) (by simp) b
  have s1 := grow (p := fun s => G 1 (x + s) + G 1 (x - s) - 2 * G 1 x) (p' := fun s => G 2 (x + s) - G 2 (x - s)) 1
    (fun s hs => by simpa [sub_eq_add_neg] using ((up 1 (by omega) s hs).add (dn 1 (by omega) s hs)).sub_const (2 * G 1 x)) (by simp; ring)
    (fun s hs => by simpa using s2 s hs)
  have s0 := grow (p := fun s => G 0 (x + s) - G 0 (x - s) - 2 * s * G 1 x) (p' := fun s => G 1 (x + s) + G 1 (x - s) - 2 * G 1 x) 2
    (fun s hs => by
      have := ((up 0 (by omega) s hs).sub (dn 0 (by omega) s hs)).sub (((hasDerivAt_id s).const_mul 2).mul_const (G 1 x))
      exact this.congr_deriv (by simp)) (by simp) (fun s hs => by simpa using s1 s hs)
  have := s0 h ⟨h0, le_rfl⟩
  refine this.trans (le_of_eq ?_)
  norm_num

/-- The five point formula for the second derivative. -/
theorem central2 {G : Nat → ℝ → ℝ} {x h M : ℝ} (hG : ∀ k < 6, ∀ t, |t - x| ≤ 2 * h → HasDerivAt (G k) (G (k + 1) t) t)
    (hM : ∀ t, |t - x| ≤ 2 * h → |G 6 t| ≤ M) (h0 : 0 ≤ h) :
    |-G 0 (x + 2 * h) + 16 * G 0 (x + h) - 30 * G 0 x + 16 * G 0 (x - h) - G 0 (x - 2 * h) - 12 * h ^ 2 * G 2 x| ≤ 2 * M / 9 * h ^ 6 := by
  have der : ∀ c : ℝ, |c| ≤ 2 → ∀ k < 6, ∀ s ∈ Icc 0 h, HasDerivAt (fun s => G k (x + c * s)) (c * G (k + 1) (x + c * s)) s := fun c hc k hk s hs => by
    have hin : |x + c * s - x| ≤ 2 * h := by
      rw [add_sub_cancel_left, abs_mul, abs_of_nonneg hs.1]
      exact mul_le_mul hc hs.2 hs.1 (by norm_num)
    have := (hG k hk (x + c * s) hin).comp s (((hasDerivAt_id s).const_mul c).const_add x)
    exact this.congr_deriv (by simp [mul_comm])
  have bd : ∀ c : ℝ, |c| ≤ 2 → ∀ s ∈ Icc 0 h, |G 6 (x + c * s)| ≤ M := fun c hc s hs => hM _ (by
    rw [add_sub_cancel_left, abs_mul, abs_of_nonneg hs.1]
    exact mul_le_mul hc hs.2 hs.1 (by norm_num))
  have two : |(2 : ℝ)| ≤ 2 := by norm_num
  have one : |(1 : ℝ)| ≤ 2 := by norm_num
  have none' : |(-1 : ℝ)| ≤ 2 := by norm_num
  have ntwo : |(-2 : ℝ)| ≤ 2 := by norm_num
  -- the derivatives of the combination with coefficients -2^k, 16, 16 (-1)^k, -(-2)^k
  let P : Nat → ℝ → ℝ := fun k s => -(2 ^ k * G k (x + 2 * s)) + 16 * G k (x + 1 * s) + 16 * ((-1) ^ k * G k (x + -1 * s)) - (-2) ^ k * G k (x + -2 * s)
  have hP : ∀ k < 6, ∀ s ∈ Icc 0 h, HasDerivAt (P k) (P (k + 1) s) s := fun k hk s hs => by
    have := ((((der 2 two k hk s hs).const_mul (2 ^ k)).neg.add ((der 1 one k hk s hs).const_mul 16)).add
      (((der (-1) none' k hk s hs).const_mul ((-1) ^ k)).const_mul 16)).sub ((der (-2) ntwo k hk s hs).const_mul ((-2) ^ k))
    refine this.congr_deriv ?_
    simp only [P, pow_succ]
    ring
  have b6 : ∀ s ∈ Icc 0 h, |P 6 s| ≤ 160 * M * s ^ 0 := fun s hs => by
    have h1 := abs_le.1 (bd 2 two s hs)
    have h2 := abs_le.1 (bd 1 one s hs)
    have h3 := abs_le.1 (bd (-1) none' s hs)
    have h4 := abs_le.1 (bd (-2) ntwo s hs)
    simp only [P]
    norm_num at h1 h2 h3 h4 ⊢
    rw [abs_le]
    constructor <;> linarith [h1.1, h1.2, h2.1, h2.2, h3.1, h3.2, h4.1, h4.2]
  have z : ∀ k, P k 0 = (-(2 ^ k) + 16 + 16 * (-1) ^ k - (-2) ^ k) * G k x := fun k => by
    simp only [P, mul_zero, add_zero]
    ring
  have s5 := grow (p := P 5) (p' := P 6) 0 (fun s hs => hP 5 (by omega) s hs) (by rw [z]; norm_num) b6
  have s4 := grow (p := P 4) (p' := P 5) 1 (fun s hs => hP 4 (by omega) s hs) (by rw [z]; norm_num) (fun s hs => by simpa using s5 s hs)
  have s3 := grow (p := P 3) (p' := P 4) 2 (fun s hs => hP 3 (by omega) s hs) (by rw [z]; norm_num) (fun s hs => by simpa using s4 s hs)
  have s2 := grow (p := fun s => P 2 s - 24 * G 2 x) (p' := P 3) 3 (fun s hs => (hP 2 (by omega) s hs).sub_const _)
    (by simp only [z]; norm_num) (fun s hs => by simpa using s3 s hs)
  have s1 := grow (p := fun s => P 1 s - 24 * s * G 2 x) (p' := fun s => P 2 s - 24 * G 2 x) 4
    (fun s hs => by
      have := (hP 1 (by omega) s hs).sub (((hasDerivAt_id s).const_mul 24).mul_const (G 2 x))
      exact this.congr_deriv (by simp)) (by simp only [z]; norm_num) (fun s hs => by simpa using s2 s hs)
  have s0 := grow (p := fun s => P 0 s - 30 * G 0 x - 12 * s ^ 2 * G 2 x) (p' := fun s => P 1 s - 24 * s * G 2 x) 5
    (fun s hs => by
      have := ((hP 0 (by omega) s hs).sub_const (30 * G 0 x)).sub (((hasDerivAt_pow 2 s).const_mul 12).mul_const (G 2 x))
      exact this.congr_deriv (by push_cast; ring)) (by simp only [z]; norm_num) (fun s hs => by simpa using s1 s hs)
  have := s0 h ⟨h0, le_rfl⟩
  have e : P 0 h - 30 * G 0 x - 12 * h ^ 2 * G 2 x =
      -G 0 (x + 2 * h) + 16 * G 0 (x + h) - 30 * G 0 x + 16 * G 0 (x - h) - G 0 (x - 2 * h) - 12 * h ^ 2 * G 2 x := by
    simp only [P, pow_zero, one_mul, show x + -1 * h = x - h by ring, show x + -2 * h = x - 2 * h by ring]
    ring
  rw [← e]
  refine this.trans (le_of_eq ?_)
  push_cast
  ring

variable {n : Nat}

theorem pd_fderiv {f : (Fin n → ℝ) → ℝ} (hf : Differentiable ℝ f) (i : Fin n) (x : Fin n → ℝ) : pd i f x = fderiv ℝ f x (Pi.single i 1) := by
  unfold pd
  have h := (hf (Function.update x i (x i))).hasFDerivAt.comp_hasDerivAt (x i) (hasDerivAt_update x i (x i))
  rw [Function.update_eq_self] at h
  exact h.deriv

theorem pd_smooth {f : (Fin n → ℝ) → ℝ} {k : Nat} (hf : ContDiff ℝ (k + 1 : Nat) f) (i : Fin n) : ContDiff ℝ (k : Nat) (pd i f) := by
  have e : pd i f = fun x => fderiv ℝ f x (Pi.single i 1) := funext fun x => pd_fderiv (hf.differentiable (by norm_num)) i x
  rw [e]
  exact (hf.fderiv_right (m := (k : Nat)) (by norm_cast)).clm_apply contDiff_const

theorem pd_along {f : (Fin n → ℝ) → ℝ} (hf : Differentiable ℝ f) (i : Fin n) (x : Fin n → ℝ) (t : ℝ) :
    HasDerivAt (fun t => f (Function.update x i t)) (pd i f (Function.update x i t)) t := by
  have h := (hf (Function.update x i t)).hasFDerivAt.comp_hasDerivAt t (hasDerivAt_update x i t)
  rw [pd_fderiv hf]
  exact h

end Fdapde.Fields
