import Verif.PDE.LemmasQuadMesh
import Verif.PDE.QuadSpec
set_option linter.unusedSectionVars false
/-
Taylor polynomials of order one and two on a convex set.
-/
namespace Fdapde.PDE
open Fdapde.Quadrature MeasureTheory Matrix Fdapde.Geometry Fdapde.FEM

variable {T : Set (Vec 2)}

theorem len_two (x : Vec 2) : len x = Real.sqrt (x 0 ^ 2 + x 1 ^ 2) := by rw [len, Fin.sum_univ_two]

theorem abs_le_len (x : Vec 2) (z : Fin 2) : |x z| ≤ len x := by
  rw [← Real.sqrt_sq_eq_abs]
  exact Real.sqrt_le_sqrt (Finset.single_le_sum (f := fun z => x z ^ 2) (fun _ _ => sq_nonneg _) (Finset.mem_univ z))

theorem quad_dot_le_len (x y : Vec 2) : |∑ z, x z * y z| ≤ len x * len y := by
  have h := Finset.sum_mul_sq_le_sq_mul_sq Finset.univ x y
  rw [← len_sq, ← len_sq, ← mul_pow] at h
  exact abs_le_of_sq_le_sq h (mul_nonneg (len_nonneg _) (len_nonneg _))

theorem len_smul (t : ℝ) (x : Vec 2) : len (t • x) = |t| * len x := by
  rw [len, len, ← Real.sqrt_sq_eq_abs, ← Real.sqrt_mul (sq_nonneg _), Finset.mul_sum]
  congr 1
  exact Finset.sum_congr rfl fun z _ => by rw [Pi.smul_apply, smul_eq_mul, mul_pow]

/-- The gradient as a linear map. -/
noncomputable def lin (q : Fin 2 → ℝ) : Vec 2 →L[ℝ] ℝ := ∑ z, q z • ContinuousLinearMap.proj (R := ℝ) (φ := fun _ : Fin 2 => ℝ) z

theorem path_deriv {p : Vec 2 → ℝ} {q : Fin 2 → ℝ} {x d : Vec 2} {t : ℝ} (h : HasFDerivAt p (lin q) (x + t • d)) :
    HasDerivAt (fun t => p (x + t • d)) (∑ z, q z * d z) t := by
  have h1 : HasDerivAt (fun t : ℝ => x + t • d) d t := by
    have := ((hasDerivAt_id t).smul_const d).const_add x
    simpa using this
  refine (h.comp_hasDerivAt t h1).congr_deriv ?_
  rw [lin, _root_.sum_apply]
  exact Finset.sum_congr rfl fun z _ => rfl

theorem path_mem (hT : Convex ℝ T) {x y : Vec 2} (hx : x ∈ T) (hy : y ∈ T) {t : ℝ} (h0 : 0 ≤ t) (h1 : t ≤ 1) : x + t • (y - x) ∈ T := by
  have e : x + t • (y - x) = (1 - t) • x + t • y := by
    funext z
    show x z + t * (y z - x z) = (1 - t) * x z + t * y z
    ring
  rw [e]
  exact hT hx hy (by linarith) h0 (by ring)

theorem taylor1 (hT : Convex ℝ T) {p : Vec 2 → ℝ} {q : Vec 2 → Fin 2 → ℝ} {M : ℝ} (hM : 0 ≤ M) (hp : ∀ x ∈ T, HasFDerivAt p (lin (q x)) x)
    (hq : ∀ x ∈ T, ∀ y ∈ T, len (fun z => q y z - q x z) ≤ M * len (y - x)) {x y : Vec 2} (hx : x ∈ T) (hy : y ∈ T) :
    |p y - p x - ∑ z, q x z * (y z - x z)| ≤ M * len (y - x) ^ 2 := by
  set d := y - x with hd
  have h := norm_image_sub_le_of_norm_deriv_le_segment_01' (f := fun t : ℝ => p (x + t • d) - t * ∑ z, q x z * d z)
    (f' := fun t => (∑ z, q (x + t • d) z * d z) - ∑ z, q x z * d z) (C := M * len d ^ 2)
    (fun t ht => ((path_deriv (hp _ (path_mem hT hx hy ht.1 ht.2))).sub (((hasDerivAt_id t).mul_const _).congr_deriv (one_mul _))).hasDerivWithinAt)
    fun t ht => by
      rw [Real.norm_eq_abs, ← Finset.sum_sub_distrib]
      have e : ∑ z, (q (x + t • d) z * d z - q x z * d z) = ∑ z, (q (x + t • d) z - q x z) * d z := Finset.sum_congr rfl fun z _ => by ring
      rw [e]
      refine (quad_dot_le_len (fun z => q (x + t • d) z - q x z) d).trans ?_
      have h1 := hq x hx _ (path_mem hT hx hy ht.1 ht.2.le)
      rw [← hd, add_sub_cancel_left, len_smul, abs_of_nonneg ht.1] at h1
      have h2 : M * (t * len d) ≤ M * len d := mul_le_mul_of_nonneg_left (mul_le_of_le_one_left (len_nonneg _) ht.2.le) hM
      calc _ ≤ M * len d * len d := mul_le_mul_of_nonneg_right (h1.trans h2) (len_nonneg _)
        _ = _ := by ring
  rw [Real.norm_eq_abs] at h
  simp only [one_smul, one_mul, zero_smul, add_zero, zero_mul, sub_zero] at h
  rw [show x + d = y by rw [hd]; abel] at h
  refine le_trans (le_of_eq ?_) h
  congr 1
  rw [hd]
  simp only [Pi.sub_apply]
  ring

theorem taylor2 (hT : Convex ℝ T) {u : Vec 2 → ℝ} {p : Fin 2 → Vec 2 → ℝ} {q : Fin 2 → Vec 2 → Fin 2 → ℝ} {M : ℝ} (hM : 0 ≤ M)
    (hu : ∀ x ∈ T, HasFDerivAt u (lin fun z => p z x) x) (hp : ∀ z, ∀ x ∈ T, HasFDerivAt (p z) (lin (q z x)) x)
    (hq : ∀ z, ∀ x ∈ T, ∀ y ∈ T, len (fun s => q z y s - q z x s) ≤ M * len (y - x)) {x y : Vec 2} (hx : x ∈ T) (hy : y ∈ T) :
    |u y - tay x (u x) (fun z => p z x) (fun a b => (q a x b + q b x a) / 2) y| ≤ 2 * M * len (y - x) ^ 3 := by
  set d := y - x with hd
  have h := norm_image_sub_le_of_norm_deriv_le_segment_01'
    (f := fun t : ℝ => u (x + t • d) - t * (∑ z, p z x * d z) - t ^ 2 * (1 / 2 * ∑ z, (∑ s, q z x s * d s) * d z))
    (f' := fun t => (∑ z, p z (x + t • d) * d z) - (∑ z, p z x * d z) - 2 * t * (1 / 2 * ∑ z, (∑ s, q z x s * d s) * d z)) (C := 2 * M * len d ^ 3)
    (fun t ht => by
      have h1 := path_deriv (hu _ (path_mem hT hx hy ht.1 ht.2))
      have h2 : HasDerivAt (fun t : ℝ => t * ∑ z, p z x * d z) (∑ z, p z x * d z) t := ((hasDerivAt_id t).mul_const _).congr_deriv (one_mul _)
      have h3 : HasDerivAt (fun t : ℝ => t ^ 2 * (1 / 2 * ∑ z, (∑ s, q z x s * d s) * d z)) (2 * t * (1 / 2 * ∑ z, (∑ s, q z x s * d s) * d z)) t :=
        ((hasDerivAt_pow 2 t).mul_const _).congr_deriv (by norm_num)
      exact ((h1.sub h2).sub h3).hasDerivWithinAt)
    fun t ht => by
      rw [Real.norm_eq_abs]
      have hm := path_mem hT hx hy ht.1 ht.2.le
      have key : ∀ z, |p z (x + t • d) - p z x - t * ∑ s, q z x s * d s| ≤ M * len d ^ 2 := by
        intro z
        have h1 := taylor1 hT hM (hp z) (hq z) hx hm
        rw [← hd, add_sub_cancel_left, len_smul, abs_of_nonneg ht.1] at h1
        have e : ∑ s, q z x s * ((x + t • d) s - x s) = t * ∑ s, q z x s * d s := by
          rw [Finset.mul_sum]
          exact Finset.sum_congr rfl fun s _ => by simp only [Pi.add_apply, Pi.smul_apply, smul_eq_mul]; ring
        rw [e] at h1
        refine h1.trans (mul_le_mul_of_nonneg_left (pow_le_pow_left₀ (mul_nonneg ht.1 (len_nonneg _)) (mul_le_of_le_one_left (len_nonneg _) ht.2.le) 2) hM)
      have e : (∑ z, p z (x + t • d) * d z) - (∑ z, p z x * d z) - 2 * t * (1 / 2 * ∑ z, (∑ s, q z x s * d s) * d z) =
          ∑ z, (p z (x + t • d) - p z x - t * ∑ s, q z x s * d s) * d z := by
        simp only [Fin.sum_univ_two]; ring
      rw [e]
      refine (Finset.abs_sum_le_sum_abs _ _).trans ?_
      have h0 := mul_bound (key 0) (abs_le_len d 0)
      have h1 := mul_bound (key 1) (abs_le_len d 1)
      rw [Fin.sum_univ_two]
      calc _ ≤ M * len d ^ 2 * len d + M * len d ^ 2 * len d := add_le_add h0 h1
        _ = _ := by ring
  rw [Real.norm_eq_abs] at h
  simp only [one_smul, one_mul, zero_smul, add_zero, zero_mul, sub_zero, one_pow, ne_eq, OfNat.ofNat_ne_zero, not_false_eq_true, zero_pow] at h
  rw [show x + d = y by rw [hd]; abel] at h
  refine le_trans (le_of_eq ?_) h
  congr 1
  simp only [tay, Fin.sum_univ_two, hd, Pi.sub_apply]
  ring

end Fdapde.PDE
