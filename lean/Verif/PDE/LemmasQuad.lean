import Verif.PDE.PropsConvergence
set_option linter.unusedSectionVars false
/-
Quadratic functions on a triangle, by their values at the vertices and at the midpoints of the edges.
-/
namespace Fdapde.PDE
open Fdapde.Quadrature MeasureTheory Matrix Fdapde.Geometry Fdapde.FEM

variable (S : Simplex 2 2) (w : Fin 6 → ℝ)

/-- The quadratic function with values `w` at the vertices and at the midpoints of the edges. -/
noncomputable def q2 (x : Vec 2) : ℝ :=
  w 0 * (S.bary x 0 * (2 * S.bary x 0 - 1)) + w 1 * (S.bary x 1 * (2 * S.bary x 1 - 1)) + w 2 * (S.bary x 2 * (2 * S.bary x 2 - 1)) +
    w 3 * (4 * (S.bary x 0 * S.bary x 1)) + w 4 * (4 * (S.bary x 0 * S.bary x 2)) + w 5 * (4 * (S.bary x 1 * S.bary x 2))

/-- Its derivative in direction `z`. -/
noncomputable def g2 (x : Vec 2) (z : Fin 2) : ℝ :=
  w 0 * ((4 * S.bary x 0 - 1) * dLam S 0 z) + w 1 * ((4 * S.bary x 1 - 1) * dLam S 1 z) + w 2 * ((4 * S.bary x 2 - 1) * dLam S 2 z) +
    w 3 * (4 * (S.bary x 0 * dLam S 1 z + S.bary x 1 * dLam S 0 z)) + w 4 * (4 * (S.bary x 0 * dLam S 2 z + S.bary x 2 * dLam S 0 z)) +
    w 5 * (4 * (S.bary x 1 * dLam S 2 z + S.bary x 2 * dLam S 1 z))

/-- The six nodes. -/
noncomputable def nodes6 (i : Fin 6) : Vec 2 :=
  ![S.coords 0, S.coords 1, S.coords 2, (1 / 2 : ℝ) • (S.coords 0 + S.coords 1), (1 / 2 : ℝ) • (S.coords 0 + S.coords 2),
    (1 / 2 : ℝ) • (S.coords 1 + S.coords 2)] i

variable {S}

theorem bary_diff (x y : Vec 2) (v : Fin 3) : S.bary x v - S.bary y v = ∑ z, dLam S v z * (x z - y z) := by
  refine Fin.cases ?_ (fun j => ?_) v
  · simp only [Simplex.bary_zero, dLam, Fin.cons_zero, Fin.sum_univ_two, mulVec, dotProduct, Pi.sub_apply]
    ring
  · simp only [Simplex.bary_succ, dLam, Fin.cons_succ, Fin.sum_univ_two, mulVec, dotProduct, Pi.sub_apply]
    ring

theorem bary_sum3 (x : Vec 2) : S.bary x 0 + S.bary x 1 + S.bary x 2 = 1 := by
  have := C42_sum_one S x
  rwa [Fin.sum_univ_three] at this

theorem dLam_sum3 (z : Fin 2) : dLam S 0 z + dLam S 1 z + dLam S 2 z = 0 := by
  have h1 : dLam S 1 z = S.invJ 0 z := rfl
  have h2 : dLam S 2 z = S.invJ 1 z := rfl
  have h0 : dLam S 0 z = -∑ w, S.invJ w z := rfl
  rw [h0, h1, h2, Fin.sum_univ_two]; ring

theorem bary_half (x y : Vec 2) (v : Fin 3) : S.bary ((1 / 2 : ℝ) • (x + y)) v = (S.bary x v + S.bary y v) / 2 := by
  have h1 := bary_diff (S := S) ((1 / 2 : ℝ) • (x + y)) x v
  have h2 := bary_diff (S := S) y x v
  have : ∑ z, dLam S v z * (((1 / 2 : ℝ) • (x + y)) z - x z) = (∑ z, dLam S v z * (y z - x z)) / 2 := by
    simp only [Fin.sum_univ_two, Pi.smul_apply, Pi.add_apply, smul_eq_mul]; ring
  linarith

theorem q2_diff (x y : Vec 2) : q2 S w x - q2 S w y = ∑ z, g2 S w ((1 / 2 : ℝ) • (x + y)) z * (x z - y z) := by
  have h := fun v => bary_diff (S := S) x y v
  simp only [Fin.sum_univ_two] at h ⊢
  simp only [q2, g2, bary_half]
  have h0 := h 0
  have h1 := h 1
  have h2 := h 2
  generalize S.bary x 0 = a0 at *
  generalize S.bary x 1 = a1 at *
  generalize S.bary x 2 = a2 at *
  generalize S.bary y 0 = b0 at *
  generalize S.bary y 1 = b1 at *
  generalize S.bary y 2 = b2 at *
  linear_combination (w 0 * (2 * (a0 + b0) - 1) + w 3 * 2 * (a1 + b1) + w 4 * 2 * (a2 + b2)) * h0 +
    (w 1 * (2 * (a1 + b1) - 1) + w 3 * 2 * (a0 + b0) + w 5 * 2 * (a2 + b2)) * h1 +
    (w 2 * (2 * (a2 + b2) - 1) + w 4 * 2 * (a0 + b0) + w 5 * 2 * (a1 + b1)) * h2

theorem bary_hasFDerivAt (v : Fin 3) (x : Vec 2) :
    HasFDerivAt (fun x => S.bary x v) (∑ z, dLam S v z • ContinuousLinearMap.proj (R := ℝ) (φ := fun _ : Fin 2 => ℝ) z) x := by
  have e : (fun x => S.bary x v) = PDE.aff (dLam S v) (S.bary 0 v) := by
    funext y
    have := bary_diff (S := S) y 0 v
    simp only [PDE.aff, Pi.zero_apply, sub_zero] at this ⊢
    linarith
  rw [e]
  exact aff_deriv _ _ x

theorem q2_hasFDerivAt (x : Vec 2) :
    HasFDerivAt (q2 S w) (∑ z, g2 S w x z • ContinuousLinearMap.proj (R := ℝ) (φ := fun _ : Fin 2 => ℝ) z) x := by
  have b := fun v => bary_hasFDerivAt (S := S) v x
  have hv : ∀ v, HasFDerivAt (fun x => S.bary x v * (2 * S.bary x v - 1)) _ x := fun v => (b v).mul (((b v).const_mul 2).sub_const 1)
  have he : ∀ v v', HasFDerivAt (fun x => 4 * (S.bary x v * S.bary x v')) _ x := fun v v' => ((b v).mul (b v')).const_mul 4
  have := ((((((hv 0).const_mul (w 0)).add ((hv 1).const_mul (w 1))).add ((hv 2).const_mul (w 2))).add ((he 0 1).const_mul (w 3))).add
    ((he 0 2).const_mul (w 4))).add ((he 1 2).const_mul (w 5))
  refine HasFDerivAt.congr_fderiv (f := q2 S w) this ?_
  ext z
  simp only [_root_.add_apply, _root_.smul_apply, smul_eq_mul, Fin.sum_univ_two, ContinuousLinearMap.proj_apply, g2, ContinuousLinearMap.coe_comp',
    Function.comp_apply, ContinuousLinearMap.single_apply]
  ring

theorem bary_cont (v : Fin 3) : Continuous fun x => S.bary x v := bary_continuous S v

theorem q2_cont : Continuous (q2 S w) := by
  have := fun v => bary_cont (S := S) v
  unfold q2
  fun_prop

theorem g2_cont (z : Fin 2) : Continuous fun x => g2 S w x z := by
  have := fun v => bary_cont (S := S) v
  unfold g2
  fun_prop

theorem g2_affine (hS : S.Nondeg) (x : Vec 2) (z : Fin 2) : g2 S w x z =
    S.bary x 0 * g2 S w (S.coords 0) z + S.bary x 1 * g2 S w (S.coords 1) z + S.bary x 2 * g2 S w (S.coords 2) z := by
  have h := bary_sum3 (S := S) x
  simp only [g2, C42_vertex hS, Pi.single_apply]
  simp
  generalize S.bary x 0 = a0 at *
  generalize S.bary x 1 = a1 at *
  generalize S.bary x 2 = a2 at *
  linear_combination (w 0 * dLam S 0 z + w 1 * dLam S 1 z + w 2 * dLam S 2 z) * h

theorem q2_sub (w' : Fin 6 → ℝ) (x : Vec 2) : q2 S (fun i => w i - w' i) x = q2 S w x - q2 S w' x := by
  simp only [q2]; ring

theorem g2_sub (w' : Fin 6 → ℝ) (x : Vec 2) (z : Fin 2) : g2 S (fun i => w i - w' i) x z = g2 S w x z - g2 S w' x z := by
  simp only [g2]; ring

theorem bary_point (hS : S.Nondeg) (x : Vec 2) (z : Fin 2) :
    S.bary x 0 * (S.coords 0 z - x z) + S.bary x 1 * (S.coords 1 z - x z) + S.bary x 2 * (S.coords 2 z - x z) = 0 := by
  have h := congrFun (C42_reconstruct_full hS x) z
  rw [Fin.sum_univ_three] at h
  simp only [Pi.add_apply, Pi.smul_apply, smul_eq_mul] at h
  linear_combination h - x z * bary_sum3 (S := S) x

theorem dLam_point (hS : S.Nondeg) (x : Vec 2) (z y : Fin 2) :
    dLam S 0 z * (S.coords 0 y - x y) + dLam S 1 z * (S.coords 1 y - x y) + dLam S 2 z * (S.coords 2 y - x y) = if z = y then 1 else 0 := by
  have h := bary_point hS (x + Pi.single z 1) y
  have h' := bary_point hS x y
  have e : ∀ v, S.bary (x + Pi.single z 1) v = S.bary x v + dLam S v z := by
    intro v
    have := bary_diff (S := S) (x + Pi.single z 1) x v
    simp only [Pi.add_apply, add_sub_cancel_left, Pi.single_apply, mul_ite, mul_one, mul_zero, Finset.sum_ite_eq', Finset.mem_univ, if_true] at this
    linarith
  simp only [e, Pi.add_apply, Pi.single_apply] at h
  have hs := bary_sum3 (S := S) x
  have hd := dLam_sum3 (S := S) z
  by_cases hzy : z = y
  · subst hzy
    simp only [if_true] at h ⊢
    linear_combination h - h' + hs + hd
  · rw [if_neg (Ne.symm hzy)] at h
    rw [if_neg hzy]
    linear_combination h - h'

/-- A polynomial of degree two centred at `x`. -/
noncomputable def tay (x : Vec 2) (α : ℝ) (β : Fin 2 → ℝ) (H : Fin 2 → Fin 2 → ℝ) (y : Vec 2) : ℝ :=
  α + (β 0 * (y 0 - x 0) + β 1 * (y 1 - x 1)) +
    1 / 2 * (H 0 0 * (y 0 - x 0) ^ 2 + 2 * H 0 1 * ((y 0 - x 0) * (y 1 - x 1)) + H 1 1 * (y 1 - x 1) ^ 2)

theorem nodes6_0 : nodes6 S 0 = S.coords 0 := rfl
theorem nodes6_1 : nodes6 S 1 = S.coords 1 := rfl
theorem nodes6_2 : nodes6 S 2 = S.coords 2 := rfl
theorem nodes6_3 : nodes6 S 3 = (1 / 2 : ℝ) • (S.coords 0 + S.coords 1) := rfl
theorem nodes6_4 : nodes6 S 4 = (1 / 2 : ℝ) • (S.coords 0 + S.coords 2) := rfl
theorem nodes6_5 : nodes6 S 5 = (1 / 2 : ℝ) • (S.coords 1 + S.coords 2) := rfl

theorem tay_half (x : Vec 2) (α : ℝ) (β : Fin 2 → ℝ) (H : Fin 2 → Fin 2 → ℝ) (a b : Vec 2) :
    tay x α β H ((1 / 2 : ℝ) • (a + b)) = α + (β 0 * ((a 0 - x 0) + (b 0 - x 0)) + β 1 * ((a 1 - x 1) + (b 1 - x 1))) / 2 +
      1 / 8 * (H 0 0 * ((a 0 - x 0) + (b 0 - x 0)) ^ 2 + 2 * H 0 1 * (((a 0 - x 0) + (b 0 - x 0)) * ((a 1 - x 1) + (b 1 - x 1))) +
        H 1 1 * ((a 1 - x 1) + (b 1 - x 1)) ^ 2) := by
  simp only [tay, Pi.smul_apply, Pi.add_apply, smul_eq_mul]; ring

/-- Interpolation reproduces polynomials of degree two: values and gradients at `x`. -/
theorem q2_tay (hS : S.Nondeg) (x : Vec 2) (α : ℝ) (β : Fin 2 → ℝ) (H : Fin 2 → Fin 2 → ℝ) :
    q2 S (fun i => tay x α β H (nodes6 S i)) x = α := by
  have h0 := bary_point hS x 0
  have h1 := bary_point hS x 1
  have hs : S.bary x 0 = 1 - S.bary x 1 - S.bary x 2 := by linarith [bary_sum3 (S := S) x]
  simp only [q2, nodes6_0, nodes6_1, nodes6_2, nodes6_3, nodes6_4, nodes6_5, tay_half]
  simp only [tay]
  rw [hs] at h0 h1 ⊢
  generalize S.bary x 1 = l1 at *
  generalize S.bary x 2 = l2 at *
  generalize S.coords 0 0 - x 0 = p0 at *
  generalize S.coords 1 0 - x 0 = p1 at *
  generalize S.coords 2 0 - x 0 = p2 at *
  generalize S.coords 0 1 - x 1 = r0 at *
  generalize S.coords 1 1 - x 1 = r1 at *
  generalize S.coords 2 1 - x 1 = r2 at *
  linear_combination (β 0 + 1 / 2 * H 0 0 * ((1 - l1 - l2) * p0 + l1 * p1 + l2 * p2) + H 0 1 * ((1 - l1 - l2) * r0 + l1 * r1 + l2 * r2)) * h0 +
    (β 1 + 1 / 2 * H 1 1 * ((1 - l1 - l2) * r0 + l1 * r1 + l2 * r2)) * h1

theorem g2_tay (hS : S.Nondeg) (x : Vec 2) (α : ℝ) (β : Fin 2 → ℝ) (H : Fin 2 → Fin 2 → ℝ) (z : Fin 2) :
    g2 S (fun i => tay x α β H (nodes6 S i)) x z = β z := by
  have h0 := bary_point hS x 0
  have h1 := bary_point hS x 1
  have d0 := dLam_point hS x z 0
  have d1 := dLam_point hS x z 1
  have hs : S.bary x 0 = 1 - S.bary x 1 - S.bary x 2 := by linarith [bary_sum3 (S := S) x]
  have hd : dLam S 0 z = -dLam S 1 z - dLam S 2 z := by linarith [dLam_sum3 (S := S) z]
  simp only [g2, nodes6_0, nodes6_1, nodes6_2, nodes6_3, nodes6_4, nodes6_5, tay_half]
  simp only [tay]
  have hb : β z = β 0 * (if z = 0 then 1 else 0) + β 1 * (if z = 1 then 1 else 0) := by fin_cases z <;> simp
  rw [hs] at h0 h1 ⊢
  rw [hd] at d0 d1 ⊢
  rw [hb, ← d0, ← d1]
  generalize dLam S 1 z = e1 at *
  generalize dLam S 2 z = e2 at *
  generalize S.bary x 1 = l1 at *
  generalize S.bary x 2 = l2 at *
  generalize S.coords 0 0 - x 0 = p0 at *
  generalize S.coords 1 0 - x 0 = p1 at *
  generalize S.coords 2 0 - x 0 = p2 at *
  generalize S.coords 0 1 - x 1 = r0 at *
  generalize S.coords 1 1 - x 1 = r1 at *
  generalize S.coords 2 1 - x 1 = r2 at *
  linear_combination (H 0 0 * ((-e1 - e2) * p0 + e1 * p1 + e2 * p2) + H 0 1 * ((-e1 - e2) * r0 + e1 * r1 + e2 * r2)) * h0 +
    (H 1 1 * ((-e1 - e2) * r0 + e1 * r1 + e2 * r2) + H 0 1 * ((-e1 - e2) * p0 + e1 * p1 + e2 * p2)) * h1

end Fdapde.PDE
