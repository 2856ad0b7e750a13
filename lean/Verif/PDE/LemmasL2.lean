import Verif.PDE.LemmasWeak
set_option linter.unusedSectionVars false
/-
The error of the values of the discrete solution.
-/
namespace Fdapde.PDE
open Fdapde.Quadrature MeasureTheory Matrix Fdapde.Geometry
variable {P : Prob ℝ} {X : Nat → Nat → ℝ} {I : Nat → Nat → Nat → ℝ}

theorem affine_exists (h : P.OnNodes X I) (w : Nat → ℝ) : ∃ G b, P.Affine X w G b := by
  have := slope_exists h w
  choose! b hb using this
  exact ⟨_, b, hb⟩

/-- Error of the interpolant. -/
theorem interpolation_value (h : P.OnNodes X I) {hh ρ M : ℝ} (hs : P.Shape X hh ρ) {u : (Fin P.N → ℝ) → ℝ}
    {q : (Fin P.N → ℝ) → Fin P.N → ℝ} (hu : P.Smooth X u q M) (hM : 0 ≤ M) {Y : Nat → Fin P.N → ℝ} {b : Nat → ℝ}
    (hY : P.Affine X (fun p => u fun z => X p z) Y b) {c : Nat} (hc : c < P.n) {x : Fin P.N → ℝ} (hx : x ∈ P.cell X c) :
    (u x - aff (Y c) (b c) x) ^ 2 ≤ (M / 2 * hh ^ 2) ^ 2 := by
  have hx' := hx
  rw [Prob.cell, mem_convexHull_iff_exists_fintype] at hx'
  obtain ⟨ι, _, μ, y, h1, h2, h3, h4⟩ := hx'
  choose j hj using h3
  have hval : ∀ i, |u (y i) - u x - ∑ z, q x z * (y i z - x z)| ≤ M / 2 * hh ^ 2 := by
    intro i
    have hm : y i ∈ P.cell X c := subset_convexHull ℝ _ ⟨j i, hj i⟩
    have hd := cell_dist h hs hc (fin_nb h (j i)) hx
    refine (hu.taylor c hc x hx _ hm).trans (mul_le_mul_of_nonneg_left ?_ (div_nonneg hM two_pos.le))
    rw [← hj i]
    exact hd
  have e1 : aff (Y c) (b c) x = ∑ i, μ i * u (y i) := by
    have : ∀ i, u (y i) = aff (Y c) (b c) (y i) := fun i => by
      have := hY c hc (j i) (fin_nb h _)
      rw [← hj i]
      exact this
    simp only [this, aff, mul_add, Finset.sum_add_distrib, ← Finset.sum_mul, h2, one_mul]
    congr 1
    simp only [Finset.mul_sum]
    rw [Finset.sum_comm]
    refine Finset.sum_congr rfl fun z _ => ?_
    rw [← h4]
    simp only [Finset.sum_apply, Pi.smul_apply, smul_eq_mul, Finset.mul_sum]
    exact Finset.sum_congr rfl fun i _ => by ring
  have e2 : ∑ i, μ i * ∑ z, q x z * (y i z - x z) = 0 := by
    simp only [Finset.mul_sum]
    rw [Finset.sum_comm]
    refine Finset.sum_eq_zero fun z _ => ?_
    have hz : x z = ∑ i, μ i * y i z := by
      conv_lhs => rw [← h4]
      simp only [Finset.sum_apply, Pi.smul_apply, smul_eq_mul]
    have : ∑ i, μ i * (q x z * (y i z - x z)) = q x z * ((∑ i, μ i * y i z) - (∑ i, μ i) * x z) := by
      rw [Finset.sum_mul, ← Finset.sum_sub_distrib, Finset.mul_sum]
      exact Finset.sum_congr rfl fun i _ => by ring
    rw [this, h2, ← hz]
    ring
  have e3 : u x - aff (Y c) (b c) x = -∑ i, μ i * (u (y i) - u x - ∑ z, q x z * (y i z - x z)) := by
    simp only [mul_sub, Finset.sum_sub_distrib] at e2 ⊢
    rw [e1, ← Finset.sum_mul, h2, one_mul]
    linarith
  rw [e3, neg_sq]
  refine sq_le_sq' ?_ ?_
  · have : ∑ i, μ i * (-(M / 2 * hh ^ 2)) ≤ ∑ i, μ i * (u (y i) - u x - ∑ z, q x z * (y i z - x z)) :=
      Finset.sum_le_sum fun i _ => mul_le_mul_of_nonneg_left (abs_le.1 (hval i)).1 (h1 i)
    rwa [← Finset.sum_mul, h2, one_mul] at this
  · have : ∑ i, μ i * (u (y i) - u x - ∑ z, q x z * (y i z - x z)) ≤ ∑ i, μ i * (M / 2 * hh ^ 2) :=
      Finset.sum_le_sum fun i _ => mul_le_mul_of_nonneg_left (abs_le.1 (hval i)).2 (h1 i)
    rwa [← Finset.sum_mul, h2, one_mul] at this

/-- Error of the values from the one of the gradients. -/
theorem value_error (h : P.OnNodes X I) {hh ρ M : ℝ} (hs : P.Shape X hh ρ) (hρ : 0 < ρ) {u : (Fin P.N → ℝ) → ℝ}
    {q : (Fin P.N → ℝ) → Fin P.N → ℝ} (hu : P.Smooth X u q M) (hM : 0 ≤ M) (huc : ∀ c < P.n, ContinuousOn u (P.cell X c)) {C : ℝ} (hF : P.Friedrichs X C)
    {w : Nat → ℝ} {W : Nat → Fin P.N → ℝ} {b : Nat → ℝ} (hW : P.Affine X w W b) (hw : ∀ p < P.m, P.bd p = true → w p = u fun z => X p z) :
    ∑ c ∈ Finset.range P.n, ∫ x in P.cell X c, (u x - aff (W c) (b c) x) ^ 2 ≤
      2 * ((M / 2 * hh ^ 2) ^ 2 * ∑ c ∈ Finset.range P.n, P.measure c) +
        4 * C ^ 2 * (P.errorSq X q W + ((P.N + 1) * M * hh ^ 2 / (2 * ρ)) ^ 2 * ∑ c ∈ Finset.range P.n, P.measure c) := by
  obtain ⟨Y, bY, hY⟩ := affine_exists h fun p => u fun z => X p z
  have hT : P.Test fun p => w p - u fun z => X p z := fun p hp hb => by simp only; rw [hw p hp hb, sub_self]
  have hA : P.Affine X (fun p => w p - u fun z => X p z) (fun c z => W c z - Y c z) (fun c => b c - bY c) := by
    intro c hc i hi
    simp only [sub_mul, Finset.sum_sub_distrib]
    have := hY c hc i hi
    simp only at this
    rw [hW c hc i hi, this]
    ring
  have hFr := hF _ _ _ hT hA
  have haff : ∀ c x, (∑ z, (W c z - Y c z) * x z) + (b c - bY c) = aff (W c) (b c) x - aff (Y c) (bY c) x := by
    intro c x
    simp only [aff, sub_mul, Finset.sum_sub_distrib]
    ring
  simp only [haff] at hFr
  have cW : ∀ c, Continuous (aff (W c) (b c)) := fun c => aff_cont _ _
  have cY : ∀ c, Continuous (aff (Y c) (bY c)) := fun c => aff_cont _ _
  -- values
  have s1 : ∑ c ∈ Finset.range P.n, ∫ x in P.cell X c, (u x - aff (W c) (b c) x) ^ 2 ≤
      2 * ((M / 2 * hh ^ 2) ^ 2 * ∑ c ∈ Finset.range P.n, P.measure c) +
        2 * ∑ c ∈ Finset.range P.n, ∫ x in P.cell X c, (aff (W c) (b c) x - aff (Y c) (bY c) x) ^ 2 := by
    rw [Finset.mul_sum, Finset.mul_sum, Finset.mul_sum, ← Finset.sum_add_distrib]
    refine Finset.sum_le_sum fun c hc => ?_
    have hc' := Finset.mem_range.1 hc
    have e : 2 * ((M / 2 * hh ^ 2) ^ 2 * P.measure c) + 2 * ∫ x in P.cell X c, (aff (W c) (b c) x - aff (Y c) (bY c) x) ^ 2 =
        ∫ x in P.cell X c, (2 * (M / 2 * hh ^ 2) ^ 2 + 2 * (aff (W c) (b c) x - aff (Y c) (bY c) x) ^ 2) := by
      rw [integral_add (int_const c _) ?_, cell_const h hc', integral_const_mul]
      · ring
      · exact ContinuousOn.integrableOn_compact (cell_compact c) (Continuous.continuousOn (by have := cW c; have := cY c; fun_prop))
    rw [e]
    refine setIntegral_mono_on ?_ ?_ (cell_compact c).measurableSet fun x hx => ?_
    · exact (((huc c hc').sub (cW c).continuousOn).pow 2).integrableOn_compact (cell_compact c)
    · exact ContinuousOn.integrableOn_compact (cell_compact c) (Continuous.continuousOn (by have := cW c; have := cY c; fun_prop))
    · have := interpolation_value h hs hu hM hY hc' hx
      nlinarith [sq_nonneg ((u x - aff (Y c) (bY c) x) + (aff (W c) (b c) x - aff (Y c) (bY c) x))]
  -- gradients
  have s2 : P.energySq X (fun c z => W c z - Y c z) ≤ 2 * (P.errorSq X q W + ((P.N + 1) * M * hh ^ 2 / (2 * ρ)) ^ 2 * ∑ c ∈ Finset.range P.n, P.measure c) := by
    rw [Prob.energySq, Prob.errorSq, Finset.mul_sum, ← Finset.sum_add_distrib, Finset.mul_sum]
    refine Finset.sum_le_sum fun c hc => ?_
    have hc' := Finset.mem_range.1 hc
    have hqc := continuousOn_pi.1 (hu.cont c hc')
    have i1 : IntegrableOn (fun x => ∑ z, (q x z - W c z) ^ 2) (P.cell X c) :=
      (continuousOn_finsetSum _ fun z _ => ((hqc z).sub continuousOn_const).pow 2).integrableOn_compact (cell_compact c)
    have e : 2 * ((∫ x in P.cell X c, ∑ z, (q x z - W c z) ^ 2) + ((P.N + 1) * M * hh ^ 2 / (2 * ρ)) ^ 2 * P.measure c) =
        ∫ x in P.cell X c, 2 * ((∑ z, (q x z - W c z) ^ 2) + ((P.N + 1) * M * hh ^ 2 / (2 * ρ)) ^ 2) := by
      rw [integral_const_mul, integral_add i1 (int_const c _), cell_const h hc', mul_comm (P.measure c)]
    rw [e]
    refine setIntegral_mono_on (int_const c _) ((i1.add (int_const c _)).const_mul 2) (cell_compact c).measurableSet fun x hx => ?_
    have h1 := C112_interpolation h hs hρ hu hM Y (fun c hc => ⟨bY c, hY c hc⟩) hc' hx
    have h2 : ∑ z, (W c z - Y c z) ^ 2 ≤ 2 * ((∑ z, (q x z - W c z) ^ 2) + ∑ z, (q x z - Y c z) ^ 2) := by
      rw [← Finset.sum_add_distrib, Finset.mul_sum]
      exact Finset.sum_le_sum fun z _ => by nlinarith [sq_nonneg ((q x z - W c z) + (q x z - Y c z))]
    linarith
  have s3 := mul_le_mul_of_nonneg_left s2 (sq_nonneg C)
  linarith

end Fdapde.PDE
