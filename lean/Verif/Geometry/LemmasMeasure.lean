import Verif.Geometry.PropsSimplex
import Verif.Quadrature.Spec
import Mathlib.MeasureTheory.Constructions.Pi
import Mathlib.MeasureTheory.Integral.Prod
import Mathlib.MeasureTheory.Integral.Pi
import Mathlib.MeasureTheory.Function.Jacobian
import Mathlib.MeasureTheory.Measure.Lebesgue.EqHaar
/-!
Lebesgue integrals over simplices: the reference simplex by Fubini's theorem, a simplex as the image of the reference simplex.
-/
namespace Fdapde.Geometry
open MeasureTheory Matrix

/-- The simplex with vertices `0, s e_1, ..., s e_N`. -/
def stdTri (N : Nat) (s : ℝ) : Set (Fin N → ℝ) := {x | (∀ i, 0 ≤ x i) ∧ ∑ i, x i ≤ s}

theorem stdTri_compact (N : Nat) (s : ℝ) : IsCompact (stdTri N s) := by
  refine IsCompact.of_isClosed_subset (isCompact_Icc (a := (0 : Fin N → ℝ)) (b := fun _ => s)) ?_ ?_
  · have : stdTri N s = (⋂ i, {x | 0 ≤ x i}) ∩ {x | ∑ i, x i ≤ s} := by
      ext x; simp [stdTri]
    rw [this]
    refine IsClosed.inter (isClosed_iInter fun i => isClosed_le continuous_const (continuous_apply i))
      (isClosed_le (continuous_finsetSum _ fun i _ => continuous_apply i) continuous_const)
  · intro x hx
    refine ⟨fun i => hx.1 i, fun i => ?_⟩
    exact (Finset.single_le_sum (f := x) (fun j _ => hx.1 j) (Finset.mem_univ i)).trans hx.2

theorem stdTri_measurable (N : Nat) (s : ℝ) : MeasurableSet (stdTri N s) := (stdTri_compact N s).isClosed.measurableSet

theorem cons_mem (N : Nat) (s t : ℝ) (y : Fin N → ℝ) : (Fin.cons t y : Fin (N + 1) → ℝ) ∈ stdTri (N + 1) s ↔ 0 ≤ t ∧ y ∈ stdTri N (s - t) := by
  simp only [stdTri, Set.mem_setOf_eq, Fin.forall_fin_succ, Fin.cons_zero, Fin.cons_succ, Fin.sum_univ_succ]
  constructor
  · rintro ⟨⟨h1, h2⟩, h3⟩; exact ⟨h1, h2, by linarith⟩
  · rintro ⟨h1, h2, h3⟩; exact ⟨⟨h1, h2⟩, by linarith⟩

theorem stdTri_neg (N : Nat) (s : ℝ) (hs : s < 0) : stdTri N s = ∅ := by
  ext x
  simp only [Set.mem_empty_iff_false, iff_false]
  rintro ⟨h1, h2⟩
  have := Finset.sum_nonneg (fun i (_ : i ∈ Finset.univ) => h1 i)
  linarith

/-- Fubini's theorem on the reference simplex. -/
theorem stdTri_fubini (N : Nat) (s : ℝ) (hs : 0 ≤ s) (f : (Fin (N + 1) → ℝ) → ℝ) (hf : Continuous f) :
    ∫ x in stdTri (N + 1) s, f x = ∫ t in (0 : ℝ)..s, ∫ y in stdTri N (s - t), f (Fin.cons t y) := by
  have hint : Integrable ((stdTri (N + 1) s).indicator f) := by
    rw [integrable_indicator_iff (stdTri_measurable _ _)]
    exact hf.continuousOn.integrableOn_compact (stdTri_compact _ _)
  have hmp := (volume_preserving_piFinSuccAbove (fun _ : Fin (N + 1) => ℝ) 0).symm
  rw [← integral_indicator (stdTri_measurable _ _), ← hmp.integral_comp']
  have hint' := hmp.integrable_comp_of_integrable hint
  simp only [Function.comp_def] at hint'
  rw [Measure.volume_eq_prod, integral_prod _ hint']
  have hin : ∀ t : ℝ, (∫ y : Fin N → ℝ, (stdTri (N + 1) s).indicator f ((MeasurableEquiv.piFinSuccAbove (fun _ : Fin (N + 1) => ℝ) 0).symm (t, y))) =
      (Set.Icc (0 : ℝ) s).indicator (fun t => ∫ y in stdTri N (s - t), f (Fin.cons t y)) t := by
    intro t
    by_cases ht : t ∈ Set.Icc (0 : ℝ) s
    · rw [Set.indicator_of_mem ht, ← integral_indicator (stdTri_measurable _ _)]
      refine integral_congr_ae (Filter.Eventually.of_forall fun y => ?_)
      have hc : (MeasurableEquiv.piFinSuccAbove (fun _ : Fin (N + 1) => ℝ) 0).symm (t, y) = (Fin.cons t y : Fin (N + 1) → ℝ) := by
        simp [MeasurableEquiv.piFinSuccAbove]
        rfl
      simp only [hc]
      by_cases hy : y ∈ stdTri N (s - t)
      · rw [Set.indicator_of_mem hy, Set.indicator_of_mem ((cons_mem N s t y).2 ⟨ht.1, hy⟩)]
      · rw [Set.indicator_of_notMem hy, Set.indicator_of_notMem (fun h => hy ((cons_mem N s t y).1 h).2)]
    · rw [Set.indicator_of_notMem ht]
      refine integral_eq_zero_of_ae (Filter.Eventually.of_forall fun y => ?_)
      have hc : (MeasurableEquiv.piFinSuccAbove (fun _ : Fin (N + 1) => ℝ) 0).symm (t, y) = (Fin.cons t y : Fin (N + 1) → ℝ) := by
        simp [MeasurableEquiv.piFinSuccAbove]
        rfl
      simp only [hc, Pi.zero_apply]
      refine Set.indicator_of_notMem (fun h => ht ?_) _
      obtain ⟨h1, h2⟩ := (cons_mem N s t y).1 h
      refine ⟨h1, ?_⟩
      by_contra hcon
      rw [stdTri_neg N (s - t) (by linarith)] at h2
      exact h2
  simp only [hin]
  rw [integral_indicator measurableSet_Icc, integral_Icc_eq_integral_Ioc, intervalIntegral.integral_of_le hs]

/-- Dimension zero. -/
theorem stdTri_zero (s : ℝ) (hs : 0 ≤ s) (f : (Fin 0 → ℝ) → ℝ) : ∫ x in stdTri 0 s, f x = f ![] := by
  have : stdTri 0 s = Set.univ := by
    ext x; simp [stdTri, hs]
  rw [this, Measure.restrict_univ, volume_pi, Measure.pi_of_empty, integral_dirac]
  exact congrArg f (Subsingleton.elim _ _)

theorem stdTri_one (s : ℝ) (hs : 0 ≤ s) (f : (Fin 1 → ℝ) → ℝ) (hf : Continuous f) :
    ∫ x in stdTri 1 s, f x = ∫ t in (0 : ℝ)..s, f ![t] := by
  rw [stdTri_fubini 0 s hs f hf]
  refine intervalIntegral.integral_congr fun t ht => ?_
  rw [Set.uIcc_of_le hs] at ht
  rw [stdTri_zero _ (by linarith [ht.2])]
  rfl

theorem stdTri_two (s : ℝ) (hs : 0 ≤ s) (f : (Fin 2 → ℝ) → ℝ) (hf : Continuous f) :
    ∫ x in stdTri 2 s, f x = ∫ t in (0 : ℝ)..s, ∫ y in (0 : ℝ)..(s - t), f ![t, y] := by
  rw [stdTri_fubini 1 s hs f hf]
  refine intervalIntegral.integral_congr fun t ht => ?_
  rw [Set.uIcc_of_le hs] at ht
  exact stdTri_one _ (by linarith [ht.2]) _ (hf.comp (continuous_const.finCons continuous_id))

theorem stdTri_three (s : ℝ) (hs : 0 ≤ s) (f : (Fin 3 → ℝ) → ℝ) (hf : Continuous f) :
    ∫ x in stdTri 3 s, f x = ∫ t in (0 : ℝ)..s, ∫ y in (0 : ℝ)..(s - t), ∫ z in (0 : ℝ)..(s - t - y), f ![t, y, z] := by
  rw [stdTri_fubini 2 s hs f hf]
  refine intervalIntegral.integral_congr fun t ht => ?_
  rw [Set.uIcc_of_le hs] at ht
  exact stdTri_two _ (by linarith [ht.2]) _ (hf.comp (continuous_const.finCons continuous_id))

open Quadrature in
/-- The iterated integrals of the specification of the quadrature rules are Lebesgue integrals over the reference simplices. -/
theorem refInt_eq : (∀ f, Continuous f → refInt1 f = ∫ x in stdTri 1 1, f x) ∧ (∀ f, Continuous f → refInt2 f = ∫ x in stdTri 2 1, f x) ∧
    ∀ f, Continuous f → refInt3 f = ∫ x in stdTri 3 1, f x :=
  ⟨fun f hf => (stdTri_one 1 zero_le_one f hf).symm, fun f hf => (stdTri_two 1 zero_le_one f hf).symm,
    fun f hf => (stdTri_three 1 zero_le_one f hf).symm⟩

variable {N : Nat}

/-- integrator.h:50 : the map `e.J() * p + e.node(0)` from the reference simplex. -/
def Simplex.toCell (S : Simplex N N) (x : Fin N → ℝ) : Vec N := S.J *ᵥ x + S.coords 0

/-- A simplex is the image of the reference simplex. -/
theorem hull_image {S : Simplex N N} (hS : S.Nondeg) : convexHull ℝ (Set.range S.coords) = S.toCell '' stdTri N 1 := by
  ext p
  rw [← bary_nonneg_iff hS p (mem_span_full hS p), Fin.forall_fin_succ]
  simp only [Simplex.bary_zero, Simplex.bary_succ, Set.mem_image]
  constructor
  · rintro ⟨h1, h2⟩
    refine ⟨S.invJ *ᵥ (p - S.coords 0), ⟨h2, by linarith⟩, ?_⟩
    rw [Simplex.toCell, Matrix.mulVec_mulVec, Simplex.J_mul_invJ hS, Matrix.one_mulVec, sub_add_cancel]
  · rintro ⟨x, ⟨h1, h2⟩, rfl⟩
    rw [Simplex.toCell, add_sub_cancel_right, Matrix.mulVec_mulVec, Simplex.invJ_mul_J hS, Matrix.one_mulVec]
    exact ⟨by linarith, h1⟩

/-- Change of variables. -/
theorem hull_integral {S : Simplex N N} (hS : S.Nondeg) (f : Vec N → ℝ) :
    ∫ x in convexHull ℝ (Set.range S.coords), f x = |S.J.det| * ∫ x in stdTri N 1, f (S.toCell x) := by
  rw [hull_image hS]
  have hder : ∀ x ∈ stdTri N 1, HasFDerivWithinAt S.toCell (LinearMap.toContinuousLinearMap (Matrix.toLin' S.J)) (stdTri N 1) x := by
    intro x _
    have h1 := (LinearMap.toContinuousLinearMap (Matrix.toLin' S.J)).hasFDerivAt (x := x)
    exact (h1.add_const (S.coords 0)).hasFDerivWithinAt
  have hinj : Set.InjOn S.toCell (stdTri N 1) := by
    intro x _ y _ h
    have := add_right_cancel h
    exact hS.injective this
  rw [integral_image_eq_integral_abs_det_fderiv_smul volume (stdTri_measurable N 1) hder hinj]
  simp only [smul_eq_mul]
  rw [integral_const_mul]
  congr 2
  rw [LinearMap.det_toContinuousLinearMap, LinearMap.det_toLin']

end Fdapde.Geometry
