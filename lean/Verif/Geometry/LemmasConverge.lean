import Verif.Geometry.PropsMeasure
import Verif.Quadrature.LemmasTaylor
/-
Error of the rules on a cell, for a smooth function times a polynomial.
-/
namespace Fdapde.Geometry
open MeasureTheory Matrix Quadrature

variable {N : Nat}

theorem coeffSum_mul' (p q : MvPolynomial (Fin N) ℝ) : coeffSum (p * q) ≤ coeffSum p * coeffSum q := by
  have e : p * q = ∑ m ∈ p.support, ∑ m' ∈ q.support, MvPolynomial.monomial (m + m') (p.coeff m * q.coeff m') := by
    conv_lhs => rw [p.as_sum, q.as_sum, Finset.sum_mul_sum]
    simp only [MvPolynomial.monomial_mul]
  rw [e]
  refine (coeffSum_sum' _ _).trans ?_
  rw [coeffSum, coeffSum, Finset.sum_mul_sum]
  refine Finset.sum_le_sum fun m _ => (coeffSum_sum' _ _).trans (Finset.sum_le_sum fun m' _ => ?_)
  exact (coeffSum_monomial' _ _).trans (le_of_eq (abs_mul _ _))

/-- The nodes of a rule are in the reference simplex. -/
def NodesIn (t : Table) (N : Nat) : Prop := ∀ iq < size t, (fun z : Fin N => node ℝ t iq z) ∈ stdTri N 1

/-- Sum of the absolute values of the weights. -/
noncomputable def absWeights (t : Table) : ℝ := ∑ iq ∈ Finset.range (size t), |weight ℝ t iq|

theorem toCell_sum (S : Simplex N N) (x : Fin N → ℝ) : S.toCell x = S.coords 0 + ∑ j, x j • (S.coords j.succ - S.coords 0) := by
  rw [Simplex.toCell, Simplex.J_mulVec, add_comm]

theorem toCell_continuous (S : Simplex N N) : Continuous S.toCell := by
  rw [show S.toCell = fun x => S.coords 0 + ∑ j, x j • (S.coords j.succ - S.coords 0) from funext (toCell_sum S)]
  fun_prop

/-- A smooth function times a polynomial. -/
theorem converge_core (t : Table) (hN : N ∈ [1, 2, 3]) (d e : Nat) (ht : ExactTo t N d) (hin : NodesIn t N) (S : Simplex N N) (hS : S.Nondeg) (f φ : Vec N → ℝ)
    (hf : ContDiff ℝ (e + 1 : ℕ) f) (P : MvPolynomial (Fin N) ℝ) (hP : P.totalDegree + e ≤ d) (hφ : ∀ x, φ (S.toCell x) = MvPolynomial.eval x P) {D A B K : ℝ}
    (hD : ∀ i, ‖S.coords i - S.coords 0‖ ≤ D) (hA : ∀ k ≤ e, ‖iteratedFDeriv ℝ k f (S.coords 0)‖ ≤ A)
    (hB : ∀ y ∈ convexHull ℝ (Set.range S.coords), ‖iteratedFDeriv ℝ (e + 1) f y‖ ≤ B) (hK : ∀ y ∈ convexHull ℝ (Set.range S.coords), |φ y| ≤ K) :
    |integrateBasis t (fun x => S.toCell fun z => x z) S.measure f (fun x => MvPolynomial.eval (fun z : Fin N => x z) P) -
      ∫ y in convexHull ℝ (Set.range S.coords), f y * φ y| ≤
      S.measure * ((absWeights t + 1) * (B * D ^ (e + 1) / (e + 1).factorial * K) +
        1 / 10 ^ 14 * (coeffSum P * ∑ k ∈ Finset.range (e + 1), A * (N * D) ^ k / k.factorial)) := by
  have hD0 : 0 ≤ D := by simpa using hD 0
  have hmem : ∀ x ∈ stdTri N 1, S.toCell x ∈ convexHull ℝ (Set.range S.coords) := fun x hx => by
    rw [hull_image hS]
    exact ⟨x, hx, rfl⟩
  have h0 : S.coords 0 ∈ convexHull ℝ (Set.range S.coords) := subset_convexHull ℝ _ ⟨0, rfl⟩
  have hB0 : 0 ≤ B := (_root_.norm_nonneg _).trans (hB _ h0)
  have hK0 : 0 ≤ K := (abs_nonneg _).trans (hK _ h0)
  have hA0 : 0 ≤ A := (_root_.norm_nonneg _).trans (hA 0 (Nat.zero_le _))
  obtain ⟨q, q1, q2, q3⟩ := taylor_poly hf (S.coords 0) (fun j : Fin N => S.coords j.succ - S.coords 0) (B := B) (fun j => hD j.succ) hA
  set ε := B * D ^ (e + 1) / (e + 1).factorial with hε
  have hε0 : 0 ≤ ε := by positivity
  have near : ∀ x ∈ stdTri N 1, |f (S.toCell x) - MvPolynomial.eval x q| ≤ ε := fun x hx => by
    rw [toCell_sum]
    refine q3 x ?_ fun s hs => ?_
    · calc ‖∑ j, x j • (S.coords j.succ - S.coords 0)‖ ≤ ∑ j, x j * D := (norm_sum_le _ _).trans (Finset.sum_le_sum fun j _ => by
            rw [norm_smul, Real.norm_of_nonneg (hx.1 j)]
            exact mul_le_mul_of_nonneg_left (hD _) (hx.1 j))
        _ ≤ D := by
            rw [← Finset.sum_mul]
            exact mul_le_of_le_one_left hD0 hx.2
    · refine hB _ ?_
      have : S.coords 0 + s • ∑ j, x j • (S.coords j.succ - S.coords 0) = S.toCell (s • x) := by
        rw [toCell_sum, Finset.smul_sum]
        simp [smul_smul]
      rw [this]
      refine hmem _ ⟨fun i => mul_nonneg hs.1 (hx.1 i), ?_⟩
      simp only [Pi.smul_apply, smul_eq_mul]
      rw [← Finset.mul_sum]
      exact mul_le_one₀ hs.2 (Finset.sum_nonneg fun i _ => hx.1 i) hx.2
  have prodNear : ∀ x ∈ stdTri N 1, |f (S.toCell x) * MvPolynomial.eval x P - MvPolynomial.eval x (q * P)| ≤ ε * K := fun x hx => by
    rw [map_mul, ← sub_mul, abs_mul]
    refine mul_le_mul (near x hx) ?_ (abs_nonneg _) hε0
    rw [← hφ]
    exact hK _ (hmem x hx)
  -- the rule
  have r1 : |accum t (fun iq => f (S.toCell fun z => node ℝ t iq z) * MvPolynomial.eval (fun z : Fin N => node ℝ t iq z) P) -
      applyRule t N (fun x => MvPolynomial.eval x (q * P))| ≤ absWeights t * (ε * K) := by
    rw [applyRule, accum_eq, accum_eq, ← Finset.sum_sub_distrib, absWeights, Finset.sum_mul]
    refine (Finset.abs_sum_le_sum_abs _ _).trans (Finset.sum_le_sum fun iq hiq => ?_)
    rw [← sub_mul, abs_mul, mul_comm]
    exact mul_le_mul_of_nonneg_left (prodNear _ (hin iq (Finset.mem_range.1 hiq))) (abs_nonneg _)
  -- exactness
  have r2 := ht (q * P) ((MvPolynomial.totalDegree_mul _ _).trans (by omega))
  have r2' : coeffSum (q * P) ≤ coeffSum P * ∑ k ∈ Finset.range (e + 1), A * (N * D) ^ k / k.factorial := by
    refine (coeffSum_mul' _ _).trans ?_
    rw [mul_comm]
    exact mul_le_mul_of_nonneg_left q2 (Finset.sum_nonneg fun _ _ => abs_nonneg _)
  -- the integral
  have hfac : (0 : ℝ) < N.factorial := Nat.cast_pos.2 (Nat.factorial_pos _)
  have r3 : |refMean N (fun x => MvPolynomial.eval x (q * P)) - N.factorial * ∫ x in stdTri N 1, f (S.toCell x) * φ (S.toCell x)| ≤ ε * K := by
    rw [refMean_eq N hN _ (MvPolynomial.continuous_eval _), ← mul_sub, ← integral_sub
      ((MvPolynomial.continuous_eval _).continuousOn.integrableOn_compact (stdTri_compact N 1))
      (Continuous.continuousOn (by
        simp only [hφ]
        exact (hf.continuous.comp (toCell_continuous S)).mul (MvPolynomial.continuous_eval _)) |>.integrableOn_compact (stdTri_compact N 1)), abs_mul, abs_of_pos hfac]
    have hb := norm_setIntegral_le_of_norm_le_const (μ := volume) (s := stdTri N 1) (C := ε * K)
      (f := fun x => MvPolynomial.eval x (q * P) - f (S.toCell x) * φ (S.toCell x)) (stdTri_compact N 1).measure_lt_top (fun x hx => by
        rw [Real.norm_eq_abs, abs_sub_comm, hφ]
        exact prodNear x hx)
    have hv : (volume : Measure (Fin N → ℝ)).real (stdTri N 1) = 1 / N.factorial := by
      have := stdTri_volume N 1 zero_le_one
      rw [setIntegral_const, smul_eq_mul, mul_one, one_pow] at this
      exact this
    rw [hv, Real.norm_eq_abs] at hb
    calc _ ≤ N.factorial * (ε * K * (1 / N.factorial)) := mul_le_mul_of_nonneg_left hb hfac.le
      _ = ε * K := by field_simp
  have hm : 0 ≤ S.measure := div_nonneg (abs_nonneg _) (Nat.cast_nonneg _)
  have e1 : ∫ y in convexHull ℝ (Set.range S.coords), f y * φ y = S.measure * (N.factorial * ∫ x in stdTri N 1, f (S.toCell x) * φ (S.toCell x)) := by
    rw [hull_integral hS, Simplex.measure, ← mul_assoc, div_mul_cancel₀ _ hfac.ne']
  rw [e1, integrateBasis, mul_comm, ← mul_sub, abs_mul, abs_of_nonneg hm]
  refine mul_le_mul_of_nonneg_left ?_ hm
  have r4 := mul_le_mul_of_nonneg_left r2' (show (0 : ℝ) ≤ 1 / 10 ^ 14 by positivity)
  rw [abs_le] at *
  constructor <;> nlinarith [r1.1, r1.2, r2.1, r2.2, r3.1, r3.2]

end Fdapde.Geometry
