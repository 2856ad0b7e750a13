import Verif.Geometry.LemmasMeasure
import Mathlib.MeasureTheory.Integral.IntervalIntegral.FundThmCalculus
import Mathlib.Analysis.Calculus.FDeriv.Comp
/-!
The divergence theorem on a simplex.
-/
namespace Fdapde.Geometry
open MeasureTheory Matrix

theorem insert_mem {K : Nat} (w : Fin (K + 1)) (t : ℝ) (y : Fin K → ℝ) :
    (w.insertNth (α := fun _ => ℝ) t y : Fin (K + 1) → ℝ) ∈ stdTri (K + 1) 1 ↔ y ∈ stdTri K 1 ∧ t ∈ Set.Icc (0 : ℝ) (1 - ∑ j, y j) := by
  simp only [stdTri, Set.mem_setOf_eq, w.forall_iff_succAbove, Fin.insertNth_apply_same, Fin.insertNth_apply_succAbove, Fin.sum_univ_succAbove _ w, Set.mem_Icc]
  constructor
  · rintro ⟨⟨h1, h2⟩, h3⟩; exact ⟨⟨h2, by linarith⟩, h1, by linarith⟩
  · rintro ⟨⟨h1, h2⟩, h3, h4⟩; exact ⟨⟨h3, h1⟩, by linarith⟩

/-- Fubini's theorem on the reference simplex, coordinate `w` inside. -/
theorem stdTri_fubini_inner {K : Nat} (w : Fin (K + 1)) (f : (Fin (K + 1) → ℝ) → ℝ) (hf : ContinuousOn f (stdTri (K + 1) 1)) :
    ∫ x in stdTri (K + 1) 1, f x = ∫ y in stdTri K 1, ∫ t in (0 : ℝ)..(1 - ∑ j, y j), f (w.insertNth (α := fun _ => ℝ) t y) := by
  have hint : Integrable ((stdTri (K + 1) 1).indicator f) := by
    rw [integrable_indicator_iff (stdTri_measurable _ _)]
    exact hf.integrableOn_compact (stdTri_compact _ _)
  have hmp := (volume_preserving_piFinSuccAbove (fun _ : Fin (K + 1) => ℝ) w).symm
  rw [← integral_indicator (stdTri_measurable _ _), ← hmp.integral_comp']
  have hint' := hmp.integrable_comp_of_integrable hint
  simp only [Function.comp_def] at hint'
  rw [Measure.volume_eq_prod, integral_prod_symm _ hint', ← integral_indicator (stdTri_measurable _ _)]
  refine integral_congr_ae (Filter.Eventually.of_forall fun y => ?_)
  have hc : ∀ t : ℝ, (MeasurableEquiv.piFinSuccAbove (fun _ : Fin (K + 1) => ℝ) w).symm (t, y) = w.insertNth (α := fun _ => ℝ) t y := fun _ => rfl
  simp only [hc]
  by_cases hy : y ∈ stdTri K 1
  · have hle : 0 ≤ 1 - ∑ j, y j := by linarith [hy.2]
    rw [Set.indicator_of_mem hy, intervalIntegral.integral_of_le hle, ← integral_Icc_eq_integral_Ioc, ← integral_indicator measurableSet_Icc]
    refine integral_congr_ae (Filter.Eventually.of_forall fun t => ?_)
    simp only
    by_cases ht : t ∈ Set.Icc (0 : ℝ) (1 - ∑ j, y j)
    · rw [Set.indicator_of_mem ht, Set.indicator_of_mem ((insert_mem w t y).2 ⟨hy, ht⟩)]
    · rw [Set.indicator_of_notMem ht, Set.indicator_of_notMem fun h => ht ((insert_mem w t y).1 h).2]
  · rw [Set.indicator_of_notMem hy]
    refine integral_eq_zero_of_ae (Filter.Eventually.of_forall fun t => ?_)
    exact Set.indicator_of_notMem (fun h => hy ((insert_mem w t y).1 h).1) _

/-- Integral of a derivative over the reference simplex. -/
theorem stdTri_deriv {K : Nat} (w : Fin (K + 1)) (g g' : (Fin (K + 1) → ℝ) → ℝ) (hg : ContinuousOn g (stdTri (K + 1) 1))
    (hg' : ContinuousOn g' (stdTri (K + 1) 1))
    (hd : ∀ y ∈ stdTri K 1, ∀ t ∈ Set.Ioo (0 : ℝ) (1 - ∑ j, y j),
      HasDerivAt (fun t => g (w.insertNth (α := fun _ => ℝ) t y)) (g' (w.insertNth (α := fun _ => ℝ) t y)) t) :
    ∫ x in stdTri (K + 1) 1, g' x =
      ∫ y in stdTri K 1, (g (w.insertNth (α := fun _ => ℝ) (1 - ∑ j, y j) y) - g (w.insertNth (α := fun _ => ℝ) 0 y)) := by
  rw [stdTri_fubini_inner w g' hg']
  refine setIntegral_congr_fun (stdTri_measurable K 1) fun y hy => ?_
  have hle : 0 ≤ 1 - ∑ j, y j := by linarith [hy.2]
  have hcl : Continuous fun t : ℝ => (w.insertNth (α := fun _ => ℝ) t y : Fin (K + 1) → ℝ) := by
    refine continuous_pi fun i => ?_
    rcases Fin.eq_self_or_eq_succAbove w i with rfl | ⟨j, rfl⟩
    · simp only [Fin.insertNth_apply_same]; exact continuous_id
    · simp only [Fin.insertNth_apply_succAbove]; exact continuous_const
  have hmaps : Set.MapsTo (fun t : ℝ => (w.insertNth (α := fun _ => ℝ) t y : Fin (K + 1) → ℝ)) (Set.Icc 0 (1 - ∑ j, y j)) (stdTri (K + 1) 1) :=
    fun t ht => (insert_mem w t y).2 ⟨hy, ht⟩
  refine intervalIntegral.integral_eq_sub_of_hasDerivAt_of_le hle (hg.comp hcl.continuousOn hmaps) (hd y hy) ?_
  refine ContinuousOn.intervalIntegrable ?_
  rw [Set.uIcc_of_le hle]
  exact hg'.comp hcl.continuousOn hmaps

/-- Barycentric coordinates with respect to the vertices of the reference simplex. -/
def bary0 {K : Nat} (y : Fin K → ℝ) : Fin (K + 1) → ℝ := Fin.cons (1 - ∑ j, y j) y

theorem bary0_sum {K : Nat} (y : Fin K → ℝ) : ∑ j, bary0 y j = 1 := by
  rw [Fin.sum_univ_succ]
  simp [bary0]

theorem bary0_nonneg {K : Nat} {y : Fin K → ℝ} (hy : y ∈ stdTri K 1) (j : Fin (K + 1)) : 0 ≤ bary0 y j := by
  refine Fin.cases ?_ (fun i => ?_) j
  · simp only [bary0, Fin.cons_zero]; linarith [hy.2]
  · simp only [bary0, Fin.cons_succ]; exact hy.1 i

/-- Vertices of the reference simplex. -/
def vert0 {K : Nat} (v : Fin (K + 1)) : Fin K → ℝ := Fin.cases 0 (fun j => Pi.single j 1) v

theorem bary0_vert0 {K : Nat} (v i : Fin (K + 1)) : bary0 (vert0 v : Fin K → ℝ) i = if i = v then 1 else 0 := by
  refine Fin.cases ?_ (fun a => ?_) v <;> refine Fin.cases ?_ (fun b => ?_) i
  · simp [bary0, vert0]
  · simp [bary0, vert0]
  · simp [bary0, vert0, (Fin.succ_ne_zero a).symm]
  · simp [bary0, vert0, Pi.single_apply]

theorem bary0_combo {K : Nat} {ι : Type} [Fintype ι] (a : ι → ℝ) (h1 : ∑ j, a j = 1) (y : ι → Fin K → ℝ) (i : Fin (K + 1)) :
    bary0 (∑ j, a j • y j) i = ∑ j, a j * bary0 (y j) i := by
  refine Fin.cases ?_ (fun b => ?_) i
  · simp only [bary0, Fin.cons_zero, mul_sub, mul_one, Finset.sum_sub_distrib, h1, Finset.sum_apply, Pi.smul_apply, smul_eq_mul, Finset.mul_sum]
    rw [Finset.sum_comm]
  · simp only [bary0, Fin.cons_succ, Finset.sum_apply, Pi.smul_apply, smul_eq_mul]

theorem vert0_combo {K : Nat} (y : Fin K → ℝ) : ∑ v, bary0 y v • vert0 v = y := by
  rw [Fin.sum_univ_succ]
  simp only [bary0, vert0, Fin.cons_zero, Fin.cons_succ, Fin.cases_zero, Fin.cases_succ, smul_zero, zero_add]
  ext i
  simp [Finset.sum_apply, Pi.single_apply]

theorem hull_stdTri (K : Nat) : convexHull ℝ (Set.range (vert0 : Fin (K + 1) → Fin K → ℝ)) = stdTri K 1 := by
  refine Set.Subset.antisymm (convexHull_min ?_ ?_) fun y hy => ?_
  · rintro _ ⟨v, rfl⟩
    refine Fin.cases ?_ (fun j => ?_) v
    · exact ⟨fun i => le_rfl, by simp [vert0]⟩
    · refine ⟨fun i => ?_, by simp [vert0]⟩
      simp only [vert0, Fin.cases_succ, Pi.single_apply]
      split <;> norm_num
  · intro x hx y hy a b ha hb hab
    refine ⟨fun i => ?_, ?_⟩
    · simp only [Pi.add_apply, Pi.smul_apply, smul_eq_mul]
      exact add_nonneg (mul_nonneg ha (hx.1 i)) (mul_nonneg hb (hy.1 i))
    · simp only [Pi.add_apply, Pi.smul_apply, smul_eq_mul, Finset.sum_add_distrib, ← Finset.mul_sum]
      have := mul_le_mul_of_nonneg_left hx.2 ha
      have := mul_le_mul_of_nonneg_left hy.2 hb
      linarith
  · rw [← vert0_combo y]
    exact (convex_convexHull ℝ _).sum_mem (fun v _ => bary0_nonneg hy v) (bary0_sum y) fun v _ => subset_convexHull ℝ _ ⟨v, rfl⟩

theorem toCell_eq {N : Nat} (S : Simplex N N) (x : Fin N → ℝ) : S.toCell x = ∑ v, bary0 x v • S.coords v := by
  rw [Simplex.toCell, Simplex.J_mulVec, Fin.sum_univ_succ]
  simp only [bary0, Fin.cons_zero, Fin.cons_succ, smul_sub, Finset.sum_sub_distrib, sub_smul, one_smul, Finset.sum_smul]
  abel

/-- The reference simplex with its vertices in another order. -/
theorem permuted {K : Nat} (s : Equiv.Perm (Fin (K + 1))) (f : (Fin K → ℝ) → ℝ) :
    ∫ y in stdTri K 1, f (∑ v, bary0 y v • vert0 (s v)) = ∫ y in stdTri K 1, f y := by
  set S : Simplex K K := ⟨fun v => vert0 (s v)⟩ with hS
  have hn : S.Nondeg := by
    show AffineIndependent ℝ fun v => (vert0 (s v) : Fin K → ℝ)
    rw [affineIndependent_iff_of_fintype]
    intro w h1 h2 i
    rw [Finset.weightedVSub_eq_linear_combination _ h1] at h2
    have hb := bary0_combo (K := K) (ι := Fin (K + 1)) (fun v => w v + if v = i then 1 else 0) (by simp [Finset.sum_add_distrib, h1]) (fun v => vert0 (s v)) (s i)
    have e : ∑ v, (w v + if v = i then 1 else 0) • (vert0 (s v) : Fin K → ℝ) = vert0 (s i) := by
      simp only [add_smul, Finset.sum_add_distrib, ite_smul, one_smul, zero_smul, Finset.sum_ite_eq', Finset.mem_univ, if_true]
      rw [h2, zero_add]
    rw [e, bary0_vert0, if_pos rfl] at hb
    simp only [bary0_vert0, s.injective.eq_iff, mul_ite, mul_one, mul_zero, Finset.sum_ite_eq, Finset.mem_univ, if_true] at hb
    linarith
  have hh : convexHull ℝ (Set.range S.coords) = stdTri K 1 := by
    rw [← hull_stdTri, hS]
    congr 1
    exact s.surjective.range_comp vert0
  have key : ∀ f : (Fin K → ℝ) → ℝ, ∫ y in stdTri K 1, f y = |S.J.det| * ∫ y in stdTri K 1, f (∑ v, bary0 y v • vert0 (s v)) := by
    intro f
    rw [← hh, hull_integral hn, hh]
    simp only [toCell_eq]
    rfl
  have h1 := key fun _ => 1
  have hpos : ∫ _ in stdTri K 1, (1 : ℝ) ≠ 0 := by
    intro h0
    have hz : volume (stdTri K 1) = 0 := by
      rw [setIntegral_const, smul_eq_mul, mul_one] at h0
      exact (measureReal_eq_zero_iff (stdTri_compact K 1).measure_lt_top.ne).1 h0
    have hin : (interior (stdTri K 1)).Nonempty := by
      refine ⟨fun _ => 1 / (K + 1), ?_⟩
      rw [mem_interior]
      refine ⟨{x | (∀ i, 0 < x i) ∧ ∑ i, x i < 1}, fun x hx => ⟨fun i => (hx.1 i).le, hx.2.le⟩, ?_, fun i => by positivity, ?_⟩
      · have : {x : Fin K → ℝ | (∀ i, 0 < x i) ∧ ∑ i, x i < 1} = (⋂ i, {x | 0 < x i}) ∩ {x | ∑ i, x i < 1} := by ext x; simp
        rw [this]
        exact (isOpen_iInter_of_finite fun i => isOpen_lt continuous_const (continuous_apply i)).inter
          (isOpen_lt (continuous_finsetSum _ fun i _ => continuous_apply i) continuous_const)
      · simp only [Finset.sum_const, Finset.card_univ, Fintype.card_fin, nsmul_eq_mul]
        rw [mul_one_div, div_lt_one (by positivity)]
        linarith
    exact (Measure.measure_pos_of_nonempty_interior volume hin).ne' hz
  have h2 : |S.J.det| = 1 := by
    have h3 : (|S.J.det| - 1) * ∫ _ in stdTri K 1, (1 : ℝ) = 0 := by rw [sub_mul, ← h1]; ring
    have := (mul_eq_zero.1 h3).resolve_right hpos
    linarith
  rw [key f, h2, one_mul]

/-- Mean over a facet, up to a factor: the integral over the reference simplex of the function at the point with these barycentric coordinates. -/
noncomputable def facetInt {K : Nat} {E : Type} [AddCommGroup E] [Module ℝ E] (q : Fin (K + 1) → E) (F : E → ℝ) : ℝ :=
  ∫ y in stdTri K 1, F (∑ j, bary0 y j • q j)

theorem facetInt_perm {K : Nat} {E : Type} [AddCommGroup E] [Module ℝ E] (q : Fin (K + 1) → E) (s : Equiv.Perm (Fin (K + 1))) (F : E → ℝ) :
    facetInt (q ∘ s) F = facetInt q F := by
  rw [facetInt, facetInt, ← permuted s fun y => F (∑ j, bary0 y j • q j)]
  refine setIntegral_congr_fun (stdTri_measurable K 1) fun y _ => ?_
  simp only [Function.comp_apply]
  congr 1
  have : ∀ j, bary0 (∑ v, bary0 y v • (vert0 (s v) : Fin K → ℝ)) j = bary0 y (s.symm j) := by
    intro j
    rw [bary0_combo _ (bary0_sum y)]
    simp only [bary0_vert0, mul_ite, mul_one, mul_zero]
    rw [Finset.sum_eq_single (s.symm j) (fun v _ hv => if_neg fun e => hv (by rw [e, Equiv.symm_apply_apply])) (by simp), if_pos (by simp)]
  simp only [this]
  exact Fintype.sum_equiv s _ _ fun j => by rw [Equiv.symm_apply_apply]

theorem facetInt_congr {K : Nat} {E : Type} [AddCommGroup E] [Module ℝ E] (q : Fin (K + 1) → E) {F F' : E → ℝ}
    (h : ∀ x ∈ convexHull ℝ (Set.range q), F x = F' x) : facetInt q F = facetInt q F' := by
  refine setIntegral_congr_fun (stdTri_measurable K 1) fun y hy => h _ ?_
  exact (convex_convexHull ℝ _).sum_mem (fun v _ => bary0_nonneg hy v) (bary0_sum y) fun v _ => subset_convexHull ℝ _ ⟨v, rfl⟩

/-- Derivatives of the barycentric coordinates. -/
noncomputable def dLam {N : Nat} (S : Simplex N N) (i : Fin (N + 1)) (z : Fin N) : ℝ := (Fin.cons (-∑ w, S.invJ w z) (fun w => S.invJ w z) : Fin (N + 1) → ℝ) i

theorem simplex_divergence {K : Nat} (S : Simplex (K + 1) (K + 1)) (hS : S.Nondeg) (F : Vec (K + 1) → ℝ) (F' : Vec (K + 1) → Vec (K + 1) →L[ℝ] ℝ)
    (z : Fin (K + 1)) (hF : ∀ x ∈ convexHull ℝ (Set.range S.coords), HasFDerivWithinAt F (F' x) (convexHull ℝ (Set.range S.coords)) x)
    (hF' : ContinuousOn F' (convexHull ℝ (Set.range S.coords))) :
    ∫ x in convexHull ℝ (Set.range S.coords), F' x (Pi.single z 1) = -(|S.J.det| * ∑ i, dLam S i z * facetInt (S.coords ∘ i.succAbove) F) := by
  have hmem : ∀ x ∈ stdTri (K + 1) 1, S.toCell x ∈ convexHull ℝ (Set.range S.coords) := fun x hx => by
    rw [hull_image hS]; exact ⟨x, hx, rfl⟩
  have hcell : Continuous S.toCell := by
    show Continuous fun x => S.J *ᵥ x + S.coords 0
    exact (Continuous.matrix_mulVec continuous_const continuous_id).add continuous_const
  have hFc : ContinuousOn F (convexHull ℝ (Set.range S.coords)) := fun x hx => (hF x hx).continuousWithinAt
  have part : ∀ w : Fin (K + 1), ∫ x in stdTri (K + 1) 1, F' (S.toCell x) (S.J *ᵥ Pi.single w 1) =
      facetInt (S.coords ∘ Fin.succAbove 0) F - facetInt (S.coords ∘ w.succ.succAbove) F := by
    intro w
    have hg : ContinuousOn (fun x => F (S.toCell x)) (stdTri (K + 1) 1) := hFc.comp hcell.continuousOn hmem
    have hg' : ContinuousOn (fun x => F' (S.toCell x) (S.J *ᵥ Pi.single w 1)) (stdTri (K + 1) 1) :=
      (hF'.comp hcell.continuousOn hmem).clm_apply continuousOn_const
    rw [stdTri_deriv w (fun x => F (S.toCell x)) _ hg hg' ?_]
    · have cl : ∀ u : (Fin K → ℝ) → ℝ, Continuous u → Continuous fun y : Fin K → ℝ => (w.insertNth (α := fun _ => ℝ) (u y) y : Fin (K + 1) → ℝ) := by
        intro u hu
        refine continuous_pi fun i => ?_
        rcases Fin.eq_self_or_eq_succAbove w i with rfl | ⟨j, rfl⟩
        · simp only [Fin.insertNth_apply_same]; exact hu
        · simp only [Fin.insertNth_apply_succAbove]; exact continuous_apply j
      have c1 : Continuous fun y : Fin K → ℝ => (1 - ∑ j, y j : ℝ) := continuous_const.sub (continuous_finsetSum _ fun i _ => continuous_apply i)
      rw [integral_sub]
      · congr 1
        · have e : facetInt (S.coords ∘ Fin.succAbove 0) F = facetInt ((S.coords ∘ Fin.succAbove 0) ∘ ((finSuccEquiv' 0).trans (finSuccEquiv' w).symm)) F :=
            (facetInt_perm _ _ F).symm
          rw [e, facetInt]
          refine setIntegral_congr_fun (stdTri_measurable K 1) fun y hy => ?_
          simp only [toCell_eq]
          congr 1
          conv_lhs => rw [Fin.sum_univ_succ]
          conv_rhs => rw [Fin.sum_univ_succ]
          have s0 : bary0 (w.insertNth (α := fun _ => ℝ) (1 - ∑ j, y j) y : Fin (K + 1) → ℝ) 0 = 0 := by
            simp [bary0, Fin.sum_univ_succAbove _ w]
          rw [s0, zero_smul, zero_add]
          conv_lhs => rw [Fin.sum_univ_succAbove _ w]
          have e0 : ∀ i : Fin K, (finSuccEquiv' (0 : Fin (K + 1))) i.succ = some i := fun i => by
            rw [← Fin.succAbove_zero_apply, finSuccEquiv'_succAbove]
          simp [bary0, e0]
        · rw [facetInt]
          refine setIntegral_congr_fun (stdTri_measurable K 1) fun y hy => ?_
          simp only [toCell_eq]
          congr 1
          conv_lhs => rw [Fin.sum_univ_succ, Fin.sum_univ_succAbove _ w]
          conv_rhs => rw [Fin.sum_univ_succ]
          simp [bary0, Fin.sum_univ_succAbove _ w]
      · exact (hg.comp (cl _ c1).continuousOn fun y hy => (insert_mem w _ y).2 ⟨hy, by linarith [hy.2], le_rfl⟩).integrableOn_compact (stdTri_compact _ _)
      · exact (hg.comp (cl _ continuous_const).continuousOn fun y hy => (insert_mem w _ y).2 ⟨hy, le_rfl, by linarith [hy.2]⟩).integrableOn_compact (stdTri_compact _ _)
    · intro y hy t ht
      have e : ∀ r : ℝ, S.toCell (w.insertNth (α := fun _ => ℝ) r y) = S.toCell (w.insertNth (α := fun _ => ℝ) 0 y) + r • (S.J *ᵥ Pi.single w 1) := by
        intro r
        have : (w.insertNth (α := fun _ => ℝ) r y : Fin (K + 1) → ℝ) = w.insertNth (α := fun _ => ℝ) 0 y + r • Pi.single w 1 := by
          funext i
          rcases Fin.eq_self_or_eq_succAbove w i with rfl | ⟨j, rfl⟩
          · simp
          · simp only [Fin.insertNth_apply_succAbove, Pi.add_apply, Pi.smul_apply, Pi.single_eq_of_ne (Fin.succAbove_ne w j), smul_zero, add_zero]
        rw [this, Simplex.toCell, Simplex.toCell, Matrix.mulVec_add, Matrix.mulVec_smul]
        abel
      have hl : HasDerivAt (fun r : ℝ => S.toCell (w.insertNth (α := fun _ => ℝ) r y)) (S.J *ᵥ Pi.single w 1) t := by
        rw [funext e]
        simpa using ((hasDerivAt_id t).smul_const (S.J *ᵥ Pi.single w 1)).const_add (S.toCell (w.insertNth (α := fun _ => ℝ) 0 y))
      have hI : Set.MapsTo (fun r : ℝ => S.toCell (w.insertNth (α := fun _ => ℝ) r y)) (Set.Icc 0 (1 - ∑ j, y j)) (convexHull ℝ (Set.range S.coords)) :=
        fun r hr => hmem _ ((insert_mem w r y).2 ⟨hy, hr⟩)
      have := (hF _ (hI (Set.Ioo_subset_Icc_self ht))).comp_hasDerivWithinAt t (hl.hasDerivWithinAt (s := Set.Icc 0 (1 - ∑ j, y j))) hI
      exact this.hasDerivAt (Icc_mem_nhds ht.1 ht.2)
  rw [hull_integral hS]
  have hz : (Pi.single z 1 : Vec (K + 1)) = ∑ w, S.invJ w z • (S.J *ᵥ Pi.single w 1) := by
    have h1 : S.J *ᵥ (S.invJ *ᵥ Pi.single z 1) = Pi.single z 1 := by rw [Matrix.mulVec_mulVec, Simplex.J_mul_invJ hS, Matrix.one_mulVec]
    rw [← h1]
    have h2 : S.invJ *ᵥ Pi.single z 1 = ∑ w, S.invJ w z • (Pi.single w 1 : Fin (K + 1) → ℝ) := by
      ext i
      simp [Finset.sum_apply, Pi.single_apply]
    rw [h2, Matrix.mulVec_sum]
    exact Finset.sum_congr rfl fun w _ => by rw [Matrix.mulVec_smul]
  have hsum : ∫ x in stdTri (K + 1) 1, F' (S.toCell x) (Pi.single z 1) =
      ∑ w, S.invJ w z * (facetInt (S.coords ∘ Fin.succAbove 0) F - facetInt (S.coords ∘ w.succ.succAbove) F) := by
    rw [hz]
    simp only [map_sum, map_smul, smul_eq_mul]
    rw [integral_finsetSum]
    · exact Finset.sum_congr rfl fun w _ => by rw [integral_const_mul, part w]
    · intro w _
      refine Integrable.const_mul ?_ _
      exact ((hF'.comp hcell.continuousOn hmem).clm_apply continuousOn_const).integrableOn_compact (stdTri_compact _ _)
  rw [hsum, ← mul_neg]
  congr 1
  conv_rhs => rw [Fin.sum_univ_succ]
  simp only [dLam, Fin.cons_zero, Fin.cons_succ, mul_sub, Finset.sum_sub_distrib, ← Finset.sum_mul]
  ring

/-- The divergence theorem on simplices, with a functional of the functions on the facets. -/
theorem exists_facet_functional {N : Nat} (hN : 0 < N) : ∃ Φ : (Fin N → Vec N) → (Vec N → ℝ) → ℝ,
    (∀ q (s : Equiv.Perm (Fin N)) F, Φ (q ∘ s) F = Φ q F) ∧
    (∀ q F F', (∀ x ∈ convexHull ℝ (Set.range q), F x = F' x) → Φ q F = Φ q F') ∧ (∀ q, Φ q (fun _ => 0) = 0) ∧
    ∀ (S : Simplex N N), S.Nondeg → ∀ (F : Vec N → ℝ) (F' : Vec N → Vec N →L[ℝ] ℝ) (z : Fin N),
      (∀ x ∈ convexHull ℝ (Set.range S.coords), HasFDerivWithinAt F (F' x) (convexHull ℝ (Set.range S.coords)) x) →
      ContinuousOn F' (convexHull ℝ (Set.range S.coords)) →
      ∫ x in convexHull ℝ (Set.range S.coords), F' x (Pi.single z 1) =
        -(|S.J.det| * ∑ i : Fin (N + 1), dLam S i z * Φ (S.coords ∘ i.succAbove) F) := by
  obtain ⟨K, rfl⟩ : ∃ K, N = K + 1 := ⟨N - 1, by omega⟩
  exact ⟨facetInt, facetInt_perm, fun q F F' h => facetInt_congr q h, fun q => by simp [facetInt],
    fun S hS F F' z h1 h2 => simplex_divergence S hS F F' z h1 h2⟩

end Fdapde.Geometry
