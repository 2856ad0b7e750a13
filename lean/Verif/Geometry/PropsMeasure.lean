import Verif.Geometry.LemmasMeasure
import Verif.Quadrature.PropsIntegrator
import Mathlib.Analysis.Convex.Measure
import Mathlib.Topology.Algebra.MvPolynomial
/-!
# C108: measure of the cells and integrals over them
-/
namespace Fdapde.Geometry
open MeasureTheory Matrix Quadrature

variable {N : Nat}

theorem stdTri_volume (N : Nat) : ∀ s : ℝ, 0 ≤ s → ∫ _ in stdTri N s, (1 : ℝ) = s ^ N / N.factorial := by
  induction N with
  | zero => intro s hs; rw [stdTri_zero s hs]; simp
  | succ N ih =>
    intro s hs
    rw [stdTri_fubini N s hs _ continuous_const]
    have : ∫ t in (0 : ℝ)..s, ∫ _ in stdTri N (s - t), (1 : ℝ) = ∫ t in (0 : ℝ)..s, (s - t) ^ N / N.factorial := by
      refine intervalIntegral.integral_congr fun t ht => ?_
      rw [Set.uIcc_of_le hs] at ht
      exact ih _ (by linarith [ht.2])
    rw [this, intervalIntegral.integral_div, intervalIntegral.integral_comp_sub_left (fun x => x ^ N) s, integral_pow, Nat.factorial_succ]
    simp
    field_simp

theorem det_zero {S : Simplex N N} (hS : ¬ S.Nondeg) : S.J.det = 0 := by
  by_contra hdet
  apply hS
  unfold Simplex.Nondeg
  rw [affineIndependent_iff_of_fintype]
  intro w hw hz i
  have e : S.J *ᵥ (fun j : Fin N => w j.succ) = 0 := by
    rw [Simplex.J_mulVec]
    rw [Finset.weightedVSub_eq_weightedVSubOfPoint_of_sum_eq_zero _ _ _ hw (S.coords 0), Finset.weightedVSubOfPoint_apply, Fin.sum_univ_succ] at hz
    simpa using hz
  have h0 := Matrix.eq_zero_of_mulVec_eq_zero hdet e
  have hs : ∀ j : Fin N, w j.succ = 0 := fun j => congrFun h0 j
  rw [Fin.sum_univ_succ] at hw
  simp only [hs, Finset.sum_const_zero, add_zero] at hw
  exact Fin.cases hw hs i

/-- C108: `measure()` of a cell of full dimension is the Lebesgue measure of the convex hull of its vertices. -/
theorem C108_measure (S : Simplex N N) : S.measure = (volume (convexHull ℝ (Set.range S.coords))).toReal := by
  by_cases hS : S.Nondeg
  · have h := hull_integral hS (fun _ => 1)
    rw [stdTri_volume N 1 zero_le_one, integral_const] at h
    simp only [smul_eq_mul, mul_one, one_pow] at h
    rw [Simplex.measure, div_eq_mul_one_div, ← h]
    simp [Measure.real]
  · rw [Simplex.measure, det_zero hS]
    have hne : affineSpan ℝ (Set.range S.coords) ≠ ⊤ := by
      intro htop
      apply hS
      unfold Simplex.Nondeg
      rw [affineIndependent_iff_finrank_vectorSpan_eq ℝ S.coords (n := N) (by simp), ← direction_affineSpan, htop,
        AffineSubspace.direction_top, finrank_top, Module.finrank_fin_fun]
    have h0 : volume (convexHull ℝ (Set.range S.coords)) = 0 :=
      measure_mono_null (convexHull_subset_affineSpan _) (Measure.addHaar_affineSubspace volume _ hne)
    rw [h0]
    simp

/-- A segment in the line, the plane or the space: the distance of its ends. -/
theorem C108_segment (S : Simplex 1 N) : S.measureSeg = norm (S.coords 1 - S.coords 0) := rfl

theorem lagrange_identity (u v : Vec 3) : sqNorm (u ⨯₃ v) = sqNorm u * sqNorm v - (u ⬝ᵥ v) ^ 2 := by
  simp only [sqNorm, dotProduct, Fin.sum_univ_three, crossProduct]
  simp
  ring

theorem gram_planar (T : Simplex 2 2) : T.J.det ^ 2 =
    sqNorm (T.coords 1 - T.coords 0) * sqNorm (T.coords 2 - T.coords 0) - ((T.coords 1 - T.coords 0) ⬝ᵥ (T.coords 2 - T.coords 0)) ^ 2 := by
  rw [Matrix.det_fin_two]
  simp [Simplex.J, sqNorm, dotProduct, Fin.sum_univ_two]
  ring

/-- C108: `measure()` of a triangle in space is the area of the plane triangles with sides of the same length. -/
theorem C108_triangle (S : Simplex 2 3) (T : Simplex 2 2) (h : ∀ i j, norm (S.coords i - S.coords j) = norm (T.coords i - T.coords j)) :
    S.measureTri = (volume (convexHull ℝ (Set.range T.coords))).toReal := by
  rw [← C108_measure]
  have sq : ∀ {n : Nat} (v : Vec n), 0 ≤ sqNorm v := fun {n} v =>
    show 0 ≤ ∑ i : Fin n, v i * v i from Finset.sum_nonneg fun i _ => mul_self_nonneg (v i)
  have h' : ∀ i j, sqNorm (S.coords i - S.coords j) = sqNorm (T.coords i - T.coords j) := fun i j => by
    have := congrArg (· ^ 2) (h i j)
    simpa only [norm, Real.sq_sqrt (sq _)] using this
  have e1 := h' 1 0
  have e2 := h' 2 0
  have e3 := h' 1 2
  rw [show S.coords 1 - S.coords 2 = (S.coords 1 - S.coords 0) - (S.coords 2 - S.coords 0) by abel, sqNorm_sub (S.coords 1 - S.coords 0),
    show T.coords 1 - T.coords 2 = (T.coords 1 - T.coords 0) - (T.coords 2 - T.coords 0) by abel, sqNorm_sub (T.coords 1 - T.coords 0), e1, e2] at e3
  have e4 : (S.coords 1 - S.coords 0) ⬝ᵥ (S.coords 2 - S.coords 0) = (T.coords 1 - T.coords 0) ⬝ᵥ (T.coords 2 - T.coords 0) := by linarith
  have key : sqNorm ((S.coords 1 - S.coords 0) ⨯₃ (S.coords 2 - S.coords 0)) = T.J.det ^ 2 := by
    rw [lagrange_identity, gram_planar, e1, e2, e4]
  have hu : (fun i => S.J i 0) = S.coords 1 - S.coords 0 := rfl
  have hv : (fun i => S.J i 1) = S.coords 2 - S.coords 0 := rfl
  rw [Simplex.measureTri, Simplex.measure, hu, hv, norm, key, Real.sqrt_sq_eq_abs]
  norm_num [Nat.factorial]
  ring

/-- The reference mean of the specification of the rules is the Lebesgue integral over the reference simplex divided by its volume. -/
theorem refMean_eq (M : Nat) (hM : M ∈ [1, 2, 3]) (f : (Fin M → ℝ) → ℝ) (hf : Continuous f) :
    refMean M f = M.factorial * ∫ x in stdTri M 1, f x := by
  simp only [List.mem_cons, List.not_mem_nil, or_false] at hM
  rcases hM with rfl | rfl | rfl
  · rw [refMean, refInt_eq.1 f hf]; simp
  · rw [refMean, refInt_eq.2.1 f hf]; norm_num [Nat.factorial]
  · rw [refMean, refInt_eq.2.2 f hf]; norm_num [Nat.factorial]

/-- A polynomial in the coordinates of the space, seen from the reference simplex. -/
noncomputable def pullback (S : Simplex N N) (q : MvPolynomial (Fin N) ℝ) : MvPolynomial (Fin N) ℝ :=
  MvPolynomial.aeval (fun i => (∑ j, MvPolynomial.C (S.J i j) * MvPolynomial.X j) + MvPolynomial.C (S.coords 0 i)) q

theorem pullback_eval (S : Simplex N N) (q : MvPolynomial (Fin N) ℝ) (x : Fin N → ℝ) :
    MvPolynomial.eval x (pullback S q) = MvPolynomial.eval (S.toCell x) q := by
  rw [pullback, MvPolynomial.aeval_def, MvPolynomial.eval₂_eq', map_sum, MvPolynomial.eval_eq']
  refine Finset.sum_congr rfl fun m _ => ?_
  rw [map_mul, map_prod]
  congr 1
  · simp [MvPolynomial.algebraMap_eq]
  · refine Finset.prod_congr rfl fun i _ => ?_
    rw [map_pow]
    congr 1
    simp [Simplex.toCell, Matrix.mulVec, dotProduct]

theorem pullback_degree (S : Simplex N N) (q : MvPolynomial (Fin N) ℝ) : (pullback S q).totalDegree ≤ q.totalDegree := by
  rw [pullback, MvPolynomial.aeval_def, MvPolynomial.eval₂_eq']
  refine MvPolynomial.totalDegree_finsetSum_le fun m hm => ?_
  refine (MvPolynomial.totalDegree_mul _ _).trans ?_
  rw [MvPolynomial.algebraMap_eq, MvPolynomial.totalDegree_C, zero_add]
  refine (MvPolynomial.totalDegree_finsetProd _ _).trans ?_
  have hm' := MvPolynomial.le_totalDegree hm
  rw [Finsupp.sum_fintype _ _ (by simp)] at hm'
  refine le_trans (Finset.sum_le_sum fun i _ => ?_) hm'
  refine (MvPolynomial.totalDegree_pow _ _).trans ?_
  have h1 : ((∑ j, MvPolynomial.C (S.J i j) * MvPolynomial.X j) + MvPolynomial.C (S.coords 0 i) : MvPolynomial (Fin N) ℝ).totalDegree ≤ 1 := by
    refine (MvPolynomial.totalDegree_add _ _).trans (max_le ?_ (by simp))
    refine MvPolynomial.totalDegree_finsetSum_le fun j _ => (MvPolynomial.totalDegree_mul _ _).trans ?_
    simp
  calc m i * _ ≤ m i * 1 := Nat.mul_le_mul_left _ h1
    _ = m i := mul_one _

/-- C108: the integral of a polynomial over a segment, triangle or tetrahedron computed by a rule of its degree is its Lebesgue
integral over the cell, up to the error of the printed digits of the rule. -/
theorem C108_cell (t : Table) (hN : N ∈ [1, 2, 3]) (d : Nat) (ht : ExactTo t N d) (S : Simplex N N) (hS : S.Nondeg)
    (q : MvPolynomial (Fin N) ℝ) (hq : q.totalDegree ≤ d) :
    |integrateCell t (fun x => S.toCell fun z => x z) S.measure (fun y => MvPolynomial.eval y q) -
      ∫ y in convexHull ℝ (Set.range S.coords), MvPolynomial.eval y q| ≤ S.measure * (1 / 10 ^ 14 * coeffSum (pullback S q)) := by
  have h := C87_cell t N d ht (fun x => S.toCell fun z => x z) S.measure (div_nonneg (abs_nonneg _) (Nat.cast_nonneg _))
    (fun y => MvPolynomial.eval y q) (pullback S q) ((pullback_degree S q).trans hq) (fun x => (pullback_eval S q _).symm)
  rw [refMean_eq N hN _ (MvPolynomial.continuous_eval _)] at h
  rw [hull_integral hS]
  simp only [pullback_eval] at h
  convert h using 3
  rw [Simplex.measure, ← mul_assoc, div_mul_cancel₀ _ (Nat.cast_ne_zero.2 (Nat.factorial_ne_zero _))]

/-- Cells with disjoint interiors meet in a set of measure zero. -/
theorem ae_disjoint (n : Nat) (S : Nat → Simplex N N)
    (hdis : ∀ a < n, ∀ b < n, a ≠ b → Disjoint (interior (convexHull ℝ (Set.range (S a).coords))) (interior (convexHull ℝ (Set.range (S b).coords)))) :
    (Finset.range n : Set Nat).Pairwise (Function.onFun (AEDisjoint volume) fun c => convexHull ℝ (Set.range (S c).coords)) := by
  intro a ha b hb hab
  have h1 := (convex_convexHull ℝ (Set.range (S a).coords)).addHaar_frontier volume
  have h2 := (convex_convexHull ℝ (Set.range (S b).coords)).addHaar_frontier volume
  refine measure_mono_null ?_ (measure_union_null h1 h2)
  rintro x ⟨hx1, hx2⟩
  by_cases i1 : x ∈ interior (convexHull ℝ (Set.range (S a).coords))
  · by_cases i2 : x ∈ interior (convexHull ℝ (Set.range (S b).coords))
    · exact absurd i2 (Set.disjoint_left.1 (hdis a (Finset.mem_range.1 (Finset.mem_coe.1 ha)) b (Finset.mem_range.1 (Finset.mem_coe.1 hb)) hab) i1)
    · exact Or.inr ⟨subset_closure hx2, i2⟩
  · exact Or.inl ⟨subset_closure hx1, i1⟩

/-- C108, meshes: if the interiors of the cells are disjoint, the integral over the mesh is the Lebesgue integral over the union of
the cells, up to the sum of the errors on the cells. -/
theorem C108_mesh (t : Table) (hN : N ∈ [1, 2, 3]) (d : Nat) (ht : ExactTo t N d) (n : Nat) (S : Nat → Simplex N N)
    (hS : ∀ c < n, (S c).Nondeg)
    (hdis : ∀ a < n, ∀ b < n, a ≠ b → Disjoint (interior (convexHull ℝ (Set.range (S a).coords))) (interior (convexHull ℝ (Set.range (S b).coords))))
    (q : MvPolynomial (Fin N) ℝ) (hq : q.totalDegree ≤ d) :
    |integrateMesh n (fun c => integrateCell t (fun x => (S c).toCell fun z => x z) (S c).measure (fun y => MvPolynomial.eval y q)) -
      ∫ y in ⋃ c ∈ Finset.range n, convexHull ℝ (Set.range (S c).coords), MvPolynomial.eval y q| ≤
      ∑ c ∈ Finset.range n, (S c).measure * (1 / 10 ^ 14 * coeffSum (pullback (S c) q)) := by
  have hcomp : ∀ c, IsCompact (convexHull ℝ (Set.range (S c).coords)) := fun c => (Set.finite_range _).isCompact_convexHull ℝ
  have hU : (⋃ c ∈ Finset.range n, convexHull ℝ (Set.range (S c).coords)) = ⋃ c : Fin n, convexHull ℝ (Set.range (S c).coords) := by
    ext x
    simp only [Set.mem_iUnion, Finset.mem_range, exists_prop]
    exact ⟨fun ⟨c, h1, h2⟩ => ⟨⟨c, h1⟩, h2⟩, fun ⟨c, h⟩ => ⟨c, c.2, h⟩⟩
  have hae : Pairwise (Function.onFun (AEDisjoint volume) fun c : Fin n => convexHull ℝ (Set.range (S c).coords)) := fun a b hab =>
    ae_disjoint n S hdis (Finset.mem_coe.2 (Finset.mem_range.2 a.2)) (Finset.mem_coe.2 (Finset.mem_range.2 b.2)) fun h => hab (Fin.ext h)
  have hint : IntegrableOn (fun y => MvPolynomial.eval y q) (⋃ c : Fin n, convexHull ℝ (Set.range (S c).coords)) volume :=
    (MvPolynomial.continuous_eval q).continuousOn.integrableOn_compact (isCompact_iUnion fun c : Fin n => hcomp c)
  rw [C87_mesh, hU, integral_iUnion_ae (fun c : Fin n => (hcomp c).isClosed.measurableSet.nullMeasurableSet) hae hint, tsum_fintype,
    ← Finset.sum_range (fun c => ∫ y in convexHull ℝ (Set.range (S c).coords), MvPolynomial.eval y q), ← Finset.sum_sub_distrib]
  refine (Finset.abs_sum_le_sum_abs _ _).trans (Finset.sum_le_sum fun c hc => ?_)
  exact C108_cell t hN d ht (S c) (hS c (Finset.mem_range.1 hc)) q hq

/-- C108: the measures of the cells of a mesh sum to the Lebesgue measure of the domain. -/
theorem C108_domain (n : Nat) (S : Nat → Simplex N N)
    (hdis : ∀ a < n, ∀ b < n, a ≠ b → Disjoint (interior (convexHull ℝ (Set.range (S a).coords))) (interior (convexHull ℝ (Set.range (S b).coords)))) :
    ∑ c ∈ Finset.range n, (S c).measure = (volume (⋃ c ∈ Finset.range n, convexHull ℝ (Set.range (S c).coords))).toReal := by
  have hcomp : ∀ c, IsCompact (convexHull ℝ (Set.range (S c).coords)) := fun c => (Set.finite_range _).isCompact_convexHull ℝ
  rw [measure_biUnion_finset₀ (ae_disjoint n S hdis) (fun c _ => (hcomp c).isClosed.measurableSet.nullMeasurableSet),
    ENNReal.toReal_sum (fun c _ => (hcomp c).measure_ne_top)]
  exact Finset.sum_congr rfl fun c _ => C108_measure (S c)

/-! ### Concrete cases -/

/-- The triangle (0,0,0), (1,0,0), (0,3/5,4/5) of the space and the unit triangle of the plane. -/
example : Simplex.measureTri ⟨![![0, 0, 0], ![1, 0, 0], ![0, 3 / 5, 4 / 5]]⟩ = (volume (convexHull ℝ (Set.range unitTri.coords))).toReal := by
  refine C108_triangle _ _ fun i j => ?_
  fin_cases i <;> fin_cases j <;> norm_num [norm, sqNorm, unitTri, dotProduct, Fin.sum_univ_succ]

example : unitTri.measure = 1 / 2 := by
  norm_num [Simplex.measure, Simplex.J, unitTri, Matrix.det_fin_two, Nat.factorial]

/-- The integral of `x y` over the unit triangle with the rule of three nodes. -/
example : |integrateCell rule2_3 (fun x => unitTri.toCell fun z => x z) unitTri.measure
      (fun y => MvPolynomial.eval y (MvPolynomial.X 0 * MvPolynomial.X 1)) -
    ∫ y in convexHull ℝ (Set.range unitTri.coords), MvPolynomial.eval y (MvPolynomial.X 0 * MvPolynomial.X 1)| ≤
      unitTri.measure * (1 / 10 ^ 14 * coeffSum (pullback unitTri (MvPolynomial.X 0 * MvPolynomial.X 1))) :=
  C108_cell rule2_3 (by simp) 2 (exact2 _ _ (by decide +kernel)) unitTri unitTri_nondeg _
    ((MvPolynomial.totalDegree_mul _ _).trans (by simp))

end Fdapde.Geometry
