import Verif.Geometry.LemmasConverge
import Mathlib.Analysis.SpecialFunctions.ExpDeriv
/-!
# C155: integrals of smooth functions over meshes

The rules of C59 integrate polynomials.  Here the integrand is any function with enough derivatives: the integral over a mesh converges to the Lebesgue integral
over the domain when the mesh is refined, and the order is one more than the degree of the rule, until the error of the printed digits of the rule (1e-14, relative
to the size of the function and of its derivatives) is met.
-/
namespace Fdapde.Geometry
open MeasureTheory Matrix Quadrature

variable {N : Nat}

/-- The union of the cells. -/
def domain (n : Nat) (S : Nat → Simplex N N) : Set (Vec N) := ⋃ c ∈ Finset.range n, convexHull ℝ (Set.range (S c).coords)

/-- A mesh: no flat cells, disjoint interiors. -/
def IsMesh (n : Nat) (S : Nat → Simplex N N) : Prop :=
  (∀ c < n, (S c).Nondeg) ∧
  ∀ a < n, ∀ b < n, a ≠ b → Disjoint (interior (convexHull ℝ (Set.range (S a).coords))) (interior (convexHull ℝ (Set.range (S b).coords)))

/-- The mesh size is at most `h`: no coordinate of an edge from the first vertex of a cell is larger. -/
def SizeLe (n : Nat) (S : Nat → Simplex N N) (h : ℝ) : Prop := ∀ c < n, ∀ i z, |(S c).coords i z - (S c).coords 0 z| ≤ h

/-- A function with `e + 1` continuous derivatives, those up to order `e` at most `A` and that of order `e + 1` at most `B` on `Ω`. -/
def SmoothOn (f : Vec N → ℝ) (e : Nat) (A B : ℝ) (Ω : Set (Vec N)) : Prop :=
  ContDiff ℝ (e + 1 : ℕ) f ∧ (∀ k ≤ e, ∀ y ∈ Ω, ‖iteratedFDeriv ℝ k f y‖ ≤ A) ∧ ∀ y ∈ Ω, ‖iteratedFDeriv ℝ (e + 1) f y‖ ≤ B

/-! ### The tables -/

/-- Rational check of a table. -/
def checkIn (t : Table) (N : Nat) : Bool :=
  decide ((∀ iq < t.nodes.length, (∀ z < N, 0 ≤ nd t iq z) ∧ ∑ z ∈ Finset.range N, nd t iq z ≤ 1) ∧ ∑ iq ∈ Finset.range t.nodes.length, |t.weights.getD iq 0| ≤ 3)

theorem checkIn_sound (t : Table) (N : Nat) (h : checkIn t N = true) : NodesIn t N ∧ absWeights t ≤ 3 := by
  obtain ⟨h1, h2⟩ := of_decide_eq_true h
  refine ⟨fun iq hiq => ⟨fun z => ?_, ?_⟩, ?_⟩
  · have := (h1 iq hiq).1 z z.2
    change (0 : ℝ) ≤ ((nd t iq z : ℚ) : ℝ)
    exact_mod_cast this
  · have := (h1 iq hiq).2
    rw [Finset.sum_range] at this
    change ∑ z : Fin N, ((nd t iq z : ℚ) : ℝ) ≤ 1
    exact_mod_cast this
  · rw [absWeights]
    change ∑ iq ∈ Finset.range t.nodes.length, |((t.weights.getD iq 0 : ℚ) : ℝ)| ≤ 3
    exact_mod_cast h2

/-- The dimension, the number of nodes and the degree of each table. -/
def degrees : List (Nat × Nat × Nat) := [(1, 2, 3), (1, 3, 5), (2, 1, 1), (2, 3, 2), (2, 6, 4), (2, 7, 5), (2, 12, 6), (3, 1, 1), (3, 4, 2), (3, 5, 3), (3, 11, 4)]

/-- Each table has its nodes in the reference simplex, and weights (some negative) whose absolute values sum to 3 at most. -/
theorem C155_tables : ∀ e ∈ degrees, ∃ t, table e.1 e.2.1 = some t ∧ ExactTo t e.1 e.2.2 ∧ NodesIn t e.1 ∧ absWeights t ≤ 3 := by
  intro e he
  obtain ⟨t, h1, -, -, h2⟩ := C59_simplex e he
  refine ⟨t, h1, h2, ?_⟩
  simp only [degrees, List.mem_cons, List.not_mem_nil, or_false] at he
  rcases he with rfl | rfl | rfl | rfl | rfl | rfl | rfl | rfl | rfl | rfl | rfl <;>
    (obtain rfl := Option.some.inj h1; exact checkIn_sound _ _ (by decide +kernel))

theorem degrees_dim : ∀ e ∈ degrees, e.1 ∈ [1, 2, 3] := by decide

/-! ### Cells -/

/-- **C155**, cells, with a basis function: a smooth function times a function that is a polynomial of degree `R` on the cell, with a rule of degree at least
`e + R`. -/
theorem C155_load (t : Table) (hN : N ∈ [1, 2, 3]) (d e : Nat) (ht : ExactTo t N d) (hin : NodesIn t N) (hw : absWeights t ≤ 3) (S : Simplex N N) (hS : S.Nondeg)
    (f φ : Vec N → ℝ) (P : MvPolynomial (Fin N) ℝ) (hP : P.totalDegree + e ≤ d) (hφ : ∀ x, φ (S.toCell x) = MvPolynomial.eval x P) {h A B K : ℝ}
    (hh : ∀ i z, |S.coords i z - S.coords 0 z| ≤ h) (hf : SmoothOn f e A B (convexHull ℝ (Set.range S.coords)))
    (hK : ∀ y ∈ convexHull ℝ (Set.range S.coords), |φ y| ≤ K) :
    |integrateBasis t (fun x => S.toCell fun z => x z) S.measure f (fun x => MvPolynomial.eval (fun z : Fin N => x z) P) -
      ∫ y in convexHull ℝ (Set.range S.coords), f y * φ y| ≤
      S.measure * (4 * K * B * h ^ (e + 1) / (e + 1).factorial + 1 / 10 ^ 14 * (coeffSum P * ∑ k ∈ Finset.range (e + 1), A * (N * h) ^ k / k.factorial)) := by
  have h0 : S.coords 0 ∈ convexHull ℝ (Set.range S.coords) := subset_convexHull ℝ _ ⟨0, rfl⟩
  have hB0 : 0 ≤ B := (_root_.norm_nonneg _).trans (hf.2.2 _ h0)
  have hK0 : 0 ≤ K := (abs_nonneg _).trans (hK _ h0)
  have hN1 : 0 < N := by
    simp only [List.mem_cons, List.not_mem_nil, or_false] at hN
    omega
  have hh0 : 0 ≤ h := (abs_nonneg _).trans (hh 0 ⟨0, hN1⟩)
  have key := converge_core t hN d e ht hin S hS f φ hf.1 P hP hφ (D := h) (A := A) (B := B) (K := K)
    (fun i => (pi_norm_le_iff_of_nonneg hh0).2 fun z => by rw [Real.norm_eq_abs]; exact hh i z) (fun k hk => hf.2.1 k hk _ h0) hf.2.2 hK
  have hm : 0 ≤ S.measure := div_nonneg (abs_nonneg _) (Nat.cast_nonneg _)
  refine key.trans (mul_le_mul_of_nonneg_left (add_le_add_left ?_ _) hm)
  have : 0 ≤ B * h ^ (e + 1) / (e + 1).factorial * K := by positivity
  calc _ ≤ 4 * (B * h ^ (e + 1) / (e + 1).factorial * K) := mul_le_mul_of_nonneg_right (by linarith) this
    _ = _ := by ring

/-- **C155**, cells. -/
theorem C155_cell (t : Table) (hN : N ∈ [1, 2, 3]) (d : Nat) (ht : ExactTo t N d) (hin : NodesIn t N) (hw : absWeights t ≤ 3) (S : Simplex N N) (hS : S.Nondeg)
    (f : Vec N → ℝ) {h A B : ℝ} (hh : ∀ i z, |S.coords i z - S.coords 0 z| ≤ h) (hf : SmoothOn f d A B (convexHull ℝ (Set.range S.coords))) :
    |integrateCell t (fun x => S.toCell fun z => x z) S.measure f - ∫ y in convexHull ℝ (Set.range S.coords), f y| ≤
      S.measure * (4 * B * h ^ (d + 1) / (d + 1).factorial + 1 / 10 ^ 14 * ∑ k ∈ Finset.range (d + 1), A * (N * h) ^ k / k.factorial) := by
  have key := C155_load t hN d d ht hin hw S hS f (fun _ => 1) (MvPolynomial.C 1) (by simp) (fun x => by simp) hh hf (K := 1) (fun y _ => by simp)
  have e : integrateCell t (fun x => S.toCell fun z => x z) S.measure f =
      integrateBasis t (fun x => S.toCell fun z => x z) S.measure f (fun x => MvPolynomial.eval (fun z : Fin N => x z) (MvPolynomial.C 1)) := by
    simp [integrateCell, integrateBasis]
  have hc : coeffSum (MvPolynomial.C 1 : MvPolynomial (Fin N) ℝ) ≤ 1 := (coeffSum_monomial' 0 1).trans (le_of_eq abs_one)
  have h0 : S.coords 0 ∈ convexHull ℝ (Set.range S.coords) := subset_convexHull ℝ _ ⟨0, rfl⟩
  have hA0 : 0 ≤ A := (_root_.norm_nonneg _).trans (hf.2.1 0 (Nat.zero_le _) _ h0)
  have hN1 : 0 < N := by
    simp only [List.mem_cons, List.not_mem_nil, or_false] at hN
    omega
  have hh0 : 0 ≤ h := (abs_nonneg _).trans (hh 0 ⟨0, hN1⟩)
  have hm : 0 ≤ S.measure := div_nonneg (abs_nonneg _) (Nat.cast_nonneg _)
  rw [e]
  simp only [mul_one] at key
  refine key.trans (mul_le_mul_of_nonneg_left (add_le_add_right (mul_le_mul_of_nonneg_left ?_ (by positivity)) _) hm)
  exact mul_le_of_le_one_left (Finset.sum_nonneg fun k _ => by positivity) hc

/-! ### Meshes -/

/-- The integral of a continuous function over the domain is the sum of those over the cells. -/
theorem domain_integral (n : Nat) (S : Nat → Simplex N N) (hS : IsMesh n S) (f : Vec N → ℝ) (hf : Continuous f) :
    ∫ y in domain n S, f y = ∑ c ∈ Finset.range n, ∫ y in convexHull ℝ (Set.range (S c).coords), f y := by
  have hcomp : ∀ c, IsCompact (convexHull ℝ (Set.range (S c).coords)) := fun c => (Set.finite_range _).isCompact_convexHull ℝ
  have hU : domain n S = ⋃ c : Fin n, convexHull ℝ (Set.range (S c).coords) := by
    ext x
    simp only [domain, Set.mem_iUnion, Finset.mem_range, exists_prop]
    exact ⟨fun ⟨c, h1, h2⟩ => ⟨⟨c, h1⟩, h2⟩, fun ⟨c, h⟩ => ⟨c, c.2, h⟩⟩
  have hae : Pairwise (Function.onFun (AEDisjoint volume) fun c : Fin n => convexHull ℝ (Set.range (S c).coords)) := fun a b hab =>
    ae_disjoint n S hS.2 (Finset.mem_coe.2 (Finset.mem_range.2 a.2)) (Finset.mem_coe.2 (Finset.mem_range.2 b.2)) fun h => hab (Fin.ext h)
  rw [hU, integral_iUnion_ae (fun c : Fin n => (hcomp c).isClosed.measurableSet.nullMeasurableSet) hae
    (hf.continuousOn.integrableOn_compact (isCompact_iUnion fun c : Fin n => hcomp c)), tsum_fintype,
    ← Finset.sum_range (fun c => ∫ y in convexHull ℝ (Set.range (S c).coords), f y)]

theorem cell_domain {n : Nat} {S : Nat → Simplex N N} {c : Nat} (hc : c < n) : convexHull ℝ (Set.range (S c).coords) ⊆ domain n S := fun _ hy =>
  Set.mem_biUnion (Finset.mem_coe.2 (Finset.mem_range.2 hc)) hy

/-- **C155**, meshes: with any table, on any mesh of intervals, triangles or tetrahedra, the integral of a function with `degree + 1` derivatives differs from its
Lebesgue integral over the domain by at most the measure of the domain times a constant times the power `degree + 1` of the mesh size, plus 1e-14 times the size of
the function and of its derivatives. -/
theorem C155_mesh : ∀ e ∈ degrees, ∃ t, table e.1 e.2.1 = some t ∧ ∀ (n : Nat) (S : Nat → Simplex e.1 e.1) (f : Vec e.1 → ℝ) (h A B : ℝ), IsMesh n S → SizeLe n S h →
    SmoothOn f e.2.2 A B (domain n S) →
    |integrateMesh n (fun c => integrateCell t (fun x => (S c).toCell fun z => x z) (S c).measure f) - ∫ y in domain n S, f y| ≤
      (volume (domain n S)).toReal *
        (4 * B * h ^ (e.2.2 + 1) / (e.2.2 + 1).factorial + 1 / 10 ^ 14 * ∑ k ∈ Finset.range (e.2.2 + 1), A * (e.1 * h) ^ k / k.factorial) := by
  intro e he
  obtain ⟨t, t1, t2, t3, t4⟩ := C155_tables e he
  refine ⟨t, t1, fun n S f h A B hS hh hf => ?_⟩
  rw [C87_mesh, domain_integral n S hS f hf.1.continuous, ← Finset.sum_sub_distrib, show (volume (domain n S)).toReal = _ from (C108_domain n S hS.2).symm, Finset.sum_mul]
  refine (Finset.abs_sum_le_sum_abs _ _).trans (Finset.sum_le_sum fun c hc => ?_)
  have hc := Finset.mem_range.1 hc
  exact C155_cell t (degrees_dim e he) _ t2 t3 t4 (S c) (hS.1 c hc) f (hh c hc)
    ⟨hf.1, fun k hk y hy => hf.2.1 k hk y (cell_domain hc hy), fun y hy => hf.2.2 y (cell_domain hc hy)⟩

theorem domain_compact (n : Nat) (S : Nat → Simplex N N) : IsCompact (domain n S) :=
  (Finset.range n).finite_toSet.isCompact_biUnion fun c _ => (Set.finite_range _).isCompact_convexHull ℝ

/-- **C155**, refinement: for every smooth function and every domain, the integral over all meshes of the domain that are fine enough is the Lebesgue integral up to
1e-14 times the size of the function, and as little more as wanted. -/
theorem C155_refine : ∀ e ∈ degrees, ∃ t, table e.1 e.2.1 = some t ∧ ∀ (Ω : Set (Vec e.1)) (f : Vec e.1 → ℝ) (A B : ℝ), SmoothOn f e.2.2 A B Ω → ∀ η > 0, ∃ h₀ > 0,
    ∀ (n : Nat) (S : Nat → Simplex e.1 e.1), IsMesh n S → SizeLe n S h₀ → domain n S = Ω →
    |integrateMesh n (fun c => integrateCell t (fun x => (S c).toCell fun z => x z) (S c).measure f) - ∫ y in Ω, f y| ≤
      (volume Ω).toReal * (1 / 10 ^ 14 * A + η) := by
  intro e he
  obtain ⟨t, t1, t2⟩ := C155_mesh e he
  refine ⟨t, t1, fun Ω f A B hf η hη => ?_⟩
  have hc : Continuous fun h : ℝ => 4 * B * h ^ (e.2.2 + 1) / (e.2.2 + 1).factorial + 1 / 10 ^ 14 * ∑ k ∈ Finset.range (e.2.2 + 1), A * (e.1 * h) ^ k / k.factorial := by
    fun_prop
  have h0 : (4 * B * (0 : ℝ) ^ (e.2.2 + 1) / (e.2.2 + 1).factorial + 1 / 10 ^ 14 * ∑ k ∈ Finset.range (e.2.2 + 1), A * (e.1 * (0 : ℝ)) ^ k / k.factorial) = 1 / 10 ^ 14 * A := by
    rw [Finset.sum_range_succ']
    simp
  obtain ⟨δ, hδ, hlt⟩ := Metric.continuous_iff.1 hc 0 η hη
  refine ⟨δ / 2, by positivity, fun n S hS hh hΩ => ?_⟩
  subst hΩ
  refine (t2 n S f (δ / 2) A B hS hh hf).trans (mul_le_mul_of_nonneg_left ?_ ENNReal.toReal_nonneg)
  have := hlt (δ / 2) (by rw [dist_zero_right, Real.norm_of_nonneg (by positivity)]; linarith)
  rw [h0, Real.dist_eq] at this
  linarith [le_abs_self (4 * B * (δ / 2) ^ (e.2.2 + 1) / (e.2.2 + 1).factorial +
    1 / 10 ^ 14 * ∑ k ∈ Finset.range (e.2.2 + 1), A * (e.1 * (δ / 2)) ^ k / k.factorial - 1 / 10 ^ 14 * A)]

/-- **C155**, why the digits are in the bound: the weights of the rule of three nodes on triangles sum to 1 - 1e-15, and on every mesh, however fine, the integral of
the function 1 is the area times that. -/
theorem C155_digits (n : Nat) (S : Nat → Simplex 2 2) (hS : IsMesh n S) :
    integrateMesh n (fun c => integrateCell rule2_3 (fun x => (S c).toCell fun z => x z) (S c).measure fun _ => 1) = (1 - 1 / 10 ^ 15) * (volume (domain n S)).toReal := by
  rw [C87_mesh, show (volume (domain n S)).toReal = _ from (C108_domain n S hS.2).symm, Finset.mul_sum]
  refine Finset.sum_congr rfl fun c _ => ?_
  rw [integrateCell]
  congr 1
  rw [accum_eq]
  norm_num [Finset.sum_range_succ, size, weight, rule2_3]

/-- The dimension, the order of the elements and the difference between the degree of the rule used in their assembly and their order. -/
def margins : List (Nat × Nat × Nat) := [(1, 1, 2), (1, 2, 3), (2, 1, 1), (2, 2, 2), (3, 1, 1), (3, 2, 1)]

/-- **C155**, forcing: the entries of the right hand side computed on a cell with the rule of the finite elements of order 1 and 2, for every smooth forcing and every
function that is a polynomial of the order of the elements on the cell. -/
theorem C155_forcing : ∀ m ∈ margins, ∃ t, table m.1 (ruleSize m.1 m.2.1) = some t ∧ ∀ (S : Simplex m.1 m.1) (f φ : Vec m.1 → ℝ) (P : MvPolynomial (Fin m.1) ℝ) (h A B K : ℝ),
    S.Nondeg → P.totalDegree ≤ m.2.1 → (∀ x, φ (S.toCell x) = MvPolynomial.eval x P) → (∀ i z, |S.coords i z - S.coords 0 z| ≤ h) →
    SmoothOn f m.2.2 A B (convexHull ℝ (Set.range S.coords)) → (∀ y ∈ convexHull ℝ (Set.range S.coords), |φ y| ≤ K) →
    |integrateBasis t (fun x => S.toCell fun z => x z) S.measure f (fun x => MvPolynomial.eval (fun z : Fin m.1 => x z) P) -
      ∫ y in convexHull ℝ (Set.range S.coords), f y * φ y| ≤
      S.measure * (4 * K * B * h ^ (m.2.2 + 1) / (m.2.2 + 1).factorial +
        1 / 10 ^ 14 * (coeffSum P * ∑ k ∈ Finset.range (m.2.2 + 1), A * (m.1 * h) ^ k / k.factorial)) := by
  have key : ∀ m ∈ margins, (m.1, ruleSize m.1 m.2.1, m.2.1 + m.2.2) ∈ degrees := by decide
  intro m hm
  obtain ⟨t, t1, t2, t3, t4⟩ := C155_tables _ (key m hm)
  exact ⟨t, t1, fun S f φ P h A B K hS hP hφ hh hf hK =>
    C155_load t (degrees_dim _ (key m hm)) _ m.2.2 t2 t3 t4 S hS f φ P (Nat.add_le_add_right hP _) hφ hh hf hK⟩

/-! ### The hypotheses are met -/

/-- Every function with continuous derivatives is smooth on every mesh, with some bounds. -/
theorem smooth_exists (n : Nat) (S : Nat → Simplex N N) (f : Vec N → ℝ) (e : Nat) (hf : ContDiff ℝ (e + 1 : ℕ) f) : ∃ A B, SmoothOn f e A B (domain n S) := by
  have bound : ∀ k ≤ e + 1, ∃ A : ℝ, 0 ≤ A ∧ ∀ y ∈ domain n S, ‖iteratedFDeriv ℝ k f y‖ ≤ A := fun k hk => by
    have hc : Continuous fun y => ‖iteratedFDeriv ℝ k f y‖ := (hf.continuous_iteratedFDeriv (m := k) (by exact_mod_cast hk)).norm
    obtain ⟨A, hA⟩ := (domain_compact n S).bddAbove_image hc.continuousOn
    exact ⟨max A 0, le_max_right _ _, fun y hy => (hA ⟨y, hy, rfl⟩).trans (le_max_left _ _)⟩
  choose! A hA0 hA using bound
  refine ⟨∑ k ∈ Finset.range (e + 1), A k, A (e + 1), hf, fun k hk y hy => (hA k (by omega) y hy).trans ?_, hA (e + 1) le_rfl⟩
  exact Finset.single_le_sum (f := A) (fun j hj => hA0 j (by have := Finset.mem_range.1 hj; omega)) (Finset.mem_range.2 (by omega))

theorem unit_mesh : IsMesh 1 (fun _ => unitTri) := ⟨fun _ _ => unitTri_nondeg, fun a ha b hb hab => absurd (show a = b by omega) hab⟩

theorem unit_size : SizeLe 1 (fun _ => unitTri) 1 := fun _ _ i z => by
  fin_cases i <;> fin_cases z <;> norm_num [unitTri]

/-- The exponential of a coordinate on the unit triangle. -/
example : ∃ A B : ℝ, |integrateMesh 1 (fun _ => integrateCell rule2_6 (fun x => unitTri.toCell fun z => x z) unitTri.measure fun y => Real.exp (y 0)) -
    ∫ y in domain 1 (fun _ => unitTri), Real.exp (y 0)| ≤ (volume (domain 1 fun _ => unitTri)).toReal *
      (4 * B * 1 ^ 5 / Nat.factorial 5 + 1 / 10 ^ 14 * ∑ k ∈ Finset.range 5, A * ((2 : ℕ) * 1) ^ k / k.factorial) := by
  obtain ⟨A, B, h⟩ := smooth_exists 1 (fun _ => unitTri) (fun y => Real.exp (y 0)) 4 (Real.contDiff_exp.comp (contDiff_apply ℝ ℝ (0 : Fin 2)))
  obtain ⟨t, t1, t2⟩ := C155_mesh (2, 6, 4) (by decide)
  obtain rfl := Option.some.inj t1
  exact ⟨A, B, t2 1 _ _ 1 A B unit_mesh unit_size h⟩

/-- The first linear basis function, `1 - x - y`, and an exponential as forcing. -/
example : ∃ A B : ℝ, |integrateBasis rule2_3 (fun x => unitTri.toCell fun z => x z) unitTri.measure (fun y => Real.exp (y 0))
      (fun x => MvPolynomial.eval (fun z : Fin 2 => x z) (1 - MvPolynomial.X 0 - MvPolynomial.X 1)) -
      ∫ y in convexHull ℝ (Set.range unitTri.coords), Real.exp (y 0) * (1 - y 0 - y 1)| ≤
      unitTri.measure * (4 * 1 * B * 1 ^ 2 / Nat.factorial 2 +
        1 / 10 ^ 14 * (coeffSum (1 - MvPolynomial.X 0 - MvPolynomial.X 1 : MvPolynomial (Fin 2) ℝ) * ∑ k ∈ Finset.range 2, A * ((2 : ℕ) * 1) ^ k / k.factorial)) := by
  obtain ⟨A, B, h⟩ := smooth_exists 1 (fun _ => unitTri) (fun y => Real.exp (y 0)) 1 (Real.contDiff_exp.comp (contDiff_apply ℝ ℝ (0 : Fin 2)))
  obtain ⟨t, t1, t2⟩ := C155_forcing (2, 1, 1) (by decide)
  obtain rfl := Option.some.inj t1
  have hcell : ∀ x : Fin 2 → ℝ, unitTri.toCell x = x := fun x => by
    funext z
    fin_cases z <;> simp [Simplex.toCell, Simplex.J, unitTri, Matrix.mulVec, dotProduct, Fin.sum_univ_two]
  refine ⟨A, B, t2 unitTri _ (fun y => 1 - y 0 - y 1) _ 1 A B 1 unitTri_nondeg ?_ (fun x => by rw [hcell]; simp) (unit_size 0 (by omega)) ?_ ?_⟩
  · refine (MvPolynomial.totalDegree_sub _ _).trans (max_le ((MvPolynomial.totalDegree_sub _ _).trans (max_le ?_ ?_)) ?_) <;> simp
  · exact ⟨h.1, fun k hk y hy => h.2.1 k hk y (cell_domain (n := 1) (c := 0) (by omega) hy), fun y hy => h.2.2 y (cell_domain (n := 1) (c := 0) (by omega) hy)⟩
  · intro y hy
    rw [hull_image unitTri_nondeg] at hy
    obtain ⟨x, ⟨hx1, hx2⟩, rfl⟩ := hy
    rw [hcell, abs_le]
    rw [Fin.sum_univ_two] at hx2
    have := hx1 0
    have := hx1 1
    constructor <;> linarith

end Fdapde.Geometry
