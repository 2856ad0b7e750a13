import Verif.Geometry.Lemmas
import Mathlib.Analysis.Convex.Combination
/- C42: barycentric coordinates. C43: containment. C44: circumcenter. -/
namespace Fdapde.Geometry
open Matrix
variable {d N : Nat}

/-- A concrete triangle used in the examples. -/
def unitTri : Simplex 2 2 := ⟨![![0, 0], ![1, 0], ![0, 1]]⟩

/-- A non-degenerate triangle. -/
theorem unitTri_nondeg : unitTri.Nondeg := by
  unfold Simplex.Nondeg
  rw [affineIndependent_iff_linearIndependent_vsub ℝ _ (0 : Fin 3)]
  rw [Fintype.linearIndependent_iff]
  intro g hg i
  have e : ∀ f : {x : Fin 3 // x ≠ 0} → Vec 2, ∑ i, f i = f ⟨1, by decide⟩ + f ⟨2, by decide⟩ := by
    intro f
    have : (Finset.univ : Finset {x : Fin 3 // x ≠ 0}) = {⟨1, by decide⟩, ⟨2, by decide⟩} := by decide
    rw [this, Finset.sum_pair (by decide)]
  rw [e] at hg
  have h0 := congrFun hg 0
  have h1 := congrFun hg 1
  simp [unitTri] at h0 h1
  obtain ⟨i, hi⟩ := i
  fin_cases i
  · exact absurd rfl hi
  · exact h0
  · exact h1

/-! ### C42 -/

/-- The coordinates sum to one, for every point. -/
theorem C42_sum_one (S : Simplex d N) (p : Vec N) : ∑ i, S.bary p i = 1 := by
  rw [Fin.sum_univ_succ]
  simp only [Simplex.bary_zero, Simplex.bary_succ]
  ring

/-- Uniqueness: any way of writing p with weights of sum one gives the returned coordinates. -/
theorem C42_unique {S : Simplex d N} (hS : S.Nondeg) (p : Vec N) (w : Fin (d + 1) → ℝ)
    (h1 : ∑ i, w i = 1) (hp : ∑ i, w i • S.coords i = p) : S.bary p = w := by
  have hw0 : w 0 = 1 - ∑ j : Fin d, w j.succ := by rw [Fin.sum_univ_succ] at h1; linarith
  have hz : S.invJ *ᵥ (p - S.coords 0) = fun j => w j.succ := by
    have : p - S.coords 0 = S.J *ᵥ (fun j => w j.succ) := by
      rw [Simplex.J_mulVec, ← hp, Fin.sum_univ_succ, hw0]
      simp only [smul_sub, Finset.sum_sub_distrib, sub_smul, one_smul, Finset.sum_smul]
      abel
    rw [this, Matrix.mulVec_mulVec, Simplex.invJ_mul_J hS, Matrix.one_mulVec]
  funext i
  refine Fin.cases ?_ (fun j => ?_) i
  · rw [Simplex.bary_zero, hz, hw0]
  · rw [Simplex.bary_succ, hz]

/-- Reconstruction for every point of the affine hull (any dimension of the ambient space). -/
theorem C42_reconstruct {S : Simplex d N} (hS : S.Nondeg) (p : Vec N)
    (hp : p ∈ affineSpan ℝ (Set.range S.coords)) : ∑ i, S.bary p i • S.coords i = p := by
  obtain ⟨w, hw, rfl⟩ := eq_affineCombination_of_mem_affineSpan_of_fintype hp
  have e : ∑ i, w i • S.coords i = Finset.univ.affineCombination ℝ S.coords w := by
    rw [Finset.affineCombination_eq_linear_combination _ _ _ hw]
  rw [C42_unique hS _ w hw e, e]

/-- In the full dimensional case every point is reconstructed. -/
theorem C42_reconstruct_full {S : Simplex N N} (hS : S.Nondeg) (p : Vec N) : ∑ i, S.bary p i • S.coords i = p := by
  rw [Simplex.bary_combo, Matrix.mulVec_mulVec, Simplex.J_mul_invJ hS, Matrix.one_mulVec]; abel

/-- The i-th vertex has coordinates e_i. -/
theorem C42_vertex {S : Simplex d N} (hS : S.Nondeg) (i : Fin (d + 1)) : S.bary (S.coords i) = Pi.single i 1 := by
  apply C42_unique hS
  · simp
  · rw [Finset.sum_eq_single i]
    · simp
    · intro j _ hj; simp [hj]
    · simp

/-- The barycenter has all coordinates equal. -/
theorem C42_barycenter {S : Simplex d N} (hS : S.Nondeg) (i : Fin (d + 1)) : S.bary S.barycenter i = 1 / (d + 1) := by
  have hd : ((d : ℝ) + 1) ≠ 0 := by positivity
  have := C42_unique hS S.barycenter (fun _ => 1 / ((d : ℝ) + 1)) (by simp; field_simp) (by
    rw [Simplex.barycenter, Simplex.J_mulVec, Fin.sum_univ_succ]
    simp only [smul_sub, Finset.sum_sub_distrib, Finset.sum_const, Finset.card_univ, Fintype.card_fin]
    have this : (1 / ((d : ℝ) + 1)) • S.coords 0 = S.coords 0 - d • (1 / ((d : ℝ) + 1)) • S.coords 0 := by
      ext k
      simp only [Pi.smul_apply, Pi.sub_apply, smul_eq_mul, nsmul_eq_mul]
      simp only [Pi.mul_apply, Pi.natCast_apply, Pi.smul_apply, smul_eq_mul]
      field_simp
      ring
    conv_lhs => rw [this]
    generalize (1 / ((d : ℝ) + 1)) • S.coords 0 = q at this ⊢
    generalize ∑ x : Fin d, (1 / ((d : ℝ) + 1)) • S.coords x.succ = r
    abel)
  rw [this]

/-- Off the affine hull (manifold case) the coordinates are those of the orthogonal projection of p. -/
theorem C42_projection {S : Simplex d N} (hS : S.Nondeg) (p : Vec N) (j : Fin d) :
    (p - ∑ i, S.bary p i • S.coords i) ⬝ᵥ (S.coords j.succ - S.coords 0) = 0 := by
  by_cases h : d = N
  · subst h; rw [C42_reconstruct_full hS]; simp
  · rw [Simplex.bary_combo]
    have key : S.Jᵀ *ᵥ (p - (S.coords 0 + S.J *ᵥ (S.invJ *ᵥ (p - S.coords 0)))) = 0 := by
      rw [← sub_sub, Matrix.mulVec_sub, Matrix.mulVec_mulVec, Matrix.mulVec_mulVec]
      have hu : IsUnit (S.Jᵀ * S.J).det := by
        have hi := Simplex.invJ_mul_J hS
        rw [Simplex.invJ, dif_neg h, Matrix.mul_assoc] at hi
        exact Matrix.isUnit_det_of_left_inverse hi
      have : S.Jᵀ * (S.J * S.invJ) = S.Jᵀ := by
        rw [Simplex.invJ, dif_neg h, ← Matrix.mul_assoc, ← Matrix.mul_assoc, Matrix.mul_nonsing_inv _ hu, Matrix.one_mul]
      rw [Matrix.mul_assoc, this, sub_self]
    have := congrFun key j
    rw [dotProduct_comm]
    exact this

example : unitTri.bary ![1/4, 1/4] = ![1/2, 1/4, 1/4] := by
  apply C42_unique unitTri_nondeg
  · simp [Fin.sum_univ_three]; norm_num
  · ext i; fin_cases i <;> simp [Fin.sum_univ_three, unitTri]

/-! ### C43 -/

theorem bary_nonneg_iff {S : Simplex d N} (hS : S.Nondeg) (p : Vec N) (hp : p ∈ affineSpan ℝ (Set.range S.coords)) :
    (∀ i, 0 ≤ S.bary p i) ↔ p ∈ convexHull ℝ (Set.range S.coords) := by
  rw [convexHull_range_eq_exists_affineCombination]
  constructor
  · intro h
    refine ⟨Finset.univ, S.bary p, fun i _ => h i, C42_sum_one S p, ?_⟩
    rw [Finset.affineCombination_eq_linear_combination _ _ _ (C42_sum_one S p), C42_reconstruct hS p hp]
  · rintro ⟨s, w, hw0, hw1, rfl⟩
    have := C42_unique hS (s.affineCombination ℝ S.coords w) (fun i => if i ∈ s then w i else 0) (by
      rw [← Finset.sum_filter]; simpa using hw1) (by
      rw [Finset.affineCombination_eq_linear_combination _ _ _ hw1]
      simp [ite_smul])
    intro i
    rw [this]
    by_cases hi : i ∈ s
    · simp [hi, hw0 i hi]
    · simp [hi]

/-- Zero tolerance, points of the affine hull: OUTSIDE iff not a convex combination of the vertices. -/
theorem containsB_outside {S : Simplex d N} (hS : S.Nondeg) (p : Vec N) (hp : p ∈ affineSpan ℝ (Set.range S.coords)) :
    S.containsB 0 p = .outside ↔ p ∉ convexHull ℝ (Set.range S.coords) := by
  rw [← bary_nonneg_iff hS p hp]
  unfold Simplex.containsB
  simp only [neg_zero, not_forall, not_le]
  by_cases h : ∃ i, S.bary p i < 0
  · simp [h]
  · rw [if_neg h]
    split_ifs <;> simp [h]

theorem mem_span_full {S : Simplex N N} (hS : S.Nondeg) (p : Vec N) : p ∈ affineSpan ℝ (Set.range S.coords) := by
  have h := C42_reconstruct_full hS p
  rw [← h, ← Finset.affineCombination_eq_linear_combination _ _ _ (C42_sum_one S p)]
  exact affineCombination_mem_affineSpan (C42_sum_one S p) _

/-- Full dimensional simplices, zero tolerance: OUTSIDE exactly off the convex hull of the vertices. -/
theorem C43_outside {S : Simplex N N} (hS : S.Nondeg) (p : Vec N) :
    S.contains 0 p = .outside ↔ p ∉ convexHull ℝ (Set.range S.coords) := by
  rw [← containsB_outside hS p (mem_span_full hS p)]
  simp [Simplex.contains]

theorem nonzeros_of_not_outside (eps : ℝ) (S : Simplex d N) (p : Vec N) (h : ¬ ∃ i, S.bary p i < -eps) (r : Loc) :
    S.containsB eps p = r ↔
      (if (Finset.univ.filter fun i => S.bary p i > eps).card = 1 then Loc.onVertex
        else if (Finset.univ.filter fun i => S.bary p i > eps).card = d then .onFace else .inside) = r := by
  unfold Simplex.containsB
  rw [if_neg h]

theorem containsB_vertex {S : Simplex d N} (hS : S.Nondeg) (p : Vec N) (hp : p ∈ affineSpan ℝ (Set.range S.coords)) :
    S.containsB 0 p = .onVertex ↔ ∃ i, p = S.coords i := by
  constructor
  · intro h
    have hn : ¬ ∃ i, S.bary p i < -0 := by
      intro hn; unfold Simplex.containsB at h; rw [if_pos hn] at h; exact absurd h (by decide)
    rw [nonzeros_of_not_outside _ _ _ hn] at h
    split_ifs at h with h1
    obtain ⟨i, hi⟩ := Finset.card_eq_one.1 h1
    refine ⟨i, ?_⟩
    have hz : ∀ j, j ≠ i → S.bary p j = 0 := by
      intro j hj
      have h2 : ¬ S.bary p j > 0 := by
        intro hg
        have : j ∈ Finset.univ.filter fun i => S.bary p i > 0 := by simpa using hg
        rw [hi] at this; exact hj (by simpa using this)
      push Not at hn
      exact le_antisymm (not_lt.1 h2) (by simpa using hn j)
    have hone : S.bary p i = 1 := by
      rw [← C42_sum_one S p]
      exact (Finset.sum_eq_single i (fun j _ hj => hz j hj) (by simp)).symm
    conv_lhs => rw [← C42_reconstruct hS p hp]
    rw [Finset.sum_eq_single i (fun j _ hj => by simp [hz j hj]) (by simp), hone, one_smul]
  · rintro ⟨i, rfl⟩
    have hb := C42_vertex hS i
    have hn : ¬ ∃ j, S.bary (S.coords i) j < -0 := by
      rintro ⟨j, hj⟩
      rw [hb] at hj
      by_cases e : j = i
      · subst e; simp at hj; linarith
      · simp [e] at hj
    rw [nonzeros_of_not_outside _ _ _ hn]
    have : (Finset.univ.filter fun j => S.bary (S.coords i) j > 0) = {i} := by
      ext j
      rw [hb]
      by_cases e : j = i
      · subst e; simp
      · simp [e]
    rw [this]; simp

/-- ON_VERTEX exactly at the vertices (zero tolerance, full dimensional case). -/
theorem C43_vertex {S : Simplex N N} (hS : S.Nondeg) (p : Vec N) :
    S.contains 0 p = .onVertex ↔ ∃ i, p = S.coords i := by
  have hc : S.contains 0 p = S.containsB 0 p := by simp [Simplex.contains]
  rw [hc]
  exact containsB_vertex hS p (mem_span_full hS p)

/-- INSIDE for points with all coordinates positive (the interior), at zero tolerance, from dimension two up (for a
segment see below). -/
theorem C43_interior {S : Simplex N N} (h2 : N ≠ 0) (p : Vec N) (hp : ∀ i, 0 < S.bary p i) :
    S.contains 0 p = .inside := by
  have hc : S.contains 0 p = S.containsB 0 p := by simp [Simplex.contains]
  rw [hc, nonzeros_of_not_outside _ _ _ (by rintro ⟨i, hi⟩; have := hp i; linarith)]
  have : (Finset.univ.filter fun j => S.bary p j > 0) = Finset.univ := by
    ext j; simp [hp j]
  rw [this]; simp [h2]

/-- The unit tetrahedron. -/
def unitTet : Simplex 3 3 := ⟨![![0, 0, 0], ![1, 0, 0], ![0, 1, 0], ![0, 0, 1]]⟩

theorem unitTet_nondeg : unitTet.Nondeg := by
  unfold Simplex.Nondeg
  rw [affineIndependent_iff_linearIndependent_vsub ℝ _ (0 : Fin 4)]
  rw [Fintype.linearIndependent_iff]
  intro g hg i
  have e : ∀ f : {x : Fin 4 // x ≠ 0} → Vec 3, ∑ i, f i = f ⟨1, by decide⟩ + f ⟨2, by decide⟩ + f ⟨3, by decide⟩ := by
    intro f
    have : (Finset.univ : Finset {x : Fin 4 // x ≠ 0}) = {⟨1, by decide⟩, ⟨2, by decide⟩, ⟨3, by decide⟩} := by decide
    rw [this, Finset.sum_insert (by decide), Finset.sum_pair (by decide), add_assoc]
  rw [e] at hg
  have h0 := congrFun hg 0
  have h1 := congrFun hg 1
  have h2 := congrFun hg 2
  simp [unitTet] at h0 h1 h2
  obtain ⟨i, hi⟩ := i
  fin_cases i
  · exact absurd rfl hi
  · exact h0
  · exact h1
  · exact h2

/-- `contains` answers INSIDE, documented as the interior, for the midpoint of an edge of a tetrahedron: ON_FACE is
reported only when exactly one barycentric coordinate vanishes. -/
theorem C43_bug_tet_edge : unitTet.contains 0 ![1/2, 0, 0] = .inside ∧
    unitTet.bary ![1/2, 0, 0] = ![1/2, 1/2, 0, 0] := by
  have hb : unitTet.bary ![1/2, 0, 0] = ![1/2, 1/2, 0, 0] := by
    apply C42_unique unitTet_nondeg
    · simp [Fin.sum_univ_four]; norm_num
    · ext i; fin_cases i <;> simp [Fin.sum_univ_four, unitTet]
  refine ⟨?_, hb⟩
  have hc : unitTet.contains 0 ![1/2, 0, 0] = unitTet.containsB 0 ![1/2, 0, 0] := by simp [Simplex.contains]
  rw [hc, nonzeros_of_not_outside]
  · have : (Finset.univ.filter fun j => unitTet.bary ![1/2, 0, 0] j > 0) = {0, 1} := by
      rw [hb]; ext j; fin_cases j <;> simp
    rw [this]
    have : ({0, 1} : Finset (Fin 4)).card = 2 := by decide
    rw [this]; simp
  · rw [hb]; rintro ⟨i, hi⟩; fin_cases i <;> norm_num at hi

example : unitTri.contains 0 ![1/4, 1/4] = .inside := by
  apply C43_interior (by decide)
  have : unitTri.bary ![1/4, 1/4] = ![1/2, 1/4, 1/4] := by
    apply C42_unique unitTri_nondeg
    · simp [Fin.sum_univ_three]; norm_num
    · ext i; fin_cases i <;> simp [Fin.sum_univ_three, unitTri]
  rw [this]; intro i; fin_cases i <;> norm_num

/-! ### C44 -/

/-- Segments, in any ambient space. -/
theorem C44_segment (S : Simplex 1 N) :
    sqNorm (S.circumcenterSeg - S.coords 1) = sqNorm (S.circumcenterSeg - S.coords 0) := by
  have : S.circumcenterSeg - S.coords 1 = -(S.circumcenterSeg - S.coords 0) := by
    ext i; simp [Simplex.circumcenterSeg]; ring
  rw [this, sqNorm, neg_dotProduct_neg]; rfl

theorem sqNorm_sub (a b : Vec N) : sqNorm (a - b) = sqNorm a - 2 * (a ⬝ᵥ b) + sqNorm b := by
  simp only [sqNorm, sub_dotProduct, dotProduct_sub, dotProduct_comm b a]; ring

/-- Full dimensional simplices of any dimension. -/
theorem C44_full {S : Simplex N N} (hS : S.Nondeg) (i : Fin (N + 1)) :
    sqNorm (S.circumcenterFull - S.coords i) = sqNorm (S.circumcenterFull - S.coords 0) := by
  refine Fin.cases rfl (fun j => ?_) i
  have hM : (Matrix.of fun i j => S.coords i.succ j - S.coords 0 j : Matrix (Fin N) (Fin N) ℝ) = S.Jᵀ := by
    ext; rfl
  have hu : IsUnit (S.Jᵀ).det := by
    rw [Matrix.det_transpose]; exact Matrix.isUnit_det_of_left_inverse (Simplex.invJ_mul_J hS)
  have h : S.Jᵀ *ᵥ S.circumcenterFull = (1 / 2 : ℝ) • fun i : Fin N => sqNorm (S.coords i.succ) - sqNorm (S.coords 0) := by
    simp only [Simplex.circumcenterFull]
    rw [hM, Matrix.smul_mulVec, Matrix.mulVec_smul, Matrix.mulVec_mulVec, Matrix.mul_nonsing_inv _ hu, Matrix.one_mulVec]
  have hj := congrFun h j
  have e : (S.Jᵀ *ᵥ S.circumcenterFull) j = S.circumcenterFull ⬝ᵥ S.coords j.succ - S.circumcenterFull ⬝ᵥ S.coords 0 := by
    rw [← dotProduct_sub, dotProduct_comm]; rfl
  rw [e] at hj
  simp only [Pi.smul_apply, smul_eq_mul] at hj
  rw [sqNorm_sub, sqNorm_sub]
  linarith

/-- Triangles in space: equidistant, and in the plane of the triangle. -/
theorem C44_triangle (S : Simplex 2 3) (hnd : (S.coords 1 - S.coords 0) ⨯₃ (S.coords 2 - S.coords 0) ≠ 0) (i : Fin 3) :
    sqNorm (S.circumcenterTri - S.coords i) = sqNorm (S.circumcenterTri - S.coords 0) ∧
    (S.circumcenterTri - S.coords 0) ⬝ᵥ ((S.coords 1 - S.coords 0) ⨯₃ (S.coords 2 - S.coords 0)) = 0 := by
  have hD : sqNorm ((S.coords 1 - S.coords 0) ⨯₃ (S.coords 2 - S.coords 0)) ≠ 0 := fun h => hnd (sqNorm_eq_zero.1 h)
  set a := S.coords 1 - S.coords 0 with ha
  set b := S.coords 2 - S.coords 0 with hb
  set u := S.circumcenterTri - S.coords 0 with hu
  have hue : u = (2 * sqNorm (a ⨯₃ b))⁻¹ • (sqNorm b • ((a ⨯₃ b) ⨯₃ a) + sqNorm a • (b ⨯₃ (a ⨯₃ b))) := by
    rw [hu, Simplex.circumcenterTri]; simp only [← ha, ← hb]; abel
  have hua : u ⬝ᵥ a = sqNorm a / 2 := by
    rw [hue, smul_dotProduct, smul_eq_mul, inv_mul_eq_div, div_eq_div_iff (by simpa using hD) two_ne_zero]
    simp [sqNorm, cross_apply, dotProduct, Fin.sum_univ_three]
    ring
  have hub : u ⬝ᵥ b = sqNorm b / 2 := by
    rw [hue, smul_dotProduct, smul_eq_mul, inv_mul_eq_div, div_eq_div_iff (by simpa using hD) two_ne_zero]
    simp [sqNorm, cross_apply, dotProduct, Fin.sum_univ_three]
    ring
  refine ⟨?_, ?_⟩
  · fin_cases i
    · rfl
    · have : S.circumcenterTri - S.coords 1 = u - a := by rw [hu, ha]; abel
      show sqNorm (S.circumcenterTri - S.coords 1) = sqNorm u
      rw [this, sqNorm_sub, hua]; ring
    · have : S.circumcenterTri - S.coords 2 = u - b := by rw [hu, hb]; abel
      show sqNorm (S.circumcenterTri - S.coords 2) = sqNorm u
      rw [this, sqNorm_sub, hub]; ring
  · rw [hue]
    simp [cross_apply, dotProduct, Fin.sum_univ_three]
    ring

example : ∃ S : Simplex 2 3, (S.coords 1 - S.coords 0) ⨯₃ (S.coords 2 - S.coords 0) ≠ 0 := by
  refine ⟨⟨![![0, 0, 0], ![1, 0, 0], ![0, 1, 0]]⟩, fun h => ?_⟩
  have := congrFun h 2
  simp [cross_apply] at this

end Fdapde.Geometry
