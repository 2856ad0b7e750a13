import Verif.Geometry.PropsPlane
import Mathlib.Data.Fin.Tuple.Sort
/- C45: nearest point of a simplex. -/
namespace Fdapde.Geometry
open Matrix
variable {d N : Nat}

/-- Whatever the input, the result is the query point itself or a vertex of the simplex. -/
theorem C45_point_or_vertex_partial (eps : ℝ) (srt : (n : Nat) → (Fin n → ℝ) → Equiv.Perm (Fin n)) :
    ∀ {d : Nat} (S : Simplex d N) (p : Vec N), S.nearest eps srt p = p ∨ ∃ i, S.nearest eps srt p = S.coords i
  | 0, S, p => Or.inr ⟨0, rfl⟩
  | 1, S, p => by
    simp only [Simplex.nearest]
    split_ifs
    · left; trivial
    · right; exact ⟨1, rfl⟩
    · right; exact ⟨0, rfl⟩
  | d + 2, S, p => by
    rw [Simplex.nearest]
    split_ifs
    · left; trivial
    · dsimp only
      rcases C45_point_or_vertex_partial eps srt
        (⟨fun i => S.coords ((srt (d + 3) fun i => norm (S.coords i - p)) i.castSucc)⟩ : Simplex (d + 1) N) p with h | ⟨i, h⟩
      · left; exact h
      · right; exact ⟨_, h⟩

theorem nearest_of_inside {eps : ℝ} {srt : (n : Nat) → (Fin n → ℝ) → Equiv.Perm (Fin n)} {S : Simplex d N} {p : Vec N}
    (hd : 0 < d) (h : S.nearInside eps p) : S.nearest eps srt p = p := by
  match d, S with
  | 1, S => simp only [Simplex.nearest, if_pos h]
  | d + 2, S => rw [Simplex.nearest, if_pos h]

/-- Points of a full dimensional simplex are their own nearest point (any positive tolerance). -/
theorem C45_inside_partial {S : Simplex N N} (hS : S.Nondeg) (hN : 0 < N) (eps : ℝ) (he : 0 < eps)
    (srt : (n : Nat) → (Fin n → ℝ) → Equiv.Perm (Fin n)) (p : Vec N) (hp : p ∈ convexHull ℝ (Set.range S.coords)) :
    S.nearest eps srt p = p := by
  apply nearest_of_inside hN
  have hb := (bary_nonneg_iff hS p (mem_span_full hS p)).2 hp
  exact ⟨fun i => by have := hb i; linarith, fun h => absurd rfl h⟩

/-- The same for triangles in space. -/
theorem C45_inside_tri3_partial {S : Simplex 2 3} (hS : S.Nondeg) (eps : ℝ) (he : 0 < eps)
    (srt : (n : Nat) → (Fin n → ℝ) → Equiv.Perm (Fin n)) (p : Vec 3) (hp : p ∈ convexHull ℝ (Set.range S.coords)) :
    S.nearest eps srt p = p := by
  apply nearest_of_inside (by decide)
  have hsp := convexHull_subset_affineSpan _ hp
  have hb := (bary_nonneg_iff hS p hsp).2 hp
  refine ⟨fun i => by have := hb i; linarith, fun _ => ?_⟩
  have : S.planeDist p = 0 := ((C46_plane3 S hS).zero p).2 hsp
  rw [this]; exact he

/-- On the line (segments of an interval mesh) the result is right: no point of the segment is nearer, and the result is in
the segment or is the query point, whose barycentric coordinates then exceed minus the tolerance. -/
theorem C45_interval {S : Simplex 1 1} (hS : S.Nondeg) (eps : ℝ) (he : 0 < eps)
    (srt : (n : Nat) → (Fin n → ℝ) → Equiv.Perm (Fin n)) (p : Vec 1) :
    (∀ y ∈ convexHull ℝ (Set.range S.coords), norm (p - S.nearest eps srt p) ≤ norm (p - y)) ∧
    (S.nearest eps srt p ∈ convexHull ℝ (Set.range S.coords) ∨ (S.nearest eps srt p = p ∧ ∀ i, S.bary p i > -eps)) := by
  by_cases h : S.nearInside eps p
  · rw [nearest_of_inside (by decide) h]
    refine ⟨fun y _ => ?_, Or.inr ⟨rfl, h.1⟩⟩
    rw [sub_self]
    have : norm (0 : Vec 1) = 0 := norm_eq_zero.2 rfl
    rw [this]; exact norm_nonneg _
  · have hrec := C42_reconstruct_full hS p
    have hsum := C42_sum_one S p
    rw [Fin.sum_univ_two] at hrec hsum
    have hneg : S.bary p 0 ≤ -eps ∨ S.bary p 1 ≤ -eps := by
      by_contra hc
      push Not at hc
      exact h ⟨fun i => by fin_cases i; exacts [hc.1, hc.2], fun h => absurd rfl h⟩
    have hmem : ∀ i, S.coords i ∈ convexHull ℝ (Set.range S.coords) := fun i => subset_convexHull ℝ _ ⟨i, rfl⟩
    have hcomp : ∀ v : Vec 1, sqNorm v = v 0 * v 0 := by intro v; simp [sqNorm, dotProduct]
    set a := S.bary p 0
    set b := S.bary p 1
    have key : ∀ (i : Fin 2), (if i = 0 then b ≤ -eps else a ≤ -eps) →
        ∀ y ∈ convexHull ℝ (Set.range S.coords), norm (p - S.coords i) ≤ norm (p - y) := by
      intro i hi y hy
      have hby := (bary_nonneg_iff hS y (mem_span_full hS y)).2 hy
      have hry := C42_reconstruct_full hS y
      have hsy := C42_sum_one S y
      rw [Fin.sum_univ_two] at hry hsy
      apply Real.sqrt_le_sqrt
      rw [hcomp, hcomp]
      have e1 := congrFun hrec 0
      have e2 := congrFun hry 0
      simp only [Pi.add_apply, Pi.smul_apply, smul_eq_mul] at e1 e2
      simp only [Pi.sub_apply]
      have h0 := hby 0
      have h1 := hby 1
      set y0 := S.bary y 0
      set y1 := S.bary y 1
      have ha : a = 1 - b := by linarith
      have hy0 : y0 = 1 - y1 := by linarith
      rw [← e1, ← e2, ha, hy0]
      set u := S.coords 0 0
      set v := S.coords 1 0
      fin_cases i
      · simp only [Fin.zero_eta, if_true] at hi
        have : (1 - b) * u + b * v - S.coords 0 0 = b * (v - u) := by ring
        have t : (1 - b) * u + b * v - ((1 - y1) * u + y1 * v) = (b - y1) * (v - u) := by ring
        show ((1 - b) * u + b * v - S.coords 0 0) * ((1 - b) * u + b * v - S.coords 0 0) ≤ _
        rw [this, t]
        have : b * b ≤ (b - y1) * (b - y1) := by nlinarith
        nlinarith [mul_self_nonneg (v - u)]
      · have hi' : a ≤ -eps := hi
        have hb1 : 1 - b ≤ -eps := by linarith
        have : (1 - b) * u + b * v - S.coords 1 0 = (1 - b) * (u - v) := by ring
        have t : (1 - b) * u + b * v - ((1 - y1) * u + y1 * v) = ((1 - b) - (1 - y1)) * (u - v) := by ring
        show ((1 - b) * u + b * v - S.coords 1 0) * ((1 - b) * u + b * v - S.coords 1 0) ≤ _
        rw [this, t]
        have : (1 - b) * (1 - b) ≤ ((1 - b) - (1 - y1)) * ((1 - b) - (1 - y1)) := by nlinarith
        nlinarith [mul_self_nonneg (u - v)]
    simp only [Simplex.nearest, if_neg h]
    split_ifs with h0
    · refine ⟨key 1 ?_, Or.inl (hmem 1)⟩
      simp only [one_ne_zero, if_false]
      rcases hneg with h1 | h1
      · exact h1
      · exfalso; have : a < 0 := h0; linarith
    · refine ⟨key 0 ?_, Or.inl (hmem 0)⟩
      simp only [if_true]
      rcases hneg with h1 | h1
      · exfalso; exact h0 (by show a < 0; linarith)
      · exact h1

/-- `nearest` on the unit triangle at (1/2, -1): for no tolerance and no tie-breaking is the result a nearest point of the
triangle.  The recursion keeps the two vertices nearest to p and ends on a segment in the plane, where it returns one of
its end points although the projection (1/2, 0) falls inside. -/
theorem C45_bug_not_nearest (eps : ℝ) (srt : (n : Nat) → (Fin n → ℝ) → Equiv.Perm (Fin n)) :
    ¬ (unitTri.nearest eps srt ![1/2, -1] ∈ convexHull ℝ (Set.range unitTri.coords) ∧
       ∀ y ∈ convexHull ℝ (Set.range unitTri.coords),
         norm (![1/2, -1] - unitTri.nearest eps srt ![1/2, -1]) ≤ norm (![1/2, -1] - y)) := by
  rintro ⟨hmem, hmin⟩
  have hb : unitTri.bary ![1/2, -1] = ![3/2, 1/2, -1] := by
    apply C42_unique unitTri_nondeg
    · simp [Fin.sum_univ_three]; norm_num
    · ext i; fin_cases i <;> simp [Fin.sum_univ_three, unitTri]
  have hmid : (![1/2, 0] : Vec 2) ∈ convexHull ℝ (Set.range unitTri.coords) := by
    rw [← bary_nonneg_iff unitTri_nondeg _ (mem_span_full unitTri_nondeg _)]
    have : unitTri.bary ![1/2, 0] = ![1/2, 1/2, 0] := by
      apply C42_unique unitTri_nondeg
      · simp [Fin.sum_univ_three]; norm_num
      · ext i; fin_cases i <;> simp [Fin.sum_univ_three, unitTri]
    rw [this]; intro i; fin_cases i <;> simp
  rcases C45_point_or_vertex_partial eps srt unitTri ![1/2, -1] with h | ⟨i, h⟩
  · rw [h] at hmem
    have := (bary_nonneg_iff unitTri_nondeg _ (mem_span_full unitTri_nondeg _)).2 hmem 2
    rw [hb] at this
    simp at this; linarith
  · have := hmin _ hmid
    rw [h] at this
    rw [norm, norm, Real.sqrt_le_sqrt_iff (sqNorm_nonneg _)] at this
    fin_cases i <;> simp [unitTri, sqNorm, dotProduct, Fin.sum_univ_two] at this <;> norm_num at this

/-- The coordinate that a segment in the plane or in space computes: projection on the segment over its length. -/
theorem bary_segment (S : Simplex 1 N) (hN : 1 ≠ N) (p : Vec N) :
    S.bary p 0 = 1 - (sqNorm (S.coords 1 - S.coords 0))⁻¹ * ((S.coords 1 - S.coords 0) ⬝ᵥ (p - S.coords 0)) := by
  have h1 : S.Jᵀ * S.J = Matrix.of fun _ _ => sqNorm (S.coords 1 - S.coords 0) := by
    ext i j
    fin_cases i; fin_cases j
    simp [Matrix.mul_apply, Simplex.J, sqNorm, dotProduct]
  simp only [Simplex.bary, Fin.cons_zero, Fin.sum_univ_one, Simplex.invJ, dif_neg hN, h1]
  rw [← Matrix.mulVec_mulVec, Matrix.inv_subsingleton]
  simp [Matrix.mulVec, dotProduct, Simplex.J, Matrix.diagonal]

/-- A segment whose first end point is not farther than the second never returns the second. -/
theorem nearest_segment (eps : ℝ) (srt : (n : Nat) → (Fin n → ℝ) → Equiv.Perm (Fin n)) (S : Simplex 1 N) (hN : 1 ≠ N) (p : Vec N)
    (h : norm (S.coords 0 - p) ≤ norm (S.coords 1 - p)) : S.nearest eps srt p = p ∨ S.nearest eps srt p = S.coords 0 := by
  simp only [Simplex.nearest]
  split_ifs with h1 h2
  · exact Or.inl rfl
  · exfalso
    rw [bary_segment S hN] at h2
    rw [norm, norm, Real.sqrt_le_sqrt_iff (sqNorm_nonneg _)] at h
    set e := S.coords 1 - S.coords 0 with he
    set w := p - S.coords 0 with hw
    have e0 : S.coords 0 - p = -w := by rw [hw]; simp
    have e1 : S.coords 1 - p = e - w := by rw [hw, he]; simp
    rw [e0, e1] at h
    have h3 : 2 * (e ⬝ᵥ w) ≤ sqNorm e := by
      simp only [sqNorm, neg_dotProduct, dotProduct_neg, sub_dotProduct, dotProduct_sub, neg_neg] at h ⊢
      rw [dotProduct_comm w e] at h
      linarith
    rcases eq_or_lt_of_le (sqNorm_nonneg e) with h4 | h4
    · rw [← h4] at h2
      simp at h2
      linarith
    · have : (sqNorm e)⁻¹ * (e ⬝ᵥ w) ≤ 1 / 2 := by
        rw [inv_mul_le_iff₀ h4]; linarith
      linarith
  · exact Or.inr rfl

/-- What triangles and tetrahedra return when `std::sort` sorts: the query point or a vertex that no other vertex is nearer than.  Missing: the points of
the faces that are nearer than all vertices, see `C45_bug_not_nearest`. -/
theorem C45_nearest_vertex_partial (eps : ℝ) (srt : (n : Nat) → (Fin n → ℝ) → Equiv.Perm (Fin n)) (hs : ∀ n (key : Fin n → ℝ), Monotone fun i => key (srt n key i))
    (hN : 1 ≠ N) (p : Vec N) : ∀ {d : Nat} (S : Simplex (d + 2) N), S.nearest eps srt p = p ∨
      ∃ i, S.nearest eps srt p = S.coords i ∧ ∀ j, norm (S.coords i - p) ≤ norm (S.coords j - p)
  | 0, S => by
    rw [Simplex.nearest]
    split_ifs
    · exact Or.inl rfl
    · have hm := hs 3 fun i => norm (S.coords i - p)
      rcases nearest_segment eps srt (⟨fun i => S.coords ((srt 3 fun i => norm (S.coords i - p)) i.castSucc)⟩ : Simplex 1 N) hN p (hm (by decide)) with h | h
      · exact Or.inl h
      · refine Or.inr ⟨_, h, fun j => ?_⟩
        have := hm (Fin.zero_le ((srt 3 fun i => norm (S.coords i - p)).symm j))
        simpa using this
  | d + 1, S => by
    rw [Simplex.nearest]
    split_ifs
    · exact Or.inl rfl
    · have hm := hs (d + 4) fun i => norm (S.coords i - p)
      rcases C45_nearest_vertex_partial eps srt hs hN p
          (⟨fun i => S.coords ((srt (d + 4) fun i => norm (S.coords i - p)) i.castSucc)⟩ : Simplex (d + 2) N) with h | ⟨i, h, hi⟩
      · exact Or.inl h
      · refine Or.inr ⟨_, h, fun j => (hi 0).trans ?_⟩
        have := hm (Fin.zero_le ((srt (d + 4) fun i => norm (S.coords i - p)).symm j))
        simpa using this

/-- A permutation that sorts exists for all keys. -/
theorem sorts_exist : ∃ srt : (n : Nat) → (Fin n → ℝ) → Equiv.Perm (Fin n), ∀ n (key : Fin n → ℝ), Monotone fun i => key (srt n key i) :=
  ⟨fun _ key => Tuple.sort key, fun _ key => Tuple.monotone_sort key⟩

/-- The unit triangle at (2, -1), outside of the triangle and nearest to the vertex (1, 0). -/
example : ∃ srt : (n : Nat) → (Fin n → ℝ) → Equiv.Perm (Fin n), unitTri.nearest 0 srt ![2, -1] = ![2, -1] ∨
    ∃ i, unitTri.nearest 0 srt ![2, -1] = unitTri.coords i ∧ ∀ j, norm (unitTri.coords i - ![2, -1]) ≤ norm (unitTri.coords j - ![2, -1]) := by
  obtain ⟨srt, hs⟩ := sorts_exist
  exact ⟨srt, C45_nearest_vertex_partial 0 srt hs (by decide) _ unitTri⟩

/-- `nearest` of a segment in the plane may return the end point that is farther: from (9/10, 1) the segment from (0, 0) to (1, 0) answers (0, 0) for all
tolerances below 1, although (1, 0) is nearer (and (9/10, 0) is the nearest point). -/
theorem C45_bug_far_end (eps : ℝ) (h1 : eps < 1) (srt : (n : Nat) → (Fin n → ℝ) → Equiv.Perm (Fin n)) (S : Simplex 1 2)
    (hS : S.coords = ![![0, 0], ![1, 0]]) : S.nearest eps srt ![9 / 10, 1] = S.coords 0 ∧
      norm (S.coords 1 - ![9 / 10, 1]) < norm (S.coords 0 - ![9 / 10, 1]) := by
  have hb : S.bary ![9 / 10, 1] 0 = 1 / 10 := by
    rw [bary_segment S (by decide), hS]
    simp [sqNorm, dotProduct, Fin.sum_univ_two]
    norm_num
  constructor
  · simp only [Simplex.nearest]
    rw [if_neg, if_neg (by rw [hb]; norm_num)]
    rintro ⟨-, h⟩
    refine absurd (h (by decide)) (not_lt.2 (h1.le.trans (le_of_eq ?_)))
    have hn : norm (![1, 0] : Vec 2) = 1 := by simp [norm, sqNorm, dotProduct, Fin.sum_univ_two]
    simp only [Simplex.planeDist, HyperPlane.distance, HyperPlane.project, line2, hS]
    simp [normalized, hn, norm, sqNorm, dotProduct, Fin.sum_univ_two]
  · rw [hS]
    refine Real.sqrt_lt_sqrt (sqNorm_nonneg _) ?_
    simp [sqNorm, dotProduct, Fin.sum_univ_two]
    norm_num

end Fdapde.Geometry
