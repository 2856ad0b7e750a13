import Verif.Triang.Handles
import Verif.Triang.PropsEdges3
import Verif.Combinatorics.Lemmas
import Verif.Geometry.PropsMeasure
import Mathlib.Analysis.Convex.Combination
import Mathlib.Analysis.Convex.Topology
/-
C125: edges and faces of cells as simplices.
-/
namespace Fdapde.Triang
open Geometry Combinatorics Matrix
variable {d N : Nat}

/-! ### Specification -/

/-- The face of a simplex opposite to its vertex `v`: the other vertices, in their order. -/
def opposed (S : Simplex (d + 1) N) (v : Fin (d + 2)) : Simplex d N := ⟨fun h => S.coords (v.succAbove h)⟩

/-- The set of points of a simplex. -/
def pts (S : Simplex d N) : Set (Vec N) := convexHull ℝ (Set.range S.coords)

/-! ### Boundary of a simplex -/

theorem prevPerm_cons (x : Bool) {xs ys : List Bool} (h : prevPerm xs = some ys) : prevPerm (x :: xs) = some (x :: ys) := by
  simp [prevPerm, h]

theorem prevPerm_prefix (a : Nat) {xs ys : List Bool} (h : prevPerm xs = some ys) :
    prevPerm (List.replicate a true ++ xs) = some (List.replicate a true ++ ys) := by
  induction a with
  | zero => simpa using h
  | succ a ih =>
    rw [List.replicate_succ, List.cons_append, List.cons_append]
    exact prevPerm_cons _ ih

theorem prevPerm_step (a b : Nat) : prevPerm (List.replicate (a + 1) true ++ false :: List.replicate b true) =
    some (List.replicate a true ++ false :: List.replicate (b + 1) true) := by
  have h := prevPerm_jump 0 b
  have e : List.replicate (a + 1) true ++ false :: List.replicate b true =
      List.replicate a true ++ (true :: (List.replicate (0 + 1) false ++ List.replicate b true)) := by
    rw [List.replicate_succ', List.append_assoc]
    rfl
  rw [e]
  refine prevPerm_prefix a ?_
  rw [h]
  simp [List.replicate_succ]

theorem permute_first (n i : Nat) (hi : i ≤ n) (b : Nat) : permute i (List.replicate n true ++ false :: List.replicate b true) =
    List.replicate (n - i) true ++ false :: List.replicate (b + i) true := by
  induction i generalizing n b with
  | zero => rfl
  | succ i ih =>
    obtain ⟨m, rfl⟩ : ∃ m, n = m + 1 := ⟨n - 1, by omega⟩
    rw [permute, prevPerm_step, Option.getD_some, ih m (by omega)]
    rw [show m + 1 - (i + 1) = m - i by omega, show b + 1 + i = b + (i + 1) by omega]

theorem rowOf_trues (s n : Nat) (l : List Bool) : rowOf s (List.replicate n true ++ l) = List.range' s n ++ rowOf (s + n) l := by
  induction n generalizing s with
  | zero => simp
  | succ n ih =>
    rw [List.replicate_succ, List.cons_append, rowOf, if_pos rfl, ih, List.range'_succ, show s + 1 + n = s + (n + 1) by omega]
    rfl

theorem boundaryCell_eq (S : Simplex (d + 1) N) (i : Nat) (hi : i < d + 2) :
    boundaryCell S i = .ok (opposed S ⟨d + 1 - i, by omega⟩) := by
  have hl : rowOf 0 (permute i (List.replicate (d + 1) true ++ [false])) = List.range' 0 (d + 1 - i) ++ List.range' (d + 1 - i + 1) i := by
    have := permute_first (d + 1) i (by omega) 0
    rw [List.replicate_zero, Nat.zero_add] at this
    rw [this, rowOf_trues, Nat.zero_add, rowOf, if_neg (by simp)]
    have := rowOf_trues (d + 1 - i + 1) i []
    rw [List.append_nil, rowOf, List.append_nil] at this
    rw [this]
  unfold boundaryCell
  simp only [hl]
  rw [if_pos (by simp; omega)]
  congr 2
  funext h
  congr 1
  apply Fin.ext
  have hh := h.2
  by_cases c : (h : Nat) < d + 1 - i
  · rw [Fin.succAbove_of_castSucc_lt _ _ (by simpa [Fin.lt_def] using c), List.getD_eq_getElem?_getD, List.getElem?_eq_getElem (by simp; omega), Option.getD_some,
      List.getElem_append_left (by simpa using c)]
    simp
  · rw [Fin.succAbove_of_le_castSucc _ _ (by simp [Fin.le_def]; omega), List.getD_eq_getElem?_getD, List.getElem?_eq_getElem (by simp; omega), Option.getD_some,
      List.getElem_append_right (by simp; omega)]
    simp
    rw [Nat.mod_eq_of_lt (by omega)]
    omega

theorem foldRes_map_ok {α β : Type} (f : α → Res β) (g : α → β) (l : List α) (hf : ∀ a ∈ l, f a = .ok (g a)) (acc : List β) :
    foldRes (fun acc a => (fun b => acc ++ [b]) <$> f a) acc l = .ok (acc ++ l.map g) := by
  induction l generalizing acc with
  | nil => simp
  | cons x l ih =>
    rw [foldRes_cons, hf x (by simp)]
    show foldRes _ (acc ++ [g x]) l = _
    rw [ih fun a ha => hf a (by simp [ha])]
    simp

/-- **C125 (boundary of a simplex).** The traversal from `boundary_begin()` to `boundary_end()` yields the faces opposite to the last, ..., the first vertex,
each with the remaining vertices in their order. -/
theorem C125_boundary (S : Simplex (d + 1) N) :
    boundary S = .ok ((List.finRange (d + 2)).map fun i => opposed S i.rev) := by
  unfold boundary
  rw [foldRes_map_ok (boundaryCell S) (fun i => opposed S (Fin.rev (Fin.ofNat (d + 2) i)))]
  · rw [List.nil_append, List.finRange_eq_pmap_range] 
    congr 1
    rw [List.map_pmap]
    apply List.ext_getElem
    · simp
    · intro i h1 h2
      simp at h1
      simp
      congr 2
      apply Fin.ext
      simp
      omega
  · intro i hi
    have hi := List.mem_range.1 hi
    rw [boundaryCell_eq S i hi]
    congr 2
    apply Fin.ext
    simp [Fin.rev, Nat.mod_eq_of_lt hi]

theorem opposed_nondeg {S : Simplex (d + 1) N} (hS : S.Nondeg) (v : Fin (d + 2)) : (opposed S v).Nondeg :=
  hS.comp_embedding (Fin.succAboveEmb v)

/-- A point of the simplex is on the face opposite to `v` if its weight at `v` is zero. -/
theorem mem_opposed {S : Simplex (d + 1) N} (hS : S.Nondeg) (v : Fin (d + 2)) (p : Vec N) :
    p ∈ pts (opposed S v) ↔ p ∈ pts S ∧ S.bary p v = 0 := by
  constructor
  · intro hp
    have hsub : p ∈ pts S := convexHull_mono (by rintro _ ⟨h, rfl⟩; exact ⟨_, rfl⟩) hp
    refine ⟨hsub, ?_⟩
    have h1 := C42_sum_one (opposed S v) p
    have h2 := C42_reconstruct (opposed_nondeg hS v) p (convexHull_subset_affineSpan _ hp)
    generalize (opposed S v).bary p = w at h1 h2
    have := C42_unique hS p (v.insertNth (α := fun _ => ℝ) 0 w) (by rw [Fin.sum_univ_succAbove _ v]; simpa using h1)
      (by rw [Fin.sum_univ_succAbove _ v]; simpa [opposed] using h2)
    rw [this]
    simp
  · rintro ⟨hp, h0⟩
    have hs := C42_reconstruct hS p (convexHull_subset_affineSpan _ hp)
    have hnn := (bary_nonneg_iff hS p (convexHull_subset_affineSpan _ hp)).2 hp
    have h1 := C42_sum_one S p
    rw [Fin.sum_univ_succAbove _ v, h0, zero_add] at h1
    rw [Fin.sum_univ_succAbove _ v, h0, zero_smul, zero_add] at hs
    rw [← hs]
    exact (convex_convexHull ℝ _).sum_mem (fun h _ => hnn _) h1 fun h _ => subset_convexHull ℝ _ ⟨h, rfl⟩

theorem continuous_bary (S : Simplex d N) (i : Fin (d + 1)) : Continuous fun p => S.bary p i := by
  have hz : ∀ j, Continuous fun p : Vec N => (S.invJ *ᵥ (p - S.coords 0)) j := by
    intro j
    unfold Matrix.mulVec dotProduct
    fun_prop
  refine Fin.cases ?_ (fun j => ?_) i
  · exact continuous_const.sub (continuous_finsetSum _ fun j _ => hz j)
  · exact hz j

/-- Points with positive weights are inside. -/
theorem interior_pts {S : Simplex N N} (hS : S.Nondeg) (p : Vec N) : p ∈ interior (pts S) ↔ ∀ i, 0 < S.bary p i := by
  constructor
  · intro hp i
    by_contra hc
    have hmem := interior_subset hp
    have hnn := (bary_nonneg_iff hS p (mem_span_full hS p)).2 hmem
    have h0 : S.bary p i = 0 := le_antisymm (not_lt.1 hc) (hnn i)
    -- move away from vertex i
    have hpath : Continuous fun t : ℝ => p + t • (p - S.coords i) := by fun_prop
    have hev : ∀ᶠ t in nhds (0 : ℝ), p + t • (p - S.coords i) ∈ interior (pts S) := by
      refine hpath.continuousAt.eventually (isOpen_interior.mem_nhds ?_)
      simpa using hp
    obtain ⟨e, he, hball⟩ := Metric.eventually_nhds_iff.1 hev
    have hq := interior_subset (hball (y := e / 2) (by rw [Real.dist_eq, sub_zero, abs_of_pos (by linarith)]; linarith))
    have hq' := (bary_nonneg_iff hS _ (mem_span_full hS _)).2 hq i
    have hs := C42_reconstruct_full hS p
    have hu := C42_unique hS (p + (e / 2) • (p - S.coords i)) (fun j => (1 + e / 2) * S.bary p j - e / 2 * (Pi.single i (1 : ℝ) : Fin (N + 1) → ℝ) j)
      (by rw [Finset.sum_sub_distrib, ← Finset.mul_sum, ← Finset.mul_sum, C42_sum_one]; simp)
      (by
        simp only [sub_smul, mul_smul, Finset.sum_sub_distrib, ← Finset.smul_sum, hs]
        rw [Finset.sum_eq_single i (fun j _ hj => by simp [hj]) (by simp)]
        simp only [Pi.single_eq_same, one_smul]
        module)
    rw [hu] at hq'
    simp only [h0, Pi.single_eq_same] at hq'
    linarith
  · intro hp
    have hopen : IsOpen {q : Vec N | ∀ i, 0 < S.bary q i} := by
      have : {q : Vec N | ∀ i, 0 < S.bary q i} = ⋂ i, {q | 0 < S.bary q i} := by
        ext q
        simp
      rw [this]
      exact isOpen_iInter_of_finite fun i => isOpen_lt continuous_const (continuous_bary S i)
    refine interior_maximal ?_ hopen hp
    intro q hq
    exact (bary_nonneg_iff hS q (mem_span_full hS q)).1 fun i => (hq i).le

/-- **C125 (frontier).** The boundary cells of a proper simplex of full dimension are proper simplices and their union is its topological boundary. -/
theorem C125_frontier {S : Simplex (d + 1) (d + 1)} (hS : S.Nondeg) :
    ∃ l, boundary S = .ok l ∧ l.length = d + 2 ∧ (∀ F ∈ l, F.Nondeg) ∧ frontier (pts S) = ⋃ F ∈ l, pts F := by
  refine ⟨_, C125_boundary S, by simp, ?_, ?_⟩
  · intro F hF
    obtain ⟨i, _, rfl⟩ := List.mem_map.1 hF
    exact opposed_nondeg hS _
  · have hcl : IsClosed (pts S) := Set.Finite.isClosed_convexHull ℝ (Set.finite_range S.coords)
    rw [frontier, hcl.closure_eq]
    ext p
    rw [Set.mem_sdiff, interior_pts hS]
    simp only [Set.mem_iUnion, List.mem_map, List.mem_finRange, true_and]
    constructor
    · rintro ⟨hp, hn⟩
      push Not at hn
      obtain ⟨i, hi⟩ := hn
      have hnn := (bary_nonneg_iff hS p (mem_span_full hS p)).2 hp
      exact ⟨_, ⟨i.rev, rfl⟩, by rw [Fin.rev_rev, mem_opposed hS]; exact ⟨hp, le_antisymm hi (hnn i)⟩⟩
    · rintro ⟨_, ⟨i, rfl⟩, hp⟩
      obtain ⟨h1, h2⟩ := (mem_opposed hS _ _).1 hp
      exact ⟨h1, fun h => by have := h i.rev; linarith⟩

/-! ### Facets of cells -/

theorem facet_length {cells : Nat → Nat → Nat} {nn c v : Nat} {k : Key} (hd : ∀ v < nn, ∀ w < nn, cells c v = cells c w → v = w)
    (hv : v < nn) (hf : IsFacet cells nn c v k) : k.length + 1 = nn := by
  have h1 : k.toFinset = ((Finset.range nn).erase v).image (cells c) := by
    ext x
    rw [List.mem_toFinset, hf.2]
    simp only [Finset.mem_image, Finset.mem_erase, Finset.mem_range]
    exact ⟨fun ⟨w, a, b, e⟩ => ⟨w, ⟨b, a⟩, e⟩, fun ⟨w, ⟨b, a⟩, e⟩ => ⟨w, a, b, e⟩⟩
  have h2 : k.Nodup := hf.1.imp fun h => Nat.ne_of_lt h
  have h3 := List.toFinset_card_of_nodup h2
  rw [h1, Finset.card_image_of_injOn, Finset.card_erase_of_mem (Finset.mem_range.2 hv), Finset.card_range] at h3
  · omega
  · intro a ha b hb e
    simp only [Finset.coe_erase, Set.mem_diff, Finset.mem_coe, Finset.mem_range] at ha hb
    exact hd a ha.1 b hb.1 e

theorem facet_pts {cells : Nat → Nat → Nat} {c v : Nat} {k : Key} (X : Nat → Vec N)
    (hd : ∀ v < d + 2, ∀ w < d + 2, cells c v = cells c w → v = w) (hv : v < d + 2) (hf : IsFacet cells (d + 2) c v k) :
    pts (⟨fun i => X (k.getD i 0)⟩ : Simplex d N) = pts (opposed (cellView (d + 1) X cells c) ⟨v, hv⟩) := by
  have hl := facet_length hd hv hf
  unfold pts
  congr 1
  ext p
  constructor
  · rintro ⟨i, rfl⟩
    have hm : k.getD (i : Nat) 0 ∈ k := by
      rw [List.getD_eq_getElem?_getD, List.getElem?_eq_getElem (by omega), Option.getD_some]
      exact List.getElem_mem _
    obtain ⟨w, hw, hwv, e⟩ := (hf.2 _).1 hm
    obtain ⟨h, hh⟩ := Fin.exists_succAbove_eq (x := (⟨w, hw⟩ : Fin (d + 2))) (y := ⟨v, hv⟩) (by simpa [Fin.ext_iff] using hwv)
    exact ⟨h, by simp only [opposed, cellView, hh, e]⟩
  · rintro ⟨h, rfl⟩
    have hm : cells c ((⟨v, hv⟩ : Fin (d + 2)).succAbove h) ∈ k :=
      (hf.2 _).2 ⟨_, Fin.is_lt _, fun e => Fin.succAbove_ne _ h (Fin.ext e), rfl⟩
    obtain ⟨i, hi, e⟩ := List.getElem_of_mem hm
    exact ⟨⟨i, by omega⟩, by
      simp only [opposed, cellView, List.getD_eq_getElem?_getD, List.getElem?_eq_getElem hi, Option.getD_some, e]⟩

/-- What the handle of facet `j` of cell `c` says: its points are those of the boundary cell of `c` with the same index, its adjacent cells are `c` and the
neighbour with index `d + 1 - j`, and it is on the boundary if there is no such neighbour. -/
def FacetHandle (X : Nat → Vec N) (cells : Nat → Nat → Nat) (s : FSt) (d c j id : Nat) : Prop :=
  ∃ (F G : Simplex d N) (a b : Int), rowView d X s.facets id = .ok F ∧ boundaryCell (cellView (d + 1) X cells c) j = .ok G ∧ pts F = pts G ∧
    adjacentCells s id = .ok (a, b) ∧ (a = c ∧ b = s.neigh c (d + 1 - j) ∨ a = s.neigh c (d + 1 - j) ∧ b = c) ∧ a ≠ -1 ∧ a ≠ b ∧
    facetOnBoundary s id = .ok (decide (s.neigh c (d + 1 - j) = -1))

theorem facet_handle {cells : Nat → Nat → Nat} {n : Nat} (X : Nat → Vec N) (hm : Manifold cells (d + 2) n) {s : FSt} (hs : FacetSpec cells (d + 2) n s)
    {c j : Nat} (hc : c < n) (hj : j < d + 2) : ∃ id, s.cellTo c j = some id ∧ FacetHandle X cells s d c j id := by
  obtain ⟨id, k, h1, h2, hf⟩ := hs.cellTo c hc j hj
  have hv : d + 2 - 1 - j < d + 2 := by omega
  have e1 : d + 2 - 1 - j = d + 1 - j := by omega
  rw [e1] at hf hv
  have hcont : Contains cells (d + 2) c k := fun x hx => by
    obtain ⟨w, hw, _, e⟩ := (hf.2 x).1 hx
    exact ⟨w, hw, e⟩
  have hmk : ∃ m, s.markers[id]? = some m := by
    have : id < s.facets.length := (List.getElem?_eq_some_iff.1 h2).1
    exact ⟨_, List.getElem?_eq_getElem (by rw [hs.lengths.2]; exact this)⟩
  obtain ⟨m, hmk⟩ := hmk
  have hmark := hs.marker id k h2
  rw [hmk] at hmark
  refine ⟨id, h1, ?_⟩
  have hview : rowView d X s.facets id = .ok ⟨fun i => X (k.getD i 0)⟩ := by
    unfold rowView
    rw [h2]
    rfl
  have hpt := facet_pts X (hm.distinct c hc) hv hf
  rcases hs.toCells id k h2 with ⟨a, ha, ht, hu⟩ | ⟨a, ha, b, hb, hab, ht, hu⟩
  · have hca : c = a := (hu c hc).1 hcont
    subst hca
    have hn : s.neigh c (d + 1 - j) = -1 := (hs.neighNone c hc _ hv).2 fun d' hd' hne hsh =>
      hne ((hu d' hd').1 ((contains_iff_shares hf).2 hsh))
    have hmt : m = true := by
      simpa using hmark.2 ⟨c, ⟨hc, hcont⟩, fun d' hd' => (hu d' hd'.1).1 hd'.2⟩
    exact ⟨_, _, _, _, hview, boundaryCell_eq _ j hj, hpt, by rw [adjacentCells, ht]; rfl, Or.inl ⟨rfl, hn.symm⟩, by omega, by omega,
      by rw [facetOnBoundary, hmk, hn, hmt]; rfl⟩
  · have hmf : m = false := by
      by_contra hne
      obtain ⟨e, _, he⟩ := hmark.1 (by simpa using hne)
      have q1 := he a ⟨ha, (hu a ha).2 (Or.inl rfl)⟩
      have q2 := he b ⟨hb, (hu b hb).2 (Or.inr rfl)⟩
      omega
    have other : ∀ d', d' < n → d' ≠ c → (d' = a ∨ d' = b) → s.neigh c (d + 1 - j) = (d' : Nat) := fun d' hd' hne ho =>
      (hs.neigh c hc _ hv d').2 ⟨hd', hne, (contains_iff_shares hf).1 ((hu d' hd').2 ho)⟩
    rcases (hu c hc).1 hcont with rfl | rfl
    · have hn := other b hb (by omega) (Or.inr rfl)
      exact ⟨_, _, _, _, hview, boundaryCell_eq _ j hj, hpt, by rw [adjacentCells, ht]; rfl, Or.inl ⟨rfl, hn.symm⟩, by omega, by omega,
        by rw [facetOnBoundary, hmk, hn, hmf]; rfl⟩
    · have hn := other a ha (by omega) (Or.inl rfl)
      exact ⟨_, _, _, _, hview, boundaryCell_eq _ j hj, hpt, by rw [adjacentCells, ht]; rfl, Or.inr ⟨hn.symm, rfl⟩, by omega, by omega,
        by rw [facetOnBoundary, hmk, hn, hmf]; rfl⟩

/-- **C125 (edges of triangles).** In a mesh of triangles with any node coordinates, `edge(j)`, `j < 3`, is the view of the boundary cell `j` of the triangle
(opposite to its vertex `2 - j`), its adjacent cells are the triangle and its neighbour number `2 - j`, and it is on the boundary if there is none. -/
theorem C125_triangle (X : Nat → Vec N) (cells : Nat → Nat → Nat) (n : Nat) (hm : Manifold cells 3 n) :
    ∃ s, build2 cells n = .ok s ∧ ∀ c < n, (∀ j < 3, ∃ id, triEdge s c j = .ok id ∧ FacetHandle X cells s 1 c j id) ∧
      ∀ j ≥ 3, triEdge s c j = .throws := by
  obtain ⟨s, h1, h2⟩ := build2_spec hm
  refine ⟨s, h1, fun c hc => ⟨fun j hj => ?_, fun j hj => by rw [triEdge, if_neg (by omega)]⟩⟩
  obtain ⟨id, e, h⟩ := facet_handle (d := 1) X hm h2 hc hj
  exact ⟨id, by rw [triEdge, if_pos hj, e]; rfl, h⟩

/-- **C125 (faces of tetrahedra).** The same for `face(j)`, `j < 4`: opposite to vertex `3 - j`, beyond it the neighbour number `3 - j`. -/
theorem C125_tetrahedron (X : Nat → Vec N) (cells : Nat → Nat → Nat) (n : Nat) (hm : Manifold cells 4 n) :
    ∃ s, build3 cells n = .ok s ∧ ∀ c < n, ∀ j < 4, ∃ id, tetFace s c j = .ok id ∧ FacetHandle X cells s 2 c j id := by
  obtain ⟨s, h1, h2⟩ := build3_spec hm
  refine ⟨s, h1, fun c hc j hj => ?_⟩
  obtain ⟨id, e, h⟩ := facet_handle (d := 2) X hm h2 hc hj
  exact ⟨id, by rw [tetFace, if_pos hj, e]; rfl, h⟩

/-- **C125 (edges of faces).** In a mesh of tetrahedra, edge `j` of a face is exactly the boundary cell `j` of the face, vertex by vertex. -/
theorem C125_face_edges (X : Nat → Vec N) (cells : Nat → Nat → Nat) (nb : Nat → Bool) (n : Nat) (hm : Manifold cells 4 n) :
    ∃ s, build3e cells nb n = .ok s ∧ ∀ f < s.f.facets.length, ∃ F : Simplex 2 N, rowView 2 X s.f.facets f = .ok F ∧
      ∀ j < 3, ∃ id E, faceEdge s f j = .ok id ∧ rowView 1 X s.edges id = .ok E ∧ boundaryCell F j = .ok E := by
  obtain ⟨s, h1, _, h3⟩ := C97_face_edges cells nb n hm
  refine ⟨s, h1, fun f hf => ?_⟩
  obtain ⟨a, b, c, i, j, l, _, _, hk, hi, hi', hj, hj', hl, hl'⟩ := h3 f _ (List.getElem?_eq_getElem hf)
  have hF : rowView 2 X s.f.facets f = .ok ⟨fun v : Fin 3 => X (([a, b, c] : List Nat).getD v 0)⟩ := by
    rw [rowView, List.getElem?_eq_getElem hf, hk]
    rfl
  have hE : ∀ {id x y : Nat}, s.edges[id]? = some [x, y] → rowView 1 X s.edges id = .ok ⟨fun v : Fin 2 => X (([x, y] : List Nat).getD v 0)⟩ := by
    intro id x y h
    rw [rowView, h]
    rfl
  refine ⟨_, hF, fun k hk => ?_⟩
  rw [boundaryCell_eq _ k (by omega)]
  rcases (by omega : k = 0 ∨ k = 1 ∨ k = 2) with rfl | rfl | rfl
  · refine ⟨i, _, by rw [faceEdge, if_pos (by omega), Nat.add_zero, hi]; rfl, hE hi', ?_⟩
    refine congrArg Res.ok (congrArg Simplex.mk (funext fun v => ?_))
    rcases v with ⟨v, hv⟩
    rcases (by omega : v = 0 ∨ v = 1) with rfl | rfl <;> rfl
  · refine ⟨j, _, by rw [faceEdge, if_pos (by omega), hj]; rfl, hE hj', ?_⟩
    refine congrArg Res.ok (congrArg Simplex.mk (funext fun v => ?_))
    rcases v with ⟨v, hv⟩
    rcases (by omega : v = 0 ∨ v = 1) with rfl | rfl <;> rfl
  · refine ⟨l, _, by rw [faceEdge, if_pos (by omega), hl]; rfl, hE hl', ?_⟩
    refine congrArg Res.ok (congrArg Simplex.mk (funext fun v => ?_))
    rcases v with ⟨v, hv⟩
    rcases (by omega : v = 0 ∨ v = 1) with rfl | rfl <;> rfl

/-- The handle of the edge `id` shows the segment between vertices `v` and `w` of cell `c` and the cells with both vertices. -/
def EdgeHandle (X : Nat → Vec N) (cells : Nat → Nat → Nat) (n : Nat) (s : ESt) (c v w id : Nat) : Prop :=
  ∃ E : Simplex 1 N, rowView 1 X s.edges id = .ok E ∧ pts E = segment ℝ (X (cells c v)) (X (cells c w)) ∧
    ∀ d, d ∈ s.edgeCells id ↔ d < n ∧ Vertex cells 4 d (cells c v) ∧ Vertex cells 4 d (cells c w)

/-- **C125 (edges of tetrahedra).** `edge(0)`, ..., `edge(5)` of a tetrahedron are six different edges, in an order which depends on the iteration of
a hash set: each joins two different vertices and each two different vertices are joined by one of them; its adjacent cells are the cells with both vertices. -/
theorem C125_tet_edges (X : Nat → Vec N) (cells : Nat → Nat → Nat) (nb : Nat → Bool) (n : Nat) (hm : Manifold cells 4 n)
    (ord : List Nat → List Nat) (hord : ∀ l, (ord l).Perm l) :
    ∃ s, build3e cells nb n = .ok s ∧ ∀ c < n, ∃ e : Nat → Nat, (∀ j < 6, tetEdge ord s c j = .ok (e j)) ∧ (∀ i < 6, ∀ j < 6, e i = e j → i = j) ∧
      (∀ j < 6, ∃ v < 4, ∃ w < 4, v ≠ w ∧ EdgeHandle X cells n s c v w (e j)) ∧
      ∀ v < 4, ∀ w < 4, v ≠ w → ∃ j < 6, EdgeHandle X cells n s c v w (e j) := by
  obtain ⟨s, h1, h2⟩ := C97_cell_edges cells nb n hm
  obtain ⟨s', h1', _, _, hmem, hcells⟩ := C97_edges cells nb n hm
  rw [h1] at h1'
  have := Res.ok.inj h1'
  subst this
  refine ⟨s, h1, fun c hc => ?_⟩
  obtain ⟨l, hl, hnd, hlen, hin⟩ := h2 c hc
  have hp := hord l
  have hlen' : (ord l).length = 6 := by rw [hp.length_eq, hlen]
  have hget : ∀ j < 6, (ord l)[j]? = some ((ord l).getD j 0) := by
    intro j hj
    rw [List.getD_eq_getElem?_getD, List.getElem?_eq_getElem (by omega), Option.getD_some]
  have hh : ∀ id x y, s.edges[id]? = some [x, y] → ∀ v w, (cells c v = x ∧ cells c w = y ∨ cells c v = y ∧ cells c w = x) → EdgeHandle X cells n s c v w id := by
    intro id x y hk v w hvw
    refine ⟨⟨fun i : Fin 2 => X (([x, y] : List Nat).getD i 0)⟩, by rw [rowView, hk]; rfl, ?_, fun d => ?_⟩
    · have : Set.range (fun i : Fin 2 => X (([x, y] : List Nat).getD i 0)) = {X x, X y} := by
        ext p
        simp [eq_comm]
      rw [pts, this, convexHull_pair]
      rcases hvw with ⟨rfl, rfl⟩ | ⟨rfl, rfl⟩
      · rfl
      · exact segment_symm ℝ _ _
    · rw [hcells id x y hk]
      rcases hvw with ⟨rfl, rfl⟩ | ⟨rfl, rfl⟩
      · rfl
      · rw [and_comm (a := Vertex cells 4 d (cells c w))]
  refine ⟨fun j => (ord l).getD j 0, fun j hj => ?_, fun i hi j hj e => ?_, fun j hj => ?_, fun v hv w hw hvw => ?_⟩
  · rw [tetEdge, hl]
    show (if l.length ≤ 6 then Res.ofOptionUB (ord l)[j]? else .ub) = _
    rw [if_pos (by omega), hget j hj]
    rfl
  · have hnd' := hp.nodup_iff.2 hnd
    have := hget i hi
    simp only at e
    rw [e, ← hget j hj] at this
    exact (List.getElem?_inj (by omega) hnd').1 this
  · have : (ord l).getD j 0 ∈ l := hp.mem_iff.1 (List.mem_of_getElem? (hget j hj))
    obtain ⟨k, hk, he⟩ := (hin _).1 this
    obtain ⟨x, y, hxy, ⟨v, hv, ev⟩, ⟨w, hw, ew⟩, rfl⟩ := he
    exact ⟨v, hv, w, hw, fun e => by subst e; omega, hh _ x y hk v w (Or.inl ⟨ev, ew⟩)⟩
  · have hne : cells c v ≠ cells c w := fun e => hvw (hm.distinct c hc v hv w hw e)
    have key : ∀ x y, x < y → (cells c v = x ∧ cells c w = y ∨ cells c v = y ∧ cells c w = x) →
        ∃ j < 6, EdgeHandle X cells n s c v w ((ord l).getD j 0) := by
      intro x y hxy hor
      have hV : Vertex cells 4 c x ∧ Vertex cells 4 c y := by
        rcases hor with ⟨rfl, rfl⟩ | ⟨rfl, rfl⟩
        · exact ⟨⟨v, hv, rfl⟩, ⟨w, hw, rfl⟩⟩
        · exact ⟨⟨w, hw, rfl⟩, ⟨v, hv, rfl⟩⟩
      have hE : IsEdge cells c [x, y] := ⟨x, y, hxy, hV.1, hV.2, rfl⟩
      obtain ⟨id, hid⟩ := List.mem_iff_getElem?.1 ((hmem _).2 ⟨c, hc, hE⟩)
      obtain ⟨j, hj⟩ := List.mem_iff_getElem?.1 (hp.mem_iff.2 ((hin id).2 ⟨_, hid, hE⟩))
      have hj6 : j < 6 := by
        have := (List.getElem?_eq_some_iff.1 hj).1
        omega
      refine ⟨j, hj6, ?_⟩
      rw [List.getD_eq_getElem?_getD, hj, Option.getD_some]
      exact hh id x y hid v w hor
    rcases lt_or_gt_of_ne hne with h | h
    · exact key _ _ h (Or.inl ⟨rfl, rfl⟩)
    · exact key _ _ h (Or.inr ⟨rfl, rfl⟩)

/-! ### The unit simplex -/

theorem unitSimplex_prefix (d N m : Nat) (hm : m ≤ d) :
    foldRes (fun (S : Simplex d N) i =>
      if i + 1 < d + 1 then Res.ok (⟨fun v k => if (v : Nat) = i + 1 ∧ (k : Nat) = i then 1 else S.coords v k⟩ : Simplex d N) else .ub)
      ⟨fun _ _ => 0⟩ (List.range m) = .ok ⟨fun v k => if (v : Nat) = (k : Nat) + 1 ∧ (k : Nat) < m then 1 else 0⟩ := by
  induction m with
  | zero => simp
  | succ m ih =>
    rw [List.range_succ, foldRes_append, ih (by omega)]
    rw [Res.ok_bind, foldRes_cons, if_pos (by omega)]
    show Res.ok _ = _
    refine congrArg Res.ok (congrArg Simplex.mk ?_)
    funext v k
    by_cases h : (v : Nat) = m + 1 ∧ (k : Nat) = m
    · rw [if_pos h, if_pos ⟨by omega, by omega⟩]
    · rw [if_neg h]
      dsimp only
      by_cases h2 : (v : Nat) = (k : Nat) + 1 ∧ (k : Nat) < m
      · rw [if_pos h2, if_pos ⟨h2.1, by omega⟩]
      · rw [if_neg h2, if_neg (by omega)]

/-- **C125 (unit simplex).** The unit simplex of full dimension has the origin and the unit vectors as vertices. -/
theorem C125_unit_partial (d : Nat) : ∃ S, unitSimplex d d = .ok S ∧ S.coords 0 = 0 ∧ (∀ i, S.coords i.succ = Pi.single i 1) ∧ S.Nondeg := by
  refine ⟨_, unitSimplex_prefix d d d le_rfl, ?_, ?_, ?_⟩
  · funext k
    simp
  · intro i
    funext k
    by_cases h : k = i
    · subst h
      simp
    · have : (i : Nat) ≠ k := fun e => h (Fin.ext e.symm)
      simp [this, h]
  · by_contra hc
    have h0 := det_zero hc
    have h1 : (⟨fun v k => if (v : Nat) = (k : Nat) + 1 ∧ (k : Nat) < d then 1 else 0⟩ : Simplex d d).J = 1 := by
      ext k j
      by_cases h : k = j
      · subst h
        simp [Simplex.J]
      · have : (j : Nat) ≠ k := fun e => h (Fin.ext e.symm)
        simp [Simplex.J, this, h]
    rw [h1, Matrix.det_one] at h0
    exact one_ne_zero h0

/-- C125 (finding): the unit simplex of a dimension less than that of the space writes vertices it does not have, outside the
matrix of its coordinates: `Simplex<2, 3>::Unit()` is undefined behaviour. -/
theorem C125_bug_unit (d N : Nat) (h : d < N) : unitSimplex d N = .ub := by
  obtain ⟨k, rfl⟩ : ∃ k, N = d + 1 + k := ⟨N - (d + 1), by omega⟩
  unfold unitSimplex
  rw [List.range_add, List.range_succ, List.append_assoc, foldRes_append, unitSimplex_prefix d _ d le_rfl]
  rw [Res.ok_bind, List.cons_append, foldRes_cons, if_neg (by omega)]
  rfl

/-! ### Non-vacuity -/

example : ∃ s, build2 demo2 2 = .ok s ∧ ∃ id, triEdge s 1 0 = .ok id ∧ facetOnBoundary s id = .ok true := by
  obtain ⟨s, h1, h2⟩ := C125_triangle (N := 2) (fun _ => 0) demo2 2 demo2_manifold
  obtain ⟨id, h3, _, _, _, _, _, _, _, _, _, _, _, h4⟩ := (h2 1 (by omega)).1 0 (by omega)
  refine ⟨s, h1, id, h3, ?_⟩
  have hn : s.neigh 1 2 = -1 := by
    have : (fun s : FSt => s.neigh 1 2) <$> build2 demo2 2 = Res.ok (-1) := by decide +kernel
    rw [h1] at this
    exact Res.ok.inj this
  rw [h4, show 1 + 1 - 0 = 2 from rfl, hn]
  rfl

example : ∃ s, build3 demo3 2 = .ok s ∧ tetFace s 0 3 = tetFace s 1 3 ∧ ∃ id, tetFace s 0 3 = .ok id ∧ facetOnBoundary s id = .ok false := by
  obtain ⟨s, h1, h2⟩ := C125_tetrahedron (N := 3) (fun _ => 0) demo3 2 demo3_manifold
  have : (fun s : FSt => (s.cellTo 0 3, s.cellTo 1 3, s.neigh 0 0)) <$> build3 demo3 2 = Res.ok (some 3, some 3, 1) := by decide +kernel
  rw [h1] at this
  have := Res.ok.inj this
  simp only [Prod.mk.injEq] at this
  obtain ⟨id, h3, _, _, _, _, _, _, _, _, _, _, _, h4⟩ := h2 0 (by omega) 3 (by omega)
  refine ⟨s, h1, by rw [tetFace, tetFace, this.1, this.2.1], id, h3, ?_⟩
  rw [h4, show 2 + 1 - 3 = 0 from rfl, this.2.2]
  rfl

example : ∃ S, unitSimplex 3 3 = .ok S ∧ ∃ l, boundary S = .ok l ∧ l.length = 4 ∧ frontier (pts S) = ⋃ F ∈ l, pts F := by
  obtain ⟨S, h1, _, _, h2⟩ := C125_unit_partial 3
  obtain ⟨l, h3, h4, _, h5⟩ := C125_frontier h2
  exact ⟨S, h1, l, h3, h4, h5⟩

example (X : Nat → Vec 3) : ∃ s, build3e demo3 (fun _ => true) 2 = .ok s ∧ ∃ j < 6, ∃ id, tetEdge List.reverse s 1 j = .ok id ∧ EdgeHandle X demo3 2 s 1 1 3 id := by
  obtain ⟨s, h1, h2⟩ := C125_tet_edges X demo3 (fun _ => true) 2 demo3_manifold List.reverse (fun l => List.reverse_perm l)
  obtain ⟨e, h3, _, _, h4⟩ := h2 1 (by omega)
  obtain ⟨j, hj, h5⟩ := h4 1 (by omega) 3 (by omega) (by omega)
  exact ⟨s, h1, j, hj, _, h3 j hj, h5⟩

example (X : Nat → Vec 3) : ∃ s, build3e demo3 (fun _ => true) 2 = .ok s ∧ s.f.facets.length = 7 ∧ ∃ F : Simplex 2 3, rowView 2 X s.f.facets 6 = .ok F := by
  obtain ⟨s, h1, h2⟩ := C125_face_edges X demo3 (fun _ => true) 2 demo3_manifold
  have : (fun s : ESt => s.f.facets.length) <$> build3e demo3 (fun _ => true) 2 = Res.ok 7 := by decide +kernel
  rw [h1] at this
  have : s.f.facets.length = 7 := Res.ok.inj this
  obtain ⟨F, h, _⟩ := h2 6 (by omega)
  exact ⟨s, h1, this, F, h⟩

end Fdapde.Triang
