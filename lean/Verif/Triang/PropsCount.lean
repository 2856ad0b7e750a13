import Verif.Triang.LemmasCount
import Verif.Triang.PropsSurface
import Mathlib.Data.List.GetD
/- C159: counts and closed boundaries of the tables, for any table of cells. -/
namespace Fdapde.Triang

/-- Every cell has distinct nodes (facets may belong to any number of cells). -/
def DistinctCells (cells : Nat → Nat → Nat) (nn n : Nat) : Prop :=
  ∀ c < n, ∀ v < nn, ∀ w < nn, cells c v = cells c w → v = w

/-- The number of cells that have `k` as a facet. -/
noncomputable def degree (cells : Nat → Nat → Nat) (nn n : Nat) (k : List Nat) : Nat :=
  {c | c < n ∧ ∃ v < nn, IsFacet cells nn c v k}.ncard

/-- The table with the given rows. -/
def tableOf (rows : List (List Nat)) : Nat → Nat → Nat := fun c v => (rows.getD c []).getD v 0

theorem boundaryFaces_zip : ∀ (facets : List Key) (markers : List Bool), markers.length = facets.length →
    boundaryFaces facets markers = ((facets.zip markers).filter fun p => p.2).map Prod.fst
  | [], _, _ => rfl
  | f :: fs, [], h => by simp at h
  | f :: fs, m :: ms, h => by
    have ih := boundaryFaces_zip fs ms (by simpa using h)
    unfold boundaryFaces at ih ⊢
    rw [List.length_cons, List.range_succ_eq_map, List.filter_cons, List.filter_map, List.zip_cons_cons, List.filter_cons]
    have hc : ((fun h => (m :: ms).getD h false) ∘ Nat.succ) = fun h => ms.getD h false := by
      funext x; simp
    have hd : ((fun h => (f :: fs).getD h []) ∘ Nat.succ) = fun h => fs.getD h [] := by
      funext x; simp
    rw [hc]
    cases m with
    | true => simp only [List.getD_cons_zero, if_true, List.map_cons, List.map_map, hd, ih]
    | false => simp only [List.getD_cons_zero, Bool.false_eq_true, if_false, List.map_map, hd, ih]

section
variable {cells : Nat → Nat → Nat} {nn n : Nat} {pat : List (List Nat)} {s : FSt}

theorem count_identity (hp : PatOK nn pat) (h : CInv cells pat (occ n nn) s) :
    nn * n + (boundaryFaces s.facets s.markers).length = 2 * s.facets.length := by
  have h1 := h.wt fun _ => 1
  have h2 := mult_sum (fun _ => 1) (s.facets.zip s.markers)
  rw [← h1, ← boundaryFaces_zip _ _ h.lm] at h2
  simp only [List.map_const', List.sum_replicate_nat, Nat.mul_one, List.length_zip, h.lm, min_self] at h2
  have h3 : (occ n nn).length = nn * n := by
    unfold occ
    rw [List.length_flatMap]
    simp [Nat.mul_comm]
  omega

theorem boundary_even (hp : PatOK nn pat) (hd : DistinctCells cells nn n) (h : CInv cells pat (occ n nn) s)
    (S : Finset Nat) (hS : S.card + 2 = nn) :
    Even ((boundaryFaces s.facets s.markers).countP fun f => decide (∀ x ∈ S, x ∈ f)) := by
  have h1 := h.wt fun f => if (∀ x ∈ S, x ∈ f) then 1 else 0
  have h2 := mult_sum (fun f => if (∀ x ∈ S, x ∈ f) then 1 else 0) (s.facets.zip s.markers)
  rw [← h1, ← boundaryFaces_zip _ _ h.lm] at h2
  have h3 := occ_even (pat := pat) hp hd S hS
  have h4 : ((boundaryFaces s.facets s.markers).map fun f => if (∀ x ∈ S, x ∈ f) then 1 else 0).sum =
      (boundaryFaces s.facets s.markers).countP fun f => decide (∀ x ∈ S, x ∈ f) := by
    generalize boundaryFaces s.facets s.markers = L
    induction L with
    | nil => rfl
    | cons a L ih =>
      rw [List.map_cons, List.sum_cons, ih, List.countP_cons]
      simp only [decide_eq_true_eq]
      omega
  rw [h4] at h2
  obtain ⟨a, ha⟩ := h3
  rw [ha] at h2
  rw [Nat.even_iff]
  omega

end

theorem build2_count {cells : Nat → Nat → Nat} {n : Nat} (h : DistinctCells cells 3 n) :
    ∃ s, build2 cells n = .ok s ∧ CInv cells [[0, 1], [0, 2], [1, 2]] (occ n 3) s := by
  obtain ⟨s, h1, h2⟩ := facetLoop_count cells 3 _ patOK2 h
  exact ⟨s, by rw [build2, comb2]; exact h1, h2⟩

theorem build3_count {cells : Nat → Nat → Nat} {n : Nat} (h : DistinctCells cells 4 n) :
    ∃ s, build3 cells n = .ok s ∧ CInv cells [[0, 1, 2], [0, 1, 3], [0, 2, 3], [1, 2, 3]] (occ n 4) s := by
  obtain ⟨s, h1, h2⟩ := facetLoop_count cells 4 _ patOK3 h
  exact ⟨s, by rw [build3, comb3]; exact h1, h2⟩

/-- Three triangles on the same edge. -/
def demoBook : Nat → Nat → Nat := tableOf [[0, 1, 2], [1, 0, 3], [0, 1, 4]]
theorem demoBook_distinct : DistinctCells demoBook 3 3 := by unfold DistinctCells; decide
theorem demo3_distinct : DistinctCells demo3 4 2 := by unfold DistinctCells; decide +kernel

/-- C159, edges of triangles: for any triangles with distinct nodes, however many share an edge, the constructor ends and
an edge of `m` triangles is listed once as boundary edge if `m` is odd, and `m / 2` times as interior edge. -/
theorem C159_edges_listed (cells : Nat → Nat → Nat) (n : Nat) (h : DistinctCells cells 3 n) :
    ∃ s, build2 cells n = .ok s ∧ s.markers.length = s.facets.length ∧
      ∀ k, (s.facets.zip s.markers).count (k, true) = degree cells 3 n k % 2 ∧
        (s.facets.zip s.markers).count (k, false) = degree cells 3 n k / 2 := by
  obtain ⟨s, h1, h2⟩ := build2_count h
  refine ⟨s, h1, h2.lm, fun k => ?_⟩
  have := inst_ncard (pat := [[0, 1], [0, 2], [1, 2]]) patOK2 h k
  unfold degree
  rw [← this]
  exact ⟨h2.cT k, h2.cF k⟩

/-- C159, faces of tetrahedra: the same for the faces. -/
theorem C159_faces_listed (cells : Nat → Nat → Nat) (n : Nat) (h : DistinctCells cells 4 n) :
    ∃ s, build3 cells n = .ok s ∧ s.markers.length = s.facets.length ∧
      ∀ k, (s.facets.zip s.markers).count (k, true) = degree cells 4 n k % 2 ∧
        (s.facets.zip s.markers).count (k, false) = degree cells 4 n k / 2 := by
  obtain ⟨s, h1, h2⟩ := build3_count h
  refine ⟨s, h1, h2.lm, fun k => ?_⟩
  have := inst_ncard (pat := [[0, 1, 2], [0, 1, 3], [0, 2, 3], [1, 2, 3]]) patOK3 h k
  unfold degree
  rw [← this]
  exact ⟨h2.cT k, h2.cF k⟩

example : DistinctCells demoBook 3 3 ∧ DistinctCells demo3 4 2 := ⟨demoBook_distinct, demo3_distinct⟩

/-- C159, counts: three times the number of triangles plus the number of boundary edges is twice the number of edges. -/
theorem C159_count2 (cells : Nat → Nat → Nat) (n : Nat) (h : DistinctCells cells 3 n) :
    ∃ s, build2 cells n = .ok s ∧ 3 * n + s.markers.count true = 2 * s.facets.length := by
  obtain ⟨s, h1, h2⟩ := build2_count h
  refine ⟨s, h1, ?_⟩
  rw [count_markers h2.lm]
  exact count_identity patOK2 h2

/-- C159, counts: four times the number of tetrahedra plus the number of boundary faces is twice the number of faces; in
particular the number of boundary faces is even. -/
theorem C159_count3 (cells : Nat → Nat → Nat) (n : Nat) (h : DistinctCells cells 4 n) :
    ∃ s, build3 cells n = .ok s ∧ 4 * n + s.markers.count true = 2 * s.facets.length ∧ Even (s.markers.count true) := by
  obtain ⟨s, h1, h2⟩ := build3_count h
  have := count_identity patOK3 h2
  rw [← count_markers h2.lm] at this
  exact ⟨s, h1, this, by rw [Nat.even_iff]; omega⟩

/-- C159, closed curves: every node lies on an even number of boundary edges. -/
theorem C159_boundary_curves (cells : Nat → Nat → Nat) (n : Nat) (h : DistinctCells cells 3 n) :
    ∃ s, build2 cells n = .ok s ∧ ∀ x : Nat,
      Even ((boundaryFaces s.facets s.markers).countP fun f => decide (x ∈ f)) := by
  obtain ⟨s, h1, h2⟩ := build2_count h
  refine ⟨s, h1, fun x => ?_⟩
  simpa using boundary_even patOK2 h h2 {x} rfl

/-- C159, closed surfaces: two different nodes lie together on an even number of boundary faces. -/
theorem C159_boundary_surface (cells : Nat → Nat → Nat) (n : Nat) (h : DistinctCells cells 4 n) :
    ∃ s, build3 cells n = .ok s ∧ ∀ x y : Nat, x ≠ y →
      Even ((boundaryFaces s.facets s.markers).countP fun f => decide (x ∈ f ∧ y ∈ f)) := by
  obtain ⟨s, h1, h2⟩ := build3_count h
  refine ⟨s, h1, fun x y hxy => ?_⟩
  simpa using boundary_even patOK3 h h2 {x, y} (by rw [Finset.card_pair hxy])

/-! ### The surface mesh of a 3D triangulation has no boundary -/

theorem countP_ncard (L : List (List Nat)) (p : List Nat → Bool) :
    L.countP p = {c | c < L.length ∧ p (L.getD c []) = true}.ncard := by
  have h1 : L = (List.range L.length).map fun c => L.getD c [] := by
    refine List.ext_getElem (by simp) fun i h1 h2 => ?_
    simp [List.getD, h1]
  have h2 : {c | c < L.length ∧ p (L.getD c []) = true} =
      (((List.range L.length).filter fun c => p (L.getD c [])).toFinset : Set Nat) := by
    ext c
    simp
  rw [h2, Set.ncard_coe_finset, List.toFinset_card_of_nodup (List.nodup_range.filter _), ← List.countP_eq_length_filter]
  conv_lhs => rw [h1, List.countP_map]
  rfl

/-- A row of the surface table and the boundary face it renumbers. -/
theorem surface_row {facets : List Key} {markers : List Bool} {ids : List Nat} {rows : List (List Nat)}
    (h : IsSurface facets markers ids rows) {c : Nat} (hc : c < rows.length) :
    c < (boundaryFaces facets markers).length ∧
      (rows.getD c []).map (fun q => ids[q]?) = ((boundaryFaces facets markers).getD c []).map some := by
  have hlen : rows.length = (boundaryFaces facets markers).length := by
    have := congrArg List.length h.2.2
    simpa using this
  refine ⟨by omega, ?_⟩
  have := congrArg (fun l => l[c]?) h.2.2
  simp only [List.getElem?_map, List.getElem?_eq_getElem hc,
    List.getElem?_eq_getElem (by omega : c < (boundaryFaces facets markers).length), Option.map_some,
    Option.some.injEq] at this
  rw [List.getD_eq_getElem?_getD, List.getElem?_eq_getElem hc, List.getD_eq_getElem?_getD,
    List.getElem?_eq_getElem (by omega : c < (boundaryFaces facets markers).length)]
  exact this

theorem mem_row_iff {ids : List Nat} (hn : ids.Nodup) {r f : List Nat}
    (h : r.map (fun q => ids[q]?) = f.map some) {q x : Nat} (hq : ids[q]? = some x) : q ∈ r ↔ x ∈ f := by
  constructor
  · intro hr
    have : some x ∈ f.map some := by rw [← h, ← hq]; exact List.mem_map.2 ⟨q, hr, rfl⟩
    simpa using this
  · intro hx
    have : some x ∈ r.map (fun q => ids[q]?) := by rw [h]; exact List.mem_map.2 ⟨x, hx, rfl⟩
    obtain ⟨q', hq', e⟩ := List.mem_map.1 this
    have hlt := (List.getElem?_eq_some_iff.1 hq).1
    have := (List.getElem?_inj hlt hn).1 (hq.trans e.symm)
    rw [this]; exact hq'

theorem row_nodup {ids : List Nat} {r f : List Nat}
    (h : r.map (fun q => ids[q]?) = f.map some) (hf : f.Nodup) : r.Nodup := by
  have h1 : (f.map some).Nodup := hf.map (fun a b h => by simpa using h)
  rw [← h] at h1
  exact h1.of_map _

theorem vertex_tableOf {rows : List (List Nat)} {c nn : Nat} (hl : (rows.getD c []).length = nn) (x : Nat) :
    (∃ w < nn, tableOf rows c w = x) ↔ x ∈ rows.getD c [] := by
  unfold tableOf
  constructor
  · rintro ⟨w, hw, rfl⟩
    rw [List.getD_eq_getElem _ _ (by omega : w < (rows.getD c []).length)]
    exact List.getElem_mem _
  · intro hx
    obtain ⟨w, hw, e⟩ := List.getElem_of_mem hx
    exact ⟨w, by omega, by rw [List.getD_eq_getElem _ _ hw]; exact e⟩

/-- The facets of a cell with `nn` distinct nodes are the increasing lists of `nn - 1` of its nodes. -/
theorem facet_iff {cells : Nat → Nat → Nat} {nn c : Nat} (hd : Distinct cells nn c) (k : List Nat) (hnn : 0 < nn) :
    (∃ v < nn, IsFacet cells nn c v k) ↔
      k.Pairwise (· < ·) ∧ k.length + 1 = nn ∧ ∀ x ∈ k, ∃ w < nn, cells c w = x := by
  have himg : ∀ T : Finset Nat, T ⊆ Finset.range nn → (T.image (cells c)).card = T.card := by
    intro T hT
    refine Finset.card_image_of_injOn fun a ha b hb hab => ?_
    exact hd a (Finset.mem_range.1 (hT ha)) b (Finset.mem_range.1 (hT hb)) hab
  constructor
  · rintro ⟨v, hv, h1, h2⟩
    refine ⟨h1, ?_, fun x hx => ?_⟩
    · have hk : k.toFinset = ((Finset.range nn).erase v).image (cells c) := by
        ext x
        rw [List.mem_toFinset, h2 x, Finset.mem_image]
        constructor
        · rintro ⟨w, hw, hne, e⟩
          exact ⟨w, Finset.mem_erase.2 ⟨hne, Finset.mem_range.2 hw⟩, e⟩
        · rintro ⟨w, hw, e⟩
          rw [Finset.mem_erase, Finset.mem_range] at hw
          exact ⟨w, hw.2, hw.1, e⟩
      have h3 := congrArg Finset.card hk
      rw [List.toFinset_card_of_nodup (h1.imp (fun h => by omega)), himg _ (Finset.erase_subset _ _),
        Finset.card_erase_of_mem (Finset.mem_range.2 hv), Finset.card_range] at h3
      omega
    · obtain ⟨w, hw, _, e⟩ := (h2 x).1 hx
      exact ⟨w, hw, e⟩
  · rintro ⟨h1, h2, h3⟩
    have hsub : k.toFinset ⊆ (Finset.range nn).image (cells c) := by
      intro x hx
      obtain ⟨w, hw, e⟩ := h3 x (List.mem_toFinset.1 hx)
      exact Finset.mem_image.2 ⟨w, Finset.mem_range.2 hw, e⟩
    have hcard : ((Finset.range nn).image (cells c) \ k.toFinset).card = 1 := by
      rw [Finset.card_sdiff_of_subset hsub, himg _ (Finset.Subset.refl _), Finset.card_range,
        List.toFinset_card_of_nodup (h1.imp (fun h => by omega))]
      omega
    obtain ⟨y, hy⟩ := Finset.card_eq_one.1 hcard
    have hy' : y ∈ (Finset.range nn).image (cells c) \ k.toFinset := by rw [hy]; simp
    rw [Finset.mem_sdiff, Finset.mem_image] at hy'
    obtain ⟨⟨v, hv, rfl⟩, hvk⟩ := hy'
    rw [Finset.mem_range] at hv
    refine ⟨v, hv, h1, fun x => ⟨fun hx => ?_, ?_⟩⟩
    · obtain ⟨w, hw, e⟩ := h3 x hx
      refine ⟨w, hw, ?_, e⟩
      rintro rfl
      exact hvk (List.mem_toFinset.2 (e ▸ hx))
    · rintro ⟨w, hw, hne, rfl⟩
      by_contra hx
      have : cells c w ∈ (Finset.range nn).image (cells c) \ k.toFinset :=
        Finset.mem_sdiff.2 ⟨Finset.mem_image.2 ⟨w, Finset.mem_range.2 hw, rfl⟩, fun h => hx (List.mem_toFinset.1 h)⟩
      rw [hy, Finset.mem_singleton] at this
      exact hne (hd w hw v hv this)

theorem surface_rows {cells : Nat → Nat → Nat} {n : Nat} {s : FSt} {ids : List Nat} {rows : List (List Nat)}
    (h : DistinctCells cells 4 n) (h2 : CInv cells [[0, 1, 2], [0, 1, 3], [0, 2, 3], [1, 2, 3]] (occ n 4) s)
    (hS : IsSurface s.facets s.markers ids rows) :
    (∀ c < rows.length, (rows.getD c []).length = 3 ∧ (rows.getD c []).Nodup) ∧
      DistinctCells (tableOf rows) 3 rows.length := by
  have hface : ∀ f ∈ boundaryFaces s.facets s.markers, f.Pairwise (· < ·) ∧ f.length = 3 := by
    intro f hf
    rw [boundaryFaces_zip _ _ h2.lm, List.mem_map] at hf
    obtain ⟨p, hp, rfl⟩ := hf
    rw [List.mem_filter] at hp
    have hcount : 0 < (s.facets.zip s.markers).count (p.1, true) := by
      rw [List.count_pos_iff]
      have : p = (p.1, true) := Prod.ext rfl hp.2
      rw [← this]; exact hp.1
    rw [h2.cT] at hcount
    have hne : inst cells [[0, 1, 2], [0, 1, 3], [0, 2, 3], [1, 2, 3]] (occ n 4) p.1 ≠ [] := by
      intro e; rw [e] at hcount; simp at hcount
    obtain ⟨o, ho⟩ := List.exists_mem_of_ne_nil _ hne
    rw [mem_inst, mem_occ] at ho
    have hf := kap_isFacet (cells := cells) (pat := [[0, 1, 2], [0, 1, 3], [0, 2, 3], [1, 2, 3]]) patOK3 (h o.1 ho.1.1) ho.1.2
    rw [ho.2] at hf
    have := (facet_iff (h o.1 ho.1.1) p.1 (by omega)).1 ⟨_, by omega, hf⟩
    exact ⟨this.1, by omega⟩
  have hbf : ∀ c < rows.length, (boundaryFaces s.facets s.markers).getD c [] ∈ boundaryFaces s.facets s.markers := by
    intro c hc
    rw [List.getD_eq_getElem _ _ (surface_row hS hc).1]
    exact List.getElem_mem _
  have hrow : ∀ c < rows.length, (rows.getD c []).length = 3 ∧ (rows.getD c []).Nodup := by
    intro c hc
    have hr := (surface_row hS hc).2
    have hf := hface _ (hbf c hc)
    refine ⟨?_, row_nodup hr (hf.1.imp (fun h => by omega))⟩
    have := congrArg List.length hr
    simp only [List.length_map] at this
    omega
  have hdist : DistinctCells (tableOf rows) 3 rows.length := by
    intro c hc v hv w hw e
    obtain ⟨hl, hnd⟩ := hrow c hc
    unfold tableOf at e
    rw [List.getD_eq_getElem _ _ (by omega : v < (rows.getD c []).length),
      List.getD_eq_getElem _ _ (by omega : w < (rows.getD c []).length)] at e
    exact (hnd.getElem_inj_iff).1 e
  exact ⟨hrow, hdist⟩

/-- C159, closed surface: the triangulation built on the surface of a 3D mesh (its boundary faces with renumbered nodes)
has no boundary edge. -/
theorem C159_surface_closed (cells : Nat → Nat → Nat) (n : Nat) (h : DistinctCells cells 4 n) :
    ∃ s, build3 cells n = .ok s ∧ ∀ ids rows, IsSurface s.facets s.markers ids rows →
      ∃ t, build2 (tableOf rows) rows.length = .ok t ∧ t.markers.length = t.facets.length ∧
        ∀ m ∈ t.markers, m = false := by
  obtain ⟨s, h1, h2⟩ := build3_count h
  refine ⟨s, h1, fun ids rows hS => ?_⟩
  obtain ⟨hrow, hdist⟩ := surface_rows h h2 hS
  obtain ⟨t, ht1, ht2, ht3⟩ := C159_edges_listed (tableOf rows) rows.length hdist
  refine ⟨t, ht1, ht2, ?_⟩
  have hev : ∀ k, degree (tableOf rows) 3 rows.length k % 2 = 0 := by
    intro k
    unfold degree
    by_cases hemp : ∃ c < rows.length, ∃ v < 3, IsFacet (tableOf rows) 3 c v k
    · obtain ⟨c0, hc0, hv0⟩ := hemp
      obtain ⟨hk1, hk2, hk3⟩ := (facet_iff (hdist c0 hc0) k (by omega)).1 hv0
      have hids : ∀ q ∈ k, ∃ x, ids[q]? = some x := by
        intro q hq
        have hq' := (vertex_tableOf (hrow c0 hc0).1 q).1 (hk3 q hq)
        have : ids[q]? ∈ (rows.getD c0 []).map (fun q => ids[q]?) := List.mem_map.2 ⟨q, hq', rfl⟩
        rw [(surface_row hS hc0).2] at this
        obtain ⟨x, _, e⟩ := List.mem_map.1 this
        exact ⟨x, e.symm⟩
      have hget : ∀ q ∈ k, ids[q]? = some (ids.getD q 0) := by
        intro q hq
        obtain ⟨x, hx⟩ := hids q hq
        rw [List.getD_eq_getElem?_getD, hx]; rfl
      have hcard : (k.toFinset.image fun q => ids.getD q 0).card + 2 = 4 := by
        rw [Finset.card_image_of_injOn, List.toFinset_card_of_nodup (hk1.imp (fun h => by omega))]
        · omega
        · intro a ha b hb hab
          have ha' := hget a (by simpa using ha)
          have hb' := hget b (by simpa using hb)
          have hlt := (List.getElem?_eq_some_iff.1 ha').1
          exact (List.getElem?_inj hlt hS.1).1 (by rw [ha', hb']; exact congrArg some hab)
      have hE := boundary_even patOK3 h h2 _ hcard
      rw [Nat.even_iff, countP_ncard] at hE
      rw [← hE]
      congr 2
      ext c
      simp only [Set.mem_ofPred_eq, decide_eq_true_eq]
      have hlen : rows.length = (boundaryFaces s.facets s.markers).length := by
        have := congrArg List.length hS.2.2
        simpa using this
      constructor
      · rintro ⟨hc, hv⟩
        refine ⟨by omega, fun x hx => ?_⟩
        obtain ⟨q, hq, rfl⟩ := Finset.mem_image.1 hx
        rw [List.mem_toFinset] at hq
        have := ((facet_iff (hdist c hc) k (by omega)).1 hv).2.2 q hq
        rw [vertex_tableOf (hrow c hc).1, mem_row_iff hS.1 (surface_row hS hc).2 (hget q hq)] at this
        exact this
      · rintro ⟨hc, hx⟩
        have hc' : c < rows.length := by omega
        refine ⟨hc', (facet_iff (hdist c hc') k (by omega)).2 ⟨hk1, hk2, fun q hq => ?_⟩⟩
        rw [vertex_tableOf (hrow c hc').1, mem_row_iff hS.1 (surface_row hS hc').2 (hget q hq)]
        exact hx _ (Finset.mem_image.2 ⟨q, List.mem_toFinset.2 hq, rfl⟩)
    · have : {c | c < rows.length ∧ ∃ v < 3, IsFacet (tableOf rows) 3 c v k} = ∅ := by
        ext c
        simp only [Set.mem_ofPred_eq, Set.mem_empty_iff_false, iff_false]
        rintro ⟨hc, hv⟩
        exact hemp ⟨c, hc, hv⟩
      rw [this, Set.ncard_empty]
  intro m hm
  cases m with
  | false => rfl
  | true =>
    exfalso
    obtain ⟨i, hi, e⟩ := List.getElem_of_mem hm
    have hin : (t.facets[i]'(by omega), true) ∈ t.facets.zip t.markers := by
      refine List.mem_of_getElem? (i := i) ?_
      rw [List.getElem?_zip_eq_some]
      exact ⟨List.getElem?_eq_getElem (by omega), by rw [List.getElem?_eq_getElem hi, e]⟩
    have := List.count_pos_iff.2 hin
    rw [(ht3 _).1, hev] at this
    omega

/-- C159 (proved part), the call `surface()`: if the last face is not on the boundary and as many nodes are marked as the
boundary faces have, the mesh it returns is closed, and its edges are three for every two boundary faces.  Missing: meshes
whose last face is on the boundary, for which the call is undefined (C99_bug_last_face). -/
theorem C159_surface_call_partial (cells : Nat → Nat → Nat) (n : Nat) (h : DistinctCells cells 4 n) :
    ∃ s, build3 cells n = .ok s ∧ ∀ all : List Nat, s.markers.getLast? ≠ some true → all.Nodup →
      (∀ x, x ∈ all ↔ ∃ f ∈ boundaryFaces s.facets s.markers, x ∈ f) →
      ∃ ids rows t, surface s.facets s.markers all.length = .ok (ids, rows) ∧
        rows.length = s.markers.count true ∧ build2 (tableOf rows) rows.length = .ok t ∧
        (∀ m ∈ t.markers, m = false) ∧ 2 * t.facets.length = 3 * s.markers.count true := by
  obtain ⟨s, h1, h2⟩ := build3_count h
  obtain ⟨s', h1', h3⟩ := C159_surface_closed cells n h
  rw [h1] at h1'
  cases h1'
  refine ⟨s, h1, fun all hlast hnd hall => ?_⟩
  obtain ⟨ids, rows, e, _, hS⟩ := C99_surface_partial s.facets s.markers all.length h2.lm hlast all hnd hall rfl
  obtain ⟨t, ht, htl, hm⟩ := h3 ids rows hS
  have hlen : rows.length = s.markers.count true := by
    have := congrArg List.length hS.2.2
    rw [count_markers h2.lm]
    simpa using this
  refine ⟨ids, rows, t, e, hlen, ht, hm, ?_⟩
  have hdist : DistinctCells (tableOf rows) 3 rows.length := (surface_rows h h2 hS).2
  obtain ⟨t', ht', hc⟩ := C159_count2 _ _ hdist
  rw [ht] at ht'
  cases ht'
  have : t.markers.count true = 0 := by
    rw [List.count_eq_zero]
    intro hin
    exact absurd (hm _ hin) (by decide)
  rw [this] at hc
  omega

example : DistinctCells star3 4 5 ∧
    (build3 star3 5 >>= fun s => surface s.facets s.markers 8 >>= fun r =>
      (fun t : FSt => (t.facets.length, t.markers.count true, s.markers.count true)) <$>
        build2 (tableOf r.2) r.2.length) = .ok (18, 0, 12) :=
  ⟨by unfold DistinctCells; decide +kernel, by decide +kernel⟩

example : (fun s : FSt => (s.facets.zip s.markers)) <$> build2 demoBook 3 =
    .ok [([0, 1], false), ([0, 2], true), ([1, 2], true), ([1, 3], true), ([0, 3], true), ([0, 1], true), ([0, 4], true),
      ([1, 4], true)] := by decide +kernel

end Fdapde.Triang
