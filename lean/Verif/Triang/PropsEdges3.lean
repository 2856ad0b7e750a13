import Verif.Triang.Lemmas3
import Verif.Triang.Props
/- C97: edge tables of 3D triangulations; C98: boundary cells. -/
namespace Fdapde.Triang

/-- `k` is an edge of tetrahedron `c`: two of its vertices, in increasing order. -/
def IsEdge (cells : Nat → Nat → Nat) (c : Nat) (k : List Nat) : Prop :=
  ∃ x y, x < y ∧ Vertex cells 4 c x ∧ Vertex cells 4 c y ∧ k = [x, y]

theorem edge_iff {cells : Nat → Nat → Nat} {pat : List (List Nat)} (hp : PatOK 4 pat) {c : Nat}
    (hd : Distinct cells 4 c) (k : Key) :
    (∃ j < 4, k ∈ edgeKeys epat3 (kap cells pat (c, j))) ↔ IsEdge cells c k := by
  constructor
  · rintro ⟨j, hj, hk⟩
    have hf := kap_isFacet (cells := cells) (o := (c, j)) hp hd hj
    rw [mem_edgeKeys hf.1 (kap_length hp hj)] at hk
    obtain ⟨x, hx, y, hy, hxy, rfl⟩ := hk
    obtain ⟨w, h1, _, h2⟩ := (hf.2 x).1 hx
    obtain ⟨u, h3, _, h4⟩ := (hf.2 y).1 hy
    exact ⟨x, y, hxy, ⟨w, h1, h2⟩, ⟨u, h3, h4⟩, rfl⟩
  · rintro ⟨x, y, hxy, ⟨w, hw, rfl⟩, ⟨u, hu, rfl⟩, rfl⟩
    have : ∃ v < 4, w ≠ v ∧ u ≠ v := by
      by_cases h0 : w ≠ 0 ∧ u ≠ 0
      · exact ⟨0, by omega, h0⟩
      · by_cases h1 : w ≠ 1 ∧ u ≠ 1
        · exact ⟨1, by omega, h1⟩
        · exact ⟨2, by omega, by omega, by omega⟩
    obtain ⟨v, hv, h1, h2⟩ := this
    have hf := kap_isFacet (cells := cells) (o := (c, 3 - v)) hp hd (by simp only; omega)
    refine ⟨3 - v, by omega, ?_⟩
    rw [mem_edgeKeys hf.1 (kap_length hp (by simp only; omega))]
    have e : 4 - 1 - (3 - v) = v := by omega
    simp only [e] at hf
    exact ⟨_, (hf.2 _).2 ⟨w, hw, h1, rfl⟩, _, (hf.2 _).2 ⟨u, hu, h2, rfl⟩, hxy, rfl⟩

def pat3 : List (List Nat) := [[0, 1, 2], [0, 1, 3], [0, 2, 3], [1, 2, 3]]

theorem build3e_inv {cells : Nat → Nat → Nat} (nb : Nat → Bool) {n : Nat} (hm : Manifold cells 4 n) :
    ∃ s, build3e cells nb n = .ok s ∧ build3 cells n = .ok s.f ∧ EInv cells nb pat3 (occ n 4) s := by
  have hp : PatOK 4 pat3 := patOK3
  obtain ⟨s, h1, h2⟩ := foldRes_inv (edgeStep cells nb pat3 epat3) (EInv cells nb pat3) (occ n 4)
    (fun done o rest s hl hi => einv_step hp (fun c hc => hm.distinct c hc) (inst_le_two hp hm) done o rest s hl hi)
    ESt.init (einv_init cells nb pat3)
  refine ⟨s, ?_, ?_, h2⟩
  · rw [build3e, comb3, comb2, Res.ok_bind, Res.ok_bind, ← h1]
    unfold occ
    rw [← foldRes_flatMap]
    congr 1
  · rw [build3, comb3, Res.ok_bind, ← h2.run]
    unfold occ facetLoop
    rw [← foldRes_flatMap]
    congr 1

theorem EInv.edgeMem {cells : Nat → Nat → Nat} {nb : Nat → Bool} {n : Nat} (hm : Manifold cells 4 n) {s : ESt}
    (hi : EInv cells nb pat3 (occ n 4) s) (k : Key) : k ∈ s.edges ↔ ∃ c < n, IsEdge cells c k := by
  rw [hi.sub.mem]
  constructor
  · rintro ⟨⟨c, k'⟩, ho, rfl⟩
    obtain ⟨j, h1, h2⟩ := mem_eocc.1 ho
    obtain ⟨hc, hj⟩ := mem_occ.1 h1
    exact ⟨c, hc, (edge_iff patOK3 (hm.distinct c hc) k').1 ⟨j, hj, h2⟩⟩
  · rintro ⟨c, hc, hk⟩
    obtain ⟨j, hj, h2⟩ := (edge_iff patOK3 (hm.distinct c hc) k).2 hk
    exact ⟨(c, k), mem_eocc.2 ⟨j, mem_occ.2 ⟨hc, hj⟩, h2⟩, rfl⟩

theorem EInv.cellMem {cells : Nat → Nat → Nat} {nb : Nat → Bool} {n : Nat} (hm : Manifold cells 4 n) {s : ESt}
    (hi : EInv cells nb pat3 (occ n 4) s) (id d : Nat) :
    d ∈ s.edgeCells id ↔ ∃ k, s.edges[id]? = some k ∧ d < n ∧ IsEdge cells d k := by
  rw [hi.sub.cells]
  constructor
  · rintro ⟨k, ho, hk⟩
    obtain ⟨j, h1, h2⟩ := mem_eocc.1 ho
    obtain ⟨hc, hj⟩ := mem_occ.1 h1
    exact ⟨k, hk, hc, (edge_iff patOK3 (hm.distinct d hc) k).1 ⟨j, hj, h2⟩⟩
  · rintro ⟨k, hk, hc, he⟩
    obtain ⟨j, hj, h2⟩ := (edge_iff patOK3 (hm.distinct d hc) k).2 he
    exact ⟨k, mem_eocc.2 ⟨j, mem_occ.2 ⟨hc, hj⟩, h2⟩, hk⟩

theorem EInv.faceEdge {cells : Nat → Nat → Nat} {nb : Nat → Bool} {pat : List (List Nat)} {done : List (Nat × Nat)}
    {s : ESt} (hi : EInv cells nb pat done s) {h : Nat} {f : Key} (hf : s.f.facets[h]? = some f) {e : Nat} (he : e < 3) :
    ∃ id k, s.faceEdges[h * 3 + e]? = some id ∧ (edgeKeys epat3 f)[e]? = some k ∧ s.edges[id]? = some k := by
  have h1 := getElem?_flatMap3 (edgeKeys epat3) edgeKeys_length s.f.facets h e he f hf
  have h2 : e < (edgeKeys epat3 f).length := by rw [edgeKeys_length]; exact he
  rw [List.getElem?_eq_getElem h2] at h1
  have h3 : (s.faceEdges.map fun id => s.edges[id]?)[h * 3 + e]? = some (some (edgeKeys epat3 f)[e]) := by
    rw [hi.sub.fe, List.getElem?_map, h1]; rfl
  rw [List.getElem?_map, Option.map_eq_some_iff] at h3
  obtain ⟨id, h4, h5⟩ := h3
  exact ⟨id, _, h4, List.getElem?_eq_getElem h2, h5⟩

/-- C97 (edges): for every tetrahedral mesh and every marking of the nodes the constructor succeeds, with the face
tables of C23, and `edges()` lists every pair of vertices of a cell exactly once; `edge_to_cells()` gives for every edge
exactly the cells having both its ends as vertices. -/
theorem C97_edges (cells : Nat → Nat → Nat) (nb : Nat → Bool) (n : Nat) (hm : Manifold cells 4 n) :
    ∃ s, build3e cells nb n = .ok s ∧ build3 cells n = .ok s.f ∧ s.edges.Nodup ∧
      (∀ k, k ∈ s.edges ↔ ∃ c < n, IsEdge cells c k) ∧
      (∀ (id x y : Nat), s.edges[id]? = some [x, y] →
        ∀ d, d ∈ s.edgeCells id ↔ d < n ∧ Vertex cells 4 d x ∧ Vertex cells 4 d y) := by
  obtain ⟨s, h1, h2, hi⟩ := build3e_inv nb hm
  refine ⟨s, h1, h2, hi.sub.nodup, hi.edgeMem hm, ?_⟩
  intro id x y hk d
  rw [hi.cellMem hm]
  constructor
  · rintro ⟨k, hk', hd, x', y', _, hx, hy, rfl⟩
    rw [hk] at hk'
    obtain ⟨rfl, rfl⟩ : x = x' ∧ y = y' := by simpa using hk'
    exact ⟨hd, hx, hy⟩
  · rintro ⟨hd, hx, hy⟩
    obtain ⟨c, hc, x', y', hxy, _, _, e⟩ := (hi.edgeMem hm _).1 (List.mem_of_getElem? hk)
    obtain ⟨rfl, rfl⟩ : x = x' ∧ y = y' := by simpa using e
    exact ⟨_, hk, hd, x, y, hxy, hx, hy, rfl⟩

/-- C97 (faces and edges): row `h` of `face_to_edges()` lists the three edges of face `h`. -/
theorem C97_face_edges (cells : Nat → Nat → Nat) (nb : Nat → Bool) (n : Nat) (hm : Manifold cells 4 n) :
    ∃ s, build3e cells nb n = .ok s ∧ s.faceEdges.length = 3 * s.f.facets.length ∧
      ∀ (h : Nat) f, s.f.facets[h]? = some f → ∃ a b c i j l : Nat, a < b ∧ b < c ∧ f = [a, b, c] ∧
        s.faceEdges[h * 3]? = some i ∧ s.edges[i]? = some [a, b] ∧
        s.faceEdges[h * 3 + 1]? = some j ∧ s.edges[j]? = some [a, c] ∧
        s.faceEdges[h * 3 + 2]? = some l ∧ s.edges[l]? = some [b, c] := by
  obtain ⟨s, h1, h2, hi⟩ := build3e_inv nb hm
  refine ⟨s, h1, ?_, ?_⟩
  · have := congrArg List.length hi.sub.fe
    simp only [List.length_map, List.length_flatMap, edgeKeys_length] at this
    rw [this]
    simp
    omega
  · intro h f hf
    obtain ⟨c, hc, v, hv, hfc⟩ : ∃ c < n, ∃ v < 4, IsFacet cells 4 c v f := by
      obtain ⟨s', a1, a2⟩ := build3_spec hm
      rw [h2] at a1
      cases a1
      exact (a2.mem f).1 (List.mem_of_getElem? hf)
    have hlen : f.length = 3 := by
      have e : f = kap cells pat3 (c, 3 - v) := by
        refine isFacet_unique hfc ?_
        have := kap_isFacet (cells := cells) (o := (c, 3 - v)) (pat := pat3) patOK3 (hm.distinct c hc) (by simp only; omega)
        have e : 4 - 1 - (3 - v) = v := by omega
        simpa only [e] using this
      rw [e]; exact kap_length patOK3 (by simp only; omega)
    match f, hlen with
    | [a, b, c], _ =>
      have hs := hfc.1
      simp only [List.pairwise_cons, List.mem_cons, List.not_mem_nil, or_false, forall_eq_or_imp, forall_eq] at hs
      obtain ⟨⟨hab, hac⟩, hbc, _⟩ := hs
      have e : edgeKeys epat3 [a, b, c] = [[a, b], [a, c], [b, c]] := by
        simp [edgeKeys, epat3, List.insertionSort, List.orderedInsert, Nat.le_of_lt hab, Nat.le_of_lt hac, Nat.le_of_lt hbc]
      obtain ⟨i, k0, a0, b0, c0⟩ := hi.faceEdge hf (e := 0) (by omega)
      obtain ⟨j, k1, a1, b1, c1⟩ := hi.faceEdge hf (e := 1) (by omega)
      obtain ⟨l, k2, a2, b2, c2⟩ := hi.faceEdge hf (e := 2) (by omega)
      rw [e] at b0 b1 b2
      simp at b0 b1 b2
      subst b0 b1 b2
      exact ⟨a, b, c, i, j, l, hab, hbc, rfl, a0, c0, a1, c1, a2, c2⟩

/-- Six pairs of four numbers. -/
theorem six {P : List (List Nat)} {a b c d : Nat} (hab : a < b) (hbc : b < c) (hcd : c < d) (hP : P.Nodup)
    (h : ∀ k, k ∈ P ↔ ∃ x y, x < y ∧ x ∈ [a, b, c, d] ∧ y ∈ [a, b, c, d] ∧ k = [x, y]) : P.length = 6 := by
  have hp : P.Perm [[a, b], [a, c], [a, d], [b, c], [b, d], [c, d]] := by
    refine (List.perm_ext_iff_of_nodup hP ?_).2 ?_
    · simp only [List.nodup_cons, List.mem_cons, List.not_mem_nil, List.cons.injEq, and_true, or_false,
        List.nodup_nil, not_false_eq_true]
      omega
    · intro k
      rw [h]
      simp only [List.mem_cons, List.not_mem_nil, or_false]
      constructor
      · rintro ⟨x, y, hxy, hx, hy, rfl⟩
        simp only [List.cons.injEq, and_true]
        omega
      · rintro (rfl | rfl | rfl | rfl | rfl | rfl)
        · exact ⟨a, b, hab, by simp, by simp, rfl⟩
        · exact ⟨a, c, by omega, by simp, by simp, rfl⟩
        · exact ⟨a, d, by omega, by simp, by simp, rfl⟩
        · exact ⟨b, c, by omega, by simp, by simp, rfl⟩
        · exact ⟨b, d, by omega, by simp, by simp, rfl⟩
        · exact ⟨c, d, by omega, by simp, by simp, rfl⟩
  rw [hp.length_eq]; rfl

/-- C97 (edges of a tetrahedron): the edge ids collected for a cell are exactly the ids of its edges, and there are six
of them, as many as the array they are copied to can hold. -/
theorem C97_cell_edges (cells : Nat → Nat → Nat) (nb : Nat → Bool) (n : Nat) (hm : Manifold cells 4 n) :
    ∃ s, build3e cells nb n = .ok s ∧ ∀ c < n, ∃ l, tetEdges s c = .ok l ∧ l.Nodup ∧ l.length = 6 ∧
      ∀ id, id ∈ l ↔ ∃ k, s.edges[id]? = some k ∧ IsEdge cells c k := by
  obtain ⟨s, h1, h2, hi⟩ := build3e_inv nb hm
  refine ⟨s, h1, ?_⟩
  intro c hc
  have inner : ∀ i < 4, ∀ acc : List Nat, acc.Nodup → ∃ acc', (Res.ofOptionUB (s.f.cellTo c i) >>= fun face =>
      foldRes (fun acc j => (fun id => acc.insert id) <$> Res.ofOptionUB (s.faceEdges[face * 3 + j]?)) acc
        (List.range 3)) = .ok acc' ∧ acc'.Nodup ∧
      ∀ id, id ∈ acc' ↔ id ∈ acc ∨ ∃ k ∈ edgeKeys epat3 (kap cells pat3 (c, i)), s.edges[id]? = some k := by
    intro i hi4 acc hacc
    obtain ⟨h, hh, hf⟩ := hi.finv.cellTo (c, i) (mem_occ.2 ⟨hc, hi4⟩)
    dsimp only at hh
    rw [hh, Res.ofOptionUB_some, Res.ok_bind]
    obtain ⟨i0, k0, a0, b0, c0⟩ := hi.faceEdge hf (e := 0) (by omega)
    obtain ⟨i1, k1, a1, b1, c1⟩ := hi.faceEdge hf (e := 1) (by omega)
    obtain ⟨i2, k2, a2, b2, c2⟩ := hi.faceEdge hf (e := 2) (by omega)
    have e3 : edgeKeys epat3 (kap cells pat3 (c, i)) = [k0, k1, k2] := by
      apply List.ext_getElem?
      intro j
      rcases j with _ | _ | _ | j
      · rw [b0]; rfl
      · rw [b1]; rfl
      · rw [b2]; rfl
      · rw [List.getElem?_eq_none (by rw [edgeKeys_length]; omega)]; rfl
    refine ⟨((acc.insert i0).insert i1).insert i2, ?_, hacc.insert.insert.insert, ?_⟩
    · have : List.range 3 = [0, 1, 2] := rfl
      rw [this]
      simp [foldRes_cons, a0, a1, a2] at a0 ⊢
    · have uniq : ∀ {id j : Nat} {k : Key}, s.edges[j]? = some k → (s.edges[id]? = some k ↔ id = j) := by
        intro id j k hj
        constructor
        · intro hid
          have x1 := (hi.sub.emap k id).2 hid
          have x2 := (hi.sub.emap k j).2 hj
          rw [x1] at x2
          exact Option.some.inj x2
        · rintro rfl; exact hj
      intro id
      rw [e3]
      simp only [List.mem_insert_iff, List.mem_cons, List.not_mem_nil, or_false, exists_eq_or_imp, exists_eq_left,
        uniq c0, uniq c1, uniq c2]
      tauto
  obtain ⟨l, hl, hn, hmem⟩ := foldRes_inv
    (fun acc i => Res.ofOptionUB (s.f.cellTo c i) >>= fun face =>
      foldRes (fun acc j => (fun id => acc.insert id) <$> Res.ofOptionUB (s.faceEdges[face * 3 + j]?)) acc (List.range 3))
    (fun done acc => acc.Nodup ∧ ∀ id, id ∈ acc ↔ ∃ i ∈ done, ∃ k ∈ edgeKeys epat3 (kap cells pat3 (c, i)),
      s.edges[id]? = some k) (List.range 4)
    (by
      intro done i rest acc hlist hacc
      have hi4 : i < 4 := List.mem_range.1 (by rw [hlist]; simp)
      obtain ⟨acc', x1, x2, x3⟩ := inner i hi4 acc hacc.1
      refine ⟨acc', x1, x2, ?_⟩
      intro id
      rw [x3, hacc.2]
      simp only [List.mem_append, List.mem_singleton]
      constructor
      · rintro (⟨j, hj, hk⟩ | hk)
        · exact ⟨j, Or.inl hj, hk⟩
        · exact ⟨i, Or.inr rfl, hk⟩
      · rintro ⟨j, hj | rfl, hk⟩
        · exact Or.inl ⟨j, hj, hk⟩
        · exact Or.inr hk)
    [] ⟨List.nodup_nil, by simp⟩
  have hmem' : ∀ id, id ∈ l ↔ ∃ k, s.edges[id]? = some k ∧ IsEdge cells c k := by
    intro id
    rw [hmem]
    constructor
    · rintro ⟨i, hi4, k, hk, he⟩
      exact ⟨k, he, (edge_iff patOK3 (hm.distinct c hc) k).1 ⟨i, List.mem_range.1 hi4, hk⟩⟩
    · rintro ⟨k, he, hk⟩
      obtain ⟨j, hj, hk'⟩ := (edge_iff patOK3 (hm.distinct c hc) k).2 hk
      exact ⟨j, List.mem_range.2 hj, k, hk', he⟩
  refine ⟨l, hl, hn, ?_, hmem'⟩
  -- the six edges
  have hq := key_perm cells c [0, 1, 2, 3]
  have hqs := key_sorted cells c [0, 1, 2, 3]
  have hqn : (key cells c [0, 1, 2, 3]).Nodup := by
    rw [hq.nodup_iff]
    refine List.Nodup.map_on ?_ (by decide)
    intro x hx y hy
    exact hm.distinct c hc x (by simp at hx; omega) y (by simp at hy; omega)
  have hqv : ∀ x, x ∈ key cells c [0, 1, 2, 3] ↔ Vertex cells 4 c x := by
    intro x
    rw [hq.mem_iff, List.mem_map]
    constructor
    · rintro ⟨w, hw, e⟩; exact ⟨w, by simp at hw; omega, e⟩
    · rintro ⟨w, hw, e⟩; exact ⟨w, by simp; omega, e⟩
  have hql : (key cells c [0, 1, 2, 3]).length = 4 := by rw [hq.length_eq]; rfl
  generalize key cells c [0, 1, 2, 3] = q at hqs hqn hqv hql
  match q, hql with
  | [x0, x1, x2, x3], _ =>
    simp only [List.pairwise_cons, List.mem_cons, List.not_mem_nil, or_false, forall_eq_or_imp, forall_eq] at hqs
    simp only [List.nodup_cons, List.mem_cons, List.not_mem_nil, or_false] at hqn
    rw [← List.length_map (f := fun id => s.edges.getD id [])]
    refine six (a := x0) (b := x1) (c := x2) (d := x3) (by omega) (by omega) (by omega) ?_ ?_
    · refine List.Nodup.map_on ?_ hn
      intro i hi1 j hj1 e
      obtain ⟨ki, hki, _⟩ := (hmem' i).1 hi1
      obtain ⟨kj, hkj, _⟩ := (hmem' j).1 hj1
      simp only [List.getD_eq_getElem?_getD, hki, hkj, Option.getD_some] at e
      subst e
      have y1 := (hi.sub.emap ki i).2 hki
      have y2 := (hi.sub.emap ki j).2 hkj
      rw [y1] at y2
      exact Option.some.inj y2
    · intro k
      rw [List.mem_map]
      constructor
      · rintro ⟨id, hid, rfl⟩
        obtain ⟨k, hk, x, y, hxy, hx, hy, rfl⟩ := (hmem' id).1 hid
        refine ⟨x, y, hxy, (hqv x).2 hx, (hqv y).2 hy, ?_⟩
        simp [List.getD_eq_getElem?_getD, hk]
      · rintro ⟨x, y, hxy, hx, hy, rfl⟩
        have he : IsEdge cells c [x, y] := ⟨x, y, hxy, (hqv x).1 hx, (hqv y).1 hy, rfl⟩
        obtain ⟨id, hid, e⟩ := List.getElem_of_mem ((hi.edgeMem hm _).2 ⟨c, hc, he⟩)
        have hk : s.edges[id]? = some [x, y] := by rw [List.getElem?_eq_getElem hid, e]
        refine ⟨id, (hmem' id).2 ⟨_, hk, he⟩, ?_⟩
        simp [List.getD_eq_getElem?_getD, hk]

/-- C97 (markers, what is computed): an edge is marked exactly when both its nodes are. -/
theorem C97_markers (cells : Nat → Nat → Nat) (nb : Nat → Bool) (n : Nat) (hm : Manifold cells 4 n) :
    ∃ s, build3e cells nb n = .ok s ∧ s.emarks.length = s.edges.length ∧
      ∀ (id x y : Nat), s.edges[id]? = some [x, y] → s.emarks[id]? = some (nb x && nb y) := by
  obtain ⟨s, h1, _, hi⟩ := build3e_inv nb hm
  refine ⟨s, h1, by rw [hi.sub.marks, List.length_map], ?_⟩
  intro id x y hk
  rw [hi.sub.marks, List.getElem?_map, hk]; rfl

/-- The nodes of the boundary facets are marked. -/
def MarksBoundary (cells : Nat → Nat → Nat) (nn n : Nat) (nb : Nat → Bool) : Prop :=
  ∀ c < n, ∀ v < nn, (∀ d < n, d ≠ c → ¬ Shares cells nn c v d) → ∀ w < nn, w ≠ v → nb (cells c w) = true

/-- C97 (boundary edges, proved part): if the marking of the nodes covers the boundary, every edge of a face that is in
one cell only is marked on the boundary.  Missing: that only those edges are marked, which is false. -/
theorem C97_boundary_partial (cells : Nat → Nat → Nat) (nb : Nat → Bool) (n : Nat) (hm : Manifold cells 4 n)
    (hnb : MarksBoundary cells 4 n nb) :
    ∃ s, build3e cells nb n = .ok s ∧ ∀ (id x y : Nat), s.edges[id]? = some [x, y] →
      (∃ c < n, ∃ v < 4, (∀ d < n, d ≠ c → ¬ Shares cells 4 c v d) ∧
        (∃ w < 4, w ≠ v ∧ cells c w = x) ∧ (∃ w < 4, w ≠ v ∧ cells c w = y)) →
      s.emarks[id]? = some true := by
  obtain ⟨s, h1, _, h3⟩ := C97_markers cells nb n hm
  refine ⟨s, h1, ?_⟩
  rintro id x y hk ⟨c, hc, v, hv, hb, ⟨w, hw, hwv, rfl⟩, ⟨u, hu, huv, rfl⟩⟩
  rw [h3 id _ _ hk, hnb c hc v hv hb w hw hwv, hnb c hc v hv hb u hu huv]; rfl

/-- Octahedron cut in four tetrahedra around the segment joining nodes 0 and 1. -/
def octa : Nat → Nat → Nat :=
  fun c v => (([[0, 1, 2, 3], [0, 1, 3, 4], [0, 1, 4, 5], [0, 1, 5, 2]] : List (List Nat)).getD c []).getD v 0

set_option synthInstance.maxSize 4096 in
set_option synthInstance.maxHeartbeats 400000 in
theorem octa_manifold : Manifold octa 4 4 := ⟨by decide +kernel, by decide +kernel⟩

/-- C97 (finding): an edge inside the domain whose two ends are on the boundary is reported as a boundary edge.  In the
octahedron cut around the segment 0-1 every node is on the boundary, the segment is interior (no boundary face contains
it), and it is marked. -/
theorem C97_bug_interior_edge : Manifold octa 4 4 ∧ MarksBoundary octa 4 4 (fun _ => true) ∧
    (∀ c < 4, ∀ v < 4, (∀ d < 4, d ≠ c → ¬ Shares octa 4 c v d) → octa c v = 0 ∨ octa c v = 1) ∧
    (fun s : ESt => (s.edges[0]?, s.emarks[0]?)) <$> build3e octa (fun _ => true) 4 = .ok (some [0, 1], some true) :=
  ⟨octa_manifold, fun _ _ _ _ _ _ _ _ => rfl, by decide +kernel, by decide +kernel⟩

example : Manifold demo3 4 2 ∧ MarksBoundary demo3 4 2 (fun _ => true) ∧
    (fun s : ESt => (s.edges, s.edgeCells 3, s.faceEdges.take 6)) <$> build3e demo3 (fun _ => true) 2 =
      Res.ok ([[0, 1], [0, 2], [1, 2], [0, 3], [1, 3], [2, 3], [1, 4], [3, 4], [2, 4]], [0], [0, 1, 2, 0, 3, 4]) ∧
    (fun s : ESt => s.edgeCells 4) <$> build3e demo3 (fun _ => true) 2 = Res.ok [1, 0] :=
  ⟨demo3_manifold, fun _ _ _ _ _ _ _ _ => rfl, by decide +kernel, by decide +kernel⟩

/-- C98 (proved part): if the marking of the nodes covers the boundary, a cell with a facet that no other cell has is
reported on the boundary (cells with any number of nodes).  Missing: that other cells are not, which is false. -/
theorem C98_boundary_cell_partial (cells : Nat → Nat → Nat) (nn n : Nat) (nb : Nat → Bool)
    (hnb : MarksBoundary cells nn n nb) (c v : Nat) (hc : c < n) (hv : v < nn)
    (hb : ∀ d < n, d ≠ c → ¬ Shares cells nn c v d) : cellOnBoundary cells nb nn c = true := by
  unfold cellOnBoundary
  rw [decide_eq_true_eq]
  have h1 : (List.range nn).countP (fun w => decide (w ≠ v)) ≤ (List.range nn).countP fun w => nb (cells c w) := by
    refine List.countP_mono_left ?_
    intro w hw hwv
    exact hnb c hc v hv hb w (List.mem_range.1 hw) (by simpa using hwv)
  have h2 : (List.range nn).countP (fun w => decide (w ≠ v)) + (List.range nn).count v = nn := by
    have := List.length_eq_countP_add_countP (fun w => decide (w = v)) (l := List.range nn)
    rw [List.length_range] at this
    rw [List.count_eq_countP]
    have e : (fun w : Nat => w == v) = fun w => decide (w = v) := by funext w; rfl
    rw [e]
    have e' : (fun w : Nat => decide (w ≠ v)) = fun w => decide ¬ (decide (w = v) = true) := by funext w; simp
    rw [e']
    omega
  have h3 : (List.range nn).count v ≤ 1 := List.nodup_iff_count_le_one.1 List.nodup_range v
  omega

/-- C98 (what is computed): a cell is reported on the boundary exactly when at most one of its nodes is not marked. -/
theorem C98_iff (cells : Nat → Nat → Nat) (nb : Nat → Bool) (nn c : Nat) :
    cellOnBoundary cells nb nn c = true ↔
      ∀ v < nn, ∀ w < nn, nb (cells c v) = false → nb (cells c w) = false → v = w := by
  unfold cellOnBoundary
  rw [decide_eq_true_eq]
  have h := List.length_eq_countP_add_countP (fun v => nb (cells c v)) (l := List.range nn)
  rw [List.length_range] at h
  have e : (List.range nn).countP (fun v => decide ¬ nb (cells c v) = true) =
      ((List.range nn).filter fun v => !nb (cells c v)).length := by
    rw [List.countP_eq_length_filter]
    congr 1
    apply List.filter_congr
    intro v _
    cases nb (cells c v) <;> rfl
  rw [e] at h
  have hn : ((List.range nn).filter fun v => !nb (cells c v)).Nodup := List.nodup_range.filter _
  have hmem : ∀ v, v ∈ ((List.range nn).filter fun v => !nb (cells c v)) ↔ v < nn ∧ nb (cells c v) = false := by
    intro v; simp
  generalize ((List.range nn).filter fun v => !nb (cells c v)) = l at h hn hmem
  constructor
  · intro h1 v hv w hw h2 h3
    have a1 := (hmem v).2 ⟨hv, h2⟩
    have a2 := (hmem w).2 ⟨hw, h3⟩
    match l, (by omega : l.length ≤ 1) with
    | [], _ => simp at a1
    | [x], _ => simp at a1 a2; omega
  · intro h1
    match l with
    | [] => simp at h; omega
    | [x] => simp at h; omega
    | x :: y :: t =>
      have a1 := (hmem x).1 (by simp)
      have a2 := (hmem y).1 (by simp)
      have := h1 x a1.1 y a2.1 a1.2 a2.2
      subst this
      simp at hn

/-- Triangle with vertices 0, 1, 2 split in four through the midpoints 3, 4, 5 of its sides. -/
def redTri : Nat → Nat → Nat :=
  fun c v => (([[0, 3, 5], [3, 1, 4], [5, 4, 2], [3, 4, 5]] : List (List Nat)).getD c []).getD v 0

set_option synthInstance.maxSize 4096 in
set_option synthInstance.maxHeartbeats 400000 in
/-- C98 (finding): a triangle none of whose edges is on the boundary is reported on the boundary if two of its vertices
are.  In a triangle split in four through the midpoints of its sides, the central cell has all its vertices on the
boundary and a neighbour across each edge. -/
theorem C98_bug_inner_cell : Manifold redTri 3 4 ∧ MarksBoundary redTri 3 4 (fun _ => true) ∧
    (∀ v < 3, ∃ d < 4, d ≠ 3 ∧ Shares redTri 3 3 v d) ∧ cellOnBoundary redTri (fun _ => true) 3 3 = true :=
  ⟨⟨by decide +kernel, by decide +kernel⟩, fun _ _ _ _ _ _ _ _ => rfl, by decide +kernel, by decide +kernel⟩

example : cellOnBoundary demo2 (fun x => x != 1) 3 0 = true ∧ cellOnBoundary demo2 (fun x => x == 1) 3 0 = false :=
  ⟨by decide, by decide⟩

end Fdapde.Triang
