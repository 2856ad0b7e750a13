import Verif.Triang.Edges3
import Verif.Triang.Lemmas2
/- Lemmas on the edge tables. -/
namespace Fdapde.Triang

/-- What the edge tables contain when the edges of `rows` were listed for the faces, and the pairs (cell, edge) of `occs`
were recorded. -/
structure SubInv (nb : Nat → Bool) (occs : List (Nat × Key)) (rows : List Key) (s : ESt) : Prop where
  nodup : s.edges.Nodup
  emap : ∀ k id, s.emap k = some id ↔ s.edges[id]? = some k
  nid : s.edgeId = s.edges.length
  marks : s.emarks = s.edges.map fun k => nb (k.getD 0 0) && nb (k.getD 1 0)
  fe : s.faceEdges.map (fun id => s.edges[id]?) = rows.map some
  mem : ∀ k, k ∈ s.edges ↔ ∃ o ∈ occs, o.2 = k
  cells : ∀ id d, d ∈ s.edgeCells id ↔ ∃ k, (d, k) ∈ occs ∧ s.edges[id]? = some k

theorem mem_insertCell (t : Nat → List Nat) (id i x d : Nat) :
    d ∈ insertCell t id i x ↔ d ∈ t x ∨ (x = id ∧ d = i) := by
  unfold insertCell
  split
  · subst x; rw [List.mem_insert_iff]; tauto
  · simp [*]

theorem subInv_add {nb : Nat → Bool} {occs : List (Nat × Key)} {rows : List Key} {s : ESt} (h : SubInv nb occs rows s)
    (i : Nat) (k : Key) : SubInv nb (occs ++ [(i, k)]) (rows ++ [k]) (addEdge nb i s k) := by
  have bound : ∀ {id : Nat} {k' : Key}, s.edges[id]? = some k' → id < s.edges.length := by
    intro id k' he; exact (List.getElem?_eq_some_iff.1 he).1
  unfold addEdge
  cases hk : s.emap k with
  | none =>
    have hnot : k ∉ s.edges := by
      intro hm
      obtain ⟨id, hid, he⟩ := List.getElem_of_mem hm
      have := (h.emap k id).2 (by rw [List.getElem?_eq_getElem hid, he])
      rw [hk] at this; cases this
    have app : ∀ (id : Nat) (k' : Key), (s.edges ++ [k])[id]? = some k' ↔
        s.edges[id]? = some k' ∨ (id = s.edges.length ∧ k' = k) := by
      intro id k'
      rcases Nat.lt_trichotomy id s.edges.length with hlt | heq | hgt
      · rw [List.getElem?_append_left hlt]
        constructor
        · exact Or.inl
        · rintro (h1 | h1)
          · exact h1
          · omega
      · subst heq
        simp only [List.getElem?_concat_length, true_and]
        constructor
        · intro h1; exact Or.inr (Option.some.inj h1).symm
        · rintro (h1 | h1)
          · exact absurd (bound h1) (by omega)
          · rw [h1]
      · rw [List.getElem?_eq_none (by simp; omega)]
        simp only [reduceCtorEq, false_iff, not_or, not_and]
        exact ⟨fun h1 => absurd (bound h1) (by omega), fun h1 => by omega⟩
    constructor
    · dsimp only
      rw [List.nodup_append]
      exact ⟨h.nodup, by simp, by intro a ha b hb; simp at hb; subst hb; intro e; exact hnot (e ▸ ha)⟩
    · intro k' id
      dsimp only
      rw [app, h.nid]
      by_cases hkk : k' = k
      · subst hkk
        rw [if_pos rfl]
        constructor
        · intro h1; exact Or.inr ⟨(Option.some.inj h1).symm, rfl⟩
        · rintro (h1 | h1)
          · exact absurd (List.mem_of_getElem? h1) hnot
          · rw [h1.1]
      · rw [if_neg hkk, h.emap]
        constructor
        · exact Or.inl
        · rintro (h1 | h1)
          · exact h1
          · exact absurd h1.2 hkk
    · simp [h.nid]
    · simp [h.marks]
    · dsimp only
      rw [List.map_append, List.map_append, ← h.fe]
      congr 1
      · apply List.map_congr_left
        intro id hid
        have hmem : s.edges[id]? ∈ s.faceEdges.map (fun id => s.edges[id]?) := List.mem_map.2 ⟨id, hid, rfl⟩
        rw [h.fe, List.mem_map] at hmem
        obtain ⟨k', _, hk'⟩ := hmem
        rw [← hk']
        exact (app id k').2 (Or.inl hk'.symm)
      · simp [h.nid]
    · intro k'
      simp only [List.mem_append, h.mem, List.mem_singleton]
      constructor
      · rintro (⟨o, ho, e⟩ | e)
        · exact ⟨o, Or.inl ho, e⟩
        · exact ⟨(i, k), Or.inr rfl, e.symm⟩
      · rintro ⟨o, ho | ho, e⟩
        · exact Or.inl ⟨o, ho, e⟩
        · subst ho; exact Or.inr e.symm
    · intro id d
      dsimp only
      rw [mem_insertCell, h.cells]
      constructor
      · rintro (⟨k', h1, h2⟩ | ⟨h1, h2⟩)
        · exact ⟨k', by simp [h1], (app id k').2 (Or.inl h2)⟩
        · subst h2
          refine ⟨k, by simp, (app id k).2 (Or.inr ⟨by rw [h1, h.nid], rfl⟩)⟩
      · rintro ⟨k', h1, h2⟩
        rw [app] at h2
        rw [List.mem_append, List.mem_singleton] at h1
        rcases h1 with h1 | h1
        · rcases h2 with h2 | h2
          · exact Or.inl ⟨k', h1, h2⟩
          · exact absurd ((h.mem k').2 ⟨_, h1, rfl⟩) (h2.2 ▸ hnot)
        · obtain ⟨e1, e2⟩ := Prod.mk.inj h1
          subst e1 e2
          rcases h2 with h2 | h2
          · exact absurd (List.mem_of_getElem? h2) hnot
          · exact Or.inr ⟨by rw [h2.1, h.nid], rfl⟩
  | some id0 =>
    have hid0 := (h.emap k id0).1 hk
    constructor
    · exact h.nodup
    · exact h.emap
    · exact h.nid
    · exact h.marks
    · simp [h.fe, hid0]
    · intro k'
      simp only [h.mem, List.mem_append, List.mem_singleton]
      constructor
      · rintro ⟨o, ho, e⟩; exact ⟨o, Or.inl ho, e⟩
      · rintro ⟨o, ho | ho, e⟩
        · exact ⟨o, ho, e⟩
        · subst ho
          have hm : k ∈ s.edges := List.mem_of_getElem? hid0
          obtain ⟨o', ho', e'⟩ := (h.mem k).1 hm
          exact ⟨o', ho', e'.trans e⟩
    · intro id d
      dsimp only
      rw [mem_insertCell, h.cells]
      constructor
      · rintro (⟨k', h1, h2⟩ | ⟨h1, h2⟩)
        · exact ⟨k', by simp [h1], h2⟩
        · subst h1 h2; exact ⟨k, by simp, hid0⟩
      · rintro ⟨k', h1, h2⟩
        rw [List.mem_append, List.mem_singleton] at h1
        rcases h1 with h1 | h1
        · exact Or.inl ⟨k', h1, h2⟩
        · obtain ⟨e1, e2⟩ := Prod.mk.inj h1
          subst e1 e2
          refine Or.inr ⟨?_, rfl⟩
          have := (h.emap k' id).2 h2
          rw [hk] at this
          exact (Option.some.inj this).symm

theorem addEdge_f (nb : Nat → Bool) (i : Nat) (s : ESt) (k : Key) : (addEdge nb i s k).f = s.f := by
  unfold addEdge; split <;> rfl

theorem subInv_foldl {nb : Nat → Bool} (i : Nat) (ks : List Key) {occs : List (Nat × Key)} {rows : List Key} {s : ESt}
    (h : SubInv nb occs rows s) :
    SubInv nb (occs ++ ks.map (i, ·)) (rows ++ ks) (ks.foldl (addEdge nb i) s) := by
  induction ks generalizing occs rows s with
  | nil => simpa using h
  | cons k ks ih =>
    have := ih (subInv_add h i k)
    simpa using this

theorem SubInv.setF {nb : Nat → Bool} {occs : List (Nat × Key)} {rows : List Key} {s : ESt} (h : SubInv nb occs rows s)
    (f : FSt) : SubInv nb occs rows { s with f := f } := ⟨h.nodup, h.emap, h.nid, h.marks, h.fe, h.mem, h.cells⟩

theorem subInv_touch {nb : Nat → Bool} {occs : List (Nat × Key)} {rows : List Key} {s : ESt} (h : SubInv nb occs rows s)
    (i hf e : Nat) (k : Key) (hr : rows[hf * 3 + e]? = some k) :
    ∃ s', touchEdge i hf s e = .ok s' ∧ s'.f = s.f ∧ SubInv nb (occs ++ [(i, k)]) rows s' := by
  have h1 : (s.faceEdges.map fun id => s.edges[id]?)[hf * 3 + e]? = some (some k) := by rw [h.fe]; simp [hr]
  rw [List.getElem?_map, Option.map_eq_some_iff] at h1
  obtain ⟨id, h2, h3⟩ := h1
  obtain ⟨o, ho, hok⟩ := (h.mem k).1 (List.mem_of_getElem? h3)
  have hne : s.edgeCells id ≠ [] := by
    intro h0
    have : o.1 ∈ s.edgeCells id := (h.cells id o.1).2 ⟨k, by rw [← hok]; exact ho, h3⟩
    rw [h0] at this; cases this
  refine ⟨{ s with edgeCells := insertCell s.edgeCells id i }, ?_, rfl, ?_⟩
  · simp [touchEdge, h2, hne]
  · constructor
    · exact h.nodup
    · exact h.emap
    · exact h.nid
    · exact h.marks
    · exact h.fe
    · intro k'
      simp only [h.mem, List.mem_append, List.mem_singleton]
      constructor
      · rintro ⟨o, ho, e⟩; exact ⟨o, Or.inl ho, e⟩
      · rintro ⟨o', ho' | ho', e'⟩
        · exact ⟨o', ho', e'⟩
        · subst ho'; exact ⟨o, ho, hok.trans e'⟩
    · intro id' d
      dsimp only
      rw [mem_insertCell, h.cells]
      constructor
      · rintro (⟨k', h4, h5⟩ | ⟨h4, h5⟩)
        · exact ⟨k', by simp [h4], h5⟩
        · subst h4 h5; exact ⟨k, by simp, h3⟩
      · rintro ⟨k', h4, h5⟩
        rw [List.mem_append, List.mem_singleton] at h4
        rcases h4 with h4 | h4
        · exact Or.inl ⟨k', h4, h5⟩
        · obtain ⟨e1, e2⟩ := Prod.mk.inj h4
          subst e1 e2
          refine Or.inr ⟨?_, rfl⟩
          have a1 := (h.emap k' id').2 h5
          have a2 := (h.emap k' id).2 h3
          rw [a1] at a2
          exact Option.some.inj a2

/-- Rows of three entries stored one after the other. -/
theorem getElem?_flatMap3 {α β : Type} (f : α → List β) (hf : ∀ a, (f a).length = 3) (l : List α) (h e : Nat) (he : e < 3)
    (a : α) (ha : l[h]? = some a) : (l.flatMap f)[h * 3 + e]? = (f a)[e]? := by
  induction l generalizing h with
  | nil => simp at ha
  | cons b l ih =>
    rw [List.flatMap_cons]
    cases h with
    | zero =>
      simp at ha
      subst ha
      rw [List.getElem?_append_left (by rw [hf]; omega)]
      simp
    | succ h =>
      rw [List.getElem?_append_right (by rw [hf]; omega), hf]
      have : (h + 1) * 3 + e - 3 = h * 3 + e := by omega
      rw [this]
      exact ih h (by simpa using ha)

/-! ### The loop -/

def epat3 : List (List Nat) := [[0, 1], [0, 2], [1, 2]]

theorem edgeKeys_length (k : Key) : (edgeKeys epat3 k).length = 3 := rfl

/-- Pairs (cell, edge) of a list of occurrences. -/
def eocc (cells : Nat → Nat → Nat) (pat : List (List Nat)) (done : List (Nat × Nat)) : List (Nat × Key) :=
  done.flatMap fun o => (edgeKeys epat3 (kap cells pat o)).map (o.1, ·)

structure EInv (cells : Nat → Nat → Nat) (nb : Nat → Bool) (pat : List (List Nat)) (done : List (Nat × Nat)) (s : ESt) :
    Prop where
  finv : FInv cells 4 pat done s.f
  run : foldRes (fun s (o : Nat × Nat) => facetStep cells 4 pat s o.1 o.2) FSt.init done = .ok s.f
  sub : SubInv nb (eocc cells pat done) (s.f.facets.flatMap (edgeKeys epat3)) s

theorem einv_init (cells : Nat → Nat → Nat) (nb : Nat → Bool) (pat : List (List Nat)) :
    EInv cells nb pat [] ESt.init := by
  refine ⟨finv_init cells 4 pat, rfl, ?_⟩
  constructor <;> simp [ESt.init, FSt.init, eocc]

theorem facets_of_step {cells : Nat → Nat → Nat} {nn : Nat} {pat : List (List Nat)} {s f : FSt} {i j : Nat}
    (h : facetStep cells nn pat s i j = .ok f) :
    f.facets = s.facets ++ if s.map (key cells i (pat.getD j [])) = none then [key cells i (pat.getD j [])] else [] := by
  unfold facetStep at h
  dsimp only at h
  cases hk : s.map (key cells i (pat.getD j [])) with
  | none =>
    rw [hk] at h
    simp only [Res.ok.injEq] at h
    rw [← h, if_pos rfl]
  | some q =>
    obtain ⟨a, b⟩ := q
    rw [hk] at h
    dsimp only at h
    rw [if_neg (by simp)]
    split at h
    · split at h
      · simp only [Res.ok.injEq] at h
        rw [← h]; simp
      · cases h
    · cases h

theorem touch_fold {nb : Nat → Bool} {rows : List Key} (i h : Nat) (k : Key)
    (hr : ∀ e < 3, rows[h * 3 + e]? = (edgeKeys epat3 k)[e]?) {occs : List (Nat × Key)} {s : ESt}
    (hs : SubInv nb occs rows s) :
    ∃ s', foldRes (touchEdge i h) s (List.range 3) = .ok s' ∧ s'.f = s.f ∧
      SubInv nb (occs ++ (edgeKeys epat3 k).map (i, ·)) rows s' := by
  obtain ⟨s1, a1, b1, c1⟩ := subInv_touch hs i h 0 _ (hr 0 (by omega))
  obtain ⟨s2, a2, b2, c2⟩ := subInv_touch c1 i h 1 _ (hr 1 (by omega))
  obtain ⟨s3, a3, b3, c3⟩ := subInv_touch c2 i h 2 _ (hr 2 (by omega))
  refine ⟨s3, ?_, by rw [b3, b2, b1], ?_⟩
  · have : List.range 3 = [0, 1, 2] := rfl
    rw [this]
    simp [foldRes_cons, a1, a2, a3]
  · simpa [edgeKeys, epat3] using c3

theorem foldl_f (nb : Nat → Bool) (i : Nat) (ks : List Key) (s : ESt) : (ks.foldl (addEdge nb i) s).f = s.f := by
  induction ks generalizing s with
  | nil => rfl
  | cons k ks ih => rw [List.foldl_cons, ih, addEdge_f]

theorem einv_step {cells : Nat → Nat → Nat} {nb : Nat → Bool} {pat : List (List Nat)} {n : Nat} (hp : PatOK 4 pat)
    (hd : ∀ c < n, Distinct cells 4 c) (htwo : ∀ k, (inst cells pat (occ n 4) k).length ≤ 2)
    (done : List (Nat × Nat)) (o : Nat × Nat) (rest : List (Nat × Nat)) (s : ESt)
    (hl : occ n 4 = done ++ o :: rest) (hi : EInv cells nb pat done s) :
    ∃ s', edgeStep cells nb pat epat3 s o = .ok s' ∧ EInv cells nb pat (done ++ [o]) s' := by
  obtain ⟨f', hf, hfi⟩ := finv_step cells 4 pat hp hd htwo done o rest s.f hl hi.finv
  have hrun : foldRes (fun s (o : Nat × Nat) => facetStep cells 4 pat s o.1 o.2) FSt.init (done ++ [o]) = .ok f' := by
    rw [foldRes_append, hi.run, Res.ok_bind, foldRes_cons, hf]; rfl
  have hfac := facets_of_step hf
  have heocc : eocc cells pat (done ++ [o]) = eocc cells pat done ++ (edgeKeys epat3 (kap cells pat o)).map (o.1, ·) := by
    simp [eocc]
  unfold edgeStep
  dsimp only
  have hkap : key cells o.1 (pat.getD o.2 []) = kap cells pat o := rfl
  simp only [hkap]
  change f'.facets = s.f.facets ++ if s.f.map (kap cells pat o) = none then [kap cells pat o] else [] at hfac
  cases hk : s.f.map (kap cells pat o) with
  | none =>
    rw [hk, if_pos rfl] at hfac
    refine ⟨_, by dsimp only; rw [hf, Res.map_ok], hfi, hrun, ?_⟩
    dsimp only
    rw [hfac, heocc, List.flatMap_append]
    have := subInv_foldl (nb := nb) o.1 (edgeKeys epat3 (kap cells pat o)) hi.sub
    simpa using this.setF f'
  | some q =>
    obtain ⟨h, c⟩ := q
    rw [hk, if_neg (by simp), List.append_nil] at hfac
    obtain ⟨hm, _⟩ := hi.finv.mapS _ _ _ hk
    obtain ⟨s', a1, a2, a3⟩ := touch_fold o.1 h (kap cells pat o)
      (fun e he => getElem?_flatMap3 (edgeKeys epat3) edgeKeys_length s.f.facets h e he _ hm) (hi.sub.setF f')
    refine ⟨s', by dsimp only; rw [hf, Res.ok_bind]; exact a1, ?_⟩
    rw [← heocc] at a3
    constructor
    · rw [a2]; exact hfi
    · rw [a2]; exact hrun
    · rw [a2]; dsimp only; rw [hfac]; exact a3

theorem mem_eocc {cells : Nat → Nat → Nat} {pat : List (List Nat)} {done : List (Nat × Nat)} {c : Nat} {k : Key} :
    (c, k) ∈ eocc cells pat done ↔ ∃ j, (c, j) ∈ done ∧ k ∈ edgeKeys epat3 (kap cells pat (c, j)) := by
  unfold eocc
  rw [List.mem_flatMap]
  constructor
  · rintro ⟨o, ho, h⟩
    rw [List.mem_map] at h
    obtain ⟨k', h1, h2⟩ := h
    obtain ⟨e1, e2⟩ := Prod.mk.inj h2
    subst e1 e2
    exact ⟨o.2, ho, h1⟩
  · rintro ⟨j, h1, h2⟩
    exact ⟨(c, j), h1, List.mem_map.2 ⟨k, h2, rfl⟩⟩

/-- The edges of a face with three nodes in increasing order are the pairs of its nodes. -/
theorem mem_edgeKeys {l : Key} (hs : l.Pairwise (· < ·)) (hl : l.length = 3) (k : Key) :
    k ∈ edgeKeys epat3 l ↔ ∃ x ∈ l, ∃ y ∈ l, x < y ∧ k = [x, y] := by
  match l, hl with
  | [a, b, c], _ =>
    simp only [List.pairwise_cons, List.mem_cons, List.not_mem_nil, or_false, forall_eq_or_imp, forall_eq] at hs
    obtain ⟨⟨hab, hac⟩, hbc, _⟩ := hs
    have e : edgeKeys epat3 [a, b, c] = [[a, b], [a, c], [b, c]] := by
      simp [edgeKeys, epat3, List.insertionSort, List.orderedInsert, Nat.le_of_lt hab, Nat.le_of_lt hac, Nat.le_of_lt hbc]
    rw [e]
    simp only [List.mem_cons, List.not_mem_nil, or_false]
    constructor
    · rintro (rfl | rfl | rfl)
      · exact ⟨a, Or.inl rfl, b, Or.inr (Or.inl rfl), hab, rfl⟩
      · exact ⟨a, Or.inl rfl, c, Or.inr (Or.inr rfl), hac, rfl⟩
      · exact ⟨b, Or.inr (Or.inl rfl), c, Or.inr (Or.inr rfl), hbc, rfl⟩
    · rintro ⟨x, hx, y, hy, hxy, rfl⟩
      rcases hx with rfl | rfl | rfl <;> rcases hy with rfl | rfl | rfl <;>
        first
        | exact Or.inl rfl
        | exact Or.inr (Or.inl rfl)
        | exact Or.inr (Or.inr rfl)
        | omega

theorem kap_length {cells : Nat → Nat → Nat} {pat : List (List Nat)} (hp : PatOK 4 pat) {o : Nat × Nat} (ho : o.2 < 4) :
    (kap cells pat o).length = 3 := by
  rw [kap, (key_perm cells o.1 _).length_eq, List.length_map, hp.row ho]
  have : o.2 = 0 ∨ o.2 = 1 ∨ o.2 = 2 ∨ o.2 = 3 := by omega
  rcases this with e | e | e | e <;> rw [e] <;> rfl

end Fdapde.Triang
