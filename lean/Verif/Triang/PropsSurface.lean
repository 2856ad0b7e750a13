import Verif.Triang.Surface
import Verif.Triang.Props
/- C99: surface of a 3D triangulation. -/
namespace Fdapde.Triang

/-- The boundary faces, in order. -/
def boundaryFaces (facets : List Key) (markers : List Bool) : List Key :=
  ((List.range facets.length).filter fun h => markers.getD h false).map fun h => facets.getD h []

/-- Specification of the surface mesh: the nodes are the nodes of the boundary faces, each once, and the cells are the
boundary faces with every node replaced by its row. -/
def IsSurface (facets : List Key) (markers : List Bool) (ids : List Nat) (rows : List (List Nat)) : Prop :=
  ids.Nodup ∧ (∀ x, x ∈ ids ↔ ∃ f ∈ boundaryFaces facets markers, x ∈ f) ∧
  rows.map (fun r => r.map fun q => ids[q]?) = (boundaryFaces facets markers).map fun f => f.map some

structure SInv (done : List Key) (part : List Nat) (s : SSt) (row : List Nat) : Prop where
  nodup : s.ids.Nodup
  nmap : ∀ x q, s.nmap x = some q ↔ s.ids[q]? = some x
  mem : ∀ x, x ∈ s.ids ↔ (∃ f ∈ done, x ∈ f) ∨ x ∈ part
  rows : s.rows.map (fun r => r.map fun q => s.ids[q]?) = done.map fun f => f.map some
  row : row.map (fun q => s.ids[q]?) = part.map some

theorem rows_stable {ids : List Nat} {x : Nat} {r : List Nat} {f : List Nat}
    (h : r.map (fun q => ids[q]?) = f.map some) : r.map (fun q => (ids ++ [x])[q]?) = f.map some := by
  rw [← h]
  apply List.map_congr_left
  intro q hq
  have hm : ids[q]? ∈ r.map (fun q => ids[q]?) := List.mem_map.2 ⟨q, hq, rfl⟩
  rw [h, List.mem_map] at hm
  obtain ⟨y, _, hy⟩ := hm
  have : q < ids.length := (List.getElem?_eq_some_iff.1 hy.symm).1
  rw [List.getElem?_append_left this]

theorem rows_stable2 {ids : List Nat} {x : Nat} : ∀ {r : List (List Nat)} {f : List (List Nat)},
    r.map (fun r => r.map fun q => ids[q]?) = f.map (fun f => f.map some) →
    r.map (fun r => r.map fun q => (ids ++ [x])[q]?) = f.map (fun f => f.map some)
  | [], [], _ => rfl
  | [], _ :: _, h => by simp at h
  | _ :: _, [], h => by simp at h
  | a :: r, b :: f, h => by
    rw [List.map_cons, List.map_cons, List.cons.injEq] at h
    rw [List.map_cons, List.map_cons, rows_stable h.1, rows_stable2 h.2]

theorem sinv_node {nbn : Nat} {done : List Key} {part : List Nat} {s : SSt} {row : List Nat} (h : SInv done part s row)
    (x : Nat) (all : List Nat) (hall : x ∈ all) (hsub : ∀ y ∈ s.ids, y ∈ all) (hn : all.Nodup) (hlen : all.length ≤ nbn) :
    ∃ r, surfNode nbn (s, row) x = .ok r ∧ SInv done (part ++ [x]) r.1 r.2 ∧ r.1.rows = s.rows := by
  unfold surfNode
  dsimp only
  cases hx : s.nmap x with
  | some q =>
    refine ⟨_, rfl, ?_, rfl⟩
    have hq := (h.nmap x q).1 hx
    constructor
    · exact h.nodup
    · exact h.nmap
    · intro y
      dsimp only
      rw [h.mem]
      constructor
      · rintro (h1 | h1)
        · exact Or.inl h1
        · exact Or.inr (by simp [h1])
      · rintro (h1 | h1)
        · exact Or.inl h1
        · simp only [List.mem_append, List.mem_singleton] at h1
          rcases h1 with h1 | h1
          · exact Or.inr h1
          · rw [h1]; exact (h.mem x).1 (List.mem_of_getElem? hq)
    · exact h.rows
    · dsimp only; rw [List.map_append, List.map_append, h.row]; simp [hq]
  | none =>
    have hnot : x ∉ s.ids := by
      intro hm
      obtain ⟨q, hq, e⟩ := List.getElem_of_mem hm
      have := (h.nmap x q).2 (by rw [List.getElem?_eq_getElem hq, e])
      rw [hx] at this; cases this
    have hlt : s.ids.length < nbn := by
      have h1 : (x :: s.ids).Subperm all := by
        refine List.subperm_of_subset (List.nodup_cons.2 ⟨hnot, h.nodup⟩) ?_
        intro y hy
        rcases List.mem_cons.1 hy with rfl | hy
        · exact hall
        · exact hsub y hy
      have := h1.length_le
      rw [List.length_cons] at this
      omega
    rw [if_pos hlt]
    refine ⟨_, rfl, ?_, rfl⟩
    constructor
    · dsimp only
      rw [List.nodup_append]
      exact ⟨h.nodup, by simp, by intro a ha b hb; simp at hb; subst hb; intro e; exact hnot (e ▸ ha)⟩
    · intro y q
      dsimp only
      by_cases hyx : y = x
      · subst hyx
        rw [if_pos rfl]
        constructor
        · intro h1
          rw [← Option.some.inj h1]; simp
        · intro h1
          obtain ⟨hq, e⟩ := List.getElem?_eq_some_iff.1 h1
          by_cases hlq : q < s.ids.length
          · rw [List.getElem_append_left hlq] at e
            exact absurd (e ▸ List.getElem_mem hlq) hnot
          · simp at hq
            have : q = s.ids.length := by omega
            rw [this]
      · rw [if_neg hyx, h.nmap]
        constructor
        · intro h1
          have : q < s.ids.length := (List.getElem?_eq_some_iff.1 h1).1
          rw [List.getElem?_append_left this]; exact h1
        · intro h1
          obtain ⟨hq, e⟩ := List.getElem?_eq_some_iff.1 h1
          by_cases hlq : q < s.ids.length
          · rw [List.getElem?_append_left hlq] at h1; exact h1
          · simp at hq
            have hqe : q = s.ids.length := by omega
            subst hqe
            simp at e
            exact absurd e.symm hyx
    · intro y
      simp only [List.mem_append, List.mem_singleton, h.mem, or_assoc]
    · exact rows_stable2 h.rows
    · dsimp only
      rw [List.map_append, List.map_append, rows_stable h.row]
      simp

theorem sinv_face {nbn : Nat} {done : List Key} (f : List Nat) (all : List Nat) (hn : all.Nodup) (hlen : all.length ≤ nbn)
    (hdone : ∀ g ∈ done, ∀ x ∈ g, x ∈ all) (hf : ∀ x ∈ f, x ∈ all) {s : SSt} (h : SInv done [] s []) :
    ∃ r, foldRes (surfNode nbn) (s, []) f = .ok r ∧ SInv done f r.1 r.2 ∧ r.1.rows = s.rows := by
  obtain ⟨r, h1, h2⟩ := foldRes_inv (surfNode nbn) (fun part r => SInv done part r.1 r.2 ∧ r.1.rows = s.rows) f
    (by
      intro part x rest r hl hi
      obtain ⟨r', a, b, c⟩ := sinv_node (nbn := nbn) hi.1 x all (hf x (by rw [hl]; simp)) (by
        intro y hy
        rcases (hi.1.mem y).1 hy with ⟨g, hg, hyg⟩ | hy
        · exact hdone g hg y hyg
        · exact hf y (by rw [hl]; simp [hy])) hn hlen
      exact ⟨r', a, b, c.trans hi.2⟩)
    (s, []) ⟨h, rfl⟩
  exact ⟨r, h1, h2⟩

theorem count_markers {facets : List Key} {markers : List Bool} (hl : markers.length = facets.length) :
    markers.count true = (boundaryFaces facets markers).length := by
  unfold boundaryFaces
  rw [List.length_map, ← hl]
  have : ∀ l : List Bool, l.count true = ((List.range l.length).filter fun h => l.getD h false).length := by
    intro l
    induction l using List.reverseRecOn with
    | nil => rfl
    | append_singleton l b ih =>
      rw [List.count_append, ih, List.length_append, List.length_singleton, List.range_succ, List.filter_append,
        List.length_append]
      congr 1
      · congr 1
        apply List.filter_congr
        intro h hh
        rw [List.mem_range] at hh
        simp [List.getD_eq_getElem?_getD, List.getElem?_append_left hh]
      · cases b <;> simp [List.getD_eq_getElem?_getD]
  exact this markers

/-- C99 (finding): whenever the last face of the mesh is a boundary face the surface is built from uninitialised memory:
the traversal of the boundary faces leaves the last one out (C22), so the last row of the matrix of the cells, allocated
for all of them, is never written. -/
theorem C99_bug_last_face (facets : List Key) (markers : List Bool) (nbn : Nat) (hl : markers.length = facets.length)
    (hlast : markers.getLast? = some true) : surface facets markers nbn = .ub := by
  unfold surface
  rw [entities3_spec]
  dsimp only
  cases hfold : foldRes (surfFace nbn (markers.count true) facets) ⟨[], fun _ => none, []⟩
      ((List.range (facets.length - 1)).filter fun h => markers.getD h false) with
  | ub => rfl
  | throws =>
    exfalso
    -- no step throws
    have key : ∀ (l : List Nat) (s : SSt), foldRes (surfFace nbn (markers.count true) facets) s l ≠ .throws := by
      intro l
      induction l with
      | nil => intro s; simp
      | cons h l ih =>
        intro s
        rw [foldRes_cons]
        have hstep : surfFace nbn (markers.count true) facets s h ≠ .throws := by
          unfold surfFace
          cases facets[h]? with
          | none => simp
          | some f =>
            dsimp only
            split
            · have hn : ∀ (f : List Nat) (r : SSt × List Nat), foldRes (surfNode nbn) r f ≠ .throws := by
                intro f
                induction f with
                | nil => intro r; simp
                | cons x f ihf =>
                  intro r
                  rw [foldRes_cons]
                  unfold surfNode
                  cases r.1.nmap x with
                  | some q => exact ihf _
                  | none =>
                    dsimp only
                    split
                    · exact ihf _
                    · simp
              have := hn f (s, [])
              cases hr : foldRes (surfNode nbn) (s, []) f with
              | ok r => simp
              | throws => exact absurd hr this
              | ub => simp
            · simp
        cases hr : surfFace nbn (markers.count true) facets s h with
        | ok s' => exact ih s'
        | throws => exact absurd hr hstep
        | ub => simp
    exact key _ _ hfold
  | ok s =>
    rw [Res.ok_bind]
    -- one row per visited face
    have hrows : s.rows.length = ((List.range (facets.length - 1)).filter fun h => markers.getD h false).length := by
      refine foldRes_ok_inv _ (fun done (s : SSt) => s.rows.length = done.length) ?_ _ _ s rfl hfold
      intro done h s s' hi hs
      unfold surfFace at hs
      cases hf : facets[h]? with
      | none => rw [hf] at hs; cases hs
      | some f =>
        rw [hf] at hs
        dsimp only at hs
        split at hs
        · rw [Res.map_eq_ok] at hs
          obtain ⟨r, hr, e⟩ := hs
          have hkeep : r.1.rows = s.rows := by
            refine foldRes_ok_inv (surfNode nbn) (fun _ (r : SSt × List Nat) => r.1.rows = s.rows) ?_ _ _ r rfl hr
            intro _ x r r' hi hx
            unfold surfNode at hx
            cases hm : r.1.nmap x with
            | some q => rw [hm] at hx; simp only [Res.ok.injEq] at hx; rw [← hx]; exact hi
            | none =>
              rw [hm] at hx
              dsimp only at hx
              split at hx
              · simp only [Res.ok.injEq] at hx; rw [← hx]; exact hi
              · cases hx
          rw [← e]
          simp [hkeep, hi]
        · cases hs
    rw [if_neg]
    rintro ⟨h1, _⟩
    rw [hrows, count_markers hl, boundaryFaces, List.length_map] at h1
    have hpos : 0 < facets.length := by
      rw [← hl]
      cases markers with
      | nil => simp at hlast
      | cons a t => simp
    obtain ⟨m, hm⟩ : ∃ m, facets.length = m + 1 := ⟨facets.length - 1, by omega⟩
    have hlast' : markers.getD m false = true := by
      rw [List.getLast?_eq_getElem?, hl, hm, Nat.add_sub_cancel] at hlast
      rw [List.getD_eq_getElem?_getD, hlast]; rfl
    rw [hm, Nat.add_sub_cancel, List.range_succ, List.filter_append] at h1
    rw [List.length_append] at h1
    have h5 : ([m].filter fun h => markers.getD h false).length = 1 := by
      rw [List.filter_cons, if_pos hlast']; rfl
    omega

/-- C99 (proved part): if the last face is not on the boundary, and as many nodes are marked as the boundary faces have,
`surface()` returns the surface mesh: the nodes of the boundary faces, each once, and the boundary faces with renumbered
nodes.  Missing: meshes whose last face is on the boundary, for which the call is undefined (C99_bug_last_face). -/
theorem C99_surface_partial (facets : List Key) (markers : List Bool) (nbn : Nat) (hl : markers.length = facets.length)
    (hlast : markers.getLast? ≠ some true) (all : List Nat) (hall : all.Nodup)
    (hmem : ∀ x, x ∈ all ↔ ∃ f ∈ boundaryFaces facets markers, x ∈ f) (hnbn : nbn = all.length) :
    ∃ ids rows, surface facets markers nbn = .ok (ids, rows) ∧ ids.length = nbn ∧
      IsSurface facets markers ids rows := by
  unfold surface
  have hvis : entities3 (fun h => markers.getD h false) facets.length =
      some ((List.range facets.length).filter fun h => markers.getD h false) := by
    apply C22_complete_partial
    rw [List.getLast?_eq_getElem?, hl] at hlast
    rw [List.getD_eq_getElem?_getD]
    cases h : markers[facets.length - 1]? with
    | none => rfl
    | some b => cases b with
      | false => rfl
      | true => exact absurd h hlast
  rw [hvis]
  dsimp only
  have hcount := count_markers (markers := markers) hl
  obtain ⟨s, h1, h2, h3⟩ := foldRes_inv (surfFace nbn (markers.count true) facets)
    (fun done s => SInv (done.map fun h => facets.getD h []) [] s [] ∧ s.rows.length = done.length)
    ((List.range facets.length).filter fun h => markers.getD h false)
    (by
      intro done h rest s hlist hi
      have hin : h ∈ (List.range facets.length).filter fun h => markers.getD h false := by rw [hlist]; simp
      have hh : h < facets.length := by
        rw [List.mem_filter, List.mem_range] at hin; exact hin.1
      have hfh : facets[h]? = some (facets.getD h []) := by
        rw [List.getD_eq_getElem?_getD, List.getElem?_eq_getElem hh]; rfl
      have hface : ∀ h' ∈ (List.range facets.length).filter (fun h => markers.getD h false),
          ∀ x ∈ facets.getD h' [], x ∈ all := by
        intro h' hh' x hx
        exact (hmem x).2 ⟨_, List.mem_map.2 ⟨h', hh', rfl⟩, hx⟩
      have hlt : s.rows.length < markers.count true := by
        rw [hi.2, hcount, boundaryFaces, List.length_map, hlist]
        simp
      obtain ⟨r, a, b, c⟩ := sinv_face (nbn := nbn) (facets.getD h []) all hall (by omega) (by
        intro g hg x hx
        obtain ⟨h', hh', rfl⟩ := List.mem_map.1 hg
        exact hface h' (by rw [hlist]; simp [hh']) x hx) (hface h hin) hi.1
      refine ⟨{ r.1 with rows := r.1.rows ++ [r.2] }, ?_, ?_, ?_⟩
      · unfold surfFace
        rw [hfh]
        dsimp only
        rw [if_pos hlt, a, Res.map_ok]
      · constructor
        · exact b.nodup
        · exact b.nmap
        · intro x
          dsimp only
          rw [b.mem]
          simp only [List.map_append, List.map_cons, List.map_nil, List.mem_append, List.mem_singleton, List.not_mem_nil,
            or_false]
          constructor
          · rintro (⟨g, hg, hx⟩ | hx)
            · exact ⟨g, Or.inl hg, hx⟩
            · exact ⟨_, Or.inr rfl, hx⟩
          · rintro ⟨g, hg | rfl, hx⟩
            · exact Or.inl ⟨g, hg, hx⟩
            · exact Or.inr hx
        · dsimp only
          rw [List.map_append, List.map_append, List.map_append, b.rows]
          simp only [List.map_cons, List.map_nil, b.row]
        · rfl
      · dsimp only
        rw [c, List.length_append, List.length_append, hi.2]; rfl)
    ⟨[], fun _ => none, []⟩ ⟨by constructor <;> simp, rfl⟩
  have hids : ∀ x, x ∈ s.ids ↔ ∃ f ∈ boundaryFaces facets markers, x ∈ f := by
    intro x
    rw [h2.mem]
    simp [boundaryFaces]
  have hlen : s.ids.length = nbn := by
    rw [hnbn]
    refine List.Perm.length_eq ?_
    exact (List.perm_ext_iff_of_nodup h2.nodup hall).2 (fun x => by rw [hids, hmem])
  rw [h1, Res.ok_bind, if_pos ⟨by rw [h3, hcount, boundaryFaces, List.length_map], hlen⟩]
  refine ⟨s.ids, s.rows, rfl, hlen, h2.nodup, hids, h2.rows⟩

/-- A tetrahedron with another one glued on each of its faces; the cells are listed so that the last face is interior. -/
def star3 : Nat → Nat → Nat := fun c v =>
  (([[4, 0, 1, 2], [5, 0, 1, 3], [6, 0, 2, 3], [7, 1, 2, 3], [0, 1, 2, 3]] : List (List Nat)).getD c []).getD v 0

set_option synthInstance.maxSize 4096 in
set_option synthInstance.maxHeartbeats 400000 in
example : Manifold star3 4 5 ∧
    (fun s : FSt => (s.markers.getLast?, s.markers.length == s.facets.length,
      decide (((boundaryFaces s.facets s.markers).flatten.dedup).length = 8))) <$> build3 star3 5 =
      .ok (some false, true, true) ∧
    (build3 star3 5 >>= fun s => surface s.facets s.markers 8) =
      .ok ([0, 1, 4, 2, 5, 3, 6, 7], [[0, 1, 2], [0, 3, 2], [1, 3, 2], [0, 1, 4], [0, 5, 4], [1, 5, 4], [0, 3, 6],
        [0, 5, 6], [3, 5, 6], [1, 3, 7], [1, 5, 7], [3, 5, 7]]) :=
  ⟨⟨by decide +kernel, by decide +kernel⟩, by decide +kernel, by decide +kernel⟩

/-- C99 (finding): the surface of a single tetrahedron, and of two glued ones, is undefined. -/
theorem C99_bug_tetrahedron :
    (build3 (fun _ v => v) 1 >>= fun s => surface s.facets s.markers 4) = .ub ∧
    (build3 demo3 2 >>= fun s => surface s.facets s.markers 5) = .ub :=
  ⟨by decide +kernel, by decide +kernel⟩

end Fdapde.Triang
