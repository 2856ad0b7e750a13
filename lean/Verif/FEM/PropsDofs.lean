import Verif.FEM.Dofs
import Verif.Triang.Props
/- C57 : numbering of the degrees of freedom of second order elements. -/
namespace Fdapde.FEM
open Fdapde.Triang

/-- The local edges in the order of `combinations<2, 3>()`. -/
abbrev pat3 : List (List Nat) := [[0, 1], [0, 2], [1, 2]]

theorem key_pat {cells : Nat → Nat → Nat} {n c : Nat} (hm : Manifold cells 3 n) (hc : c < n) {j : Nat} (hj : j < 3) :
    IsFacet cells 3 c (2 - j) (key cells c (pat3.getD j [])) := key_isFacet patOK2 (hm.distinct c hc) hj

theorem isFacet_unique {cells : Nat → Nat → Nat} {nn c v : Nat} {k k' : List Nat} (h : IsFacet cells nn c v k)
    (h' : IsFacet cells nn c v k') : k = k' := by
  have hp : k.Perm k' := by
    rw [List.perm_ext_iff_of_nodup (h.1.imp (fun h => Nat.ne_of_lt h)) (h'.1.imp (fun h => Nat.ne_of_lt h))]
    intro x; rw [h.2, h'.2]
  exact hp.eq_of_pairwise (fun a b _ _ h1 h2 => absurd h1 (Nat.lt_asymm h2)) h.1 h'.1

theorem findEdge_spec (cells : Nat → Nat → Nat) (pat : List (List Nat)) (id : Nat) (nodes : List Nat) : ∀ m j j',
    j ≤ j' → j' < j + m → key cells id (pat.getD j' []) = nodes →
      (∀ i, i < j' → key cells id (pat.getD i []) ≠ nodes) → findEdge cells pat id nodes j m = j'
  | 0, j, j', h1, h2, _, _ => absurd h2 (by omega)
  | m + 1, j, j', h1, h2, h3, h4 => by
    rw [findEdge]
    by_cases he : key cells id (pat.getD j []) = nodes
    · rw [if_pos he]
      by_contra hne
      exact h4 j (by omega) he
    · rw [if_neg he]
      have : j ≠ j' := by rintro rfl; exact he h3
      exact findEdge_spec cells pat id nodes m (j + 1) j' (by omega) (by omega) h3 h4

/-- Local index of a facet of a cell. -/
theorem findEdge_facet {cells : Nat → Nat → Nat} {n c v : Nat} (hm : Manifold cells 3 n) (hc : c < n) {k : List Nat} (hv : v < 3)
    (h : IsFacet cells 3 c v k) : findEdge cells pat3 c k 0 3 = 2 - v ∧ key cells c (pat3.getD (2 - v) []) = k := by
  have hk : key cells c (pat3.getD (2 - v) []) = k := by
    have := key_pat hm hc (show 2 - v < 3 by omega)
    rw [show 2 - (2 - v) = v by omega] at this
    exact isFacet_unique this h
  refine ⟨findEdge_spec cells pat3 c k 3 0 (2 - v) (by omega) (by omega) hk ?_, hk⟩
  intro i hi he
  have h1 := key_pat hm hc (show i < 3 by omega)
  rw [he] at h1
  have := facet_vertex (hm.distinct c hc) (by omega) h1 h
  omega

/-- State of the loop after the first `m` edges. -/
structure DofInv (cells : Nat → Nat → Nat) (n nNodes : Nat) (t : FSt) (m : Nat) (s : DofSt) : Prop where
  next : s.next = nNodes + m
  low : ∀ c v, v < 3 → s.dofs c v = some (cells c v)
  high : ∀ c < n, ∀ j < 3, ∀ h < m, t.facets[h]? = some (key cells c (pat3.getD j [])) → s.dofs c (3 + j) = some (nNodes + h)
  bnd : ∀ d, d ∈ s.bnd ↔ ∃ h < m, d = nNodes + h ∧ t.markers[h]? = some true

theorem enumDofs2_inv {cells : Nat → Nat → Nat} {n nNodes : Nat} (hm : Manifold cells 3 n) {t : FSt} (ht : FacetSpec cells 3 n t) :
    ∀ m ≤ t.facets.length, ∃ s, foldRes (dofEdge cells n pat3 t)
      ⟨fun c v => if v < 3 then some (cells c v) else none, [], nNodes⟩ (List.range m) = .ok s ∧ DofInv cells n nNodes t m s := by
  intro m
  induction m with
  | zero =>
    intro _
    exact ⟨_, rfl, rfl, fun c v hv => by simp [hv], fun c _ j _ h hh => absurd hh (by omega), fun d => by simp⟩
  | succ m ih =>
    intro hle
    obtain ⟨s, hs, inv⟩ := ih (by omega)
    have hmlt : m < t.facets.length := by omega
    obtain ⟨k, hk⟩ : ∃ k, t.facets[m]? = some k := ⟨_, List.getElem?_eq_getElem hmlt⟩
    obtain ⟨b, hb⟩ : ∃ b, t.markers[m]? = some b := ⟨_, List.getElem?_eq_getElem (by rw [ht.lengths.2]; exact hmlt)⟩
    -- a cell that contains the edge
    have hcell : ∀ c < n, Contains cells 3 c k → ∃ v < 3, IsFacet cells 3 c v k := by
      intro c hc hcon
      obtain ⟨c0, hc0, v0, hv0, hf⟩ := (ht.mem k).1 (List.mem_of_getElem? hk)
      exact facet_of_contains (hm.distinct c0 hc0) (hm.distinct c hc) hv0 hf hcon
    -- writing the number of one cell
    have hstep : ∀ (s1 : DofSt) (c : Nat), c < n → Contains cells 3 c k → s1.next = nNodes + m →
        ∃ j < 3, key cells c (pat3.getD j []) = k ∧ dofCell cells n pat3 k b s1 (c : Int) =
          .ok { s1 with dofs := put s1.dofs c (3 + j) (some s1.next), bnd := if b then s1.bnd ++ [s1.next] else s1.bnd } := by
      intro s1 c hc hcon _
      obtain ⟨v, hv, hf⟩ := hcell c hc hcon
      obtain ⟨h1, h2⟩ := findEdge_facet hm hc hv hf
      refine ⟨2 - v, by omega, h2, ?_⟩
      unfold dofCell
      rw [if_pos (by omega)]
      simp only [Int.toNat_natCast, h1]
      rw [if_pos ⟨hc, by omega⟩]
    have hinj : ∀ c < n, ∀ i < 3, ∀ j < 3, key cells c (pat3.getD i []) = key cells c (pat3.getD j []) → i = j := by
      intro c hc i hi j hj he
      have h1 := key_pat hm hc hi
      have h2 := key_pat hm hc hj
      rw [he] at h1
      have := facet_vertex (hm.distinct c hc) (by omega) h1 h2
      omega
    have hold : ∀ h, t.facets[h]? = some k → h = m := by
      intro h hh
      have h1 := List.getElem?_eq_some_iff.1 hh
      have h2 := List.getElem?_eq_some_iff.1 hk
      exact (List.Nodup.getElem_inj_iff ht.nodup).1 (h1.2.trans h2.2.symm)
    have hcont : ∀ c < n, ∀ j < 3, key cells c (pat3.getD j []) = k → Contains cells 3 c k := by
      intro c hc j hj he x hx
      have := key_pat hm hc hj
      rw [he] at this
      obtain ⟨w, hw, _, e⟩ := (this.2 x).1 hx
      exact ⟨w, hw, e⟩
    rw [List.range_succ, foldRes_append, hs, Res.ok_bind, foldRes_cons]
    unfold dofEdge
    rcases ht.toCells m k hk with ⟨a, ha, hta, hin⟩ | ⟨a, ha, b', hb', hab, hta, hin⟩
    · obtain ⟨j, hj, hkj, hst⟩ := hstep s a ha ((hin a ha).2 rfl) inv.next
      simp only [hk, hta, hb, hst, Res.ok_bind]
      have hneg : dofCell cells n pat3 k b { s with dofs := put s.dofs a (3 + j) (some s.next), bnd := if b then s.bnd ++ [s.next] else s.bnd } (-1) =
          .ok { s with dofs := put s.dofs a (3 + j) (some s.next), bnd := if b then s.bnd ++ [s.next] else s.bnd } := by
        unfold dofCell; rw [if_neg (by omega)]
      rw [hneg]
      simp only [Res.ok_bind, foldRes_nil]
      refine ⟨_, rfl, ?_, ?_, ?_, ?_⟩
      · simp only [inv.next]; omega
      · intro c v hv
        simp only [put]
        rw [if_neg (by omega)]
        exact inv.low c v hv
      · intro c hc j' hj' h hh hf
        simp only [put]
        by_cases hlt : h < m
        · rw [if_neg, inv.high c hc j' hj' h hlt hf]
          rintro ⟨rfl, he⟩
          have : j' = j := by omega
          subst this
          rw [hkj] at hf
          have := hold h hf; omega
        · have : h = m := by omega
          subst this
          have e : key cells c (pat3.getD j' []) = k := by rw [hf] at hk; exact Option.some.inj hk
          have hca := (hin c hc).1 (hcont c hc j' hj' e)
          subst hca
          have := hinj c hc j' hj' j hj (e.trans hkj.symm)
          subst this
          simp [inv.next]
      · intro d
        cases b with
        | true =>
          simp only [if_true, List.mem_append, List.mem_singleton, inv.bnd, inv.next]
          constructor
          · rintro (⟨h, h1, h2, h3⟩ | rfl)
            · exact ⟨h, by omega, h2, h3⟩
            · exact ⟨m, by omega, rfl, hb⟩
          · rintro ⟨h, h1, h2, h3⟩
            by_cases hlt : h < m
            · exact Or.inl ⟨h, hlt, h2, h3⟩
            · right; omega
        | false =>
          simp only [Bool.false_eq_true, if_false, inv.bnd]
          constructor
          · rintro ⟨h, h1, h2, h3⟩; exact ⟨h, by omega, h2, h3⟩
          · rintro ⟨h, h1, h2, h3⟩
            refine ⟨h, ?_, h2, h3⟩
            by_contra hn
            have : h = m := by omega
            subst this
            rw [hb] at h3; simp at h3
    · obtain ⟨j, hj, hkj, hst⟩ := hstep s a ha ((hin a ha).2 (Or.inl rfl)) inv.next
      simp only [hk, hta, hb, hst, Res.ok_bind]
      obtain ⟨j2, hj2, hkj2, hst2⟩ := hstep { s with dofs := put s.dofs a (3 + j) (some s.next), bnd := if b then s.bnd ++ [s.next] else s.bnd }
        b' hb' ((hin b' hb').2 (Or.inr rfl)) inv.next
      rw [hst2]
      simp only [Res.ok_bind, foldRes_nil]
      refine ⟨_, rfl, ?_, ?_, ?_, ?_⟩
      · simp only [inv.next]; omega
      · intro c v hv
        simp only [put]
        rw [if_neg (by omega), if_neg (by omega)]
        exact inv.low c v hv
      · intro c hc j' hj' h hh hf
        simp only [put]
        by_cases hlt : h < m
        · rw [if_neg, if_neg, inv.high c hc j' hj' h hlt hf]
          · rintro ⟨rfl, he⟩
            have : j' = j := by omega
            subst this
            rw [hkj] at hf
            have := hold h hf; omega
          · rintro ⟨rfl, he⟩
            have : j' = j2 := by omega
            subst this
            rw [hkj2] at hf
            have := hold h hf; omega
        · have : h = m := by omega
          subst this
          have e : key cells c (pat3.getD j' []) = k := by rw [hf] at hk; exact Option.some.inj hk
          rcases (hin c hc).1 (hcont c hc j' hj' e) with hca | hca
          · subst hca
            have := hinj c hc j' hj' j hj (e.trans hkj.symm)
            subst this
            simp only [inv.next]
            rw [if_neg (by omega)]; simp
          · subst hca
            have := hinj c hc j' hj' j2 hj2 (e.trans hkj2.symm)
            subst this
            simp [inv.next]
      · intro d
        cases b with
        | true =>
          simp only [if_true, List.mem_append, List.mem_singleton, inv.bnd, inv.next]
          constructor
          · rintro ((⟨h, h1, h2, h3⟩ | rfl) | rfl)
            · exact ⟨h, by omega, h2, h3⟩
            · exact ⟨m, by omega, rfl, hb⟩
            · exact ⟨m, by omega, rfl, hb⟩
          · rintro ⟨h, h1, h2, h3⟩
            by_cases hlt : h < m
            · exact Or.inl (Or.inl ⟨h, hlt, h2, h3⟩)
            · right; omega
        | false =>
          simp only [Bool.false_eq_true, if_false, inv.bnd]
          constructor
          · rintro ⟨h, h1, h2, h3⟩; exact ⟨h, by omega, h2, h3⟩
          · rintro ⟨h, h1, h2, h3⟩
            refine ⟨h, ?_, h2, h3⟩
            by_contra hn
            have : h = m := by omega
            subst this
            rw [hb] at h3; simp at h3

/-- **C57.**  On a manifold 2D triangulation with node numbers below `nNodes` the numbering of second order elements never
leaves the tables; the vertex dofs of a cell are its nodes; there is one more dof per edge; local dof 3 + j of cell c is
`nNodes` plus the index, in the list of edges of the mesh, of the edge of c not containing its vertex 2 - j; and a dof is
on the boundary iff its node is marked, or its edge is in exactly one cell. -/
theorem C57_numbering (cells : Nat → Nat → Nat) (n nNodes : Nat) (bNodes : Nat → Bool) (hm : Manifold cells 3 n) :
    ∃ t, build2 cells n = .ok t ∧ ∃ dofs bnd, enumDofs2 cells n nNodes bNodes t = .ok (dofs, bnd, nNodes + t.facets.length) ∧
      (∀ c < n, ∀ v < 3, dofs c v = some (cells c v)) ∧
      (∀ c < n, ∀ j < 3, ∃ h k, dofs c (3 + j) = some (nNodes + h) ∧ t.facets[h]? = some k ∧ IsFacet cells 3 c (2 - j) k) ∧
      (∀ d < nNodes, bnd d = bNodes d) ∧
      (∀ h k, t.facets[h]? = some k → (bnd (nNodes + h) = true ↔
        ∃ c, (c < n ∧ Contains cells 3 c k) ∧ ∀ d, d < n ∧ Contains cells 3 d k → d = c)) := by
  obtain ⟨t, h1, ht⟩ := build2_spec hm
  obtain ⟨s, hs, inv⟩ := enumDofs2_inv (nNodes := nNodes) hm ht t.facets.length le_rfl
  refine ⟨t, h1, s.dofs, _, by rw [enumDofs2, comb2, Res.ok_bind, hs, Res.ok_bind, inv.next], ?_, ?_, ?_, ?_⟩
  · exact fun c _ v hv => inv.low c v hv
  · intro c hc j hj
    have hf := key_pat hm hc hj
    obtain ⟨h, hh⟩ := List.mem_iff_getElem?.1 ((ht.mem _).2 ⟨c, hc, 2 - j, by omega, hf⟩)
    exact ⟨h, _, inv.high c hc j hj h (List.getElem?_eq_some_iff.1 hh).1 hh, hh, hf⟩
  · intro d hd; simp [hd]
  · intro h k hk
    rw [if_neg (by omega), List.contains_iff_mem, inv.bnd, ← ht.marker h k hk]
    constructor
    · rintro ⟨h', _, e, h3⟩
      have : h' = h := by omega
      rwa [this] at h3
    · intro h3; exact ⟨h, (List.getElem?_eq_some_iff.1 hk).1, rfl, h3⟩

/-- **C57**, first order: the dofs of a cell are its nodes, in their order; two local dofs get the same number iff they sit on the same
node; there are as many dofs as nodes, those of the cells among them, and the dofs on the boundary are the nodes on the boundary. -/
theorem C57_first_order (cells : Nat → Nat → Nat) (nNodes : Nat) (bNodes : Nat → Bool) :
    ∃ dofs bnd N, enumDofs1 cells nNodes bNodes = (dofs, bnd, N) ∧ N = nNodes ∧ (∀ c v, dofs c v = some (cells c v)) ∧
      (∀ c v c' v', dofs c v = dofs c' v' ↔ cells c v = cells c' v') ∧ ∀ d, bnd d = true ↔ bNodes d = true :=
  ⟨_, _, _, rfl, rfl, fun _ _ => rfl, fun _ _ _ _ => Option.some_inj, fun _ => Iff.rfl⟩

/-- **C57**, bijection: two local edge dofs get the same number iff they sit on the same edge (the same pair of nodes);
edge dofs differ from vertex dofs; every number below the number of dofs that is not a mesh node is used. -/
theorem C57_bijection (cells : Nat → Nat → Nat) (n nNodes : Nat) (bNodes : Nat → Bool) (hm : Manifold cells 3 n)
    (hn : ∀ c < n, ∀ v < 3, cells c v < nNodes) :
    ∃ t, build2 cells n = .ok t ∧ ∃ dofs bnd N, enumDofs2 cells n nNodes bNodes t = .ok (dofs, bnd, N) ∧
      (∀ c < n, ∀ j < 3, ∀ c' < n, ∀ j' < 3, dofs c (3 + j) = dofs c' (3 + j') ↔
        ∀ k, IsFacet cells 3 c (2 - j) k ↔ IsFacet cells 3 c' (2 - j') k) ∧
      (∀ c < n, ∀ j < 3, ∀ c' < n, ∀ v < 3, dofs c (3 + j) ≠ dofs c' v) ∧
      (∀ c < n, ∀ v < 6, ∃ d < N, dofs c v = some d) ∧
      (∀ d, nNodes ≤ d → d < N → ∃ c < n, ∃ j < 3, dofs c (3 + j) = some d) := by
  obtain ⟨t, h1, dofs, bnd, h2, hv, he, _, _⟩ := C57_numbering cells n nNodes bNodes hm
  obtain ⟨t', h1', ht⟩ := build2_spec hm
  rw [h1] at h1'
  obtain rfl := Res.ok.inj h1'
  refine ⟨t, h1, dofs, bnd, _, h2, ?_, ?_, ?_, ?_⟩
  · intro c hc j hj c' hc' j' hj'
    obtain ⟨h, k, e1, e2, e3⟩ := he c hc j hj
    obtain ⟨h', k', e1', e2', e3'⟩ := he c' hc' j' hj'
    rw [e1, e1']
    constructor
    · intro e
      have : h = h' := by have := Option.some.inj e; omega
      subst this
      rw [e2] at e2'
      obtain rfl := Option.some.inj e2'
      intro q
      exact ⟨fun hq => by rw [isFacet_unique hq e3]; exact e3', fun hq => by rw [isFacet_unique hq e3']; exact e3⟩
    · intro hq
      have : k = k' := isFacet_unique ((hq k).1 e3) e3'
      subst this
      have i1 := List.getElem?_eq_some_iff.1 e2
      have i2 := List.getElem?_eq_some_iff.1 e2'
      have := (List.Nodup.getElem_inj_iff ht.nodup).1 (i1.2.trans i2.2.symm)
      rw [this]
  · intro c hc j hj c' hc' v hv'
    obtain ⟨h, k, e1, _, _⟩ := he c hc j hj
    rw [e1, hv c' hc' v hv']
    intro e
    have := Option.some.inj e
    have := hn c' hc' v hv'
    omega
  · intro c hc v hv'
    by_cases h3 : v < 3
    · have := hn c hc v h3
      exact ⟨cells c v, by omega, hv c hc v h3⟩
    · obtain ⟨h, k, e1, e2, _⟩ := he c hc (v - 3) (by omega)
      rw [show 3 + (v - 3) = v by omega] at e1
      have := (List.getElem?_eq_some_iff.1 e2).1
      exact ⟨_, by omega, e1⟩
  · intro d hd hd'
    have hlt : d - nNodes < t.facets.length := by omega
    have hmem : t.facets[d - nNodes] ∈ t.facets := List.getElem_mem hlt
    obtain ⟨c, hc, v, hv', hf⟩ := (ht.mem _).1 hmem
    obtain ⟨h, k, e1, e2, e3⟩ := he c hc (2 - v) (by omega)
    rw [show 2 - (2 - v) = v by omega] at e3
    have hkk := isFacet_unique e3 hf
    have i1 := List.getElem?_eq_some_iff.1 e2
    have := (List.Nodup.getElem_inj_iff ht.nodup).1 (i1.2.trans hkk)
    refine ⟨c, hc, 2 - v, by omega, ?_⟩
    rw [e1, this]
    congr 1; omega

example : Manifold demo2 3 2 ∧ (fun r : (Nat → Nat → Option Nat) × (Nat → Bool) × Nat => (r.2.2, r.1 0 5, r.1 1 5)) <$>
    (build2 demo2 2 >>= enumDofs2 demo2 2 4 (fun _ => true)) = Res.ok (9, some 6, some 6) := ⟨demo2_manifold, by decide +kernel⟩

end Fdapde.FEM
