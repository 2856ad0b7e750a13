import Verif.Triang.Lemmas
/- From the loop invariant to the specification: facets shared by cells. -/
namespace Fdapde.Triang

variable {cells : Nat → Nat → Nat} {nn n : Nat} {pat : List (List Nat)}

/-- A facet determines the omitted vertex. -/
theorem facet_vertex {c v w : Nat} {k : Key} (hd : Distinct cells nn c) (hv : v < nn)
    (h1 : IsFacet cells nn c v k) (h2 : IsFacet cells nn c w k) : v = w := by
  by_contra hne
  obtain ⟨u, hu, hne2, he⟩ := (h1.2 _).1 ((h2.2 (cells c v)).2 ⟨v, hv, hne, rfl⟩)
  exact hne2 (hd u hu v hv he)

theorem shares_of_facet {c d v w : Nat} {k : Key} (h1 : IsFacet cells nn c v k) (h2 : IsFacet cells nn d w k) :
    Shares cells nn c v d := by
  intro u hu huv
  obtain ⟨x, hx, _, he⟩ := (h2.2 _).1 ((h1.2 _).2 ⟨u, hu, huv, rfl⟩)
  exact ⟨x, hx, he⟩

/-- A cell that has all nodes of a facet has it as one of its own facets. -/
theorem facet_of_contains {c d v : Nat} {k : Key} (hdc : Distinct cells nn c) (hdd : Distinct cells nn d)
    (hv : v < nn) (h1 : IsFacet cells nn c v k) (h2 : Contains cells nn d k) :
    ∃ w < nn, IsFacet cells nn d w k := by
  classical
  let D := (Finset.range nn).image (cells d)
  let S := ((Finset.range nn).erase v).image (cells c)
  have hDc : D.card = nn := by
    rw [Finset.card_image_of_injOn, Finset.card_range]
    intro a ha b hb hab
    simp at ha hb
    exact hdd a ha b hb hab
  have hSc : S.card = nn - 1 := by
    rw [Finset.card_image_of_injOn, Finset.card_erase_of_mem (by simpa using hv), Finset.card_range]
    intro a ha b hb hab
    simp at ha hb
    exact hdc a ha.1 b hb.1 hab
  have hkS : ∀ x, x ∈ k ↔ x ∈ S := by
    intro x
    rw [h1.2]
    simp only [S, Finset.mem_image, Finset.mem_erase, Finset.mem_range]
    constructor
    · rintro ⟨w, a, b, e⟩; exact ⟨w, ⟨b, a⟩, e⟩
    · rintro ⟨w, ⟨b, a⟩, e⟩; exact ⟨w, a, b, e⟩
  have hSD : S ⊆ D := by
    intro x hx
    obtain ⟨w, hw, e⟩ := h2 x ((hkS x).2 hx)
    simp only [D, Finset.mem_image, Finset.mem_range]
    exact ⟨w, hw, e⟩
  have hdiff : (D \ S).card = 1 := by
    rw [Finset.card_sdiff_of_subset hSD, hDc, hSc]; omega
  obtain ⟨y, hy⟩ := Finset.card_eq_one.1 hdiff
  have hyD : y ∈ D \ S := by rw [hy]; simp
  rw [Finset.mem_sdiff] at hyD
  obtain ⟨w, hw, hwe⟩ := Finset.mem_image.1 hyD.1
  rw [Finset.mem_range] at hw
  refine ⟨w, hw, h1.1, ?_⟩
  intro x
  rw [hkS]
  constructor
  · intro hx
    obtain ⟨u, hu, hue⟩ := Finset.mem_image.1 (hSD hx)
    rw [Finset.mem_range] at hu
    refine ⟨u, hu, ?_, hue⟩
    rintro rfl
    rw [← hue, hwe] at hx
    exact hyD.2 hx
  · rintro ⟨u, hu, hne, rfl⟩
    by_contra hx
    have : cells d u ∈ D \ S := by
      rw [Finset.mem_sdiff]
      exact ⟨Finset.mem_image.2 ⟨u, by simpa using hu, rfl⟩, hx⟩
    rw [hy, Finset.mem_singleton, ← hwe] at this
    exact hne (hdd u hu w hw this)

theorem contains_iff_shares {c d v : Nat} {k : Key} (h1 : IsFacet cells nn c v k) :
    Contains cells nn d k ↔ Shares cells nn c v d := by
  constructor
  · intro h w hw hne; exact h _ ((h1.2 _).2 ⟨w, hw, hne, rfl⟩)
  · intro h x hx
    obtain ⟨w, hw, hne, rfl⟩ := (h1.2 _).1 hx
    exact h w hw hne

theorem kap_isFacet (hp : PatOK nn pat) {o : Nat × Nat} (hd : Distinct cells nn o.1) (ho : o.2 < nn) :
    IsFacet cells nn o.1 (nn - 1 - o.2) (kap cells pat o) := key_isFacet hp hd ho

/-- The incident cells of a facet are the cells of its occurrences. -/
theorem mem_inst_cell (hp : PatOK nn pat) (hm : Manifold cells nn n) {c v d : Nat} {k : Key} (hc : c < n) (hv : v < nn)
    (h1 : IsFacet cells nn c v k) (hdn : d < n) :
    Contains cells nn d k ↔ ∃ o ∈ inst cells pat (occ n nn) k, o.1 = d := by
  constructor
  · intro h
    obtain ⟨w, hw, hf⟩ := facet_of_contains (hm.distinct c hc) (hm.distinct d hdn) hv h1 h
    refine ⟨(d, nn - 1 - w), ?_, rfl⟩
    rw [mem_inst, mem_occ]
    refine ⟨⟨hdn, by simp; omega⟩, ?_⟩
    have h2 := kap_isFacet (pat := pat) (o := (d, nn - 1 - w)) hp (hm.distinct d hdn) (by simp; omega)
    simp only at h2
    rw [show nn - 1 - (nn - 1 - w) = w by omega] at h2
    exact isFacet_unique h2 hf
  · rintro ⟨o, ho, rfl⟩
    rw [mem_inst, mem_occ] at ho
    have h2 := kap_isFacet (pat := pat) hp (hm.distinct o.1 ho.1.1) ho.1.2
    rw [ho.2] at h2
    intro x hx
    obtain ⟨w, hw, _, e⟩ := (h2.2 x).1 hx
    exact ⟨w, hw, e⟩

theorem inst_cell_inj (hp : PatOK nn pat) (hm : Manifold cells nn n) {k : Key} {a b : Nat × Nat}
    (ha : a ∈ inst cells pat (occ n nn) k) (hb : b ∈ inst cells pat (occ n nn) k) (h : a.1 = b.1) : a = b := by
  rw [mem_inst, mem_occ] at ha hb
  have h1 := kap_isFacet (pat := pat) hp (hm.distinct a.1 ha.1.1) ha.1.2
  have h2 := kap_isFacet (pat := pat) hp (hm.distinct b.1 hb.1.1) hb.1.2
  rw [ha.2] at h1
  rw [hb.2, ← h] at h2
  have := facet_vertex (hm.distinct a.1 ha.1.1) (by omega) h1 h2
  exact op_inj nn ha.1.2 hb.1.2 h this

theorem inst_le_two (hp : PatOK nn pat) (hm : Manifold cells nn n) (k : Key) :
    (inst cells pat (occ n nn) k).length ≤ 2 := by
  have hnd : (inst cells pat (occ n nn) k).Nodup := (occ_nodup n nn).filter _
  match hx : inst cells pat (occ n nn) k with
  | [] => simp
  | [a] => simp
  | [a, b] => simp
  | a :: b :: c :: t =>
    exfalso
    have ha : a ∈ inst cells pat (occ n nn) k := by rw [hx]; simp
    have hb : b ∈ inst cells pat (occ n nn) k := by rw [hx]; simp
    have hc : c ∈ inst cells pat (occ n nn) k := by rw [hx]; simp
    rw [hx] at hnd
    simp at hnd
    have hab : a.1 ≠ b.1 := fun h => hnd.1.1 (inst_cell_inj hp hm ha hb h)
    have hac : a.1 ≠ c.1 := fun h => hnd.1.2.1 (inst_cell_inj hp hm ha hc h)
    have hbc : b.1 ≠ c.1 := fun h => hnd.2.1.1 (inst_cell_inj hp hm hb hc h)
    have fa := ha
    rw [mem_inst, mem_occ] at ha hb hc
    have h1 := kap_isFacet (pat := pat) hp (hm.distinct a.1 ha.1.1) ha.1.2
    have h2 := kap_isFacet (pat := pat) hp (hm.distinct b.1 hb.1.1) hb.1.2
    have h3 := kap_isFacet (pat := pat) hp (hm.distinct c.1 hc.1.1) hc.1.2
    rw [ha.2] at h1; rw [hb.2] at h2; rw [hc.2] at h3
    exact hbc (hm.two a.1 ha.1.1 (nn - 1 - a.2) (by omega) b.1 hb.1.1 c.1 hc.1.1
      (fun h => hab h.symm) (fun h => hac h.symm) (shares_of_facet h1 h2) (shares_of_facet h1 h3))

/-- Everything the tables say, in terms of the specification. -/
structure FacetSpec (cells : Nat → Nat → Nat) (nn n : Nat) (s : FSt) : Prop where
  nodup : s.facets.Nodup
  mem : ∀ k, k ∈ s.facets ↔ ∃ c < n, ∃ v < nn, IsFacet cells nn c v k
  cellTo : ∀ c < n, ∀ j < nn, ∃ h k, s.cellTo c j = some h ∧ s.facets[h]? = some k ∧
    IsFacet cells nn c (nn - 1 - j) k
  lengths : s.toCells.length = s.facets.length ∧ s.markers.length = s.facets.length
  marker : ∀ (h : Nat) k, s.facets[h]? = some k →
    (s.markers[h]? = some true ↔ ∃ c, (c < n ∧ Contains cells nn c k) ∧ ∀ d, d < n ∧ Contains cells nn d k → d = c)
  toCells : ∀ (h : Nat) k, s.facets[h]? = some k →
    (∃ a < n, s.toCells[h]? = some ((a : Int), -1) ∧ ∀ d < n, Contains cells nn d k ↔ d = a) ∨
    (∃ a < n, ∃ b < n, a < b ∧ s.toCells[h]? = some ((a : Int), (b : Int)) ∧
      ∀ d < n, Contains cells nn d k ↔ d = a ∨ d = b)
  neigh : ∀ c < n, ∀ v < nn, ∀ d : Nat, s.neigh c v = d ↔ d < n ∧ d ≠ c ∧ Shares cells nn c v d
  neighNone : ∀ c < n, ∀ v < nn, s.neigh c v = -1 ↔ ∀ d < n, d ≠ c → ¬ Shares cells nn c v d
  neighRange : ∀ c < n, ∀ v < nn, s.neigh c v = -1 ∨ ∃ d < n, s.neigh c v = (d : Nat)
  neighSymm : ∀ c < n, ∀ v < nn, ∀ d : Nat, s.neigh c v = d → ∃ w < nn, s.neigh d w = c

theorem occ_sorted (n nn : Nat) : (occ n nn).Pairwise (fun a b => a.1 ≤ b.1) := by
  unfold occ
  rw [List.pairwise_flatMap]
  constructor
  · intro i _
    rw [List.pairwise_map]
    exact (List.nodup_range (n := nn)).imp (fun _ => Nat.le_refl _)
  · refine List.pairwise_lt_range.imp ?_
    intro a b hab x hx y hy
    simp at hx hy
    obtain ⟨_, _, rfl⟩ := hx
    obtain ⟨_, _, rfl⟩ := hy
    exact Nat.le_of_lt hab

theorem facetLoop_facetSpec (hp : PatOK nn pat) (hm : Manifold cells nn n) :
    ∃ s, facetLoop cells nn n pat = .ok s ∧ FacetSpec cells nn n s := by
  obtain ⟨s, hs, hi⟩ := facetLoop_spec cells nn pat hp (fun c hc => hm.distinct c hc) (inst_le_two hp hm)
  refine ⟨s, hs, ?_⟩
  have hcell : ∀ {o k}, o ∈ inst cells pat (occ n nn) k → o.1 < n ∧ o.2 < nn ∧ IsFacet cells nn o.1 (nn - 1 - o.2) k := by
    intro o k ho
    rw [mem_inst, mem_occ] at ho
    have := kap_isFacet (pat := pat) hp (hm.distinct o.1 ho.1.1) ho.1.2
    rw [ho.2] at this
    exact ⟨ho.1.1, ho.1.2, this⟩
  have hmem : ∀ k, k ∈ s.facets ↔ ∃ c < n, ∃ v < nn, IsFacet cells nn c v k := by
    intro k
    rw [hi.mem]
    constructor
    · intro h
      obtain ⟨o, ho⟩ := List.exists_mem_of_ne_nil _ h
      obtain ⟨h1, h2, h3⟩ := hcell ho
      exact ⟨o.1, h1, _, by omega, h3⟩
    · rintro ⟨c, hc, v, hv, hf⟩ h
      have : Contains cells nn c k := by
        intro x hx
        obtain ⟨w, hw, _, e⟩ := (hf.2 x).1 hx
        exact ⟨w, hw, e⟩
      obtain ⟨o, ho, _⟩ := (mem_inst_cell hp hm hc hv hf hc).1 this
      rw [h] at ho
      simp at ho
  -- the incident cells of a listed facet
  have hinc : ∀ (h : Nat) k, s.facets[h]? = some k →
      (∃ o, inst cells pat (occ n nn) k = [o] ∧ o.1 < n ∧ ∀ d < n, Contains cells nn d k ↔ d = o.1) ∨
      (∃ a b, inst cells pat (occ n nn) k = [a, b] ∧ a.1 < n ∧ b.1 < n ∧ a.1 < b.1 ∧
        ∀ d < n, Contains cells nn d k ↔ d = a.1 ∨ d = b.1) := by
    intro h k hk
    have hk' := List.mem_of_getElem? hk
    obtain ⟨c, hc, v, hv, hf⟩ := (hmem k).1 hk'
    have hne := (hi.mem k).1 hk'
    have hle := inst_le_two hp hm k
    have hd := fun d hd => mem_inst_cell (d := d) hp hm hc hv hf hd
    match hx : inst cells pat (occ n nn) k with
    | [] => exact absurd hx hne
    | [o] =>
      refine Or.inl ⟨o, rfl, (hcell (by rw [hx]; simp)).1, ?_⟩
      intro d hdn
      rw [hd d hdn, hx]
      simp [eq_comm]
    | [a, b] =>
      have ha : a ∈ inst cells pat (occ n nn) k := by rw [hx]; simp
      have hb : b ∈ inst cells pat (occ n nn) k := by rw [hx]; simp
      refine Or.inr ⟨a, b, rfl, (hcell ha).1, (hcell hb).1, ?_, ?_⟩
      · have h1 : (inst cells pat (occ n nn) k).Pairwise (fun a b => a.1 ≤ b.1) := (occ_sorted n nn).filter _
        have h2 : (inst cells pat (occ n nn) k).Nodup := (occ_nodup n nn).filter _
        rw [hx] at h1 h2
        simp at h1 h2
        have : a.1 ≠ b.1 := fun h => h2 (inst_cell_inj hp hm ha hb h)
        omega
      · intro d hdn
        rw [hd d hdn, hx]
        simp [eq_comm]
    | a :: b :: c :: t => rw [hx] at hle; simp at hle
  have hneigh : ∀ c < n, ∀ v < nn, ∀ d : Nat, s.neigh c v = d ↔ d < n ∧ d ≠ c ∧ Shares cells nn c v d := by
    intro c hc v hv d
    have hfac := kap_isFacet (pat := pat) (o := (c, nn - 1 - v)) hp (hm.distinct c hc) (by simp; omega)
    simp only at hfac
    rw [show nn - 1 - (nn - 1 - v) = v by omega] at hfac
    generalize hk : kap cells pat (c, nn - 1 - v) = k at hfac
    have hself : (c, nn - 1 - v) ∈ inst cells pat (occ n nn) k := by
      rw [mem_inst, mem_occ]
      exact ⟨⟨hc, by simp; omega⟩, hk⟩
    constructor
    · intro h
      rcases hi.nb2 c v with h1 | ⟨k', a, b, hk', hor⟩
      · rw [h1] at h; omega
      · have ha : a ∈ inst cells pat (occ n nn) k' := by rw [hk']; simp
        have hb : b ∈ inst cells pat (occ n nn) k' := by rw [hk']; simp
        have hab : a.1 ≠ b.1 := by
          intro he
          have h2 : (inst cells pat (occ n nn) k').Nodup := (occ_nodup n nn).filter _
          have := inst_cell_inj hp hm ha hb he
          rw [hk', this] at h2
          simp at h2
        obtain ⟨n1, n2⟩ := hi.nb1 k' a b hk'
        have fa := hcell ha
        have fb := hcell hb
        rcases hor with ⟨rfl, rfl⟩ | ⟨rfl, rfl⟩
        · rw [n1] at h
          have : b.1 = d := by omega
          subst this
          exact ⟨fb.1, fun h => hab h.symm, shares_of_facet fa.2.2 fb.2.2⟩
        · rw [n2] at h
          have : a.1 = d := by omega
          subst this
          exact ⟨fa.1, hab, shares_of_facet fb.2.2 fa.2.2⟩
    · rintro ⟨hd, hne, hsh⟩
      obtain ⟨o, ho, hod⟩ := (mem_inst_cell hp hm hc hv hfac hd).1 ((contains_iff_shares hfac).2 hsh)
      subst hod
      have hle := inst_le_two hp hm k
      match hx : inst cells pat (occ n nn) k with
      | [] => rw [hx] at ho; simp at ho
      | [a] =>
        rw [hx] at ho hself
        simp at ho hself
        rw [ho, ← hself] at hne
        simp at hne
      | [a, b] =>
        obtain ⟨n1, n2⟩ := hi.nb1 k a b hx
        rw [hx] at ho hself
        simp at ho hself
        rcases hself with hs | hs <;> rcases ho with rfl | rfl
        · rw [← hs] at hne; simp at hne
        · rw [← hs] at n1
          simp only at n1
          rw [show nn - 1 - (nn - 1 - v) = v by omega] at n1
          exact n1
        · rw [← hs] at n2
          simp only at n2
          rw [show nn - 1 - (nn - 1 - v) = v by omega] at n2
          exact n2
        · rw [← hs] at hne; simp at hne
      | a :: b :: c :: t => rw [hx] at hle; simp at hle
  have hrange : ∀ c < n, ∀ v < nn, s.neigh c v = -1 ∨ ∃ d < n, s.neigh c v = (d : Nat) := by
    intro c hc v hv
    rcases hi.nb2 c v with h1 | ⟨k, a, b, hk, hor⟩
    · exact Or.inl h1
    · obtain ⟨n1, n2⟩ := hi.nb1 k a b hk
      have fa := hcell (by rw [hk]; simp : a ∈ inst cells pat (occ n nn) k)
      have fb := hcell (by rw [hk]; simp : b ∈ inst cells pat (occ n nn) k)
      rcases hor with ⟨rfl, rfl⟩ | ⟨rfl, rfl⟩
      · exact Or.inr ⟨b.1, fb.1, n1⟩
      · exact Or.inr ⟨a.1, fa.1, n2⟩
  constructor
  · exact hi.nodup
  · exact hmem
  · intro c hc j hj
    obtain ⟨h, h1, h2⟩ := hi.cellTo (c, j) (mem_occ.2 ⟨hc, hj⟩)
    exact ⟨h, _, h1, h2, kap_isFacet (pat := pat) (o := (c, j)) hp (hm.distinct c hc) hj⟩
  · exact ⟨hi.lt, hi.lm⟩
  · intro h k hk
    rcases hinc h k hk with ⟨o, h1, h2, h3⟩ | ⟨a, b, h1, h2, h3, h4, h5⟩
    · have := (hi.mark1 h k o hk h1).1
      rw [this]
      simp only [true_iff]
      exact ⟨o.1, ⟨h2, (h3 _ h2).2 rfl⟩, fun d hd => (h3 d hd.1).1 hd.2⟩
    · have := (hi.mark2 h k a b hk h1).1
      rw [this]
      simp
      intro c hc1 hc2
      by_cases hca : c = a.1
      · exact ⟨b.1, h3, (h5 _ h3).2 (Or.inr rfl), by omega⟩
      · exact ⟨a.1, h2, (h5 _ h2).2 (Or.inl rfl), by omega⟩
  · intro h k hk
    rcases hinc h k hk with ⟨o, h1, h2, h3⟩ | ⟨a, b, h1, h2, h3, h4, h5⟩
    · exact Or.inl ⟨o.1, h2, (hi.mark1 h k o hk h1).2, h3⟩
    · exact Or.inr ⟨a.1, h2, b.1, h3, h4, (hi.mark2 h k a b hk h1).2, h5⟩
  · exact hneigh
  · intro c hc v hv
    constructor
    · intro h d hd hne hsh
      have := (hneigh c hc v hv d).2 ⟨hd, hne, hsh⟩
      omega
    · intro h
      rcases hrange c hc v hv with h1 | ⟨d, hd, h1⟩
      · exact h1
      · obtain ⟨a, b, e⟩ := (hneigh c hc v hv d).1 h1
        exact absurd e (h d a b)
  · exact hrange
  · intro c hc v hv d hd
    rcases hi.nb2 c v with h1 | ⟨k, a, b, hk, hor⟩
    · rw [h1] at hd; omega
    · obtain ⟨n1, n2⟩ := hi.nb1 k a b hk
      have fa := hcell (by rw [hk]; simp : a ∈ inst cells pat (occ n nn) k)
      have fb := hcell (by rw [hk]; simp : b ∈ inst cells pat (occ n nn) k)
      rcases hor with ⟨rfl, rfl⟩ | ⟨rfl, rfl⟩
      · rw [n1] at hd
        have : b.1 = d := by omega
        subst this
        exact ⟨_, by omega, n2⟩
      · rw [n2] at hd
        have : a.1 = d := by omega
        subst this
        exact ⟨_, by omega, n1⟩

end Fdapde.Triang
