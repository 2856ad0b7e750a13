import Verif.Triang.Lemmas2
import Mathlib.Data.List.Count
import Mathlib.Data.Set.Card
import Mathlib.Algebra.BigOperators.Group.List.Basic
import Mathlib.Algebra.Ring.Parity
import Mathlib.Algebra.BigOperators.Intervals
import Mathlib.Algebra.Order.BigOperators.Group.Finset
/- Counting the facets of a table of cells that need not be a manifold. -/
namespace Fdapde.Triang

theorem sum_set_add : ∀ (l : List Nat) (h x y : Nat), l[h]? = some x → (l.set h y).sum + x = l.sum + y
  | [], h, x, y, e => by simp at e
  | a :: l, 0, x, y, e => by
    simp at e; subst e
    simp only [List.set_cons_zero, List.sum_cons]; omega
  | a :: l, h + 1, x, y, e => by
    simp only [List.getElem?_cons_succ] at e
    have := sum_set_add l h x y e
    simp only [List.set_cons_succ, List.sum_cons]; omega

theorem zip_set_right {α β : Type} : ∀ (l : List α) (m : List β) (h : Nat) (k : α) (b : β), l[h]? = some k →
    l.zip (m.set h b) = (l.zip m).set h (k, b)
  | [], m, h, k, b, e => by simp at e
  | a :: l, [], h, k, b, e => by simp
  | a :: l, c :: m, 0, k, b, e => by simp at e; subst e; simp
  | a :: l, c :: m, h + 1, k, b, e => by
    simp only [List.getElem?_cons_succ] at e
    simp [zip_set_right l m h k b e]

variable (cells : Nat → Nat → Nat) (nn : Nat) (pat : List (List Nat))

/-- How often the occurrence of a facet counts: an entry marked as boundary stands for one, any other for two. -/
def mult (b : Bool) : Nat := if b then 1 else 2

/-- What the tables contain once the occurrences in `done` are processed, without any assumption on how often a facet
occurs. -/
structure CInv (done : List (Nat × Nat)) (s : FSt) : Prop where
  lt : s.toCells.length = s.facets.length
  lm : s.markers.length = s.facets.length
  li : s.nextId = s.facets.length
  cT : ∀ k, (s.facets.zip s.markers).count (k, true) = (inst cells pat done k).length % 2
  cF : ∀ k, (s.facets.zip s.markers).count (k, false) = (inst cells pat done k).length / 2
  mapS : ∀ k h c, s.map k = some (h, c) → s.facets[h]? = some k ∧ s.markers[h]? = some true ∧
    (inst cells pat done k).length % 2 = 1 ∧ ∃ o ∈ inst cells pat done k, o.1 = c
  mapN : ∀ k, s.map k = none → (inst cells pat done k).length % 2 = 0
  wt : ∀ w : Key → Nat, (done.map fun o => w (kap cells pat o)).sum =
    ((s.facets.zip s.markers).map fun p => mult p.2 * w p.1).sum

theorem cinv_init : CInv cells pat [] FSt.init := by
  constructor <;> simp [FSt.init, inst]

theorem cinv_step {n : Nat} (hp : PatOK nn pat) (hd : ∀ c < n, Distinct cells nn c)
    (done : List (Nat × Nat)) (o : Nat × Nat) (rest : List (Nat × Nat)) (s : FSt)
    (hl : occ n nn = done ++ o :: rest) (hi : CInv cells pat done s) :
    ∃ s', facetStep cells nn pat s o.1 o.2 = .ok s' ∧ CInv cells pat (done ++ [o]) s' := by
  have hoin : ∀ x ∈ done, x.1 < n ∧ x.2 < nn := fun x hx => mem_occ.1 (by rw [hl]; simp [hx])
  have ho : o.1 < n ∧ o.2 < nn := mem_occ.1 (by rw [hl]; simp)
  have hsn := inst_snoc cells pat done
  have hw : ∀ w : Key → Nat, ((done ++ [o]).map fun o => w (kap cells pat o)).sum =
      (done.map fun o => w (kap cells pat o)).sum + w (kap cells pat o) := by
    intro w; simp
  generalize he : kap cells pat o = e at *
  have he' : key cells o.1 (pat.getD o.2 []) = e := he
  have hsame : (inst cells pat (done ++ [o]) e).length = (inst cells pat done e).length + 1 := by
    rw [hsn, if_pos he]; simp
  have hdiff : ∀ k, k ≠ e → inst cells pat (done ++ [o]) k = inst cells pat done k := by
    intro k hk; rw [hsn, if_neg (by rw [he]; exact fun h => hk h.symm)]; simp
  have hmem : ∀ k x, x ∈ inst cells pat done k → x ∈ inst cells pat (done ++ [o]) k := by
    intro k x hx; rw [hsn]; simp [hx]
  unfold facetStep
  rw [he']
  cases hm : s.map e with
  | none =>
    have hev := hi.mapN e hm
    simp only [hm]
    refine ⟨_, rfl, ?_⟩
    have hz : (s.facets ++ [e]).zip (s.markers ++ [true]) = s.facets.zip s.markers ++ [(e, true)] := by
      rw [List.zip_append hi.lm.symm]; rfl
    constructor
    · simp [hi.lt]
    · simp [hi.lm]
    · simp [hi.li]
    · intro k
      simp only [hz, List.count_append, hi.cT]
      by_cases hk : k = e
      · subst hk; rw [hsame]; simp; omega
      · rw [hdiff k hk]
        have : (e, true) ≠ (k, true) := fun h => hk (congrArg Prod.fst h).symm
        simp [List.count_cons, Ne.symm hk]
    · intro k
      simp only [hz, List.count_append, hi.cF]
      by_cases hk : k = e
      · subst hk; rw [hsame]; simp [List.count_cons]; omega
      · rw [hdiff k hk]
        simp [List.count_cons]
    · intro k h c hk
      by_cases hke : k = e
      · subst hke
        simp at hk
        obtain ⟨rfl, rfl⟩ := hk
        refine ⟨by simp [hi.li], ?_, by rw [hsame]; omega, o, ?_, rfl⟩
        · simp only
          rw [List.getElem?_append_right (by rw [hi.li, hi.lm]), hi.li, hi.lm]
          simp
        · rw [mem_inst]; exact ⟨by simp, he⟩
      · simp [hke] at hk
        obtain ⟨h1, h2, h3, x, hx, hxc⟩ := hi.mapS k h c hk
        refine ⟨?_, ?_, by rw [hdiff k hke]; exact h3, x, hmem k x hx, hxc⟩
        · simp only
          rw [List.getElem?_append_left ((List.getElem?_eq_some_iff.1 h1).1)]; exact h1
        · simp only
          rw [List.getElem?_append_left ((List.getElem?_eq_some_iff.1 h2).1)]; exact h2
    · intro k hk
      by_cases hke : k = e
      · simp [hke] at hk
      · simp [hke] at hk
        rw [hdiff k hke]
        exact hi.mapN k hk
    · intro w
      simp only [hz]
      rw [hw, hi.wt w]
      simp [mult]
  | some hc =>
    obtain ⟨h, c⟩ := hc
    obtain ⟨hf, hmk, hodd, a, ha, hac⟩ := hi.mapS e h c hm
    have hain := (mem_inst cells pat).1 ha
    have hlt := (List.getElem?_eq_some_iff.1 hf).1
    have hab := hoin a hain.1
    have hopa : opposite cells e c 0 nn = nn - 1 - a.2 := by
      rw [← hac]
      refine opposite_spec (hd _ hab.1) (by omega) ?_
      rw [← hain.2]
      exact key_isFacet hp (hd _ hab.1) hab.2
    have hopo : opposite cells e o.1 0 nn = nn - 1 - o.2 := by
      refine opposite_spec (hd _ ho.1) (by omega) ?_
      rw [← he]
      exact key_isFacet hp (hd _ ho.1) ho.2
    obtain ⟨tc, htc⟩ : ∃ tc, s.toCells[h]? = some tc := ⟨_, List.getElem?_eq_getElem (by rw [hi.lt]; exact hlt)⟩
    obtain ⟨c0, c1⟩ := tc
    simp only [hm, hf, htc, hopa, hopo]
    rw [if_pos ⟨by omega, by omega, by rw [hi.lm]; exact hlt⟩]
    refine ⟨_, rfl, ?_⟩
    have hz := zip_set_right s.facets s.markers h e false hf
    have hzl : h < (s.facets.zip s.markers).length := by
      rw [List.length_zip, hi.lm]; simpa using hlt
    have hze : (s.facets.zip s.markers)[h]? = some (e, true) := by
      rw [List.getElem?_zip_eq_some]; exact ⟨hf, hmk⟩
    have hze' : (s.facets.zip s.markers)[h] = (e, true) := by
      rw [List.getElem?_eq_getElem hzl] at hze; simpa using hze
    have hmem' : (e, true) ∈ s.facets.zip s.markers := List.mem_of_getElem? hze
    constructor
    · simp [hi.lt]
    · simp [hi.lm]
    · exact hi.li
    · intro k
      simp only [hz]
      rw [List.count_set hzl, hze', hi.cT]
      by_cases hk : k = e
      · subst hk
        rw [hsame]; simp; omega
      · rw [hdiff k hk]
        simp [Ne.symm hk]
    · intro k
      simp only [hz]
      rw [List.count_set hzl, hze', hi.cF]
      by_cases hk : k = e
      · subst hk
        rw [hsame]; simp; omega
      · rw [hdiff k hk]
        simp [Ne.symm hk]
    · intro k h' c' hk
      by_cases hke : k = e
      · simp [hke] at hk
      · simp [hke] at hk
        obtain ⟨h1, h2, h3, x, hx, hxc⟩ := hi.mapS k h' c' hk
        have hne : h ≠ h' := by
          rintro rfl
          rw [hf] at h1
          exact hke (by simpa using h1.symm)
        refine ⟨h1, ?_, by rw [hdiff k hke]; exact h3, x, hmem k x hx, hxc⟩
        simp only
        rw [List.getElem?_set_ne hne]; exact h2
    · intro k hk
      by_cases hke : k = e
      · subst hke; rw [hsame]; omega
      · simp [hke] at hk
        rw [hdiff k hke]
        exact hi.mapN k hk
    · intro w
      simp only [hz]
      rw [hw, hi.wt w, List.map_set]
      have := sum_set_add ((s.facets.zip s.markers).map fun p => mult p.2 * w p.1) h (w e) (mult false * w e)
        (by rw [List.getElem?_map, hze]; simp [mult])
      simp only [mult] at this ⊢
      simp at this ⊢
      omega

theorem facetLoop_count {n : Nat} (hp : PatOK nn pat) (hd : ∀ c < n, Distinct cells nn c) :
    ∃ s, facetLoop cells nn n pat = .ok s ∧ CInv cells pat (occ n nn) s := by
  obtain ⟨s, h1, h2⟩ := foldRes_inv (fun s o => facetStep cells nn pat s o.1 o.2) (CInv cells pat) (occ n nn)
    (fun done o rest s hl hi => cinv_step cells nn pat hp hd done o rest s hl hi) FSt.init (cinv_init cells pat)
  refine ⟨s, ?_, h2⟩
  unfold facetLoop
  rw [← h1, hp.length, occ, ← foldRes_flatMap]
  congr 1
  funext s i
  rw [foldRes_map]

variable {cells nn pat}

/-- The cells a facet belongs to are as many as the times it is met. -/
theorem inst_ncard {n : Nat} (hp : PatOK nn pat) (hd : ∀ c < n, Distinct cells nn c) (k : Key) :
    (inst cells pat (occ n nn) k).length = {c | c < n ∧ ∃ v < nn, IsFacet cells nn c v k}.ncard := by
  have hnd : ((inst cells pat (occ n nn) k).map Prod.fst).Nodup := by
    refine List.Nodup.map_on ?_ ((occ_nodup n nn).filter _)
    intro a ha b hb hab
    rw [mem_inst, mem_occ] at ha hb
    have h1 := kap_isFacet (pat := pat) hp (hd a.1 ha.1.1) ha.1.2
    have h2 := kap_isFacet (pat := pat) hp (hd b.1 hb.1.1) hb.1.2
    rw [ha.2] at h1
    rw [hb.2, ← hab] at h2
    have hv := facet_vertex (hd a.1 ha.1.1) (by omega : nn - 1 - a.2 < nn) h1 h2
    exact op_inj nn ha.1.2 hb.1.2 hab hv
  have hset : {c | c < n ∧ ∃ v < nn, IsFacet cells nn c v k} =
      (((inst cells pat (occ n nn) k).map Prod.fst).toFinset : Set Nat) := by
    ext c
    simp only [Set.mem_ofPred_eq, List.coe_toFinset, List.mem_map]
    constructor
    · rintro ⟨hc, v, hv, hf⟩
      refine ⟨(c, nn - 1 - v), ?_, rfl⟩
      rw [mem_inst, mem_occ]
      refine ⟨⟨hc, by simp; omega⟩, ?_⟩
      have h1 := kap_isFacet (pat := pat) (o := (c, nn - 1 - v)) hp (hd c hc) (by simp; omega)
      simp only at h1
      rw [show nn - 1 - (nn - 1 - v) = v by omega] at h1
      exact isFacet_unique h1 hf
    · rintro ⟨o, ho, rfl⟩
      rw [mem_inst, mem_occ] at ho
      have h1 := kap_isFacet (pat := pat) hp (hd o.1 ho.1.1) ho.1.2
      rw [ho.2] at h1
      exact ⟨ho.1.1, _, by omega, h1⟩
  rw [hset, Set.ncard_coe_finset, List.toFinset_card_of_nodup hnd, List.length_map]


/-- A cell with `nn` distinct nodes has exactly two facets that contain `nn - 2` given nodes of it, and none if some of
the given nodes is not in the cell. -/
theorem cell_even {c : Nat} (hp : PatOK nn pat) (hd : Distinct cells nn c) (S : Finset Nat) (hS : S.card + 2 = nn) :
    Even ((List.range nn).map fun j => if (∀ x ∈ S, x ∈ kap cells pat (c, j)) then 1 else 0).sum := by
  have hmem : ∀ j < nn, (∀ x ∈ S, x ∈ kap cells pat (c, j)) ↔
      ((∀ x ∈ S, ∃ w < nn, cells c w = x) ∧ cells c (nn - 1 - j) ∉ S) := by
    intro j hj
    have hf := kap_isFacet (pat := pat) (o := (c, j)) hp hd hj
    simp only at hf
    constructor
    · intro h
      refine ⟨fun x hx => ?_, fun hx => ?_⟩
      · obtain ⟨w, hw, _, e⟩ := (hf.2 x).1 (h x hx)
        exact ⟨w, hw, e⟩
      · obtain ⟨w, hw, hne, e⟩ := (hf.2 _).1 (h _ hx)
        exact hne (hd w hw _ (by omega) e)
    · rintro ⟨h1, h2⟩ x hx
      obtain ⟨w, hw, e⟩ := h1 x hx
      refine (hf.2 x).2 ⟨w, hw, ?_, e⟩
      rintro rfl
      exact h2 (e ▸ hx)
  have hsum : ((List.range nn).map fun j => if (∀ x ∈ S, x ∈ kap cells pat (c, j)) then 1 else 0).sum =
      ∑ j ∈ Finset.range nn, if (∀ x ∈ S, x ∈ kap cells pat (c, j)) then 1 else 0 := rfl
  rw [hsum]
  by_cases hall : ∀ x ∈ S, ∃ w < nn, cells c w = x
  · have h1 : (∑ j ∈ Finset.range nn, if (∀ x ∈ S, x ∈ kap cells pat (c, j)) then 1 else 0) =
        ∑ j ∈ Finset.range nn, if cells c (nn - 1 - j) ∉ S then 1 else 0 := by
      refine Finset.sum_congr rfl fun j hj => ?_
      rw [Finset.mem_range] at hj
      refine if_congr ?_ rfl rfl
      rw [hmem j hj]
      exact ⟨fun h => h.2, fun h => ⟨hall, h⟩⟩
    rw [h1, Finset.sum_range_reflect (fun v => if cells c v ∉ S then 1 else 0) nn, ← Finset.card_filter]
    have h2 : ((Finset.range nn).filter fun v => cells c v ∈ S).card = S.card := by
      rw [← Finset.card_image_of_injOn (f := cells c)]
      · congr 1
        ext x
        simp only [Finset.mem_image, Finset.mem_filter, Finset.mem_range]
        constructor
        · rintro ⟨v, ⟨_, h⟩, rfl⟩; exact h
        · intro hx
          obtain ⟨w, hw, e⟩ := hall x hx
          exact ⟨w, ⟨hw, e ▸ hx⟩, e⟩
      · intro a ha b hb hab
        simp only [Finset.coe_filter, Finset.mem_range, Set.mem_ofPred_eq] at ha hb
        exact hd a ha.1 b hb.1 hab
    have h3 := Finset.card_filter_add_card_filter_not (s := Finset.range nn) (fun v => cells c v ∈ S)
    rw [Finset.card_range, h2] at h3
    have : ((Finset.range nn).filter fun v => ¬ cells c v ∈ S).card = 2 := by omega
    rw [this]
    decide
  · have h1 : (∑ j ∈ Finset.range nn, if (∀ x ∈ S, x ∈ kap cells pat (c, j)) then 1 else 0) = 0 := by
      refine Finset.sum_eq_zero fun j hj => ?_
      rw [Finset.mem_range] at hj
      rw [if_neg]
      rw [hmem j hj]
      exact fun h => hall h.1
    rw [h1]; decide

theorem even_sum : ∀ (l : List Nat), (∀ x ∈ l, Even x) → Even l.sum
  | [], _ => by simp
  | a :: l, h => by
    rw [List.sum_cons]
    exact (h a (by simp)).add (even_sum l fun x hx => h x (by simp [hx]))

theorem occ_even {n : Nat} (hp : PatOK nn pat) (hd : ∀ c < n, Distinct cells nn c) (S : Finset Nat)
    (hS : S.card + 2 = nn) :
    Even ((occ n nn).map fun o => if (∀ x ∈ S, x ∈ kap cells pat o) then 1 else 0).sum := by
  unfold occ
  rw [List.map_flatMap, List.flatMap_def, List.sum_flatten, List.map_map]
  refine even_sum _ fun x hx => ?_
  rw [List.mem_map] at hx
  obtain ⟨c, hc, rfl⟩ := hx
  rw [List.mem_range] at hc
  have := cell_even (pat := pat) hp (hd c hc) S hS
  rw [Function.comp_apply, List.map_map]
  exact this

theorem mult_sum (w : Key → Nat) : ∀ P : List (Key × Bool),
    (P.map fun p => mult p.2 * w p.1).sum + (((P.filter fun p => p.2).map Prod.fst).map w).sum =
      2 * (P.map fun p => w p.1).sum
  | [] => rfl
  | (k, b) :: P => by
    have := mult_sum w P
    cases b <;> simp [mult] at this ⊢ <;> omega

end Fdapde.Triang
