import Verif.Triang.Model
import Verif.Triang.Spec
import Mathlib.Data.List.Sort
import Mathlib.Data.List.Nodup
import Mathlib.Data.Finset.Card
import Mathlib.Data.Finset.Image
import Mathlib.Data.Finset.Range
import Mathlib.Tactic.Tauto
/- Sorted facets, opposite nodes, and the loop invariant of the facet construction. -/
namespace Fdapde.Triang

/-- The table of facets used by the code: facet `j` omits node `nn - 1 - j`. -/
def PatOK (nn : Nat) (pat : List (List Nat)) : Prop :=
  pat = (List.range nn).map fun j => (List.range nn).filter fun w => decide (w ≠ nn - 1 - j)

theorem PatOK.length {nn pat} (h : PatOK nn pat) : pat.length = nn := by rw [h]; simp

theorem PatOK.row {nn pat} (h : PatOK nn pat) {j : Nat} (hj : j < nn) :
    pat.getD j [] = (List.range nn).filter fun w => decide (w ≠ nn - 1 - j) := by
  rw [h]; simp [List.getD, hj]

def Distinct (cells : Nat → Nat → Nat) (nn c : Nat) : Prop :=
  ∀ v < nn, ∀ w < nn, cells c v = cells c w → v = w

theorem key_perm (cells : Nat → Nat → Nat) (i : Nat) (row : List Nat) :
    (key cells i row).Perm (row.map (cells i)) := List.perm_insertionSort _ _

theorem key_sorted (cells : Nat → Nat → Nat) (i : Nat) (row : List Nat) :
    (key cells i row).Pairwise (· ≤ ·) := by
  exact List.pairwise_insertionSort _ _

theorem key_isFacet {cells : Nat → Nat → Nat} {nn c j : Nat} {pat} (hp : PatOK nn pat)
    (hd : Distinct cells nn c) (hj : j < nn) :
    IsFacet cells nn c (nn - 1 - j) (key cells c (pat.getD j [])) := by
  have hnd : (key cells c (pat.getD j [])).Nodup := by
    rw [(key_perm _ _ _).nodup_iff, hp.row hj]
    refine List.Nodup.map_on ?_ (List.nodup_range.filter _)
    intro x hx y hy
    simp at hx hy
    exact hd x hx.1 y hy.1
  constructor
  · have hs := key_sorted cells c (pat.getD j [])
    exact (List.pairwise_and_iff.2 ⟨hs, hnd⟩).imp (fun ⟨a, b⟩ => by omega)
  · intro x
    rw [(key_perm _ _ _).mem_iff, hp.row hj]
    simp [and_assoc]

theorem sorted_ext {k k' : List Nat} (h : k.Pairwise (· < ·)) (h' : k'.Pairwise (· < ·))
    (hm : ∀ x, x ∈ k ↔ x ∈ k') : k = k' := by
  have hp : k.Perm k' := (List.perm_ext_iff_of_nodup (h.imp (fun h => by omega)) (h'.imp (fun h => by omega))).2 hm
  exact hp.eq_of_pairwise (fun a b _ _ h1 h2 => by omega) h h'

theorem isFacet_unique {cells : Nat → Nat → Nat} {nn c v : Nat} {k k'} (h : IsFacet cells nn c v k)
    (h' : IsFacet cells nn c v k') : k = k' :=
  sorted_ext h.1 h'.1 (fun x => by rw [h.2, h'.2])

theorem opposite_spec {cells : Nat → Nat → Nat} {nn c v : Nat} {k : Key} (hd : Distinct cells nn c)
    (hv : v < nn) (hf : IsFacet cells nn c v k) : opposite cells k c 0 nn = v := by
  have hgen : ∀ m j, j + m = nn → j ≤ v → opposite cells k c j m = v := by
    intro m
    induction m with
    | zero => intro j h1 h2; omega
    | succ m ih =>
      intro j h1 h2
      unfold opposite
      by_cases hjv : j = v
      · subst hjv
        have : ¬ (k.contains (cells c j) = true) := by
          rw [List.contains_iff_mem, hf.2]
          rintro ⟨w, hw, hne, he⟩
          exact hne (hd w hw j hv he)
        rw [if_neg this]
      · have : k.contains (cells c j) = true := by
          rw [List.contains_iff_mem, hf.2]
          exact ⟨j, by omega, hjv, rfl⟩
        rw [if_pos this]
        exact ih (j + 1) (by omega) (by omega)
  exact hgen nn 0 (by omega) (by omega)

/-! ### Occurrences -/

/-- All (cell, local facet) pairs in loop order. -/
def occ (n nn : Nat) : List (Nat × Nat) := (List.range n).flatMap fun i => (List.range nn).map fun j => (i, j)

theorem mem_occ {n nn : Nat} {o : Nat × Nat} : o ∈ occ n nn ↔ o.1 < n ∧ o.2 < nn := by
  rcases o with ⟨i, j⟩; simp [occ]

theorem occ_nodup (n nn : Nat) : (occ n nn).Nodup := by
  unfold occ
  rw [List.nodup_flatMap]
  constructor
  · intro i _
    exact List.nodup_range.map (fun a b h => by simpa using h)
  · refine List.nodup_range.imp ?_
    intro a b hab
    simp only [Function.onFun]
    intro o h1 h2
    simp at h1 h2
    obtain ⟨_, _, h1⟩ := h1
    obtain ⟨_, _, h2⟩ := h2
    rw [← h1] at h2
    exact hab (congrArg Prod.fst h2).symm

variable (cells : Nat → Nat → Nat) (nn : Nat) (pat : List (List Nat))

def kap (o : Nat × Nat) : Key := key cells o.1 (pat.getD o.2 [])
def inst (done : List (Nat × Nat)) (k : Key) : List (Nat × Nat) := done.filter fun o => decide (kap cells pat o = k)

theorem mem_inst {done k o} : o ∈ inst cells pat done k ↔ o ∈ done ∧ kap cells pat o = k := by
  simp [inst]

theorem inst_snoc (done k o) : inst cells pat (done ++ [o]) k =
    inst cells pat done k ++ if kap cells pat o = k then [o] else [] := by
  simp only [inst, List.filter_append, List.filter_cons, List.filter_nil]
  by_cases h : kap cells pat o = k <;> simp [h]

/-- What the tables contain once the occurrences in `done` are processed. -/
structure FInv (done : List (Nat × Nat)) (s : FSt) : Prop where
  nodup : s.facets.Nodup
  mem : ∀ k, k ∈ s.facets ↔ inst cells pat done k ≠ []
  lt : s.toCells.length = s.facets.length
  lm : s.markers.length = s.facets.length
  li : s.nextId = s.facets.length
  mapS : ∀ k h c, s.map k = some (h, c) → s.facets[h]? = some k ∧ ∃ o, inst cells pat done k = [o] ∧ o.1 = c
  mapN : ∀ k, s.map k = none → ∀ o, inst cells pat done k ≠ [o]
  cellTo : ∀ o ∈ done, ∃ h, s.cellTo o.1 o.2 = some h ∧ s.facets[h]? = some (kap cells pat o)
  mark1 : ∀ (h : Nat) k o, s.facets[h]? = some k → inst cells pat done k = [o] →
    s.markers[h]? = some true ∧ s.toCells[h]? = some ((o.1 : Int), -1)
  mark2 : ∀ (h : Nat) k a b, s.facets[h]? = some k → inst cells pat done k = [a, b] →
    s.markers[h]? = some false ∧ s.toCells[h]? = some ((a.1 : Int), (b.1 : Int))
  nb1 : ∀ k a b, inst cells pat done k = [a, b] →
    s.neigh a.1 (nn - 1 - a.2) = b.1 ∧ s.neigh b.1 (nn - 1 - b.2) = a.1
  nb2 : ∀ c v, s.neigh c v = -1 ∨ ∃ k a b, inst cells pat done k = [a, b] ∧
    ((c = a.1 ∧ v = nn - 1 - a.2) ∨ (c = b.1 ∧ v = nn - 1 - b.2))

theorem finv_init : FInv cells nn pat [] FSt.init := by
  constructor <;> simp [FSt.init, inst]

theorem op_inj {a b : Nat × Nat} (ha : a.2 < nn) (hb : b.2 < nn) (h1 : a.1 = b.1)
    (h2 : nn - 1 - a.2 = nn - 1 - b.2) : a = b := by
  rcases a with ⟨a1, a2⟩; rcases b with ⟨b1, b2⟩
  simp at *
  omega

theorem finv_step {n : Nat} (hp : PatOK nn pat) (hd : ∀ c < n, Distinct cells nn c)
    (htwo : ∀ k, (inst cells pat (occ n nn) k).length ≤ 2)
    (done : List (Nat × Nat)) (o : Nat × Nat) (rest : List (Nat × Nat)) (s : FSt)
    (hl : occ n nn = done ++ o :: rest) (hi : FInv cells nn pat done s) :
    ∃ s', facetStep cells nn pat s o.1 o.2 = .ok s' ∧ FInv cells nn pat (done ++ [o]) s' := by
  have hoin : ∀ x ∈ done, x.1 < n ∧ x.2 < nn := fun x hx => mem_occ.1 (by rw [hl]; simp [hx])
  have ho : o.1 < n ∧ o.2 < nn := mem_occ.1 (by rw [hl]; simp)
  have hond : o ∉ done := by
    have := occ_nodup n nn
    rw [hl, List.nodup_append] at this
    intro h
    exact this.2.2 o h o (by simp) rfl
  have hle : ∀ k, (inst cells pat (done ++ [o]) k).length ≤ 2 := by
    intro k
    have h1 := htwo k
    rw [hl, show done ++ o :: rest = (done ++ [o]) ++ rest by simp] at h1
    simp only [inst] at h1 ⊢
    rw [List.filter_append, List.length_append] at h1
    omega
  have hsn := inst_snoc cells pat done
  generalize he : kap cells pat o = e at *
  have he' : key cells o.1 (pat.getD o.2 []) = e := he
  have hsame : inst cells pat (done ++ [o]) e = inst cells pat done e ++ [o] := by rw [hsn, if_pos he]
  have hdiff : ∀ k, k ≠ e → inst cells pat (done ++ [o]) k = inst cells pat done k := by
    intro k hk; rw [hsn, if_neg (by rw [he]; exact fun h => hk h.symm)]; simp
  unfold facetStep
  rw [he']
  cases hm : s.map e with
  | none =>
    -- first time the facet is met
    have hnil : inst cells pat done e = [] := by
      have h1 := hle e
      rw [hsame] at h1
      have h2 := hi.mapN e hm
      match hx : inst cells pat done e with
      | [] => rfl
      | [a] => exact absurd hx (h2 a)
      | a :: b :: t => rw [hx] at h1; simp at h1
    have hnew : e ∉ s.facets := by rw [hi.mem, hnil]; simp
    have hfs : ∀ (h : Nat) k, (s.facets ++ [e])[h]? = some k → (s.facets[h]? = some k ∧ k ≠ e) ∨ (h = s.facets.length ∧ k = e) := by
      intro h k hk
      rw [List.getElem?_append] at hk
      by_cases hh : h < s.facets.length
      · rw [if_pos hh] at hk
        refine Or.inl ⟨hk, ?_⟩
        rintro rfl
        exact hnew (List.mem_of_getElem? hk)
      · rw [if_neg hh] at hk
        right
        rcases hx : h - s.facets.length with _ | m
        · rw [hx] at hk; simp at hk; exact ⟨by omega, hk.symm⟩
        · rw [hx] at hk; simp at hk
    simp only [hm]
    refine ⟨_, rfl, ?_⟩
    constructor
    · -- nodup
      rw [List.nodup_append]
      refine ⟨hi.nodup, by simp, ?_⟩
      intro a ha b hb
      simp at hb
      rintro rfl
      exact hnew (hb ▸ ha)
    · intro k
      by_cases hk : k = e
      · subst hk; rw [hsame]; simp
      · rw [hdiff k hk, ← hi.mem]; simp [hk]
    · simp [hi.lt]
    · simp [hi.lm]
    · simp [hi.li]
    · intro k h c hk
      by_cases hke : k = e
      · subst hke
        simp at hk
        obtain ⟨rfl, rfl⟩ := hk
        refine ⟨?_, o, ?_, rfl⟩
        · simp [hi.li]
        · rw [hsame, hnil]; rfl
      · simp [hke] at hk
        obtain ⟨h1, h2⟩ := hi.mapS k h c hk
        refine ⟨?_, by rw [hdiff k hke]; exact h2⟩
        rw [List.getElem?_append_left ((List.getElem?_eq_some_iff.1 h1).1)]
        exact h1
    · intro k hk x
      by_cases hke : k = e
      · simp [hke] at hk
      · simp [hke] at hk
        rw [hdiff k hke]
        exact hi.mapN k hk x
    · intro x hx
      simp at hx
      rcases hx with hx | rfl
      · obtain ⟨h, h1, h2⟩ := hi.cellTo x hx
        refine ⟨h, ?_, ?_⟩
        · simp only [put]
          rw [if_neg ?_]
          · exact h1
          · rintro ⟨ha, hb⟩
            exact hond (by rwa [show o = x from Prod.ext ha.symm hb.symm])
        · rw [List.getElem?_append_left ((List.getElem?_eq_some_iff.1 h2).1)]
          exact h2
      · refine ⟨s.nextId, by simp [put], ?_⟩
        rw [he]; simp [hi.li]
    · intro h k x hk hx
      rcases hfs h k hk with ⟨h1, h2⟩ | ⟨rfl, rfl⟩
      · rw [hdiff k h2] at hx
        have h3 := hi.mark1 h k x h1 hx
        have hlt := (List.getElem?_eq_some_iff.1 h1).1
        simp only
        rw [List.getElem?_append_left (by rw [hi.lm]; exact hlt), List.getElem?_append_left (by rw [hi.lt]; exact hlt)]
        exact h3
      · rw [hsame, hnil] at hx
        simp at hx; subst hx
        constructor
        · simp [← hi.lm]
        · simp [← hi.lt]
    · intro h k a b hk hx
      rcases hfs h k hk with ⟨h1, h2⟩ | ⟨rfl, rfl⟩
      · rw [hdiff k h2] at hx
        have h3 := hi.mark2 h k a b h1 hx
        have hlt := (List.getElem?_eq_some_iff.1 h1).1
        simp only
        rw [List.getElem?_append_left (by rw [hi.lm]; exact hlt), List.getElem?_append_left (by rw [hi.lt]; exact hlt)]
        exact h3
      · rw [hsame, hnil] at hx
        simp at hx
    · intro k a b hx
      by_cases hke : k = e
      · subst hke; rw [hsame, hnil] at hx; simp at hx
      · rw [hdiff k hke] at hx; exact hi.nb1 k a b hx
    · intro c v
      rcases hi.nb2 c v with h1 | ⟨k, a, b, h1, h2⟩
      · exact Or.inl h1
      · refine Or.inr ⟨k, a, b, ?_, h2⟩
        have : k ≠ e := by rintro rfl; rw [hnil] at h1; simp at h1
        rw [hdiff k this]; exact h1
  | some hc =>
    obtain ⟨h, c⟩ := hc
    obtain ⟨hf, a, ha, hac⟩ := hi.mapS e h c hm
    have hain := (mem_inst cells pat).1 (by rw [ha]; simp : a ∈ inst cells pat done e)
    obtain ⟨hmk, htc⟩ := hi.mark1 h e a hf ha
    have hlt := (List.getElem?_eq_some_iff.1 hf).1
    have hab := hoin a hain.1
    have hopa : opposite cells e c 0 nn = nn - 1 - a.2 := by
      rw [← hac]
      refine opposite_spec (hd _ hab.1) (by omega) ?_
      rw [← hain.2]
      exact key_isFacet hp (hd _ hab.1) hab.2
    have hopo : opposite cells e o.1 0 nn = nn - 1 - o.2 := by
      refine opposite_spec (hd _ ho.1) (by omega) ?_
      rw [← he]
      exact key_isFacet hp (hd _ ho.1) ho.2
    have hpair : inst cells pat (done ++ [o]) e = [a, o] := by rw [hsame, ha]; rfl
    have hao : a ≠ o := fun hx => hond (hx ▸ hain.1)
    have hfe : ∀ (h' : Nat) k, s.facets[h']? = some k → k ≠ e → h ≠ h' := by
      rintro h' k hk hke rfl
      rw [hf] at hk
      exact hke (by simpa using hk.symm)
    have hfu : ∀ h' : Nat, s.facets[h']? = some e → h' = h := by
      intro h' hk
      exact ((List.getElem?_inj hlt hi.nodup).1 (by rw [hf, hk])).symm
    simp only [hm, hf, htc, hopa, hopo]
    rw [if_pos ⟨by omega, by omega, by rw [hi.lm]; exact hlt⟩]
    refine ⟨_, rfl, ?_⟩
    constructor
    · exact hi.nodup
    · intro k
      by_cases hk : k = e
      · subst hk
        rw [hpair]
        simp
        exact List.mem_of_getElem? hf
      · rw [hdiff k hk]; exact hi.mem k
    · simp [hi.lt]
    · simp [hi.lm]
    · exact hi.li
    · intro k h' c' hk
      by_cases hke : k = e
      · simp [hke] at hk
      · simp [hke] at hk
        rw [hdiff k hke]
        exact hi.mapS k h' c' hk
    · intro k hk x
      by_cases hke : k = e
      · subst hke; rw [hpair]; simp
      · simp [hke] at hk
        rw [hdiff k hke]
        exact hi.mapN k hk x
    · intro x hx
      simp at hx
      rcases hx with hx | rfl
      · obtain ⟨h', h1, h2⟩ := hi.cellTo x hx
        refine ⟨h', ?_, h2⟩
        simp only [put]
        rw [if_neg ?_]
        · exact h1
        · rintro ⟨ha, hb⟩
          exact hond (by rwa [show o = x from Prod.ext ha.symm hb.symm])
      · exact ⟨h, by simp [put], by rw [he]; exact hf⟩
    · intro h' k x hk hx
      by_cases hke : k = e
      · subst hke; rw [hpair] at hx; simp at hx
      · rw [hdiff k hke] at hx
        have h3 := hi.mark1 h' k x hk hx
        have := hfe h' k hk hke
        simp only
        rw [List.getElem?_set_ne this, List.getElem?_set_ne this]
        exact h3
    · intro h' k x y hk hx
      by_cases hke : k = e
      · subst hke
        rw [hpair] at hx
        simp at hx
        obtain ⟨rfl, rfl⟩ := hx
        rw [hfu h' hk]
        simp only
        rw [List.getElem?_set_self (by rw [hi.lm]; exact hlt), List.getElem?_set_self (by rw [hi.lt]; exact hlt)]
        exact ⟨rfl, rfl⟩
      · rw [hdiff k hke] at hx
        have h3 := hi.mark2 h' k x y hk hx
        have := hfe h' k hk hke
        simp only
        rw [List.getElem?_set_ne this, List.getElem?_set_ne this]
        exact h3
    · intro k x y hx
      by_cases hke : k = e
      · subst hke
        rw [hpair] at hx
        simp at hx
        obtain ⟨rfl, rfl⟩ := hx
        subst hac
        constructor
        · simp only [put]
          rw [if_neg (fun hh => hao (op_inj nn hab.2 ho.2 hh.1 hh.2))]
          simp
        · simp [put]
      · rw [hdiff k hke] at hx
        have hxm := (mem_inst cells pat).1 (by rw [hx]; simp : x ∈ inst cells pat done k)
        have hym := (mem_inst cells pat).1 (by rw [hx]; simp : y ∈ inst cells pat done k)
        have hgen : ∀ z, z ∈ done → kap cells pat z = k → ∀ w, s.neigh z.1 (nn - 1 - z.2) = w →
            put (put s.neigh c (nn - 1 - a.2) (o.1 : Int)) o.1 (nn - 1 - o.2) (c : Int) z.1 (nn - 1 - z.2) = w := by
          intro z hz hzk w hw
          have hz2 := (hoin z hz).2
          simp only [put]
          rw [if_neg, if_neg]
          · exact hw
          · rintro ⟨h1, h2⟩
            have := op_inj nn hz2 hab.2 (h1.trans hac.symm) h2
            subst this
            exact hke (hzk.symm.trans hain.2)
          · rintro ⟨h1, h2⟩
            have := op_inj nn hz2 ho.2 h1 h2
            subst this
            exact hond hz
        obtain ⟨h1, h2⟩ := hi.nb1 k x y hx
        exact ⟨hgen x hxm.1 hxm.2 _ h1, hgen y hym.1 hym.2 _ h2⟩
    · intro c' v
      by_cases h1 : c' = o.1 ∧ v = nn - 1 - o.2
      · exact Or.inr ⟨e, a, o, hpair, Or.inr h1⟩
      by_cases h2 : c' = c ∧ v = nn - 1 - a.2
      · exact Or.inr ⟨e, a, o, hpair, Or.inl ⟨h2.1.trans hac.symm, h2.2⟩⟩
      simp only [put]
      rw [if_neg h1, if_neg h2]
      rcases hi.nb2 c' v with h3 | ⟨k, x, y, h3, h4⟩
      · exact Or.inl h3
      · refine Or.inr ⟨k, x, y, ?_, h4⟩
        have : k ≠ e := by rintro rfl; rw [ha] at h3; simp at h3
        rw [hdiff k this]; exact h3

theorem facetLoop_spec {n : Nat} (hp : PatOK nn pat) (hd : ∀ c < n, Distinct cells nn c)
    (htwo : ∀ k, (inst cells pat (occ n nn) k).length ≤ 2) :
    ∃ s, facetLoop cells nn n pat = .ok s ∧ FInv cells nn pat (occ n nn) s := by
  have hE : facetLoop cells nn n pat =
      foldRes (fun s (o : Nat × Nat) => facetStep cells nn pat s o.1 o.2) FSt.init (occ n nn) := by
    unfold facetLoop occ
    rw [← foldRes_flatMap, hp.length]
    congr 1
    funext s i
    rw [foldRes_map]
  rw [hE]
  exact foldRes_inv _ (FInv cells nn pat) _
    (fun done o rest s hl hi => finv_step cells nn pat hp hd htwo done o rest s hl hi) _ (finv_init cells nn pat)

end Fdapde.Triang
