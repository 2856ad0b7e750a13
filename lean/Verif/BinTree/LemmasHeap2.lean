import Verif.BinTree.LemmasHeap
/- `push_` at a position and `clone_` on the heap. -/
namespace Fdapde.BinTree
variable {α : Type}
open Tree

/-- The child put by `push_`: a new node, or the old one with another value. -/
def aputChild (a : Nat) (x : α) (d : Nat) : ATree α → ATree α
  | nil => node nil (a, x) (d + 1) nil
  | node l v e r => node l (v.1, x) e r

/-- `push_` below the node at a position, on trees with addresses. -/
def aput (a : Nat) (x : α) (left : Bool) : ATree α → Path → ATree α
  | nil, _ => nil
  | node l v d r, [] => if left then node (aputChild a x d l) v d r else node l v d (aputChild a x d r)
  | node l v d r, true :: p => node (aput a x left l p) v d r
  | node l v d r, false :: p => node l v d (aput a x left r p)

theorem addr_node (l : ATree α) (v : Nat × α) (d : Nat) (r : ATree α) : addr (node l v d r) = some v.1 := rfl

theorem addr_aput (a : Nat) (x : α) (left : Bool) (t : ATree α) (p : Path) : addr (aput a x left t p) = addr t := by
  cases t with
  | nil => cases p <;> rfl
  | node l v d r =>
    cases p with
    | nil => cases left <;> rfl
    | cons b p => cases b <;> rfl

theorem childPut_strip (a : Nat) (x : α) (left : Bool) (t : ATree α) : ∀ p, (sub t p).isNil = false →
    childPut x left (strip t) p = .ok (strip (aput a x left t p), (childOf left (sub t p)).isNil) := by
  induction t with
  | nil => intro p hp; rw [sub_nil] at hp; simp [isNil] at hp
  | node l v d r ihl ihr =>
    intro p hp
    cases p with
    | nil =>
      cases left
      · cases r <;> simp [childPut, strip, aput, aputChild, childOf, isNil]
      · cases l <;> simp [childPut, strip, aput, aputChild, childOf, isNil]
    | cons b p =>
      cases b
      · have := ihr p hp
        simp [childPut, strip, this, aput, sub]
      · have := ihl p hp
        simp [childPut, strip, this, aput, sub]

theorem size_aput (a : Nat) (x : α) (left : Bool) (t : ATree α) (p : Path) (hp : (sub t p).isNil = false) :
    (aput a x left t p).size = t.size + if (childOf left (sub t p)).isNil then 1 else 0 := by
  have h1 := childPut_strip a x left t p hp
  have h2 := childPut_size x left (strip t) p _ _ h1
  rw [strip_size, strip_size] at h2
  exact h2

theorem addrs_aputChild (a : Nat) (x : α) (d : Nat) (t : ATree α) :
    addrs (aputChild a x d t) = if t.isNil then [a] else addrs t := by
  cases t <;> simp [aputChild, isNil]

theorem addrs_aput (a : Nat) (x : α) (left : Bool) (t : ATree α) : ∀ p, (sub t p).isNil = false →
    (addrs (aput a x left t p)).Perm ((if (childOf left (sub t p)).isNil then [a] else []) ++ addrs t) := by
  induction t with
  | nil => intro p hp; rw [sub_nil] at hp; simp [isNil] at hp
  | node l v d r ihl ihr =>
    intro p hp
    cases p with
    | nil =>
      cases left
      · simp only [aput, sub_root, childOf, addrs_node, addrs_aputChild, Bool.false_eq_true, if_false]
        cases r with
        | nil =>
          simp only [isNil, if_true, addrs_nil, List.append_nil]
          exact ((List.perm_append_singleton a (addrs l)).cons v.1).trans (List.Perm.swap ..)
        | node => simp [isNil]
      · simp only [aput, sub_root, childOf, addrs_node, addrs_aputChild, if_true]
        cases l with
        | nil => simp only [isNil, if_true, addrs_nil, List.nil_append]; exact List.Perm.swap ..
        | node => simp [isNil]
    | cons b p =>
      have hmid : ∀ (c : Bool) (A B C : List Nat), A.Perm ((if c then [a] else []) ++ B) →
          (v.1 :: (A ++ C)).Perm ((if c then [a] else []) ++ v.1 :: (B ++ C)) := by
        intro c A B C h
        cases c
        · simpa using h.append_right C
        · simp only [if_true, List.cons_append, List.nil_append] at h ⊢
          exact ((h.append_right C).cons v.1).trans (List.Perm.swap ..)
      cases b
      · have h0 := ihr p hp
        simp only [aput, addrs_node, sub]
        refine ((List.perm_append_comm).cons v.1).trans ((hmid _ _ _ (addrs l) h0).trans ?_)
        exact List.Perm.append_left _ ((List.perm_append_comm).cons v.1)
      · have h0 := hmid _ _ _ (addrs r) (ihl p hp)
        simp only [aput, addrs_node, sub]
        refine h0.trans ?_
        exact List.Perm.append_left _ (List.Perm.refl _)

/-- Nodes that exist keep their address. -/
theorem sub_aput_addr (a : Nat) (x : α) (left : Bool) (t : ATree α) : ∀ p q, (sub t q).isNil = false →
    addr (sub (aput a x left t p) q) = addr (sub t q) := by
  induction t with
  | nil => intro p q hq; rw [sub_nil] at hq; simp [isNil] at hq
  | node l v d r ihl ihr =>
    intro p q hq
    cases q with
    | nil => simp only [sub_root]; exact addr_aput a x left _ p
    | cons c q =>
      have hkid : ∀ (u : ATree α), (sub u q).isNil = false → addr (sub (aputChild a x d u) q) = addr (sub u q) := by
        intro u hu
        cases u with
        | nil => rw [sub_nil] at hu; simp [isNil] at hu
        | node ul uv ud ur =>
          cases q with
          | nil => rfl
          | cons e q => cases e <;> rfl
      cases p with
      | nil =>
        cases left <;> cases c <;> simp only [aput, Bool.false_eq_true, if_false, if_true, sub]
        · exact hkid r hq
        · exact hkid l hq
      | cons b p =>
        cases b <;> cases c <;> simp only [aput, sub]
        · exact ihr p q hq
        · exact ihl p q hq

/-- The child that was put. -/
theorem sub_aput_child (a : Nat) (x : α) (left : Bool) (t : ATree α) : ∀ p, (sub t p).isNil = false →
    addr (sub (aput a x left t p) (p ++ [left])) =
      some (if (childOf left (sub t p)).isNil then a else (addr (childOf left (sub t p))).getD 0) := by
  induction t with
  | nil => intro p hp; rw [sub_nil] at hp; simp [isNil] at hp
  | node l v d r ihl ihr =>
    intro p hp
    cases p with
    | nil =>
      cases left
      · cases r <;> simp [aput, aputChild, sub, childOf, isNil, addr]
      · cases l <;> simp [aput, aputChild, sub, childOf, isNil, addr]
    | cons b p =>
      cases b
      · exact ihr p hp
      · exact ihl p hp

theorem rep_aput_new {h h' : Mem α} (a : Nat) (x : α) (left : Bool) (t : ATree α) : ∀ (p : Path) {sl sv sd sr},
    sub t p = node sl sv sd sr → childOf left (node sl sv sd sr) = nil → Rep h t → (addrs t).Nodup → a ∉ addrs t →
    (∀ par, h[sv.1]? = some (some ⟨sv.2, par, addr sl, addr sr, sd⟩) →
      h'[sv.1]? = some (some ⟨sv.2, par, if left then some a else addr sl, if left then addr sr else some a, sd⟩)) →
    (∃ par, h'[a]? = some (some ⟨x, par, none, none, sd + 1⟩)) → (∀ b, b ≠ sv.1 → b ≠ a → h'[b]? = h[b]?) →
    Rep h' (aput a x left t p) := by
  induction t with
  | nil => intro p sl sv sd sr hs; rw [sub_nil] at hs; cases hs
  | node l v d r ihl ihr =>
    intro p sl sv sd sr hs hc hr hn ha hset hnew hfr
    obtain ⟨⟨par, h1⟩, h2, h3⟩ := hr
    simp only [addrs_node, List.nodup_cons, List.nodup_append, List.mem_append, not_or, List.mem_cons] at hn ha
    obtain ⟨⟨hvl, hvr⟩, hnl, hnr, hlr⟩ := hn
    cases p with
    | nil =>
      rw [sub_root] at hs
      injection hs with e1 e2 e3 e4
      subst e1 e2 e3 e4
      have hrl : Rep h' l := rep_frame l h2 fun b hb => hfr b (fun e => hvl (e ▸ hb)) (fun e => ha.2.1 (e ▸ hb))
      have hrr : Rep h' r := rep_frame r h3 fun b hb => hfr b (fun e => hvr (e ▸ hb)) (fun e => ha.2.2 (e ▸ hb))
      have hs' := hset par h1
      cases left
      · simp only [childOf, Bool.false_eq_true, if_false] at hc hs'
        subst hc
        simp only [aput, Bool.false_eq_true, if_false, aputChild]
        exact ⟨⟨par, hs'⟩, hrl, hnew, trivial, trivial⟩
      · simp only [childOf, if_true] at hc hs'
        subst hc
        simp only [aput, if_true, aputChild]
        exact ⟨⟨par, hs'⟩, ⟨hnew, trivial, trivial⟩, hrr⟩
    | cons b p =>
      cases b
      · have hm : sv.1 ∈ addrs r := mem_of_sub r p hs
        refine ⟨⟨par, ?_⟩, ?_, ihr p hs hc h3 hnr ha.2.2 hset hnew hfr⟩
        · rw [hfr v.1 (fun e => hvr (e ▸ hm)) (fun e => ha.1 e.symm), addr_aput]; exact h1
        · exact rep_frame l h2 fun b hb => hfr b (fun e => hlr b hb sv.1 hm e) (fun e => ha.2.1 (e ▸ hb))
      · have hm : sv.1 ∈ addrs l := mem_of_sub l p hs
        refine ⟨⟨par, ?_⟩, ihl p hs hc h2 hnl ha.2.1 hset hnew hfr, ?_⟩
        · rw [hfr v.1 (fun e => hvl (e ▸ hm)) (fun e => ha.1 e.symm), addr_aput]; exact h1
        · exact rep_frame r h3 fun b hb => hfr b (fun e => hlr sv.1 hm b hb e.symm) (fun e => ha.2.2 (e ▸ hb))

theorem rep_aput_old {h h' : Mem α} (a : Nat) (x : α) (left : Bool) (t : ATree α) : ∀ (p : Path) {sl sv sd sr cl cv cd cr},
    sub t p = node sl sv sd sr → childOf left (node sl sv sd sr) = node cl cv cd cr → Rep h t → (addrs t).Nodup →
    (∀ par, h[cv.1]? = some (some ⟨cv.2, par, addr cl, addr cr, cd⟩) → h'[cv.1]? = some (some ⟨x, par, addr cl, addr cr, cd⟩)) →
    (∀ b, b ≠ cv.1 → h'[b]? = h[b]?) → Rep h' (aput a x left t p) := by
  induction t with
  | nil => intro p sl sv sd sr cl cv cd cr hs; rw [sub_nil] at hs; cases hs
  | node l v d r ihl ihr =>
    intro p sl sv sd sr cl cv cd cr hs hc hr hn hset hfr
    obtain ⟨⟨par, h1⟩, h2, h3⟩ := hr
    simp only [addrs_node, List.nodup_cons, List.nodup_append, List.mem_append, not_or] at hn
    obtain ⟨⟨hvl, hvr⟩, hnl, hnr, hlr⟩ := hn
    cases p with
    | nil =>
      rw [sub_root] at hs
      injection hs with e1 e2 e3 e4
      subst e1 e2 e3 e4
      cases left
      · simp only [childOf, Bool.false_eq_true, if_false] at hc
        subst hc
        simp only [aput, Bool.false_eq_true, if_false, aputChild]
        obtain ⟨⟨par', h4⟩, h5, h6⟩ := h3
        simp only [addrs_node, List.mem_cons, List.mem_append, not_or, List.nodup_cons] at hvr hnr hlr
        refine ⟨⟨par, ?_⟩, ?_, ⟨par', hset par' h4⟩, ?_, ?_⟩
        · rw [hfr v.1 hvr.1]; exact h1
        · exact rep_frame l h2 fun b hb => hfr b fun e => hlr b hb cv.1 (.inl rfl) e
        · exact rep_frame cl h5 fun b hb => hfr b fun e => hnr.1.1 (e ▸ hb)
        · exact rep_frame cr h6 fun b hb => hfr b fun e => hnr.1.2 (e ▸ hb)
      · simp only [childOf, if_true] at hc
        subst hc
        simp only [aput, if_true, aputChild]
        obtain ⟨⟨par', h4⟩, h5, h6⟩ := h2
        simp only [addrs_node, List.mem_cons, List.mem_append, not_or, List.nodup_cons] at hvl hnl hlr
        refine ⟨⟨par, ?_⟩, ⟨⟨par', hset par' h4⟩, ?_, ?_⟩, ?_⟩
        · rw [hfr v.1 hvl.1]; exact h1
        · exact rep_frame cl h5 fun b hb => hfr b fun e => hnl.1.1 (e ▸ hb)
        · exact rep_frame cr h6 fun b hb => hfr b fun e => hnl.1.2 (e ▸ hb)
        · exact rep_frame r h3 fun b hb => hfr b fun e => hlr cv.1 (.inl rfl) b hb e.symm
    | cons b p =>
      have hsub : ∀ (u : ATree α), sub u p = node sl sv sd sr → cv.1 ∈ addrs u := by
        intro u hu
        apply addrs_sub u p
        rw [hu]
        cases left <;> simp only [childOf, Bool.false_eq_true, if_false, if_true] at hc <;> subst hc <;> simp
      cases b
      · have hm : cv.1 ∈ addrs r := hsub r hs
        refine ⟨⟨par, ?_⟩, ?_, ihr p hs hc h3 hnr hset hfr⟩
        · rw [hfr v.1 (fun e => hvr (e ▸ hm)), addr_aput]; exact h1
        · exact rep_frame l h2 fun b hb => hfr b (fun e => hlr b hb cv.1 hm e)
      · have hm : cv.1 ∈ addrs l := hsub l hs
        refine ⟨⟨par, ?_⟩, ihl p hs hc h2 hnl hset hfr, ?_⟩
        · rw [hfr v.1 (fun e => hvl (e ▸ hm)), addr_aput]; exact h1
        · exact rep_frame r h3 fun b hb => hfr b (fun e => hlr cv.1 hm b hb e.symm)

theorem pushNode_spec (x : α) (left : Bool) (t : ATree α) (h : Mem α) (hr : Rep h t) (hn : (addrs t).Nodup) (p : Path)
    (hp : (sub t p).isNil = false) :
    ∃ h' b, pushNode h (addr (sub t p)) left x = .ok (h', b, (childOf left (sub t p)).isNil) ∧
      Rep h' (aput h.length x left t p) ∧ addr (sub (aput h.length x left t p) (p ++ [left])) = some b ∧
      h'.length = h.length + (if (childOf left (sub t p)).isNil then 1 else 0) ∧
      ∀ c, c ∉ addrs (aput h.length x left t p) → h'[c]? = h[c]? := by
  obtain ⟨sl, sv, sd, sr, hs⟩ : ∃ sl sv sd sr, sub t p = node sl sv sd sr := by
    cases hs : sub t p with
    | nil => rw [hs] at hp; simp [isNil] at hp
    | node sl sv sd sr => exact ⟨_, _, _, _, rfl⟩
  have hrs := rep_sub t hr p
  rw [hs] at hrs
  obtain ⟨⟨par, h1⟩, h2, h3⟩ := hrs
  have hlt : sv.1 < h.length := (List.getElem?_eq_some_iff.1 h1).1
  have hna : h.length ∉ addrs t := fun hm => absurd (rep_lt t hr hm) (Nat.lt_irrefl _)
  have hchild := sub_aput_child h.length x left t p hp
  have hmem := addrs_aput h.length x left t p hp
  have hsvm : sv.1 ∈ addrs (aput h.length x left t p) := by
    rw [hmem.mem_iff]
    exact List.mem_append_right _ (mem_of_sub t p hs)
  cases hc : childOf left (node sl sv sd sr) with
  | nil =>
    have hcell : (if left = true then addr sl else addr sr) = none := by
      cases left <;> simp only [childOf, Bool.false_eq_true, if_false, if_true] at hc ⊢ <;> rw [hc] <;> rfl
    rw [hs, hc] at hchild hmem
    simp only [isNil, if_true] at hchild hmem
    refine ⟨Mem.put h sv.1 (if left then ⟨sv.2, par, some h.length, addr sr, sd⟩ else ⟨sv.2, par, addr sl, some h.length, sd⟩) ++
      [some ⟨x, some sv.1, none, none, sd + 1⟩], h.length, ?_, ?_, hchild, ?_, ?_⟩
    · rw [hs]
      simp only [addr_node, pushNode, mem_get h1, hc, isNil]
      cases left <;> simp only [Bool.false_eq_true, if_false, if_true] at hcell ⊢ <;> rw [hcell]
    · refine rep_aput_new h.length x left t p hs hc hr hn hna ?_ ?_ ?_
      · intro par' h1'
        rw [h1] at h1'
        have hpar : par = par' := by injection h1' with h1'; injection h1' with h1'; injection h1'
        subst hpar
        rw [List.getElem?_append_left (by simpa [Mem.put] using hlt)]
        cases left <;> simp [Mem.put, hlt]
      · refine ⟨some sv.1, ?_⟩
        rw [List.getElem?_append_right (by simp [Mem.put])]
        simp [Mem.put]
      · intro b hb hb'
        by_cases hbl : b < h.length
        · rw [List.getElem?_append_left (by simpa [Mem.put] using hbl)]
          exact List.getElem?_set_ne (Ne.symm hb)
        · rw [List.getElem?_append_right (by simp [Mem.put]; omega), List.getElem?_eq_none (by simp [Mem.put]; omega),
            List.getElem?_eq_none (by omega)]
    · rw [hs, hc]; simp [Mem.put, isNil]
    · intro b hb
      have hb1 : b ≠ sv.1 := fun e => hb (e ▸ hsvm)
      have hb2 : b ≠ h.length := fun e => hb (by rw [hmem.mem_iff]; simp [e])
      by_cases hbl : b < h.length
      · rw [List.getElem?_append_left (by simpa [Mem.put] using hbl)]
        exact List.getElem?_set_ne (Ne.symm hb1)
      · rw [List.getElem?_append_right (by simp [Mem.put]; omega), List.getElem?_eq_none (by simp [Mem.put]; omega),
          List.getElem?_eq_none (by omega)]
  | node cl cv cd cr =>
    have hcell : (if left = true then addr sl else addr sr) = some cv.1 := by
      cases left <;> simp only [childOf, Bool.false_eq_true, if_false, if_true] at hc ⊢ <;> rw [hc] <;> rfl
    have hrc : Rep h (node cl cv cd cr) := by
      cases left <;> simp only [childOf, Bool.false_eq_true, if_false, if_true] at hc
      · rw [← hc]; exact h3
      · rw [← hc]; exact h2
    obtain ⟨⟨par', h4⟩, h5, h6⟩ := hrc
    have hlt' : cv.1 < h.length := (List.getElem?_eq_some_iff.1 h4).1
    rw [hs, hc] at hchild hmem
    simp only [isNil, Bool.false_eq_true, if_false, addr, Option.getD_some, List.nil_append] at hchild hmem
    have hcvm : cv.1 ∈ addrs (aput h.length x left t p) := by
      rw [hmem.mem_iff]
      apply addrs_sub t p
      rw [hs]
      cases left <;> simp only [childOf, Bool.false_eq_true, if_false, if_true] at hc <;> rw [hc] <;> simp
    refine ⟨Mem.put h cv.1 ⟨x, par', addr cl, addr cr, cd⟩, cv.1, ?_, ?_, hchild, ?_, ?_⟩
    · rw [hs]
      simp only [addr_node, pushNode, mem_get h1, hc, isNil]
      cases left <;> simp only [Bool.false_eq_true, if_false, if_true] at hcell ⊢ <;> rw [hcell] <;> simp only [mem_get h4]
    · refine rep_aput_old h.length x left t p hs hc hr hn ?_ ?_
      · intro par'' h4'
        rw [h4] at h4'
        have hpar : par' = par'' := by injection h4' with h4'; injection h4' with h4'; injection h4'
        subst hpar
        simp [Mem.put, hlt']
      · intro b hb
        exact List.getElem?_set_ne (Ne.symm hb)
    · rw [hs, hc]; simp [Mem.put, isNil]
    · intro b hb
      have hne : cv.1 ≠ b := fun e => hb (e ▸ hcvm)
      exact List.getElem?_set_ne hne

theorem pushAtTree_spec (x : α) (left : Bool) (t : ATree α) (h : Mem α) (hr : Rep h t) (hn : (addrs t).Nodup) (p : Path)
    (hp : (sub t p).isNil = false) :
    ∃ h' t', pushAtTree p left x h ⟨addr t, t.size⟩ = .ok (h', ⟨addr t', t'.size⟩) ∧ Rep h' t' ∧
      (∃ b, childPut x left (strip t) p = .ok (strip t', b)) ∧
      (∀ a ∈ addrs t', a ∈ addrs t ∨ a = h.length) ∧ (∀ a ∈ addrs t, a ∈ addrs t') ∧ (addrs t').Nodup ∧ h.length ≤ h'.length ∧
      ∀ b, b ∉ addrs t' → h'[b]? = h[b]? := by
  obtain ⟨h', b, e1, e2, e3, e4, e5⟩ := pushNode_spec x left t h hr hn p hp
  have hmem := addrs_aput h.length x left t p hp
  have hna : h.length ∉ addrs t := fun hm => absurd (rep_lt t hr hm) (Nat.lt_irrefl _)
  refine ⟨h', aput h.length x left t p, ?_, e2, ⟨_, childPut_strip h.length x left t p hp⟩, ?_, ?_, ?_, by rw [e4]; omega, e5⟩
  · simp only [pushAtTree, navigate_rep t hr p hp, Res.ok_bind, e1, Res.pure_eq, addr_aput, size_aput h.length x left t p hp]
    split <;> rfl
  · intro a ha
    rw [hmem.mem_iff, List.mem_append] at ha
    rcases ha with ha | ha
    · right
      split at ha <;> simp at ha
      exact ha
    · exact .inl ha
  · intro a ha
    rw [hmem.mem_iff]
    exact List.mem_append_right _ ha
  · rw [hmem.nodup_iff]
    split
    · simp [hna, hn]
    · simpa using hn

end Fdapde.BinTree
