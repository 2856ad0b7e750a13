import Verif.KDTree.Lemmas
/-
The kd-tree on coordinates of any kind, also such whose comparisons are not an order (NaN): construction and range search end without undefined behaviour.
-/
namespace Fdapde.KDTree
open BinTree BinTree.Tree
variable {R : Type} [LT R] [LE R] [DecidableLT R] [DecidableLE R]

structure AInv (n : Nat) (s : BSt) : Prop where
  len : s.ids.length = n
  perm : (s.tree.root.inorder ++ s.stack.flatMap (seg s.ids)).Perm (List.range n)
  sorted : s.stack.Pairwise (fun top below => below.e ≤ top.b)
  bounds : ∀ p ∈ s.stack, p.b < p.e ∧ p.e ≤ n
  wf : s.tree.n = s.tree.root.size
  dep : DepthOK 0 s.tree.root

theorem any_step (nth) (h : NthContract nth) (data : Nat → Nat → R) (K n : Nat) (s : BSt)
    (hi : AInv n s) (ps : Seg) (st : List Seg) (hs : s.stack = ps :: st) :
    ∃ s', buildStep nth data K s = .ok s' ∧ AInv n s' ∧ left s'.stack + 1 ≤ left s.stack := by
  obtain ⟨hb, he⟩ := hi.bounds ps (by simp [hs])
  have hlen := hi.len
  -- the permuted range
  obtain ⟨L, hL⟩ : ∃ L, L = nth ps.dim (ps.b + (ps.e - ps.b) / 2 - ps.b) ((s.ids.drop ps.b).take (ps.e - ps.b)) :=
    ⟨_, rfl⟩
  have hLp : L.Perm (seg s.ids ps) := by rw [hL]; exact h _ _ _
  have hLl : L.length = ps.e - ps.b := by rw [hLp.length_eq, seg]; simp; omega
  have hids : nthRange nth s.ids ps (ps.b + (ps.e - ps.b) / 2) = s.ids.take ps.b ++ L ++ s.ids.drop ps.e := by
    rw [hL]; rfl
  have hkl : (ps.e - ps.b) / 2 < L.length := by rw [hLl]; omega
  obtain ⟨k, hk⟩ : ∃ k, k = (ps.e - ps.b) / 2 := ⟨_, rfl⟩
  rw [← hk] at hkl hids
  have htl : (s.ids.take ps.b).length = ps.b := by simp; omega
  have hget : (s.ids.take ps.b ++ L ++ s.ids.drop ps.e)[ps.b + k]? = some L[k] := by
    rw [List.append_assoc, List.getElem?_append_right (by omega), htl, Nat.add_sub_cancel_left,
      List.getElem?_append_left hkl, List.getElem?_eq_getElem hkl]
  have hstep : ∀ a b (dm : Nat), a ≤ b → b ≤ L.length →
      seg (s.ids.take ps.b ++ L ++ s.ids.drop ps.e) ⟨ps.b + a, ps.b + b, dm⟩ = (L.drop a).take (b - a) := by
    intro a b dm hab hbl
    simp only [seg]
    rw [List.append_assoc, List.drop_append, htl, List.drop_eq_nil_of_le (by omega), List.nil_append,
      Nat.add_sub_cancel_left, List.drop_append, List.take_append]
    have : ps.b + b - (ps.b + a) - (L.drop a).length = 0 := by simp; omega
    rw [this]; simp
    congr 1; omega
  have hLsplit : L = L.take k ++ L[k] :: L.drop (k + 1) := by
    rw [List.getElem_cons_drop, List.take_append_drop]
  -- new stack
  let ids' := s.ids.take ps.b ++ L ++ s.ids.drop ps.e
  let sd := (s.sd + 1) % K
  let st1 := if (ps.b + k) - ps.b > 0 then (⟨ps.b, ps.b + k, sd⟩ : Seg) :: st else st
  let st2 := if ps.e - (ps.b + k + 1) > 0 then (⟨ps.b + k + 1, ps.e, sd⟩ : Seg) :: st1 else st1
  have hst1 : st1.flatMap (seg ids') = L.take k ++ st.flatMap (seg ids') := by
    simp only [st1]
    split
    · rename_i hpos
      have := hstep 0 k sd (by omega) (by omega)
      simp only [Nat.add_zero, List.drop_zero, Nat.sub_zero] at this
      rw [List.flatMap_cons, this]
    · have : k = 0 := by omega
      simp [this]
  have hst2 : st2.flatMap (seg ids') = L.drop (k + 1) ++ st1.flatMap (seg ids') := by
    simp only [st2]
    split
    · rename_i hpos
      have := hstep (k + 1) (ps.e - ps.b) sd (by omega) (by omega)
      have e1 : ps.b + (ps.e - ps.b) = ps.e := by omega
      rw [e1] at this
      rw [List.flatMap_cons]
      congr 1
      have e2 : ps.b + k + 1 = ps.b + (k + 1) := by omega
      rw [e2, this, List.take_of_length_le (by simp; omega)]
    · have : L.drop (k + 1) = [] := List.drop_eq_nil_of_le (by omega)
      simp [this]
  have hpw := hi.sorted
  rw [hs, List.pairwise_cons] at hpw
  have hold : st.flatMap (seg ids') = st.flatMap (seg s.ids) := by
    have : ∀ p ∈ st, seg ids' p = seg s.ids p := by
      intro p hp
      have := seg_below nth s.ids ps p (ps.b + (ps.e - ps.b) / 2) (hpw.1 p hp) hb (by omega)
      rw [← hk, hids] at this
      exact this
    rw [List.flatMap_congr this]
  refine ⟨⟨ids', st2, sd, ⟨insertBy (kdLt data K) L[k] 0 s.tree.root, s.tree.n + 1⟩⟩, ?_, ?_, ?_⟩
  · simp only [buildStep, hs, ← hk, hids, hget]
    rfl
  · refine ⟨?_, ?_, ?_, ?_, ?_, ?_⟩
    · have := nthRange_length nth h s.ids ps (ps.b + (ps.e - ps.b) / 2) hb (by omega)
      rw [← hk, hids] at this
      simp only [ids']; omega
    · simp only
      rw [hst2, hst1, hold]
      have hp := hi.perm
      rw [hs, List.flatMap_cons] at hp
      refine List.Perm.trans ?_ hp
      have h1 := insertBy_inorder_perm (kdLt data K) L[k] s.tree.root 0
      refine (h1.append_right _).trans ?_
      rw [List.cons_append]
      refine (List.perm_middle.symm).trans ?_
      apply List.Perm.append_left
      rw [← List.append_assoc, ← List.cons_append]
      apply List.Perm.append_right
      refine List.Perm.trans ?_ hLp
      have : L.Perm (L.take k ++ L[k] :: L.drop (k + 1)) := by
        conv_lhs => rw [hLsplit]
      refine List.Perm.trans ?_ this.symm
      refine List.Perm.trans ?_ List.perm_middle.symm
      exact (List.perm_append_comm).cons _
    · have hsub : st1.Pairwise (fun top below => below.e ≤ top.b) ∧ ∀ p ∈ st1, p.e ≤ ps.b + k := by
        simp only [st1]
        split
        · refine ⟨List.pairwise_cons.2 ⟨hpw.1, hpw.2⟩, ?_⟩
          intro p hp
          rcases List.mem_cons.1 hp with rfl | hp
          · simp
          · have := hpw.1 p hp; omega
        · exact ⟨hpw.2, fun p hp => by have := hpw.1 p hp; omega⟩
      simp only [st2]
      split
      · refine List.pairwise_cons.2 ⟨fun p hp => ?_, hsub.1⟩
        have := hsub.2 p hp
        simp only; omega
      · exact hsub.1
    · have hb1 : ∀ p ∈ st1, p.b < p.e ∧ p.e ≤ n := by
        simp only [st1]
        split
        · intro p hp
          rcases List.mem_cons.1 hp with rfl | hp
          · simp only; omega
          · exact hi.bounds p (by simp [hs, hp])
        · intro p hp; exact hi.bounds p (by simp [hs, hp])
      simp only [st2]
      split
      · intro p hp
        rcases List.mem_cons.1 hp with rfl | hp
        · simp only; omega
        · exact hb1 p hp
      · exact hb1
    · simp only [insertBy_size, hi.wf]
    · exact insertBy_depth _ _ _ 0 hi.dep
  · have h1 : left st1 = k + left st := by
      simp only [st1]
      split
      · simp [left]
      · have : k = 0 := by omega
        omega
    have h2 : left st2 = (ps.e - (ps.b + k + 1)) + left st1 := by
      simp only [st2]
      split
      · simp [left]
      · omega
    have h3 : left s.stack = (ps.e - ps.b) + left st := by rw [hs]; simp [left]
    simp only; omega

theorem any_loop (nth) (h : NthContract nth) (data : Nat → Nat → R) (K n : Nat) :
    ∀ (fuel : Nat) (s : BSt), AInv n s → left s.stack ≤ fuel →
    ∃ s', buildLoop nth data K fuel s = some (.ok s') ∧ AInv n s' ∧ s'.stack = [] := by
  intro fuel
  induction fuel with
  | zero =>
    intro s hi hl
    cases hs : s.stack with
    | nil => exact ⟨s, by simp [buildLoop, hs], hi, hs⟩
    | cons ps st =>
      obtain ⟨s', _, _, h3⟩ := any_step nth h data K n s hi ps st hs
      omega
  | succ fuel ih =>
    intro s hi hl
    cases hs : s.stack with
    | nil => exact ⟨s, by simp [buildLoop, hs], hi, hs⟩
    | cons ps st =>
      obtain ⟨s1, h1, h2, h3⟩ := any_step nth h data K n s hi ps st hs
      obtain ⟨s', h4, h5⟩ := ih s1 h2 (by omega)
      exact ⟨s', by simp [buildLoop, hs, h1, h4], h5⟩

theorem any_build (nth) (h : NthContract nth) (data : Nat → Nat → R) (K n : Nat) (hn : 0 < n) :
    ∃ t : BT Nat, build nth data K n = some (.ok t) ∧ t.root.inorder.Perm (List.range n) ∧
      t.WF ∧ DepthOK 0 t.root := by
  have hi : AInv n ⟨List.range n, [⟨0, n, 0⟩], 0, BT.empty⟩ := by
    refine ⟨by simp, ?_, by simp, ?_, rfl, trivial⟩
    · simp [BT.empty, inorder, seg]
    · intro p hp; simp at hp; subst hp; simp; omega
  obtain ⟨s', h1, h2, h3⟩ := any_loop nth h data K n n _ hi (by simp [left])
  refine ⟨s'.tree, ?_, ?_, h2.wf, h2.dep⟩
  · simp [build, h1]; rfl
  · have := h2.perm
    rw [h3] at this
    simpa using this


/-- The search ends, with ids of the trees on the stack, those found before, and the first one if it is in the box. -/
theorem any_range (data : Nat → Nat → R) (K : Nat) (q : Box R) :
    ∀ (fuel : Nat) (st : List (BinTree.Tree Nat)) (res : List Nat), NonNil st → fsize st ≤ fuel →
    ∃ out, rangeLoop data K q fuel st res = some (.ok out) ∧ (∀ i ∈ res, i ∈ out) ∧
      ∀ i ∈ out, i ∈ res ∨ (i ∈ st.flatMap inorder ∧ contained data q i 0 K = true) := by
  intro fuel
  induction fuel with
  | zero =>
    intro st res hn hl
    cases st with
    | nil => exact ⟨res, by simp [rangeLoop], fun _ h => h, fun _ h => .inl h⟩
    | cons t st => obtain ⟨l, v, d, r, rfl⟩ := hn.head; simp [size] at hl
  | succ fuel ih =>
    intro st res hn hl
    cases st with
    | nil => exact ⟨res, by simp [rangeLoop], fun _ h => h, fun _ h => .inl h⟩
    | cons t st =>
      obtain ⟨l, v, d, r, rfl⟩ := hn.head
      simp only [rangeLoop]
      rw [push_if _ r, push_if _ l]
      have hA : ∀ (t : BinTree.Tree Nat) (c : Bool),
          NonNil (if !t.isNil && c then [t] else []) ∧ (∀ u ∈ (if !t.isNil && c then [t] else []), u = t) ∧
            fsize (if !t.isNil && c then [t] else []) ≤ t.size := by
        intro t c
        cases hc : (!t.isNil && c) with
        | false => simp [NonNil]
        | true =>
          simp only [Bool.and_eq_true, Bool.not_eq_true'] at hc
          simp [NonNil, hc.1]
      obtain ⟨a1, a2, a3⟩ := hA l (decide (data v (d % K) ≥ q.ll (d % K)))
      obtain ⟨b1, b2, b3⟩ := hA r (decide (data v (d % K) ≤ q.ur (d % K)))
      obtain ⟨out, ho1, ho2, ho3⟩ := ih _ (if contained data q v 0 K then v :: res else res)
        (b1.append (a1.append hn.tail)) (by simp only [fsize_append, fsize_cons, size] at hl ⊢; omega)
      refine ⟨out, ho1, fun i hi => ho2 i (by split <;> simp [hi]), fun i hi => ?_⟩
      rcases ho3 i hi with h | ⟨h, hc⟩
      · cases hv : contained data q v 0 K with
        | true =>
          rw [hv, if_pos rfl] at h
          rcases List.mem_cons.1 h with rfl | h
          · exact .inr ⟨by simp [inorder], hv⟩
          · exact .inl h
        | false => rw [hv] at h; exact .inl h
      · refine .inr ⟨?_, hc⟩
        simp only [List.flatMap_append, List.mem_append, List.mem_flatMap] at h
        rcases h with ⟨u, hu, h⟩ | ⟨u, hu, h⟩ | h
        · rw [b2 u hu] at h; simp [inorder, h]
        · rw [a2 u hu] at h; simp [inorder, h]
        · simp only [List.flatMap_cons, List.mem_append]; exact .inr (List.mem_flatMap.2 h)

/-- Construction and range search over `n > 0` rows of any kind: only ids of rows in the box are returned, and the root is if it is in the box. -/
theorem any_search (nth) (h : NthContract nth) (data : Nat → Nat → R) (K n : Nat) (hn : 0 < n) (q : Box R) :
    ∃ t out v, build nth data K n = some (.ok t) ∧ rangeSearch data K q t n = some (.ok out) ∧ v < n ∧
      (contained data q v 0 K = true → v ∈ out) ∧ ∀ i ∈ out, i < n ∧ contained data q i 0 K = true := by
  obtain ⟨t, h1, h2, h3, -⟩ := any_build nth h data K n hn
  have hsz : t.root.size = n := by
    have := (inorder_perm t.root).length_eq
    rw [preorder_length, h2.length_eq, List.length_range] at this
    omega
  cases hr : t.root with
  | nil => rw [hr] at hsz; simp [size] at hsz; omega
  | node l v d r =>
    rw [hr] at h2 hsz
    have hv : v < n := List.mem_range.1 (h2.mem_iff.1 (by simp [inorder]))
    obtain ⟨m, rfl⟩ : ∃ m, n = m + 1 := ⟨n - 1, by omega⟩
    obtain ⟨out, o1, -, o3⟩ := any_range data K q (m + 1) [t.root] [] (by rw [hr]; simp [NonNil, isNil]) (by rw [hr]; simp [hsz])
    refine ⟨t, out, v, h1, o1, hv, fun hc => ?_, fun i hi => ?_⟩
    · rw [hr, rangeLoop, push_if _ r, push_if _ l, if_pos hc] at o1
      have hA : ∀ (t : BinTree.Tree Nat) (c : Bool),
          NonNil (if !t.isNil && c then [t] else []) ∧ fsize (if !t.isNil && c then [t] else []) ≤ t.size := by
        intro t c
        cases hc : (!t.isNil && c) with
        | false => simp [NonNil]
        | true =>
          simp only [Bool.and_eq_true, Bool.not_eq_true'] at hc
          simp [NonNil, hc.1]
      obtain ⟨a1, a3⟩ := hA l (decide (data v (d % K) ≥ q.ll (d % K)))
      obtain ⟨b1, b3⟩ := hA r (decide (data v (d % K) ≤ q.ur (d % K)))
      obtain ⟨out', p1, p2, -⟩ := any_range data K q m _ [v] (b1.append (a1.append (by simp [NonNil] : NonNil []))) (by
        simp only [fsize_append, size, show fsize ([] : List (BinTree.Tree Nat)) = 0 from rfl] at hsz ⊢
        omega)
      rw [o1] at p1
      obtain rfl := Res.ok.inj (Option.some.inj p1)
      exact p2 v (by simp)
    · rcases o3 i hi with h | ⟨h, hc⟩
      · cases h
      · rw [hr] at h
        simp only [List.flatMap_cons, List.flatMap_nil, List.append_nil] at h
        exact ⟨List.mem_range.1 (h2.mem_iff.1 h), hc⟩

end Fdapde.KDTree
