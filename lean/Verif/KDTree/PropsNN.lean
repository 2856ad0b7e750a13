import Verif.KDTree.Props
/- C17: what nn_search answers for every tree and query. -/
set_option linter.unusedSectionVars false
namespace Fdapde.KDTree
open BinTree BinTree.Tree

/-! ### Specification -/
section
variable {R : Type} [CommRing R] [LinearOrder R] [IsStrictOrderedRing R]

/-- The descent from the root towards `p` (left where the coordinate `d % K` of `p` is smaller) ends at a node without children, and not at a missing
child beside another one. -/
def EndsAtLeaf (data : Nat → Nat → R) (K : Nat) (p : Nat → R) : BinTree.Tree Nat → Prop
  | .nil => False
  | .node l v d r => (l = .nil ∧ r = .nil) ∨
      (if p (d % K) < data v (d % K) then EndsAtLeaf data K p l else EndsAtLeaf data K p r)

/-- Index `i` is a nearest point of the tree. -/
def Nearest (data : Nat → Nat → R) (K : Nat) (p : Nat → R) (t : BinTree.Tree Nat) (i : Nat) : Prop :=
  i ∈ t.inorder ∧ ∀ j ∈ t.inorder, sqDist data K p i ≤ sqDist data K p j

/-! ### Lemmas -/

theorem leaf_iff (l r : BinTree.Tree Nat) : (l.isNil && r.isNil) = true ↔ l = .nil ∧ r = .nil := by
  cases l <;> cases r <;> simp [isNil]

theorem ends_isNil {data : Nat → Nat → R} {K : Nat} {p : Nat → R} {t : BinTree.Tree Nat} (h : EndsAtLeaf data K p t) : t.isNil = false := by
  cases t with
  | nil => exact h.elim
  | node => rfl

theorem walk_ends (data : Nat → Nat → R) (K : Nat) (p : Nat → R) (t : BinTree.Tree Nat) (h : EndsAtLeaf data K p t) :
    ∀ st, ∃ P, walk data K p t st = .ok (P ++ st) ∧ ∀ u ∈ P, EndsAtLeaf data K p u ∧ ∀ x ∈ path data K p u, x ∈ path data K p t := by
  induction t with
  | nil => exact h.elim
  | node l v d r ihl ihr =>
    intro st
    simp only [walk]
    by_cases hn : (l.isNil && r.isNil) = true
    · rw [if_pos hn]
      exact ⟨[.node l v d r], rfl, fun u hu => by rw [List.mem_singleton.1 hu]; exact ⟨h, fun _ hx => hx⟩⟩
    · rw [if_neg hn]
      have h' := h.resolve_left fun e => hn ((leaf_iff l r).2 e)
      by_cases hlt : p (d % K) < data v (d % K)
      · rw [if_pos hlt] at h' ⊢
        obtain ⟨P, e, hP⟩ := ihl h' (.node l v d r :: st)
        refine ⟨P ++ [.node l v d r], by rw [e]; simp, fun u hu => ?_⟩
        rcases List.mem_append.1 hu with hu | hu
        · refine ⟨(hP u hu).1, fun x hx => ?_⟩
          simp only [path, if_pos hlt, List.mem_cons]
          exact .inr ((hP u hu).2 x hx)
        · rw [List.mem_singleton.1 hu]; exact ⟨h, fun _ hx => hx⟩
      · rw [if_neg hlt] at h' ⊢
        obtain ⟨P, e, hP⟩ := ihr h' (.node l v d r :: st)
        refine ⟨P ++ [.node l v d r], by rw [e]; simp, fun u hu => ?_⟩
        rcases List.mem_append.1 hu with hu | hu
        · refine ⟨(hP u hu).1, fun x hx => ?_⟩
          simp only [path, if_neg hlt, List.mem_cons]
          exact .inr ((hP u hu).2 x hx)
        · rw [List.mem_singleton.1 hu]; exact ⟨h, fun _ hx => hx⟩

theorem walk_astray (data : Nat → Nat → R) (K : Nat) (p : Nat → R) (t : BinTree.Tree Nat) (h : ¬EndsAtLeaf data K p t) :
    ∀ st, walk data K p t st = .ub := by
  induction t with
  | nil => exact fun _ => rfl
  | node l v d r ihl ihr =>
    intro st
    simp only [EndsAtLeaf, not_or] at h
    simp only [walk]
    rw [if_neg fun hn => h.1 ((leaf_iff l r).1 hn)]
    by_cases hlt : p (d % K) < data v (d % K)
    · rw [if_pos hlt] at h ⊢; exact ihl h.2 _
    · rw [if_neg hlt] at h ⊢; exact ihr h.2 _

theorem walkDown_ends (data : Nat → Nat → R) (K : Nat) (p : Nat → R) (t : BinTree.Tree Nat) (h : t = .nil ∨ EndsAtLeaf data K p t)
    (st : List (BinTree.Tree Nat)) : ∃ P, walkDown data K p t st = .ok (P ++ st) ∧
      ∀ u ∈ P, EndsAtLeaf data K p u ∧ ∀ x ∈ path data K p u, x ∈ path data K p t := by
  rcases h with rfl | h
  · exact ⟨[], rfl, by simp⟩
  · rw [walkDown, ends_isNil h]
    exact walk_ends data K p t h st

theorem nn_loop_ends (data : Nat → Nat → R) (K : Nat) (p : Nat → R) (Q : List Nat) :
    ∀ (fuel : Nat) (st : List (BinTree.Tree Nat)) (best : Option (Nat × R)),
    (∀ u ∈ st, EndsAtLeaf data K p u ∧ ∀ x ∈ path data K p u, x ∈ Q) → (∀ b, best = some b → b.1 ∈ Q) →
    (nnLoop data K p fuel st best = none ∧ fuel < (st.map nw).sum) ∨
    ∃ res, nnLoop data K p fuel st best = some (.ok res) ∧ ∀ i, res = some i → i ∈ Q := by
  intro fuel
  induction fuel with
  | zero =>
    intro st best hs hb
    cases st with
    | nil => exact .inr ⟨_, rfl, fun i hi => by
        obtain ⟨b, h1, h2⟩ := Option.map_eq_some_iff.1 hi
        exact h2 ▸ hb b h1⟩
    | cons t st =>
      have := ends_isNil (hs t (by simp)).1
      cases t with
      | nil => simp [isNil] at this
      | node => exact .inl ⟨rfl, by simp [nw]⟩
  | succ fuel ih =>
    intro st best hs hb
    cases st with
    | nil => exact .inr ⟨_, rfl, fun i hi => by
        obtain ⟨b, h1, h2⟩ := Option.map_eq_some_iff.1 hi
        exact h2 ▸ hb b h1⟩
    | cons t st =>
      obtain ⟨ht, hp⟩ := hs t (by simp)
      cases t with
      | nil => exact ht.elim
      | node l v d r =>
        have hv : v ∈ Q := hp v (by simp [path])
        have hbest : ∀ b, some (newBest best v (sqDist data K p v)) = some b → b.1 ∈ Q := by
          rintro b hbb
          rw [← Option.some.inj hbb, newBest]
          split
          · exact hv
          · cases hbest : best with
            | none => exact hv
            | some b' => exact hb b' hbest
        have up : ∀ x st' b', (st'.map nw).sum ≤ tw l + tw r + (st.map nw).sum → x = nnLoop data K p fuel st' b' →
            ((nnLoop data K p fuel st' b' = none ∧ fuel < (st'.map nw).sum) ∨
              ∃ res, nnLoop data K p fuel st' b' = some (.ok res) ∧ ∀ i, res = some i → i ∈ Q) →
            (x = none ∧ fuel + 1 < ((BinTree.Tree.node l v d r :: st).map nw).sum) ∨ ∃ res, x = some (.ok res) ∧ ∀ i, res = some i → i ∈ Q := by
          rintro x st' b' hle rfl (⟨h1, h2⟩ | h)
          · refine .inl ⟨h1, ?_⟩
            simp only [List.map_cons, List.sum_cons, nw]
            omega
          · exact .inr h
        simp only [nnLoop]
        split
        · exact .inr ⟨_, rfl, fun i hi => by rw [← Option.some.inj hi]; exact hv⟩
        · split
          · have side : (if data v (d % K) - p (d % K) > 0 then l else r) = if p (d % K) < data v (d % K) then l else r :=
              if_congr (by rw [gt_iff_lt, sub_pos]) rfl rfl
            rw [side]
            have hc : (if p (d % K) < data v (d % K) then l else r) = .nil ∨
                EndsAtLeaf data K p (if p (d % K) < data v (d % K) then l else r) := by
              rcases ht with ⟨rfl, rfl⟩ | h
              · left; split <;> rfl
              · right
                by_cases hlt : p (d % K) < data v (d % K)
                · rw [if_pos hlt] at h ⊢; exact h
                · rw [if_neg hlt] at h ⊢; exact h
            have hpath : ∀ x ∈ path data K p (if p (d % K) < data v (d % K) then l else r), x ∈ Q := by
              intro x hx
              refine hp x ?_
              simp only [path, List.mem_cons]
              right
              by_cases hlt : p (d % K) < data v (d % K)
              · rw [if_pos hlt] at hx ⊢; exact hx
              · rw [if_neg hlt] at hx ⊢; exact hx
            obtain ⟨P, e, hP⟩ := walkDown_ends data K p _ hc st
            obtain ⟨P', e1, _, _, _, e5, _⟩ := walkDown_spec data K p _ _ _ e
            have : P' = P := (List.append_cancel_right e1).symm
            subst this
            have htw : tw (if p (d % K) < data v (d % K) then l else r) ≤ tw l + tw r := by split <;> omega
            rw [e]
            refine up _ _ _ (by simp only [List.map_append, List.sum_append]; omega) rfl (ih _ _ (fun u hu => ?_) hbest)
            rcases List.mem_append.1 hu with hu | hu
            · exact ⟨(hP u hu).1, fun x hx => hpath x ((hP u hu).2 x hx)⟩
            · exact hs u (List.mem_cons_of_mem _ hu)
          · exact up _ _ _ (by omega) rfl (ih _ _ (fun u hu => hs u (List.mem_cons_of_mem _ hu)) hbest)

/-! ### What the search answers -/

/-- **C17**: what `nn_search` does for every tree and every query.  If the descent towards the query ends at a node without children, the search ends, and
what it returns is the nearest of the points met on the descent; otherwise it dereferences a null pointer. -/
theorem C17_answer (data : Nat → Nat → R) (K : Nat) (p : Nat → R) (t : BT Nat) (hw : t.WF) (hn : t.n ≠ 0) :
    (EndsAtLeaf data K p t.root → (∃ fuel i, nnSearch data K p t fuel = some (.ok (some i))) ∧
      ∀ fuel o, nnSearch data K p t fuel = some o → ∃ i, o = .ok (some i) ∧ i ∈ path data K p t.root ∧
        ∀ j ∈ path data K p t.root, sqDist data K p i ≤ sqDist data K p j) ∧
    (¬EndsAtLeaf data K p t.root → ∀ fuel, nnSearch data K p t fuel = some .ub) := by
  have hnil : t.root.isNil = false := by
    unfold BT.WF at hw
    cases hr : t.root with
    | nil => rw [hr] at hw; exact absurd hw hn
    | node => rfl
  constructor
  · intro h
    obtain ⟨P, e, hP⟩ := walkDown_ends data K p t.root (.inr h) []
    obtain ⟨P', e1, _, _, _, e5, _⟩ := walkDown_spec data K p _ _ _ e
    have : P' = P := (List.append_cancel_right e1).symm
    subst this
    have run : ∀ fuel, nnSearch data K p t fuel = nnLoop data K p fuel P' none := fun fuel => by
      rw [nnSearch, if_neg hn, e, List.append_nil]
    have loop := fun fuel => nn_loop_ends data K p (path data K p t.root) fuel P' none hP (by simp)
    refine ⟨⟨tw t.root, ?_⟩, fun fuel o ho => ?_⟩
    · rcases loop (tw t.root) with ⟨_, h2⟩ | ⟨res, h1, _⟩
      · omega
      · obtain ⟨i, hi, _⟩ := C17_best_on_path_partial data K p t hw hn _ res (by rw [run, h1])
        exact ⟨i, by rw [run, h1, hi]⟩
    · rcases loop fuel with ⟨h1, _⟩ | ⟨res, h1, h2⟩
      · rw [run, h1] at ho; simp at ho
      · obtain ⟨i, hi, _, hmin⟩ := C17_best_on_path_partial data K p t hw hn fuel res (by rw [run, h1])
        rw [run, h1] at ho
        exact ⟨i, by rw [← Option.some.inj ho, hi], h2 i hi, hmin⟩
  · intro h fuel
    rw [nnSearch, if_neg hn, walkDown, hnil]
    simp only [Bool.false_eq_true, if_false]
    rw [walk_astray data K p _ h]

/-- **C17**: `nn_search` returns a nearest point if and only if the descent towards the query ends at a node without children and meets a nearest point. -/
theorem C17_when_right (data : Nat → Nat → R) (K : Nat) (p : Nat → R) (t : BT Nat) (hw : t.WF) (hn : t.n ≠ 0) :
    (∃ fuel i, nnSearch data K p t fuel = some (.ok (some i)) ∧ Nearest data K p t.root i) ↔
      EndsAtLeaf data K p t.root ∧ ∃ i ∈ path data K p t.root, Nearest data K p t.root i := by
  obtain ⟨h1, h2⟩ := C17_answer data K p t hw hn
  constructor
  · rintro ⟨fuel, i, e, hi⟩
    have he : EndsAtLeaf data K p t.root := by
      by_contra hc
      rw [h2 hc fuel] at e
      simp at e
    obtain ⟨j, hj, hj2, _⟩ := (h1 he).2 fuel _ e
    exact ⟨he, i, by rw [Option.some.inj (Res.ok.inj hj)]; exact hj2, hi⟩
  · rintro ⟨he, i, hi, hin, hmin⟩
    obtain ⟨fuel, j, hj⟩ := (h1 he).1
    obtain ⟨j', hj', hj2, hj3⟩ := (h1 he).2 fuel _ hj
    rw [← Option.some.inj (Res.ok.inj hj')] at hj2 hj3
    exact ⟨fuel, j, hj, path_sub data K p _ j hj2, fun k hk => (hj3 i hi).trans (hmin k hk)⟩

/-! ### Even numbers of points -/

theorem full_odd (t : BinTree.Tree Nat) (hf : Full t) (hn : t.isNil = false) : t.size % 2 = 1 := by
  induction t with
  | nil => simp [isNil] at hn
  | node l v d r ihl ihr =>
    obtain ⟨h1, h2, h3⟩ := hf
    simp only [size]
    cases hl : l.isNil with
    | true =>
      have hr : r.isNil = true := by rw [← h1]; exact hl
      have el : l = .nil := by cases l <;> simp_all [isNil]
      have er : r = .nil := by cases r <;> simp_all [isNil]
      subst el er
      simp [size]
    | false =>
      have a := ihl h2 hl
      have b := ihr h3 (by rw [← h1]; exact hl)
      omega

/-- A node with one child, and the side on which the other is missing. -/
theorem half_node (data : Nat → Nat → R) (K : Nat) (t : BinTree.Tree Nat) (hk : KDInv data K t) (hd : t.inorder.Nodup) (hK : 0 < K) (hf : ¬Full t) :
    ∃ v ∈ t.inorder, ∃ left : Bool, ∀ p : Nat → R,
      (∀ w ∈ t.inorder, w ≠ v → ∀ k < K, (p k < data w k ↔ data v k < data w k)) → (∀ k < K, (p k < data v k ↔ left = true)) →
      ¬EndsAtLeaf data K p t := by
  induction t with
  | nil => exact absurd trivial hf
  | node l v d r ihl ihr =>
    obtain ⟨k1, k2, k3, k4⟩ := hk
    have hm : d % K < K := Nat.mod_lt _ hK
    simp only [inorder, List.nodup_append, List.nodup_cons] at hd
    obtain ⟨d1, ⟨d2, d3⟩, d4⟩ := hd
    by_cases h1 : l.isNil = r.isNil
    · by_cases h2 : Full l
      · have h3 : ¬Full r := fun h3 => hf ⟨h1, h2, h3⟩
        obtain ⟨x, hx, left, hx2⟩ := ihr k4 d3 h3
        refine ⟨x, by simp [inorder, hx], left, fun p hp hq => ?_⟩
        have hne : v ≠ x := fun e => d2 (e ▸ hx)
        have hlt : ¬p (d % K) < data v (d % K) := fun h =>
          absurd ((hp v (by simp [inorder]) hne _ hm).1 h) (not_lt.2 (k2 x hx))
        simp only [EndsAtLeaf, if_neg hlt, not_or]
        exact ⟨fun e => h3 (by rw [e.2]; trivial), hx2 p (fun w hw => hp w (by simp [inorder, hw])) hq⟩
      · obtain ⟨x, hx, left, hx2⟩ := ihl k3 d1 h2
        refine ⟨x, by simp [inorder, hx], left, fun p hp hq => ?_⟩
        have hne : v ≠ x := fun e => d4 x hx v (by simp) e.symm
        have hlt : p (d % K) < data v (d % K) := (hp v (by simp [inorder]) hne _ hm).2 (k1 x hx)
        simp only [EndsAtLeaf, if_pos hlt, not_or]
        exact ⟨fun e => h2 (by rw [e.1]; trivial), hx2 p (fun w hw => hp w (by simp [inorder, hw])) hq⟩
    · refine ⟨v, by simp [inorder], l.isNil, fun p _ hq => ?_⟩
      cases hl : l.isNil with
      | true =>
        have el : l = .nil := by cases l <;> simp_all [isNil]
        have hlt : p (d % K) < data v (d % K) := (hq _ hm).2 hl
        simp only [EndsAtLeaf, if_pos hlt, not_or]
        refine ⟨fun e => h1 (by rw [e.1, e.2]), ?_⟩
        rw [el]; exact id
      | false =>
        have er : r = .nil := by cases r <;> simp_all [isNil]
        have hlt : ¬p (d % K) < data v (d % K) := fun h => by
          have := (hq _ hm).1 h
          rw [hl] at this; simp at this
        simp only [EndsAtLeaf, if_neg hlt, not_or]
        refine ⟨fun e => h1 (by rw [e.1, e.2]), ?_⟩
        rw [er]; exact id

/-- A number just below `a`, for a finite list of other numbers. -/
theorem just_below (a : R) (l : List R) : ∃ x < a, ∀ y ∈ l, y ≠ a → (x < y ↔ a < y) := by
  induction l with
  | nil => exact ⟨a - 1, sub_one_lt a, by simp⟩
  | cons y l ih =>
    obtain ⟨x, hx, h⟩ := ih
    rcases lt_trichotomy y a with hy | rfl | hy
    · refine ⟨max x y, max_lt hx hy, fun z hz hne => ?_⟩
      rcases List.mem_cons.1 hz with rfl | hz
      · exact ⟨fun h' => absurd (le_max_right _ _) (not_le.2 h'), fun h' => absurd h' (not_lt.2 hy.le)⟩
      · rcases lt_or_gt_of_ne hne with h1 | h1
        · exact ⟨fun h' => absurd ((h z hz hne).1 ((le_max_left _ _).trans_lt h')) (not_lt.2 h1.le), fun h' => absurd h' (not_lt.2 h1.le)⟩
        · exact ⟨fun _ => h1, fun _ => (max_lt hx hy).trans h1⟩
    · refine ⟨x, hx, fun z hz hne => ?_⟩
      rcases List.mem_cons.1 hz with rfl | hz
      · exact absurd rfl hne
      · exact h z hz hne
    · refine ⟨x, hx, fun z hz hne => ?_⟩
      rcases List.mem_cons.1 hz with rfl | hz
      · exact ⟨fun _ => hy, fun _ => hx.trans hy⟩
      · exact h z hz hne

/-- **C17**: for every even number of points with distinct coordinates, in any dimension, and every `nth_element`, there is a query for which `nn_search`
on the tree of these points dereferences a null pointer. -/
theorem C17_bug_even (nth) (h : NthContract nth) (data : Nat → Nat → R) (K n : Nat) (hK : 0 < K) (hn : 0 < n) (he : n % 2 = 0)
    (hd : ∀ i < n, ∀ j < n, i ≠ j → ∀ k < K, data i k ≠ data j k) :
    ∃ t p, build nth data K n = some (.ok t) ∧ ∀ fuel, nnSearch data K p t fuel = some .ub := by
  obtain ⟨t, h1, h2, h3, h4, _⟩ := build_spec nth h data K n hn
  have hsz : t.root.size = n := by
    have := (inorder_perm t.root).length_eq
    rw [preorder_length, h2.length_eq, List.length_range] at this
    omega
  have htn : t.n ≠ 0 := by unfold BT.WF at h3; omega
  have hnil : t.root.isNil = false := by
    cases hr : t.root with
    | nil => rw [hr] at hsz; simp [size] at hsz; omega
    | node => rfl
  have hmem : ∀ w, w ∈ t.root.inorder ↔ w < n := fun w => by rw [h2.mem_iff, List.mem_range]
  obtain ⟨v, hv, left, hp⟩ := half_node data K t.root h4 (h2.nodup_iff.2 List.nodup_range) hK fun hf => by
    have := full_odd _ hf hnil
    omega
  have hx : ∀ k, ∃ x : R, (∀ w ∈ t.root.inorder, w ≠ v → k < K → (x < data w k ↔ data v k < data w k)) ∧ (x < data v k ↔ left = true) := by
    intro k
    cases left with
    | false => exact ⟨data v k, fun _ _ _ _ => Iff.rfl, by simp⟩
    | true =>
      obtain ⟨x, hx1, hx2⟩ := just_below (data v k) ((List.range n).map fun w => data w k)
      refine ⟨x, fun w hw hne hk => hx2 _ (List.mem_map.2 ⟨w, List.mem_range.2 ((hmem w).1 hw), rfl⟩) ?_, by simp [hx1]⟩
      exact hd w ((hmem w).1 hw) v ((hmem v).1 hv) hne k hk
  choose p hp1 hp2 using hx
  exact ⟨t, p, h1, (C17_answer data K p t h3 htn).2 (hp p (fun w hw hne k hk => hp1 k w hw hne hk) fun k _ => hp2 k)⟩

end

/-- Points 0, 1, ..., n - 1 of the line, n even: the hypotheses are met. -/
example (m : Nat) (hm : 0 < m) : ∃ t p, build (fun _ _ l => l.reverse) (fun i _ => (i : Int)) 1 (2 * m) = some (.ok t) ∧
    ∀ fuel, nnSearch (fun i _ => (i : Int)) 1 p t fuel = some .ub :=
  C17_bug_even _ (fun _ _ _ => List.reverse_perm _) _ 1 (2 * m) (by norm_num) (by omega) (by omega) fun i _ j _ hij _ _ => by
    simpa using hij

/-- The three points of `C17_bug_wrong`: for the query (79, 0) the descent ends at the first point, which is the nearest. -/
example : EndsAtLeaf wrongData 2 (fun k => if k = 0 then 79 else 0) (node (node nil 0 1 nil) 1 0 (node nil 2 1 nil)) ∧
    Nearest wrongData 2 (fun k => if k = 0 then 79 else 0) (node (node nil 0 1 nil) 1 0 (node nil 2 1 nil)) 0 := by
  refine ⟨by simp [EndsAtLeaf, wrongData], by simp [inorder], fun j hj => ?_⟩
  simp only [inorder, List.nil_append, List.cons_append, List.mem_cons, List.not_mem_nil, or_false] at hj
  rcases hj with rfl | rfl | rfl <;> decide +kernel

end Fdapde.KDTree
