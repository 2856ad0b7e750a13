import Verif.BinTree.Spec
namespace Fdapde.BinTree
variable {α : Type}
open Tree

def fsize (s : List (Tree α)) : Nat := (s.map size).sum

@[simp] theorem fsize_nil : fsize ([] : List (Tree α)) = 0 := rfl
@[simp] theorem fsize_cons (t : Tree α) (s : List (Tree α)) : fsize (t :: s) = t.size + fsize s := by
  simp [fsize]
@[simp] theorem fsize_append (a b : List (Tree α)) : fsize (a ++ b) = fsize a + fsize b := by
  simp [fsize]
@[simp] theorem fsize_toList? (t : Tree α) : fsize t.toList? = t.size := by
  cases t <;> simp [toList?, isNil, size]

theorem toList?_flatMap {β : Type} (f : Tree α → List β) (hf : f nil = []) (t : Tree α) :
    t.toList?.flatMap f = f t := by
  cases t <;> simp [toList?, isNil, hf]

def NonNil (s : List (Tree α)) : Prop := ∀ t ∈ s, t.isNil = false

theorem nonNil_toList? (t : Tree α) : NonNil t.toList? := by
  cases t <;> simp [NonNil, toList?, isNil]

theorem NonNil.append {a b : List (Tree α)} (ha : NonNil a) (hb : NonNil b) : NonNil (a ++ b) := by
  intro t ht
  rcases List.mem_append.1 ht with h | h
  · exact ha t h
  · exact hb t h

theorem NonNil.tail {t : Tree α} {s : List (Tree α)} (h : NonNil (t :: s)) : NonNil s :=
  fun x hx => h x (List.mem_cons_of_mem _ hx)

theorem NonNil.head {t : Tree α} {s : List (Tree α)} (h : NonNil (t :: s)) :
    ∃ l v d r, t = node l v d r := by
  cases t with
  | nil => exact absurd (h nil (by simp)) (by simp [isNil])
  | node l v d r => exact ⟨l, v, d, r, rfl⟩

/-- State of an iterator on a pending list. -/
def mk (s : List (Tree α)) : Iter α :=
  match s with
  | [] => ⟨nil, []⟩
  | t :: s => ⟨t, t :: s⟩

theorem dfsNext_mk (l : Tree α) (v : α) (d : Nat) (r : Tree α) (s : List (Tree α)) :
    dfsNext ⟨node l v d r, node l v d r :: s⟩ = .ok (mk (l.toList? ++ (r.toList? ++ s))) := by
  simp only [dfsNext]
  cases l.toList? ++ (r.toList? ++ s) <;> rfl

theorem bfsNext_mk (l : Tree α) (v : α) (d : Nat) (r : Tree α) (s : List (Tree α)) :
    bfsNext ⟨node l v d r, node l v d r :: s⟩ = .ok (mk (s ++ l.toList? ++ r.toList?)) := by
  simp only [bfsNext]
  cases s ++ l.toList? ++ r.toList? <;> rfl

theorem collect_mk_nil (next : Iter α → Res (Iter α)) (fuel : Nat) :
    collect next fuel (mk []) = some (.ok []) := by
  cases fuel <;> simp [collect, mk, isNil]

theorem collect_step (next : Iter α → Res (Iter α)) (fuel : Nat) (l : Tree α) (v : α) (d : Nat)
    (r : Tree α) (s : List (Tree α)) (it' : Iter α)
    (h : next ⟨node l v d r, node l v d r :: s⟩ = .ok it') (out : List α)
    (h2 : collect next fuel it' = some (.ok out)) :
    collect next (fuel + 1) ⟨node l v d r, node l v d r :: s⟩ = some (.ok (v :: out)) := by
  rw [collect]
  simp only [isNil, Bool.false_eq_true, if_false, deref, h, h2]
  rfl

/-! ### depth first -/

theorem dfs_collect : ∀ (fuel : Nat) (s : List (Tree α)), NonNil s → fsize s ≤ fuel →
    collect dfsNext fuel (mk s) = some (.ok (s.flatMap preorder)) := by
  intro fuel
  induction fuel with
  | zero =>
    intro s hs hle
    cases s with
    | nil => exact collect_mk_nil _ _
    | cons t s =>
      obtain ⟨l, v, d, r, rfl⟩ := hs.head
      simp [size] at hle
  | succ fuel ih =>
    intro s hs hle
    cases s with
    | nil => exact collect_mk_nil _ _
    | cons t s =>
      obtain ⟨l, v, d, r, rfl⟩ := hs.head
      have h1 := ih (l.toList? ++ (r.toList? ++ s))
        ((nonNil_toList? l).append ((nonNil_toList? r).append hs.tail))
        (by simp [size] at hle ⊢; omega)
      have := collect_step dfsNext fuel l v d r s _ (dfsNext_mk l v d r s) _ h1
      show collect dfsNext (fuel + 1) ⟨node l v d r, node l v d r :: s⟩ = _
      rw [this]
      simp only [List.flatMap_cons, List.flatMap_append, preorder,
        toList?_flatMap preorder rfl, List.cons_append, List.append_assoc]

theorem mk_start (t : Tree α) : t.isNil = false → Iter.start t = mk [t] := by
  intro _; rfl

/-! ### breadth first -/

def roots (s : List (Tree α)) : List α := s.flatMap (atLevel 0)
def kids : Tree α → List (Tree α)
  | nil => []
  | node l _ _ r => l.toList? ++ r.toList?
def fheight (s : List (Tree α)) : Nat := s.foldr (fun t m => max t.height m) 0
def flevel (s : List (Tree α)) : List α :=
  (List.range (fheight s)).flatMap fun k => s.flatMap (atLevel k)

theorem atLevel_kids (k : Nat) (t : Tree α) : (kids t).flatMap (atLevel k) = atLevel (k + 1) t := by
  cases t with
  | nil => simp [kids, atLevel]
  | node l v d r =>
    have : ∀ t : Tree α, t.toList?.flatMap (atLevel k) = atLevel k t := by
      intro t; apply toList?_flatMap; cases k <;> rfl
    simp [kids, atLevel, this]

theorem atLevel_forest (k : Nat) (s : List (Tree α)) :
    (s.flatMap kids).flatMap (atLevel k) = s.flatMap (atLevel (k + 1)) := by
  induction s with
  | nil => rfl
  | cons t s ih => simp [atLevel_kids, ih]

@[simp] theorem fheight_nil : fheight ([] : List (Tree α)) = 0 := rfl
@[simp] theorem fheight_cons (t : Tree α) (s : List (Tree α)) :
    fheight (t :: s) = max t.height (fheight s) := rfl
theorem fheight_append (a b : List (Tree α)) : fheight (a ++ b) = max (fheight a) (fheight b) := by
  induction a with
  | nil => simp
  | cons t a ih => simp [ih]
theorem fheight_toList? (t : Tree α) : fheight t.toList? = t.height := by
  cases t <;> simp [toList?, isNil, height]

theorem fheight_kids (s : List (Tree α)) : fheight (s.flatMap kids) = fheight s - 1 := by
  induction s with
  | nil => rfl
  | cons t s ih =>
    rw [List.flatMap_cons, fheight_append, ih, fheight_cons]
    cases t with
    | nil => simp [kids, height]
    | node l v d r =>
      simp only [kids, fheight_append, fheight_toList?, height]; omega

theorem flevel_unfold (s : List (Tree α)) (hs : NonNil s) :
    flevel s = roots s ++ flevel (s.flatMap kids) := by
  cases s with
  | nil => simp [flevel, roots]
  | cons t s =>
    obtain ⟨l, v, d, r, rfl⟩ := hs.head
    unfold flevel
    rw [fheight_kids]
    obtain ⟨h, hh⟩ : ∃ h, fheight (node l v d r :: s) = h + 1 := by
      refine ⟨fheight (node l v d r :: s) - 1, ?_⟩
      simp [height]; omega
    rw [hh, List.range_succ_eq_map, List.flatMap_cons, List.flatMap_map]
    simp only [roots, Nat.add_sub_cancel]
    congr 1
    congr 1
    funext k
    rw [atLevel_forest]

theorem bfs_collect : ∀ (fuel : Nat) (xs ys : List (Tree α)), NonNil xs → NonNil ys →
    fsize xs + fsize ys ≤ fuel →
    collect bfsNext fuel (mk (xs ++ ys)) = some (.ok (roots xs ++ flevel (ys ++ xs.flatMap kids))) := by
  intro fuel
  induction fuel with
  | zero =>
    intro xs ys hx hy hle
    cases xs with
    | cons t s => obtain ⟨l, v, d, r, rfl⟩ := hx.head; simp [size] at hle
    | nil =>
      cases ys with
      | cons t s => obtain ⟨l, v, d, r, rfl⟩ := hy.head; simp [size] at hle
      | nil => simp [collect_mk_nil, roots, flevel]
  | succ fuel ih =>
    have main : ∀ (t : Tree α) (s ys : List (Tree α)), NonNil (t :: s) → NonNil ys →
        fsize (t :: s) + fsize ys ≤ fuel + 1 →
        collect bfsNext (fuel + 1) (mk (t :: s ++ ys)) =
          some (.ok (roots (t :: s) ++ flevel (ys ++ (t :: s).flatMap kids))) := by
      intro t s ys hx hy hle
      obtain ⟨l, v, d, r, rfl⟩ := hx.head
      have h1 := ih s (ys ++ l.toList? ++ r.toList?) hx.tail
        ((hy.append (nonNil_toList? l)).append (nonNil_toList? r))
        (by simp [size] at hle ⊢; omega)
      have e : s ++ (ys ++ l.toList? ++ r.toList?) = (s ++ ys) ++ l.toList? ++ r.toList? := by simp
      rw [e] at h1
      have := collect_step bfsNext fuel l v d r (s ++ ys) _ (bfsNext_mk l v d r (s ++ ys)) _ h1
      show collect bfsNext (fuel + 1) ⟨node l v d r, node l v d r :: (s ++ ys)⟩ = _
      rw [this]
      simp [roots, atLevel, kids]
    intro xs ys hx hy hle
    cases xs with
    | cons t s => exact main t s ys hx hy hle
    | nil =>
      cases ys with
      | nil => simp [collect_mk_nil, roots, flevel]
      | cons t s =>
        have := main t s [] hy (by intro _ h; simp at h) (by simpa using hle)
        rw [List.append_nil] at this
        show collect bfsNext (fuel + 1) (mk (t :: s)) = _
        rw [this]
        simp only [List.nil_append, List.flatMap_nil, List.append_nil]
        rw [flevel_unfold (t :: s) hy]
        simp [roots]

theorem level_perm_aux (n : Nat) : ∀ (t : Tree α), t.height ≤ n →
    ((List.range n).flatMap fun k => t.atLevel k).Perm t.preorder := by
  induction n with
  | zero =>
    intro t h
    cases t with
    | nil => simp [preorder]
    | node l v d r => simp [height] at h
  | succ n ih =>
    intro t h
    cases t with
    | nil =>
      have : ((List.range (n + 1)).flatMap fun k => (nil : Tree α).atLevel k) = [] := by
        rw [List.flatMap_eq_nil_iff]
        intro k _
        cases k <;> rfl
      rw [this]; exact List.Perm.refl _
    | node l v d r =>
      simp only [height] at h
      rw [List.range_succ_eq_map, List.flatMap_cons, List.flatMap_map]
      simp only [atLevel, preorder, List.cons_append, List.nil_append]
      apply List.Perm.cons
      have hl := ih l (by omega)
      have hr := ih r (by omega)
      have hsplit : ∀ (ks : List Nat),
          (ks.flatMap fun k => atLevel k l ++ atLevel k r).Perm
            ((ks.flatMap fun k => atLevel k l) ++ (ks.flatMap fun k => atLevel k r)) := by
        intro ks
        induction ks with
        | nil => simp
        | cons k ks ihk =>
          simp only [List.flatMap_cons]
          have h1 := (List.Perm.append_left (atLevel k l ++ atLevel k r) ihk)
          refine h1.trans ?_
          simp only [List.append_assoc]
          apply List.Perm.append_left
          rw [← List.append_assoc, ← List.append_assoc]
          apply List.Perm.append_right
          exact List.perm_append_comm
      exact (hsplit (List.range n)).trans (hl.append hr)

theorem preorder_length (t : Tree α) : t.preorder.length = t.size := by
  induction t with
  | nil => rfl
  | node l v d r ihl ihr => simp [preorder, size, ihl, ihr]; omega

theorem inorder_perm (t : Tree α) : t.inorder.Perm t.preorder := by
  induction t with
  | nil => exact List.Perm.refl _
  | node l v d r ihl ihr =>
    simp only [inorder, preorder]
    exact List.perm_middle.trans ((ihl.append ihr).cons v)

/-! ### leaves -/

theorem leafNext_mk : ∀ (fuel : Nat) (l : Tree α) (v : α) (d : Nat) (r : Tree α) (s : List (Tree α)),
    NonNil s → l.size + r.size + fsize s < fuel →
    ∃ s', leafNext fuel ⟨node l v d r, node l v d r :: s⟩ = .ok (mk s') ∧ NonNil s' ∧
      (∀ t u, s' = t :: u → t.isLeaf = true) ∧
      s'.flatMap leaves = l.leaves ++ (r.leaves ++ s.flatMap leaves) ∧
      fsize s' ≤ l.size + r.size + fsize s := by
  intro fuel
  induction fuel with
  | zero => intro l v d r s _ h; omega
  | succ fuel ih =>
    intro l v d r s hs hlt
    rw [leafNext, dfsNext_mk]
    have hnn : NonNil (l.toList? ++ (r.toList? ++ s)) :=
      (nonNil_toList? l).append ((nonNil_toList? r).append hs)
    have hleaves : (l.toList? ++ (r.toList? ++ s)).flatMap leaves
        = l.leaves ++ (r.leaves ++ s.flatMap leaves) := by
      simp only [List.flatMap_append, toList?_flatMap leaves rfl]
    have hsz : fsize (l.toList? ++ (r.toList? ++ s)) = l.size + r.size + fsize s := by
      simp; omega
    revert hnn hleaves hsz
    generalize l.toList? ++ (r.toList? ++ s) = s1
    intro hnn hleaves hsz
    cases s1 with
    | nil =>
      refine ⟨[], ?_, hnn, by simp, by simpa using hleaves, by simp⟩
      simp [mk, isNil]
    | cons t u =>
      obtain ⟨l', v', d', r', rfl⟩ := hnn.head
      cases hleaf : (node l' v' d' r').isLeaf with
      | true =>
        refine ⟨node l' v' d' r' :: u, by simp [mk, hleaf], hnn, ?_, hleaves, by omega⟩
        intro t u' he
        injection he with h1 h2
        rw [← h1]; exact hleaf
      | false =>
        have hmk : (mk (node l' v' d' r' :: u)).node = node l' v' d' r' := rfl
        simp only [hmk, isNil, hleaf, Bool.or_self, Bool.false_eq_true, if_false]
        simp only [fsize_cons, size] at hsz
        obtain ⟨s', h1, h2, h3, h4, h5⟩ := ih l' v' d' r' u hnn.tail (by omega)
        refine ⟨s', h1, h2, h3, ?_, by omega⟩
        rw [h4, ← hleaves, List.flatMap_cons]
        have : (node l' v' d' r').leaves = l'.leaves ++ r'.leaves := by
          cases l' with
          | nil =>
            cases r' with
            | nil => simp [isLeaf, isNil] at hleaf
            | node => rfl
          | node => cases r' <;> rfl
        rw [this, List.append_assoc]

theorem leaf_collect (fuel0 : Nat) : ∀ (fuel : Nat) (s : List (Tree α)), NonNil s →
    (∀ t u, s = t :: u → t.isLeaf = true) → fsize s ≤ fuel → fsize s ≤ fuel0 →
    collect (leafNext fuel0) fuel (mk s) = some (.ok (s.flatMap leaves)) := by
  intro fuel
  induction fuel with
  | zero =>
    intro s hs _ hle _
    cases s with
    | nil => exact collect_mk_nil _ _
    | cons t s => obtain ⟨l, v, d, r, rfl⟩ := hs.head; simp [size] at hle
  | succ fuel ih =>
    intro s hs hl hle hle0
    cases s with
    | nil => exact collect_mk_nil _ _
    | cons t s =>
      obtain ⟨l, v, d, r, rfl⟩ := hs.head
      have hlf := hl _ _ rfl
      obtain ⟨rfl, rfl⟩ : l = nil ∧ r = nil := by
        cases l <;> cases r <;> simp [isLeaf, isNil] at hlf ⊢
      simp only [fsize_cons, size] at hle hle0
      obtain ⟨s', h1, h2, h3, h4, h5⟩ := leafNext_mk fuel0 nil v d nil s hs.tail (by simp [size]; omega)
      simp only [size] at h5
      have h6 := ih s' h2 h3 (by omega) (by omega)
      have := collect_step (leafNext fuel0) fuel nil v d nil s _ h1 _ h6
      show collect (leafNext fuel0) (fuel + 1) ⟨node nil v d nil, node nil v d nil :: s⟩ = _
      rw [this, h4]
      rfl

/-! ### insertion -/

theorem insert_inorder_perm (lt : α → α → Bool) (x : α) (t : Tree α) : ∀ k,
    (insert lt x k t).inorder.Perm (x :: t.inorder) := by
  induction t with
  | nil => intro k; exact List.Perm.refl _
  | node l v d r ihl ihr =>
    intro k
    simp only [insert]
    split
    · simp only [inorder]
      exact ((ihl (k + 1)).append_right _)
    · simp only [inorder]
      have h1 := ((ihr (k + 1)).cons v).append_left l.inorder
      refine h1.trans ?_
      refine (List.perm_middle.trans ?_)
      refine ((List.perm_middle).cons v).trans ?_
      refine (List.Perm.swap x v _).trans ?_
      exact (List.perm_middle.symm.cons x)

theorem insert_size (lt : α → α → Bool) (x : α) (t : Tree α) (k : Nat) :
    (insert lt x k t).size = t.size + 1 := by
  have h := (insert_inorder_perm lt x t k).length_eq
  have h1 := (inorder_perm (insert lt x k t)).length_eq
  have h2 := (inorder_perm t).length_eq
  rw [preorder_length] at h1 h2
  simp at h; omega

theorem insert_bst (lt : α → α → Bool) (x : α) (t : Tree α) : ∀ k, IsBST lt t →
    IsBST lt (insert lt x k t) := by
  induction t with
  | nil => intro k _; simp [insert, IsBST, inorder]
  | node l v d r ihl ihr =>
    intro k h
    obtain ⟨h1, h2, h3, h4⟩ := h
    simp only [insert]
    by_cases hx : lt x v = true
    · rw [if_pos hx]
      refine ⟨?_, h2, ihl _ h3, h4⟩
      intro y hy
      rcases List.mem_cons.1 ((insert_inorder_perm lt x l (k + 1)).mem_iff.1 hy) with rfl | h
      · exact hx
      · exact h1 y h
    · rw [if_neg hx]
      refine ⟨h1, ?_, h3, ihr _ h4⟩
      intro y hy
      rcases List.mem_cons.1 ((insert_inorder_perm lt x r (k + 1)).mem_iff.1 hy) with rfl | h
      · simpa using hx
      · exact h2 y h

theorem insert_depth (lt : α → α → Bool) (x : α) (t : Tree α) : ∀ k, DepthOK k t →
    DepthOK k (insert lt x k t) := by
  induction t with
  | nil => intro k _; simp [insert, DepthOK]
  | node l v d r ihl ihr =>
    intro k h
    obtain ⟨h1, h2, h3⟩ := h
    simp only [insert]
    split
    · exact ⟨h1, ihl _ h2, h3⟩
    · exact ⟨h1, h2, ihr _ h3⟩

theorem pushAll_snoc (lt : α → α → Bool) (xs : List α) (x : α) :
    pushAll lt (xs ++ [x]) = (pushAll lt xs).push lt x := by
  simp [pushAll]

/-- A BST has a sorted in-order traversal. -/
theorem bst_sorted (lt : α → α → Bool)
    (htrans : ∀ a b c, lt b a = false → lt c b = false → lt c a = false)
    (hasym : ∀ a b, lt a b = true → lt b a = false) (t : Tree α) (h : IsBST lt t) :
    t.inorder.Pairwise (fun a b => lt b a = false) := by
  induction t with
  | nil => simp [inorder]
  | node l v d r ihl ihr =>
    obtain ⟨h1, h2, h3, h4⟩ := h
    simp only [inorder]
    rw [List.pairwise_append]
    refine ⟨ihl h3, ?_, ?_⟩
    · rw [List.pairwise_cons]
      exact ⟨h2, ihr h4⟩
    · intro a ha b hb
      rcases List.mem_cons.1 hb with rfl | hb
      · exact hasym _ _ (h1 a ha)
      · exact htrans _ _ _ (hasym _ _ (h1 a ha)) (h2 b hb)

/-! ### find -/

theorem find_sound (lt eq : α → α → Bool) (x : α) (t : Tree α) : ∀ n,
    find lt eq x t = .ok (some n) → ∃ l v d r, n = node l v d r ∧ eq v x = true ∧ v ∈ t.inorder := by
  induction t with
  | nil => intro n h; simp [find] at h
  | node l v d r ihl ihr =>
    intro n h
    simp only [find] at h
    split at h
    · cases h
    · split at h
      · rename_i he
        injection h with h; injection h with h
        exact ⟨l, v, d, r, h.symm, he, by simp [inorder]⟩
      · split at h
        · obtain ⟨l', v', d', r', h1, h2, h3⟩ := ihl n h
          exact ⟨l', v', d', r', h1, h2, by simp [inorder, h3]⟩
        · obtain ⟨l', v', d', r', h1, h2, h3⟩ := ihr n h
          exact ⟨l', v', d', r', h1, h2, by simp [inorder, h3]⟩

theorem internal_node (l : Tree α) (v : α) (d : Nat) (r : Tree α)
    (h : (l.isNil && r.isNil) = false) : (node l v d r).internal = l.internal ++ v :: r.internal := by
  cases l with
  | nil => cases r with
    | nil => simp [isNil] at h
    | node => rfl
  | node => cases r <;> rfl

theorem internal_sub (t : Tree α) (x : α) (h : x ∈ t.internal) : x ∈ t.inorder := by
  induction t with
  | nil => simp [internal] at h
  | node l v d r ihl ihr =>
    cases hn : (l.isNil && r.isNil) with
    | true =>
      cases l <;> cases r <;> simp_all [isNil, internal]
    | false =>
      rw [internal_node l v d r hn] at h
      simp only [inorder]
      rcases List.mem_append.1 h with h | h
      · exact List.mem_append.2 (.inl (ihl h))
      · rcases List.mem_cons.1 h with rfl | h
        · simp
        · exact List.mem_append.2 (.inr (List.mem_cons_of_mem _ (ihr h)))

theorem find_internal (lt eq : α → α → Bool) (heq : ∀ a b, eq a b = true ↔ a = b)
    (x : α) (t : Tree α) (hb : IsBST lt t) (hx : x ∈ t.internal) :
    ∃ l d r, find lt eq x t = .ok (some (node l x d r)) := by
  induction t with
  | nil => simp [internal] at hx
  | node l v d r ihl ihr =>
    obtain ⟨h1, h2, h3, h4⟩ := hb
    cases hn : (l.isNil && r.isNil) with
    | true => cases l <;> cases r <;> simp_all [isNil, internal]
    | false =>
      rw [internal_node l v d r hn] at hx
      simp only [find, hn, Bool.false_eq_true, if_false]
      by_cases he : eq v x = true
      · rw [if_pos he]
        have := (heq v x).1 he
        subst this
        exact ⟨l, d, r, rfl⟩
      · rw [if_neg he]
        have hne : v ≠ x := fun h => he ((heq v x).2 h)
        rcases List.mem_append.1 hx with h | h
        · rw [if_pos (h1 x (internal_sub l x h))]
          exact ihl h3 h
        · rcases List.mem_cons.1 h with h | h
          · exact absurd h.symm hne
          · rw [if_neg (by rw [h2 x (internal_sub r x h)]; simp)]
            exact ihr h4 h

theorem find_full (lt eq : α → α → Bool) (x : α) (t : Tree α) (hf : Full t) (hne : t.isNil = false) :
    ∃ o, find lt eq x t = .ok o := by
  induction t with
  | nil => simp [isNil] at hne
  | node l v d r ihl ihr =>
    obtain ⟨h1, h2, h3⟩ := hf
    simp only [find]
    cases hn : (l.isNil && r.isNil) with
    | true => exact ⟨none, by simp⟩
    | false =>
      have hl : l.isNil = false := by
        cases hl : l.isNil
        · rfl
        · rw [← h1, hl] at hn; simp at hn
      have hr : r.isNil = false := by rw [← h1]; exact hl
      simp only [Bool.false_eq_true, if_false]
      split
      · exact ⟨_, rfl⟩
      · split
        · exact ihl h2 hl
        · exact ihr h3 hr

end Fdapde.BinTree
