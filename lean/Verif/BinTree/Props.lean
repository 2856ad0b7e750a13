import Verif.BinTree.Lemmas2
/- Properties C11 - C15 of the binary tree. -/
namespace Fdapde.BinTree
variable {α : Type}
open Tree

/-- A tree used in the examples: root 5, left child 3 with a right child 4, right child 8. -/
def tex : Tree Nat := node (node nil 3 1 (node nil 4 2 nil)) 5 0 (node nil 8 1 nil)

/-! ### C11 -/

/-- Depth-first iteration: for every tree the loop ends after exactly `size` increments, without
undefined behaviour, having produced the preorder. -/
theorem C11_dfs (t : Tree α) : collect dfsNext t.size (Iter.start t) = some (.ok t.preorder) := by
  cases t with
  | nil => simp [collect, Iter.start, isNil, preorder, size]
  | node l v d r =>
    have := dfs_collect (node l v d r).size [node l v d r] (by simp [NonNil, isNil]) (by simp)
    simpa [mk, Iter.start] using this

/-- More iterations allowed, same result: the loop stops by itself. -/
theorem C11_dfs_terminates (t : Tree α) (fuel : Nat) (h : t.size ≤ fuel) :
    collect dfsNext fuel (Iter.start t) = some (.ok t.preorder) := by
  cases t with
  | nil => cases fuel <;> simp [collect, Iter.start, isNil, preorder]
  | node l v d r =>
    have := dfs_collect fuel [node l v d r] (by simp [NonNil, isNil]) (by simpa using h)
    simpa [mk, Iter.start] using this

/-- Breadth-first iteration produces the level order. -/
theorem C11_bfs (t : Tree α) (fuel : Nat) (h : t.size ≤ fuel) :
    collect bfsNext fuel (Iter.start t) = some (.ok t.levelOrder) := by
  cases t with
  | nil => cases fuel <;> simp [collect, Iter.start, isNil, levelOrder, height]
  | node l v d r =>
    have h1 := bfs_collect fuel [] [node l v d r] (by simp [NonNil]) (by simp [NonNil, isNil])
      (by simpa using h)
    have h2 : flevel [node l v d r] = levelOrder (node l v d r) := by
      simp [flevel, levelOrder]
    simpa [mk, Iter.start, roots, h2] using h1

/-- Both visit every node exactly once: the visited values are a permutation of the values in the
tree and there are as many as nodes. -/
theorem C11_each_once (t : Tree α) :
    t.levelOrder.Perm t.inorder ∧ t.preorder.Perm t.inorder ∧ t.inorder.length = t.size :=
  ⟨(level_perm_aux t.height t (Nat.le_refl _)).trans (inorder_perm t).symm, (inorder_perm t).symm,
    by rw [(inorder_perm t).length_eq, preorder_length]⟩

example : tex.preorder = [5, 3, 4, 8] ∧ tex.levelOrder = [5, 3, 8, 4] := by decide

/-! ### C12 -/

/-- Leaf iteration from `leaf_begin`: all leaves, left to right, for every tree of at least two
nodes.  Missing from C12: the tree made of its root only, see `C12_bug_single`. -/
theorem C12_leaves_partial (t : Tree α) (h2 : 2 ≤ t.size) :
    ∃ it, leafStart t.size t = .ok it ∧
      collect (leafNext t.size) t.size it = some (.ok t.leaves) := by
  cases t with
  | nil => simp [size] at h2
  | node l v d r =>
    obtain ⟨s', h1, h2', h3, h4, h5⟩ := leafNext_mk (node l v d r).size l v d r [] (by simp [NonNil])
      (by simp [size])
    refine ⟨mk s', ?_, ?_⟩
    · simp only [leafStart, isNil, Iter.start]; exact h1
    · simp only [fsize_nil, Nat.add_zero] at h5
      have hsz : fsize s' ≤ (node l v d r).size := by simp [size]; omega
      rw [leaf_collect _ _ s' h2' h3 hsz hsz, h4]
      have : (node l v d r).leaves = l.leaves ++ r.leaves := by
        cases l with
        | nil => cases r with
          | nil => simp [size] at h2
          | node => rfl
        | node => cases r <;> rfl
      simp [this]

example : 2 ≤ tex.size ∧ tex.leaves = [4, 8] := by decide

/-- A tree with a single node has one leaf, its root, and the leaf iteration does not yield it:
`leaf_begin()` is already the end. -/
theorem C12_bug_single (x : α) (d fuel : Nat) :
    ∃ it, leafStart (fuel + 1) (node nil x d nil) = .ok it ∧ it.node = nil ∧
      (node nil x d nil : Tree α).leaves = [x] := by
  refine ⟨⟨nil, []⟩, ?_, rfl, rfl⟩
  simp [leafStart, isNil, leafNext, dfsNext, Iter.start, toList?]

/-- Iterating the leaves of the empty tree yields nothing. -/
theorem C12_empty (fuel : Nat) : ∃ it, leafStart fuel (nil : Tree α) = .ok it ∧ it.node = nil :=
  ⟨_, rfl, rfl⟩

/-! ### C13 -/

/-- After any history of pushes: the size is the number of pushes, the stored values are exactly the
pushed ones (with multiplicity), every node stores its depth, smaller values are on the left. -/
theorem C13_push (lt : α → α → Bool) (xs : List α) :
    (pushAll lt xs).n = xs.length ∧ (pushAll lt xs).WF ∧ (pushAll lt xs).root.inorder.Perm xs ∧
      IsBST lt (pushAll lt xs).root ∧ DepthOK 0 (pushAll lt xs).root := by
  have key : ∀ (xs : List α) (t : BT α), t.WF → IsBST lt t.root → DepthOK 0 t.root →
      (xs.foldl (fun t x => t.push lt x) t).n = t.n + xs.length ∧
      (xs.foldl (fun t x => t.push lt x) t).WF ∧
      (xs.foldl (fun t x => t.push lt x) t).root.inorder.Perm (xs ++ t.root.inorder) ∧
      IsBST lt (xs.foldl (fun t x => t.push lt x) t).root ∧
      DepthOK 0 (xs.foldl (fun t x => t.push lt x) t).root := by
    intro xs
    induction xs with
    | nil => intro t h1 h2 h3; exact ⟨rfl, h1, List.Perm.refl _, h2, h3⟩
    | cons x xs ih =>
      intro t h1 h2 h3
      unfold BT.WF at h1
      have hw : (t.push lt x).WF := by
        simp [BT.WF, BT.push, insert_size, h1]
      obtain ⟨a, b, c, d, e⟩ := ih (t.push lt x) hw (insert_bst lt x _ 0 h2) (insert_depth lt x _ 0 h3)
      refine ⟨?_, b, ?_, d, e⟩
      · rw [List.foldl_cons, a]; simp [BT.push]; omega
      · refine c.trans ?_
        refine ((insert_inorder_perm lt x t.root 0).append_left xs).trans ?_
        exact List.perm_middle
  have := key xs BT.empty rfl trivial trivial
  simpa [pushAll, BT.empty, inorder] using this

/-- In-order traversal is sorted, for every strict weak order. -/
theorem C13_sorted (lt : α → α → Bool)
    (hasym : ∀ a b, lt a b = true → lt b a = false)
    (htrans : ∀ a b c, lt b a = false → lt c b = false → lt c a = false) (xs : List α) :
    (pushAll lt xs).root.inorder.Pairwise (fun a b => lt b a = false) :=
  bst_sorted lt htrans hasym _ (C13_push lt xs).2.2.2.1

/-- The sorted values, concretely for numbers. -/
example : (pushAll (fun a b : Nat => decide (a < b)) [5, 3, 8, 4]).root.inorder = [3, 4, 5, 8] := by decide

/-- A successful search returns a node holding the searched key, and the key had been pushed. -/
theorem C13_find_sound (lt eq : α → α → Bool) (heq : ∀ a b, eq a b = true ↔ a = b) (xs : List α) (x : α)
    (n : Tree α) (h : find lt eq x (pushAll lt xs).root = .ok (some n)) :
    x ∈ xs ∧ ∃ l d r, n = node l x d r := by
  obtain ⟨l, v, d, r, h1, h2, h3⟩ := find_sound lt eq x _ n h
  have hv := (heq v x).1 h2
  subst hv
  exact ⟨(C13_push lt xs).2.2.1.mem_iff.1 h3, l, d, r, h1⟩

/-- A pushed key is found if it sits at a node that has a child.  Missing from C13: keys stored at
leaves, see `C13_bug_leaf`. -/
theorem C13_find_internal_partial (lt eq : α → α → Bool) (heq : ∀ a b, eq a b = true ↔ a = b)
    (xs : List α) (x : α) (hx : x ∈ (pushAll lt xs).root.internal) :
    ∃ l d r, find lt eq x (pushAll lt xs).root = .ok (some (node l x d r)) :=
  find_internal lt eq heq x _ (C13_push lt xs).2.2.2.1 hx

/-- The search does not touch a null pointer when every node of the (non-empty) tree has zero or two
children.  Missing from C13: all other trees, see `C13_bug_null`. -/
theorem C13_find_no_ub_partial (lt eq : α → α → Bool) (xs : List α) (x : α)
    (hf : Full (pushAll lt xs).root) (hne : xs ≠ []) :
    ∃ o, find lt eq x (pushAll lt xs).root = .ok o := by
  apply find_full lt eq x _ hf
  cases h : (pushAll lt xs).root with
  | node => rfl
  | nil =>
    have := (C13_push lt xs).2.2.1
    rw [h] at this
    simp [inorder] at this
    exact absurd this hne

example : 5 ∈ (pushAll (fun a b : Nat => decide (a < b)) [5, 3, 8, 4]).root.internal := by decide
example : Full (pushAll (fun a b : Nat => decide (a < b)) [5, 3, 8]).root := by
  simp [pushAll, BT.push, BT.empty, insert, Full, isNil]

/-- A tree holding a single key does not find it. -/
theorem C13_bug_leaf (lt eq : α → α → Bool) (x : α) :
    find lt eq x (pushAll lt [x]).root = .ok none := by
  simp [pushAll, BT.push, BT.empty, insert, find, isNil]

/-- More generally: a key that occurs only at leaves is never found. -/
theorem C13_bug_leaf_general (lt eq : α → α → Bool) (heq : ∀ a b, eq a b = true ↔ a = b) (t : Tree α) (x : α)
    (hx : x ∉ t.internal) (n : Tree α) : find lt eq x t ≠ .ok (some n) := by
  induction t with
  | nil => simp [find]
  | node l v d r ihl ihr =>
    cases hn : (l.isNil && r.isNil) with
    | true => simp [find, hn]
    | false =>
      rw [internal_node l v d r hn] at hx
      simp only [List.mem_append, List.mem_cons, not_or] at hx
      simp only [find, hn, Bool.false_eq_true, if_false]
      rw [if_neg (fun h => hx.2.1 ((heq v x).1 h).symm)]
      split
      · exact ihl hx.1
      · exact ihr hx.2.2

/-- Searching an empty tree dereferences a null pointer. -/
theorem C13_bug_empty (lt eq : α → α → Bool) (x : α) : find lt eq x (pushAll lt []).root = .ub := rfl

/-- Searching for a key smaller than a root without left child dereferences a null pointer. -/
theorem C13_bug_null : find (fun a b : Nat => decide (a < b)) (· == ·) 1
    (pushAll (fun a b : Nat => decide (a < b)) [5, 8]).root = .ub := by decide

/-- Pushing an initializer list is pushing its elements in order. -/
theorem C13_push_list (lt : α → α → Bool) (t : BT α) (xs : List α) (h : xs ≠ []) :
    t.pushList lt xs = .ok (xs.foldl (fun t x => t.push lt x) t) := by
  induction xs generalizing t with
  | nil => exact absurd rfl h
  | cons x xs ih =>
    cases xs with
    | nil => rfl
    | cons y ys => rw [BT.pushList, ih _ (by simp)]; rfl

/-! ### C14 -/

/-- Erasing at the root, and `clear`: every node is freed exactly once and the tree is empty.
Missing from C14: positions other than the root, see `C14_bug_erase`. -/
theorem C14_erase_root_partial (t : BT α) (h : t.WF) :
    t.erase [] = .ok (t.root.preorder, BT.empty) := by
  unfold BT.WF at h
  simp only [BT.erase, sub_root]
  rw [C11_dfs_terminates _ _ (by omega)]
  rfl

theorem C14_clear (t : BT α) (h : t.WF) : t.clear = .ok (t.root.preorder, BT.empty) := by
  unfold BT.clear
  split
  · rename_i h0
    unfold BT.WF at h
    obtain ⟨root, n⟩ := t
    simp only at h h0
    subst h0
    cases root with
    | nil => rfl
    | node => simp [size] at h; omega
  · exact C14_erase_root_partial t h

theorem sub_size_le (t : Tree α) : ∀ p : Path, (sub t p).size ≤ t.size := by
  induction t with
  | nil => intro p; rw [sub_nil]; simp
  | node l v d r ihl ihr =>
    intro p
    cases p with
    | nil => simp
    | cons b p =>
      cases b
      · have := ihr p; simp only [sub, size]; omega
      · have := ihl p; simp only [sub, size]; omega

/-- `erase(pos)` frees exactly the nodes below `pos` whatever the position, but the tree is empty
afterwards. -/
theorem C14_bug_erase_always_empties (t : BT α) (h : t.WF) (p : Path) :
    t.erase p = .ok ((sub t.root p).preorder, BT.empty) := by
  unfold BT.WF at h
  have := sub_size_le t.root p
  simp only [BT.erase]
  rw [C11_dfs_terminates _ _ (by omega)]
  rfl

/-- The nodes of a tree split into those below a position and those outside. -/
theorem C14_outside_spec (t : Tree α) (p : Path) : (outside t p ++ (sub t p).preorder).Perm t.preorder := by
  induction t generalizing p with
  | nil => cases p <;> simp [outside, sub]
  | node l v d r ihl ihr =>
    cases p with
    | nil => simp [outside]
    | cons b p =>
      cases b with
      | true =>
        simp only [outside, sub, preorder, List.cons_append]
        apply List.Perm.cons
        rw [List.append_assoc]
        refine (List.Perm.append_left _ List.perm_append_comm).trans ?_
        rw [← List.append_assoc]
        exact (ihl p).append_right _
      | false =>
        simp only [outside, sub, preorder, List.cons_append, List.append_assoc]
        exact ((ihr p).append_left _).cons v

/-- The claim fails at every existing position other than the root: the nodes outside of it (at
least one) are neither freed nor reachable. -/
theorem C14_bug_erase (t : BT α) (h : t.WF) (b : Bool) (p : Path) (hp : t.root ≠ nil) :
    ∃ freed t', t.erase (b :: p) = .ok (freed, t') ∧ t'.root = nil ∧ t'.n = 0 ∧
      outside t.root (b :: p) ≠ [] ∧ (outside t.root (b :: p) ++ freed).Perm t.root.preorder := by
  refine ⟨_, _, C14_bug_erase_always_empties t h (b :: p), rfl, rfl, ?_, C14_outside_spec _ _⟩
  cases hr : t.root with
  | nil => exact absurd hr hp
  | node l v d r => cases b <;> simp [outside]

example : (⟨tex, 4⟩ : BT Nat).WF := rfl

/-! ### C15 -/

/-- Every tree a user can build has a right counter and right depths. -/
theorem C15_built_wf (t : BT α) (h : Built t) : t.WF ∧ DepthOK 0 t.root := by
  induction h with
  | empty => exact ⟨rfl, trivial⟩
  | single x => exact ⟨rfl, by simp [BT.single, DepthOK]⟩
  | push lt t x _ ih =>
    obtain ⟨h1, h2⟩ := ih
    unfold BT.WF at h1
    exact ⟨by simp [BT.WF, BT.push, insert_size, h1], insert_depth lt x _ 0 h2⟩
  | pushAt t t' p left x _ hok ih =>
    obtain ⟨h1, h2⟩ := ih
    unfold BT.WF at h1
    rw [BT.pushAt, Res.bind_eq_ok] at hok
    obtain ⟨⟨r, b⟩, h3, h4⟩ := hok
    simp only [Res.pure_eq, Res.ok.injEq] at h4
    subst h4
    refine ⟨?_, childPut_depth _ _ _ _ _ _ _ h2 h3⟩
    have := childPut_size _ _ _ _ _ _ h3
    cases b <;> simp_all [BT.WF]

/-- The copy constructor gives the same tree (shape, values, depths, size) for every non-empty tree
a user can build. -/
theorem C15_copy (t : BT α) (hb : Built t) (hne : t.n ≠ 0) : t.copyCtor = .ok t := by
  obtain ⟨h1, h2⟩ := C15_built_wf t hb
  rw [copyCtor_spec t h1 hne, relabel_of_depthOK _ _ h2]
  unfold BT.WF at h1
  rw [← h1]

/-- Copy assignment to a different object: same result, whatever the destination held. -/
theorem C15_assign (dst t : BT α) (hd : Built dst) (hb : Built t) (hne : t.n ≠ 0) :
    dst.copyAssign t = .ok t := by
  rw [BT.copyAssign, if_neg hne, C14_clear dst (C15_built_wf dst hd).1]
  simp [C15_copy t hb hne]

/-- Move assignment between different objects transfers the tree and empties the source; an empty
source leaves an empty destination. -/
theorem C15_move (dst src : BT α) (hd : Built dst) (hs : Built src) :
    dst.moveAssign src = .ok (src, BT.empty) := by
  have h1 := (C15_built_wf dst hd).1
  obtain ⟨h2, h3⟩ := C15_built_wf src hs
  rw [BT.moveAssign, C14_clear dst h1]
  obtain ⟨root, n⟩ := src
  unfold BT.WF at h2
  simp only at h2 h3
  cases root with
  | nil => simp [size] at h2; subst h2; simp [BT.empty]
  | node l v d r =>
    have h0 : n ≠ 0 := by simp [size] at h2; omega
    have : d = 0 := h3.1
    subst this
    simp [h0, BT.empty]

example : Built ((BT.empty : BT Nat).push (fun a b => decide (a < b)) 3) := .push _ _ _ .empty

/-- Copying an empty tree fails: the constructor throws. -/
theorem C15_bug_empty : (BT.empty : BT α).copyCtor = .throws := rfl

/-- C15 (finding): assigning an empty tree, to another tree or to itself, throws. -/
theorem C15_bug_assign_empty (dst : BT α) : dst.copyAssign BT.empty = .throws ∧ (BT.empty : BT α).selfAssign = .throws :=
  ⟨rfl, rfl⟩

/-- Self copy-assignment of a non-empty tree dereferences a null pointer after deleting all nodes. -/
theorem C15_bug_self_assign (t : BT α) (hb : Built t) (hne : t.n ≠ 0) : t.selfAssign = .ub := by
  rw [BT.selfAssign, if_neg hne, C14_clear t (C15_built_wf t hb).1]
  rfl

/-- `push_left`/`push_right` at an existing node without that child adds exactly one node, and
replaces the stored value when the child exists: the size grows by one or not at all, and the number
of nodes always equals the counter. -/
theorem C15_push_at_counts (t t' : BT α) (h : t.WF) (p : Path) (left : Bool) (x : α)
    (hok : t.pushAt p left x = .ok t') : t'.WF ∧ (t'.n = t.n ∨ t'.n = t.n + 1) := by
  unfold BT.WF at h
  rw [BT.pushAt, Res.bind_eq_ok] at hok
  obtain ⟨⟨r, b⟩, h3, h4⟩ := hok
  simp only [Res.pure_eq, Res.ok.injEq] at h4
  subst h4
  have := childPut_size _ _ _ _ _ _ h3
  cases b <;> simp_all [BT.WF]

end Fdapde.BinTree
