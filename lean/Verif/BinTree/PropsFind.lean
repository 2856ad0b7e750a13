import Verif.BinTree.Props
/- C13: what find does for every pushed key. -/
namespace Fdapde.BinTree
open Tree
variable {α : Type}

theorem find_present (lt eq : α → α → Bool) (heq : ∀ a b, eq a b = true ↔ a = b) (x : α) (t : Tree α) (hb : IsBST lt t) (hx : x ∈ t.inorder) :
    ∃ o, find lt eq x t = .ok o := by
  induction t with
  | nil => simp [inorder] at hx
  | node l v d r ihl ihr =>
    obtain ⟨h1, h2, h3, h4⟩ := hb
    simp only [find]
    cases hn : (l.isNil && r.isNil) with
    | true => exact ⟨none, by simp⟩
    | false =>
      simp only [Bool.false_eq_true, if_false]
      by_cases he : eq v x = true
      · rw [if_pos he]
        exact ⟨_, rfl⟩
      · rw [if_neg he]
        have hne : v ≠ x := fun h => he ((heq v x).2 h)
        simp only [inorder, List.mem_append, List.mem_cons] at hx
        rcases hx with h | h | h
        · rw [if_pos (h1 x h)]
          exact ihl h3 h
        · exact absurd h.symm hne
        · rw [if_neg (by rw [h2 x h]; simp)]
          exact ihr h4 h

/-- **C13**: searching a pushed key never dereferences a null pointer, whatever the history; the key is found if and only if it is stored at a node with
a child. -/
theorem C13_find_pushed (lt eq : α → α → Bool) (heq : ∀ a b, eq a b = true ↔ a = b) (xs : List α) (x : α) (hx : x ∈ xs) :
    (x ∈ (pushAll lt xs).root.internal → ∃ l d r, find lt eq x (pushAll lt xs).root = .ok (some (node l x d r))) ∧
    (x ∉ (pushAll lt xs).root.internal → find lt eq x (pushAll lt xs).root = .ok none) := by
  refine ⟨C13_find_internal_partial lt eq heq xs x, fun hn => ?_⟩
  have hp := C13_push lt xs
  obtain ⟨o, ho⟩ := find_present lt eq heq x _ hp.2.2.2.1 (hp.2.2.1.mem_iff.2 hx)
  cases o with
  | none => exact ho
  | some n => exact absurd ho (C13_bug_leaf_general lt eq heq _ x hn n)

theorem leaves_ne_nil (t : Tree α) (h : t ≠ nil) : t.leaves ≠ [] := by
  induction t with
  | nil => exact absurd rfl h
  | node l v d r ihl ihr =>
    cases l with
    | nil =>
      cases r with
      | nil => simp [leaves]
      | node a b c e =>
        have := ihr (by simp)
        simp only [leaves, ne_eq, List.append_eq_nil_iff, not_and]
        exact fun _ => this
    | node a b c e =>
      have := ihl (by simp)
      simp only [leaves, ne_eq, List.append_eq_nil_iff, not_and]
      exact fun h0 => absurd h0 this

/-- The values of a tree are those of its leaves and those of its other nodes. -/
theorem leaves_internal (t : Tree α) : (t.leaves ++ t.internal).Perm t.inorder := by
  induction t with
  | nil => simp [leaves, internal, inorder]
  | node l v d r ihl ihr =>
    cases hn : (l.isNil && r.isNil) with
    | true => cases l <;> cases r <;> simp_all [isNil, internal, leaves, inorder]
    | false =>
      have e : (node l v d r).leaves = l.leaves ++ r.leaves := by
        cases l <;> cases r <;> simp_all [isNil, leaves]
      rw [internal_node l v d r hn, e, inorder]
      calc l.leaves ++ r.leaves ++ (l.internal ++ v :: r.internal)
          _ = l.leaves ++ (r.leaves ++ (l.internal ++ v :: r.internal)) := by simp
          _ |>.Perm (l.leaves ++ (l.internal ++ v :: r.internal ++ r.leaves)) := List.Perm.append_left _ List.perm_append_comm
          _ |>.Perm (l.leaves ++ l.internal ++ (v :: (r.leaves ++ r.internal))) := by
            simp only [List.append_assoc, List.cons_append]
            exact (((List.perm_append_comm (l₁ := r.internal) (l₂ := r.leaves)).cons v).append_left l.internal).append_left l.leaves
          _ |>.Perm (l.inorder ++ v :: r.inorder) := ihl.append (ihr.cons v)

/-- **C13**: whatever distinct keys are pushed, at least one of them is not found. -/
theorem C13_bug_some_key_missed (lt eq : α → α → Bool) (heq : ∀ a b, eq a b = true ↔ a = b) (xs : List α) (hne : xs ≠ []) (hd : xs.Nodup) :
    ∃ x ∈ xs, find lt eq x (pushAll lt xs).root = .ok none := by
  have hp := (C13_push lt xs).2.2.1
  have hroot : (pushAll lt xs).root ≠ nil := by
    intro h
    rw [h] at hp
    exact hne (List.nil_perm.1 hp)
  obtain ⟨x, hx⟩ := List.exists_mem_of_ne_nil _ (leaves_ne_nil _ hroot)
  have hpl := (leaves_internal (pushAll lt xs).root).trans hp
  have hnd := hpl.nodup_iff.2 hd
  have hxs : x ∈ xs := hpl.mem_iff.1 (List.mem_append_left _ hx)
  exact ⟨x, hxs, (C13_find_pushed lt eq heq xs x hxs).2 fun hi => (List.nodup_append.1 hnd).2.2 x hx x hi rfl⟩

theorem insert_ne_nil (lt : α → α → Bool) (x : α) (k : Nat) (t : Tree α) : insert lt x k t ≠ nil := by
  cases t with
  | nil => simp [insert]
  | node l v d r => simp only [insert]; split <;> simp

theorem find_absent (lt eq : α → α → Bool) (heq : ∀ a b, eq a b = true ↔ a = b) (x : α) (k : Nat) (t : Tree α) (hx : x ∉ t.inorder) :
    (find lt eq x t = .ok none ∧ (insert lt x k t).leaves.length = t.leaves.length) ∨
    (find lt eq x t = .ub ∧ (insert lt x k t).leaves.length = t.leaves.length + 1) := by
  induction t generalizing k with
  | nil => exact .inr ⟨rfl, by simp [insert, leaves]⟩
  | node l v d r ihl ihr =>
    simp only [inorder, List.mem_append, List.mem_cons, not_or] at hx
    have he : ¬eq v x = true := fun h => hx.2.1 ((heq v x).1 h).symm
    cases hn : (l.isNil && r.isNil) with
    | true =>
      refine .inl ⟨by simp [find, hn], ?_⟩
      have e : l = nil ∧ r = nil := by cases l <;> cases r <;> simp_all [isNil]
      obtain ⟨rfl, rfl⟩ := e
      simp only [insert]
      split <;> simp [leaves]
    | false =>
      have e : ∀ l' r' : Tree α, (l'.isNil && r'.isNil) = false → (node l' v d r').leaves = l'.leaves ++ r'.leaves := fun l' r' h => by
        cases l' <;> cases r' <;> simp_all [isNil, leaves]
      simp only [find, hn, Bool.false_eq_true, if_false, if_neg he, insert]
      by_cases hlt : lt x v = true
      · rw [if_pos hlt, if_pos hlt, e _ _ hn, e _ _ (by
          have := insert_ne_nil lt x (k + 1) l
          cases h : insert lt x (k + 1) l <;> simp_all [isNil])]
        rcases ihl (k + 1) hx.1 with ⟨h1, h2⟩ | ⟨h1, h2⟩
        · exact .inl ⟨h1, by simp [h2]⟩
        · exact .inr ⟨h1, by simp [h2]; omega⟩
      · rw [if_neg hlt, if_neg hlt, e _ _ hn, e _ _ (by
          have := insert_ne_nil lt x (k + 1) r
          cases h : insert lt x (k + 1) r <;> simp_all [isNil])]
        rcases ihr (k + 1) hx.2.2 with ⟨h1, h2⟩ | ⟨h1, h2⟩
        · exact .inl ⟨h1, by simp [h2]⟩
        · exact .inr ⟨h1, by simp [h2]; omega⟩

/-- **C13**: searching a key that was never pushed either finds nothing or dereferences a null pointer, and the latter exactly when pushing that key would
give the tree one more leaf (that is, when the place of the key is beside another node, or the tree is empty). -/
theorem C13_find_absent (lt eq : α → α → Bool) (heq : ∀ a b, eq a b = true ↔ a = b) (xs : List α) (x : α) (hx : x ∉ xs) :
    (find lt eq x (pushAll lt xs).root = .ub ∧ ((pushAll lt xs).push lt x).root.leaves.length = (pushAll lt xs).root.leaves.length + 1) ∨
    (find lt eq x (pushAll lt xs).root = .ok none ∧ ((pushAll lt xs).push lt x).root.leaves.length = (pushAll lt xs).root.leaves.length) :=
  (find_absent lt eq heq x 0 _ fun h => hx ((C13_push lt xs).2.2.1.mem_iff.1 h)).symm

theorem push_right (lt : α → α → Bool) (y : α) (xs : List α) (hxs : ∀ w ∈ xs, lt w y = false) (t : Tree α) (ht : t ≠ nil) (n : Nat) :
    ∃ t' n', t' ≠ nil ∧ xs.foldl (fun (t : BT α) x => t.push lt x) (⟨node nil y 0 t, n⟩ : BT α) = ⟨node nil y 0 t', n'⟩ := by
  induction xs generalizing t n with
  | nil => exact ⟨t, n, ht, rfl⟩
  | cons w xs ih =>
    rw [List.foldl_cons, BT.push]
    simp only [insert, hxs w (by simp), Bool.false_eq_true, if_false]
    exact ih (fun w hw => hxs w (by simp [hw])) _ (insert_ne_nil lt w _ t) _

/-- **C13**: if the first key pushed is the smallest and another one follows, searching any smaller key dereferences a null pointer. -/
theorem C13_bug_smaller_key (lt eq : α → α → Bool) (heq : ∀ a b, eq a b = true ↔ a = b) (x y : α) (xs : List α) (hne : xs ≠ [])
    (hxs : ∀ w ∈ xs, lt w y = false) (hlt : lt x y = true) (hxy : x ≠ y) : find lt eq x (pushAll lt (y :: xs)).root = .ub := by
  obtain ⟨z, xs, rfl⟩ := List.exists_cons_of_ne_nil hne
  obtain ⟨t', n', h1, h2⟩ := push_right lt y xs (fun w hw => hxs w (by simp [hw])) (node nil z 1 nil) (by simp) 2
  have e : pushAll lt (y :: z :: xs) = ⟨node nil y 0 t', n'⟩ := by
    rw [← h2, pushAll, List.foldl_cons, List.foldl_cons]
    simp [BT.push, BT.empty, insert, hxs z (by simp)]
  have hn : t'.isNil = false := by cases t' <;> simp_all [isNil]
  rw [e]
  simp only [find]
  rw [if_neg (by rw [hn]; simp), if_neg fun h => hxy ((heq y x).1 h).symm, if_pos hlt]

/-- Keys 5, 3, 8, 4: 9 is not found, 2 dereferences a null pointer. -/
example : find (fun a b : Nat => decide (a < b)) (· == ·) 9 (pushAll (fun a b : Nat => decide (a < b)) [5, 3, 8, 4]).root = .ok none ∧
    find (fun a b : Nat => decide (a < b)) (· == ·) 2 (pushAll (fun a b : Nat => decide (a < b)) [5, 3, 8, 4]).root = .ub := by
  constructor
  · exact (C13_find_absent _ _ (by simp) [5, 3, 8, 4] 9 (by simp)).resolve_left (fun h => absurd h.2 (by decide)) |>.1
  · exact (C13_find_absent _ _ (by simp) [5, 3, 8, 4] 2 (by simp)).resolve_right (fun h => absurd h.2 (by decide)) |>.1

/-- Keys 5, 3, 8, 4: 8 and 4 are at leaves and not found, 5 and 3 are. -/
example : (∃ l d r, find (fun a b : Nat => decide (a < b)) (· == ·) 3 (pushAll (fun a b : Nat => decide (a < b)) [5, 3, 8, 4]).root = .ok (some (node l 3 d r))) ∧
    find (fun a b : Nat => decide (a < b)) (· == ·) 8 (pushAll (fun a b : Nat => decide (a < b)) [5, 3, 8, 4]).root = .ok none :=
  ⟨(C13_find_pushed _ _ (by simp) [5, 3, 8, 4] 3 (by simp)).1 (by decide), (C13_find_pushed _ _ (by simp) [5, 3, 8, 4] 8 (by simp)).2 (by decide)⟩

end Fdapde.BinTree
