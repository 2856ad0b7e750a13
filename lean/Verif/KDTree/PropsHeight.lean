import Verif.KDTree.Props
import Mathlib.Data.List.Sort
/- Property C163: the height of the kd-tree built over a set of points. -/
namespace Fdapde.KDTree
open BinTree BinTree.Tree

/-! ### Specification -/

/-- The contract of `std::nth_element` on the indices of a set of points: the range is permuted, the
indices before position `k` have coordinates not greater than the one at position `k`, those after it
coordinates not smaller. -/
structure Selects {R : Type} [LinearOrder R] (data : Nat → Nat → R) (nth : Nat → Nat → List Nat → List Nat) :
    Prop where
  perm : ∀ dim k l, (nth dim k l).Perm l
  before : ∀ dim k l m, (nth dim k l)[k]? = some m → ∀ x ∈ (nth dim k l).take k, data x dim ≤ data m dim
  after : ∀ dim k l m, (nth dim k l)[k]? = some m → ∀ x ∈ (nth dim k l).drop (k + 1), data m dim ≤ data x dim

/-- A height is minimal for `n` elements: no binary tree with `n` nodes is lower. -/
def MinimalHeight (h n : Nat) : Prop := n < 2 ^ h ∧ (0 < n → 2 ^ (h - 1) ≤ n) ∧ (n = 0 → h = 0)

/-- A set of `n` nodes does not fit in a lower tree. -/
theorem minimalHeight_least {α : Type} {h n : Nat} (hm : MinimalHeight h n) (t : BinTree.Tree α) (ht : t.size = n) :
    h ≤ t.height := by
  have key : ∀ s : BinTree.Tree α, s.size < 2 ^ s.height := by
    intro s
    induction s with
    | nil => simp [BinTree.Tree.size, height]
    | node l v d r ihl ihr =>
      simp only [BinTree.Tree.size, height]
      have h1 : 2 ^ l.height ≤ 2 ^ max l.height r.height := Nat.pow_le_pow_right (by omega) (le_max_left _ _)
      have h2 : 2 ^ r.height ≤ 2 ^ max l.height r.height := Nat.pow_le_pow_right (by omega) (le_max_right _ _)
      have h3 : 2 ^ (1 + max l.height r.height) = 2 * 2 ^ max l.height r.height := by rw [Nat.pow_add, Nat.pow_one]
      have h4 : 2 ^ (max l.height r.height + 1) = 2 * 2 ^ max l.height r.height := by rw [Nat.pow_succ, Nat.mul_comm]
      first
        | omega
        | (rw [h3]; omega)
        | (rw [h4]; omega)
  have h1 := key t
  rw [ht] at h1
  by_contra hc
  push Not at hc
  rcases Nat.eq_zero_or_pos n with h0 | h0
  · have := hm.2.2 h0; omega
  · have h2 := hm.2.1 h0
    have h3 : 2 ^ t.height ≤ 2 ^ (h - 1) := Nat.pow_le_pow_right (by omega) (by omega)
    omega

/-! ### Points on a line -/
section
variable {R : Type} [LinearOrder R]

theorem minimal_node {l r m : Nat} (hl : MinimalHeight l (m / 2)) (hr : MinimalHeight r (m - m / 2 - 1)) (hm : 0 < m) :
    MinimalHeight (max l r + 1) m := by
  have hle : r ≤ l := by
    by_contra hc
    push Not at hc
    rcases Nat.eq_zero_or_pos (m - m / 2 - 1) with h0 | h0
    · have := hr.2.2 h0; omega
    · have h2 := hr.2.1 h0
      have h3 : 2 ^ l ≤ 2 ^ (r - 1) := Nat.pow_le_pow_right (by omega) (by omega)
      have := hl.1
      omega
  rw [max_eq_left hle]
  refine ⟨?_, ?_, by omega⟩
  · have := hl.1
    rw [Nat.pow_succ]; omega
  · intro _
    rw [Nat.add_sub_cancel]
    rcases Nat.eq_zero_or_pos (m / 2) with h0 | h0
    · rw [hl.2.2 h0]; simp; omega
    · have h2 := hl.2.1 h0
      have hl0 : 0 < l := by
        rcases Nat.eq_zero_or_pos l with h | h
        · have := hl.1; rw [h] at this; simp at this; omega
        · exact h
      have : 2 ^ l = 2 * 2 ^ (l - 1) := by
        conv_lhs => rw [← Nat.sub_add_cancel hl0]
        rw [Nat.pow_succ]; ring
      omega

/-- Running the constructor on a segment of points placed in a hole of the tree. -/
theorem seg_run (nth) (data : Nat → Nat → R) (h : Selects data nth) :
    ∀ (m : Nat) (S : List Nat), S.length = m → S.Nodup →
      (∀ x ∈ S, ∀ y ∈ S, data x 0 = data y 0 → x = y) →
      ∀ (A B : List Nat) (st : List Seg) (fuel δ c : Nat) (ctx : BinTree.Tree Nat → BinTree.Tree Nat),
      (∀ x ∈ S, ∀ t, insertBy (kdLt data 1) x 0 (ctx t) = ctx (insertBy (kdLt data 1) x δ t)) →
      ∃ S' t, S'.Perm S ∧ MinimalHeight (height t) m ∧
        buildLoop nth data 1 (fuel + m)
          ⟨A ++ (S ++ B), if m > 0 then ⟨A.length, A.length + m, 0⟩ :: st else st, 0, ⟨ctx .nil, c⟩⟩ =
        buildLoop nth data 1 fuel ⟨A ++ (S' ++ B), st, 0, ⟨ctx t, c + m⟩⟩ := by
  intro m
  induction m using Nat.strong_induction_on with
  | _ m ih =>
  intro S hS hnd hinj A B st fuel δ c ctx hctx
  rcases Nat.eq_zero_or_pos m with h0 | h0
  · subst h0
    exact ⟨S, .nil, List.Perm.refl _, ⟨by simp [height], by simp, by simp [height]⟩, by simp⟩
  obtain ⟨L, hL⟩ : ∃ L, L = nth 0 (m / 2) S := ⟨_, rfl⟩
  have hLp : L.Perm S := by rw [hL]; exact h.perm _ _ _
  have hLl : L.length = m := by rw [hLp.length_eq, hS]
  have hk : m / 2 < L.length := by omega
  have hmid : L[m / 2]? = some L[m / 2] := List.getElem?_eq_getElem hk
  have hsplit : L = L.take (m / 2) ++ L[m / 2] :: L.drop (m / 2 + 1) := by
    rw [List.getElem_cons_drop, List.take_append_drop]
  obtain ⟨x, hx⟩ : ∃ x, x = L[m / 2] := ⟨_, rfl⟩
  obtain ⟨L1, hL1⟩ : ∃ l, l = L.take (m / 2) := ⟨_, rfl⟩
  obtain ⟨L2, hL2⟩ : ∃ l, l = L.drop (m / 2 + 1) := ⟨_, rfl⟩
  have hl1 : L1.length = m / 2 := by rw [hL1, List.length_take]; omega
  have hl2 : L2.length = m - m / 2 - 1 := by rw [hL2, List.length_drop]; omega
  rw [← hx, ← hL1, ← hL2] at hsplit
  have hndL : L.Nodup := hLp.nodup_iff.2 hnd
  have hxS : x ∈ S := hLp.mem_iff.1 (by rw [hsplit]; simp)
  have h1S : ∀ y ∈ L1, y ∈ S := fun y hy => hLp.mem_iff.1 (by rw [hsplit]; simp [hy])
  have h2S : ∀ y ∈ L2, y ∈ S := fun y hy => hLp.mem_iff.1 (by rw [hsplit]; simp [hy])
  have hlt : ∀ y ∈ L1, data y 0 < data x 0 := by
    intro y hy
    have hle : data y 0 ≤ data x 0 := by
      have := h.before 0 (m / 2) S x (by rw [← hL, hmid, hx]) y (by rw [← hL, ← hL1]; exact hy)
      exact this
    refine lt_of_le_of_ne hle fun he => ?_
    have := hinj y (h1S y hy) x hxS he
    subst this
    rw [hsplit] at hndL
    exact (List.nodup_append.1 hndL).2.2 y hy y (by simp) rfl
  have hge : ∀ y ∈ L2, data x 0 ≤ data y 0 := by
    intro y hy
    exact h.after 0 (m / 2) S x (by rw [← hL, hmid, hx]) y (by rw [← hL, ← hL2]; exact hy)
  have hnd1 : L1.Nodup := by rw [hL1]; exact hndL.sublist (List.take_sublist _ _)
  have hnd2 : L2.Nodup := by rw [hL2]; exact hndL.sublist (List.drop_sublist _ _)
  -- the right part, on top of the stack
  obtain ⟨S2, t2, p2, m2, e2⟩ := ih (m - m / 2 - 1) (by omega) L2 hl2 hnd2
    (fun a ha b hb => hinj a (h2S a ha) b (h2S b hb)) (A ++ (L1 ++ [x])) B
    (if m / 2 > 0 then ⟨A.length, A.length + m / 2, 0⟩ :: st else st) (fuel + m / 2) (δ + 1) (c + 1)
    (fun t => ctx (.node .nil x δ t)) (by
      intro y hy t
      rw [hctx y (h2S y hy)]
      have hc : kdLt data 1 y x δ = false := by simpa [kdLt, Nat.mod_one] using hge y hy
      simp [insertBy, hc])
  -- the left part
  obtain ⟨S1, t1, p1, m1, e1⟩ := ih (m / 2) (by omega) L1 hl1 hnd1
    (fun a ha b hb => hinj a (h1S a ha) b (h1S b hb)) A (x :: (S2 ++ B)) st fuel (δ + 1) (c + 1 + (m - m / 2 - 1))
    (fun t => ctx (.node t x δ t2)) (by
      intro y hy t
      rw [hctx y (h1S y hy)]
      have hc : kdLt data 1 y x δ = true := by simpa [kdLt, Nat.mod_one] using hlt y hy
      simp [insertBy, hc])
  refine ⟨S1 ++ x :: S2, .node t1 x δ t2, ?_, ?_, ?_⟩
  · refine List.Perm.trans ?_ hLp
    rw [hsplit]
    exact p1.append (p2.cons x)
  · have := minimal_node m1 m2 h0
    simp only [height]
    first
      | exact this
      | (rw [Nat.add_comm]; exact this)
  · rw [if_pos h0]
    have hfuel : fuel + m = (fuel + (m - 1)) + 1 := by omega
    have hr : nthRange nth (A ++ (S ++ B)) ⟨A.length, A.length + m, 0⟩ (A.length + m / 2) = A ++ (L ++ B) := by
      unfold nthRange
      have a1 : (A ++ (S ++ B)).take A.length = A := by simp
      have a2 : ((A ++ (S ++ B)).drop A.length).take (A.length + m - A.length) = S := by
        rw [List.drop_left, Nat.add_sub_cancel_left, ← hS, List.take_left]
      have a3 : (A ++ (S ++ B)).drop (A.length + m) = B := by
        rw [← List.append_assoc, ← hS, ← List.length_append, List.drop_left]
      dsimp only
      rw [a1, a2, a3, Nat.add_sub_cancel_left, ← hL, List.append_assoc]
    have hg : (A ++ (L ++ B))[A.length + m / 2]? = some x := by
      rw [List.getElem?_append_right (by omega), Nat.add_sub_cancel_left, List.getElem?_append_left hk, hmid, hx]
    have hstep : buildStep nth data 1 ⟨A ++ (S ++ B), ⟨A.length, A.length + m, 0⟩ :: st, 0, ⟨ctx .nil, c⟩⟩ =
        .ok ⟨A ++ (L ++ B),
          if m - m / 2 - 1 > 0 then
            ⟨(A ++ (L1 ++ [x])).length, (A ++ (L1 ++ [x])).length + (m - m / 2 - 1), 0⟩ ::
              (if m / 2 > 0 then ⟨A.length, A.length + m / 2, 0⟩ :: st else st)
          else (if m / 2 > 0 then ⟨A.length, A.length + m / 2, 0⟩ :: st else st), 0,
          ⟨ctx (.node .nil x δ .nil), c + 1⟩⟩ := by
      unfold buildStep
      dsimp only
      rw [Nat.add_sub_cancel_left, hr, hg]
      dsimp only
      have b1 : A.length + m / 2 - A.length = m / 2 := by omega
      have b2 : A.length + m - (A.length + m / 2 + 1) = m - m / 2 - 1 := by omega
      have b3 : (A ++ (L1 ++ [x])).length = A.length + m / 2 + 1 := by simp [hl1]; omega
      have b4 : A.length + m / 2 + 1 + (m - m / 2 - 1) = A.length + m := by omega
      rw [b1, b2, b3, b4, Nat.mod_one, hctx x hxS]
      rfl
    rw [hfuel]
    conv_lhs => unfold buildLoop
    rw [if_neg (by simp), hstep]
    dsimp only
    have i1 : A ++ (L ++ B) = (A ++ (L1 ++ [x])) ++ (L2 ++ B) := by rw [hsplit]; simp
    have i2 : (A ++ (L1 ++ [x])) ++ (S2 ++ B) = A ++ (L1 ++ x :: (S2 ++ B)) := by simp
    have i3 : A ++ (S1 ++ x :: (S2 ++ B)) = A ++ ((S1 ++ x :: S2) ++ B) := by simp
    have f1 : fuel + (m - 1) = fuel + m / 2 + (m - m / 2 - 1) := by omega
    have f2 : c + 1 + (m - m / 2 - 1) + m / 2 = c + m := by omega
    rw [i1, f1]
    rw [e2, i2, e1, i3, f2]

/-- Points of the line with distinct coordinates: whatever `std::nth_element` does within its
contract, the constructor builds a tree of minimal height, at most `⌊log₂ n⌋ + 1`.

Missing, since false of the code: in dimension two or more (`C163_bug_split`) and with repeated
coordinates (`C163_bug_repeated`). -/
theorem C163_height_partial (nth) (data : Nat → Nat → R) (h : Selects data nth) (n : Nat) (hn : 0 < n)
    (hd : ∀ i < n, ∀ j < n, data i 0 = data j 0 → i = j) :
    ∃ t : BT Nat, build nth data 1 n = some (.ok t) ∧ t.n = n ∧ MinimalHeight t.root.height n ∧
      2 ^ (t.root.height - 1) ≤ n := by
  obtain ⟨S', t, _, hm, e⟩ := seg_run nth data h n (List.range n) (by simp) List.nodup_range
    (fun x hx y hy => hd x (List.mem_range.1 hx) y (List.mem_range.1 hy)) [] [] [] 0 0 0 id (fun _ _ _ => rfl)
  refine ⟨⟨t, n⟩, ?_, rfl, hm, hm.2.1 hn⟩
  simp only [List.nil_append, List.append_nil, List.length_nil, Nat.zero_add, if_pos hn, id] at e
  unfold build
  have e0 : (⟨List.range n, [⟨0, n, 0⟩], 0, BT.empty⟩ : BSt) = ⟨List.range n, [⟨0, n, 0⟩], 0, ⟨.nil, 0⟩⟩ := rfl
  rw [e0, e]
  rfl

/-! ### Repeated points -/

/-- No node of the tree has a left child. -/
def RightSpine : BinTree.Tree Nat → Prop
  | .nil => True
  | .node l _ _ r => l = .nil ∧ RightSpine r

theorem spine_insert (lt : Nat → Nat → Nat → Bool) (hlt : ∀ x v d, lt x v d = false) (x : Nat)
    (t : BinTree.Tree Nat) : ∀ k, RightSpine t → RightSpine (insertBy lt x k t) := by
  induction t with
  | nil => intro k _; exact ⟨rfl, trivial⟩
  | node l v d r ihl ihr =>
    intro k h
    simp only [insertBy, hlt]
    exact ⟨h.1, ihr _ h.2⟩

theorem spine_height (t : BinTree.Tree Nat) (h : RightSpine t) : t.height = t.size := by
  induction t with
  | nil => rfl
  | node l v d r ihl ihr =>
    obtain ⟨rfl, hr⟩ := h
    simp only [height, BinTree.Tree.size, ihr hr]
    omega

theorem spine_loop (nth) (data : Nat → Nat → R) (K : Nat) (hlt : ∀ x v d, kdLt data K x v d = false) :
    ∀ (fuel : Nat) (s s' : BSt), RightSpine s.tree.root → buildLoop nth data K fuel s = some (.ok s') →
      RightSpine s'.tree.root := by
  intro fuel
  induction fuel with
  | zero =>
    intro s s' h e
    unfold buildLoop at e
    split at e
    · simp only [Option.some.injEq, Res.ok.injEq] at e; rw [← e]; exact h
    · simp at e
  | succ fuel ih =>
    intro s s' h e
    unfold buildLoop at e
    split at e
    · simp only [Option.some.injEq, Res.ok.injEq] at e; rw [← e]; exact h
    · split at e
      · rename_i s1 h1
        refine ih s1 s' ?_ e
        unfold buildStep at h1
        split at h1
        · simp only [Res.ok.injEq] at h1; rw [← h1]; exact h
        · dsimp only at h1
          split at h1
          · simp at h1
          · simp only [Res.ok.injEq] at h1
            rw [← h1]
            exact spine_insert _ hlt _ _ _ h
      · simp at e
      · simp at e

/-- The constructor documents a median split, whose trees have logarithmic height, but equal
coordinates are always inserted on the right: over `n` copies of one point, in any dimension, for any
`n` and whatever `std::nth_element` does, the tree is a list of height `n`, so that building it takes
a number of comparisons quadratic in `n` and walking down to a leaf visits all the points
(kd_tree.h:64-74). -/
theorem C163_bug_repeated (nth) (h : NthContract nth) (data : Nat → Nat → R) (K n : Nat) (hn : 0 < n)
    (hd : ∀ i j k, data i k = data j k) :
    ∃ t : BT Nat, build nth data K n = some (.ok t) ∧ t.n = n ∧ t.root.height = n := by
  obtain ⟨t, h1, h2, h3, h4⟩ := C16_build nth h data K n hn
  refine ⟨t, h1, h2, ?_⟩
  have hsp : RightSpine t.root := by
    unfold build at h1
    rw [Option.map_eq_some_iff] at h1
    obtain ⟨r, hr, hb⟩ := h1
    cases r with
    | ok s =>
      have := spine_loop nth data K (fun x v d => by simp [kdLt, hd x v]) n _ s (show RightSpine .nil from trivial) hr
      change Res.ok s.tree = .ok t at hb
      simp only [Res.ok.injEq] at hb
      rw [← hb]; exact this
    | throws => simp [Res.bind] at hb
    | ub => simp [Res.bind] at hb
  rw [spine_height _ hsp]
  have := (inorder_perm t.root).length_eq
  rw [preorder_length, h3.length_eq, List.length_range] at this
  exact this.symm

end

/-! ### Two coordinates -/

/-- A selection by sorting. -/
def sortNth {R : Type} [LinearOrder R] (data : Nat → Nat → R) (dim _k : Nat) (l : List Nat) : List Nat :=
  l.insertionSort (fun a b => data a dim ≤ data b dim)

theorem sortNth_selects {R : Type} [LinearOrder R] (data : Nat → Nat → R) : Selects data (sortNth data) := by
  have hs : ∀ dim (l : List Nat), (l.insertionSort (fun a b => data a dim ≤ data b dim)).Pairwise
      (fun a b => data a dim ≤ data b dim) := by
    intro dim l
    haveI : Std.Total (fun a b => data a dim ≤ data b dim) := ⟨fun a b => le_total _ _⟩
    haveI : IsTrans Nat (fun a b => data a dim ≤ data b dim) := ⟨fun a b c => le_trans⟩
    exact List.pairwise_insertionSort _ l
  have key : ∀ dim k (l : List Nat) m, (sortNth data dim k l)[k]? = some m →
      sortNth data dim k l = (sortNth data dim k l).take k ++ m :: (sortNth data dim k l).drop (k + 1) := by
    intro dim k l m hm
    obtain ⟨hk, hm⟩ := List.getElem?_eq_some_iff.1 hm
    rw [← hm, List.getElem_cons_drop, List.take_append_drop]
  refine ⟨fun dim k l => List.perm_insertionSort _ l, ?_, ?_⟩
  · intro dim k l m hm x hx
    have h1 := hs dim l
    rw [show l.insertionSort (fun a b => data a dim ≤ data b dim) = sortNth data dim k l from rfl,
      key dim k l m hm, List.pairwise_append] at h1
    exact h1.2.2 x hx m (by simp)
  · intro dim k l m hm x hx
    have h1 := hs dim l
    rw [show l.insertionSort (fun a b => data a dim ≤ data b dim) = sortNth data dim k l from rfl,
      key dim k l m hm, List.pairwise_append, List.pairwise_cons] at h1
    exact h1.2.1.1 x hx

/-- Twelve points of the plane, with distinct abscissae and distinct ordinates. -/
def splitPoints (i k : Nat) : Int :=
  if k = 0 then (i : Int) else [8, 1, 6, 10, 7, 0, 2, 5, 11, 9, 4, 3].getD i 0

/-- The direction of a split is the number of points already inserted modulo the dimension, while the
insertion compares with the direction given by the depth of the node: once the two differ the
selected point is not the median along the direction compared.  Twelve points of the plane with
distinct abscissae and distinct ordinates, for which trees of height 4 exist, get a tree of height 5
(kd_tree.h:62-74). -/
theorem C163_bug_split :
    (∀ i < 12, ∀ j < 12, ∀ k < 2, splitPoints i k = splitPoints j k → i = j) ∧
    Selects splitPoints (sortNth splitPoints) ∧
    (∃ t : BT Nat, build (sortNth splitPoints) splitPoints 2 12 = some (.ok t) ∧ t.root.height = 5) ∧
    MinimalHeight 4 12 := by
  refine ⟨by decide +kernel, sortNth_selects _, ?_, by unfold MinimalHeight; decide⟩
  have h : ((build (sortNth splitPoints) splitPoints 2 12).bind fun r => match r with
      | .ok t => some t.root.height | _ => none) = some 5 := by decide +kernel
  cases hb : build (sortNth splitPoints) splitPoints 2 12 with
  | none => rw [hb] at h; simp at h
  | some r =>
    rw [hb] at h
    cases r with
    | ok t => exact ⟨t, rfl, by simpa using h⟩
    | throws => simp at h
    | ub => simp at h

/-- Non-vacuity: seven points of the line given in any order get a tree of height 3. -/
example : ∃ t : BT Nat, build (sortNth fun i _ => ([4, 1, 6, 0, 5, 2, 3].getD i 0 : Int))
    (fun i _ => [4, 1, 6, 0, 5, 2, 3].getD i 0) 1 7 = some (.ok t) ∧ t.root.height = 3 := by
  obtain ⟨t, h1, _, h3, h4⟩ := C163_height_partial (R := Int) _ (fun i _ => [4, 1, 6, 0, 5, 2, 3].getD i 0)
    (sortNth_selects _) 7 (by norm_num) (by decide +kernel)
  refine ⟨t, h1, ?_⟩
  have a := h3.1
  by_contra hc
  rcases Nat.lt_or_ge t.root.height 3 with hlt | hge
  · have : 2 ^ t.root.height ≤ 2 ^ 2 := Nat.pow_le_pow_right (by omega) (by omega)
    omega
  · have : 2 ^ 3 ≤ 2 ^ (t.root.height - 1) := Nat.pow_le_pow_right (by omega) (by omega)
    omega

end Fdapde.KDTree
