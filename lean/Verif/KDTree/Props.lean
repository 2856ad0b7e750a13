import Verif.KDTree.Lemmas2
import Mathlib.Algebra.Order.Ring.Int
/- Properties C16, C17 of the kd-tree. -/
namespace Fdapde.KDTree
open BinTree BinTree.Tree

/-! ### Specification -/

/-- The point of index `i` lies in the box, bounds included. -/
def InBox {R : Type} [LinearOrder R] (data : Nat → Nat → R) (K : Nat) (q : Box R) (i : Nat) : Prop :=
  ∀ k < K, q.ll k ≤ data i k ∧ data i k ≤ q.ur k

/-! ### C16 -/
section
variable {R : Type} [LinearOrder R]

/-- The constructor terminates without undefined behaviour on any non-empty set of points, whatever
`std::nth_element` does within its contract (permuting the range), and the tree holds each index
exactly once. -/
theorem C16_build (nth) (h : NthContract nth) (data : Nat → Nat → R) (K n : Nat) (hn : 0 < n) :
    ∃ t : BT Nat, build nth data K n = some (.ok t) ∧ t.n = n ∧ t.root.inorder.Perm (List.range n) ∧
      DepthOK 0 t.root := by
  obtain ⟨t, h1, h2, h3, _, h5⟩ := build_spec nth h data K n hn
  refine ⟨t, h1, ?_, h2, h5⟩
  have := (inorder_perm t.root).length_eq
  rw [preorder_length, h2.length_eq, List.length_range] at this
  unfold BT.WF at h3; omega

/-- Range search on the tree built over any non-empty set of points in any dimension: the search
ends within `n` iterations, without undefined behaviour, and returns each index of a point of the
box exactly once and nothing else. -/
theorem C16_range_search (nth) (h : NthContract nth) (data : Nat → Nat → R) (K n : Nat) (hK : 0 < K)
    (hn : 0 < n) (q : Box R) :
    ∃ t out, build nth data K n = some (.ok t) ∧ rangeSearch data K q t n = some (.ok out) ∧ out.Nodup ∧
      ∀ i, i ∈ out ↔ i < n ∧ InBox data K q i := by
  obtain ⟨t, h1, h2, h3, h4, _⟩ := build_spec nth h data K n hn
  have hsz : t.root.size = n := by
    have := (inorder_perm t.root).length_eq
    rw [preorder_length, h2.length_eq, List.length_range] at this
    omega
  have hnn : t.root.isNil = false := by
    cases hr : t.root with
    | nil => rw [hr] at hsz; simp [size] at hsz; omega
    | node => rfl
  obtain ⟨out, ho1, ho2⟩ := range_loop data K hK q n [t.root] [] (by simpa [NonNil] using hnn)
    (by simpa using h4) (by simp [hsz])
  simp only [List.nil_append, List.flatMap_cons, List.flatMap_nil, List.append_nil] at ho2
  have hnd : (t.root.inorder.filter fun i => contained data q i 0 K).Nodup :=
    ((h2.nodup_iff).2 List.nodup_range).filter _
  refine ⟨t, out, h1, ho1, ho2.nodup_iff.2 hnd, ?_⟩
  intro i
  rw [ho2.mem_iff, List.mem_filter, h2.mem_iff, List.mem_range, contained_iff]
  simp [InBox]

/-- Range search works on every tree with the splitting property (not only freshly built ones). -/
theorem C16_range_search_tree (data : Nat → Nat → R) (K : Nat) (hK : 0 < K) (q : Box R) (t : BT Nat)
    (hk : KDInv data K t.root) (hne : t.root ≠ .nil) (fuel : Nat) (hf : t.root.size ≤ fuel) :
    ∃ out, rangeSearch data K q t fuel = some (.ok out) ∧
      ∀ i, i ∈ out ↔ i ∈ t.root.inorder ∧ InBox data K q i := by
  have hnn : t.root.isNil = false := by
    cases hr : t.root with
    | nil => exact absurd hr hne
    | node => rfl
  obtain ⟨out, ho1, ho2⟩ := range_loop data K hK q fuel [t.root] [] (by simpa [NonNil] using hnn)
    (by simpa using hk) (by simpa using hf)
  refine ⟨out, ho1, ?_⟩
  intro i
  simp only [List.nil_append, List.flatMap_cons, List.flatMap_nil, List.append_nil] at ho2
  rw [ho2.mem_iff, List.mem_filter, contained_iff]
  simp [InBox]

/-- The contract of `nth_element` is satisfied by an actual rearrangement. -/
example : NthContract (fun _ _ l => l.reverse) := fun _ _ _ => List.reverse_perm _

/-- An empty set of points: the constructor reads past the end of the index vector. -/
theorem C16_bug_empty_build (nth) (h : NthContract nth) (data : Nat → Nat → R) (K fuel : Nat) :
    buildLoop nth data K (fuel + 1) ⟨List.range 0, [⟨0, 0, 0⟩], 0, BT.empty⟩ = some .ub := by
  have e : nth 0 0 [] = [] := by simpa using (h 0 0 []).length_eq
  simp [buildLoop, buildStep, nthRange, e]

/-- A default-constructed tree: range search dereferences a null iterator. -/
theorem C16_bug_empty_search (data : Nat → Nat → R) (K : Nat) (q : Box R) (fuel : Nat) :
    rangeSearch data K q BT.empty (fuel + 1) = some .ub := rfl

end

/-- A concrete run: 5 points of the plane, the box [1,4]×[1,4] contains points 1 and 3. -/
def exData : Nat → Nat → Int := fun i k => ([[0, 5], [2, 3], [9, 1], [4, 4], [7, 7]].getD i []).getD k 0
example : (build (fun _ _ l => l) exData 2 5).bind (fun r => match r with
    | .ok t => rangeSearch exData 2 ⟨fun _ => 1, fun _ => 4⟩ t 5
    | _ => none) = some (.ok [1, 3]) := by decide +kernel

/-! ### C17 -/
section
variable {R : Type} [CommRing R] [LinearOrder R] [IsStrictOrderedRing R]

/-- If `nn_search` returns, it returns a point of the tree which is at least as near as all the points
met on the descent towards `p`.  Missing from C17: minimality over all points and absence of null
dereferences, refuted by `C17_bug_wrong` and `C17_bug_null`. -/
theorem C17_best_on_path_partial (data : Nat → Nat → R) (K : Nat) (p : Nat → R) (t : BT Nat) (hw : t.WF)
    (hn : t.n ≠ 0) (fuel : Nat) (res : Option Nat) (h : nnSearch data K p t fuel = some (.ok res)) :
    ∃ i, res = some i ∧ i ∈ t.root.inorder ∧ ∀ j ∈ path data K p t.root, sqDist data K p i ≤ sqDist data K p j := by
  rw [nnSearch, if_neg hn] at h
  cases hwd : walkDown data K p t.root [] with
  | throws => rw [hwd] at h; simp at h
  | ub => rw [hwd] at h; simp at h
  | ok st =>
    rw [hwd] at h
    obtain ⟨P, h1, h2, h3, h4, _⟩ := walkDown_spec data K p _ _ _ hwd
    rw [List.append_nil] at h1
    subst h1
    rcases nn_loop_spec data K p fuel st none res (by simp) h with ⟨he, _⟩ | ⟨i, hi1, hi2, _, hi4⟩
    · subst he
      have := h2.length_eq
      unfold BT.WF at hw
      cases hr : t.root with
      | nil => rw [hr] at hw; exact absurd hw hn
      | node => rw [hr] at this; simp [path] at this
    · refine ⟨i, hi1, ?_, ?_⟩
      · rcases hi4 with ⟨b, hb, _⟩ | hi4
        · cases hb
        · obtain ⟨u, hu, hx⟩ := List.mem_flatMap.1 hi4
          exact h4 u hu i hx
      · intro j hj
        exact hi2 j (h2.mem_iff.2 hj)

/-- In dimension one the search, if it returns, does return a nearest point (the descent meets one). -/
theorem C17_dim_one_partial (data : Nat → Nat → R) (p : Nat → R) (t : BT Nat) (hw : t.WF)
    (hk : KDInv data 1 t.root) (hn : t.n ≠ 0) (fuel : Nat) (res : Option Nat)
    (h : nnSearch data 1 p t fuel = some (.ok res)) :
    ∃ i, res = some i ∧ i ∈ t.root.inorder ∧ ∀ j ∈ t.root.inorder, sqDist data 1 p i ≤ sqDist data 1 p j := by
  obtain ⟨i, h1, h2, h3⟩ := C17_best_on_path_partial data 1 p t hw hn fuel res h
  refine ⟨i, h1, h2, fun j hj => ?_⟩
  obtain ⟨z, hz, hzl⟩ := path_nearest1 data p t.root hk j hj
  exact le_trans (h3 z hz) hzl

/-- In any dimension a query equal to a data point returns a point at distance zero, if the search
returns. -/
theorem C17_exact_partial (data : Nat → Nat → R) (K : Nat) (hK : 0 < K) (p : Nat → R) (t : BT Nat) (hw : t.WF)
    (hk : KDInv data K t.root) (hn : t.n ≠ 0) (x : Nat) (hx : x ∈ t.root.inorder) (hp : ∀ k < K, p k = data x k)
    (fuel : Nat) (res : Option Nat) (h : nnSearch data K p t fuel = some (.ok res)) :
    ∃ i, res = some i ∧ i ∈ t.root.inorder ∧ ∀ k < K, data i k = p k := by
  obtain ⟨i, h1, h2, h3⟩ := C17_best_on_path_partial data K p t hw hn fuel res h
  refine ⟨i, h1, h2, ?_⟩
  have hz : sqDist data K p x = 0 := by
    apply Finset.sum_eq_zero
    intro k hk'
    rw [← hp k (Finset.mem_range.1 hk')]; ring
  have hle := h3 x (path_exact data K hK p t.root hk x hp hx)
  rw [hz] at hle
  have h0 : sqDist data K p i = 0 := le_antisymm hle (sqDist_nonneg _ _ _ _)
  intro k hk'
  have := (Finset.sum_eq_zero_iff_of_nonneg (fun k _ => mul_self_nonneg (data i k - p k))).1 h0 k
    (Finset.mem_range.2 hk')
  exact sub_eq_zero.1 (mul_self_eq_zero.1 this)

/-- The search terminates without null dereference when every node of the tree has zero or two
children.  Missing from C17: all other trees, see `C17_bug_null`. -/
theorem C17_no_ub_partial (data : Nat → Nat → R) (K : Nat) (p : Nat → R) (t : BT Nat) (hf : Full t.root) :
    ∃ fuel res, nnSearch data K p t fuel = some (.ok res) := by
  refine ⟨tw t.root, ?_⟩
  unfold nnSearch
  split
  · exact ⟨none, rfl⟩
  · obtain ⟨st, hw⟩ := walkDown_full data K p t.root hf []
    obtain ⟨P, h1, _, h3, _, h5, h6⟩ := walkDown_spec data K p _ _ _ hw
    rw [List.append_nil] at h1
    subst h1
    rw [hw]
    exact nn_loop_full data K p _ st none h3 (h6 hf) h5

end

/-- Two points on a line, query on the far right: the descent steps to a missing child and asks for
its children. -/
theorem C17_bug_null : (build (fun _ _ l => l) (fun i _ => (i : Int)) 1 2).bind (fun r => match r with
    | .ok t => nnSearch (fun i _ => (i : Int)) 1 (fun _ => 2) t 10
    | _ => none) = some .ub := by decide +kernel

/-- Three points of the plane, see `C17_bug_wrong`. -/
def wrongData : Nat → Nat → Int := fun i k => ([[80, 0], [100, 100], [120, 2000]].getD i []).getD k 0

/-- The unwinding looks again on the side already visited: for the query (101, 0) the point (100, 100)
at squared distance 10001 is returned although (80, 0) is at squared distance 441. -/
theorem C17_bug_wrong : (build (fun _ _ l => l) wrongData 2 3).bind (fun r => match r with
    | .ok t => nnSearch wrongData 2 (fun k => if k = 0 then 101 else 0) t 20
    | _ => none) = some (.ok (some 1)) ∧
    sqDist wrongData 2 (fun k => if k = 0 then 101 else 0) 0 < sqDist wrongData 2 (fun k => if k = 0 then 101 else 0) 1 := by
  decide +kernel

/-- The hypotheses of the partial theorems hold for an actual tree: the one just built. -/
example : ∃ t, build (fun _ _ l => l) wrongData 2 3 = some (.ok t) ∧ Full t.root ∧ t.WF ∧
    KDInv wrongData 2 t.root := by
  refine ⟨⟨node (node nil 0 1 nil) 1 0 (node nil 2 1 nil), 3⟩, by decide +kernel, ?_, rfl, ?_⟩
  · simp [Full, isNil]
  · simp [KDInv, inorder, wrongData]

end Fdapde.KDTree
