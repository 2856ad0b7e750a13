import Verif.Triang.IterBack
import Verif.BinMtx.Lemmas
/- C115: iterators of meshes moved backwards and by more than one position, iteration over all faces of a 3D mesh. -/
namespace Fdapde.Triang
open BinMtx

theorem entity_ok {n : Nat} {i : Nat} (h : i < n) : entity n (i : Int) = .ok i := by
  unfold entity
  rw [if_pos (by omega)]
  simp

theorem entity_ub {n : Nat} {i : Int} (h : ¬ (0 ≤ i ∧ i < n)) : entity n i = .ub := by
  unfold entity
  rw [if_neg h]

/-- C115 (cells): the iterators over cells start at cell 0 and end past the last cell. -/
theorem C115_cells_ends (n : Nat) :
    (0 < n → cellAt n 0 = .ok ⟨0, some 0⟩) ∧ cellAt n n = .ok ⟨n, none⟩ := by
  constructor
  · intro h
    unfold cellAt
    rw [if_pos (by omega), show (0 : Int) = ((0 : Nat) : Int) from rfl, entity_ok h]
    rfl
  · unfold cellAt
    rw [if_neg (by omega)]

/-- C115 (cells): an iterator at cell `k` that is not the last one goes to cell `k + 1` and back, the one past the end goes back
to the last cell. -/
theorem C115_cells_steps (n k : Nat) (v : Option Nat) :
    (k + 1 < n → It.inc n ⟨k, v⟩ = .ok ⟨((k + 1 : Nat) : Int), some (k + 1)⟩) ∧
    (k < n → It.dec n ⟨((k + 1 : Nat) : Int), v⟩ = .ok ⟨k, some k⟩) := by
  constructor
  · intro h
    unfold It.inc
    have e : (k : Int) + 1 = ((k + 1 : Nat) : Int) := by omega
    simp only [e]
    rw [if_pos (by omega), entity_ok h]
    rfl
  · intro h
    unfold It.dec
    have e : ((k + 1 : Nat) : Int) - 1 = (k : Int) := by omega
    simp only [e]
    rw [if_pos (by omega), entity_ok h]
    rfl

/-- Positions of an iterator moved forwards (`true`) and backwards (`false`). -/
def positions : Int → List Bool → List Int
  | i, [] => [i]
  | i, b :: l => i :: positions (if b then i + 1 else i - 1) l

/-- The moves. -/
def moveCells (n : Nat) : List Bool → It → Res It
  | [], it => .ok it
  | b :: l, it => Res.bind (if b then It.inc n it else It.dec n it) (moveCells n l)

/-- C115 (cells): an iterator moved forwards and backwards in any order, as long as it stays between the position before the first cell and the one
past the last, is where the moves bring it, and at a cell it holds that cell. -/
theorem C115_cells_history (n : Nat) : ∀ (moves : List Bool) (i : Int) (v : Option Nat), (0 ≤ i → i < n → v = some i.toNat) →
    (∀ p ∈ positions i moves, -1 ≤ p ∧ p ≤ n) →
    ∃ w, moveCells n moves ⟨i, v⟩ = .ok ⟨i + moves.count true - moves.count false, w⟩ ∧
      (0 ≤ i + moves.count true - moves.count false → i + (moves.count true : Int) - moves.count false < n →
        w = some (i + moves.count true - moves.count false).toNat) := by
  intro moves
  induction moves with
  | nil =>
    intro i v hv _
    refine ⟨v, by simp [moveCells], fun h0 h1 => ?_⟩
    simp only [List.count_nil, Nat.cast_zero, add_zero, sub_zero] at h0 h1 ⊢
    exact hv h0 h1
  | cons b l ih =>
    intro i v hv hp
    have h0 := hp i (by simp [positions])
    have hl : ∀ p ∈ positions (if b then i + 1 else i - 1) l, -1 ≤ p ∧ p ≤ n := fun p h => hp p (by simp [positions, h])
    have h1 : -1 ≤ (if b then i + 1 else i - 1) ∧ (if b then i + 1 else i - 1) ≤ n := hl _ (by cases l <;> simp [positions])
    cases b with
    | true =>
      simp only [if_true] at hl h1
      have step : ∃ w, It.inc n ⟨i, v⟩ = .ok ⟨i + 1, w⟩ ∧ (0 ≤ i + 1 → i + 1 < n → w = some (i + 1).toNat) := by
        by_cases h : i + 1 < n
        · obtain ⟨k, hk⟩ : ∃ k : Nat, i + 1 = k := ⟨(i + 1).toNat, by omega⟩
          refine ⟨some k, ?_, fun _ _ => by rw [hk]; rfl⟩
          unfold It.inc
          simp only [hk]
          rw [if_pos (by omega), entity_ok (by omega)]
          rfl
        · exact ⟨v, by unfold It.inc; rw [if_neg (by simpa using h)], fun _ h' => absurd h' h⟩
      obtain ⟨w, e, hw⟩ := step
      obtain ⟨w', e', hw'⟩ := ih (i + 1) w hw hl
      have ec : i + 1 + (l.count true : Int) - l.count false = i + ((true :: l).count true : Int) - (true :: l).count false := by
        simp; ring
      rw [ec] at e' hw'
      exact ⟨w', by rw [moveCells, if_pos rfl, e]; exact e', hw'⟩
    | false =>
      simp only [Bool.false_eq_true, if_false] at hl h1
      have step : ∃ w, It.dec n ⟨i, v⟩ = .ok ⟨i - 1, w⟩ ∧ (0 ≤ i - 1 → i - 1 < n → w = some (i - 1).toNat) := by
        by_cases h : 0 ≤ i - 1
        · obtain ⟨k, hk⟩ : ∃ k : Nat, i - 1 = k := ⟨(i - 1).toNat, by omega⟩
          refine ⟨some k, ?_, fun _ _ => by rw [hk]; rfl⟩
          unfold It.dec
          simp only [hk]
          rw [if_pos (by omega), entity_ok (by omega)]
          rfl
        · exact ⟨v, by unfold It.dec; rw [if_neg (by simpa using h)], fun h' _ => absurd h' h⟩
      obtain ⟨w, e, hw⟩ := step
      obtain ⟨w', e', hw'⟩ := ih (i - 1) w hw hl
      have ec : i - 1 + (l.count true : Int) - l.count false = i + ((false :: l).count true : Int) - (false :: l).count false := by
        simp; ring
      rw [ec] at e' hw'
      exact ⟨w', by rw [moveCells, if_neg (by simp), e]; exact e', hw'⟩

example : moveCells 3 [false, false, true, true, true] ⟨1, some 1⟩ = .ok ⟨2, some 2⟩ := by decide

theorem backward_cells (n : Nat) : ∀ k v f, k ≤ n → k < f →
    backward (It.dec n) 0 f ⟨k, v⟩ = some (.ok (List.range k).reverse) := by
  intro k
  induction k with
  | zero =>
    intro v f _ hf
    obtain ⟨f, rfl⟩ : ∃ g, f = g + 1 := ⟨f - 1, by omega⟩
    rfl
  | succ k ih =>
    intro v f hk hf
    obtain ⟨f, rfl⟩ : ∃ g, f = g + 1 := ⟨f - 1, by omega⟩
    unfold backward
    rw [if_neg (by simp only; omega), (C115_cells_steps n k v).2 (by omega)]
    simp only [It.deref, Res.ofOptionUB]
    rw [ih _ f (by omega) (by omega), List.range_succ, List.reverse_append]
    rfl

/-- C115 (cells): going from the end of the cells of a mesh of any size to the beginning visits every cell once, in
decreasing order. -/
theorem C115_cells_backward (n : Nat) :
    backward (It.dec n) 0 (n + 1) ⟨n, none⟩ = some (.ok (List.range n).reverse) :=
  backward_cells n n none (n + 1) (Nat.le_refl n) (Nat.lt_succ_self n)

example : backward (It.dec 3) 0 4 ⟨3, none⟩ = some (.ok [2, 1, 0]) := by decide

theorem forward_cells (n : Nat) : ∀ k i f, i + k = n → 0 < k → k < f →
    forward (It.inc n) n f ⟨i, some i⟩ = some (.ok (List.range' i k)) := by
  intro k
  induction k with
  | zero => intro i f _ h; omega
  | succ k ih =>
    intro i f hi _ hf
    obtain ⟨f, rfl⟩ : ∃ g, f = g + 1 := ⟨f - 1, by omega⟩
    rw [forward, if_neg (by show ¬ (i : Int) = n; omega)]
    simp only [It.deref, Res.ofOptionUB]
    by_cases hk : k = 0
    · subst hk
      have e : It.inc n ⟨i, some i⟩ = .ok ⟨n, some i⟩ := by
        unfold It.inc
        rw [if_neg (by show ¬ (i : Int) + 1 < n; omega)]
        simp only [Res.ok.injEq, It.mk.injEq, and_true]
        omega
      rw [e]
      obtain ⟨f, rfl⟩ : ∃ g, f = g + 1 := ⟨f - 1, by omega⟩
      simp [forward, List.range'_succ]
    · rw [(C115_cells_steps n i (some i)).1 (by omega)]
      simp only
      rw [ih (i + 1) f (by omega) (by omega) (by omega)]
      simp [List.range'_succ]

/-- C115 (cells): walking forward from the first cell visits every cell once, in order, and stops at the end. -/
theorem C115_cells_forward (n : Nat) (hn : 0 < n) :
    ∃ b e, cellAt n 0 = .ok b ∧ cellAt n n = .ok e ∧ forward (It.inc n) e.index (n + 1) b = some (.ok (List.range n)) := by
  refine ⟨_, _, (C115_cells_ends n).1 hn, (C115_cells_ends n).2, ?_⟩
  have := forward_cells n n 0 (n + 1) (by omega) hn (by omega)
  rw [← List.range_eq_range'] at this
  exact this

/-- C115 (cells): `it + i` refers to the `i`-th cell after `it`, `it - i` to the `i`-th cell before it, if there is such a
cell, and are undefined otherwise. -/
theorem C115_cells_jump (n k : Nat) (v : Option Nat) (i : Nat) :
    It.plus n ⟨k, v⟩ i = (if k + i < n then .ok ⟨((k + i : Nat) : Int), some (k + i)⟩ else .ub) ∧
    (k < n → It.minus n ⟨k, v⟩ i = (if i ≤ k then .ok ⟨((k - i : Nat) : Int), some (k - i)⟩ else .ub)) := by
  constructor
  · unfold It.plus
    have e : (k : Int) + i = ((k + i : Nat) : Int) := by omega
    simp only [e]
    split
    · rename_i h
      rw [entity_ok h]; rfl
    · rw [entity_ub (by omega)]; rfl
  · intro hk
    unfold It.minus
    split
    · rename_i h
      have e : (k : Int) - i = ((k - i : Nat) : Int) := by omega
      simp only [e]
      rw [entity_ok (by omega)]; rfl
    · rw [entity_ub (by simp only; omega)]; rfl

example : It.plus 5 ⟨1, some 1⟩ 3 = .ok ⟨4, some 4⟩ ∧ It.minus 5 ⟨4, some 4⟩ 3 = .ok ⟨1, some 1⟩ := by decide

/-- C115 (finding): evaluating `it + 1` moves `it` itself: on every mesh with at least two cells, `it` refers to cell 1 after
`auto it = cells_begin(); it + 1;`.  The end of the cells cannot be written as `cells_begin() + n_cells()`: this builds
the view of a cell that does not exist. -/
theorem C115_bug_plus (n : Nat) (hn : 2 ≤ n) :
    It.plus n ⟨0, some 0⟩ 1 = .ok ⟨1, some 1⟩ ∧ It.plus n ⟨0, some 0⟩ n = .ub ∧ cellAt n n = .ok ⟨n, none⟩ := by
  refine ⟨?_, ?_, (C115_cells_ends n).2⟩
  · have := (C115_cells_jump n 0 (some 0) 1).1
    rw [if_pos (by omega)] at this
    exact this
  · have := (C115_cells_jump n 0 (some 0) n).1
    rw [if_neg (by omega)] at this
    exact this

/-! ### 3D -/

/-- Reading the vector of ones of size `m`: true up to the end of the last pack. -/
theorem read_ones (m i : Nat) : (BMat.ones m 1).read (i : Int) 0 = if i < 64 * packs m then .ok true else .ub := by
  have hlen : (BMat.ones m 1).data.length = packs m := by simp [BMat.ones]
  have hc : (BMat.ones m 1).cols = 1 := rfl
  split
  · rename_i h
    have h0 := read_nat (BMat.ones m 1) i 0 (by rw [hlen, hc]; omega)
    rw [show ((0 : Nat) : Int) = 0 from rfl] at h0
    rw [h0, hc]
    congr 1
    rw [storeBit_getElem _ _ (by rw [hlen]; omega)]
    simp only [BMat.ones, List.getElem_replicate]
    rw [BitVec.getLsbD_not]
    simp only [BitVec.getLsbD_zero, Bool.not_false, Bool.and_true, decide_eq_true_eq]
    exact Nat.mod_lt _ (by omega)
  · rename_i h
    unfold BMat.read
    rw [hc, show (0 : Int) = ((0 : Nat) : Int) from rfl, packOf_nat, getWord_nat, List.getElem?_eq_none (by rw [hlen]; omega)]
    rfl

/-- One increment where the filter is true. -/
theorem next_true {filter : BMat} {n i : Nat} {v : Option Nat} (hi : i < n) (h : filter.read (i : Int) 0 = .ok true) :
    It.next filter n ⟨i, v⟩ = .ok ⟨((i + 1 : Nat) : Int), some i⟩ := by
  unfold It.next
  obtain ⟨m, hm⟩ : ∃ m, ((n : Int) - (i : Int)).toNat = m + 1 := ⟨n - i - 1, by omega⟩
  simp only [hm]
  unfold skipUp
  rw [if_pos (by omega), h]
  simp only [Res.ok_bind, if_true]
  unfold land
  rw [if_neg (by omega), entity_ok hi]
  rfl

theorem next_ub {filter : BMat} {n i : Nat} {v : Option Nat} (hi : i < n) (h : filter.read (i : Int) 0 = .ub) :
    It.next filter n ⟨i, v⟩ = .ub := by
  unfold It.next
  obtain ⟨m, hm⟩ : ∃ m, ((n : Int) - (i : Int)).toNat = m + 1 := ⟨n - i - 1, by omega⟩
  simp only [hm]
  unfold skipUp
  rw [if_pos (by omega), h]
  rfl

theorem next_end {filter : BMat} {n : Nat} {v : Option Nat} : It.next filter n ⟨n, v⟩ = .ok ⟨n, v⟩ := by
  unfold It.next
  simp only [Int.sub_self, Int.toNat_zero, skipUp, Res.ok_bind, land, if_true]

theorem forward_ones (m n : Nat) : ∀ k i f, i + k = n → k < f → 0 < i →
    forward (It.next (BMat.ones m 1) n) n f ⟨i, some (i - 1)⟩ =
      if n ≤ 64 * packs m ∨ k = 0 then some (.ok (List.range' (i - 1) k)) else some .ub := by
  intro k
  induction k with
  | zero =>
    intro i f hi hf _
    obtain ⟨f, rfl⟩ : ∃ g, f = g + 1 := ⟨f - 1, by omega⟩
    unfold forward
    rw [if_pos (by simp only; omega), if_pos (Or.inr rfl)]
    rfl
  | succ k ih =>
    intro i f hi hf h0
    obtain ⟨f, rfl⟩ : ∃ g, f = g + 1 := ⟨f - 1, by omega⟩
    unfold forward
    rw [if_neg (by simp only; omega)]
    simp only [It.deref, Res.ofOptionUB]
    by_cases hr : i < 64 * packs m
    · rw [next_true (by omega) (by rw [read_ones, if_pos hr])]
      simp only
      have := ih (i + 1) f (by omega) (by omega) (by omega)
      rw [Nat.add_sub_cancel] at this
      rw [this]
      by_cases hn : n ≤ 64 * packs m
      · rw [if_pos (Or.inl hn), if_pos (Or.inl hn)]
        have : i - 1 + 1 = i := by omega
        simp [List.range'_succ, this]
      · by_cases hk : k = 0
        · omega
        · rw [if_neg (by omega), if_neg (by omega)]
          rfl
    · rw [next_ub (by omega) (by rw [read_ones, if_neg hr]), if_neg (by omega)]

theorem all3_ones (m n : Nat) (hm : 0 < n) :
    all3 (BMat.ones m 1) n = if n ≤ 64 * packs m then some (.ok (List.range (n - 1))) else some .ub := by
  have h0 : at3 (BMat.ones m 1) n 0 = .ok ⟨((0 + 1 : Nat) : Int), some 0⟩ := by
    have hp : 0 < packs m := by unfold packs; omega
    exact next_true (filter := BMat.ones m 1) (i := 0) hm (by rw [read_ones, if_pos (by omega)])
  have h1 : at3 (BMat.ones m 1) n n = .ok ⟨n, none⟩ := next_end
  unfold all3
  rw [h0, h1]
  simp only
  have := forward_ones m n (n - 1) 1 (n + 2) (by omega) (by omega) (by omega)
  rw [show (1 : Nat) - 1 = 0 from rfl] at this
  rw [show 0 + 1 = 1 from rfl, this]
  by_cases h : n ≤ 64 * packs m
  · rw [if_pos (Or.inl h), if_pos h, List.range_eq_range']
  · have : n - 1 ≠ 0 := by unfold packs at h; omega
    rw [if_neg (by omega), if_neg h]

/-- C115 (proved part): iterating over the edges of a 3D mesh, and over its faces as long as the bits stored for the edges
suffice, visits every one of them but the last, once and in order. -/
theorem C115_all_partial (nFaces nEdges : Nat) (hf : 0 < nFaces) (he : 0 < nEdges)
    (h : nFaces ≤ 64 * (1 + nEdges / 64)) :
    allEdges nEdges = some (.ok (List.range (nEdges - 1))) ∧ allFaces nFaces nEdges = some (.ok (List.range (nFaces - 1))) := by
  constructor
  · unfold allEdges
    rw [all3_ones _ _ he, if_pos (by unfold packs; omega)]
  · unfold allFaces
    rw [all3_ones _ _ hf, if_pos (by unfold packs; exact h)]

example : allEdges 6 = some (.ok [0, 1, 2, 3, 4]) ∧ allFaces 4 6 = some (.ok [0, 1, 2]) :=
  C115_all_partial 4 6 (by decide) (by decide) (by decide)

/-- C115 (finding): the iterator over all the faces of a 3D mesh filters them with a vector that has one bit for each edge.
On every mesh that has more faces than bits are stored for its edges the iteration reads past the end of this vector
(a fine mesh of a solid has about twelve faces for every seven edges). -/
theorem C115_bug_faces (nFaces nEdges : Nat) (h : 64 * (1 + nEdges / 64) < nFaces) : allFaces nFaces nEdges = some .ub := by
  unfold allFaces
  rw [all3_ones _ _ (by omega), if_neg (by unfold packs; omega)]

/-- The subdivision of a cube in 4 x 4 x 4 cubes of six tetrahedra each has 384 cells, 864 faces and 604 edges. -/
example : 64 * (1 + 604 / 64) < 864 := by decide

/-- C115 (finding): decrementing the iterator past the last edge builds the view of an edge that does not exist, on every 3D
mesh. -/
theorem C115_bug_edges_end (n : Nat) : at3 (BMat.ones n 1) n n >>= It.prev (BMat.ones n 1) n = .ub := by
  have h1 : at3 (BMat.ones n 1) n n = .ok ⟨n, none⟩ := next_end
  rw [h1]
  simp only [Res.ok_bind]
  unfold It.prev
  have hm : ((n : Int) + 1).toNat = n + 1 := by omega
  simp only [hm]
  unfold skipDown
  rw [if_pos (by omega), read_ones, if_pos (size_lt_packs n)]
  simp only [Res.ok_bind, if_true]
  unfold landBack
  rw [if_neg (by omega), entity_ub (by omega)]
  rfl

/-- C115 (finding): decrementing does not undo incrementing.  When the iterator refers to `i` and the next entity that passes the
filter is `j`, then after `++it; --it;` it refers to `j` or to `j + 1`, if the two operations are defined at all. -/
theorem C115_bug_decrement (filter : BMat) (n i j : Nat) (hij : i < j) (hj : j < n)
    (hskip : ∀ k : Nat, i < k → k < j → filter.read (k : Int) 0 = .ok false) (hfj : filter.read (j : Int) 0 = .ok true) (it : It)
    (h : It.next filter n ⟨((i + 1 : Nat) : Int), some i⟩ >>= It.prev filter n = .ok it) :
    it.val = some j ∨ it.val = some (j + 1) := by
  have hup : ∀ m k : Nat, i < k → k + m = j → ∀ f, m < f → skipUp filter n f (k : Int) = .ok (j : Int) := by
    intro m
    induction m with
    | zero =>
      intro k _ hk f hf
      obtain ⟨f, rfl⟩ : ∃ g, f = g + 1 := ⟨f - 1, by omega⟩
      have : k = j := by omega
      subst this
      unfold skipUp
      rw [if_pos (by omega), hfj]
      rfl
    | succ m ih =>
      intro k hik hk f hf
      obtain ⟨f, rfl⟩ : ∃ g, f = g + 1 := ⟨f - 1, by omega⟩
      unfold skipUp
      rw [if_pos (by omega), hskip k hik (by omega)]
      have e : (k : Int) + 1 = ((k + 1 : Nat) : Int) := by omega
      simp only [Res.ok_bind, Bool.false_eq_true, if_false, e]
      exact ih (k + 1) (by omega) (by omega) f (by omega)
  have hnext : It.next filter n ⟨((i + 1 : Nat) : Int), some i⟩ = .ok ⟨((j + 1 : Nat) : Int), some j⟩ := by
    unfold It.next
    simp only
    rw [hup (j - (i + 1)) (i + 1) (by omega) (by omega) _ (by omega)]
    simp only [Res.ok_bind]
    unfold land
    rw [if_neg (by omega), entity_ok hj]
    rfl
  rw [hnext] at h
  simp only [Res.ok_bind] at h
  unfold It.prev at h
  have hm : (((j + 1 : Nat) : Int) + 1).toNat = j + 1 + 1 := by omega
  simp only [hm] at h
  unfold skipDown at h
  rw [if_pos (by omega)] at h
  cases hr : filter.read ((j + 1 : Nat) : Int) 0 with
  | ub => rw [hr] at h; simp at h
  | throws => rw [hr] at h; simp at h
  | ok b =>
    rw [hr] at h
    simp only [Res.ok_bind] at h
    cases b with
    | true =>
      simp only [if_true, Res.ok_bind] at h
      unfold landBack at h
      rw [if_neg (by omega)] at h
      by_cases hl : j + 1 < n
      · rw [entity_ok hl] at h
        simp only [Res.map_ok, Res.ok.injEq] at h
        exact Or.inr (by rw [← h])
      · rw [entity_ub (by omega)] at h
        simp at h
    | false =>
      have e : ((j + 1 : Nat) : Int) - 1 = (j : Int) := by omega
      simp only [Bool.false_eq_true, if_false, e] at h
      unfold skipDown at h
      rw [if_pos (by omega), hfj] at h
      simp only [Res.ok_bind, if_true] at h
      unfold landBack at h
      rw [if_neg (by omega), entity_ok hj] at h
      simp only [Res.map_ok, Res.ok.injEq] at h
      exact Or.inl (by rw [← h])

/-- Four marked faces, as of a tetrahedron. -/
def fourOnes : BMat := ⟨4, 1, 1, [15#64]⟩

example : BMat.ofRangeVec [true, true, true, true] 4 = .ok fourOnes := by decide

example : It.next fourOnes 4 ⟨1, some 0⟩ >>= It.prev fourOnes 4 = .ok ⟨1, some 2⟩ := by decide

theorem prev_true {filter : BMat} {n i : Nat} {v : Option Nat} (hi : i < n) (h : filter.read (i : Int) 0 = .ok true) :
    It.prev filter n ⟨i, v⟩ = .ok ⟨(i : Int) - 1, some i⟩ := by
  unfold It.prev
  have hm : ((i : Int) + 1).toNat = i + 1 := by omega
  simp only [hm]
  unfold skipDown
  rw [if_pos (by omega), h]
  simp only [Res.ok_bind, if_true]
  unfold landBack
  rw [if_neg (by omega), entity_ok hi]
  rfl

/-- C115 (finding): when all the faces are on the boundary (as those of one tetrahedron), going back from the end of the boundary
faces to their beginning misses faces 0 and 1. -/
theorem C115_bug_backward (filter : BMat) (n : Nat) (hn : 3 ≤ n) (ht : ∀ k : Nat, k < n → filter.read (k : Int) 0 = .ok true)
    (hpad : filter.read (n : Int) 0 = .ok false) :
    ∃ b e, at3 filter n 0 = .ok b ∧ at3 filter n n = .ok e ∧
      backward (It.prev filter n) b.index (n + 1) e = some (.ok (List.range' 2 (n - 2)).reverse) := by
  have h0 : at3 filter n 0 = .ok ⟨((0 + 1 : Nat) : Int), some 0⟩ := next_true (i := 0) (by omega) (ht 0 (by omega))
  have h1 : at3 filter n n = .ok ⟨n, none⟩ := next_end
  refine ⟨_, _, h0, h1, ?_⟩
  have loop : ∀ k f v, k + 1 < n → k < f →
      backward (It.prev filter n) ((0 + 1 : Nat) : Int) f ⟨((k + 1 : Nat) : Int), v⟩ = some (.ok (List.range' 2 k).reverse) := by
    intro k
    induction k with
    | zero =>
      intro f v _ hf
      obtain ⟨f, rfl⟩ : ∃ g, f = g + 1 := ⟨f - 1, by omega⟩
      rfl
    | succ k ih =>
      intro f v hk hf
      obtain ⟨f, rfl⟩ : ∃ g, f = g + 1 := ⟨f - 1, by omega⟩
      unfold backward
      rw [if_neg (by simp only; omega), prev_true (by omega) (ht _ (by omega))]
      simp only [It.deref, Res.ofOptionUB]
      have e : ((k + 1 + 1 : Nat) : Int) - 1 = ((k + 1 : Nat) : Int) := by omega
      rw [e, ih f _ (by omega) (by omega), List.range'_concat, List.reverse_append]
      simp
      omega
  unfold backward
  rw [if_neg (by simp only; omega)]
  have hp : It.prev filter n ⟨n, none⟩ = .ok ⟨(((n - 3) + 1 : Nat) : Int), some (n - 1)⟩ := by
    unfold It.prev
    have hm : ((n : Int) + 1).toNat = (n - 1) + 1 + 1 := by omega
    simp only [hm]
    unfold skipDown
    rw [if_pos (by omega), hpad]
    have e : (n : Int) - 1 = ((n - 1 : Nat) : Int) := by omega
    simp only [Res.ok_bind, Bool.false_eq_true, if_false, e]
    unfold skipDown
    rw [if_pos (by omega), ht _ (by omega)]
    simp only [Res.ok_bind, if_true]
    unfold landBack
    rw [if_neg (by omega), entity_ok (by omega)]
    have e2 : ((n - 1 : Nat) : Int) - 1 = (((n - 3) + 1 : Nat) : Int) := by omega
    simp only [Res.map_ok, e2]
  rw [hp]
  simp only [It.deref, Res.ofOptionUB]
  rw [loop (n - 3) n _ (by omega) (by omega)]
  have : n - 2 = (n - 3) + 1 := by omega
  rw [this, List.range'_concat, List.reverse_append]
  simp
  omega

example : backward (It.prev fourOnes 4) 1 5 ⟨4, none⟩ = some (.ok [3, 2]) := by decide

end Fdapde.Triang
