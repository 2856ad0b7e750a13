import Verif.Mesh1D.Model
import Mathlib.Data.List.Nodup
import Mathlib.Data.List.Pairwise
import Mathlib.Data.Int.Order.Basic
import Mathlib.Tactic.SplitIfs
/- C24-C26: intervals and linear networks. -/
namespace Fdapde.Mesh1D

section Interval
variable {α : Type} [LinearOrder α]

theorem sorted_le {nodes : List α} (hs : nodes.Pairwise (· < ·)) {i j : Nat} {x y : α} (hi : nodes[i]? = some x)
    (hj : nodes[j]? = some y) (h : i ≤ j) : x ≤ y := by
  obtain ⟨h1, rfl⟩ := List.getElem?_eq_some_iff.1 hi
  obtain ⟨h2, rfl⟩ := List.getElem?_eq_some_iff.1 hj
  rcases Nat.lt_or_eq_of_le h with h | h
  · exact le_of_lt (List.pairwise_iff_getElem.1 hs i j h1 h2 h)
  · subst h; exact le_refl _

theorem search_ok {nodes : List α} {p : α} (hs : nodes.Pairwise (· < ·)) (hlast : ∀ y, nodes[nodes.length - 1]? = some y → p < y) :
    ∀ f hmin hmax, hmin < hmax → hmax ≤ nodes.length → hmax - hmin < f →
      (∀ x, nodes[hmin]? = some x → x ≤ p) → (∀ y, nodes[hmax]? = some y → p < y) →
      ∃ (i : Nat) (x y : α), search nodes p f hmin hmax = some (.ok (i : Int)) ∧ nodes[i]? = some x ∧ nodes[i + 1]? = some y ∧
        x ≤ p ∧ p < y := by
  intro f
  induction f with
  | zero => intro hmin hmax h1 h2 h3; omega
  | succ f ih =>
    intro hmin hmax h1 h2 h3 hlo hhi
    unfold search
    have hj : hmin + (hmax - hmin) / 2 < nodes.length := by omega
    generalize hjd : hmin + (hmax - hmin) / 2 = j at hj
    simp only [List.getElem?_eq_getElem hj]
    by_cases hle : nodes[j] ≤ p
    · rw [if_pos hle]
      have hj1 : j + 1 < nodes.length := by
        by_contra hc
        have : j = nodes.length - 1 := by omega
        have h := hlast nodes[j] (by rw [← this]; exact List.getElem?_eq_getElem hj)
        exact absurd hle (not_le.2 h)
      simp only [List.getElem?_eq_getElem hj1]
      by_cases hlt : p < nodes[j + 1]
      · rw [if_pos hlt]
        exact ⟨j, _, _, rfl, List.getElem?_eq_getElem hj, List.getElem?_eq_getElem hj1, hle, hlt⟩
      · rw [if_neg hlt]
        have hne : j ≠ hmin := by
          intro he
          have hm : hmax = hmin + 1 := by omega
          have := hhi nodes[j + 1] (by rw [hm, ← he]; exact List.getElem?_eq_getElem hj1)
          exact hlt this
        refine ih j hmax (by omega) h2 (by omega) ?_ hhi
        intro x hx
        rw [List.getElem?_eq_getElem hj] at hx
        exact (by simpa using hx : nodes[j] = x) ▸ hle
    · rw [if_neg hle]
      have hne : j ≠ hmin := by
        intro he
        exact hle (hlo _ (by rw [← he]; exact List.getElem?_eq_getElem hj))
      refine ih hmin j (by omega) (by omega) (by omega) hlo ?_
      intro y hy
      rw [List.getElem?_eq_getElem hj] at hy
      exact (by simpa using hy : nodes[j] = y) ▸ not_le.1 hle

/-- C24 (proved part): for strictly increasing nodes and a point other than the last node, `locate`
terminates without reading outside the nodes, returns -1 exactly for points outside the range, and
otherwise the index of the segment with `x_i <= p < x_{i+1}`.  Missing: the last node. -/
theorem C24_locate_partial (nodes : List α) (hs : nodes.Pairwise (· < ·)) (a b p : α) (ha : nodes[0]? = some a)
    (hb : nodes[nodes.length - 1]? = some b) (hp : p ≠ b) :
    ((p < a ∨ b < p) ∧ locate nodes p = some (.ok (-1))) ∨
    ((a ≤ p ∧ p < b) ∧ ∃ (i : Nat) (x y : α), locate nodes p = some (.ok (i : Int)) ∧ nodes[i]? = some x ∧ nodes[i + 1]? = some y ∧
      x ≤ p ∧ p < y) := by
  unfold locate
  simp only [ha, hb]
  have hlen : 0 < nodes.length := (List.getElem?_eq_some_iff.1 ha).1
  by_cases h : p < a ∨ p > b
  · exact Or.inl ⟨h, by rw [if_pos h]⟩
  · right
    rw [if_neg h]
    push Not at h
    have hpb : p < b := lt_of_le_of_ne h.2 hp
    refine ⟨⟨h.1, hpb⟩, ?_⟩
    refine search_ok hs (fun y hy => ?_) _ 0 nodes.length hlen (Nat.le_refl _) (by omega) ?_ ?_
    · rw [hb] at hy; simp at hy; rw [← hy]; exact hpb
    · intro x hx; rw [ha] at hx; simp at hx; rw [← hx]; exact h.1
    · intro y hy; simp at hy

example : locate [0, 1, 3, (7 : Int)] 5 = some (.ok 2) := by decide

/-- C24: the segment containing a point is unique, so the result is fully determined. -/
theorem C24_unique (nodes : List α) (hs : nodes.Pairwise (· < ·)) (p : α) (i j : Nat) (x y x' y' : α)
    (hi : nodes[i]? = some x) (hi1 : nodes[i + 1]? = some y) (hj : nodes[j]? = some x') (hj1 : nodes[j + 1]? = some y')
    (h1 : x ≤ p ∧ p < y) (h2 : x' ≤ p ∧ p < y') : i = j := by
  rcases Nat.lt_trichotomy i j with h | h | h
  · have := sorted_le hs hi1 hj (by omega)
    exact absurd (lt_of_lt_of_le h1.2 this) (not_lt.2 h2.1)
  · exact h
  · have := sorted_le hs hj1 hi (by omega)
    exact absurd (lt_of_lt_of_le h2.2 this) (not_lt.2 h1.1)

/-- C24 (finding): locating the right end of an interval reads past the last node, on every interval
mesh with at least two nodes. -/
theorem C24_bug_last (nodes : List α) (hs : nodes.Pairwise (· < ·)) (hn : 2 ≤ nodes.length) (b : α)
    (hb : nodes[nodes.length - 1]? = some b) : locate nodes b = some .ub := by
  have hgen : ∀ f hmin, hmin < nodes.length → nodes.length - hmin < f → search nodes b f hmin nodes.length = some .ub := by
    intro f
    induction f with
    | zero => intro hmin h1 h2; omega
    | succ f ih =>
      intro hmin h1 h2
      unfold search
      have hj : hmin + (nodes.length - hmin) / 2 < nodes.length := by omega
      generalize hjd : hmin + (nodes.length - hmin) / 2 = j at hj
      simp only [List.getElem?_eq_getElem hj]
      have hle : nodes[j] ≤ b := sorted_le hs (List.getElem?_eq_getElem hj) hb (by omega)
      rw [if_pos hle]
      by_cases hj1 : j + 1 < nodes.length
      · simp only [List.getElem?_eq_getElem hj1]
        have : ¬ b < nodes[j + 1] := not_lt.2 (sorted_le hs (List.getElem?_eq_getElem hj1) hb (by omega))
        rw [if_neg this]
        exact ih j hj (by omega)
      · rw [List.getElem?_eq_none (by omega)]
  unfold locate
  have h0 : 0 < nodes.length := by omega
  simp only [List.getElem?_eq_getElem h0, hb]
  have h1 : nodes[0] ≤ b := sorted_le hs (List.getElem?_eq_getElem h0) hb (by omega)
  rw [if_neg (by push Not; exact ⟨h1, le_refl _⟩)]
  exact hgen _ 0 h0 (by omega)

example : locate [0, 1, (2 : Int)] 2 = some .ub := C24_bug_last _ (by decide) (by decide) 2 rfl

end Interval

theorem cells_fold (m : Nat) (t0 : Nat → Nat → Int) (a b : Nat) :
    (List.range m).foldl (fun t i => set2 (set2 t i 0 i) i 1 (i + 1)) t0 a b =
      if a < m ∧ b = 0 then (a : Int) else if a < m ∧ b = 1 then (a : Int) + 1 else t0 a b := by
  induction m with
  | zero => simp
  | succ m ih =>
    rw [List.range_succ, List.foldl_append]
    simp only [List.foldl_cons, List.foldl_nil, set2]
    rw [ih]
    split_ifs <;> omega

theorem neigh_fold (m : Nat) (t0 : Nat → Nat → Int) (a b : Nat) :
    (List.range' 1 m).foldl (fun t i => set2 (set2 t i 0 ((i : Int) - 1)) i 1 (i + 1)) t0 a b =
      if 1 ≤ a ∧ a < 1 + m ∧ b = 0 then (a : Int) - 1 else if 1 ≤ a ∧ a < 1 + m ∧ b = 1 then (a : Int) + 1 else t0 a b := by
  induction m with
  | zero => simp; omega
  | succ m ih =>
    rw [List.range'_1_concat, List.foldl_append]
    simp only [List.foldl_cons, List.foldl_nil, set2]
    rw [ih]
    split_ifs <;> omega

/-- C25 (proved part): with at least two cells, cell `i` spans nodes `(i, i+1)`, its left neighbour is
`i - 1` (which is -1 for the first cell) and its right neighbour is `i + 1`, -1 for the last cell.
Missing: a single cell. -/
theorem C25_neighbours_partial (n : Nat) (hn : 3 ≤ n) :
    ∃ t, tables n = .ok t ∧ ∀ i < n - 1, t.cells i 0 = i ∧ t.cells i 1 = i + 1 ∧
      t.neigh i 0 = (i : Int) - 1 ∧ t.neigh i 1 = if i + 1 < n - 1 then (i : Int) + 1 else -1 := by
  unfold tables
  rw [if_neg (by omega)]
  refine ⟨_, rfl, ?_⟩
  intro i hi
  simp only [set2, cells_fold, neigh_fold]
  refine ⟨?_, ?_, ?_, ?_⟩ <;> (split_ifs <;> first | omega | (simp_all; omega) | (simp_all; done))

example : ∃ t, tables 4 = .ok t ∧ t.neigh 1 0 = 0 ∧ t.neigh 1 1 = 2 ∧ t.neigh 2 1 = -1 := by
  obtain ⟨t, h, h1⟩ := C25_neighbours_partial 4 (by decide)
  exact ⟨t, h, by simpa using (h1 1 (by decide)).2.2.1, by simpa using (h1 1 (by decide)).2.2.2, by simpa using (h1 2 (by decide)).2.2.2⟩

/-- C25 (finding): in an interval with one cell the only cell is given the non existing cell 1 as
right neighbour. -/
theorem C25_bug_one_cell : (fun t : ITables => t.neigh 0 1) <$> tables 2 = Res.ok 1 := by decide

/-! ### Linear network -/

theorem nodeToCells_eq (cells : Nat → Nat → Nat) (n v : Nat) : nodeToCells cells n v =
    (List.range n).flatMap fun i => (if v = cells i 0 then [i] else []) ++ (if v = cells i 1 then [i] else []) := by
  unfold nodeToCells
  induction n with
  | zero => rfl
  | succ n ih =>
    rw [List.range_succ, List.foldl_append, List.flatMap_append]
    simp only [List.foldl_cons, List.foldl_nil, List.flatMap_cons, List.flatMap_nil, List.append_nil]
    rw [← ih]
    split_ifs <;> simp

/-- Cell `i` has node `v`. -/
def Has (cells : Nat → Nat → Nat) (i v : Nat) : Prop := cells i 0 = v ∨ cells i 1 = v

theorem mem_nodeToCells {cells : Nat → Nat → Nat} {n v i : Nat} :
    i ∈ nodeToCells cells n v ↔ i < n ∧ Has cells i v := by
  rw [nodeToCells_eq]
  simp only [List.mem_flatMap, List.mem_range, List.mem_append, Has]
  constructor
  · rintro ⟨a, ha, h | h⟩
    · split_ifs at h with h1
      · simp at h; subst h; exact ⟨ha, Or.inl h1.symm⟩
      · simp at h
    · split_ifs at h with h1
      · simp at h; subst h; exact ⟨ha, Or.inr h1.symm⟩
      · simp at h
  · rintro ⟨hi, h | h⟩
    · exact ⟨i, hi, Or.inl (by simp [h])⟩
    · exact ⟨i, hi, Or.inr (by simp [h])⟩

theorem nodeToCells_sorted (cells : Nat → Nat → Nat) (n v : Nat) : (nodeToCells cells n v).Pairwise (· ≤ ·) := by
  rw [nodeToCells_eq, List.pairwise_flatMap]
  constructor
  · intro i _; split_ifs <;> simp
  · refine List.pairwise_lt_range.imp ?_
    intro a b hab x hx y hy
    have hx' : x = a := by split_ifs at hx <;> simp_all
    have hy' : y = b := by split_ifs at hy <;> simp_all
    omega

theorem mem_pairs_sorted {l : List Nat} (hs : l.Pairwise (· ≤ ·)) {a b : Nat} (hab : b < a) :
    (a, b) ∈ pairs l ↔ a ∈ l ∧ b ∈ l := by
  induction l with
  | nil => simp [pairs]
  | cons x xs ih =>
    rw [List.pairwise_cons] at hs
    simp only [pairs, List.mem_append, List.mem_map, Prod.mk.injEq, ih hs.2, List.mem_cons]
    constructor
    · rintro (⟨y, h1, rfl, rfl⟩ | ⟨h1, h2⟩)
      · exact ⟨Or.inr h1, Or.inl rfl⟩
      · exact ⟨Or.inr h1, Or.inr h2⟩
    · rintro ⟨h1 | h1, h2 | h2⟩
      · omega
      · have := hs.1 b h2; omega
      · exact Or.inl ⟨a, h1, rfl, h2.symm⟩
      · exact Or.inr ⟨h1, h2⟩

/-- `keys` are the nodes of the unordered map: every node of some cell. -/
def Keys (cells : Nat → Nat → Nat) (n : Nat) (keys : List Nat) : Prop :=
  keys.Nodup ∧ ∀ v, v ∈ keys ↔ ∃ i < n, Has cells i v

/-- C26 (proved part): distinct cells are adjacent iff they share a node, whatever the order in which
the unordered map is traversed. -/
theorem C26_adjacent_partial (cells : Nat → Nat → Nat) (n : Nat) (keys : List Nat) (hk : Keys cells n keys)
    (a b : Nat) (ha : a < n) (hb : b < n) (hab : a ≠ b) :
    0 < adjacency cells n keys a b ↔ ∃ v, Has cells a v ∧ Has cells b v := by
  have key : ∀ a b, a < n → b < n → b < a →
      ((a, b) ∈ triplets cells n keys ↔ ∃ v, Has cells a v ∧ Has cells b v) := by
    intro a b ha hb hab
    simp only [triplets, List.mem_flatMap]
    constructor
    · rintro ⟨v, _, h⟩
      rw [mem_pairs_sorted (nodeToCells_sorted cells n v) hab, mem_nodeToCells, mem_nodeToCells] at h
      exact ⟨v, h.1.2, h.2.2⟩
    · rintro ⟨v, h1, h2⟩
      refine ⟨v, (hk.2 v).2 ⟨a, ha, h1⟩, ?_⟩
      rw [mem_pairs_sorted (nodeToCells_sorted cells n v) hab, mem_nodeToCells, mem_nodeToCells]
      exact ⟨⟨ha, h1⟩, hb, h2⟩
  unfold adjacency
  rw [List.count_pos_iff]
  by_cases h : b ≤ a
  · rw [if_pos h]; exact key a b ha hb (by omega)
  · rw [if_neg h, key b a hb ha (by omega)]
    exact ⟨fun ⟨v, x, y⟩ => ⟨v, y, x⟩, fun ⟨v, x, y⟩ => ⟨v, y, x⟩⟩

/-- C26: the adjacency matrix is symmetric. -/
theorem C26_symmetric (cells : Nat → Nat → Nat) (n : Nat) (keys : List Nat) (a b : Nat) :
    adjacency cells n keys a b = adjacency cells n keys b a := by
  unfold adjacency
  rcases Nat.lt_trichotomy a b with h | h | h
  · rw [if_neg (by omega), if_pos (by omega)]
  · subst h; rfl
  · rw [if_pos (by omega), if_neg (by omega)]

/-- C26: `node_patch` of a node of the network lists exactly the cells having it, and throws for other ids. -/
theorem C26_node_patch (cells : Nat → Nat → Nat) (n v : Nat) :
    (nodePatch cells n v = .throws ∧ ∀ i < n, ¬ Has cells i v) ∨
    (∃ l, nodePatch cells n v = .ok l ∧ l ≠ [] ∧ ∀ i, i ∈ l ↔ i < n ∧ Has cells i v) := by
  unfold nodePatch
  have hm := fun i => mem_nodeToCells (cells := cells) (n := n) (v := v) (i := i)
  cases h : nodeToCells cells n v with
  | nil =>
    left
    refine ⟨rfl, fun i hi hh => ?_⟩
    have := (hm i).2 ⟨hi, hh⟩
    rw [h] at this; simp at this
  | cons x xs =>
    right
    refine ⟨_, rfl, by simp, fun i => ?_⟩
    rw [← h]; exact hm i

def demoNet : Nat → Nat → Nat := fun c v => (([[0, 1], [1, 2], [1, 3]] : List (List Nat)).getD c []).getD v 0

example : adjacency demoNet 3 [0, 1, 2, 3] 0 2 = 1 ∧ adjacency demoNet 2 [0, 1, 2] 0 1 = 1 ∧ nodePatch demoNet 3 1 = .ok [0, 1, 2] := by decide

theorem demoNet_keys : Keys demoNet 3 [3, 1, 0, 2] := by
  refine ⟨by decide, fun v => ?_⟩
  constructor
  · intro hv
    simp at hv
    rcases hv with rfl | rfl | rfl | rfl
    · exact ⟨2, by decide, Or.inr (by decide)⟩
    · exact ⟨0, by decide, Or.inr (by decide)⟩
    · exact ⟨0, by decide, Or.inl (by decide)⟩
    · exact ⟨1, by decide, Or.inr (by decide)⟩
  · rintro ⟨i, hi, h⟩
    have : i = 0 ∨ i = 1 ∨ i = 2 := by omega
    rcases this with rfl | rfl | rfl <;> rcases h with rfl | rfl <;> decide

theorem secondLoop_ub (v2 : List Nat) : ∀ m i acc, i + m > v2.length → 0 < m → secondLoop v2 i m acc = .ub := by
  intro m
  induction m with
  | zero => intro i acc h1 h2; omega
  | succ m ih =>
    intro i acc h1 h2
    unfold secondLoop
    cases h : v2[i]? with
    | none => rfl
    | some x =>
      have := (List.getElem?_eq_some_iff.1 h).1
      exact ih (i + 1) _ (by omega) (by omega)

/-- C26 (finding): `neighbors()` of every cell of every linear network reads past the end of the list of
cells of its second node: the index of the second loop starts at the size of the first list. -/
theorem C26_bug_neighbors (cells : Nat → Nat → Nat) (n id : Nat) (h : id < n) : cellNeighbors cells n id = .ub := by
  have h1 : id ∈ nodeToCells cells n (cells id 0) := mem_nodeToCells.2 ⟨h, Or.inl rfl⟩
  have h2 : id ∈ nodeToCells cells n (cells id 1) := mem_nodeToCells.2 ⟨h, Or.inr rfl⟩
  have l1 := List.length_pos_of_mem h1
  have l2 := List.length_pos_of_mem h2
  exact secondLoop_ub _ _ _ _ (by omega) l2

end Fdapde.Mesh1D
