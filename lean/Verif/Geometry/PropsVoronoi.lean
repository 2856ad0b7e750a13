import Verif.Geometry.Voronoi
import Verif.Mesh1D.Props
import Mathlib.Algebra.Order.BigOperators.Group.Finset
import Mathlib.Algebra.BigOperators.Intervals
import Mathlib.Tactic.Linarith
import Mathlib.Tactic.Ring
import Mathlib.Algebra.Order.Ring.Rat
import Mathlib.Algebra.Field.Rat
/- C47: Voronoi diagram of an interval mesh. -/
namespace Fdapde.Voronoi
open Mesh1D
variable {K : Type} [Field K] [LinearOrder K] [IsStrictOrderedRing K]

/-- The vertex list of cell `v` after `j` of the `nc` mesh cells were treated. -/
def cellsAt (nc j v : Nat) : List Nat :=
  if v = 0 then (if 0 < j then [0, nc] else [])
  else (if v ≤ j then [v - 1] else []) ++ (if v < j then [v] else if v = nc ∧ j = nc then [nc + 1] else [])

/-- The vertices after `j` mesh cells. -/
def vertsAt (nodes : List K) (nc j i : Nat) : K :=
  if i < j then (nodes.getD i 0 + nodes.getD (i + 1) 0) / 2
  else if i = nc ∧ 0 < j then nodes.getD 0 0 else if i = nc + 1 ∧ j = nc then nodes.getD nc 0 else 0

def stAt (nodes : List K) (nc j : Nat) : V K :=
  ⟨vertsAt nodes nc j, fun i => decide ((i = nc ∧ 0 < j) ∨ (i = nc + 1 ∧ j = nc)), cellsAt nc j,
   nc + (if 0 < j then 1 else 0) + (if j = nc then 1 else 0)⟩

omit [IsStrictOrderedRing K] in
theorem V.ext' {s t : V K} (h1 : ∀ i, s.verts i = t.verts i) (h2 : ∀ i, s.markers i = t.markers i)
    (h3 : ∀ i, s.cells i = t.cells i) (h4 : s.k = t.k) : s = t := by
  cases s; cases t
  simp only [V.mk.injEq]
  exact ⟨funext h1, funext h2, funext h3, h4⟩

omit [IsStrictOrderedRing K] in
theorem cellStep_at (nodes : List K) (nc j : Nat) (hn : nodes.length = nc + 1) (hj : j < nc) :
    cellStep nodes (stAt nodes nc j) j = stAt nodes nc (j + 1) := by
  have hb : ∀ v, onBoundary nodes.length v = decide (v = 0 ∨ v = nc) := by intro v; simp [onBoundary, hn]
  have hnc0 : nc ≠ 0 := by omega
  have hjn : j ≠ nc := by omega
  by_cases h0 : j = 0
  · subst h0
    by_cases h1 : nc = 1
    · subst h1
      simp only [cellStep, bndStep, hb]
      apply V.ext'
      · intro i
        rcases i with _ | _ | _ | i <;> simp [upd, stAt, vertsAt]
      · intro i
        rcases i with _ | _ | _ | i <;> simp [upd, stAt]
      · intro i
        rcases i with _ | _ | _ | i <;> simp [upd, stAt, cellsAt]
      · simp [stAt]
    · have h1' : ¬ (0 + 1 = nc) := by omega
      have e1 : onBoundary nodes.length 0 = true := by rw [hb]; simp
      have e2 : onBoundary nodes.length (0 + 1) = false := by rw [hb]; simp; omega
      simp only [cellStep, bndStep, e1, e2, Bool.true_or, if_true, Bool.false_eq_true, if_false]
      apply V.ext'
      · intro i
        simp only [upd, stAt, vertsAt]
        by_cases hi : i = nc
        · subst hi; simp [hnc0]; omega
        · by_cases hi0 : i = 0
          · subst hi0; simp [hnc0, Ne.symm hnc0]
          · simp [hi, hi0, hnc0, Ne.symm hnc0, h1']
      · intro i
        simp only [upd, stAt]
        by_cases hi : i = nc
        · subst hi; simp [hnc0]; omega
        · simp [hi, hnc0, Ne.symm hnc0, h1']
      · intro i
        simp only [upd, stAt, cellsAt]
        rcases i with _ | _ | i
        · simp [hnc0, Ne.symm hnc0]
        · simp [hnc0, Ne.symm hnc0, Ne.symm h1, h1]
        · simp [hnc0, Ne.symm hnc0, Ne.symm h1, h1]
      · simp [stAt, Ne.symm hnc0, h1']
  · by_cases h1 : j + 1 = nc
    · subst h1
      have e1 : onBoundary nodes.length j = false := by rw [hb]; simp; omega
      have e2 : onBoundary nodes.length (j + 1) = true := by rw [hb]; simp
      simp only [cellStep, bndStep, e1, e2, Bool.false_or, if_true, Bool.false_eq_true, if_false]
      have hp : 0 < j := by omega
      apply V.ext'
      · intro i
        simp only [upd, stAt, vertsAt, hp, if_true]
        by_cases hi : i = j + 1 + 1
        · subst hi; simp
        · by_cases hij : i = j
          · subst hij; simp; omega
          · by_cases hil : i < j
            · have : i < j + 1 := by omega
              have h3 : i ≠ j + 1 := by omega
              simp [hij, hil, this]; intro; omega
            · have : ¬ i < j + 1 := by omega
              simp [hi, hij, hil, this]
      · intro i
        simp only [upd, stAt, hp, if_true]
        by_cases hi : i = j + 1 + 1
        · subst hi; simp
        · simp [hi]
      · intro i
        simp only [upd, stAt, cellsAt, hp, if_true]
        by_cases hi : i = j + 1
        · subst hi; simp
        · by_cases hij : i = j
          · subst hij; simp [h0]
          · by_cases hi0 : i = 0
            · subst hi0; simp [Ne.symm h0]
            · simp only [hi, hij, hi0, if_false, false_and]
              have e3 : (i ≤ j + 1) = (i ≤ j) := by simp; omega
              have e4 : (i < j + 1) = (i < j) := by simp; omega
              simp only [e3, e4]
      · simp [stAt, hp]
    · simp only [cellStep, hb]
      have e1 : decide (j = 0 ∨ j = nc) = false := by simp; omega
      have e2 : decide (j + 1 = 0 ∨ j + 1 = nc) = false := by simp; omega
      rw [e1, e2]
      simp only [Bool.false_or, Bool.false_eq_true, if_false]
      have hp : 0 < j := by omega
      apply V.ext'
      · intro i
        simp only [upd, stAt, vertsAt, hp, if_true, hjn, h1, and_false, if_false, Nat.succ_pos, and_true]
        by_cases hij : i = j
        · subst hij; simp
        · have e4 : (i < j + 1) = (i < j) := by simp; omega
          simp only [hij, if_false, e4]
      · intro i
        simp only [stAt, hp, hjn, h1, and_false, Nat.succ_pos]
      · intro i
        simp only [upd, stAt, cellsAt, hp, if_true, hjn, h1, and_false, if_false, Nat.succ_pos]
        by_cases hi : i = j + 1
        · subst hi; simp
        · by_cases hij : i = j
          · subst hij; simp [h0]
          · by_cases hi0 : i = 0
            · subst hi0; simp [Ne.symm h0]
            · simp only [hi, hij, hi0, if_false]
              have e3 : (i ≤ j + 1) = (i ≤ j) := by simp; omega
              have e4 : (i < j + 1) = (i < j) := by simp; omega
              simp only [e3, e4]
      · simp [stAt, hp, hjn, h1]

omit [IsStrictOrderedRing K] in
theorem loop_at (nodes : List K) (nc j : Nat) (hn : nodes.length = nc + 1) (hnc : 0 < nc) (hj : j ≤ nc) :
    (List.range j).foldl (cellStep nodes) ⟨fun _ => 0, fun _ => false, fun _ => [], nc⟩ = stAt nodes nc j := by
  induction j with
  | zero =>
      apply V.ext'
      · intro i; simp [stAt, vertsAt]; omega
      · intro i; simp [stAt]; omega
      · intro i
        simp only [stAt, cellsAt, List.range_zero, List.foldl_nil]
        by_cases h : i = 0
        · simp [h]
        · have : ¬ i ≤ 0 := by omega
          have h2 : ¬ (i = nc ∧ 0 = nc) := by omega
          simp [h, h2]
      · simp [stAt]; omega
  | succ j ih =>
      rw [List.range_succ, List.foldl_append, ih (by omega)]
      exact cellStep_at nodes nc j hn (by omega)

/-- The two vertices of cell `v`: midpoint or end of the interval. -/
def leftEnd (nodes : List K) (v : Nat) : K := if v = 0 then nodes.getD 0 0 else (nodes.getD (v - 1) 0 + nodes.getD v 0) / 2
def rightEnd (nodes : List K) (v : Nat) : K :=
  if v = nodes.length - 1 then nodes.getD v 0 else (nodes.getD v 0 + nodes.getD (v + 1) 0) / 2

omit [IsStrictOrderedRing K] in
/-- Cell `v` is bounded by the midpoints with the neighbouring nodes, or by the ends of the interval; it is marked as
boundary exactly for the first and the last node. -/
theorem C47_cells (nodes : List K) (hn : 2 ≤ nodes.length) (v : Nat) (hv : v < nodes.length) :
    ∃ a b, (build nodes).cells v = [a, b] ∧
      (((build nodes).verts a = leftEnd nodes v ∧ (build nodes).verts b = rightEnd nodes v) ∨
       ((build nodes).verts b = leftEnd nodes v ∧ (build nodes).verts a = rightEnd nodes v)) ∧
      cellOnBoundary (build nodes) v = .ok (decide (v = 0 ∨ v = nodes.length - 1)) := by
  obtain ⟨nc, hnc⟩ : ∃ nc, nodes.length = nc + 1 := ⟨nodes.length - 1, by omega⟩
  have hpos : 0 < nc := by omega
  have hb : build nodes = { stAt nodes nc nc with cells := fun v => sortCell (cellsAt nc nc v) } := by
    have : nodes.length - 1 = nc := by omega
    simp only [build, this, loop_at nodes nc nc hnc hpos le_rfl]; rfl
  have hcells : (build nodes).cells v = if v = 0 then [0, nc] else if v = nc then [nc - 1, nc + 1] else [v - 1, v] := by
    rw [hb]
    simp only [cellsAt, hpos, if_true]
    by_cases h0 : v = 0
    · subst h0; simp [sortCell]
    · by_cases h1 : v = nc
      · subst h1; simp [h0, sortCell]
        try omega
      · have h2 : v ≤ nc := by omega
        have h3 : v < nc := by omega
        simp [h0, h1, h2, h3, sortCell]
  have hverts : (build nodes).verts = vertsAt nodes nc nc := by rw [hb]; rfl
  have hmark : (build nodes).markers = fun i => decide ((i = nc ∧ 0 < nc) ∨ (i = nc + 1 ∧ nc = nc)) := by rw [hb]; rfl
  have hl1 : nodes.length - 1 = nc := by omega
  by_cases h0 : v = 0
  · subst h0
    rw [if_pos rfl] at hcells
    refine ⟨0, nc, hcells, Or.inr ⟨?_, ?_⟩, ?_⟩
    · rw [hverts]; simp [vertsAt, leftEnd, hpos]
    · rw [hverts]; simp [vertsAt, rightEnd, hpos, hl1]; omega
    · simp [cellOnBoundary, hcells, hmark, hpos]
  · rw [if_neg h0] at hcells
    by_cases h1 : v = nc
    · subst h1
      rw [if_pos rfl] at hcells
      refine ⟨_, _, hcells, Or.inl ⟨?_, ?_⟩, ?_⟩
      · have : v - 1 + 1 = v := by omega
        rw [hverts]; simp [vertsAt, leftEnd, h0, hpos, this]
      · rw [hverts]; simp [vertsAt, rightEnd, hl1]
      · simp [cellOnBoundary, hcells, hmark, hl1]
    · rw [if_neg h1] at hcells
      have h3 : v < nc := by omega
      have h4 : v - 1 < nc := by omega
      refine ⟨_, _, hcells, Or.inl ⟨?_, ?_⟩, ?_⟩
      · have : v - 1 + 1 = v := by omega
        rw [hverts]; simp [vertsAt, leftEnd, h0, h4, this]
      · rw [hverts]; simp [vertsAt, rightEnd, hl1, h1, h3]
      · have h5 : v - 1 ≠ nc := by omega
        have h6 : v - 1 ≠ nc + 1 := by omega
        have h7 : v ≠ nc + 1 := by omega
        simp [cellOnBoundary, hcells, hmark, hl1, h0, h1, h5, h6, h7]

theorem getD_lt {nodes : List K} (hs : nodes.Pairwise (· < ·)) {i j : Nat} (hij : i < j) (hj : j < nodes.length) :
    nodes.getD i 0 < nodes.getD j 0 := by
  rw [List.pairwise_iff_getElem] at hs
  have := hs i j (by omega) hj hij
  simpa [List.getD_eq_getElem?_getD, List.getElem?_eq_getElem, hj, show i < nodes.length by omega] using this

theorem ends_le (nodes : List K) (hs : nodes.Pairwise (· < ·)) (hn : 2 ≤ nodes.length) (v : Nat) (hv : v < nodes.length) :
    leftEnd nodes v ≤ nodes.getD v 0 ∧ nodes.getD v 0 ≤ rightEnd nodes v := by
  constructor
  · unfold leftEnd
    split_ifs with h
    · rw [h]
    · have := getD_lt hs (i := v - 1) (j := v) (by omega) hv
      linarith
  · unfold rightEnd
    split_ifs with h
    · exact le_rfl
    · have := getD_lt hs (i := v) (j := v + 1) (by omega) (by omega)
      linarith

/-- The measure of a cell is the length between its two ends, which enclose its node. -/
theorem C47_measure (nodes : List K) (hs : nodes.Pairwise (· < ·)) (hn : 2 ≤ nodes.length) (v : Nat) (hv : v < nodes.length) :
    measure (build nodes) v = .ok (rightEnd nodes v - leftEnd nodes v) := by
  obtain ⟨a, b, h1, h2, _⟩ := C47_cells nodes hn v hv
  have := ends_le nodes hs hn v hv
  have hnn : 0 ≤ rightEnd nodes v - leftEnd nodes v := by linarith [this.1, this.2]
  simp only [measure, h1]
  rcases h2 with ⟨h3, h4⟩ | ⟨h3, h4⟩
  · rw [h3, h4, abs_of_nonneg hnn]
  · rw [h3, h4, abs_sub_comm, abs_of_nonneg hnn]

/-- Consecutive cells share their end. -/
theorem C47_consecutive (nodes : List K) (v : Nat) (hv : v + 1 < nodes.length) : rightEnd nodes v = leftEnd nodes (v + 1) := by
  have : v ≠ nodes.length - 1 := by omega
  simp [rightEnd, leftEnd, this]

/-- The measures are defined and sum to the length of the interval. -/
theorem C47_partition (nodes : List K) (hs : nodes.Pairwise (· < ·)) (hn : 2 ≤ nodes.length) :
    ∃ m : Nat → K, (∀ v < nodes.length, measure (build nodes) v = .ok (m v)) ∧
      ∑ v ∈ Finset.range nodes.length, m v = nodes.getD (nodes.length - 1) 0 - nodes.getD 0 0 := by
  refine ⟨fun v => rightEnd nodes v - leftEnd nodes v, fun v hv => C47_measure nodes hs hn v hv, ?_⟩
  obtain ⟨nc, hnc⟩ : ∃ nc, nodes.length = nc + 1 := ⟨nodes.length - 1, by omega⟩
  have key : ∀ j ≤ nc, ∑ v ∈ Finset.range j, (rightEnd nodes v - leftEnd nodes v) = leftEnd nodes j - leftEnd nodes 0 := by
    intro j hj
    induction j with
    | zero => simp
    | succ j ih => rw [Finset.sum_range_succ, ih (by omega), C47_consecutive nodes j (by omega)]; ring
  rw [hnc, Finset.sum_range_succ, key nc le_rfl]
  have e1 : rightEnd nodes nc = nodes.getD nc 0 := by simp [rightEnd, hnc]
  have e2 : leftEnd nodes 0 = nodes.getD 0 0 := by simp [leftEnd]
  rw [e1, e2]; simp

/-- locate: -1 outside; inside (but at the last node, where the interval mesh reads out of bounds, C24_bug_last) a node
nearest to p among all nodes, and p is between the ends of its cell. -/
theorem C47_locate_partial (nodes : List K) (hs : nodes.Pairwise (· < ·)) (a b p : K) (ha : nodes[0]? = some a)
    (hb : nodes[nodes.length - 1]? = some b) (hp : p ≠ b) :
    ((p < a ∨ b < p) ∧ locate nodes p = some (.ok (-1))) ∨
    ((a ≤ p ∧ p < b) ∧ ∃ v : Nat, locate nodes p = some (.ok (v : Int)) ∧ v < nodes.length ∧
      (∀ x ∈ nodes, |nodes.getD v 0 - p| ≤ |x - p|) ∧ leftEnd nodes v ≤ p ∧ p ≤ rightEnd nodes v) := by
  rcases C24_locate_partial nodes hs a b p ha hb hp with ⟨h1, h2⟩ | ⟨h1, i, x, y, h2, h3, h4, h5, h6⟩
  · left; exact ⟨h1, by simp [locate, h2]⟩
  · right
    refine ⟨h1, ?_⟩
    obtain ⟨hi1, hx⟩ := List.getElem?_eq_some_iff.1 h3
    obtain ⟨hi2, hy⟩ := List.getElem?_eq_some_iff.1 h4
    have ex : nodes.getD i 0 = x := by simp [List.getD_eq_getElem?_getD, h3]
    have ey : nodes.getD (i + 1) 0 = y := by simp [List.getD_eq_getElem?_getD, h4]
    have hne : ((i : Nat) : Int) ≠ -1 := by omega
    have hloc : locate nodes p = some (.ok (if (y - p) * (y - p) < (x - p) * (x - p) then (i : Int) + 1 else (i : Int))) := by
      simp only [locate, h2, if_neg hne, Int.toNat_natCast, ex, ey]
    have hdx : |x - p| = p - x := by rw [abs_sub_comm, abs_of_nonneg (by linarith)]
    have hdy : |y - p| = y - p := abs_of_nonneg (by linarith)
    have hall : ∀ z ∈ nodes, p - x ≤ |z - p| ∨ y - p ≤ |z - p| := by
      intro z hz
      obtain ⟨k, hk, rfl⟩ := List.getElem_of_mem hz
      rw [List.pairwise_iff_getElem] at hs
      by_cases hki : k ≤ i
      · left
        have : nodes[k] ≤ x := by
          rcases Nat.lt_or_eq_of_le hki with h | h
          · rw [← hx]; exact (hs k i hk hi1 h).le
          · subst h; rw [hx]
        rw [abs_sub_comm, abs_of_nonneg (by linarith)]; linarith
      · right
        have : y ≤ nodes[k] := by
          rcases Nat.lt_or_eq_of_le (show i + 1 ≤ k by omega) with h | h
          · rw [← hy]; exact (hs (i+1) k hi2 hk h).le
          · subst h; rw [hy]
        rw [abs_of_nonneg (by linarith)]; linarith
    have hxy : x < y := lt_of_le_of_lt h5 h6
    by_cases hc : (y - p) * (y - p) < (x - p) * (x - p)
    · have hlt : y - p < p - x := by
        by_contra hge
        push Not at hge
        have : (p - x) * (p - x) ≤ (y - p) * (y - p) := mul_self_le_mul_self (by linarith) hge
        have : (x - p) * (x - p) = (p - x) * (p - x) := by ring
        linarith
      refine ⟨i + 1, by rw [hloc, if_pos hc]; simp, hi2, ?_, ?_, ?_⟩
      · intro z hz
        rw [ey, hdy]
        rcases hall z hz with h | h <;> linarith
      · simp only [leftEnd, Nat.add_one_ne_zero, if_false, Nat.add_sub_cancel, ex, ey]; linarith
      · have := (ends_le nodes hs (by omega) (i + 1) hi2).2
        rw [ey] at this; linarith
    · push Not at hc
      have hle : p - x ≤ y - p := by
        by_contra hgt
        push Not at hgt
        have : (y - p) * (y - p) < (p - x) * (p - x) := mul_self_lt_mul_self (by linarith) hgt
        have : (x - p) * (x - p) = (p - x) * (p - x) := by ring
        linarith
      refine ⟨i, by rw [hloc, if_neg (not_lt.2 hc)], hi1, ?_, ?_, ?_⟩
      · intro z hz
        rw [ex, hdx]
        rcases hall z hz with h | h <;> linarith
      · have := (ends_le nodes hs (by omega) i hi1).1
        rw [ex] at this; linarith
      · have : i ≠ nodes.length - 1 := by omega
        simp only [rightEnd, this, if_false, ex, ey]; linarith

/-- locate at the last node of the mesh reads past the end of the node vector. -/
theorem C47_bug_last (nodes : List K) (hs : nodes.Pairwise (· < ·)) (hn : 2 ≤ nodes.length) (b : K)
    (hb : nodes[nodes.length - 1]? = some b) : locate nodes b = some .ub := by
  simp [locate, C24_bug_last nodes hs hn b hb]

example : locate [(0 : ℚ), 1, 3] (5/2) = some (.ok 2) ∧ measure (build [(0 : ℚ), 1, 3]) 1 = .ok (3/2) := by decide +kernel

end Fdapde.Voronoi
