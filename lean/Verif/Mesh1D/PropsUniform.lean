import Verif.Mesh1D.Uniform
import Verif.Mesh1D.Props
import Verif.BinMtx.Lemmas2
import Mathlib.Tactic.FieldSimp
import Mathlib.Tactic.Ring
import Mathlib.Tactic.Linarith
import Mathlib.Tactic.Positivity
import Mathlib.Data.Rat.Defs
import Mathlib.Algebra.Order.Ring.Rat
/- C116: uniform intervals, boundary of one dimensional meshes. -/
namespace Fdapde.Mesh1D
open BinMtx

section
variable {K : Type} [Field K] [LinearOrder K] [IsStrictOrderedRing K]

/-- C116: node `i` of the mesh of `[a, b]` with `n` cells is `a + i (b - a) / n`; the first node is `a`, the last one `b`. -/
theorem C116_nodes (n : Nat) (hn : 0 < n) (a b : K) :
    (uniform n a b).length = n + 1 ∧ (uniform n a b)[0]? = some a ∧ (uniform n a b)[n]? = some b ∧
    ∀ i, i ≤ n → (uniform n a b)[i]? = some (a + i * ((b - a) / n)) := by
  have hn' : (n : K) ≠ 0 := by exact_mod_cast hn.ne'
  have h : ∀ i, i ≤ n → (uniform n a b)[i]? = some (a + i * ((b - a) / n)) := by
    intro i hi
    unfold uniform
    rw [List.getElem?_map, List.getElem?_range (by omega)]
    simp only [Option.map_some, Option.some.injEq]
    unfold linSpaced
    split_ifs with h1 h2 h2
    · subst h2; simp
    · field_simp; ring
    · subst h2; field_simp; ring
    · rfl
  refine ⟨by simp [uniform], ?_, ?_, h⟩
  · rw [h 0 (by omega)]; simp
  · rw [h n (Nat.le_refl n)]
    congr 1
    field_simp
    ring

/-- The nodes are strictly increasing. -/
theorem uniform_sorted (n : Nat) (hn : 0 < n) (a b : K) (hab : a < b) : (uniform n a b).Pairwise (· < ·) := by
  obtain ⟨hl, _, _, h⟩ := C116_nodes n hn a b
  rw [List.pairwise_iff_getElem]
  intro i j hi hj hij
  have hi' := h i (by omega)
  have hj' := h j (by omega)
  rw [List.getElem?_eq_getElem hi] at hi'
  rw [List.getElem?_eq_getElem hj] at hj'
  rw [Option.some.inj hi', Option.some.inj hj']
  have hpos : 0 < (b - a) / n := div_pos (sub_pos.2 hab) (by exact_mod_cast hn)
  have : (i : K) < j := by exact_mod_cast hij
  have := mul_lt_mul_of_pos_right this hpos
  linarith

/-- C116: on the uniform mesh of `[a, b]` with `n` cells, `locate` answers -1 for points outside, and for a point `a ≤ p < b` the
number of whole cells between `a` and `p`: the `i` with `i ≤ (p - a) n / (b - a) < i + 1`. -/
theorem C116_locate_partial (n : Nat) (hn : 0 < n) (a b p : K) (hab : a < b) (hp : p ≠ b) :
    ((p < a ∨ b < p) ∧ locate (uniform n a b) p = some (.ok (-1))) ∨
    ((a ≤ p ∧ p < b) ∧ ∃ i : Nat, i < n ∧ locate (uniform n a b) p = some (.ok (i : Int)) ∧
      (i : K) ≤ (p - a) * n / (b - a) ∧ (p - a) * n / (b - a) < i + 1) := by
  obtain ⟨hl, h0, h1, h⟩ := C116_nodes n hn a b
  have hlast : (uniform n a b)[(uniform n a b).length - 1]? = some b := by rw [hl, Nat.add_sub_cancel, h1]
  rcases C24_locate_partial _ (uniform_sorted n hn a b hab) a b p h0 hlast hp with hout | ⟨hin, i, x, y, e, hx, hy, h2, h3⟩
  · exact Or.inl hout
  · refine Or.inr ⟨hin, i, ?_, e, ?_, ?_⟩
    · have := (List.getElem?_eq_some_iff.1 hy).1
      omega
    all_goals
      have hi1 : i + 1 < n + 1 := by
        have := (List.getElem?_eq_some_iff.1 hy).1
        omega
      have hba : 0 < b - a := sub_pos.2 hab
      have hnn : (0 : K) < n := by exact_mod_cast hn
      have ex := h i (by omega)
      rw [hx] at ex
      have ey := h (i + 1) (by omega)
      rw [hy] at ey
      have ex := Option.some.inj ex
      have ey := Option.some.inj ey
    · rw [le_div_iff₀ hba]
      have hle : (i : K) * ((b - a) / n) ≤ p - a := by linarith
      calc (i : K) * (b - a) = (i : K) * ((b - a) / n) * n := by field_simp
        _ ≤ (p - a) * n := mul_le_mul_of_nonneg_right hle hnn.le
    · rw [div_lt_iff₀ hba]
      have hlt : p - a < ((i : K) + 1) * ((b - a) / n) := by
        push_cast at ey
        linarith
      calc (p - a) * n < ((i : K) + 1) * ((b - a) / n) * n := mul_lt_mul_of_pos_right hlt hnn
        _ = ((i : K) + 1) * (b - a) := by field_simp

example : locate (uniform 4 (0 : ℚ) 1) (5/8) = some (.ok 2) := by decide +kernel

end

/-- C116: `boundary()` of an interval with `n ≥ 1` nodes marks the first and the last node and no other one, in agreement with
`is_node_on_boundary`. -/
theorem C116_boundary (n : Nat) (hn : 0 < n) :
    ∃ m, markers n = .ok m ∧ m.rows = n ∧ m.cols = 1 ∧
      ∀ i, i < n → m.read (i : Int) 0 = .ok (decide (i = 0 ∨ i = n - 1)) ∧ isNodeOnBoundary n i = decide (i = 0 ∨ i = n - 1) := by
  obtain ⟨m1, e1, w1, r1, c1, s1⟩ := set_spec (BMat.zero n 1) (zero_WF n 1) (i := 0) (j := 0) hn (by exact Nat.one_pos)
  have hr1 : m1.rows = n := r1
  have hc1 : m1.cols = 1 := c1
  obtain ⟨m2, e2, w2, r2, c2, s2⟩ := set_spec m1 w1 (i := n - 1) (j := 0) (by omega) (by omega)
  refine ⟨m2, ?_, by omega, by omega, ?_⟩
  · unfold markers
    have e1' : (BMat.zero n 1).set 0 0 = .ok m1 := e1
    rw [e1', Res.ok_bind]
    have : ((n : Int) - 1) = ((n - 1 : Nat) : Int) := by omega
    rw [this]
    exact e2
  · intro i hi
    refine ⟨?_, by unfold isNodeOnBoundary; simp [Bool.decide_or]; rfl⟩
    have h := w2.read (i := i) (j := 0) (by omega) (by omega)
    have h' : m2.read (i : Int) 0 = _ := h
    rw [h', s2]
    congr 1
    have hc2 : m2.cols = 1 := by omega
    have hz : storeBit (BMat.zero n 1).data (i * m2.cols + 0) = false := storeBit_zero _ _
    have hz1 : (BMat.zero n 1).cols = 1 := rfl
    rw [s1, hz, hc1, hc2, hz1]
    simp only [Nat.mul_one, Nat.add_zero]
    by_cases h1 : i = n - 1 <;> by_cases h0 : i = 0 <;> simp [h0, h1]

example : markers 3 = .ok ⟨3, 1, 1, [5#64]⟩ := by decide

/-- C116: `on_boundary()` holds for the first and the last cell of an interval and for no other one. -/
theorem C116_boundary_cells (n c : Nat) (hc : c + 1 < n) :
    segmentOnBoundary (fun i v => i + v) (isNodeOnBoundary n) c = true ↔ c = 0 ∨ c + 1 = n - 1 := by
  unfold segmentOnBoundary isNodeOnBoundary
  rw [decide_eq_true_iff, show List.range 2 = [0, 1] from rfl]
  simp only [List.countP_cons, List.countP_nil]
  split_ifs <;> simp_all <;> omega

/-- C116 (segments of a network): `on_boundary()` holds exactly when one of the end points is marked. -/
theorem C116_segment (cells : Nat → Nat → Nat) (nb : Nat → Bool) (c : Nat) :
    segmentOnBoundary cells nb c = true ↔ nb (cells c 0) = true ∨ nb (cells c 1) = true := by
  unfold segmentOnBoundary
  rw [decide_eq_true_iff, show List.range 2 = [0, 1] from rfl]
  simp only [List.countP_cons, List.countP_nil]
  split_ifs <;> simp_all

/-- C116 (finding): the constructor of a linear network assigns the rows of the smallest and largest coordinates, which have two
entries as the nodes are points of the plane, to rows with one entry: an assertion of Eigen fails for every network. -/
theorem C116_bug_network_range {α : Type} (lo hi : List α) (h : lo.length = 2) : networkRange lo hi = .ub := by
  match lo, h with
  | [_, _], _ => rfl

example : networkRange [(0 : Int), 0] [1, 1] = .ub := by decide

end Fdapde.Mesh1D
