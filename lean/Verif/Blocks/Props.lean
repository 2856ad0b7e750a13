import Verif.Blocks.Model
import Mathlib.Data.List.Nodup
import Mathlib.Tactic.Ring
/- C27: block vectors. -/
namespace Fdapde.Blocks

variable {V : Type}

/-- A block vector as built by the constructor and kept by all writes. -/
def BVec.Ok (v : BVec V) : Prop := v.data.length = v.n * v.m

theorem seg_getElem? (data : List V) (s l r : Nat) (hr : r < l) : ((data.drop s).take l)[r]? = data[s + r]? := by
  rw [List.getElem?_take, if_pos hr, List.getElem?_drop]

theorem block_bound {n m i : Nat} (h : i < n) : i * m + m ≤ n * m := by
  have : (i + 1) * m ≤ n * m := Nat.mul_le_mul_right m h
  rw [Nat.add_mul, Nat.one_mul] at this; exact this

/-- C27: block `i` is the segment `i*m .. i*m+m-1` of the vector. -/
theorem C27_block (v : BVec V) (hv : v.Ok) (i : Nat) (hi : i < v.n) :
    ∃ x, v.at i = .ok x ∧ x.length = v.m ∧ ∀ r < v.m, x[r]? = v.data[i * v.m + r]? := by
  have := block_bound (m := v.m) hi
  unfold BVec.at seg
  rw [if_pos (by rw [hv]; exact this)]
  refine ⟨_, rfl, ?_, fun r hr => seg_getElem? _ _ _ _ hr⟩
  simp; rw [hv]; omega

theorem segSet_spec (data : List V) (s l : Nat) (x : List V) (h : s + l ≤ data.length) (hx : x.length = l) :
    ∃ d, segSet data s l x = .ok d ∧ d.length = data.length ∧
      ∀ p, d[p]? = if s ≤ p ∧ p < s + l then x[p - s]? else data[p]? := by
  unfold segSet
  rw [if_pos ⟨h, hx⟩]
  refine ⟨_, rfl, by simp; omega, ?_⟩
  intro p
  have hts : (data.take s).length = s := by rw [List.length_take]; omega
  by_cases h1 : p < s
  · rw [List.append_assoc, List.getElem?_append_left (by omega), List.getElem?_take, if_pos h1, if_neg (by omega)]
  · by_cases h2 : p < s + l
    · rw [if_pos ⟨by omega, h2⟩, List.append_assoc, List.getElem?_append_right (by omega),
        List.getElem?_append_left (by omega), hts]
    · rw [if_neg (by omega), List.getElem?_append_right (by simp; omega), List.getElem?_drop]
      congr 1
      simp; omega

/-- C27: writing block `i` changes exactly the positions of block `i`. -/
theorem C27_write (v : BVec V) (hv : v.Ok) (i : Nat) (hi : i < v.n) (x : List V) (hx : x.length = v.m) :
    ∃ v', v.setAt i x = .ok v' ∧ v'.Ok ∧ v'.n = v.n ∧ v'.m = v.m ∧
      ∀ p, v'.data[p]? = if i * v.m ≤ p ∧ p < i * v.m + v.m then x[p - i * v.m]? else v.data[p]? := by
  obtain ⟨d, h1, h2, h3⟩ := segSet_spec v.data (i * v.m) v.m x (by rw [hv]; exact block_bound hi) hx
  refine ⟨{ v with data := d }, by simp [BVec.setAt, h1], ?_, rfl, rfl, h3⟩
  simp [BVec.Ok, h2]; exact hv

theorem mul_gap {i j m : Nat} (h : i < j) : i * m + m ≤ j * m := block_bound h

/-- C27: after writing block `i`, reading block `i` gives what was written and every other block is
unaffected. -/
theorem C27_read_after_write (v : BVec V) (hv : v.Ok) (i : Nat) (hi : i < v.n) (x : List V) (hx : x.length = v.m) :
    ∃ v', v.setAt i x = .ok v' ∧ v'.at i = .ok x ∧ ∀ j < v.n, j ≠ i → v'.at j = v.at j := by
  obtain ⟨v', h1, h2, h3, h4, h5⟩ := C27_write v hv i hi x hx
  refine ⟨v', h1, ?_, ?_⟩
  · obtain ⟨y, hy, hl, hr⟩ := C27_block v' h2 i (by omega)
    rw [hy]
    congr 1
    apply List.ext_getElem?
    intro r
    by_cases hrm : r < v.m
    · rw [hr r (by omega), h5, h4, if_pos (by omega)]
      congr 1; omega
    · rw [List.getElem?_eq_none (by omega), List.getElem?_eq_none (by omega)]
  · intro j hj hne
    obtain ⟨y, hy, hl, hr⟩ := C27_block v' h2 j (by omega)
    obtain ⟨z, hz, hl', hr'⟩ := C27_block v hv j hj
    rw [hy, hz]
    congr 1
    apply List.ext_getElem?
    intro r
    by_cases hrm : r < v.m
    · rw [hr r (by omega), hr' r hrm, h5, h4, if_neg]
      rcases Nat.lt_or_gt_of_ne hne with h | h
      · have := mul_gap (m := v.m) h; omega
      · have := mul_gap (m := v.m) h; omega
    · rw [List.getElem?_eq_none (by omega), List.getElem?_eq_none (by omega)]

theorem seg_split (data : List V) (s a b : Nat) :
    (data.drop s).take (a + b) = (data.drop s).take a ++ (data.drop (s + a)).take b := by
  rw [List.take_add, List.drop_drop]

theorem range_concat (data : List V) (m i : Nat) : ∀ j,
    (data.drop (i * m)).take (j * m) = ((List.range j).map fun r => (data.drop ((i + r) * m)).take m).flatten := by
  intro j
  induction j with
  | zero => simp
  | succ j ih =>
    rw [List.range_succ, List.map_append, List.flatten_append, ← ih, Nat.add_mul, Nat.one_mul, seg_split]
    simp [Nat.add_mul]

/-- C27: `v(i, j)` is the concatenation of blocks `i, ..., i+j-1`. -/
theorem C27_range_concat (v : BVec V) (hv : v.Ok) (i j : Nat) (h : i + j ≤ v.n) :
    ∃ bs : List (List V), bs.length = j ∧ (∀ r < j, ∃ x, bs[r]? = some x ∧ v.at (i + r) = .ok x) ∧
      v.range i j = .ok bs.flatten := by
  refine ⟨(List.range j).map fun r => (v.data.drop ((i + r) * v.m)).take v.m, by simp, ?_, ?_⟩
  · intro r hr
    refine ⟨(v.data.drop ((i + r) * v.m)).take v.m, by simp [hr], ?_⟩
    unfold BVec.at seg
    rw [if_pos (by rw [hv]; exact block_bound (by omega))]
  · unfold BVec.range seg
    rw [if_pos, range_concat]
    rw [hv, ← Nat.add_mul]
    exact Nat.mul_le_mul_right _ h

/-- C27: `head(i)` is the first `i` blocks and `tail(i)` the last `i` blocks. -/
theorem C27_head_tail (v : BVec V) (i : Nat) (h : i ≤ v.n) :
    v.head i = v.range 0 i ∧ v.tail i = v.range (v.n - i) i := by
  constructor
  · simp [BVec.head, BVec.range]
  · simp [BVec.tail, BVec.range, h]

/-- C27: a new vector is all zeros. -/
theorem C27_zero (z : V) (n m : Nat) : (BVec.zero z n m).Ok ∧ ∀ i < n, (BVec.zero z n m).at i = .ok (List.replicate m z) := by
  have hok : (BVec.zero z n m).Ok := by simp [BVec.Ok, BVec.zero]
  refine ⟨hok, fun i hi => ?_⟩
  obtain ⟨x, h1, h2, h3⟩ := C27_block (BVec.zero z n m) hok i hi
  rw [h1]
  congr 1
  have hm : (BVec.zero z n m).m = m := rfl
  rw [hm] at h2 h3
  apply List.ext_getElem?
  intro r
  by_cases hr : r < m
  · rw [h3 r hr]
    have := block_bound (m := m) hi
    simp only [BVec.zero]
    rw [List.getElem?_replicate, List.getElem?_replicate, if_pos (by omega), if_pos hr]
  · rw [List.getElem?_eq_none (by omega), List.getElem?_eq_none (by simp; omega)]

/-- Last value written to block `i` by a history of writes. -/
def lastWrite (i : Nat) (h : List (Nat × List V)) (x0 : List V) : List V :=
  h.foldl (fun acc w => if w.1 = i then w.2 else acc) x0

/-- C27: after any history of block writes, every block holds the last value written to it. -/
theorem C27_history (z : V) (n m : Nat) (h : List (Nat × List V)) (hh : ∀ w ∈ h, w.1 < n ∧ w.2.length = m) :
    ∃ v, foldRes (fun (v : BVec V) w => v.setAt w.1 w.2) (BVec.zero z n m) h = .ok v ∧
      ∀ i < n, v.at i = .ok (lastWrite i h (List.replicate m z)) := by
  have := foldRes_inv (fun (v : BVec V) (w : Nat × List V) => v.setAt w.1 w.2)
    (fun done v => v.Ok ∧ v.n = n ∧ v.m = m ∧ ∀ i < n, v.at i = .ok (lastWrite i done (List.replicate m z))) h ?_
    (BVec.zero z n m) ⟨(C27_zero z n m).1, rfl, rfl, (C27_zero z n m).2⟩
  · obtain ⟨v, h1, h2⟩ := this
    exact ⟨v, h1, h2.2.2.2⟩
  · rintro done w rest v hl ⟨h1, h2, h3, h4⟩
    obtain ⟨hw1, hw2⟩ := hh w (by rw [hl]; simp)
    obtain ⟨v', a1, a2, a3, a4, a5⟩ := C27_write v h1 w.1 (by omega) w.2 (by omega)
    obtain ⟨v'', b1, b2, b3⟩ := C27_read_after_write v h1 w.1 (by omega) w.2 (by omega)
    rw [a1] at b1
    obtain rfl : v' = v'' := by simpa using b1
    refine ⟨v', a1, a2, by omega, by omega, ?_⟩
    intro i hi
    simp only [lastWrite, List.foldl_append, List.foldl_cons, List.foldl_nil]
    by_cases hwi : w.1 = i
    · rw [if_pos hwi, ← hwi]; exact b2
    · rw [if_neg hwi, b3 i (by omega) (fun h => hwi h.symm)]; exact h4 i hi

example : ∃ v, foldRes (fun (v : BVec Int) w => v.setAt w.1 w.2) (BVec.zero 0 3 2) [(1, [5, 6]), (0, [7, 8]), (1, [9, 1])] = .ok v ∧
    v.at 1 = .ok [9, 1] ∧ v.at 2 = .ok [0, 0] := by
  obtain ⟨v, h1, h2⟩ := C27_history (0 : Int) 3 2 [(1, [5, 6]), (0, [7, 8]), (1, [9, 1])] (by decide)
  exact ⟨v, h1, h2 1 (by decide), h2 2 (by decide)⟩

example : (BVec.mk 3 2 [1, 2, 3, 4, 5, (6 : Int)]).range 1 2 = .ok [3, 4, 5, 6] ∧ (BVec.mk 3 2 [1, 2, 3, 4, 5, (6 : Int)]).tail 1 = .ok [5, 6] ∧
    (BVec.mk 3 2 [1, 2, 3, 4, 5, (6 : Int)]).head 1 = .ok [1, 2] := by decide

/-- C27: multi-block writes change exactly the positions of blocks `i .. i+j-1`. -/
theorem C27_write_range (v : BVec V) (hv : v.Ok) (i j : Nat) (hi : i + j ≤ v.n) (x : List V) (hx : x.length = j * v.m) :
    ∃ v', v.setRange i j x = .ok v' ∧ v'.Ok ∧ v'.n = v.n ∧ v'.m = v.m ∧
      ∀ p, v'.data[p]? = if i * v.m ≤ p ∧ p < (i + j) * v.m then x[p - i * v.m]? else v.data[p]? := by
  obtain ⟨d, h1, h2, h3⟩ := segSet_spec v.data (i * v.m) (j * v.m) x
    (by rw [hv, ← Nat.add_mul]; exact Nat.mul_le_mul_right _ hi) hx
  refine ⟨{ v with data := d }, by simp [BVec.setRange, h1], ?_, rfl, rfl, ?_⟩
  · simp [BVec.Ok, h2]; exact hv
  · intro p; rw [h3 p, Nat.add_mul]

end Fdapde.Blocks
