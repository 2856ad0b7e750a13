import Mathlib.Data.List.Basic
import Mathlib.Data.List.Range
/-
Model of the iterators of triangulations: fdaPDE/geometry/triangulation.h and geometry/utils.h:69-117.
Iterators are compared by `index_` (utils.h:115-116).  A traversal
`for (it = begin(); it != end(); ++it) use(*it)` is a loop with fuel; `none` means that the fuel did
not suffice.  Reads of the filter at indices below `n` are in range.
-/
namespace Fdapde.Triang

/-- `for (; index_ < n && skip(index_); ++index_);` with `m = n - index_` steps left. -/
def skipFwd (skip : Nat → Bool) (n : Nat) : Nat → Nat → Nat
  | i, 0 => i
  | i, m + 1 => if i < n && skip i then skipFwd skip n (i + 1) m else i

/-- Forward traversal of an iterator whose increment is `index_++` followed by the skipping loop and
whose value is `index_`. -/
def walkFwd (skip : Nat → Bool) (n : Nat) : Nat → Nat → Option (List Nat)
  | 0, _ => none
  | m + 1, i => if i = n then some [] else
      (walkFwd skip n m (skipFwd skip n (i + 1) (n - (i + 1)))).map (i :: ·)

/-- triangulation.h:210-240 : `edge_iterator` of a 2D triangulation; `edges_begin()` to `edges_end()`
with a filter (`!filter_[index_]` is skipped). -/
def edges2 (filter : Nat → Bool) (n : Nat) : Option (List Nat) :=
  walkFwd (fun i => !filter i) n (n + 1) (skipFwd (fun i => !filter i) n 0 n)

/-- triangulation.h:90-117 : `boundary_nodes_begin()` to `boundary_nodes_end()`; the loops of 97 and
102 skip while `!marker != true`. -/
def boundaryNodes (marker : Nat → Bool) (n : Nat) : Option (List Nat) :=
  walkFwd (fun i => (!marker i) != true) n (n + 1) (skipFwd (fun i => (!marker i) != true) n 0 n)

/-- triangulation.h:72-88 and utils.h:97-101 : `cells_begin()` to `cells_end()`; no element is skipped. -/
def cellIter (n : Nat) : Option (List Nat) := walkFwd (fun _ => false) n (n + 1) 0

/-- triangulation.h:231-238 : `--` of `edge_iterator`; `none` is index -1.  `skipBack filter i` is the
position after decrementing an iterator at index `i`. -/
def skipBack (filter : Nat → Bool) : Nat → Option Nat
  | 0 => none
  | i + 1 => if filter i then some i else skipBack filter i

/-- Backward traversal `it = end(); while (it != begin()) { --it; use(*it); }`; the inner `none` is an
iterator that ran past the first element. -/
def walkBack (filter : Nat → Bool) (b : Nat) : Nat → Nat → Option (List Nat)
  | 0, _ => none
  | m + 1, i => if i = b then some [] else
      match skipBack filter i with
      | none => none
      | some j => (walkBack filter b m j).map (j :: ·)

/-- triangulation.h:251-252 and 231-238 : backward traversal of the edges passing the filter. -/
def edges2Back (filter : Nat → Bool) (n : Nat) : Option (List Nat) :=
  walkBack filter (skipFwd (fun i => !filter i) n 0 n) (n + 1) n

/-- triangulation.h:280-285 : `next_` of the generic iterator of a 3D triangulation; state is
(`index_`, `val_`). -/
def next3 (filter : Nat → Bool) (n : Nat) (s : Nat × Option Nat) : Nat × Option Nat :=
  let i := skipFwd (fun i => !filter i) n s.1 (n - s.1)
  if i = n then (i, s.2) else (i + 1, some i)

/-- Traversal with the generic 3D iterator. -/
def walk3 (filter : Nat → Bool) (n : Nat) : Nat → Nat × Option Nat → Option (List Nat)
  | 0, _ => none
  | m + 1, s => if s.1 = n then some [] else
      match s.2 with
      | none => none
      | some v => (walk3 filter n m (next3 filter n s)).map (v :: ·)

/-- triangulation.h:287-295, 429-446 : edges, faces or boundary faces of a 3D triangulation from begin to
end. -/
def entities3 (filter : Nat → Bool) (n : Nat) : Option (List Nat) :=
  walk3 filter n (n + 1) (next3 filter n (0, none))

/-! ### Lemmas -/

/-- Indices in `[i, n)` that are not skipped. -/
def from' (p : Nat → Bool) (n i : Nat) : List Nat := (List.range' i (n - i)).filter p

theorem from_ge {p : Nat → Bool} {n i : Nat} (h : n ≤ i) : from' p n i = [] := by
  simp [from', Nat.sub_eq_zero_of_le h]

theorem from_lt {p : Nat → Bool} {n i : Nat} (h : i < n) :
    from' p n i = (if p i then [i] else []) ++ from' p n (i + 1) := by
  unfold from'
  rw [show n - i = (n - (i + 1)) + 1 by omega, List.range'_succ, List.filter_cons]
  by_cases hp : p i <;> simp [hp]

theorem skipFwd_spec (skip : Nat → Bool) (n : Nat) : ∀ m i, i + m = n →
    let r := skipFwd skip n i m
    i ≤ r ∧ r ≤ n ∧ (r = n ∨ skip r = false) ∧ from' (fun k => !skip k) n i = from' (fun k => !skip k) n r := by
  intro m
  induction m with
  | zero => intro i h; simp [skipFwd]; omega
  | succ m ih =>
    intro i h
    unfold skipFwd
    by_cases hs : skip i = true
    · have h1 : (i < n && skip i) = true := by simp [hs]; omega
      simp only [h1, if_true]
      obtain ⟨a, b, c, d⟩ := ih (i + 1) (by omega)
      refine ⟨by omega, b, c, ?_⟩
      rw [from_lt (by omega : i < n)]
      simp [hs, d]
    · have h1 : (i < n && skip i) = false := by simp [hs]
      rw [if_neg (by simp [h1])]
      exact ⟨Nat.le_refl _, by omega, Or.inr (by simpa using hs), rfl⟩

theorem walkFwd_spec (skip : Nat → Bool) (n : Nat) : ∀ m i, i ≤ n → n - i < m → (i = n ∨ skip i = false) →
    walkFwd skip n m i = some (from' (fun k => !skip k) n i) := by
  intro m
  induction m with
  | zero => intro i h1 h2; omega
  | succ m ih =>
    intro i h1 h2 h3
    unfold walkFwd
    by_cases hi : i = n
    · rw [if_pos hi, from_ge (by omega)]
    · rw [if_neg hi]
      obtain ⟨a, b, c, d⟩ := skipFwd_spec skip n (n - (i + 1)) (i + 1) (by omega)
      rw [ih _ b (by omega) c, ← d, from_lt (by omega : i < n)]
      simp [h3.resolve_left hi]

theorem walkFwd_all (skip : Nat → Bool) (n : Nat) :
    walkFwd skip n (n + 1) (skipFwd skip n 0 n) = some ((List.range n).filter fun i => !skip i) := by
  obtain ⟨a, b, c, d⟩ := skipFwd_spec skip n n 0 (by omega)
  rw [walkFwd_spec skip n _ _ b (by omega) c, ← d]
  simp [from', List.range_eq_range']

/-- Indices below `i` that pass. -/
theorem skipBack_spec (filter : Nat → Bool) : ∀ i,
    (skipBack filter i = none ∧ (List.range i).filter filter = []) ∨
    ∃ j, skipBack filter i = some j ∧ j < i ∧ filter j = true ∧
      (List.range i).filter filter = (List.range j).filter filter ++ [j] := by
  intro i
  induction i with
  | zero => left; simp [skipBack]
  | succ i ih =>
    unfold skipBack
    rw [List.range_succ, List.filter_append]
    by_cases hf : filter i = true
    · right; exact ⟨i, by simp [hf], by omega, hf, by simp [hf]⟩
    · simp only [hf]
      rcases ih with ⟨h1, h2⟩ | ⟨j, h1, h2, h3, h4⟩
      · left; simp [h1, h2, hf]
      · right; exact ⟨j, by simpa using h1, by omega, h3, by simp [h4, hf]⟩

theorem walkBack_spec (filter : Nat → Bool) (b : Nat) (hb : (List.range b).filter filter = []) : ∀ m i, b ≤ i → i - b < m →
    ((∃ k, b ≤ k ∧ k < i ∧ filter k = true ∧ k = b) ∨ i = b) →
    walkBack filter b m i = some ((List.range i).filter filter).reverse := by
  intro m
  induction m with
  | zero => intro i h1 h2; omega
  | succ m ih =>
    intro i h1 h2 h3
    unfold walkBack
    by_cases hi : i = b
    · rw [if_pos hi, hi, hb]; rfl
    · rw [if_neg hi]
      rcases skipBack_spec filter i with ⟨_, e⟩ | ⟨j, e1, e2, e3, e4⟩
      · exfalso
        rcases h3 with ⟨k, _, hk2, hk3, _⟩ | h3
        · have : k ∈ (List.range i).filter filter := by simp [hk2, hk3]
          rw [e] at this; simp at this
        · exact hi h3
      · rw [e1]
        simp only
        have hbj : b ≤ j := by
          by_contra hlt
          have : j ∈ (List.range b).filter filter := by simp [e3]; omega
          rw [hb] at this; simp at this
        rw [ih j hbj (by omega) ?_]
        · simp [e4]
        · by_cases hjb : j = b
          · exact Or.inr hjb
          · left
            rcases h3 with ⟨k, hk1, hk2, hk3, hk4⟩ | h3
            · exact ⟨k, hk1, by omega, hk3, hk4⟩
            · omega

theorem next3_spec (filter : Nat → Bool) (n : Nat) (s : Nat × Option Nat) (h : s.1 ≤ n) :
    (from' filter n s.1 = [] ∧ (next3 filter n s).1 = n) ∨
    ∃ i, s.1 ≤ i ∧ i < n ∧ next3 filter n s = (i + 1, some i) ∧ from' filter n s.1 = i :: from' filter n (i + 1) := by
  obtain ⟨a, b, c, d⟩ := skipFwd_spec (fun i => !filter i) n (n - s.1) s.1 (by omega)
  simp only [Bool.not_not] at d
  unfold next3
  by_cases hn : skipFwd (fun i => !filter i) n s.1 (n - s.1) = n
  · left
    simp only [hn, if_true, and_true]
    rw [d, hn, from_ge (by omega)]
  · right
    refine ⟨_, a, by omega, by simp [hn], ?_⟩
    have hc := c.resolve_left hn
    simp at hc
    rw [d, from_lt (by omega)]
    simp [hc]

/-- The generic iterator yields everything but the last index. -/
theorem walk3_spec (filter : Nat → Bool) (n : Nat) : ∀ m i v, i ≤ n → n - i < m → i = v + 1 → 
    walk3 filter n m (i, some v) = some (if i = n then [] else v :: (from' filter n i).filter (fun k => decide (k + 1 < n))) := by
  intro m
  induction m with
  | zero => intro i v h1 h2; omega
  | succ m ih =>
    intro i v h1 h2 h3
    unfold walk3
    by_cases hi : i = n
    · simp [hi]
    · simp only [if_neg hi]
      rcases next3_spec filter n (i, some v) h1 with ⟨e1, e2⟩ | ⟨j, e1, e2, e3, e4⟩
      · simp only at e1
        rw [e1]
        cases m with
        | zero => omega
        | succ m => 
          unfold walk3
          rw [if_pos e2]
          simp
      · simp only at e1 e4
        rw [e3, ih (j + 1) j (by omega) (by omega) rfl, e4]
        by_cases hj : j + 1 = n
        · simp [hj, from_ge (Nat.le_refl n)]
        · simp only [if_neg hj, List.filter_cons]
          have : j + 1 < n := by omega
          simp [this]

theorem entities3_spec (filter : Nat → Bool) (n : Nat) :
    entities3 filter n = some ((List.range (n - 1)).filter filter) := by
  have hE : (List.range (n - 1)).filter filter = (from' filter n 0).filter (fun k => decide (k + 1 < n)) := by
    unfold from'
    rw [List.filter_filter, ← List.range_eq_range']
    rcases n with _ | n
    · simp
    · simp only [Nat.add_sub_cancel, Nat.sub_zero]
      rw [List.range_succ, List.filter_append]
      simp
      apply List.filter_congr
      intro k hk
      simp at hk
      simp [hk]
  rw [hE]
  unfold entities3
  rcases next3_spec filter n (0, none) (Nat.zero_le _) with ⟨e1, e2⟩ | ⟨j, e1, e2, e3, e4⟩
  · simp only at e1
    rw [e1]
    unfold walk3
    rw [if_pos e2]
    simp
  · simp only at e4
    rw [e3, walk3_spec filter n _ _ _ (by omega) (by omega) rfl, e4]
    by_cases hj : j + 1 = n
    · simp [hj, from_ge (Nat.le_refl n)]
    · simp only [if_neg hj, List.filter_cons]
      have : j + 1 < n := by omega
      simp [this]

end Fdapde.Triang
