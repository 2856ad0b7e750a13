import Verif.Utils.TypeLists
import Mathlib.Data.List.Basic
import Mathlib.Data.List.Nodup
import Mathlib.Tactic.Ring

/-! # Properties of the compile-time list utilities (C81) -/

namespace Fdapde.Utils

variable {T : Type} [DecidableEq T]

/-- **C81.** `has_type` is membership. -/
theorem C81_has_type (t : T) (ts : List T) : hasType t ts = true ↔ t ∈ ts := by
  induction ts with
  | nil => simp [hasType]
  | cons u us ih =>
      unfold hasType
      by_cases h : u = t
      · simp [h]
      · rw [if_neg h, ih, List.mem_cons]
        exact ⟨Or.inr, fun h' => h'.resolve_left fun e => h e.symm⟩

/-- **C81.** `unique_types` is true exactly for lists without repetitions. -/
theorem C81_unique_types (ts : List T) (h : ts ≠ []) : uniqueTypes ts = some (decide ts.Nodup) := by
  fun_induction uniqueTypes ts with
  | case1 => exact absurd rfl h
  | case2 t => simp
  | case3 t1 t2 => simp
  | case4 t1 t2 t ts ih1 ih2 =>
      rw [ih1 (by simp), ih2 (by simp)]
      simp only [Option.bind_eq_bind, Option.bind_some, pure, Option.some.injEq]
      rw [Bool.eq_iff_iff]
      simp only [Bool.and_eq_true, decide_eq_true_eq, List.nodup_cons, List.mem_cons, not_or, ne_eq]
      tauto

theorem foldIdx_absent (t : T) (k : Nat) (ts : List T) (h : t ∉ ts) : foldIdx t k ts = 0 := by
  induction ts generalizing k with
  | nil => rfl
  | cons u us ih =>
      simp only [List.mem_cons, not_or] at h
      rw [foldIdx, if_neg h.1, ih (k + 1) h.2]

theorem foldIdx_unique (t : T) (k : Nat) (ts : List T) (hu : ts.Nodup) (i : Nat) (hi : ts[i]? = some t) : foldIdx t k ts = k + i + 1 := by
  induction ts generalizing k i with
  | nil => simp at hi
  | cons u us ih =>
      rw [List.nodup_cons] at hu
      cases i with
      | zero =>
          have : u = t := by simpa using hi
          subst this
          rw [foldIdx, if_pos rfl, foldIdx_absent _ _ _ hu.1]
      | succ i =>
          have hi' : us[i]? = some t := by simpa using hi
          have hne : t ≠ u := by
            rintro rfl
            exact hu.1 (List.mem_of_getElem? hi')
          rw [foldIdx, if_neg hne, ih (k + 1) hu.2 i hi']
          omega

/-- **C81.** `index_of`: the position in a list without repetitions, `-1` for a type which is not in the list. -/
theorem C81_index_of (t : T) (ts : List T) (hne : ts ≠ []) :
    (ts.Nodup → ∀ i : Nat, ts[i]? = some t → indexOf t ts = some (i : Int)) ∧ (t ∉ ts → indexOf t ts = some (-1)) := by
  unfold indexOf
  rw [if_neg hne]
  constructor
  · intro hu i hi
    rw [foldIdx_unique t 0 ts hu i hi]
    congr 1
    push_cast
    ring
  · intro h
    rw [foldIdx_absent t 0 ts h]
    rfl

/-- `index_of` in a list with repetitions is not a position of the type: the fold adds up all of them. -/
theorem C81_bug_index_of_repeated : indexOf 'a' ['a', 'b', 'a'] = some 3 := by decide

theorem getRange_eq {α : Type} (m n : Nat) (ts : List α) (h : m + n ≤ ts.length) : getRange m n ts = some ((ts.drop m).take n) := by
  unfold getRange
  induction n with
  | zero => simp
  | succ n ih =>
      rw [List.range_succ, List.mapM_append, ih (by omega)]
      simp only [List.mapM_cons, List.mapM_nil, List.getElem?_eq_getElem (by omega : m + n < ts.length), List.take_add_one, List.getElem?_drop]
      rfl

/-- **C81.** `split_tuple_at_index<N>`: the first `N` entries and the others. -/
theorem C81_split {α : Type} (n : Nat) (ts : List α) (h : n ≤ ts.length) :
    splitHead n ts = some (ts.take n) ∧ splitTail n ts = some (ts.drop n) := by
  constructor
  · unfold splitHead
    rw [getRange_eq 0 n ts (by omega)]
    rfl
  · unfold splitTail
    rw [if_pos h, getRange_eq n _ ts (by omega), List.take_of_length_le (by simp)]

/-- **C81.** `switch_type` selects the first case which is true, and does not compile without one. -/
theorem C81_switch {α : Type} (cases : List (Bool × α)) : switchType cases = (cases.find? (·.1)).map Prod.snd := by
  induction cases with
  | nil => rfl
  | cons c cs ih =>
      obtain ⟨b, t⟩ := c
      cases cs with
      | nil => cases b <;> simp [switchType]
      | cons c cs =>
          rw [switchType.eq_3 _ _ _ (by simp), ih]
          cases b <;> simp

theorem getImpl_eq {α : Type} (i n : Nat) (ts : List α) (h1 : n ≤ i) (h2 : i < n + ts.length) : getImpl i n ts = ts[i - n]? := by
  have some_of : ∀ (ts : List α) n, ts ≠ [] → ∃ r, getImpl i n ts = some r := by
    intro ts
    induction ts with
    | nil => intro n h; exact absurd rfl h
    | cons t ts ih =>
        intro n _
        cases ts with
        | nil => exact ⟨t, rfl⟩
        | cons u us =>
            obtain ⟨r, hr⟩ := ih (n + 1) (by simp)
            rw [getImpl.eq_3 _ _ _ _ (by simp), hr]
            exact ⟨_, rfl⟩
  induction ts generalizing n with
  | nil => simp at h2; omega
  | cons t ts ih =>
      cases ts with
      | nil =>
          have : i - n = 0 := by simp at h2; omega
          rw [this]
          rfl
      | cons u us =>
          rw [getImpl.eq_3 _ _ _ _ (by simp)]
          by_cases hn : n = i
          · obtain ⟨r, hr⟩ := some_of (u :: us) (n + 1) (by simp)
            rw [hr]
            simp [hn]
          · rw [ih (n + 1) (by omega) (by simp at h2 ⊢; omega)]
            have : i - n = (i - (n + 1)) + 1 := by omega
            rw [this, List.getElem?_cons_succ]
            simp only [if_neg hn]
            cases (u :: us)[i - (n + 1)]? <;> rfl

/-- **C81.** `get<I, TypeList<Ts...>>` is the `I`-th entry; out of range does not compile. -/
theorem C81_get {α : Type} (i : Nat) (ts : List α) : typeListGet i ts = ts[i]? := by
  unfold typeListGet
  by_cases h : i < ts.length
  · rw [if_pos h, getImpl_eq i 0 ts (Nat.zero_le _) (by omega)]
    rfl
  · rw [if_neg h, List.getElem?_eq_none (by omega)]

/-- **C81.** `merge` concatenates all the lists. -/
theorem C81_merge {α : Type} (l : List (List α)) (h : l ≠ []) : mergeLists l = some l.flatten := by
  fun_induction mergeLists l with
  | case1 => exact absurd rfl h
  | case2 v => simp
  | case3 v1 v2 vs ih =>
      rw [ih (by simp)]
      simp

/-- **C81.** `has_instance_of<E, ..>` finds the instances `E<F>` with exactly one argument. -/
theorem C81_has_instance_of (e : Nat) (ts : List Ty) : hasInstanceOf e ts = true ↔ ∃ f, Ty.app e [f] ∈ ts := by
  induction ts with
  | nil => simp [hasInstanceOf]
  | cons t ts ih =>
      unfold hasInstanceOf
      split
      · rename_i h; cases h
      · rename_i f a us h
        simp only [List.cons.injEq] at h
        obtain ⟨rfl, rfl⟩ := h
        by_cases hf : f = e
        · subst hf
          simp
        · rw [if_neg hf, ih]
          constructor
          · rintro ⟨x, hx⟩; exact ⟨x, by simp [hx]⟩
          · rintro ⟨x, hx⟩
            rcases List.mem_cons.mp hx with h | h
            · simp only [Ty.app.injEq] at h
              exact absurd h.1.symm hf
            · exact ⟨x, h⟩
      · rename_i u us hu h
        simp only [List.cons.injEq] at h
        obtain ⟨rfl, rfl⟩ := h
        rw [ih]
        constructor
        · rintro ⟨x, hx⟩; exact ⟨x, by simp [hx]⟩
        · rintro ⟨x, hx⟩
          rcases List.mem_cons.mp hx with h | h
          · exact (hu e x h.symm).elim
          · exact ⟨x, h⟩

/-- `is_instance_of` is true exactly on the instances of the template, with any number of arguments. -/
theorem C81_is_instance_of (e : Nat) (t : Ty) : isInstanceOf e t = true ↔ ∃ args, t = .app e args := by
  cases t with
  | prim id => simp [isInstanceOf]
  | app f args => simp [isInstanceOf]

/-- Instances with two arguments, which `is_instance_of` recognises, are not found by `has_instance_of`. -/
theorem C81_bug_two_arguments (e : Nat) (a b : Ty) : isInstanceOf e (.app e [a, b]) = true ∧ hasInstanceOf e [.app e [a, b]] = false := by
  constructor
  · simp [isInstanceOf]
  · rfl

example : uniqueTypes [1, 2, 3, 4] = some true ∧ uniqueTypes [1, 2, 3, 1] = some false := by
  constructor
  · rw [C81_unique_types _ (by simp)]; decide
  · rw [C81_unique_types _ (by simp)]; decide
example : indexOf 'c' ['a', 'b', 'c'] = some 2 ∧ indexOf 'z' ['a', 'b', 'c'] = some (-1) := by decide
example : splitHead 2 [1, 2, 3] = some [1, 2] ∧ splitTail 2 [1, 2, 3] = some [3] := by decide
example : switchType [(false, 'a'), (true, 'b'), (true, 'c')] = some 'b' := by decide
example : typeListGet 1 ['a', 'b', 'c'] = some 'b' := by decide

end Fdapde.Utils
