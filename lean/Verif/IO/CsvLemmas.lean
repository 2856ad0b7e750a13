import Verif.IO.CsvSpec
import Mathlib.Tactic.SplitIfs
import Mathlib.Tactic.Linarith

/-! # CSV files: lemmas -/

namespace Fdapde.IO

theorem find_none {sep s : List Char} (h : find sep s = none) (k : Nat) : ¬ sep <+: s.drop k := by
  induction s generalizing k with
  | nil =>
      unfold find at h
      split_ifs at h with h1
      intro h2
      apply h1
      rw [List.isPrefixOf_iff_prefix]
      simpa using h2
  | cons c s ih =>
      unfold find at h
      split_ifs at h with h1
      simp only [Option.map_eq_none_iff] at h
      cases k with
      | zero =>
          intro h2
          exact h1 (List.isPrefixOf_iff_prefix.2 h2)
      | succ k => exact ih h k

theorem find_some {sep s : List Char} {j : Nat} (h : find sep s = some j) : j ≤ s.length ∧ sep <+: s.drop j ∧ ∀ k < j, ¬ sep <+: s.drop k := by
  induction s generalizing j with
  | nil =>
      unfold find at h
      split_ifs at h with h1
      cases h
      exact ⟨Nat.le_refl _, List.isPrefixOf_iff_prefix.1 h1, fun k hk => absurd hk (Nat.not_lt_zero _)⟩
  | cons c s ih =>
      unfold find at h
      split_ifs at h with h1
      · cases h
        exact ⟨Nat.zero_le _, List.isPrefixOf_iff_prefix.1 h1, fun k hk => absurd hk (Nat.not_lt_zero _)⟩
      · rw [Option.map_eq_some_iff] at h
        obtain ⟨j', h2, rfl⟩ := h
        obtain ⟨i1, i2, i3⟩ := ih h2
        refine ⟨by simp; omega, i2, ?_⟩
        intro k hk
        cases k with
        | zero =>
            intro h3
            exact h1 (List.isPrefixOf_iff_prefix.2 h3)
        | succ k => exact i3 k (by omega)

/-- An infix of a prefix occurs at one of its positions. -/
theorem infix_drop {sep t : List Char} (h : sep <:+: t) : ∃ k, k + sep.length ≤ t.length ∧ sep <+: t.drop k := by
  obtain ⟨a, b, rfl⟩ := h
  refine ⟨a.length, by simp, ?_⟩
  simp

theorem splitLoop_ok (sep : List Char) (hs : sep ≠ []) : ∀ (k : Nat) (s : List Char), s.length < k →
    ∃ l, splitLoop sep k s = some l ∧ l ≠ [] ∧ sep.intercalate l = s ∧ ∀ t ∈ l, ¬ sep <:+: t := by
  intro k
  induction k with
  | zero => intro s h; exact absurd h (Nat.not_lt_zero _)
  | succ k ih =>
      intro s hk
      unfold splitLoop
      cases hf : find sep s with
      | none =>
          refine ⟨[s], rfl, by simp, by simp, ?_⟩
          intro t ht
          rw [List.mem_singleton] at ht
          subst ht
          intro h
          obtain ⟨j, _, h2⟩ := infix_drop h
          exact find_none hf j h2
      | some j =>
          obtain ⟨h1, h2, h3⟩ := find_some hf
          have hlen : 0 < sep.length := List.length_pos_iff.2 hs
          obtain ⟨r, hr⟩ := h2
          have hl := congrArg List.length hr
          simp only [List.length_append, List.length_drop] at hl
          obtain ⟨l, g1, g2, g3, g4⟩ := ih (s.drop (j + sep.length)) (by simp; omega)
          refine ⟨s.take j :: l, by simp only [g1, Option.map_some], by simp, ?_, ?_⟩
          · cases l with
            | nil => exact absurd rfl g2
            | cons a l =>
                have hcat : sep.intercalate (s.take j :: a :: l) = s.take j ++ sep ++ sep.intercalate (a :: l) := by
                  simp [List.intercalate, List.intersperse]
                rw [hcat, g3]
                have : s.drop (j + sep.length) = r := by
                  rw [← List.drop_drop, ← hr]
                  simp
                rw [this, List.append_assoc, hr, List.take_append_drop]
          · intro t ht
            rcases List.mem_cons.1 ht with rfl | ht
            · intro h
              obtain ⟨k', e1, e2⟩ := infix_drop h
              simp only [List.length_take] at e1
              have hkj : k' < j := by omega
              apply h3 k' hkj
              rw [List.drop_take] at e2
              exact e2.trans (List.take_prefix _ _)
            · exact g4 t ht

theorem find_char_mem {c : Char} {t s : List Char} (h : c ∉ t) : find [c] (t ++ c :: s) = some t.length := by
  induction t with
  | nil => simp [find]
  | cons a t ih =>
      simp only [List.mem_cons, not_or] at h
      have e : ([c].isPrefixOf (a :: (t ++ c :: s))) = false := by
        simp [List.isPrefixOf, h.1]
      rw [List.cons_append, find, e]
      simp [ih h.2]

theorem find_char_none {c : Char} {t : List Char} (h : c ∉ t) : find [c] t = none := by
  induction t with
  | nil => simp [find]
  | cons a t ih =>
      simp only [List.mem_cons, not_or] at h
      have e : ([c].isPrefixOf (a :: t)) = false := by simp [List.isPrefixOf, h.1]
      rw [find, e]
      simp [ih h.2]

theorem splitLoop_roundtrip (c : Char) : ∀ (l : List (List Char)), l ≠ [] → (∀ t ∈ l, c ∉ t) →
    ∀ k, ([c].intercalate l).length < k → splitLoop [c] k ([c].intercalate l) = some l
  | [], h, _, _, _ => absurd rfl h
  | [t], _, h, k, hk => by
      cases k with
      | zero => exact absurd hk (Nat.not_lt_zero _)
      | succ k =>
          have e : [c].intercalate [t] = t := by simp
          rw [e]
          unfold splitLoop
          rw [find_char_none (h t (by simp))]
  | t :: t' :: l, _, h, k, hk => by
      cases k with
      | zero => exact absurd hk (Nat.not_lt_zero _)
      | succ k =>
          have e : [c].intercalate (t :: t' :: l) = t ++ c :: [c].intercalate (t' :: l) := by
            simp [List.intercalate, List.intersperse]
          rw [e] at hk ⊢
          simp only [List.length_append, List.length_cons] at hk
          have ih := splitLoop_roundtrip c (t' :: l) (by simp) (fun x hx => h x (by simp at hx ⊢; tauto)) k (by omega)
          unfold splitLoop
          rw [find_char_mem (h t (by simp))]
          have e2 : (t ++ c :: [c].intercalate (t' :: l)).drop (t.length + [c].length) = [c].intercalate (t' :: l) := by
            rw [← List.drop_drop]
            simp
          simp only [e2, ih, Option.map_some, List.take_left]

theorem splitComma_line (l : List (List Char)) (h : l ≠ []) (hp : ∀ t ∈ l, ',' ∉ t) : splitComma (csvLine l) = l := by
  unfold splitComma csvLine
  rw [splitLoop_roundtrip ',' l h hp _ (Nat.lt_succ_self _)]
  rfl

theorem removeChars_eq (cs s : List Char) : removeChars cs s = s.filter (fun c => c ∉ cs) := by
  have key : ∀ (s r : List Char), s.foldl (fun r c => if c ∈ cs then r else r ++ [c]) r = r ++ s.filter (fun c => c ∉ cs) := by
    intro s
    induction s with
    | nil => intro r; simp
    | cons c s ih =>
        intro r
        rw [List.foldl_cons, ih]
        by_cases h : c ∈ cs
        · simp [h]
        · simp [h]
  unfold removeChars
  rw [key]
  rfl

theorem removeChars_stripped (t : List Char) : removeChars filter t = stripped t := by
  rw [removeChars_eq]
  unfold stripped filter
  congr 1
  funext c
  simp

theorem getline_cons (l t : List Char) (h : '\n' ∉ l) : getline (l ++ '\n' :: t) = some (l, t) := by
  have h1 : ∀ x ∈ l, (decide (x ≠ '\n')) = true := by
    intro x hx
    have : x ≠ '\n' := fun e => h (e ▸ hx)
    simpa using this
  cases l with
  | nil => simp [getline]
  | cons a l =>
      have e : (a :: l) ++ '\n' :: t = a :: (l ++ '\n' :: t) := rfl
      unfold getline
      rw [e]
      show some _ = _
      rw [← e]
      rw [List.takeWhile_append_of_pos h1, List.dropWhile_append_of_pos h1]
      simp

theorem getline_last (l : List Char) (hl : l ≠ []) (h : '\n' ∉ l) : getline l = some (l, []) := by
  have h1 : ∀ x ∈ l, (decide (x ≠ '\n')) = true := by
    intro x hx
    have : x ≠ '\n' := fun e => h (e ▸ hx)
    simpa using this
  cases l with
  | nil => exact absurd rfl hl
  | cons a l =>
      unfold getline
      show some _ = _
      have e1 := List.takeWhile_append_of_pos (l₂ := []) h1
      have e2 := List.dropWhile_append_of_pos (l₂ := []) h1
      simp only [List.append_nil, List.takeWhile_nil, List.dropWhile_nil] at e1 e2
      rw [e1, e2]
      rfl

theorem readLines_text {ls : List (List Char)} {t : List Char} (h : IsText ls t) : ∀ k, t.length ≤ k → readLines k t = ls := by
  induction h with
  | nil => intro k _; cases k <;> rfl
  | last l hl hn =>
      intro k hk
      cases k with
      | zero =>
          have : l = [] := List.length_eq_zero_iff.1 (by omega)
          exact absurd this hl
      | succ k =>
          unfold readLines
          rw [getline_last l hl hn]
          cases k <;> rfl
  | cons l ls t hn _ ih =>
      intro k hk
      simp only [List.length_append, List.length_cons] at hk
      cases k with
      | zero => omega
      | succ k =>
          unfold readLines
          rw [getline_cons l t hn]
          show l :: readLines k t = _
          rw [ih k (by omega)]

theorem text_head {l : List Char} {ls : List (List Char)} {t : List Char} (h : IsText (l :: ls) t) :
    ∃ r, getline t = some (l, r) ∧ readLines (t.length + 1) r = ls := by
  cases h with
  | last _ hl hn => exact ⟨[], getline_last l hl hn, by rfl⟩
  | cons _ _ r hn h =>
      refine ⟨r, getline_cons l r hn, readLines_text h _ ?_⟩
      simp only [List.length_append, List.length_cons]
      omega

end Fdapde.IO
