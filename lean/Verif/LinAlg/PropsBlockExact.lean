import Verif.LinAlg.PropsBlock
/- C38: when the iteration of a block matrix is right. -/
namespace Fdapde.LinAlg
variable {R : Type}

theorem colCode_eq_iff (h0 : Nat) (bs : List (Nat × List (Nat × R))) (o o' : Nat) :
    colCode h0 o bs = colSpec o' bs ↔
      ∀ k b, bs[k]? = some b → b.2 ≠ [] → o + k * h0 = o' + ((bs.take k).map Prod.fst).sum := by
  induction bs generalizing o o' with
  | nil => simp [colCode, colSpec]
  | cons b bs ih =>
    obtain ⟨h, l⟩ := b
    have hinj : (colCode h0 o ((h, l) :: bs) = colSpec o' ((h, l) :: bs)) ↔
        (l.map (fun p => (o + p.1, p.2)) = l.map (fun p => (o' + p.1, p.2)) ∧ colCode h0 (o + h0) bs = colSpec (o' + h) bs) := by
      simp only [colCode, colSpec]
      exact ⟨fun e => List.append_inj e (by simp), fun e => by rw [e.1, e.2]⟩
    rw [hinj, ih]
    constructor
    · rintro ⟨h1, h2⟩ k b hb hne
      cases k with
      | zero =>
        simp only [List.getElem?_cons_zero, Option.some.injEq] at hb
        subst hb
        obtain ⟨p, l', rfl⟩ := List.exists_cons_of_ne_nil hne
        simp only [List.map_cons, List.cons.injEq, Prod.mk.injEq] at h1
        simp; omega
      | succ k =>
        have := h2 k b (by simpa using hb) hne
        simp only [List.take_succ_cons, List.map_cons, List.sum_cons, Nat.add_mul, Nat.one_mul]
        omega
    · intro H
      refine ⟨?_, fun k b hb hne => ?_⟩
      · by_cases hl : l = []
        · rw [hl]; rfl
        · have := H 0 (h, l) (by simp) hl
          simp only [Nat.zero_mul, Nat.add_zero, List.take_zero, List.map_nil, List.sum_nil] at this
          rw [this]
      · have := H (k + 1) b (by simpa using hb) hne
        simp only [List.take_succ_cons, List.map_cons, List.sum_cons, Nat.add_mul, Nat.one_mul] at this
        omega

/-- Exactly when iterating a column of a block matrix visits the stored entries with their rows: when, above every block of the column which stores
an entry, the blocks are as high in total as if all had the height of the first one.  The heights of the blocks below
the last entry do not matter.  Any number of block rows. -/
theorem C38_when_right (colB : List (Nat × List (Nat × R))) (hne : colB ≠ []) :
    (∃ it, SBIt.make colB = some it ∧ ∀ f, nnz colB < f →
      SBIt.collect colB f it = some ((colSpec 0 colB).map fun x => ((x.1 : Int), some x.2))) ↔
    ∀ k b, colB[k]? = some b → b.2 ≠ [] → ((colB.take k).map Prod.fst).sum = k * (colB.getD 0 (0, [])).1 := by
  obtain ⟨it, h1, h2⟩ := sb_collect colB hne
  have key := colCode_eq_iff (colB.getD 0 (0, [])).1 colB 0 0
  simp only [Nat.zero_add] at key
  constructor
  · rintro ⟨it', h1', h2'⟩ k b hb hb0
    rw [h1] at h1'; cases h1'
    have e := h2' (nnz colB + 1) (by omega)
    rw [h2 _ (by omega), Option.some.injEq] at e
    have e' : colCode (colB.getD 0 (0, [])).1 0 colB = colSpec 0 colB := by
      refine List.map_injective_iff.2 ?_ e
      rintro ⟨a, b⟩ ⟨c, d⟩ he
      simp only [Prod.mk.injEq, Int.natCast_inj, Option.some.injEq] at he
      rw [he.1, he.2]
    exact (key.1 e' k b hb hb0).symm
  · intro H
    refine ⟨it, h1, fun f hf => ?_⟩
    rw [h2 f hf, key.2 fun k b hb hb0 => (H k b hb hb0).symm]

/-- Heights 2, 3, 1, 4: right when only the first two and the fourth block store entries (2 + 3 + 1 = 3 · 2), wrong as soon as the third does. -/
example : (∃ it, SBIt.make [(2, [(1, (5 : Int))]), (3, [(0, 7)]), (1, []), (4, [(3, 1)])] = some it ∧ ∀ f, 3 < f →
      SBIt.collect [(2, [(1, (5 : Int))]), (3, [(0, 7)]), (1, []), (4, [(3, 1)])] f it = some [(1, some 5), (2, some 7), (9, some 1)]) ∧
    ¬ ∀ k b, [(2, [(1, (5 : Int))]), (3, [(0, 7)]), (1, [(0, 1)]), (4, [(3, 1)])][k]? = some b → b.2 ≠ [] →
      (([(2, [(1, (5 : Int))]), (3, [(0, 7)]), (1, [(0, 1)]), (4, [(3, 1)])].take k).map Prod.fst).sum = k * 2 := by
  constructor
  · refine (C38_when_right _ (by simp)).2 ?_
    intro k b hb hne
    match k with
    | 0 => rfl
    | 1 => rfl
    | 2 => simp at hb; subst hb; simp at hne
    | 3 => rfl
    | k + 4 => simp at hb
  · intro H
    have := H 2 (1, [(0, 1)]) rfl (by simp)
    simp at this

end Fdapde.LinAlg
