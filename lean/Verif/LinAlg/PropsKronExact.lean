import Verif.LinAlg.PropsKron
/- C36: when the columns of a sparse Kronecker product can be iterated. -/
namespace Fdapde.LinAlg
variable {R : Type} [CommRing R]

/-- Compressed storage: the columns follow each other and fill the storage. -/
structure Compressed (A : Sp R) : Prop where
  mono : ∀ j < A.cols, A.start j ≤ A.start (j + 1)
  last : A.start A.cols = A.data.length

theorem Compressed.le {A : Sp R} (h : Compressed A) {i : Nat} : ∀ n, i + n ≤ A.cols → A.start i ≤ A.start (i + n) := by
  intro n
  induction n with
  | zero => intro _; rfl
  | succ n ih => intro hn; exact (ih (by omega)).trans (h.mono (i + n) (by omega))

theorem Compressed.tail {A : Sp R} (h : Compressed A) {j : Nat} (hj : j ≤ A.cols) :
    A.start j < A.data.length ↔ ∃ k, j ≤ k ∧ k < A.cols ∧ A.col k ≠ [] := by
  constructor
  · intro hs
    by_contra hc
    have key : ∀ n, j + n ≤ A.cols → A.start (j + n) = A.start j := by
      intro n
      induction n with
      | zero => intro _; rfl
      | succ n ih =>
        intro hn
        have e : A.col (j + n) = [] := by
          by_contra hne
          exact hc ⟨j + n, by omega, by omega, hne⟩
        have h1 := h.mono (j + n) (by omega)
        have h2 := ih (by omega)
        by_contra hne
        have h3 : A.start (j + n) < A.start (j + n + 1) := by
          refine lt_of_le_of_ne h1 fun e' => hne ?_
          rw [← h2]; exact e'.symm
        have h4 : (A.data[A.start (j + n)]?) = some (A.data[A.start (j + n)]'(by omega)) := List.getElem?_eq_getElem (by omega)
        have := (mem_col A (j + n) _).2 ⟨A.start (j + n), le_rfl, h3, h4⟩
        rw [e] at this
        simp at this
    have := key (A.cols - j) (by omega)
    rw [show j + (A.cols - j) = A.cols by omega, h.last] at this
    omega
  · rintro ⟨k, h1, h2, h3⟩
    obtain ⟨x, hx⟩ := List.exists_mem_of_ne_nil _ h3
    obtain ⟨p, p1, p2, p3⟩ := (mem_col A k x).1 hx
    have h4 := h.le (i := j) (k - j) (by omega)
    rw [show j + (k - j) = k by omega] at h4
    have := (List.getElem?_eq_some_iff.1 p3).1
    omega

/-- **C36**: column `j` of the product of two sparse matrices can be iterated if and only if column j / cb of A or a later one has a stored entry; then the
iteration is right (C36_column_partial).  Otherwise constructing the iterator reads past the end of the storage of A. -/
theorem C36_when_right (A B : Sp R) (hA : Compressed A) (j : Nat) (hB : 0 < B.cols) (hj : j < A.cols * B.cols) :
    ((∃ k, j / B.cols ≤ k ∧ k < A.cols ∧ A.col k ≠ []) → ∃ it, KIt.make A B j = .ok it ∧
      ∀ f, (A.col (j / B.cols)).length * (B.col (j % B.cols)).length < f → KIt.collect B.rows f it =
        some ((kronColSpec B.rows (A.col (j / B.cols)) (B.col (j % B.cols))).map fun x => ((x.1 : Int), some x.2))) ∧
    ((∀ k, j / B.cols ≤ k → k < A.cols → A.col k = []) → KIt.make A B j = .ub) := by
  have hjl : j / B.cols < A.cols := (Nat.div_lt_iff_lt_mul hB).2 hj
  refine ⟨fun h => C36_column_partial A B j hB ((hA.tail hjl.le).2 h), fun h => ?_⟩
  have hs : ¬A.start (j / B.cols) < A.data.length := fun hs => by
    obtain ⟨k, h1, h2, h3⟩ := (hA.tail hjl.le).1 hs
    exact h3 (h k h1 h2)
  rw [KIt.make, if_neg (by omega)]
  simp only
  rw [List.getElem?_eq_none (by omega)]

/-- **C36**: every product whose left operand has an empty last column reads past the end of the storage when its last column is iterated. -/
theorem C36_bug_last_column (A B : Sp R) (hA : Compressed A) (hB : 0 < B.cols) (hc : 0 < A.cols) (he : A.col (A.cols - 1) = []) :
    KIt.make A B (A.cols * B.cols - 1) = .ub := by
  have hpos : 0 < A.cols * B.cols := Nat.mul_pos hc hB
  refine (C36_when_right A B hA _ hB (by omega)).2 fun k h1 h2 => ?_
  have : (A.cols * B.cols - 1) / B.cols = A.cols - 1 := by
    refine Nat.div_eq_of_lt_le ?_ ?_
    · rw [Nat.sub_mul, one_mul]; omega
    · rw [Nat.sub_add_cancel hc]; omega
  rw [this] at h1
  rw [show k = A.cols - 1 by omega, he]

/-- The operand of `C36_bug_empty_column` is in compressed storage; its first column can be iterated. -/
example : Compressed demoA ∧ KIt.make demoA demoB 3 = .ub ∧ ∃ it, KIt.make demoA demoB 0 = .ok it := by
  have h : Compressed demoA := ⟨fun j hj => by simp only [demoA]; split <;> split <;> omega, rfl⟩
  refine ⟨h, C36_bug_last_column demoA demoB h (by decide) (by decide) rfl, ?_⟩
  obtain ⟨it, e, -⟩ := (C36_when_right demoA demoB h 0 (by decide) (by decide)).1 ⟨0, by decide, by decide, by decide⟩
  exact ⟨it, e⟩

end Fdapde.LinAlg
