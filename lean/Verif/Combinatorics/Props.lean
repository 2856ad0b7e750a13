import Verif.Combinatorics.Lemmas
/- Property C41. -/
namespace Fdapde.Combinatorics

/-- `combinations<K,N>()` for all `K ≤ N`: the loop fills exactly the `binom(N,K)` rows of the result
without writing outside; the rows are exactly the strictly increasing lists of `K` numbers below `N`,
in strictly increasing lexicographic order (hence all distinct). -/
theorem C41_combinations (K N : Nat) (h : K ≤ N) :
    ∃ rows, combinations K N = .ok rows ∧ rows.length = N.choose K ∧
      (∀ r, r ∈ rows ↔ r.length = K ∧ r.Pairwise (· < ·) ∧ ∀ x ∈ r, x < N) ∧ rows.Pairwise (· < ·) ∧ rows.Nodup := by
  refine ⟨rows N K, ?_, ?_, mem_rows N K, rows_lex N K, ?_⟩
  · rw [combinations_eq K N h, masks_rows]
  · rw [← masks_rows, List.length_map, masks_length]
  · exact (rows_lex N K).imp fun {a b} hab => by
      intro he; subst he; exact lt_irrefl _ hab

/-- The number of rows computed at compile time is the binomial coefficient. -/
theorem C41_binomial (N M : Nat) (h : M ≤ N) : ctBinomial N M = N.choose M := ctBinomial_eq N M h

/-- The compile-time factorial. -/
theorem C41_factorial (n : Nat) : ctFactorial n = n.factorial := ctFactorial_eq n

/-- The compile-time sum of an array. -/
theorem C41_array_sum (xs : List Int) : ctArraySum xs = xs.sum := by
  rw [ctArraySum, List.sum_eq_foldl]

example : combinations 2 3 = .ok [[0, 1], [0, 2], [1, 2]] := by decide
example : combinations 3 4 = .ok [[0, 1, 2], [0, 1, 3], [0, 2, 3], [1, 2, 3]] := by decide
example : combinations 2 4 = .ok [[0, 1], [0, 2], [0, 3], [1, 2], [1, 3], [2, 3]] := by decide

end Fdapde.Combinatorics
