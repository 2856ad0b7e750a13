import Verif.Combinatorics.Props
import Verif.Combinatorics.IntModel
/- Property C41 with the `int`s of the code. -/
namespace Fdapde.Combinatorics

theorem ctFactorial32_ok (n : Nat) (h : n ≤ 12) : ctFactorial32 n = .ok n.factorial := by
  induction n with
  | zero => rfl
  | succ n ih =>
    have h1 : (n + 1).factorial ≤ Nat.factorial 12 := Nat.factorial_le h
    have h2 : Nat.factorial 12 < 2 ^ 31 := by decide
    have h3 : (n + 1) * n.factorial < 2 ^ 31 := by rw [← Nat.factorial_succ]; omega
    rw [ctFactorial32, ih (by omega)]
    simp only [Res.bind, mul32, if_pos h3, Nat.factorial_succ]

theorem ctFactorial32_ub (n : Nat) : ctFactorial32 (13 + n) = .ub := by
  induction n with
  | zero => decide
  | succ n ih =>
    show Res.bind (ctFactorial32 (13 + n)) _ = _
    rw [ih]; rfl

/-- **C41.** The factorial is right exactly up to 12. -/
theorem C41_factorial_int (n : Nat) : ctFactorial32 n = if n ≤ 12 then .ok n.factorial else .ub := by
  split
  · rename_i h; exact ctFactorial32_ok n h
  · rename_i h
    obtain ⟨k, rfl⟩ : ∃ k, n = 13 + k := ⟨n - 13, by omega⟩
    exact ctFactorial32_ub k

/-- **C41.** With the `int`s of the code `combinations<K, N>()` is right for all `K ≤ N ≤ 12`. -/
theorem C41_combinations_int (K N : Nat) (h : K ≤ N) (hN : N ≤ 12) :
    ∃ rows, combinations32 K N = .ok rows ∧ rows.length = N.choose K ∧
      (∀ r, r ∈ rows ↔ r.length = K ∧ r.Pairwise (· < ·) ∧ ∀ x ∈ r, x < N) ∧ rows.Pairwise (· < ·) ∧ rows.Nodup := by
  have h1 : combinations32 K N = combinations K N := by
    have h2 : K.factorial * (N - K).factorial ≤ N.factorial := Nat.le_of_dvd (Nat.factorial_pos N) (Nat.factorial_mul_factorial_dvd_factorial h)
    have h3 : N.factorial ≤ Nat.factorial 12 := Nat.factorial_le hN
    have h4 : Nat.factorial 12 < 2 ^ 31 := by decide
    have h5 : K.factorial * (N - K).factorial < 2 ^ 31 := by omega
    simp only [combinations32, ctBinomial32, ctFactorial32_ok N hN, ctFactorial32_ok K (by omega), ctFactorial32_ok (N - K) (by omega),
      Res.bind, mul32, if_pos h5, combinations, ctBinomial, ctFactorial_eq]
  rw [h1]
  exact C41_combinations K N h

/-- From 13 elements on the number of combinations cannot be computed, although it is small (13 for one element out of 13): the factorials
overflow, and `combinations<K, N>` does not compile. -/
theorem C41_bug_overflow (K N : Nat) (hN : 13 ≤ N) : combinations32 K N = .ub := by
  obtain ⟨k, rfl⟩ : ∃ k, N = 13 + k := ⟨N - 13, by omega⟩
  simp only [combinations32, ctBinomial32, ctFactorial32_ub, Res.bind]

example : ctFactorial32 12 = .ok 479001600 ∧ ctFactorial32 13 = .ub := by decide
example : combinations32 2 3 = .ok [[0, 1], [0, 2], [1, 2]] ∧ combinations32 1 13 = .ub := by decide

end Fdapde.Combinatorics
