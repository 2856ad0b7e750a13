import Verif.LinAlg.Model
import Mathlib.Tactic.NoncommRing
import Mathlib.Tactic.Abel
import Mathlib.Data.Matrix.Basic
import Mathlib.LinearAlgebra.Matrix.Notation
import Mathlib.Tactic.FinCases
import Mathlib.Tactic.NormNum
import Mathlib.Tactic.Ring
import Mathlib.Data.Rat.Init
import Mathlib.Algebra.Field.Rat
import Mathlib.Algebra.BigOperators.Fin
/- C39: Sherman-Morrison-Woodbury. C40: lumping. -/
namespace Fdapde.LinAlg
open Matrix
variable {R : Type} [CommRing R]

/-! ### C39 -/

/-- If the two solvers solve (exact arithmetic), A is left-invertible and C is the inverse of invC, then the result x
satisfies (A + U C V) x = b. Any sizes, any number of right-hand sides. -/
theorem C39_solves {n q k : Type} [Fintype n] [Fintype q] [DecidableEq n] [DecidableEq q]
    (A : Matrix n n R) (U : Matrix n q R) (C invC : Matrix q q R) (V : Matrix q n R) (b : Matrix n k R)
    (solveAk : Matrix n k R → Matrix n k R) (solveAq : Matrix n q R → Matrix n q R)
    (solveG : Matrix q q R → Matrix q k R → Matrix q k R)
    (hAinv : ∃ B : Matrix n n R, B * A = 1)
    (hC : C * invC = 1)
    (hAk : ∀ x, A * solveAk x = x) (hAq : ∀ x, A * solveAq x = x)
    (hG : ∀ x, (invC + V * solveAq U) * solveG (invC + V * solveAq U) x = x) :
    (A + U * C * V) * smwSolve solveAk solveAq solveG U invC V b = b := by
  obtain ⟨B, hB⟩ := hAinv
  have inj : ∀ x y : Matrix n k R, A * x = A * y → x = y := by
    intro x y h
    have : B * (A * x) = B * (A * y) := by rw [h]
    rwa [← Matrix.mul_assoc, ← Matrix.mul_assoc, hB, Matrix.one_mul, Matrix.one_mul] at this
  simp only [smwSolve]
  have hv : ∀ t, solveAk (U * t) = solveAq U * t := by
    intro t
    apply inj
    rw [hAk, ← Matrix.mul_assoc, hAq]
  rw [hv]
  have hg := hG (V * solveAk b)
  generalize solveG (invC + V * solveAq U) (V * solveAk b) = t at hg ⊢
  have h1 : U * C * V * solveAk b = U * t + U * C * V * (solveAq U * t) := by
    have : U * C * V * solveAk b = U * C * (V * solveAk b) := by rw [Matrix.mul_assoc]
    rw [this, ← hg, Matrix.add_mul, Matrix.mul_add]
    congr 1
    · rw [Matrix.mul_assoc U C, ← Matrix.mul_assoc C, hC, Matrix.one_mul]
    · simp only [Matrix.mul_assoc]
  rw [Matrix.mul_sub, Matrix.add_mul, Matrix.add_mul, hAk, h1, ← Matrix.mul_assoc A, hAq]
  abel

/-- The hypotheses hold for a 2x2 system with a rank one update: A = diag(2,3), U = (1,1)ᵀ, C = 1/2, V = (1,2). -/
example : ∃ (A : Matrix (Fin 2) (Fin 2) ℚ) (U : Matrix (Fin 2) (Fin 1) ℚ) (C invC : Matrix (Fin 1) (Fin 1) ℚ) (V : Matrix (Fin 1) (Fin 2) ℚ)
    (solveAk : Matrix (Fin 2) (Fin 1) ℚ → Matrix (Fin 2) (Fin 1) ℚ) (solveG : Matrix (Fin 1) (Fin 1) ℚ → Matrix (Fin 1) (Fin 1) ℚ → Matrix (Fin 1) (Fin 1) ℚ),
    (∃ B : Matrix (Fin 2) (Fin 2) ℚ, B * A = 1) ∧ C * invC = 1 ∧ (∀ x, A * solveAk x = x) ∧
    (∀ x, (invC + V * solveAk U) * solveG (invC + V * solveAk U) x = x) ∧ U ≠ 0 ∧ V ≠ 0 := by
  refine ⟨!![2, 0; 0, 3], !![1; 1], !![1/2], !![2], !![1, 2], fun x => (!![1/2, 0; 0, 1/3] : Matrix (Fin 2) (Fin 2) ℚ) * x,
    fun M x => (!![(M 0 0)⁻¹] : Matrix (Fin 1) (Fin 1) ℚ) * x, ⟨!![1/2, 0; 0, 1/3], ?_⟩, ?_, ?_, ?_, ?_, ?_⟩
  · ext i j; fin_cases i <;> fin_cases j <;> simp
  · ext i j; fin_cases i <;> fin_cases j; simp
  · intro x; ext i j; fin_cases i <;> fin_cases j <;> simp [Matrix.mul_apply, Matrix.vecMul, dotProduct, Fin.sum_univ_two]
  · intro x
    ext i j
    fin_cases i; fin_cases j
    simp [Matrix.mul_apply, Matrix.vecMul, dotProduct]
    norm_num
    rw [← mul_assoc]; norm_num
  · intro h; have := congrFun (congrFun h 0) 0; simp at this
  · intro h; have := congrFun (congrFun h 0) 0; simp at this

/-! ### C40 -/

theorem foldl_add_eq_sum (f : Nat → R) (n : Nat) : (List.range n).foldl (fun acc j => acc + f j) 0 = ∑ j ∈ Finset.range n, f j := by
  induction n with
  | zero => simp
  | succ n ih => rw [List.range_succ, List.foldl_append, ih, Finset.sum_range_succ]; rfl

/-- Dense lumping: diagonal, with the row sums on the diagonal; the product with the vector of ones is unchanged; not
square matrices throw. -/
theorem C40_dense (A : Mat R) :
    (A.rows ≠ A.cols → lumpDense A = .throws) ∧
    (A.rows = A.cols → ∃ L, lumpDense A = .ok L ∧ L.rows = A.rows ∧ L.cols = A.rows ∧
      (∀ i j, i ≠ j → L.coeff i j = 0) ∧ (∀ i, L.coeff i i = ∑ j ∈ Finset.range A.cols, A.coeff i j) ∧
      ∀ i < A.rows, ∑ j ∈ Finset.range L.cols, L.coeff i j = ∑ j ∈ Finset.range A.cols, A.coeff i j) := by
  refine ⟨fun h => by simp [lumpDense, h], fun h => ⟨_, by simp only [lumpDense, h, if_true]; rfl, ?_, ?_, ?_, ?_, ?_⟩⟩
  · exact h.symm
  · exact h.symm
  · intro i j hij; simp [hij]
  · intro i; simp only [if_true]; exact foldl_add_eq_sum _ _
  · intro i hi
    rw [Finset.sum_eq_single i]
    · simp only [if_true]; exact foldl_add_eq_sum _ _
    · intro j _ hj; simp [Ne.symm hj]
    · intro hn; simp at hn; omega

theorem fold_acc (p : Nat × Nat × R → Prop) [DecidablePred p] (l : List (Nat × Nat × R)) (a : R) :
    l.foldl (fun acc t => if p t then acc + t.2.2 else acc) a = a + ((l.filter fun t => decide (p t)).map fun t => t.2.2).sum := by
  induction l generalizing a with
  | nil => simp
  | cons t l ih =>
      rw [List.foldl_cons, ih]
      by_cases h : p t
      · simp [h, add_assoc]
      · simp [h]

theorem tripletCoeff_eq (l : List (Nat × Nat × R)) (i j : Nat) :
    tripletCoeff l i j = ((l.filter fun t => decide (t.1 = i ∧ t.2.1 = j)).map fun t => t.2.2).sum := by
  rw [tripletCoeff, fold_acc (fun t => t.1 = i ∧ t.2.1 = j)]; simp

/-- Row sum of the stored entries = sum over the columns of the coefficients. -/
theorem rowSum_eq (n : Nat) (l : List (Nat × Nat × R)) (hl : ∀ t ∈ l, t.2.1 < n) (i : Nat) :
    rowSum l i = ∑ j ∈ Finset.range n, tripletCoeff l i j := by
  induction l with
  | nil => simp [rowSum, tripletCoeff]
  | cons t l ih =>
      have ih' := ih (fun t ht => hl t (List.mem_cons_of_mem _ ht))
      rw [rowSum, fold_acc (fun t => t.1 = i)] at ih' ⊢
      simp only [zero_add] at ih' ⊢
      have ht := hl t (by simp)
      by_cases h : t.1 = i
      · rw [List.filter_cons_of_pos (by simpa using h), List.map_cons, List.sum_cons, ih']
        have : ∀ j, tripletCoeff (t :: l) i j = (if t.2.1 = j then t.2.2 else 0) + tripletCoeff l i j := by
          intro j
          rw [tripletCoeff_eq, tripletCoeff_eq]
          by_cases hj : t.2.1 = j
          · rw [List.filter_cons_of_pos (by simp [h, hj])]; simp [hj]
          · rw [List.filter_cons_of_neg (by simp [hj])]; simp [hj]
        simp only [this, Finset.sum_add_distrib]
        congr 1
        rw [Finset.sum_ite_eq]; simp [ht]
      · rw [List.filter_cons_of_neg (by simpa using h), ih']
        apply Finset.sum_congr rfl
        intro j _
        rw [tripletCoeff_eq, tripletCoeff_eq, List.filter_cons_of_neg (by simp [h])]

/-- Sparse lumping: for any stored entries (repeated ones add up), the result is diagonal with the row sums on the
diagonal, stores one entry per row, and its product with the vector of ones is that of the input. -/
theorem C40_sparse (rows cols : Nat) (l : List (Nat × Nat × R)) (hl : ∀ t ∈ l, t.1 < rows ∧ t.2.1 < cols) :
    (rows ≠ cols → lumpSparse rows cols l = .throws) ∧
    (rows = cols → ∃ d, lumpSparse rows cols l = .ok d ∧ d.length = rows ∧
      (∀ i j, i ≠ j → tripletCoeff d i j = 0) ∧
      (∀ i < rows, tripletCoeff d i i = ∑ j ∈ Finset.range cols, tripletCoeff l i j) ∧
      (∀ i < rows, ∑ j ∈ Finset.range cols, tripletCoeff d i j = ∑ j ∈ Finset.range cols, tripletCoeff l i j)) := by
  refine ⟨fun h => by simp [lumpSparse, h], fun h => ?_⟩
  refine ⟨_, by simp only [lumpSparse, h, if_true]; rfl, by simp [h], ?_⟩
  have hoff : ∀ i j, i ≠ j → tripletCoeff ((List.range cols).map fun i => (i, i, rowSum l i)) i j = 0 := by
    intro i j hij
    rw [tripletCoeff_eq, List.filter_map]
    have : (List.range cols).filter ((fun t : Nat × Nat × R => decide (t.1 = i ∧ t.2.1 = j)) ∘ fun i => (i, i, rowSum l i)) = [] := by
      rw [List.filter_eq_nil_iff]; intro a _; simp; rintro rfl; exact hij
    rw [this]; simp
  have hdiag : ∀ i < rows, tripletCoeff ((List.range cols).map fun i => (i, i, rowSum l i)) i i = rowSum l i := by
    intro i hi
    rw [tripletCoeff_eq, List.filter_map]
    have : (List.range cols).filter ((fun t : Nat × Nat × R => decide (t.1 = i ∧ t.2.1 = i)) ∘ fun i => (i, i, rowSum l i)) = [i] := by
      have e : ((fun t : Nat × Nat × R => decide (t.1 = i ∧ t.2.1 = i)) ∘ fun i => (i, i, rowSum l i)) = fun a => a == i := by
        funext a; rw [Bool.eq_iff_iff]; simp
      rw [e, List.filter_beq, List.count_eq_one_of_mem List.nodup_range (List.mem_range.2 (by omega))]; rfl
    rw [this]; simp
  refine ⟨hoff, fun i hi => ?_, fun i hi => ?_⟩
  · rw [hdiag i hi, rowSum_eq cols l (fun t ht => (hl t ht).2)]
  · rw [Finset.sum_eq_single i (fun j _ hj => hoff i j (Ne.symm hj)) (fun hn => by simp at hn; omega), hdiag i hi,
      rowSum_eq cols l (fun t ht => (hl t ht).2)]

example : lumpSparse 2 2 [(0, 0, (1 : Int)), (0, 1, 2), (1, 0, 5)] = .ok [(0, 0, 3), (1, 1, 5)] := by decide

end Fdapde.LinAlg
