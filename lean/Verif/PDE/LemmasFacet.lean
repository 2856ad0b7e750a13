import Mathlib.LinearAlgebra.Matrix.Determinant.Basic
import Mathlib.LinearAlgebra.Matrix.NonsingularInverse
import Mathlib.LinearAlgebra.Matrix.Adjugate
import Mathlib.Algebra.Order.Field.Basic
import Mathlib.Tactic.Ring
import Mathlib.Tactic.LinearCombination
/- Barycentric coordinates of a simplex and of its neighbour across a facet. -/
namespace Fdapde.PDE
open Matrix
variable {K : Type} [Field K] {N : Nat}

/-- Vertices in rows, after a column of ones. -/
def bord (x : Fin (N + 1) → Fin N → K) : Matrix (Fin (N + 1)) (Fin (N + 1)) K := fun j => Fin.cons 1 (x j)

theorem det_bord (x : Fin (N + 1) → Fin N → K) : (bord x).det = (of fun z w : Fin N => x w.succ z - x 0 z).det := by
  have h1 : (bord x).det = (of fun j r => if j = 0 then bord x 0 r else bord x j r - bord x 0 r : Matrix (Fin (N + 1)) (Fin (N + 1)) K).det := by
    refine (det_eq_of_forall_row_eq_smul_add_const (fun j => if j = 0 then 0 else -1) 0 (if_pos rfl) fun j r => ?_).symm
    by_cases hj : j = 0
    · simp [hj]
    · simp [hj, sub_eq_add_neg]
  rw [h1, det_succ_column_zero, Finset.sum_eq_single 0]
  · rw [← det_transpose]
    simp [bord]
    congr 1
  · intro j _ hj
    simp [hj, bord]
  · simp

/-- The gradients of the barycentric coordinates: coordinate `i` is one at vertex `i` and zero at the others. -/
def Dual (x G : Fin (N + 1) → Fin N → K) : Prop :=
  ∀ i j, G i ⬝ᵥ (x j - x 0) = (if i = j then 1 else 0) - if i = 0 then 1 else 0

/-- Coefficients of the barycentric coordinates in columns. -/
def coef (x G : Fin (N + 1) → Fin N → K) : Matrix (Fin (N + 1)) (Fin (N + 1)) K :=
  fun r i => (Fin.cons ((if i = 0 then 1 else 0) - G i ⬝ᵥ x 0) (G i) : Fin (N + 1) → K) r

theorem bord_coef (x G y : Fin (N + 1) → Fin N → K) (j i : Fin (N + 1)) :
    (bord y * coef x G) j i = (if i = 0 then 1 else 0) + G i ⬝ᵥ (y j - x 0) := by
  rw [mul_apply, Fin.sum_univ_succ]
  simp only [bord, coef, Fin.cons_zero, Fin.cons_succ, one_mul, dotProduct_sub]
  have : ∑ r, y j r * G i r = G i ⬝ᵥ y j := by simp only [dotProduct]; exact Finset.sum_congr rfl fun _ _ => mul_comm _ _
  rw [this]
  ring

theorem dual_inv {x G : Fin (N + 1) → Fin N → K} (h : Dual x G) : bord x * coef x G = 1 := by
  ext j i
  rw [bord_coef, h i j, one_apply]
  by_cases hij : i = j
  · simp [hij]
  · simp [hij, Ne.symm hij]

variable [LinearOrder K] [IsStrictOrderedRing K]

/-- Across a shared facet the gradients of the opposite barycentric coordinates, multiplied by the volumes, cancel. -/
theorem facet_cancel {x G x' G' : Fin (N + 1) → Fin N → K} (h : Dual x G) (h' : Dual x' G') (s : Equiv.Perm (Fin (N + 1)))
    (i : Fin (N + 1)) (hs : ∀ j, j ≠ i → x' (s j) = x j)
    (hk : (if i = 0 then 1 else 0) + G i ⬝ᵥ (x' (s i) - x 0) ≤ 0) (z : Fin N) :
    |(bord x).det| * G i z + |(bord x').det| * G' (s i) z = 0 := by
  set L := bord x' * coef x G with hL
  have e1 : bord x' = L * bord x := by
    rw [hL, Matrix.mul_assoc, mul_eq_one_comm.1 (dual_inv h), Matrix.mul_one]
  have e2 : coef x G = coef x' G' * L := by
    rw [hL, ← Matrix.mul_assoc, mul_eq_one_comm.1 (dual_inv h'), Matrix.one_mul]
  have e3 : ∀ j, j ≠ i → ∀ r, L (s j) r = if j = r then 1 else 0 := fun j hj r => by
    rw [hL, bord_coef, hs j hj, ← bord_coef x G x, dual_inv h, one_apply]
  have e4 : L.submatrix s id = (1 : Matrix (Fin (N + 1)) (Fin (N + 1)) K).updateRow i (L (s i)) := by
    ext j r
    by_cases hj : j = i
    · subst hj; simp
    · rw [updateRow_ne hj, submatrix_apply, e3 j hj, one_apply]; rfl
  have e5 : |L.det| = |L (s i) i| := by
    have h1 := det_permute s L
    rw [e4, ← det_transpose, ← updateCol_transpose, transpose_one, ← cramer_apply, cramer_one] at h1
    have h2 := congrArg abs h1
    rw [abs_mul] at h2
    have h3 : |((Equiv.Perm.sign s : ℤ) : K)| = 1 := by
      rcases Int.units_eq_one_or (Equiv.Perm.sign s) with e | e <;> simp [e]
    rw [h3, one_mul] at h2
    exact h2.symm
  have e6 : L (s i) i ≤ 0 := by rw [hL, bord_coef]; exact hk
  have e7 : G i z = L (s i) i * G' (s i) z := by
    have h1 : coef x G z.succ i = ∑ r, coef x' G' z.succ r * L r i := by rw [e2, mul_apply]
    rw [Finset.sum_eq_single (s i)] at h1
    · simpa [coef, mul_comm] using h1
    · intro r _ hr
      have hr' : s.symm r ≠ i := fun e => hr (by rw [← e, Equiv.apply_symm_apply])
      have := e3 _ hr' i
      rw [Equiv.apply_symm_apply, if_neg hr'] at this
      rw [this, mul_zero]
    · simp
  rw [e1, det_mul, abs_mul, e5, e7, abs_of_nonpos e6]
  ring

end Fdapde.PDE
