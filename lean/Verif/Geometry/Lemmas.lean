import Verif.Geometry.Model
import Mathlib.LinearAlgebra.AffineSpace.Independent
import Mathlib.LinearAlgebra.Matrix.ToLin
import Mathlib.LinearAlgebra.Matrix.DotProduct
import Mathlib.Algebra.BigOperators.Fin
import Mathlib.Tactic.Ring
import Mathlib.Tactic.Linarith
import Mathlib.Tactic.FieldSimp
import Mathlib.Tactic.NormNum
import Mathlib.Tactic.FinCases
/- Lemmas on simplices. -/
namespace Fdapde.Geometry
open Matrix
variable {d N : Nat}

/-- Non-degenerate: the vertices are affinely independent. -/
def Simplex.Nondeg (S : Simplex d N) : Prop := AffineIndependent ℝ S.coords

theorem Simplex.J_mulVec (S : Simplex d N) (w : Fin d → ℝ) :
    S.J *ᵥ w = ∑ j, w j • (S.coords j.succ - S.coords 0) := by
  ext i
  simp [Matrix.mulVec, dotProduct, Simplex.J, Finset.sum_apply, mul_comm]

/-- The columns of J are independent. -/
theorem Simplex.Nondeg.injective {S : Simplex d N} (hS : S.Nondeg) : Function.Injective S.J.mulVec := by
  rw [Matrix.mulVec_injective_iff]
  have h := (affineIndependent_iff_linearIndependent_vsub ℝ S.coords 0).1 hS
  have h2 := h.comp (fun j : Fin d => (⟨j.succ, Fin.succ_ne_zero j⟩ : {x : Fin (d + 1) // x ≠ 0}))
    (fun a b hab => by simpa using hab)
  exact h2

theorem Simplex.invJ_mul_J {S : Simplex d N} (hS : S.Nondeg) : S.invJ * S.J = 1 := by
  have hinj := hS.injective
  unfold Simplex.invJ
  split
  · rename_i h
    subst h
    have hu : IsUnit S.J := Matrix.mulVec_injective_iff_isUnit.1 hinj
    have : (S.J.submatrix id (Fin.cast rfl)) = S.J := by ext; rfl
    have e : ((S.J⁻¹).submatrix (Fin.cast rfl) id) = S.J⁻¹ := by ext; rfl
    rw [this, e]
    exact Matrix.nonsing_inv_mul _ ((Matrix.isUnit_iff_isUnit_det _).1 hu)
  · rw [Matrix.mul_assoc]
    apply Matrix.nonsing_inv_mul
    rw [← Matrix.isUnit_iff_isUnit_det, ← Matrix.mulVec_injective_iff_isUnit]
    intro x y hxy
    apply hinj
    have hz : (S.Jᵀ * S.J) *ᵥ (x - y) = 0 := by rw [Matrix.mulVec_sub]; exact sub_eq_zero.2 hxy
    have : (S.J *ᵥ (x - y)) ⬝ᵥ (S.J *ᵥ (x - y)) = 0 := by
      have := congrArg (fun v => (x - y) ⬝ᵥ v) hz
      simp only [dotProduct_zero] at this
      rw [← Matrix.mulVec_mulVec, Matrix.dotProduct_mulVec, Matrix.vecMul_transpose] at this
      exact this
    rw [dotProduct_self_eq_zero] at this
    rw [Matrix.mulVec_sub] at this
    exact sub_eq_zero.1 this

theorem Simplex.J_mul_invJ {S : Simplex N N} (hS : S.Nondeg) : S.J * S.invJ = 1 :=
  mul_eq_one_comm.1 (Simplex.invJ_mul_J hS)

theorem Simplex.bary_zero (S : Simplex d N) (p : Vec N) :
    S.bary p 0 = 1 - ∑ j, (S.invJ *ᵥ (p - S.coords 0)) j := rfl
theorem Simplex.bary_succ (S : Simplex d N) (p : Vec N) (j : Fin d) :
    S.bary p j.succ = (S.invJ *ᵥ (p - S.coords 0)) j := rfl

theorem Simplex.bary_combo (S : Simplex d N) (p : Vec N) :
    ∑ i, S.bary p i • S.coords i = S.coords 0 + S.J *ᵥ (S.invJ *ᵥ (p - S.coords 0)) := by
  rw [Simplex.J_mulVec, Fin.sum_univ_succ]
  simp only [Simplex.bary_zero, Simplex.bary_succ, smul_sub, Finset.sum_sub_distrib, sub_smul, one_smul, Finset.sum_smul]
  abel

theorem sqNorm_nonneg (v : Vec N) : 0 ≤ sqNorm v := by
  unfold sqNorm dotProduct; exact Finset.sum_nonneg fun i _ => mul_self_nonneg _
theorem sqNorm_eq_zero {v : Vec N} : sqNorm v = 0 ↔ v = 0 := dotProduct_self_eq_zero
theorem norm_nonneg (v : Vec N) : 0 ≤ norm v := Real.sqrt_nonneg _
theorem norm_sq (v : Vec N) : norm v ^ 2 = sqNorm v := Real.sq_sqrt (sqNorm_nonneg v)
theorem norm_eq_zero {v : Vec N} : norm v = 0 ↔ v = 0 := by
  rw [norm, Real.sqrt_eq_zero (sqNorm_nonneg v), sqNorm_eq_zero]
theorem norm_pos {v : Vec N} (h : v ≠ 0) : 0 < norm v :=
  lt_of_le_of_ne (norm_nonneg v) (fun e => h (norm_eq_zero.1 e.symm))

end Fdapde.Geometry
