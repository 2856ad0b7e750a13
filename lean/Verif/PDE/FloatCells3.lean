import Verif.PDE.FloatCells
/-
The data of the cells that the assembly reads, in double precision, for intervals of the line and tetrahedra.  Eigen inverts matrices with one and three rows by
explicit formulas; they are part of the model.
-/
namespace Fdapde.PDE
open Fdapde.Geometry Fdapde.FEM Fdapde.Fp
noncomputable section

/-- laplacian.h:43, diffusion.h:54, advection.h:55 : `invJ * nabla_psi` from the entries `iv w z` of the computed inverse, in any dimension. -/
def gradOfR (r : Rounding) (Sm : List ℝ → ℝ) (N : Nat) (iv : Nat → Nat → ℝ) (dps : Nat → (Nat → ℝ) → Nat → ℝ) (i : Nat) (x : Nat → ℝ) (z : Nat) : ℝ :=
  Sm ((List.range N).map fun w => r.rnd (dps i x w * iv w z))

/-- simplex.h:188 : `std::abs(J_.determinant()) / ct_factorial(1)` of an interval. -/
def measure1R (r : Rounding) (S : Simplex 1 1) : ℝ := r.rnd (|S.JR r 0 0| / 1)

/-- simplex.h:187 : `J_.inverse()` of an interval, the reciprocal. -/
def inv1AtR (r : Rounding) (S : Simplex 1 1) (w z : Nat) : ℝ := if w < 1 ∧ z < 1 then r.rnd (1 / S.JR r 0 0) else 0

/-- Eigen's `cofactor_3x3<i, j>`: the minor without row `i` and column `j`, rows and columns in cyclic order. -/
def cof3R (r : Rounding) (J : Matrix (Fin 3) (Fin 3) ℝ) (i j : Fin 3) : ℝ :=
  r.rnd (r.rnd (J (i + 1) (j + 1) * J (i + 2) (j + 2)) - r.rnd (J (i + 1) (j + 2) * J (i + 2) (j + 1)))

/-- Eigen's `bruteforce_det3_helper`: the product of an entry of the first row and of a minor of the other two. -/
def det3TermR (r : Rounding) (J : Matrix (Fin 3) (Fin 3) ℝ) (a b c : Fin 3) : ℝ :=
  r.rnd (J 0 a * r.rnd (r.rnd (J 1 b * J 2 c) - r.rnd (J 1 c * J 2 b)))

/-- simplex.h:188 : `std::abs(J_.determinant()) / ct_factorial(3)`; Eigen expands the determinant along the first row. -/
def measure3R (r : Rounding) (S : Simplex 3 3) : ℝ :=
  r.rnd (|r.rnd (r.rnd (det3TermR r (S.JR r) 0 1 2 - det3TermR r (S.JR r) 1 0 2) + det3TermR r (S.JR r) 2 0 1)| / 6)

/-- Eigen's inverse of a matrix with three rows: the determinant is the scalar product of the first column and of its cofactors, in an order that Eigen chooses; the
entries are the products of the cofactors and of its reciprocal. -/
def inv3R (r : Rounding) (Sm : List ℝ → ℝ) (J : Matrix (Fin 3) (Fin 3) ℝ) (w z : Fin 3) : ℝ :=
  r.rnd (cof3R r J z w * r.rnd (1 / Sm ((List.finRange 3).map fun i => r.rnd (cof3R r J i 0 * J i 0))))

/-- simplex.h:187 : entry of `invJ_` of a tetrahedron. -/
def inv3AtR (r : Rounding) (Sm : List ℝ → ℝ) (S : Simplex 3 3) (w z : Nat) : ℝ := if h : w < 3 ∧ z < 3 then inv3R r Sm (S.JR r) ⟨w, h.1⟩ ⟨z, h.2⟩ else 0

end
end Fdapde.PDE
