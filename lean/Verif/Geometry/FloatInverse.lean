import Verif.Geometry.FloatSearch
import Mathlib.LinearAlgebra.Matrix.Notation
/-
`initialize` of simplex.h with rounded operations for triangles in the plane: the matrices stored as `J_` and `invJ_`.  Eigen inverts
matrices with two rows by the explicit formula; it is part of the model.
-/
namespace Fdapde.Geometry
open Fdapde.Fp
noncomputable section

/-- simplex.h:185 : `J_.col(j) = coords_.col(j + 1) - coords_.col(0)` -/
def Simplex.JR {d N : Nat} (r : Rounding) (S : Simplex d N) : Matrix (Fin N) (Fin d) ℝ :=
  Matrix.of fun i j => r.ops.sub (S.coords j.succ i) (S.coords 0 i)

/-- Eigen's inverse of a matrix with two rows and two columns: the determinant `m00 m11 - m10 m01`, its reciprocal, and four products. -/
def inv2R (r : Rounding) (J : Matrix (Fin 2) (Fin 2) ℝ) : Matrix (Fin 2) (Fin 2) ℝ :=
  let id := r.ops.div 1 (r.ops.sub (r.ops.mul (J 0 0) (J 1 1)) (r.ops.mul (J 1 0) (J 0 1)))
  !![r.ops.mul (J 1 1) id, r.ops.mul (-J 0 1) id; r.ops.mul (-J 1 0) id, r.ops.mul (J 0 0) id]

/-- simplex.h:186 : `invJ_ = J_.inverse()` of the cells of a mesh of triangles in the plane. -/
def SMesh.invR (r : Rounding) (m : SMesh 2 2) (i : Nat) : Matrix (Fin 2) (Fin 2) ℝ := inv2R r ((m.cell i).JR r)

/-- symbols.h:164 : `fdapde::machine_epsilon` -/
def machineEps : ℝ := 10 * 2⁻¹ ^ 52

end
end Fdapde.Geometry
