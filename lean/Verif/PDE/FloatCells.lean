import Verif.PDE.FloatAssembly
import Verif.PDE.MeshProb
import Verif.Geometry.FloatInverse
/-
The data of the cells that the assembly reads, in double precision, for triangles in the plane.  The values `dps i x w` of the derivatives of the reference
basis are those that the program computed.
-/
namespace Fdapde.PDE
open Fdapde.Geometry Fdapde.FEM Fdapde.Fp
noncomputable section

/-- simplex.h:187 : `std::abs(J_.determinant()) / ct_factorial(2)`; Eigen computes the determinant of a matrix with two rows as `m00 m11 - m10 m01`. -/
def measureR (r : Rounding) (S : Simplex 2 2) : ℝ :=
  r.rnd (|r.rnd (r.rnd (S.JR r 0 0 * S.JR r 1 1) - r.rnd (S.JR r 1 0 * S.JR r 0 1))| / 2)

/-- Entry of `invJ_`, simplex.h:186; its transpose is what the assembler reads, fem_assembler.h:80. -/
def invAtR (r : Rounding) (S : Simplex 2 2) (w z : Nat) : ℝ := if h : w < 2 ∧ z < 2 then inv2R r (S.JR r) ⟨w, h.1⟩ ⟨z, h.2⟩ else 0

/-- laplacian.h:43, diffusion.h:54, advection.h:55 : `invJ * nabla_psi`, the gradient of local function `i` on a cell. -/
def gradAtR (r : Rounding) (Sm : List ℝ → ℝ) (S : Simplex 2 2) (dps : Nat → (Nat → ℝ) → Nat → ℝ) (i : Nat) (x : Nat → ℝ) (z : Nat) : ℝ :=
  Sm ((List.range 2).map fun w => r.rnd (dps i x w * invAtR r S w z))

end
end Fdapde.PDE
