import Verif.PDE.EllipticSpec
import Verif.PDE.Solver
/-
Linear solvers with rounding errors.
-/
namespace Fdapde.PDE

/-- Backward error: whenever the factorization succeeds, the result leaves in every equation a residual of at most `ε` times the sum of the absolute
values of the terms of the equation (zero for an exact solver; a small multiple of the precision of the arithmetic for a stable elimination). -/
def BackwardLU (n : Nat) (ε : ℝ) (lu : Solver ℝ) : Prop :=
  ∀ A f, lu A = some f → ∀ (b : Nat → ℝ), ∀ p < n,
    |∑ q ∈ Finset.range n, A p q * f b q - b p| ≤ ε * (∑ q ∈ Finset.range n, |A p q| * |f b q| + |b p|)

end Fdapde.PDE
