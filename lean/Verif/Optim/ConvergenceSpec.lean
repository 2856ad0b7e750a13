import Verif.Optim.Spec
/-!
# Smoothness, strong convexity, quadratic functions

The hypotheses under which the optimizers converge.
-/
namespace Fdapde.Optim

variable {K : Type} [Field K] [LinearOrder K] {n : Nat}

/-- The objective lies below the parabola of curvature `L` at each of its points (it does when the gradient is `L`-Lipschitz). -/
def Smooth (obj : Vec K n → K) (grad : Vec K n → Vec K n) (L : K) : Prop :=
  ∀ x d, obj (x + d) ≤ obj x + dotProduct (grad x) d + L / 2 * dotProduct d d

/-- The objective lies above the parabola of curvature `μ` at each of its points. -/
def StronglyConvex (obj : Vec K n → K) (grad : Vec K n → Vec K n) (μ : K) : Prop :=
  ∀ x d, obj x + dotProduct (grad x) d + μ / 2 * dotProduct d d ≤ obj (x + d)

/-- Euclidean norm. -/
def Euclidean (nrm : Vec K n → K) : Prop := ∀ v, 0 ≤ nrm v ∧ nrm v * nrm v = dotProduct v v

/-- The quadratic function `½ x·Ax - b·x`. -/
def quad (A : Mat K n) (b x : Vec K n) : K := dotProduct x (A.mulVec x) / 2 - dotProduct b x

end Fdapde.Optim
