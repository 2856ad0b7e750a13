import Verif.FEM.Lagrange
import Verif.Quadrature.Model
/-
The elements as used by the finite element solver: gradients of the basis functions and choice of the quadrature rule.
-/
namespace Fdapde.FEM
open Fdapde.Quadrature

/-- integrator.h:37-40 : the rule of `Integrator<FEM, M, R>`. -/
def standardRule (M R : Nat) : Option Table := table M (ruleSize M R)

/-- lagrangian_basis.h:77-84 with multivariate_polynomial.h:172-182 : derivative in direction `w` of the i-th basis function of
the reference simplex. -/
noncomputable def refGrad (K : Type) [Field K] (M R n : Nat) (i : Fin n) (x : Nat → K) (w : Nat) : K :=
  polyDeriv (lagCoeff n (M - 1) (refTable M R) (refNodesK K M R) i) x (refTable M R) (M - 1) n w

end Fdapde.FEM
