import Verif.PDE.MaximumSpec
/-
The condition on time step and cells of the discrete maximum principle of parabolic problems.
-/
namespace Fdapde.PDE
open Fdapde.Quadrature
variable {K : Type} [Field K] [LinearOrder K]

/-- In every cell the products of distinct local functions, one of them not on the boundary, divided by the time step, do not exceed
the negative products of their gradients in the metric of the tensor, integrated with the quadrature rule. -/
def Prob.StepCondition (P : Prob K) (D : Nat → Nat → Nat → K) (dt : K) : Prop :=
  ∀ c < P.n, ∀ i < P.nb, ∀ j < P.nb, i ≠ j → P.bd (P.dofs c j) = false → ∑ k ∈ Finset.range (size P.t), weight K P.t k *
    (P.psi i (node K P.t k) * P.psi j (node K P.t k) / dt +
      dot P.N (fun z => dot P.N (D (size P.t * c + k) z) (P.grad c i (node K P.t k))) (P.grad c j (node K P.t k))) ≤ 0

/-- Triangles: the squared double area is at most twelve times the time step times the scalar product of the edges from vertex `l` to
vertices `i` and `j`, for `j` not on the boundary; the factor is for the printed digits of the quadrature rule. -/
def Prob.TriangleStep (P : Prob K) (X : Nat → Nat → K) (dt : K) : Prop :=
  ∀ c < P.n, ∀ i < 3, ∀ j < 3, ∀ l < 3, i ≠ j → i ≠ l → j ≠ l → P.bd (P.dofs c j) = false →
    (1 + 1 / 10 ^ 11) * ((X (P.dofs c i) 0 - X (P.dofs c l) 0) * (X (P.dofs c j) 1 - X (P.dofs c l) 1) -
        (X (P.dofs c i) 1 - X (P.dofs c l) 1) * (X (P.dofs c j) 0 - X (P.dofs c l) 0)) ^ 2 ≤
      12 * dt * dot 2 (fun z => X (P.dofs c i) z - X (P.dofs c l) z) (fun z => X (P.dofs c j) z - X (P.dofs c l) z)

end Fdapde.PDE
