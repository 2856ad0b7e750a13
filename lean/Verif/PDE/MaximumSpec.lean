import Verif.PDE.PatchSpec
/-
The conditions of the discrete maximum principle.
-/
namespace Fdapde.PDE
open Fdapde.Quadrature
variable {K : Type} [Field K] [LinearOrder K]

/-- The operator is a diffusion: its form depends on the gradients only, through a tensor at each quadrature node. -/
def Diffusive (N : Nat) (op : Op K) (D : Nat → Nat → Nat → K) : Prop :=
  ∀ r u v gu gv, form N op r u v gu gv = dot N (fun z => dot N (D r z) gu) gv

/-- Distinct local functions have gradients at an angle that is not acute in the metric of the tensor. -/
def Prob.NonAcuteGradients (P : Prob K) (D : Nat → Nat → Nat → K) : Prop :=
  ∀ c < P.n, ∀ k < size P.t, ∀ i < P.nb, ∀ j < P.nb, i ≠ j →
    dot P.N (fun z => dot P.N (D (size P.t * c + k) z) (P.grad c i (node K P.t k))) (P.grad c j (node K P.t k)) ≤ 0

/-- No triangle has an obtuse angle: the edges from vertex `k` to vertices `i` and `j` make a non-negative scalar product. -/
def Prob.NonObtuse (P : Prob K) (X : Nat → Nat → K) : Prop :=
  ∀ c < P.n, ∀ i < 3, ∀ j < 3, ∀ k < 3, i ≠ j → i ≠ k → j ≠ k →
    0 ≤ dot 2 (fun z => X (P.dofs c i) z - X (P.dofs c k) z) (fun z => X (P.dofs c j) z - X (P.dofs c k) z)

end Fdapde.PDE
