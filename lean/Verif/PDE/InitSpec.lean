import Verif.PDE.Init
import Verif.PDE.FormSpec
/-
The discrete variational problem: forms on finite element functions given by their coefficients, with integrals replaced
by the quadrature rule.
-/
namespace Fdapde.PDE
open Fdapde.Quadrature
variable {K : Type} [Field K]

/-- a(u, v): the form of the operator, integrated over the mesh. -/
def Prob.bilin (P : Prob K) (u v : Nat → K) : K :=
  ∑ c ∈ Finset.range P.n, P.measure c * ∑ k ∈ Finset.range (size P.t), weight K P.t k *
    form P.N P.op (size P.t * c + k)
      (feValue P.nb (P.dofs c) u fun i => P.psi i (node K P.t k)) (feValue P.nb (P.dofs c) v fun i => P.psi i (node K P.t k))
      (feGrad P.nb (P.dofs c) u fun i => P.grad c i (node K P.t k)) (feGrad P.nb (P.dofs c) v fun i => P.grad c i (node K P.t k))

/-- (u, v): the integral of the product. -/
def Prob.l2 (P : Prob K) (u v : Nat → K) : K :=
  ∑ c ∈ Finset.range P.n, P.measure c * ∑ k ∈ Finset.range (size P.t), weight K P.t k *
    (feValue P.nb (P.dofs c) u (fun i => P.psi i (node K P.t k)) * feValue P.nb (P.dofs c) v fun i => P.psi i (node K P.t k))

/-- (f, v) for a field with value `f c k` at node `k` of cell `c`. -/
def Prob.load (P : Prob K) (f : Nat → Nat → K) (v : Nat → K) : K :=
  ∑ c ∈ Finset.range P.n, P.measure c * ∑ k ∈ Finset.range (size P.t), weight K P.t k *
    (f c k * feValue P.nb (P.dofs c) v fun i => P.psi i (node K P.t k))

/-- Test functions: zero on the boundary dofs. -/
def Prob.Test (P : Prob K) (v : Nat → K) : Prop := ∀ p < P.m, P.bd p = true → v p = 0

end Fdapde.PDE
