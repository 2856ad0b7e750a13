import Mathlib.Logic.Relation
import Mathlib.Algebra.Order.Field.Basic
import Verif.PDE.InitSpec
import Verif.FEM.LemmasElements
/-
The hypotheses of the theory of elliptic problems: ellipticity, positive measures and weights, cells on which a function
with zero gradient is constant, connected mesh.
-/
namespace Fdapde.PDE
open Fdapde.Quadrature
variable {K : Type} [Field K] [LinearOrder K]

/-- The form is non-negative, and zero only when the gradient is. -/
def Elliptic (N : Nat) (op : Op K) (r : Nat) : Prop :=
  ∀ (u : K) (g : Nat → K), 0 ≤ form N op r u u g g ∧ (form N op r u u g g = 0 → ∀ z < N, g z = 0)

/-- Two dofs of the same cell. -/
def Prob.Linked (P : Prob K) (p q : Nat) : Prop := ∃ c < P.n, ∃ i < P.nb, ∃ j < P.nb, P.dofs c i = p ∧ P.dofs c j = q

/-- An elliptic problem on a connected mesh of non-degenerate cells. -/
structure Prob.Ell (P : Prob K) : Prop where
  op : ∀ c < P.n, ∀ k < size P.t, Elliptic P.N P.op (size P.t * c + k)
  measure : ∀ c < P.n, 0 < P.measure c
  weight : ∀ k < size P.t, 0 < weight K P.t k
  rigid : ∀ c < P.n, ∀ u : Nat → K,
    (∀ k < size P.t, ∀ z < P.N, feGrad P.nb (P.dofs c) u (fun i => P.grad c i (node K P.t k)) z = 0) →
    ∀ i < P.nb, ∀ j < P.nb, u (P.dofs c i) = u (P.dofs c j)
  connected : ∀ p < P.m, ∀ q < P.m, Relation.ReflTransGen P.Linked p q

/-- The discrete form is non-negative, and zero only on constants. -/
def Prob.Coercive (P : Prob K) : Prop := ∀ v, 0 ≤ P.bilin v v ∧ (P.bilin v v = 0 → ∀ p < P.m, ∀ q < P.m, v p = v q)

/-- The discrete form of a test function is zero only for the zero function. -/
def Prob.Definite (P : Prob K) : Prop := ∀ v, P.Test v → P.bilin v v = 0 → ∀ p < P.m, v p = 0

/-- Lagrangian elements of dimension `M` and order `R` with their standard rule, on cells with Jacobian `J c` and inverse `I c`
(the left inverse for cells of a manifold): the gradient on the cell is the gradient on the reference element times the inverse. -/
structure Prob.Lagrange (P : Prob K) (M R : Nat) (I J : Nat → Nat → Nat → K) : Prop where
  supported : FEM.Supported M R P.nb
  rule : FEM.standardRule M R = some P.t
  psi : ∀ i : Fin P.nb, ∀ x, P.psi i x = FEM.refBasis K M R P.nb i x
  grad : ∀ c < P.n, ∀ i : Fin P.nb, ∀ x z, P.grad c i x z = ∑ w ∈ Finset.range M, FEM.refGrad K M R P.nb i x w * I c w z
  inv : ∀ c < P.n, ∀ w < M, ∀ w' < M, ∑ z ∈ Finset.range P.N, I c w z * J c z w' = if w = w' then 1 else 0

/-- The discrete problem with data `g` on the boundary and forcing `f`: `w` takes the values of `g` on the boundary dofs and
a(w, v) = (f, v) for every test function. -/
def Prob.Galerkin (P : Prob K) (f : Nat → Nat → K) (g w : Nat → K) : Prop :=
  (∀ p < P.m, P.bd p = true → w p = g p) ∧ ∀ v, P.Test v → P.bilin w v = P.load f v

/-- The energy ½ a(v, v) - (f, v). -/
def Prob.energy (P : Prob K) (f : Nat → Nat → K) (v : Nat → K) : K := P.bilin v v / 2 - P.load f v

end Fdapde.PDE
