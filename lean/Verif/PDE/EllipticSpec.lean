import Verif.PDE.ConvergenceSpec
import Verif.PDE.FormSpec
import Verif.PDE.PatchSpec
/-
Problems -div(A∇u) + β·∇u + r u = f with coefficients that depend on the point: bounds of the coefficients, smooth solutions, and the
operators of the library that stand for them.
-/
namespace Fdapde.PDE
open Fdapde.FEM Fdapde.Quadrature
variable {N : Nat}

/-- Component `z` of A∇u. -/
noncomputable def flux (A : (Fin N → ℝ) → Fin N → Fin N → ℝ) (u : (Fin N → ℝ) → ℝ) (z : Fin N) (x : Fin N → ℝ) : ℝ := ∑ y, A x z y * pderiv u y x

/-- div(A∇u). -/
noncomputable def divFlux (A : (Fin N → ℝ) → Fin N → Fin N → ℝ) (u : (Fin N → ℝ) → ℝ) (x : Fin N → ℝ) : ℝ := ∑ z, pderiv (flux A u z) z x

/-- -div(A∇u) + β·∇u + r u. -/
noncomputable def ellipticForcing (A : (Fin N → ℝ) → Fin N → Fin N → ℝ) (β : (Fin N → ℝ) → Fin N → ℝ) (r u : (Fin N → ℝ) → ℝ) (x : Fin N → ℝ) : ℝ :=
  -divFlux A u x + (∑ z, β x z * pderiv u z x) + r x * u x

/-- On `S` the smallest eigenvalue of the diffusion is at least `α` and its norm at most `Λ`, the transport is not longer than `bm`, and the
reaction is at least `-γ` and at most `cm` in absolute value. -/
structure Bounded (S : Set (Fin N → ℝ)) (A : (Fin N → ℝ) → Fin N → Fin N → ℝ) (β : (Fin N → ℝ) → Fin N → ℝ) (r : (Fin N → ℝ) → ℝ)
    (α Λ bm γ cm : ℝ) : Prop where
  elliptic : ∀ x ∈ S, ∀ ξ : Fin N → ℝ, α * len ξ ^ 2 ≤ ∑ z, (∑ y, A x z y * ξ y) * ξ z
  diffusion : ∀ x ∈ S, ∀ ξ : Fin N → ℝ, len (fun z => ∑ y, A x z y * ξ y) ≤ Λ * len ξ
  transport : ∀ x ∈ S, len (β x) ≤ bm
  reaction : ∀ x ∈ S, -γ ≤ r x ∧ |r x| ≤ cm

/-- `u` has continuous second derivatives and A∇u continuous first ones near the domain; on each cell the gradient of `u` is Lipschitz with constant
`M` and A∇u with constant `F`, and div(A∇u) is bounded by `B` and Lipschitz with constant `L`. -/
structure FluxOn (n : Nat) (cells : Nat → Nat → Nat) (X : Nat → Fin N → ℝ) (A : (Fin N → ℝ) → Fin N → Fin N → ℝ) (u : (Fin N → ℝ) → ℝ)
    (M F B L : ℝ) : Prop where
  smooth : ∃ U, IsOpen U ∧ domain (N + 1) n cells X ⊆ U ∧ ContDiffOn ℝ 2 u U ∧ ∀ z, ContDiffOn ℝ 1 (flux A u z) U
  gradient : ∀ c < n, ∀ x ∈ region (N + 1) cells X c, ∀ y ∈ region (N + 1) cells X c,
    len (fun z => pderiv u z y - pderiv u z x) ≤ M * len (y - x)
  flux : ∀ c < n, ∀ x ∈ region (N + 1) cells X c, ∀ y ∈ region (N + 1) cells X c,
    len (fun z => flux A u z y - flux A u z x) ≤ F * len (y - x)
  bound : ∀ x ∈ domain (N + 1) n cells X, |divFlux A u x| ≤ B
  lipschitz : ∀ c < n, ∀ x ∈ region (N + 1) cells X c, ∀ y ∈ region (N + 1) cells X c, |divFlux A u y - divFlux A u x| ≤ L * len (y - x)

/-- The operator is the sum of a diffusion with minus sign, a transport and a reaction, with coefficients given at the rows of the quadrature nodes. -/
def StandsFor (N : Nat) (op : Op ℝ) (D : Nat → Nat → Nat → ℝ) (b : Nat → Nat → ℝ) (c : Nat → ℝ) : Prop :=
  ∀ (row : Nat) (u v : ℝ) (gu gv : Nat → ℝ), form N op row u v gu gv =
    dot N (fun z => dot N (D row z) gu) gv + dot N (b row) gu * v + c row * u * v

/-- The rows of the coefficients are the values of the functions `A`, `β`, `r` at the quadrature nodes. -/
structure Sampled (n : Nat) (cells : Nat → Nat → Nat) (X : Nat → Fin N → ℝ) (t : Table) (A : (Fin N → ℝ) → Fin N → Fin N → ℝ)
    (β : (Fin N → ℝ) → Fin N → ℝ) (r : (Fin N → ℝ) → ℝ) (D : Nat → Nat → Nat → ℝ) (b : Nat → Nat → ℝ) (c : Nat → ℝ) : Prop where
  diffusion : ∀ e < n, ∀ k < size t, ∀ z y : Fin N, D (size t * e + k) z y = A (meshPoint cells X e fun w => node ℝ t k w) z y
  transport : ∀ e < n, ∀ k < size t, ∀ z : Fin N, b (size t * e + k) z = β (meshPoint cells X e fun w => node ℝ t k w) z
  reaction : ∀ e < n, ∀ k < size t, c (size t * e + k) = r (meshPoint cells X e fun w => node ℝ t k w)

end Fdapde.PDE
