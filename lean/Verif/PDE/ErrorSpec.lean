import Mathlib.MeasureTheory.Integral.Bochner.Set
import Mathlib.MeasureTheory.Constructions.BorelSpace.Order
import Mathlib.MeasureTheory.Measure.Lebesgue.Basic
import Mathlib.Analysis.Convex.Hull
import Verif.PDE.PatchSpec
/-
The error of first-order elements in the norm of the energy: regions of the cells, gradient of a discrete function, exact
solution and its weak equation, size and shape of the cells.
-/
namespace Fdapde.PDE
open Fdapde.Quadrature MeasureTheory

variable (P : Prob ℝ) (X : Nat → Nat → ℝ)

/-- Region of cell `c`: the convex hull of its nodes. -/
def Prob.cell (c : Nat) : Set (Fin P.N → ℝ) :=
  convexHull ℝ (Set.range fun (j : Fin (P.N + 1)) (z : Fin P.N) => X (P.dofs c j) z)

/-- `G c` is the gradient on cell `c` of the function that is affine on every cell and has value `w p` at node `p`. -/
def Prob.Slope (w : Nat → ℝ) (G : Nat → Fin P.N → ℝ) : Prop :=
  ∀ c < P.n, ∃ b : ℝ, ∀ i < P.nb, w (P.dofs c i) = (∑ z, G c z * X (P.dofs c i) z) + b

/-- Square of the norm of the energy of a discrete function with gradient `G`: the integral of |G|². -/
noncomputable def Prob.energySq (G : Nat → Fin P.N → ℝ) : ℝ :=
  ∑ c ∈ Finset.range P.n, ∫ _ in P.cell X c, ∑ z, G c z ^ 2

/-- Square of the error in the norm of the energy: the integral of |q - G|². -/
noncomputable def Prob.errorSq (q : (Fin P.N → ℝ) → Fin P.N → ℝ) (G : Nat → Fin P.N → ℝ) : ℝ :=
  ∑ c ∈ Finset.range P.n, ∫ x in P.cell X c, ∑ z, (q x z - G c z) ^ 2

/-- The right-hand side computed by the quadrature rule, divided by the sum of its weights, is the integral of q·∇v up to `δ`. -/
def Prob.Consistent (f : Nat → Nat → ℝ) (q : (Fin P.N → ℝ) → Fin P.N → ℝ) (δ : ℝ) : Prop :=
  ∀ v G, P.Test v → P.Slope X v G →
    |P.load f v / (∑ k ∈ Finset.range (size P.t), weight ℝ P.t k) - ∑ c ∈ Finset.range P.n, ∫ x in P.cell X c, ∑ z, q x z * G c z| ≤
      δ * Real.sqrt (P.energySq X G)

/-- On cell `c` the function that is affine on every cell and has value `w p` at node `p` is `G c · x + b c`. -/
def Prob.Affine (w : Nat → ℝ) (G : Nat → Fin P.N → ℝ) (b : Nat → ℝ) : Prop :=
  ∀ c < P.n, ∀ i < P.nb, w (P.dofs c i) = (∑ z, G c z * X (P.dofs c i) z) + b c

/-- Weak form of -Δu = f, `q` the gradient of `u`: the integral of q·∇v is the one of f v for all test functions. -/
def Prob.Poisson (q : (Fin P.N → ℝ) → Fin P.N → ℝ) (f : (Fin P.N → ℝ) → ℝ) : Prop :=
  ∀ v G b, P.Test v → P.Affine X v G b → ∑ c ∈ Finset.range P.n, ∫ x in P.cell X c, ∑ z, q x z * G c z =
    ∑ c ∈ Finset.range P.n, ∫ x in P.cell X c, f x * ((∑ z, G c z * x z) + b c)

/-- Inequality of Friedrichs with constant `C`: the norm of a test function is at most `C` times the one of its gradient. -/
def Prob.Friedrichs (C : ℝ) : Prop :=
  ∀ v G b, P.Test v → P.Affine X v G b →
    ∑ c ∈ Finset.range P.n, ∫ x in P.cell X c, ((∑ z, G c z * x z) + b c) ^ 2 ≤ C ^ 2 * P.energySq X G

/-- On each cell `f` is bounded by `B` and Lipschitz with constant `L`. -/
structure Prob.Regular (f : (Fin P.N → ℝ) → ℝ) (B L : ℝ) : Prop where
  bound : ∀ c < P.n, ∀ x ∈ P.cell X c, |f x| ≤ B
  lipschitz : ∀ c < P.n, ∀ x ∈ P.cell X c, ∀ y ∈ P.cell X c, |f y - f x| ≤ L * Real.sqrt (∑ z, (y z - x z) ^ 2)

/-- `q` is continuous on the cells and is the gradient of `u`, which has second derivatives bounded by `M`. -/
structure Prob.Smooth (u : (Fin P.N → ℝ) → ℝ) (q : (Fin P.N → ℝ) → Fin P.N → ℝ) (M : ℝ) : Prop where
  cont : ∀ c < P.n, ContinuousOn q (P.cell X c)
  taylor : ∀ c < P.n, ∀ x ∈ P.cell X c, ∀ y ∈ P.cell X c,
    |u y - u x - ∑ z, q x z * (y z - x z)| ≤ M / 2 * ∑ z, (y z - x z) ^ 2

/-- The edges of the cells are not longer than `h`, their heights not shorter than `ρ`: the distance of a node from any point
of the hyperplane through the other nodes is at least `ρ`. -/
structure Prob.Shape (h ρ : ℝ) : Prop where
  diam : ∀ c < P.n, ∀ i < P.nb, ∀ j < P.nb, ∑ z : Fin P.N, (X (P.dofs c i) z - X (P.dofs c j) z) ^ 2 ≤ h ^ 2
  height : ∀ c < P.n, ∀ i < P.nb, ∀ μ : Nat → ℝ, ∑ j ∈ Finset.range P.nb, μ j = 1 → μ i = 0 →
    ρ ^ 2 ≤ ∑ z : Fin P.N, (X (P.dofs c i) z - ∑ j ∈ Finset.range P.nb, μ j * X (P.dofs c j) z) ^ 2

end Fdapde.PDE
