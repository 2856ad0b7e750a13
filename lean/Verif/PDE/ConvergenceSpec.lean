import Verif.PDE.MeshProbSpec
import Mathlib.Analysis.Calculus.ContDiff.Defs
import Mathlib.MeasureTheory.Integral.Bochner.Set
import Mathlib.MeasureTheory.Constructions.BorelSpace.Order
import Mathlib.MeasureTheory.Measure.Lebesgue.Basic
/-
Exact solutions of -Δu = f as smooth functions, size and shape of the cells of a mesh, and the errors of a discrete function.
-/
namespace Fdapde.PDE
open Fdapde.FEM MeasureTheory
variable {N : Nat}

/-- The partial derivative of `u` along coordinate `z`. -/
noncomputable def pderiv (u : (Fin N → ℝ) → ℝ) (z : Fin N) (x : Fin N → ℝ) : ℝ := fderiv ℝ u x (Pi.single z 1)

/-- The Laplacian. -/
noncomputable def laplacian (u : (Fin N → ℝ) → ℝ) (x : Fin N → ℝ) : ℝ := ∑ z, pderiv (pderiv u z) z x

/-- Euclidean length of a vector. -/
noncomputable def len (x : Fin N → ℝ) : ℝ := Real.sqrt (∑ z, x z ^ 2)

/-- `u` has continuous second derivatives near the domain; on each cell its gradient is Lipschitz with constant `M`, its Laplacian
is bounded by `B` and Lipschitz with constant `L`. -/
structure SmoothOn (n : Nat) (cells : Nat → Nat → Nat) (X : Nat → Fin N → ℝ) (u : (Fin N → ℝ) → ℝ) (M B L : ℝ) : Prop where
  smooth : ∃ U, IsOpen U ∧ domain (N + 1) n cells X ⊆ U ∧ ContDiffOn ℝ 2 u U
  gradient : ∀ c < n, ∀ x ∈ region (N + 1) cells X c, ∀ y ∈ region (N + 1) cells X c,
    len (fun z => pderiv u z y - pderiv u z x) ≤ M * len (y - x)
  bound : ∀ x ∈ domain (N + 1) n cells X, |laplacian u x| ≤ B
  lipschitz : ∀ c < n, ∀ x ∈ region (N + 1) cells X c, ∀ y ∈ region (N + 1) cells X c, |laplacian u y - laplacian u x| ≤ L * len (y - x)

/-- The edges of the cells are not longer than `h` and their heights not shorter than `ρ`: a node is at distance at least `ρ` from
the hyperplane through the other nodes of its cell. -/
structure MeshShape (n : Nat) (cells : Nat → Nat → Nat) (X : Nat → Fin N → ℝ) (h ρ : ℝ) : Prop where
  diam : ∀ c < n, ∀ v < N + 1, ∀ w < N + 1, len (X (cells c v) - X (cells c w)) ≤ h
  height : ∀ c < n, ∀ v < N + 1, ∀ x ∈ affineSpan ℝ {x | ∃ w < N + 1, w ≠ v ∧ x = X (cells c w)}, ρ ≤ len (X (cells c v) - x)

/-- The function with values `w` at the nodes that is affine on the cells is `W c · x + b c` on cell `c`. -/
def PiecewiseAffine (n : Nat) (cells : Nat → Nat → Nat) (X : Nat → Fin N → ℝ) (w : Nat → ℝ) (W : Nat → Fin N → ℝ) (b : Nat → ℝ) : Prop :=
  ∀ c < n, ∀ v < N + 1, w (cells c v) = (∑ z, W c z * X (cells c v) z) + b c

/-- Square of the norm of the error of the gradient. -/
noncomputable def gradError (n : Nat) (cells : Nat → Nat → Nat) (X : Nat → Fin N → ℝ) (u : (Fin N → ℝ) → ℝ) (W : Nat → Fin N → ℝ) : ℝ :=
  ∑ c ∈ Finset.range n, ∫ x in region (N + 1) cells X c, ∑ z, (pderiv u z x - W c z) ^ 2

/-- Square of the norm of the error of the values. -/
noncomputable def valueError (n : Nat) (cells : Nat → Nat → Nat) (X : Nat → Fin N → ℝ) (u : (Fin N → ℝ) → ℝ) (W : Nat → Fin N → ℝ) (b : Nat → ℝ) : ℝ :=
  ∑ c ∈ Finset.range n, ∫ x in region (N + 1) cells X c, (u x - ((∑ z, W c z * x z) + b c)) ^ 2

end Fdapde.PDE
