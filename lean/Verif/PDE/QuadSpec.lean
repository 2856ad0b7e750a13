import Verif.PDE.ConvergenceSpec
import Mathlib.Algebra.MvPolynomial.PDeriv
/-
Smooth exact solutions and piecewise quadratic functions, for second order elements on triangles of the plane.
-/
namespace Fdapde.PDE
open Fdapde.FEM MeasureTheory

/-- `u` has continuous third derivatives near the domain and first derivatives bounded by `G`; on each cell its second derivatives are Lipschitz
with constant `M`; its Laplacian is bounded by `B` and on each cell the gradient of the Laplacian is Lipschitz with constant `L`. -/
structure SmoothOn3 (n : Nat) (cells : Nat → Nat → Nat) (X : Nat → Fin 2 → ℝ) (u : (Fin 2 → ℝ) → ℝ) (G M B L : ℝ) : Prop where
  smooth : ∃ U, IsOpen U ∧ domain 3 n cells X ⊆ U ∧ ContDiffOn ℝ 3 u U
  first : ∀ x ∈ domain 3 n cells X, ∀ z, |pderiv u z x| ≤ G
  second : ∀ c < n, ∀ x ∈ region 3 cells X c, ∀ y ∈ region 3 cells X c, ∀ z,
    len (fun s => pderiv (pderiv u z) s y - pderiv (pderiv u z) s x) ≤ M * len (y - x)
  bound : ∀ x ∈ domain 3 n cells X, |laplacian u x| ≤ B
  laplace : ∀ c < n, ∀ x ∈ region 3 cells X c, ∀ y ∈ region 3 cells X c,
    len (fun s => pderiv (laplacian u) s y - pderiv (laplacian u) s x) ≤ L * len (y - x)

/-- On cell `c` the discrete function is the polynomial `W c` of degree at most two; it has the value `w p` at the point `Y p` of every dof `p` of
the cell. -/
def PiecewiseQuadratic (n : Nat) (dofs : Nat → Nat → Nat) (Y : Nat → Option (Fin 2 → ℝ)) (w : Nat → ℝ) (W : Nat → MvPolynomial (Fin 2) ℝ) : Prop :=
  ∀ c < n, (W c).totalDegree ≤ 2 ∧ ∀ i < 6, ∃ x, Y (dofs c i) = some x ∧ MvPolynomial.eval x (W c) = w (dofs c i)

/-- Square of the norm of the error of the gradient. -/
noncomputable def gradError2 (n : Nat) (cells : Nat → Nat → Nat) (X : Nat → Fin 2 → ℝ) (u : (Fin 2 → ℝ) → ℝ) (W : Nat → MvPolynomial (Fin 2) ℝ) : ℝ :=
  ∑ c ∈ Finset.range n, ∫ x in region 3 cells X c, ∑ z, (pderiv u z x - MvPolynomial.eval x (MvPolynomial.pderiv z (W c))) ^ 2

/-- Square of the norm of the error of the values. -/
noncomputable def valueError2 (n : Nat) (cells : Nat → Nat → Nat) (X : Nat → Fin 2 → ℝ) (u : (Fin 2 → ℝ) → ℝ) (W : Nat → MvPolynomial (Fin 2) ℝ) : ℝ :=
  ∑ c ∈ Finset.range n, ∫ x in region 3 cells X c, (u x - MvPolynomial.eval x (W c)) ^ 2

end Fdapde.PDE
