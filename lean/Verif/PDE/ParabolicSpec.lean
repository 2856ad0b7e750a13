import Verif.PDE.EllipticSpec
import Mathlib.Analysis.Calculus.Deriv.Basic
/-
Smooth functions of time and space, as solutions of u' - div(A∇u) + β·∇u + r u = f with coefficients that depend on the point.
-/
namespace Fdapde.PDE
open Fdapde.FEM
variable {N : Nat}

/-- Between the instants `T0` and `T1` the function `u` is smooth in space as in `FluxOn`, with the same constants at all instants;
`u'` is its derivative in time, which is Lipschitz in time with constant `K` and, on each cell, in space with constant `L'`. -/
structure FlowOn (n : Nat) (cells : Nat → Nat → Nat) (X : Nat → Fin N → ℝ) (A : (Fin N → ℝ) → Fin N → Fin N → ℝ) (u u' : ℝ → (Fin N → ℝ) → ℝ)
    (T0 T1 M F B L K L' : ℝ) : Prop where
  space : ∀ t ∈ Set.Icc T0 T1, FluxOn n cells X A (u t) M F B L
  time : ∀ x ∈ domain (N + 1) n cells X, ∀ t ∈ Set.Icc T0 T1, HasDerivWithinAt (fun t => u t x) (u' t x) (Set.Icc T0 T1) t
  velocity : ∀ x ∈ domain (N + 1) n cells X, ∀ s ∈ Set.Icc T0 T1, ∀ t ∈ Set.Icc T0 T1, |u' t x - u' s x| ≤ K * |t - s|
  spread : ∀ t ∈ Set.Icc T0 T1, ∀ c < n, ∀ x ∈ region (N + 1) cells X c, ∀ y ∈ region (N + 1) cells X c, |u' t y - u' t x| ≤ L' * len (y - x)

/-- The forcing of the equation with solution `u`. -/
noncomputable def parabolicForcing (A : (Fin N → ℝ) → Fin N → Fin N → ℝ) (β : (Fin N → ℝ) → Fin N → ℝ) (r : (Fin N → ℝ) → ℝ)
    (u u' : ℝ → (Fin N → ℝ) → ℝ) (t : ℝ) (x : Fin N → ℝ) : ℝ := u' t x + ellipticForcing A β r (u t) x

end Fdapde.PDE
