import Mathlib.Algebra.MvPolynomial.Degrees
import Mathlib.Analysis.SpecialFunctions.Integrals.Basic
/-
Integrals over the reference simplices as iterated integrals.
-/
namespace Fdapde.Quadrature
open intervalIntegral

/-- Integral over `[0, 1]`. -/
noncomputable def refInt1 (f : (Fin 1 → ℝ) → ℝ) : ℝ := ∫ x in (0 : ℝ)..1, f ![x]

/-- Integral over the triangle with vertices (0,0), (1,0), (0,1). -/
noncomputable def refInt2 (f : (Fin 2 → ℝ) → ℝ) : ℝ := ∫ x in (0 : ℝ)..1, ∫ y in (0 : ℝ)..(1 - x), f ![x, y]

/-- Integral over the tetrahedron with vertices (0,0,0), (1,0,0), (0,1,0), (0,0,1). -/
noncomputable def refInt3 (f : (Fin 3 → ℝ) → ℝ) : ℝ :=
  ∫ x in (0 : ℝ)..1, ∫ y in (0 : ℝ)..(1 - x), ∫ z in (0 : ℝ)..(1 - x - y), f ![x, y, z]

/-- Sum of the absolute values of the coefficients of a polynomial. -/
noncomputable def coeffSum {M : Nat} (p : MvPolynomial (Fin M) ℝ) : ℝ := ∑ m ∈ p.support, |p.coeff m|

end Fdapde.Quadrature
