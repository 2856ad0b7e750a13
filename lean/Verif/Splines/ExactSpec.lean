import Verif.Splines.SolverSpec
import Mathlib.Algebra.Polynomial.Eval.Degree
import Mathlib.MeasureTheory.Integral.IntervalIntegral.Basic
/- Quadrature rules which are exact, and operators whose weak form is a piecewise polynomial. -/
namespace Fdapde.Splines
open Polynomial

/-- The rule on [-1, 1] with nodes `qn` and weights `qw` integrates the polynomials of degree up to `d`. -/
def ExactTo (qn qw : List ℝ) (d : Nat) : Prop := ∀ p : ℝ[X], p.natDegree ≤ d →
  ∑ k ∈ Finset.range (min qn.length qw.length), qw.getD k 0 * p.eval (qn.getD k 0) = ∫ x in (-1 : ℝ)..1, p.eval x

/-- Degree of the integrand of an operator for splines of order `R`: all coefficients are polynomials, and `d` is at least twice the
order of the (derivatives of the) splines plus the degree of the coefficient. -/
def SOp.DegLe (R : Nat) : SOp ℝ → Nat → Prop
  | .bilap, d => 2 * (R - 2) ≤ d
  | .react c, d => ∃ p : ℝ[X], (∀ y, c y = p.eval y) ∧ p.natDegree + 2 * R ≤ d
  | .add a b, d => a.DegLe R d ∧ b.DegLe R d
  | .sub a b, d => a.DegLe R d ∧ b.DegLe R d
  | .smul _ a, d => a.DegLe R d
  | .neg a, d => a.DegLe R d

end Fdapde.Splines
