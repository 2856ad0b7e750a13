import Verif.Splines.Solver
import Mathlib.Algebra.BigOperators.Group.Finset.Basic
/- Forms on spline functions given by their coefficients. -/
namespace Fdapde.Splines
variable {K : Type} [Field K] [LinearOrder K]

/-- Value of the derivative of order `k` of the spline with coefficients `u` in a basis with values `b`. -/
def spline (n : Nat) (b : Nat → K → K) (u : Nat → K) (y : K) : K := ∑ i ∈ Finset.range n, u i * b i y

/-- The integrand of the form of an operator: `c u v` for the reaction, `-u'' v''` for the bilaplacian (the sign of the code,
see `C105_bug_sign`). -/
def sform (y : K) : SOp K → (u u2 v v2 : K) → K
  | .bilap, _, u2, _, v2 => -(u2 * v2)
  | .react c, u, _, v, _ => c y * u * v
  | .add a b, u, u2, v, v2 => sform y a u u2 v v2 + sform y b u u2 v v2
  | .sub a b, u, u2, v, v2 => sform y a u u2 v v2 - sform y b u u2 v v2
  | .smul x a, u, u2, v, v2 => x * sform y a u u2 v v2
  | .neg a, u, u2, v, v2 => -sform y a u u2 v v2

/-- Composite quadrature over the spans of the knots. -/
def integral (qn qw knots : List K) (f : K → K) : K :=
  ∑ s ∈ Finset.range (knots.length - 1), (knots.getD (s + 1) 0 - knots.getD s 0) / 2 *
    ∑ k ∈ Finset.range (min qn.length qw.length),
      qw.getD k 0 * f ((knots.getD (s + 1) 0 - knots.getD s 0) / 2 * qn.getD k 0 + (knots.getD (s + 1) 0 + knots.getD s 0) / 2)

end Fdapde.Splines
