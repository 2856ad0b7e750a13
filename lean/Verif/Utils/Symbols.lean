import Mathlib.Algebra.Order.Field.Basic
import Mathlib.Analysis.SpecialFunctions.Log.Basic

/-!
# Small numerical utilities

Model of parts of `fdaPDE/utils/symbols.h`.  Floating point numbers are replaced by an ordered field (by the reals for `log1pexp`); rounding
and NaN are not modelled.
-/

namespace Fdapde.Utils

/-- `almost_equal(a, b, epsilon)` (symbols.h 166-170). -/
def almostEqual {K : Type} [Field K] [LinearOrder K] (a b eps : K) : Prop :=
  |a - b| < eps ∨ |a - b| < (if |a| < |b| then |b| else |a|) * eps

/-- `log1pexp(x)` (symbols.h 180-185). -/
noncomputable def log1pexp (x : ℝ) : ℝ :=
  if x ≤ -37 then Real.exp x
  else if x ≤ 18 then Real.log (1 + Real.exp x)
  else if x > 333 / 10 then x
  else x + Real.exp (-x)

/-- `std::lexicographical_compare(first1, last1, first2, last2)`, the standard algorithm used by `s_vector_compare` and `d_vector_compare`
(symbols.h 119-130). -/
def lexCompare {K : Type} [LinearOrder K] : List K → List K → Bool
  | [], [] => false
  | [], _ :: _ => true
  | _ :: _, [] => false
  | a :: as, b :: bs => if a < b then true else if b < a then false else lexCompare as bs

end Fdapde.Utils
