import Mathlib.Algebra.Order.Field.Basic
import Mathlib.Data.Fin.VecNotation
/-
Model of `clockwise_order`, fdaPDE/geometry/utils.h:48-67, on points of the plane with coordinates in an ordered field
(no rounding).
-/
namespace Fdapde.Geometry
variable {K : Type} [Field K] [LinearOrder K]

/-- utils.h:54-66 : `clockwise_order(c)(a, b)`, points as pairs. -/
def clockwise (c a b : K × K) : Bool :=
  if a.1 - c.1 ≥ 0 ∧ b.1 - c.1 < 0 then true
  else if b.1 - c.1 ≥ 0 ∧ a.1 - c.1 < 0 then false
  else if a.1 - c.1 = 0 ∧ b.1 - c.1 = 0 then
    if a.2 - c.2 ≥ 0 ∨ b.2 - c.2 ≥ 0 then decide (a.2 > b.2) else decide (b.2 > a.2)
  else
    let aXb := (a.1 - c.1) * (b.2 - c.2) - (b.1 - c.1) * (a.2 - c.2)
    if aXb < 0 then true
    else if aXb > 0 then false
    else decide ((a.1 - c.1) * (a.1 - c.1) + (a.2 - c.2) * (a.2 - c.2) >
      (b.1 - c.1) * (b.1 - c.1) + (b.2 - c.2) * (b.2 - c.2))

end Fdapde.Geometry
