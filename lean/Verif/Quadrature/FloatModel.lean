import Verif.Quadrature.Model
import Verif.Float.Round
/-
The integrators of integrator.h with rounded operations.  `g id iq` is the value which the code obtains for the integrand at the iq-th
node of cell `id`, with whatever error, `measure id` what it has stored as measure of the cell; weights are the doubles nearest to
the decimal literals of the tables.
-/
namespace Fdapde.Quadrature
open Fdapde.Fp
noncomputable section

/-- integrator.h:45-51, 76-87, 95-102 -/
def accumR (r : Rounding) (t : Table) (g : Nat → ℝ) : ℝ :=
  (List.range (size t)).foldl (fun v iq => r.ops.add v (r.ops.mul (g iq) (r.rnd (weight ℝ t iq)))) 0

/-- integrator.h:59, 89, 105 -/
def integrateCellR (r : Rounding) (t : Table) (measure : ℝ) (g : Nat → ℝ) : ℝ := r.ops.mul (accumR r t g) measure

/-- integrator.h:62-69 -/
def integrateMeshR (r : Rounding) (n : Nat) (cell : Nat → ℝ) : ℝ := (List.range n).foldl (fun v id => r.ops.add v (cell id)) 0

/-- integrator.h:134-143 -/
def integrateIntervalR (r : Rounding) (t : Table) (a b : ℝ) (g : Nat → ℝ) : ℝ :=
  r.ops.mul (r.ops.div (r.ops.sub b a) 2) (accumR r t g)

end
end Fdapde.Quadrature
