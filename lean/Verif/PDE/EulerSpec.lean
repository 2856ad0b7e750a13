import Verif.PDE.InitSpec
import Mathlib.Analysis.Calculus.Deriv.Basic
/-
The semi-discrete parabolic problem, which the time stepping approximates.
-/
namespace Fdapde.PDE
open Fdapde.Quadrature

/-- The L2 norm of a finite element function. -/
noncomputable def Prob.nrm (P : Prob ℝ) (v : Nat → ℝ) : ℝ := Real.sqrt (P.l2 v v)

/-- A curve of finite element functions, with first derivative `u1` and second derivative `u2` in time. -/
def Curve (u u1 u2 : ℝ → Nat → ℝ) : Prop :=
  ∀ p t, HasDerivAt (fun t => u t p) (u1 t p) t ∧ HasDerivAt (fun t => u1 t p) (u2 t p) t

/-- At the instant `t` the function `u t` takes the values `g` on the boundary and (u', v) + a(u, v) = (f, v) for every test function. -/
def Prob.SemiDiscrete (P : Prob ℝ) (u u1 : ℝ → Nat → ℝ) (t : ℝ) (f : Nat → Nat → ℝ) (g : Nat → ℝ) : Prop :=
  (∀ p < P.m, P.bd p = true → u t p = g p) ∧ ∀ v, P.Test v → P.l2 (u1 t) v + P.bilin (u t) v = P.load f v

end Fdapde.PDE
