import Mathlib.Analysis.Calculus.Deriv.Basic
/-
Partial derivatives of functions of `n` real variables.
-/
namespace Fdapde.Fields

/-- The derivative of `f` with respect to variable `i`. -/
noncomputable def pd {n : Nat} (i : Fin n) (f : (Fin n → ℝ) → ℝ) (x : Fin n → ℝ) : ℝ := deriv (fun t => f (Function.update x i t)) (x i)

/-- The points that differ from `x` by at most `H` in each coordinate. -/
def Near {n : Nat} (x : Fin n → ℝ) (H : ℝ) (y : Fin n → ℝ) : Prop := ∀ k, |y k - x k| ≤ H

end Fdapde.Fields
