import Verif.PDE.SemiRoundedSpec
import Verif.Splines.FloatSolver
import Verif.Splines.SmoothingSpec
/-
Smoothing splines in floating point arithmetic: the program of `smooth` (Splines/SmoothingSpec.lean) with every operation rounded.
-/
namespace Fdapde.PDE
open Fdapde.Fp

/-- `normalMatrix` with rounding. -/
noncomputable def normalMatrixR (r : Rounding) (S : List ℝ → ℝ) (m : Nat) (Psi P : Nat → Nat → ℝ) (lam : ℝ) (p q : Nat) : ℝ :=
  r.rnd (dotR r S (fun j : Fin m => Psi j p) (fun j => Psi j q) + r.rnd (lam * P p q))

/-- `normalRhs` with rounding. -/
noncomputable def normalRhsR (r : Rounding) (S : List ℝ → ℝ) (m : Nat) (Psi : Nat → Nat → ℝ) (y : Nat → ℝ) (p : Nat) : ℝ :=
  dotR r S (fun j : Fin m => Psi j p) fun j => y j

/-- `smooth` with rounding `r`, products of matrices added up by `S`; the tables of the rule hold the rounded nodes and weights. -/
noncomputable def smoothR (r : Rounding) (S : List ℝ → ℝ) (tol : ℝ) (R : Nat) (knots qn qw : List ℝ) (lu : Solver ℝ) (locs : List ℝ) (lam : ℝ) (y : Nat → ℝ) :
    Res (Option (List ℝ × (Nat → Nat → ℝ) × List ℝ)) := do
  let s ← Splines.createF r.ops R knots
  let s' ← Splines.initF r.ops tol R (qn.map r.rnd) (qw.map r.rnd) (.neg .bilap) s
  let l ← Splines.evalTripletsF r.ops tol R s'.basis locs
  match lu (normalMatrixR r S locs.length (Splines.entry l) s'.stiff lam) with
  | none => .ok none
  | some f => .ok (some (s'.basis, s'.stiff, (List.range (s'.nDofs R)).map (f (normalRhsR r S locs.length (Splines.entry l) y))))

end Fdapde.PDE
