import Verif.PDE.RegressionSpec
import Verif.PDE.FloatAssembly
import Verif.PDE.FloatCells3
/-
Spatial regression in floating point arithmetic: the program of `spatialFit` (RegressionSpec.lean) with every operation rounded.
-/
namespace Fdapde.PDE
open Finset FEM Fdapde.Fp

/-- `spatialFit` with rounding `r` and sums in the order of `S`: initialization of the problem, products of matrices, products with the parameter.  The
rows of the evaluation matrix are read with `entry`: the dofs of a cell are distinct, so that no addition takes place there (simplification). -/
noncomputable def spatialFitR (r : Rounding) (S : List ℝ → ℝ) (lu : Solver ℝ) (P : Prob ℝ) (data : Dense ℝ) (junk : Nat → ℝ) (ids : List Int)
    (psi : Nat → Nat → Nat → ℝ) (lam : ℝ) (y : Nat → ℝ) : Res (Option ((Nat → ℝ) × (Nat → ℝ))) := do
  let s ← P.initR r S data junk
  let l ← pointEval P.n P.nb P.dofs ids psi
  let A ← LinAlg.SB.make 2 2 [
    ⟨s.n, s.n, fun p q => -S ((List.range ids.length).map fun j => r.rnd (entry l j p * entry l j q))⟩,
    ⟨s.n, s.n, fun p q => r.rnd (lam * s.stiff q p)⟩,
    ⟨s.n, s.n, fun p q => r.rnd (lam * s.stiff p q)⟩, ⟨s.n, s.n, fun p q => r.rnd (lam * s.mass p q)⟩]
  match lu (readAll A) with
  | none => .ok none
  | some F =>
    let x := F fun p => if p < s.n then -S ((List.range ids.length).map fun j => r.rnd (entry l j p * y j)) else r.rnd (lam * s.force (p - s.n))
    .ok (some (x, fun p => x (s.n + p)))

/-- Coefficients of the first order basis functions of the reference simplex (barycentric coordinates): constant term, then the terms in the coordinates. -/
def coef1 (h m : Nat) : ℝ := if h = 0 then (if m = 0 then 1 else -1) else if h = m then 1 else 0

variable {N : Nat}

/-- `e.invJ() * (p_i - e.node(0))`, lagrangian_basis.h:226, with the computed inverse `iv`. -/
noncomputable def refPointR (r : Rounding) (S : List ℝ → ℝ) (iv : Nat → Nat → ℝ) (x0 x : Fin N → ℝ) (w : Nat) : ℝ :=
  S ((List.range N).map fun z => r.rnd (iv w z * if hz : z < N then r.rnd (x ⟨z, hz⟩ - x0 ⟨z, hz⟩) else 0))

/-- lagrangian_basis.h:224-226 with multivariate_polynomial.h:209-213 : value of the `h`-th first order function of cell `c` at location `i`, with the
computed coefficients `cf` of the reference basis.  `std::pow` with exponent 0 or 1 is exact. -/
noncomputable def psiAtR (r : Rounding) (S : List ℝ → ℝ) (cf : Nat → Nat → ℝ) (iv : Nat → Nat → Nat → ℝ) (cells : Nat → Nat → Nat) (X : Nat → Fin N → ℝ)
    (locs : Nat → Fin N → ℝ) (c h i : Nat) : ℝ :=
  S ((List.range (N + 1)).map fun m => r.rnd (cf h m * if m = 0 then 1 else refPointR r S (iv c) (X (cells c 0)) (locs i) (m - 1)))

end Fdapde.PDE
