import Verif.LinAlg.Model
import Verif.Float.Sum
import Mathlib.LinearAlgebra.Matrix.Defs
import Mathlib.Data.Matrix.Mul
/-
The functions of kronecker_product.h, lumping.h and smw.h in floating point.  The operations are those of a `Rounding` (no overflow, no underflow: see
Verif/Float/Round.lean); a sum of Eigen is computed in an order and grouping of Eigen's choice, given by `S` with `r.Summation S`.  Fused
multiply-additions are not modelled.
-/
namespace Fdapde.LinAlg
open Fdapde.Fp
variable (r : Rounding) (S : List ℝ → ℝ)

/-- kronecker_product.h:152-155 : `coeff(row, col)` of the dense product, with the product rounded. -/
noncomputable def kronCoeffFp (A B : Mat ℝ) (row col : Nat) : Res ℝ :=
  if B.rows = 0 ∨ B.cols = 0 then .ub else do
    let a ← A.get (row / B.rows) (col / B.cols)
    let b ← B.get (row % B.rows) (col % B.cols)
    .ok (r.rnd (a * b))

/-- lumping.h:43-52 : dense version. -/
noncomputable def lumpDenseFp (A : Mat ℝ) : Res (Mat ℝ) :=
  if A.rows = A.cols then
    .ok ⟨A.rows, A.rows, fun i j => if i = j then S ((List.range A.cols).map (A.coeff i)) else 0⟩
  else .throws

/-- The values stored in row `i`. -/
def rowVals (l : List (Nat × Nat × ℝ)) (i : Nat) : List ℝ := (l.filter fun t => t.1 = i).map fun t => t.2.2

/-- lumping.h:28-41 : sparse version, from and to stored entries. -/
noncomputable def lumpSparseFp (rows cols : Nat) (l : List (Nat × Nat × ℝ)) : Res (List (Nat × Nat × ℝ)) :=
  if rows = cols then .ok ((List.range rows).map fun i => (i, i, S (rowVals l i))) else .throws

variable {n q k : Nat}

/-- Product of two Eigen matrices: rounded products, added up by `S`. -/
noncomputable def mulFp {m p l : Nat} (X : Matrix (Fin m) (Fin p) ℝ) (Y : Matrix (Fin p) (Fin l) ℝ) : Matrix (Fin m) (Fin l) ℝ :=
  fun i j => S ((List.finRange p).map fun h => r.rnd (X i h * Y h j))

/-- smw.h:45-59 : `solveAk`, `solveAq` are the factorised sparse solver on right-hand sides of two widths, `solveG M` the dense solver after
`compute(M)`. -/
noncomputable def smwSolveFp (solveAk : Matrix (Fin n) (Fin k) ℝ → Matrix (Fin n) (Fin k) ℝ)
    (solveAq : Matrix (Fin n) (Fin q) ℝ → Matrix (Fin n) (Fin q) ℝ)
    (solveG : Matrix (Fin q) (Fin q) ℝ → Matrix (Fin q) (Fin k) ℝ → Matrix (Fin q) (Fin k) ℝ)
    (U : Matrix (Fin n) (Fin q) ℝ) (invC : Matrix (Fin q) (Fin q) ℝ) (V : Matrix (Fin q) (Fin n) ℝ)
    (b : Matrix (Fin n) (Fin k) ℝ) : Matrix (Fin n) (Fin k) ℝ :=
  let y := solveAk b
  let Y := solveAq U
  let G := (invC + mulFp r S V Y).map r.rnd
  let t := solveG G (mulFp r S V y)
  let v := solveAk (mulFp r S U t)
  (y - v).map r.rnd

end Fdapde.LinAlg
