import Verif.Optim.FloatModel

/-!
# Grid search in floating point
-/

namespace Fdapde.Optim.Flt
open Fdapde.Fp Classical

variable {n : Nat}

/-- The loop of `Grid::optimize` without callbacks (`grid.h` 56-65): optimum and value so far. -/
noncomputable def fgridLoop (obj : FVec n → Dbl) : List (FVec n) → FVec n × Dbl → FVec n × Dbl
  | [], s => s
  | x :: xs, s => fgridLoop obj xs (if (obj x).Lt s.2 then (x, obj x) else s)

/-- `Grid::optimize` (`grid.h` 46-67) without callbacks on a grid whose first row is `x0`: `optimum()` and `value()` after the call. -/
noncomputable def fgridOptimize (obj : FVec n → Dbl) (x0 : FVec n) (xs : List (FVec n)) : FVec n × Dbl := fgridLoop obj xs (x0, obj x0)

end Fdapde.Optim.Flt
