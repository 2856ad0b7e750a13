import Verif.PDE.FloatAssembly
import Verif.PDE.Solver
/-
The parabolic solver in double precision: fem_linear_parabolic_solver.h with every operation rounded.  Solving with the factorization of Eigen is the
parameter `lu`.
-/
namespace Fdapde.PDE
open Fdapde.Fp
noncomputable section

/-- A row of the right hand side of a time step (`fem_linear_parabolic_solver.h` 63): the products of the entries of `mass_ / deltaT_` and of the previous
solution and the forcing are added up in an order that Eigen chooses.  A sparse product visits the stored entries; a stored zero adds zero, which does
not change a sum of doubles, and is left out here. -/
def rhsRowR (r : Rounding) (S : List ℝ → ℝ) (s : Sys ℝ) (dt : ℝ) (u : Nat → ℝ) (i p : Nat) : ℝ :=
  open Classical in
  S ((((List.range s.n).filter fun q => s.mass p q ≠ 0).map fun q => r.rnd (r.rnd (s.mass p q / dt) * u q)) ++ [s.force (s.n * (i + 1) + p)])

/-- As `stepRhs` (`fem_linear_parabolic_solver.h` 63-67). -/
def stepRhsR (r : Rounding) (S : List ℝ → ℝ) (s : Sys ℝ) (dt : ℝ) (g : Dense ℝ) (u : Nat → ℝ) (i : Nat) : Res (Nat → ℝ) :=
  if s.n * (i + 1) + s.n ≤ s.forceRows then
    foldRes (fun (rhs : Nat → ℝ) d => do
      let v ← g.read d (i + 1)
      .ok (fun p => if p = d then v else rhs p)) (rhsRowR r S s dt u i) (boundaryLoop s.bd s.n)
  else .ub

/-- As `solveParabolic` (`fem_linear_parabolic_solver.h` 37-72). -/
def solveParabolicR (r : Rounding) (S : List ℝ → ℝ) (lu : Solver ℝ) (time : List ℝ) (m : Nat) (ic : Nat → ℝ) (g : Dense ℝ) (s : Sys ℝ) :
    Res (Bool × (Nat → Nat → ℝ)) :=
  if s.isInit = false then .throws
  else match time with
    | t0 :: t1 :: _ =>
      let dt := r.rnd (t1 - t0)
      if m = 0 then .ub
      else
        let sys := (boundaryLoop s.bd s.n).foldl unitRow (fun p q => r.rnd (r.rnd (s.mass p q / dt) + s.stiff p q))
        match lu sys with
        | none => .ok (false, fun _ => ic)
        | some f => do
          let sol ← foldRes (fun (sol : Nat → Nat → ℝ) i => do
            let rhs ← stepRhsR r S s dt g (sol i) i
            .ok (fun c => if c = i + 1 then f rhs else sol c)) (fun _ => ic) (List.range (m - 1))
          .ok (true, sol)
    | _ => .ub

/-- As `pdeSolveParabolic` (`pde.h` 102-105). -/
def pdeSolveParabolicR (r : Rounding) (S : List ℝ → ℝ) (lu : Solver ℝ) (time : List ℝ) (m : Nat) (ic : Nat → ℝ) (g : Dense ℝ) (s : Sys ℝ) :
    Res (Bool × (Nat → Nat → ℝ)) := do
  let s ← if g.rows * g.cols = 0 then .ok s else setDirichlet g s
  solveParabolicR r S lu time m ic g s

end
end Fdapde.PDE
