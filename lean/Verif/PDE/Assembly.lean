import Verif.FEM.Eval
import Verif.Quadrature.Model
/-
Model of finite_elements/fem_assembler.h.  A mesh with `n` cells enters through the table of dofs `dofs c i` (`nb` local
functions per cell, `N` dofs); `loc c i j` is the integral over cell `c` of the weak form with psi_i and psi_j in the buffers
(fem_assembler.h:98, 105), `frc c i` the integral of the forcing against psi_i (line 133).
-/
namespace Fdapde.PDE
open Fdapde.FEM
variable {K : Type} [Field K]

/-- fem_assembler.h:92-108 : the body for the pair `(i, j)`.  A dof outside of the matrix is undefined behaviour (Eigen does
not check it in release mode; it happens when the matrix is built from the triplets). -/
def pairStep (sym : Bool) (N : Nat) (dofs : Nat → Nat → Nat) (loc : Nat → Nat → Nat → K) (c i : Nat) (l : List (Trip K)) (j : Nat) :
    Res (List (Trip K)) :=
  if sym then
    if dofs c i ≥ dofs c j then
      if dofs c i < N ∧ dofs c j < N then .ok (l ++ [(dofs c i, dofs c j, loc c i j)]) else .ub
    else .ok l
  else if dofs c i < N ∧ dofs c j < N then .ok (l ++ [(dofs c i, dofs c j, loc c i j)]) else .ub

/-- fem_assembler.h:78-111 : triplets of all cells. -/
def opTriplets (sym : Bool) (n nb N : Nat) (dofs : Nat → Nat → Nat) (loc : Nat → Nat → Nat → K) : Res (List (Trip K)) :=
  foldRes (fun l c => foldRes (fun l i => foldRes (pairStep sym N dofs loc c i) l (List.range nb)) l (List.range nb)) [] (List.range n)

/-- fem_assembler.h:52-121 : `discretize_operator`.  `selfadjointView<Lower>` reads entry (q, p) for p < q. -/
def discretizeOperator (sym : Bool) (n nb N : Nat) (dofs : Nat → Nat → Nat) (loc : Nat → Nat → Nat → K) :
    Res (Nat → Nat → K) :=
  (fun l p q => if sym then (if q ≤ p then entry l p q else entry l q p) else entry l p q) <$> opTriplets sym n nb N dofs loc

/-- fem_assembler.h:122-136 : `discretize_forcing`. -/
def discretizeForcing (n nb N : Nat) (dofs : Nat → Nat → Nat) (frc : Nat → Nat → K) : Res (List K) :=
  foldRes (fun v c => foldRes (fun (v : List K) i =>
    if dofs c i < v.length then .ok (v.modify (dofs c i) (· + frc c i)) else .ub) v (List.range nb))
    (List.replicate N 0) (List.range n)

end Fdapde.PDE
