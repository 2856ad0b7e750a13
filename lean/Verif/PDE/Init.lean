import Verif.PDE.Assembly
import Verif.PDE.Operators
import Verif.PDE.Solver
import Verif.PDE.PropsOperators
/-
Model of `FEMSolverBase::init`, fdaPDE/finite_elements/solvers/fem_solver_base.h:106-139, on top of the assembler and the
solvers.
-/
namespace Fdapde.PDE
open Fdapde.Quadrature
variable {K : Type} [Field K]

/-- What `init` reads: quadrature rule `t`, embedding dimension `N`, operator, measures of the cells, reference basis and
transformed gradients, number of cells `n`, of local functions `nb` and of dofs `m`, table of dofs, boundary dofs. -/
structure Prob (K : Type) where
  t : Table
  N : Nat
  op : Op K
  measure : Nat → K
  psi : Nat → (Nat → K) → K
  grad : Nat → Nat → (Nat → K) → Nat → K
  n : Nat
  nb : Nat
  m : Nat
  dofs : Nat → Nat → Nat
  bd : Nat → Bool

/-- fem_solver_base.h:123, 128 : `assembler.discretize_forcing(pde.forcing_data().col(i))`; the rows of the data are the
values at the quadrature nodes.  A missing column or row is undefined behaviour (every row is read, since there is at
least one local function and one node). -/
def Prob.forceCol (P : Prob K) (data : Dense K) (i : Nat) : Res (List K) :=
  if i < data.cols ∧ P.n * size P.t ≤ data.rows then
    discretizeForcing P.n P.nb P.m P.dofs fun c j =>
      integrateBasisVec P.t c (P.measure c) (fun r => data.at' r i) (P.psi j)
  else .ub

/-- `force_.block(n * i, 0, n, 1) = v`. -/
def putBlock (n i : Nat) (f : Nat → K) (v : List K) : Nat → K :=
  fun p => if n * i ≤ p ∧ p < n * i + n then v.getD (p - n * i) 0 else f p

/-- fem_solver_base.h:120-130 : forcing given by its values; `junk` is the content of the memory after `resize`. -/
def Prob.force (P : Prob K) (data : Dense K) (junk : Nat → K) : Res (Nat → K) :=
  P.forceCol data 0 >>= fun v =>
    if hasDT P.op then
      foldRes (fun f i => putBlock P.m i f <$> P.forceCol data i) (putBlock P.m 0 junk v) (List.range' 1 (data.cols - 1))
    else .ok (putBlock P.m 0 junk v)

/-- fem_solver_base.h:107-139 : `init` for a forcing given by its values. -/
def Prob.init (P : Prob K) (data : Dense K) (junk : Nat → K) : Res (Sys K) :=
  discretizeOperator (isSymmetric P.op) P.n P.nb P.m P.dofs (locOf P.t P.N P.op P.measure P.psi P.grad) >>= fun A =>
    P.force data junk >>= fun f =>
      discretizeOperator (isSymmetric (.react (fun _ => 1) : Op K)) P.n P.nb P.m P.dofs
          (locOf P.t P.N (.react fun _ => 1) P.measure P.psi P.grad) >>= fun M =>
        .ok ⟨P.m, P.bd, A, M, f, P.m * data.cols, true⟩

/-- fem_solver_base.h:107-118, 131-139 : `init` for a callable forcing; `map c p` is the point of cell `c` with reference
coordinates `p`. -/
def Prob.initCall {Q : Type} (P : Prob K) (map : Nat → (Nat → K) → Q) (f : Q → K) (junk : Nat → K) : Res (Sys K) :=
  discretizeOperator (isSymmetric P.op) P.n P.nb P.m P.dofs (locOf P.t P.N P.op P.measure P.psi P.grad) >>= fun A =>
    discretizeForcing P.n P.nb P.m P.dofs (fun c j => integrateBasis P.t (map c) (P.measure c) f (P.psi j)) >>= fun v =>
      discretizeOperator (isSymmetric (.react (fun _ => 1) : Op K)) P.n P.nb P.m P.dofs
          (locOf P.t P.N (.react fun _ => 1) P.measure P.psi P.grad) >>= fun M =>
        .ok ⟨P.m, P.bd, A, M, putBlock P.m 0 junk v, P.m, true⟩

end Fdapde.PDE
