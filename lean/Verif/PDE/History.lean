import Verif.PDE.Init
/-
Model of the life of a `PDE` object, fdaPDE/pde/pde.h:54-114: any sequence of calls of the setters, `init` and `solve`.
The solver keeps its matrices and its last solution between the calls (fem_solver_base.h:88-100).
-/
namespace Fdapde.PDE
variable {K : Type} [Field K]

/-- Data members of a `PDE` (pde.h:107-113) and of its solver: the operator is a field of `P`; `data` is `forcing_data_`, `g` is
`boundary_data_`, `ic` is `initial_condition_`, `sys` holds the members of the solver, `success` and `sol` its outcome (`none` is
the empty matrix; columns first). -/
structure Obj (K : Type) where
  P : Prob K
  data : Dense K
  g : Dense K
  ic : Nat → K
  sys : Sys K
  success : Bool
  sol : Option (Nat → Nat → K)

/-- pde.h:61-71 : an object under construction has an empty solver, no boundary data and no solution. -/
def Obj.fresh (P : Prob K) (data : Dense K) : Obj K :=
  ⟨P, data, ⟨0, 0, fun _ _ => 0⟩, fun _ => 0, ⟨0, fun _ => false, fun _ _ => 0, fun _ _ => 0, fun _ => 0, 0, false⟩, false, none⟩

/-- The calls.  `junk` is what the memory of `force_` holds after `resize`. -/
inductive Call (K : Type)
  | setForcing (data : Dense K)
  | setOperator (op : Op K)
  | setDirichlet (g : Dense K)
  | setInitial (ic : Nat → K)
  | init (junk : Nat → K)
  | solve

/-- The `solve` of a solver: forcing data, initial condition and boundary data of the problem are what it may read of it; the
outcome is the flag and the solution, `none` when the old one is kept. -/
abbrev SolveFn (K : Type) := Dense K → (Nat → K) → Dense K → Sys K → Res (Bool × Option (Nat → Nat → K))

/-- fem_linear_elliptic_solver.h:34-50 -/
def elliptic (lu : Solver K) : SolveFn K := fun _ _ _ s => (fun r => (r.1, r.2.map fun u _ => u)) <$> solveElliptic lu s

/-- fem_linear_parabolic_solver.h:37-72 : the number of steps is the number of columns of the forcing data of the problem. -/
def parabolic (lu : Solver K) (time : List K) : SolveFn K := fun data ic g s =>
  (fun r => (r.1, some r.2)) <$> solveParabolic lu time data.cols ic g s

/-- pde.h:103 : boundary data which are not empty are imposed on the solver. -/
def impose (g : Dense K) (s : Sys K) : Res (Sys K) := if g.rows * g.cols = 0 then .ok s else setDirichlet g s

/-- The object after a run of the solver. -/
def Obj.done (o : Obj K) (s : Sys K) (r : Bool × Option (Nat → Nat → K)) : Obj K :=
  { o with sys := s, success := r.1, sol := r.2 <|> o.sol }

/-- pde.h:74-77, 101-105 : one call. -/
def Obj.step (S : SolveFn K) (o : Obj K) : Call K → Res (Obj K)
  | .setForcing data => .ok { o with data := data }
  | .setOperator op => .ok { o with P := { o.P with op := op } }
  | .setDirichlet g => .ok { o with g := g }
  | .setInitial ic => .ok { o with ic := ic }
  | .init junk => (fun s => { o with sys := s }) <$> o.P.init o.data junk
  | .solve => impose o.g o.sys >>= fun s => (fun r => o.done s r) <$> S o.data o.ic o.g s

/-- A sequence of calls.  An exception is caught by the caller, who goes on with the object: the only exceptions are those of
fem_solver_base.h:146 and of the first lines of the solvers, thrown before anything is written. -/
def Obj.run (S : SolveFn K) : Obj K → List (Call K) → Res (Obj K)
  | o, [] => .ok o
  | o, c :: cs =>
    match o.step S c with
    | .ok o' => Obj.run S o' cs
    | .throws => Obj.run S o cs
    | .ub => .ub

end Fdapde.PDE
