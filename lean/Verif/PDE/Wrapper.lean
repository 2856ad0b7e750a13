import Verif.PDE.History
import Verif.Utils.Erasure
/-
The type-erased PDE: fdaPDE/pde/pde.h:116-169 over fdaPDE/utils/type_erasure.h.  A call of the wrapper casts the function found in the table to the type
the wrapper expects.  The cast is accepted if the types of the arguments and of the result are the same; `const void*` for `void*` and
`EvalReturnType` for `std::pair<SpMatrix<double>, DVector<double>>`, which have the same representation, are accepted too.  Anything else is undefined
behaviour.  The storage of the held object is that of C78.
-/
namespace Fdapde.PDE
open Utils

/-- The member functions in the table. -/
inductive Meth
  | init | solve | solution | force | stiff | mass | quadratureNodes | nDofs | dofCoords | forcingData | timeDomain | initialCondition
  | evalPointwise | evalAreal | setForcing | setDirichlet | setInitial | setOperator
deriving DecidableEq

/-- pde.h:120-134 : `fn_ptrs`. -/
def fnPtrs : List Meth :=
  [.init, .solve, .solution, .force, .stiff, .mass, .quadratureNodes, .nDofs, .dofCoords, .forcingData, .timeDomain, .initialCondition,
   .evalPointwise, .evalAreal, .setForcing, .setDirichlet, .setInitial, .setOperator]

/-- The interface `PDE__`. -/
def pdeInterface : Interface Meth := ⟨0, fnPtrs⟩

/-- Types of arguments and results.  `forcing τ` is a reference to a forcing: type 0 is `DMatrix<double>`; `operator τ` a reference to an operator. -/
inductive Ty
  | void | spmatRef | dmat | int | dvecRef | eval | forcing (τ : Nat) | operator (τ : Nat)
deriving DecidableEq

/-- `const DMatrix<double>&` -/
def dmatRef : Ty := .forcing 0

/-- pde.h:73-105 : result and arguments of the member functions of a `PDE` with forcing of type `F` and operator of type `E`. -/
def Meth.sig (F E : Nat) : Meth → Ty × List Ty
  | .init => (.void, [])
  | .solve => (.void, [])
  | .solution => (dmatRef, [])
  | .force => (dmatRef, [])
  | .stiff => (.spmatRef, [])
  | .mass => (.spmatRef, [])
  | .quadratureNodes => (.dmat, [])
  | .nDofs => (.int, [])
  | .dofCoords => (.dmat, [])
  | .forcingData => (.forcing F, [])
  | .timeDomain => (.dvecRef, [])
  | .initialCondition => (.dvecRef, [])
  | .evalPointwise => (.eval, [dmatRef])
  | .evalAreal => (.eval, [dmatRef])
  | .setForcing => (.void, [.forcing F])
  | .setDirichlet => (.void, [dmatRef])
  | .setInitial => (.void, [.dvecRef])
  | .setOperator => (.void, [.operator E])

/-- The member functions of the wrapper; `τ` is the type of what is passed. -/
inductive Req
  | init | solve | solution | force | stiff | mass | quadratureNodes | nDofs | dofCoords | forcingData | timeDomain | initialCondition
  | evalBasis (kind : Int) | setForcing (τ : Nat) | setDirichlet | setInitial | setOperator (τ : Nat)
deriving DecidableEq

/-- pde.h:136-163 : number in the table, result and arguments the wrapper casts to; `none` returns without a call. -/
def Req.slot : Req → Option (Nat × Ty × List Ty)
  | .init => some (0, .void, [])
  | .solve => some (1, .void, [])
  | .solution => some (2, dmatRef, [])
  | .force => some (3, dmatRef, [])
  | .stiff => some (4, .spmatRef, [])
  | .mass => some (5, .spmatRef, [])
  | .quadratureNodes => some (6, .dmat, [])
  | .nDofs => some (7, .int, [])
  | .dofCoords => some (8, .dmat, [])
  | .forcingData => some (9, dmatRef, [])
  | .timeDomain => some (10, .dvecRef, [])
  | .initialCondition => some (11, .dvecRef, [])
  | .evalBasis kind => if kind = 0 then some (12, .eval, [dmatRef]) else if kind = 1 then some (13, .eval, [dmatRef]) else none
  | .setForcing τ => some (14, .void, [.forcing τ])
  | .setDirichlet => some (15, .void, [dmatRef])
  | .setInitial => some (16, .void, [.dvecRef])
  | .setOperator τ => some (17, .void, [.operator τ])

/-- A held object: a `PDE<D, E, F, S>` with the types of its forcing and operator. -/
structure Held (V : Type) where
  fty : Nat
  ety : Nat
  val : V

variable {V A O : Type}

/-- What the member functions of the held object do: argument, result and new state. -/
abbrev Sem (V A O : Type) := Meth → A → V → Res (O × V)

/-- pde.h:136-163, type_erasure.h:272-277 : a call of the wrapper; the result is `none` if nothing is called. -/
def wcall (sem : Sem V A O) (e : Erased Meth (Held V)) (r : Req) (a : A) : Res (Option O × Erased Meth (Held V)) :=
  match r.slot with
  | none => .ok (none, e)
  | some (i, ty) => e.call 0 i >>= fun p =>
    if p.1.sig p.2.fty p.2.ety = ty then
      (fun q => (some q.1, { e with data := some { p.2 with val := q.2 } })) <$> sem p.1 a p.2.val
    else .ub

/-! ### Programs -/

/-- Statements of a program with wrapped problems.  Constructors need a variable which is not in use, or an earlier object of that name at the end of
its life. -/
inductive Stmt (V A : Type)
  /-- `auto x = make_pde<...>(...)` (pde.h:167-169) -/
  | make (x : Nat) (h : Held V)
  /-- `erase x(y)` and `x = y` -/
  | copy (x y : Nat)
  | assign (x y : Nat)
  /-- `erase x(std::move(y))` and `x = std::move(y)` -/
  | move (x y : Nat)
  | moveAssign (x y : Nat)
  | call (x : Nat) (r : Req) (a : A)

/-- State: the wrappers and the results seen so far; a call which throws shows nothing and changes nothing. -/
structure PState (V O : Type) where
  vars : Nat → Option (Erased Meth (Held V))
  seen : List (Option O)

def PState.set (s : PState V O) (x : Nat) (e : Erased Meth (Held V)) : PState V O := { s with vars := fun z => if z = x then some e else s.vars z }

/-- type_erasure.h:241-258 -/
def Stmt.exec (sem : Sem V A O) (s : PState V O) : Stmt V A → Res (PState V O)
  | .make x h => (fun e => s.set x e) <$> Res.ofOptionUB (Erased.make [pdeInterface] h)
  | .copy x y => do
    let e ← Res.ofOptionUB (s.vars y)
    (fun c => s.set x c) <$> e.copyCtor
  | .assign x y => do
    let _ ← Res.ofOptionUB (s.vars x)
    let e ← Res.ofOptionUB (s.vars y)
    (fun h => s.set x ⟨h, e.data⟩) <$> e.handler.copyAssign
  | .move x y => do
    let e ← Res.ofOptionUB (s.vars y)
    (fun c => (s.set y c.2).set x c.1) <$> e.moveCtor
  | .moveAssign x y => do
    let _ ← Res.ofOptionUB (s.vars x)
    let e ← Res.ofOptionUB (s.vars y)
    (fun c => (s.set y c.2).set x c.1) <$> e.moveAssign
  | .call x r a => do
    let e ← Res.ofOptionUB (s.vars x)
    match wcall sem e r a with
    | .ok (o, e') => .ok { s.set x e' with seen := s.seen ++ [o] }
    | .throws => .ok s
    | .ub => .ub

def runStmts (sem : Sem V A O) (s : PState V O) (p : List (Stmt V A)) : Res (PState V O) := foldRes (fun s c => c.exec sem s) s p

/-! ### The member functions of a PDE -/

/-- Arguments and results of the member functions. -/
inductive Arg (K : Type)
  | unit
  | junk (j : Nat → K)
  | mat (m : Dense K)
  | vec (v : Nat → K)
  | op (o : Op K)

inductive Out (K : Type)
  | unit
  | solution (s : Option (Nat → Nat → K))
  | force (f : Nat → K)
  | matrix (m : Nat → Nat → K)
  | num (n : Nat)
  | data (m : Dense K)
  | vec (v : Nat → K)

/-- pde.h:73-105 : the member functions on the object of C117.  Arguments of another kind do not arise: their types are checked by the cast.  Evaluation of the
basis, its nodes and the time domain do not depend on the state and are left out. -/
def objSem {K : Type} [Field K] (S : SolveFn K) : Sem (Obj K) (Arg K) (Out K)
  | .init, .junk j, o => (fun o' => (.unit, o')) <$> o.step S (.init j)
  | .solve, _, o => (fun o' => (.unit, o')) <$> o.step S .solve
  | .setForcing, .mat m, o => (fun o' => (.unit, o')) <$> o.step S (.setForcing m)
  | .setDirichlet, .mat m, o => (fun o' => (.unit, o')) <$> o.step S (.setDirichlet m)
  | .setInitial, .vec v, o => (fun o' => (.unit, o')) <$> o.step S (.setInitial v)
  | .setOperator, .op p, o => (fun o' => (.unit, o')) <$> o.step S (.setOperator p)
  | .solution, _, o => .ok (.solution o.sol, o)
  | .force, _, o => .ok (.force o.sys.force, o)
  | .stiff, _, o => .ok (.matrix o.sys.stiff, o)
  | .mass, _, o => .ok (.matrix o.sys.mass, o)
  | .nDofs, _, o => .ok (.num o.sys.n, o)
  | .forcingData, _, o => .ok (.data o.data, o)
  | .initialCondition, _, o => .ok (.vec o.ic, o)
  | _, _, o => .ok (.unit, o)

end Fdapde.PDE
