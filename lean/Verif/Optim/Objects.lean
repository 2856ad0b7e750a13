import Verif.Optim.Model
/-
Objects of type `GradientDescent`, `Newton` and `BFGS` as variables of a program: construction, copies, assignments, calls of `optimize` and of the getters
(gradient_descent.h 30-95, newton.h 30-101, bfgs.h 30-125), and the type-erasing wrapper `Optimizer` (optimizer.h).

The callbacks are the line searches of the library, the stopping criterion of the objective is any function of the members of the optimizer that are vectors, of the
step and of the number of iterations.  Dimension fixed at compile time: `optimum_` is not initialised before the first call (with `N == Dynamic` it is an empty
vector).  `Grid` has no parameters, and is not in this file.
-/
namespace Fdapde.Optim.Objects
open Fdapde Optim

variable {K : Type} [Field K] [LinearOrder K] {n : Nat}

/-- The callbacks of the library with their parameters (backtracking_line_search.h:28-35, wolfe_line_search.h:30-38). -/
inductive Search (K : Type)
  | backtracking (alpha beta gamma : K)
  | wolfe (alpha c1 c2 : K)

/-- The objective: values, `derive()`, `derive_twice()` and `opt_stopping_criterion` (false for an objective without it). -/
structure Objective (K : Type) (n : Nat) where
  obj : Vec K n → K
  grad : Vec K n → Vec K n
  hess : Vec K n → Mat K n
  crit : (xOld xNew update gradOld gradNew : Vec K n) → (h : K) → (nIter : Nat) → Bool

/-- What the platform provides: Euclidean norm, linear solver, `std::numeric_limits<double>::max()`, and the number of turns granted to a line search. -/
structure Platform (K : Type) (n : Nat) where
  nrm : Vec K n → K
  lu : Mat K n → Vec K n → Vec K n
  huge : K
  fuel : Nat

/-- A callback with its parameters, run on an objective. -/
def Search.callback (P : Platform K n) (o : Objective K n) : Search K → Callback K n Unit
  | .backtracking a b g => Optim.backtracking o.obj a b g P.fuel
  | .wolfe a c1 c2 => Optim.wolfe o.obj o.grad a c1 c2 P.fuel

/-- The environment of a run. -/
def envOf (P : Platform K n) (o : Objective K n) (cbs : List (Search K)) : Env K n Unit where
  obj := o.obj
  grad := o.grad
  hess := o.hess
  nrm := P.nrm
  lu := P.lu
  pre := cbs.map (Search.callback P o)
  post := []
  crit := fun s => some (s, o.crit s.xOld s.xNew s.update s.gradOld s.gradNew s.h s.nIter)

inductive Alg | gd | newton | bfgs
deriving DecidableEq

/-- `max_iter_`, `tol_`, `step_`. -/
structure Params (K : Type) where
  maxIter : Nat
  tol : K
  step : K

/-- An object.  `params` is `none` after default construction, `optimum` and `value` before the first call: the members are not initialised.  `members` are the
public members. -/
structure Obj (K : Type) (n : Nat) where
  alg : Alg
  params : Option (Params K)
  cbs : List (Search K)
  members : St K n Unit
  optimum : Option (Vec K n)
  value : Option K
  nIter : Nat

/-- `optimize` (gradient_descent.h:62-90, newton.h:63-96, bfgs.h:62-119): the members after the call and the result. -/
def runAlg (P : Platform K n) (o : Objective K n) (alg : Alg) (cbs : List (Search K)) (p : Params K) (x0 : Vec K n) (s : St K n Unit) :
    Option (St K n Unit × Result K n) :=
  let env := envOf P o cbs
  let close (r : St K n Unit × Vec K n) : St K n Unit × Result K n := (r.1, { optimum := r.2, value := o.obj r.2, nIter := r.1.nIter })
  match alg with
  | .gd => (mainLoop (gdTurn env) p.maxIter p.tol p.maxIter
      { s with h := p.step, nIter := 0, xOld := x0, xNew := x0, gradOld := env.grad x0 } P.huge false).map close
  | .newton => (mainLoop (newtonTurn env) p.maxIter p.tol p.maxIter { s with h := p.step, nIter := 0, xOld := x0, xNew := x0 } P.huge false).map close
  | .bfgs =>
    let s := { s with h := p.step, nIter := 0, xOld := x0, xNew := x0, invHessian := 1, gradOld := env.grad x0 }
    if env.grad x0 = 0 then some (close (s, x0))
    else (mainLoop (bfgsTurn env) p.maxIter p.tol p.maxIter s (P.nrm (env.grad x0)) false).map close

/-- `T x(max_iter, tol, step, callbacks...)` (gradient_descent.h:48-49); `junk` is what the memory of the members contains. -/
def Obj.make (alg : Alg) (p : Params K) (cbs : List (Search K)) (junk : St K n Unit) : Obj K n := ⟨alg, some p, cbs, junk, none, none, 0⟩

/-- `T x;` (gradient_descent.h:45). -/
def Obj.default (alg : Alg) (cbs : List (Search K)) (junk : St K n Unit) : Obj K n := ⟨alg, none, cbs, junk, none, none, 0⟩

/-- `T x(y)` (gradient_descent.h:51-52): parameters and callbacks only.  Copying parameters that are not initialised is undefined. -/
def Obj.copy (y : Obj K n) (junk : St K n Unit) : Res (Obj K n) :=
  match y.params with
  | none => .ub
  | some p => .ok ⟨y.alg, some p, y.cbs, junk, none, none, 0⟩

/-- `x = y` (gradient_descent.h:53-59): parameters and callbacks only; the types must be the same. -/
def Obj.assign (x y : Obj K n) : Res (Obj K n) :=
  if x.alg = y.alg then
    match y.params with
    | none => .ub
    | some p => .ok { x with params := some p, cbs := y.cbs }
  else .throws

/-- `x.optimize(objective, x0)`; `none`: does not return. -/
def Obj.optimize (P : Platform K n) (x : Obj K n) (o : Objective K n) (x0 : Vec K n) : Option (Res (Obj K n × Vec K n)) :=
  match x.params with
  | none => some .ub
  | some p => (runAlg P o x.alg x.cbs p x0 x.members).map fun r =>
    .ok ({ x with members := r.1, optimum := some r.2.optimum, value := some r.2.value, nIter := r.2.nIter }, r.2.optimum)

/-- Reading a member that may not be initialised. -/
def read {α : Type} : Option α → Res α
  | none => .ub
  | some a => .ok a

/-- The operations of a class of optimizers, for objects of type `α`. -/
structure Class (K : Type) (n : Nat) (α : Type) where
  make : Alg → Params K → List (Search K) → St K n Unit → α
  default : Alg → List (Search K) → St K n Unit → α
  copy : α → St K n Unit → Res α
  assign : α → α → Res α
  optimize : α → Objective K n → Vec K n → Option (Res (α × Vec K n))
  optimum : α → Res (Vec K n)
  value : α → Res K
  nIter : α → Nat

/-- The classes of the library. -/
def library (P : Platform K n) : Class K n (Obj K n) where
  make := Obj.make
  default := Obj.default
  copy := Obj.copy
  assign := Obj.assign
  optimize := Obj.optimize P
  optimum x := read x.optimum
  value x := read x.value
  nIter x := x.nIter

/-- Statements of a program: `x`, `y` are variables, `junk` is what the memory of a new object contains.  The second part is about wrappers `Optimizer<F>`. -/
inductive Stmt (K : Type) (n : Nat)
  | make (x : Nat) (alg : Alg) (p : Params K) (cbs : List (Search K)) (junk : St K n Unit)
  | default (x : Nat) (alg : Alg) (cbs : List (Search K)) (junk : St K n Unit)
  | copy (x y : Nat) (junk : St K n Unit)
  | assign (x y : Nat)
  | optimize (x : Nat) (o : Objective K n) (x0 : Vec K n)
  | optimum (x : Nat)
  | value (x : Nat)
  | nIter (x : Nat)
  | wrapEmpty (w : Nat)
  | wrap (w x : Nat) (junk : St K n Unit)
  | wrapCopy (w v : Nat) (junk : St K n Unit)
  | wrapOptimize (w : Nat) (o : Objective K n) (x0 : Vec K n) (fits : Bool)
  | wrapOptimum (w : Nat)
  | wrapValue (w : Nat)

/-- What a program sees. -/
inductive Seen (K : Type) (n : Nat)
  | nothing
  | point (x : Vec K n)
  | number (v : K)
  | count (k : Nat)

/-- Variables. -/
abbrev Vars (α : Type) := Nat → Option α

def Vars.set {α : Type} (w : Vars α) (x : Nat) (a : α) : Vars α := fun y => if y = x then some a else w y

/-- The variables of the two kinds; a wrapper may be empty. -/
structure World (α : Type) where
  objs : Vars α
  wraps : Vars (Option α)

variable {α : Type}

/-- Call of a method of a wrapper (optimizer.h:32-36, type_erasure.h:272-277): an empty one has no entry in its table of offsets, `at` throws. -/
def held (w : World α) (x : Nat) : Res α :=
  match w.wraps x with
  | none => .throws
  | some none => .throws
  | some (some a) => .ok a

/-- One statement; a statement on a variable that was not declared is not a program (`throws`).  Wrapping an object, copying a wrapper and assigning one wrapper to
another one make a copy of the object held (type_erasure.h:131, 139, 144): `wrapCopy` is both.  `fits` tells whether the start given to `optimize` of a wrapper has
the type which the optimizer was compiled for: the wrapper takes any type and casts the pointer to the function (optimizer.h:32-34). -/
def exec (C : Class K n α) (w : World α) : Stmt K n → Option (Res (World α × Seen K n))
  | .make x alg p cbs junk => some (.ok ({ w with objs := w.objs.set x (C.make alg p cbs junk) }, .nothing))
  | .default x alg cbs junk => some (.ok ({ w with objs := w.objs.set x (C.default alg cbs junk) }, .nothing))
  | .copy x y junk =>
    match w.objs y with
    | none => some .throws
    | some b => some ((fun a => ({ w with objs := w.objs.set x a }, .nothing)) <$> C.copy b junk)
  | .assign x y =>
    match w.objs x with
    | none => some .throws
    | some a =>
      match w.objs y with
      | none => some .throws
      | some b => some ((fun a => ({ w with objs := w.objs.set x a }, .nothing)) <$> C.assign a b)
  | .optimize x o x0 =>
    match w.objs x with
    | none => some .throws
    | some a => (C.optimize a o x0).map fun r => (fun r => ({ w with objs := w.objs.set x r.1 }, .point r.2)) <$> r
  | .optimum x =>
    match w.objs x with
    | none => some .throws
    | some a => some ((fun v => (w, .point v)) <$> C.optimum a)
  | .value x =>
    match w.objs x with
    | none => some .throws
    | some a => some ((fun v => (w, .number v)) <$> C.value a)
  | .nIter x =>
    match w.objs x with
    | none => some .throws
    | some a => some (.ok (w, .count (C.nIter a)))
  | .wrapEmpty x => some (.ok ({ w with wraps := w.wraps.set x none }, .nothing))
  | .wrap x y junk =>
    match w.objs y with
    | none => some .throws
    | some b => some ((fun a => ({ w with wraps := w.wraps.set x (some a) }, .nothing)) <$> C.copy b junk)
  | .wrapCopy x y junk =>
    match w.wraps y with
    | none => some .throws
    | some none => some (.ok ({ w with wraps := w.wraps.set x none }, .nothing))
    | some (some b) => some ((fun a => ({ w with wraps := w.wraps.set x (some a) }, .nothing)) <$> C.copy b junk)
  | .wrapOptimize x o x0 fits =>
    match held w x with
    | .throws => some .throws
    | .ub => some .ub
    | .ok a =>
      if fits then (C.optimize a o x0).map fun r => (fun r => ({ w with wraps := w.wraps.set x (some r.1) }, .point r.2)) <$> r
      else some .ub
  | .wrapOptimum x => some (held w x >>= fun a => (fun v => (w, .point v)) <$> C.optimum a)
  | .wrapValue x => some (held w x >>= fun a => (fun v => (w, .number v)) <$> C.value a)

/-- A program: what it sees, statement after statement; `none` if a call does not return. -/
def run (C : Class K n α) : World α → List (Stmt K n) → Option (Res (List (Seen K n)))
  | _, [] => some (.ok [])
  | w, c :: cs =>
    match exec C w c with
    | none => none
    | some .ub => some .ub
    | some .throws => some .throws
    | some (.ok (w, v)) => (run C w cs).map fun r => (fun l => v :: l) <$> r

/-- No variables. -/
def World.empty : World α := ⟨fun _ => none, fun _ => none⟩

end Fdapde.Optim.Objects
