import Mathlib.Algebra.Order.Field.Basic
import Mathlib.Data.Matrix.Mul
import Verif.Common.Res

/-!
# Optimization

Models of `fdaPDE/optimization/`: `grid.h`, `gradient_descent.h`, `newton.h`, `bfgs.h` and the callbacks
`callbacks/callbacks.h`, `callbacks/backtracking_line_search.h`, `callbacks/wolfe_line_search.h`.

Numbers are elements of a linearly ordered field, vectors are indexed by `Fin n`. A loop which is not bounded by the code (line
searches) takes the number of turns it may use; `none` means that it has not finished.
-/

namespace Fdapde.Optim

variable {K : Type} [Field K] [LinearOrder K] {n : Nat} {σ : Type}

abbrev Vec (K : Type) (n : Nat) := Fin n → K
abbrev Mat (K : Type) (n : Nat) := Matrix (Fin n) (Fin n) K

/-! ## Grid search -/

/-- State of `Grid::optimize` (`grid.h` 46-67): minimum so far, its value, the stop flag and the state of the callbacks. -/
structure GridSt (K : Type) (n : Nat) (σ : Type) where
  optimum : Vec K n
  value : K
  stop : Bool
  aux : σ

/-- The loop of `Grid::optimize` over the rows from the second on (`grid.h` 56-65); `post` is the combined result of the
callbacks for the current point. -/
def gridLoop (obj : Vec K n → K) (post : Vec K n → σ → σ × Bool) : List (Vec K n) → GridSt K n σ → GridSt K n σ
  | [], s => s
  | x :: xs, s =>
    if s.stop then s
    else
      let v := obj x
      let r := post x s.aux
      let s := { s with aux := r.1, stop := s.stop || r.2 }
      gridLoop obj post xs (if v < s.value then { s with value := v, optimum := x } else s)

/-- `Grid::optimize` (`grid.h` 46-67); reading row 0 of an empty grid is undefined. -/
def gridOptimize (obj : Vec K n → K) (post : Vec K n → σ → σ × Bool) (grid : List (Vec K n)) (aux : σ) : Res (GridSt K n σ) :=
  match grid with
  | [] => .ub
  | x :: xs => .ok (gridLoop obj post xs { optimum := x, value := obj x, stop := false, aux := aux })

/-! ## Iterative optimizers -/

/-- The members of the optimizers which callbacks may read and write (`gradient_descent.h` 42-44, `newton.h` 42-45, `bfgs.h`
42-44) together with the iteration counter and the state of the callbacks and of the objective. `invHessian` is used by BFGS
only. -/
structure St (K : Type) (n : Nat) (σ : Type) where
  xOld : Vec K n
  xNew : Vec K n
  update : Vec K n
  gradOld : Vec K n
  gradNew : Vec K n
  invHessian : Mat K n
  h : K
  nIter : Nat
  aux : σ

/-- A callback (or the stopping criterion of the objective): changes the state and asks to stop or not; `none` if it does not
return. -/
abbrev Callback (K : Type) (n : Nat) (σ : Type) := St K n σ → Option (St K n σ × Bool)

/-- `execute_pre_update_step`, `execute_post_update_step` (`callbacks.h` 30-52): all callbacks are executed in order and the
answers are or-ed. A callback without the step is left out of the list. -/
def runAll : List (Callback K n σ) → St K n σ → Option (St K n σ × Bool)
  | [], s => some (s, false)
  | c :: cs, s =>
    match c s with
    | none => none
    | some (s, b) =>
      match runAll cs s with
      | none => none
      | some (s, b') => some (s, b || b')

/-- What an optimizer is run on: objective, its gradient and Hessian (`obj.derive()`, `obj.derive_twice()`), the Euclidean norm,
a solver for linear systems, the callbacks and the stopping criterion of the objective. -/
structure Env (K : Type) (n : Nat) (σ : Type) where
  obj : Vec K n → K
  grad : Vec K n → Vec K n
  hess : Vec K n → Mat K n
  nrm : Vec K n → K
  lu : Mat K n → Vec K n → Vec K n
  pre : List (Callback K n σ)
  post : List (Callback K n σ)
  crit : Callback K n σ

/-- `execute_post_update_step(...) || execute_obj_stopping_criterion(...)`, with its short circuit. -/
def postOrCrit (env : Env K n σ) (s : St K n σ) : Option (St K n σ × Bool) :=
  match runAll env.post s with
  | none => none
  | some (s, true) => some (s, true)
  | some (s, false) => env.crit s

/-- Result of one turn of the main loop: go on with a state, an error and a stop flag, or return a point. -/
inductive Turn (K : Type) (n : Nat) (σ : Type) where
  | cont (s : St K n σ) (error : K) (stop : Bool)
  | ret (s : St K n σ) (x : Vec K n)

/-- The main loop `while (n_iter_ < max_iter_ && error > tol_ && !stop)` (`gradient_descent.h` 74-87, `newton.h` 76-93, `bfgs.h`
87-117) and the return of `x_old` after it; the first argument bounds the number of turns. -/
def mainLoop (body : St K n σ → Option (Turn K n σ)) (maxIter : Nat) (tol : K) :
    Nat → St K n σ → K → Bool → Option (St K n σ × Vec K n)
  | k, s, error, stop =>
    if s.nIter < maxIter ∧ tol < error ∧ stop = false then
      match k with
      | 0 => none
      | k + 1 =>
        match body s with
        | none => none
        | some (.ret s x) => some (s, x)
        | some (.cont s error stop') => mainLoop body maxIter tol k s error (stop || stop')
    else some (s, s.xOld)

/-- End of a turn, common to the three optimizers: callbacks, then `x_old = x_new; grad_old = grad_new; n_iter_++`
(`gradient_descent.h` 81-86). -/
def endTurn (env : Env K n σ) (s : St K n σ) (b : Bool) : Option (Turn K n σ) :=
  let error := env.nrm s.gradNew
  match postOrCrit env s with
  | none => none
  | some (s, b') => some (.cont { s with xOld := s.xNew, gradOld := s.gradNew, nIter := s.nIter + 1 } error (b || b'))

/-- One turn of `GradientDescent::optimize` (`gradient_descent.h` 75-86). -/
def gdTurn (env : Env K n σ) (s : St K n σ) : Option (Turn K n σ) :=
  match runAll env.pre { s with update := -s.gradOld } with
  | none => none
  | some (s, b) =>
    let xNew := s.xOld + s.h • s.update
    endTurn env { s with xNew := xNew, gradNew := env.grad xNew } b

/-- Optimum, value at the optimum and number of iterations reported by an optimizer. -/
structure Result (K : Type) (n : Nat) where
  optimum : Vec K n
  value : K
  nIter : Nat

/-- What `optimize` stores before it returns (`gradient_descent.h` 87-89). -/
def finish (env : Env K n σ) : Option (St K n σ × Vec K n) → Option (Result K n)
  | none => none
  | some (s, x) => some { optimum := x, value := env.obj x, nIter := s.nIter }

/-- `GradientDescent::optimize` (`gradient_descent.h` 62-90). `huge` is `std::numeric_limits<double>::max()`; `s` holds the values
of the members before the call. A negative `max_iter` is the same as 0. -/
def gdOptimize (env : Env K n σ) (huge : K) (maxIter : Nat) (tol step : K) (x0 : Vec K n) (s : St K n σ) : Option (Result K n) :=
  finish env (mainLoop (gdTurn env) maxIter tol maxIter
    { s with h := step, nIter := 0, xOld := x0, xNew := x0, gradOld := env.grad x0 } huge false)

/-- One turn of `Newton::optimize` (`newton.h` 77-92). -/
def newtonTurn (env : Env K n σ) (s : St K n σ) : Option (Turn K n σ) :=
  let g := env.grad s.xOld
  match runAll env.pre { s with gradOld := g, update := -env.lu (env.hess s.xOld) g } with
  | none => none
  | some (s, b) =>
    let xNew := s.xOld + s.h • s.update
    endTurn env { s with xNew := xNew, gradNew := env.grad xNew } b

/-- `Newton::optimize` (`newton.h` 63-96). -/
def newtonOptimize (env : Env K n σ) (huge : K) (maxIter : Nat) (tol step : K) (x0 : Vec K n) (s : St K n σ) : Option (Result K n) :=
  finish env (mainLoop (newtonTurn env) maxIter tol maxIter { s with h := step, nIter := 0, xOld := x0, xNew := x0 } huge false)

/-- The update of the inverse Hessian approximation (`bfgs.h` 101-108). -/
def bfgsUpdate (H : Mat K n) (dx dg : Vec K n) : Mat K n :=
  let xg := dotProduct dx dg
  let hx := H.mulVec dg
  let U := (1 + dotProduct dg hx / xg) • (xg⁻¹ • Matrix.vecMulVec dx dx)
  let V := xg⁻¹ • (Matrix.vecMulVec hx dx + Matrix.vecMulVec dx hx)
  H + (U - V)

/-- One turn of `BFGS::optimize` (`bfgs.h` 88-116). `v.isApprox(zero)` compares `‖v‖²` with a multiple of `min (‖v‖², 0)`: it holds
only for `v = 0`. -/
def bfgsTurn (env : Env K n σ) (s : St K n σ) : Option (Turn K n σ) :=
  match runAll env.pre { s with update := -(s.invHessian.mulVec s.gradOld) } with
  | none => none
  | some (s, b) =>
    let xNew := s.xOld + s.h • s.update
    let gradNew := env.grad xNew
    if gradNew = 0 then some (.ret ({ s with xNew := xNew, gradNew := gradNew }) s.xOld)
    else
      let H := bfgsUpdate s.invHessian (xNew - s.xOld) (gradNew - s.gradOld)
      endTurn env { s with xNew := xNew, gradNew := gradNew, invHessian := H } b

/-- The main loop of BFGS, kept apart so that its final state can be spoken of. -/
def bfgsRun (env : Env K n σ) (maxIter : Nat) (tol step : K) (x0 : Vec K n) (s : St K n σ) : Option (St K n σ × Vec K n) :=
  mainLoop (bfgsTurn env) maxIter tol maxIter
    { s with h := step, nIter := 0, xOld := x0, xNew := x0, invHessian := 1, gradOld := env.grad x0 } (env.nrm (env.grad x0)) false

/-- `BFGS::optimize` (`bfgs.h` 62-119). -/
def bfgsOptimize (env : Env K n σ) (maxIter : Nat) (tol step : K) (x0 : Vec K n) (s : St K n σ) : Option (Result K n) :=
  if env.grad x0 = 0 then some { optimum := x0, value := env.obj x0, nIter := 0 }
  else finish env (bfgsRun env maxIter tol step x0 s)

/-! ## Line searches -/

/-- The loop of `BacktrackingLineSearch::pre_update_step` (`backtracking_line_search.h` 41-44) from the step `alpha`. -/
def backtrackLoop (obj : Vec K n → K) (beta gamma : K) (x u : Vec K n) (m : K) : Nat → K → Option K
  | k, alpha =>
    if obj x - obj (x + alpha • u) + gamma * alpha * m < 0 then
      match k with
      | 0 => none
      | k + 1 => backtrackLoop obj beta gamma x u m k (alpha * beta)
    else some alpha

/-- `BacktrackingLineSearch::pre_update_step` (`backtracking_line_search.h` 37-48). -/
def backtracking (obj : Vec K n → K) (alpha beta gamma : K) (fuel : Nat) : Callback K n σ := fun s =>
  let m := dotProduct s.gradOld s.update
  if m < 0 then
    match backtrackLoop obj beta gamma s.xOld s.update m fuel alpha with
    | none => none
    | some a => some ({ s with h := a }, false)
  else some ({ s with h := alpha }, false)

/-- The loop of `WolfeLineSearch::pre_update_step` (`wolfe_line_search.h` 47-58); the upper end of the bracket is `none` when it is
infinite. The result carries the bracket. -/
def wolfeLoop (obj : Vec K n → K) (grad : Vec K n → Vec K n) (c1 c2 : K) (x u : Vec K n) (m : K) :
    Nat → K → K → Option K → Option (K × K × Option K)
  | k, alpha, lo, hi =>
    if obj x - obj (x + alpha • u) + c1 * alpha * m < 0 then
      match k with
      | 0 => none
      | k + 1 => wolfeLoop obj grad c1 c2 x u m k ((lo + alpha) * (1 / 2)) lo (some alpha)
    else if dotProduct (grad (x + alpha • u)) u < c2 * m then
      match k with
      | 0 => none
      | k + 1 =>
        match hi with
        | none => wolfeLoop obj grad c1 c2 x u m k (2 * alpha) alpha none
        | some b => wolfeLoop obj grad c1 c2 x u m k ((alpha + b) * (1 / 2)) alpha (some b)
    else some (alpha, lo, hi)

/-- `WolfeLineSearch::pre_update_step` (`wolfe_line_search.h` 38-61). -/
def wolfe (obj : Vec K n → K) (grad : Vec K n → Vec K n) (alpha c1 c2 : K) (fuel : Nat) : Callback K n σ := fun s =>
  match wolfeLoop obj grad c1 c2 s.xOld s.update (dotProduct s.gradOld s.update) fuel alpha 0 none with
  | none => none
  | some (a, _, _) => some ({ s with h := a }, false)

end Fdapde.Optim
