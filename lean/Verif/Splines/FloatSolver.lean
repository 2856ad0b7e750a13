import Verif.Splines.FloatModel
import Verif.Splines.Solver
/-
The spline solver with the operations of the processor: same code as in Model.lean and Solver.lean, with every arithmetic operation taken from `o`.
-/
namespace Fdapde.Splines
open Fdapde.Fp
variable {K : Type} [Field K] [LinearOrder K]

/-- bilaplacian.h:36-39, reaction.h:48-51, differential_expressions.h:66-68, 107-109, 130-132 : `sweak`; changes of sign are exact. -/
def sweakF (o : Ops K) (y : K) : SOp K → (p p2 q q2 : K) → K
  | .bilap, _, p2, _, q2 => -(o.mul p2 q2)
  | .react c, p, _, q, _ => o.mul (o.mul (c y) p) q
  | .add a b, p, p2, q, q2 => o.add (sweakF o y a p p2 q q2) (sweakF o y b p p2 q q2)
  | .sub a b, p, p2, q, q2 => o.sub (sweakF o y a p p2 q q2) (sweakF o y b p p2 q q2)
  | .smul x a, p, p2, q, q2 => o.mul x (sweakF o y a p p2 q q2)
  | .neg a, p, p2, q, q2 => -sweakF o y a p p2 q q2

/-- `val` (Solver.lean) -/
def valF (o : Ops K) (tol : K) (R : Nat) (t : List K) (k i : Nat) (y : K) : K :=
  match deriveF o tol R t k R i y with
  | .ok v => v
  | _ => 0

/-- integrator.h:135-143 : a node of the table, mapped on the span. -/
def nodeF (o : Ops K) (a b p : K) : K := o.add (o.mul (o.div (o.sub b a) 2) p) (o.div (o.add b a) 2)

/-- integrator.h:135-143 : `spanRule` -/
def spanRuleF (o : Ops K) (nodes weights : List K) (a b : K) (f : K → K) : K :=
  o.mul (o.div (o.sub b a) 2) ((nodes.zip weights).foldl (fun v p => o.add v (o.mul (f (nodeF o a b p.1)) p.2)) 0)

/-- spline_assembler.h:62-66 : `spanQ` -/
def spanQF (o : Ops K) (tol : K) (R : Nat) (t nodes weights : List K) (op : SOp K) (i j s : Nat) : K :=
  spanRuleF o nodes weights (t.getD s 0) (t.getD (s + 1) 0) fun y =>
    sweakF o y op (valF o tol R t 0 i y) (valF o tol R t 2 i y) (valF o tol R t 0 j y) (valF o tol R t 2 j y)

/-- spline_assembler.h:57-67 : `pairValue` -/
def pairValueF (o : Ops K) (R nk M : Nat) (Q : Nat → Nat → Nat → K) (i j : Nat) : Res K :=
  if i < M ∧ j < M then
    foldRes (fun acc k => if k + 1 < nk then .ok (o.add acc (Q i j k)) else .ub) 0 (List.range' j (i + R + 1 - j))
  else .ub

/-- spline_assembler.h:56-69 : the triplets of a symmetric operator (`E::is_symmetric`, as all operators on splines are). -/
def assembleF (o : Ops K) (R nk M : Nat) (Q : Nat → Nat → Nat → K) : Res (List (Nat × Nat × K)) :=
  foldRes (fun acc i => foldRes (fun acc j => (fun v => acc ++ [(i, j, v)]) <$> pairValueF o R nk M Q i j) acc (List.range (i + 1))) [] (List.range M)

/-- spline_solver_base.h:46 : `mapNode` -/
def mapNodeF (o : Ops K) (a b x : K) : K := o.mul (o.div 1 (o.sub b a)) (o.sub (o.mul 2 x) (o.add b a))

/-- spline_solver_base.h:41-48 : `SpSolver.create` -/
def createF (o : Ops K) (R : Nat) (nodes : List K) : Res (SpSolver K) := do
  let t ← pad R nodes
  let a ← rd nodes 0
  let b ← rd nodes (nodes.length - 1)
  let r ← pad R (nodes.map (mapNodeF o a b))
  .ok ⟨nodes, t, r, fun _ _ => 0, fun _ _ => 0, 0, false⟩

/-- spline_solver_base.h:66-79 : `SpSolver.init` -/
def initF (o : Ops K) (tol : K) (R : Nat) (qn qw : List K) (op : SOp K) (s : SpSolver K) : Res (SpSolver K) := do
  let t ← pad R s.nodes
  let l ← assembleF o R t.length (size R t) (spanQF o tol R t qn qw op)
  let m ← assembleF o R t.length (size R t) (spanQF o tol R t qn qw (.react fun _ => 1))
  .ok { s with stiff := matrix true l, mass := matrix true m, isInit := true }

/-- spline_basis.h:84-103 : `evalTriplets` -/
def evalTripletsF (o : Ops K) (tol : K) (R : Nat) (t : List K) (locs : List K) : Res (List (Nat × Nat × K)) :=
  if locs = [] then .throws else
    foldRes (fun acc i =>
      foldRes (fun acc j => do
        let x ← rd locs j
        let v ← basisEvalF o tol R t i x
        .ok (acc ++ [(j, i, v)])) acc (List.range locs.length)) [] (List.range (size R t))

end Fdapde.Splines
