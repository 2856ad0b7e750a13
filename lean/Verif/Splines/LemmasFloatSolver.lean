import Verif.Splines.FloatSolver
/- The spline solver of FloatSolver.lean with exact operations. -/
namespace Fdapde.Splines
open Fdapde.Fp
variable {K : Type} [Field K] [LinearOrder K]

/-- With exact operations these are the functions of Model.lean and Solver.lean. -/
theorem sweakF_exact (y : K) : ∀ (op : SOp K) (p p2 q q2 : K), sweakF (Ops.exact K) y op p p2 q q2 = sweak y op p p2 q q2
  | .bilap, _, _, _, _ => rfl
  | .react _, _, _, _, _ => rfl
  | .add a b, p, p2, q, q2 => by simp only [sweakF, sweak, sweakF_exact y a, sweakF_exact y b]; rfl
  | .sub a b, p, p2, q, q2 => by simp only [sweakF, sweak, sweakF_exact y a, sweakF_exact y b]; rfl
  | .smul x a, p, p2, q, q2 => by simp only [sweakF, sweak, sweakF_exact y a]; rfl
  | .neg a, p, p2, q, q2 => by simp only [sweakF, sweak, sweakF_exact y a]

theorem spanQF_exact (tol : K) (R : Nat) (t nodes weights : List K) (op : SOp K) (i j s : Nat) :
    spanQF (Ops.exact K) tol R t nodes weights op i j s = spanQ tol R t nodes weights op i j s := by
  simp only [spanQF, spanQ, valF, val, deriveF_exact, sweakF_exact]
  rfl

theorem createF_exact (R : Nat) (nodes : List K) : createF (Ops.exact K) R nodes = SpSolver.create R nodes := rfl

theorem initF_exact (tol : K) (R : Nat) (qn qw : List K) (op : SOp K) (s : SpSolver K) : initF (Ops.exact K) tol R qn qw op s = s.init tol R qn qw op := by
  have h1 : ∀ (t : List K) (op : SOp K), spanQF (Ops.exact K) tol R t qn qw op = spanQ tol R t qn qw op := fun t op => by
    funext i j s
    exact spanQF_exact tol R t qn qw op i j s
  simp only [initF, SpSolver.init, h1]
  rfl

theorem evalTripletsF_exact (tol : K) (R : Nat) (t locs : List K) : evalTripletsF (Ops.exact K) tol R t locs = evalTriplets tol R t locs := by
  simp only [evalTripletsF, evalTriplets, basisEvalF, basisEval, evalF_exact]

end Fdapde.Splines
