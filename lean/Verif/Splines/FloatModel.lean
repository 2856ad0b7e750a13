import Verif.Splines.Model
import Verif.Float.Round
/-
The evaluation of splines with the operations of the processor (spline.h, spline_basis.h).  Same code as in Model.lean, with
every arithmetic operation taken from `o`; comparisons and copies of doubles are exact.
-/
namespace Fdapde.Splines
open Fdapde.Fp
variable {K : Type} [Field K] [LinearOrder K]

/-- spline.h:77-80 -/
def eval0F (o : Ops K) (tol : K) (M : Nat) (t : List K) (i : Nat) (x : K) : Res K := do
  let a ← rd t i
  let b ← rd t (i + 1)
  let l ← rd t (t.length - 1)
  .ok (if (a ≤ x ∧ x < b) ∨ (|o.sub x l| < tol ∧ i + M + 2 = t.length) then 1 else 0)

/-- spline.h:43-47 -/
def constsF (o : Ops K) (t : List K) (R i : Nat) : Res (K × K) := do
  let u0 ← rd t i
  let u1 ← rd t (i + 1)
  let uR ← rd t (i + R)
  let uR1 ← rd t (i + R + 1)
  .ok (if o.sub uR u0 ≠ 0 then o.div 1 (o.sub uR u0) else 0, if o.sub uR1 u1 ≠ 0 then o.div 1 (o.sub uR1 u1) else 0)

/-- spline.h:49-52 : products associate to the left. -/
def evalF (o : Ops K) (tol : K) (M : Nat) (t : List K) : Nat → Nat → K → Res K
  | 0, i, x => eval0F o tol M t i x
  | R + 1, i, x => do
    let (a, b) ← constsF o t (R + 1) i
    let u0 ← rd t i
    let uR1 ← rd t (i + (R + 1) + 1)
    let v0 ← evalF o tol M t R i x
    let v1 ← evalF o tol M t R (i + 1) x
    .ok (o.add (o.mul (o.mul a (o.sub x u0)) v0) (o.mul (o.mul b (o.sub uR1 x)) v1))

/-- spline.h:56-63 : `R` is converted to a double exactly. -/
def deriveF (o : Ops K) (tol : K) (M : Nat) (t : List K) : Nat → Nat → Nat → K → Res K
  | 0, R, i, x => evalF o tol M t R i x
  | _ + 1, 0, _, _ => .ok 0
  | k + 1, R + 1, i, x => do
    let (a, b) ← constsF o t (R + 1) i
    let v0 ← deriveF o tol M t k R i x
    let v1 ← deriveF o tol M t k R (i + 1) x
    .ok (o.sub (o.mul (o.mul ((R + 1 : Nat) : K) a) v0) (o.mul (o.mul ((R + 1 : Nat) : K) b) v1))

/-- spline_basis.h:68 -/
def basisEvalF (o : Ops K) (tol : K) (R : Nat) (t : List K) (i : Nat) (x : K) : Res K :=
  if i < size R t then evalF o tol R t R i x else .ub

/-- spline_basis.h:73-82 -/
def expansionF (o : Ops K) (tol : K) (R : Nat) (t : List K) (c : List K) (x : K) : Res K :=
  if c.length = size R t then
    foldRes (fun acc h => do
      let v ← basisEvalF o tol R t h x
      let ch ← rd c h
      .ok (o.add acc (o.mul ch v))) 0 (List.range (size R t))
  else .throws

/-- The basis with exact operations is the one of Model.lean. -/
theorem evalF_exact (tol : K) (M : Nat) (t : List K) : ∀ R i x, evalF (Ops.exact K) tol M t R i x = eval tol M t R i x
  | 0, _, _ => rfl
  | R + 1, i, x => by
    simp only [evalF, eval, evalF_exact tol M t R]
    rfl

theorem deriveF_exact (tol : K) (M : Nat) (t : List K) :
    ∀ k R i x, deriveF (Ops.exact K) tol M t k R i x = derive tol M t k R i x
  | 0, R, i, x => by rw [deriveF, derive, evalF_exact]
  | _ + 1, 0, _, _ => rfl
  | k + 1, R + 1, i, x => by
    simp only [deriveF, derive, deriveF_exact tol M t k]
    rfl

theorem expansionF_exact (tol : K) (R : Nat) (t c : List K) (x : K) :
    expansionF (Ops.exact K) tol R t c x = expansion tol R t c x := by
  simp only [expansionF, expansion, basisEvalF, basisEval, evalF_exact]
  rfl

end Fdapde.Splines
