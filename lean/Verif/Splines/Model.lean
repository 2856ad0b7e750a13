import Verif.Common.Loop
import Mathlib.Algebra.Order.Field.Basic
/-
Model of fdaPDE/splines/basis/spline.h, spline_basis.h and spline_assembler.h.  Scalars are elements of a linearly ordered
field: rounding is not modelled.  Reading a knot vector or the vector of basis functions out of range is undefined.
-/
namespace Fdapde.Splines
variable {K : Type} [Field K] [LinearOrder K]

/-- Knot access. -/
def rd (t : List K) (i : Nat) : Res K := Res.ofOptionUB t[i]?

/-- spline.h:77-80 : order 0.  `M` is the order of the spline the recursion started from, `tol` is `tol_`.
The right-hand side of `||` is evaluated only if the left one is false; its first read is always in range if the left
one's are.  `i_ == rows - M - 2` is a comparison of signed numbers. -/
def eval0 (tol : K) (M : Nat) (t : List K) (i : Nat) (x : K) : Res K := do
  let a ← rd t i
  let b ← rd t (i + 1)
  let l ← rd t (t.length - 1)
  .ok (if (a ≤ x ∧ x < b) ∨ (|x - l| < tol ∧ i + M + 2 = t.length) then 1 else 0)

/-- spline.h:43-47 : the constants `a_` and `b_` computed by the constructor of a spline of order `R`. -/
def consts (t : List K) (R i : Nat) : Res (K × K) := do
  let u0 ← rd t i
  let u1 ← rd t (i + 1)
  let uR ← rd t (i + R)
  let uR1 ← rd t (i + R + 1)
  .ok (if uR - u0 ≠ 0 then 1 / (uR - u0) else 0, if uR1 - u1 ≠ 0 then 1 / (uR1 - u1) else 0)

/-- spline.h:49-52 : `operator()`. -/
def eval (tol : K) (M : Nat) (t : List K) : Nat → Nat → K → Res K
  | 0, i, x => eval0 tol M t i x
  | R + 1, i, x => do
    let (a, b) ← consts t (R + 1) i
    let u0 ← rd t i
    let uR1 ← rd t (i + (R + 1) + 1)
    let v0 ← eval tol M t R i x
    let v1 ← eval tol M t R (i + 1) x
    .ok (a * (x - u0) * v0 + b * (uR1 - x) * v1)

/-- spline.h:56-63 : value of `derive<k>()`; `derive<0>` (the spline itself) ends the recursion.  Splines of order 0 have
no `derive<k>` member template: those instances do not compile, the model gives 0. -/
def derive (tol : K) (M : Nat) (t : List K) : Nat → Nat → Nat → K → Res K
  | 0, R, i, x => eval tol M t R i x
  | _ + 1, 0, _, _ => .ok 0
  | k + 1, R + 1, i, x => do
    let (a, b) ← consts t (R + 1) i
    let v0 ← derive tol M t k R i x
    let v1 ← derive tol M t k R (i + 1) x
    .ok (((R + 1 : Nat) : K) * a * v0 - ((R + 1 : Nat) : K) * b * v1)

/-- spline_basis.h:42-54 : padding of the knot vector; `knots[0]` and `knots[n - 1]` are read out of range if there is no
knot. -/
def pad (R : Nat) (knots : List K) : Res (List K) :=
  foldRes (fun acc i =>
    (fun v => acc ++ [v]) <$>
      (if i < R then rd knots 0 else if i < knots.length + R then rd knots (i - R) else rd knots (knots.length - 1)))
    [] (List.range (knots.length + 2 * R))

/-- spline_basis.h:56-59, 69 : number of basis functions (a loop bound, negative values mean none). -/
def size (R : Nat) (t : List K) : Nat := t.length - R - 1

/-- spline_basis.h:68 and spline.h:49 : value at x of the i-th basis function. -/
def basisEval (tol : K) (R : Nat) (t : List K) (i : Nat) (x : K) : Res K :=
  if i < size R t then eval tol R t R i x else .ub

/-- spline_basis.h:73-82 : basis expansion at one location. -/
def expansion (tol : K) (R : Nat) (t : List K) (c : List K) (x : K) : Res K :=
  if c.length = size R t then
    foldRes (fun acc h => do
      let v ← basisEval tol R t h x
      let ch ← rd c h
      .ok (acc + ch * v)) 0 (List.range (size R t))
  else .throws

/-- spline_basis.h:70 : `dofs_coords`, i.e. `middleRows(R, rows - R)`. -/
def dofsCoords (R : Nat) (t : List K) : List K := t.drop R

/-- spline_basis.h:84-103 : the triplets of the evaluation matrix, column by column (`prune(0.0)` drops zeros and does not
change the matrix).  `locs` must not be empty. -/
def evalTriplets (tol : K) (R : Nat) (t : List K) (locs : List K) : Res (List (Nat × Nat × K)) :=
  if locs = [] then .throws else
    foldRes (fun acc i =>
      foldRes (fun acc j => do
        let x ← rd locs j
        let v ← basisEval tol R t i x
        .ok (acc ++ [(j, i, v)])) acc (List.range locs.length)) [] (List.range (size R t))

/-! ### Assembly -/

/-- spline_assembler.h:57-67 : the loop body for the pair (i, j); `Q i j k` is what the integrator returns on the span
between knots `k` and `k + 1` for the weak form of basis functions `i` and `j`; `nk` is the number of (padded) knots. -/
def pairValue (R nk M : Nat) (Q : Nat → Nat → Nat → K) (i j : Nat) : Res K :=
  if i < M ∧ j < M then
    foldRes (fun acc k => if k + 1 < nk then .ok (acc + Q i j k) else .ub) 0 (List.range' j (i + R + 1 - j))
  else .ub

/-- spline_assembler.h:56-69 : triplets.  `j <= (is_symmetric ? i : M)`. -/
def assembleRow (sym : Bool) (R nk M : Nat) (Q : Nat → Nat → Nat → K) (acc : List (Nat × Nat × K)) (i : Nat) :
    Res (List (Nat × Nat × K)) :=
  foldRes (fun acc j => (fun v => acc ++ [(i, j, v)]) <$> pairValue R nk M Q i j) acc
    (List.range ((if sym then i else M) + 1))

def assemble (sym : Bool) (R nk M : Nat) (Q : Nat → Nat → Nat → K) : Res (List (Nat × Nat × K)) :=
  foldRes (assembleRow sym R nk M Q) [] (List.range M)

/-- `setFromTriplets` : repeated entries add up. -/
def entry (l : List (Nat × Nat × K)) (i j : Nat) : K :=
  ((l.filter fun p => p.1 = i ∧ p.2.1 = j).map fun p => p.2.2).sum

/-- spline_assembler.h:71-77 : the matrix returned. -/
def matrix (sym : Bool) (l : List (Nat × Nat × K)) (i j : Nat) : K :=
  if sym then (if j ≤ i then entry l i j else entry l j i) else entry l i j

/-- integrator.h:135-143 : composite rule on one span; `nodes`, `weights` are the entries of the table on [-1, 1]. -/
def spanRule (nodes weights : List K) (a b : K) (f : K → K) : K :=
  (b - a) / 2 * ((nodes.zip weights).foldl (fun v p => v + f ((b - a) / 2 * p.1 + (b + a) / 2) * p.2) 0)

end Fdapde.Splines
