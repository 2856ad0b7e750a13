import Mathlib.Algebra.Field.Basic
import Verif.Common.Res
import Verif.Common.Loop

/-!
# Fields whose sizes are known at run time only

Model of the field classes of `fdaPDE/fields` when all their template sizes are `Dynamic`, that is `-1` (symbols.h 40): every node
then carries its sizes as run-time integers, and the constructors and evaluations check them.  Numbers are elements of a field `K`
instead of `double`.  A node is modelled by what a caller can do with it: read its sizes, subscript it and evaluate it; operands are
stored by value in the code (`NestAsRef = 0`), hence a node is a function of the values of its operands.  Points are lists of
coordinates.  The discretised leaves and `forward` are modelled in `Expr.lean` and left out here.
-/

namespace Fdapde.Fields.Dyn

variable {K : Type} [Field K]

/-- The functors `std::plus`, `std::minus`, `std::multiplies`, `std::divides` (scalar_expressions.h 138-141). -/
inductive Op
  | add | sub | mul | div

/-- Application of a functor. -/
def Op.app : Op → K → K → K
  | .add, a, b => a + b
  | .sub, a, b => a - b
  | .mul, a, b => a * b
  | .div, a, b => a / b

/-- A node of type `ScalarExpr<Dynamic, E>` (scalar_expressions.h 57-83): `dynamic_inner_size_`, `h_` and the call operator. -/
structure SF (K : Type) where
  dim : Int
  step : K
  call : List K → Res K

/-- `h_ = 1e-3` (scalar_expressions.h 60). -/
def defaultStep : K := 1 / 1000

/-- `ScalarField(int n)` (scalar_field.h 57): the stored `std::function` is empty, calling it throws `std::bad_function_call`. -/
def SF.empty (n : Int) : SF K := ⟨n, defaultStep, fun _ => .throws⟩

/-- `ScalarField(const FieldType& f)` (scalar_field.h 58): the base class is default constructed, its size is `0`. -/
def SF.ofCallable (f : List K → Res K) : SF K := ⟨0, defaultStep, f⟩

/-- `ScalarField(const ScalarExpr<N, E>& f)` (scalar_field.h 60-65): again with a default constructed base class. -/
def SF.ofExpr (e : SF K) : SF K := ⟨0, defaultStep, e.call⟩

/-- `operator=` from a callable (scalar_field.h 73-79); an expression of another type than `ScalarField` is assigned in the same way
(scalar_field.h 66-72, or the same 73-79 since the expression is callable). -/
def SF.assign (s : SF K) (f : List K → Res K) : SF K := { s with call := f }

/-- `resize` (scalar_expressions.h 78). -/
def SF.resize (s : SF K) (n : Int) : SF K := { s with dim := n }

/-- `set_step` (scalar_expressions.h 79). -/
def SF.setStep (s : SF K) (h : K) : SF K := { s with step := h }

/-- `Scalar(value, n)` (scalar_expressions.h 86-95). -/
def SF.scalar (c : K) (n : Int) : SF K := ⟨n, defaultStep, fun _ => .ok c⟩

/-- `ConstantField` (scalar_field.h 29-35): its size is left at `0`. -/
def SF.constant (c : K) : SF K := ⟨0, defaultStep, fun _ => .ok c⟩

/-- `ScalarBinOp::operator()` (scalar_expressions.h 128-131). -/
def SF.binCall (op : Op) (a b : SF K) (p : List K) : Res K :=
  if (p.length : Int) = a.dim then do
    let x ← a.call p
    let y ← b.call p
    return op.app x y
  else .throws

/-- `ScalarBinOp` (scalar_expressions.h 124-127) between two expressions. -/
def SF.bin (op : Op) (a b : SF K) : Res (SF K) :=
  if a.dim = b.dim then .ok ⟨a.dim, defaultStep, SF.binCall op a b⟩ else .throws

/-- A number on the left of an operator (scalar_expressions.h 39-42). -/
def SF.binL (op : Op) (c : K) (b : SF K) : Res (SF K) := SF.bin op (SF.scalar c b.dim) b

/-- A number on the right of an operator (scalar_expressions.h 35-38). -/
def SF.binR (op : Op) (a : SF K) (c : K) : Res (SF K) := SF.bin op a (SF.scalar c a.dim)

/-- `ScalarUnOp` (scalar_expressions.h 46-49, 144-157). -/
def SF.un (f : K → K) (a : SF K) : SF K :=
  ⟨a.dim, defaultStep, fun p => do
    let x ← a.call p
    return f x⟩

/-- `ScalarNegationOp` (scalar_expressions.h 75, 165-181). -/
def SF.neg (a : SF K) : SF K :=
  ⟨a.dim, defaultStep, fun p => do
    let x ← a.call p
    return -x⟩

/-- `x[i] = x[i] + d`; an index out of range is undefined behaviour. -/
def bumpAt (x : List K) (i : Nat) (d : K) : Res (List K) :=
  if i < x.length then .ok (x.modify i (fun t => t + d)) else .ub

/-- `FieldPartialDerivative<Dynamic, 1, OP>` (field_derivatives.h 35-52). -/
def SF.partial1 (a : SF K) (i : Nat) (h : K) : SF K :=
  ⟨a.dim, defaultStep, fun x => do
    let x1 ← bumpAt x i h
    let u ← a.call x1
    let x2 ← bumpAt x1 i (-(2 * h))
    let v ← a.call x2
    return (u - v) / (2 * h)⟩

/-- The mixed difference of `FieldPartialDerivative<Dynamic, 2, OP>` (field_derivatives.h 69-78). -/
def SF.mixedCall (a : SF K) (i j : Nat) (h : K) (x : List K) : Res K := do
  let x0 ← bumpAt x i h
  let x1 ← bumpAt x0 j h
  let u1 ← a.call x1
  let x2 ← bumpAt x1 j (-(2 * h))
  let u2 ← a.call x2
  let x3 ← bumpAt x2 i (-(2 * h))
  let u3 ← a.call x3
  let x4 ← bumpAt x3 j (2 * h)
  let u4 ← a.call x4
  return (u1 - u2 + u3 - u4) / (4 * h * h)

/-- The five-point difference of `FieldPartialDerivative<Dynamic, 2, OP>` (field_derivatives.h 80-92). -/
def SF.pureCall (a : SF K) (i : Nat) (h : K) (x : List K) : Res K := do
  let x1 ← bumpAt x i (2 * h)
  let u1 ← a.call x1
  let x2 ← bumpAt x1 i (-h)
  let u2 ← a.call x2
  let x3 ← bumpAt x2 i (-h)
  let u3 ← a.call x3
  let x4 ← bumpAt x3 i (-h)
  let u4 ← a.call x4
  let x5 ← bumpAt x4 i (-h)
  let u5 ← a.call x5
  return (-u1 + 16 * u2 - 30 * u3 + 16 * u4 - u5) / (12 * h * h)

/-- `FieldPartialDerivative<Dynamic, 2, OP>` (field_derivatives.h 55-94). -/
def SF.partial2 (a : SF K) (i j : Nat) (h : K) : SF K :=
  ⟨a.dim, defaultStep, fun x => if i ≠ j then a.mixedCall i j h x else a.pureCall i h x⟩

/-- What a subscript of a vector or matrix node returns: a `double` or a scalar expression. -/
inductive Cell (K : Type)
  | num (c : K)
  | fld (f : SF K)

/-- An operator between two subscripts: the built-in one between numbers, those of scalar_expressions.h 30-42 otherwise. -/
def Cell.bin (op : Op) : Cell K → Cell K → Res (Cell K)
  | .num a, .num b => .ok (.num (op.app a b))
  | .num a, .fld b => (fun e => Cell.fld e) <$> SF.binL op a b
  | .fld a, .num b => (fun e => Cell.fld e) <$> SF.binR op a b
  | .fld a, .fld b => (fun e => Cell.fld e) <$> SF.bin op a b

/-- Unary minus of a subscript. -/
def Cell.neg : Cell K → Cell K
  | .num a => .num (-a)
  | .fld a => .fld a.neg

/-- Calling a subscript; a `double` is not callable in the code, those calls do not compile and the value is a convention. -/
def Cell.call : Cell K → List K → Res K
  | .num a, _ => .ok a
  | .fld a, p => a.call p

/-- A node of type `VectorExpr<Dynamic, Dynamic, E>` (vector_expressions.h 53-88): `inner_size_`, `outer_size_`, `operator[]`. -/
structure VF (K : Type) where
  inner : Int
  outer : Int
  sub : Nat → Res (Cell K)

/-- The loop of `VectorExpr::operator()` (vector_expressions.h 73-75). -/
def VF.entries (v : VF K) (p : List K) (n : Nat) : Res (List K) :=
  foldRes (fun acc i => do
    let c ← v.sub i
    let x ← c.call p
    return acc ++ [x]) [] (List.range n)

/-- `VectorExpr::operator()` (vector_expressions.h 71-76) and `VectorField::operator()` (vector_field.h 66-72); a vector of negative
size is an assertion of Eigen in debug builds and undefined otherwise. -/
def VF.call (v : VF K) (p : List K) : Res (List K) :=
  if v.inner = (p.length : Int) then
    if 0 ≤ v.outer then v.entries p v.outer.toNat else .ub
  else .throws

/-- `VectorField<Dynamic, Dynamic>` (vector_field.h 34-87): sizes and components. -/
structure VectorField (K : Type) where
  inner : Int
  outer : Int
  comps : List (SF K)

/-- `VectorField(int m, int n)` (vector_field.h 48). -/
def VectorField.sized (m n : Nat) : VectorField K := ⟨m, n, List.replicate n (SF.empty m)⟩

/-- `field[i] = f` for a callable or an expression of another type (vector_field.h 75, scalar_field.h 66-79); out of range is undefined
behaviour. -/
def VectorField.assign (v : VectorField K) (i : Nat) (f : List K → Res K) : Res (VectorField K) :=
  if i < v.comps.length then .ok { v with comps := v.comps.modify i (fun s => s.assign f) } else .ub

/-- `field[i] = s` for another `ScalarField` `s`: the implicit copy assignment, which also copies its size and its step. -/
def VectorField.copyTo (v : VectorField K) (i : Nat) (s : SF K) : Res (VectorField K) :=
  if i < v.comps.length then .ok { v with comps := v.comps.set i s } else .ub

/-- A vector field as an operand (vector_field.h 74). -/
def VectorField.expr (v : VectorField K) : VF K := ⟨v.inner, v.outer, fun i => Cell.fld <$> Res.ofOptionUB v.comps[i]?⟩

/-- `VectorField(const std::vector<FieldType>& v)` (vector_field.h 49-53): the sizes of the default constructed base are `Dynamic`. -/
def VectorField.ofList (fs : List (List K → Res K)) : Res (VectorField K) :=
  if (fs.length : Int) = -1 then .ok ⟨-1, -1, fs.map SF.ofCallable⟩ else .throws

/-- `std::vector::resize` to `n` default values; a negative `n` becomes a huge unsigned number and throws `std::length_error`. -/
def resized (n : Int) : Res (List (SF K)) := if 0 ≤ n then .ok (List.replicate n.toNat (SF.empty (-1))) else .throws

/-- `VectorField(const VectorExpr<M, N, E>& expr)` (vector_field.h 54-61): the size is compared with the one of the default constructed
base, `Dynamic`, and `field_` is resized to the latter; the loop which follows copies the components. -/
def VectorField.ofExpr (e : VF K) : Res (VectorField K) :=
  if (-1 : Int) = e.outer then do
    let fs ← resized (-1)
    return ⟨-1, -1, fs⟩
  else .throws

/-- `Vector<M, N>(value, m, n)` (vector_expressions.h 92-100). -/
def VF.const (v : List K) (m n : Int) : VF K := ⟨m, n, fun i => Cell.num <$> Res.ofOptionUB v[i]?⟩

/-- `VectorScalar<M, N>(value, m, n)` (vector_expressions.h 147-154). -/
def VF.scal (c : K) (m n : Int) : VF K := ⟨m, n, fun _ => .ok (.num c)⟩

/-- `VectorBinOp::operator[]` (vector_expressions.h 135). -/
def VF.binSub (op : Op) (a b : VF K) (i : Nat) : Res (Cell K) := do
  let x ← a.sub i
  let y ← b.sub i
  Cell.bin op x y

/-- `VectorBinOp` (vector_expressions.h 118-144). -/
def VF.bin (op : Op) (a b : VF K) : Res (VF K) :=
  if a.inner = b.inner ∧ a.outer = b.outer then .ok ⟨a.inner, a.outer, VF.binSub op a b⟩ else .throws

/-- A constant vector on the left of `+`, `-` (vector_expressions.h 36-40). -/
def VF.constL (op : Op) (v : List K) (b : VF K) : Res (VF K) := VF.bin op (VF.const v b.inner b.outer) b

/-- A constant vector on the right of `+`, `-` (vector_expressions.h 41-45). -/
def VF.constR (op : Op) (a : VF K) (v : List K) : Res (VF K) := VF.bin op a (VF.const v a.inner a.outer)

/-- `double * VectorExpr` (vector_expressions.h 155-159). -/
def VF.scaleL (c : K) (b : VF K) : Res (VF K) := VF.bin .mul (VF.scal c b.inner b.outer) b

/-- `VectorExpr * double` (vector_expressions.h 160-164). -/
def VF.scaleR (a : VF K) (c : K) : Res (VF K) := VF.bin .mul a (VF.scal c a.inner a.outer)

/-- `VectorNegationOp` (vector_expressions.h 87, 167-179): the base class is default constructed, both sizes are `Dynamic`. -/
def VF.neg (a : VF K) : VF K := ⟨-1, -1, fun i => Cell.neg <$> a.sub i⟩

/-- `derive()` (scalar_expressions.h 81) and `ScalarExprGradient` (field_derivatives.h 96-108). -/
def SF.derive (e : SF K) : VF K := ⟨e.dim, e.dim, fun i => .ok (.fld (e.partial1 i e.step))⟩

/-- One term of the loop of `DotProduct::operator()` (dot_product.h 62-70). -/
def dotTerm (x y : Cell K) (p : List K) : Res K :=
  match x, y with
  | .fld a, .fld b => do
      let e ← SF.bin .mul a b
      e.call p
  | x, y => do
      let u ← x.call p
      let v ← y.call p
      return u * v

/-- `DotProduct::operator()` (dot_product.h 54-73). -/
def VF.dotCall (a b : VF K) (p : List K) : Res K :=
  if (p.length : Int) = a.inner ∧ (p.length : Int) = b.inner ∧ a.outer = b.outer then
    foldRes (fun acc i => do
      let x ← a.sub i
      let y ← b.sub i
      let t ← dotTerm x y p
      return acc + t) 0 (List.range a.outer.toNat)
  else .throws

/-- `dot` (vector_expressions.h 77-84, vector_field.h 77-84) and the constructor of `DotProduct` (dot_product.h 53), which leaves the
size of the scalar expression at `0`. -/
def VF.dot (a b : VF K) : SF K := ⟨0, defaultStep, VF.dotCall a b⟩

/-- A node of type `MatrixExpr<Dynamic, Dynamic, Dynamic, E>` (matrix_expressions.h 134-178). -/
structure MF (K : Type) where
  inner : Int
  rows : Int
  cols : Int
  coeff : Nat → Nat → Res (Cell K)

/-- The inner loop of `MatrixExpr::operator()` (matrix_expressions.h 163-167). -/
def MF.rowEntries (a : MF K) (p : List K) (k : Nat) (i : Nat) : Res (List K) :=
  foldRes (fun acc j => do
    let c ← a.coeff i j
    let x ← c.call p
    return acc ++ [x]) [] (List.range k)

/-- `MatrixExpr::operator()` (matrix_expressions.h 159-170) and `MatrixField::operator()` (matrix_field.h 58-66); resizing to a negative
size is an assertion of Eigen in debug builds and undefined otherwise. -/
def MF.call (a : MF K) (p : List K) : Res (List (List K)) :=
  if 0 ≤ a.rows ∧ 0 ≤ a.cols then
    foldRes (fun acc i => do
      let r ← a.rowEntries p a.cols.toNat i
      return acc ++ [r]) [] (List.range a.rows.toNat)
  else .ub

/-- `MatrixField<Dynamic, Dynamic, Dynamic>` (matrix_field.h 34-73): sizes and components, in row-major order. -/
structure MatrixField (K : Type) where
  inner : Int
  rows : Int
  cols : Int
  comps : List (SF K)

/-- `MatrixField(int m, int n, int k)` (matrix_field.h 55-57). -/
def MatrixField.sized (m n k : Nat) : MatrixField K := ⟨m, n, k, List.replicate (n * k) (SF.empty m)⟩

/-- `field(i, j) = f` for a callable or an expression of another type (matrix_field.h 69). -/
def MatrixField.assign (a : MatrixField K) (i j : Nat) (f : List K → Res K) : Res (MatrixField K) :=
  if j + i * a.cols.toNat < a.comps.length then
    .ok { a with comps := a.comps.modify (j + i * a.cols.toNat) (fun s => s.assign f) }
  else .ub

/-- A matrix field as an operand (matrix_field.h 68, 70). -/
def MatrixField.expr (a : MatrixField K) : MF K :=
  ⟨a.inner, a.rows, a.cols, fun i j => Cell.fld <$> Res.ofOptionUB a.comps[j + i * a.cols.toNat]?⟩

/-- `MatrixBinOp` (matrix_expressions.h 224-244): the base class is default constructed. -/
def MF.bin (op : Op) (a b : MF K) : MF K :=
  ⟨-1, -1, -1, fun i j => do
    let x ← a.coeff i j
    let y ← b.coeff i j
    Cell.bin op x y⟩

/-- `MatrixNegationOp` (matrix_expressions.h 292-305). -/
def MF.neg (a : MF K) : MF K := ⟨-1, -1, -1, fun i j => Cell.neg <$> a.coeff i j⟩

/-- `MatrixScalar` (matrix_expressions.h 265-271). -/
def MF.scal (c : K) : MF K := ⟨-1, -1, -1, fun _ _ => .ok (.num c)⟩

/-- `MatrixRow` (matrix_expressions.h 80-95). -/
def MF.row (a : MF K) (i : Nat) : VF K := ⟨-1, -1, fun j => a.coeff i j⟩

/-- `MatrixCol` (matrix_expressions.h 97-112). -/
def MF.col (a : MF K) (j : Nat) : VF K := ⟨-1, -1, fun i => a.coeff i j⟩

/-- `MatrixVectorProduct` (matrix_expressions.h 38-55). -/
def MF.mulVec (a : MF K) (v : VF K) : VF K := ⟨-1, -1, fun i => .ok (.fld (VF.dot (a.row i) v))⟩

/-- `derive_twice()` (scalar_expressions.h 82) and `ScalarExprHessian` (field_derivatives.h 110-122). -/
def SF.deriveTwice (e : SF K) : MF K := ⟨e.dim, e.dim, e.dim, fun i j => .ok (.fld (e.partial2 i j e.step))⟩

end Fdapde.Fields.Dyn
