import Mathlib.Algebra.Field.Basic
import Verif.Common.Res
import Verif.Common.Loop

/-!
# Field expressions

Model of the expression templates of `fdaPDE/fields`: scalar, vector and matrix expression nodes, `forward`, subscripting and
evaluation.  Numbers are elements of a field `K` instead of `double`; in particular division by zero follows the convention of `K`.
Sizes are the static template arguments; `Dynamic` sizes are modelled in `Dynamic.lean`.
-/

namespace Fdapde.Fields

/-- The three families of expressions: `ScalarExpr` (scalar_expressions.h 57), `VectorExpr` (vector_expressions.h 53) with the
number of subscriptable components, `MatrixExpr` (matrix_expressions.h 134) with rows and columns. -/
inductive Shape
  | sc
  | vec (l : Nat)
  | mat (m k : Nat)

/-- The functors `std::plus`, `std::minus`, `std::multiplies`, `std::divides` (scalar_expressions.h 138-141; vector_expressions.h
143-144, 155-164; matrix_expressions.h 243-244, 272-286). -/
inductive Op
  | add | sub | mul | div

/-- A row-major data matrix `DMatrix<double, RowMajor>` (scalar_expressions.h 100, vector_expressions.h 105,
matrix_expressions.h 211). -/
structure Data (K : Type) where
  rows : Nat
  cols : Nat
  val : Nat → Nat → K

variable {K : Type} [Field K]

/-- Application of a functor. -/
def Op.app : Op → K → K → K
  | .add, a, b => a + b
  | .sub, a, b => a - b
  | .mul, a, b => a * b
  | .div, a, b => a / b

/-- Access through the raw pointer `data_->data() + off`: an offset outside the buffer is undefined behaviour. -/
def Data.raw (d : Data K) (off : Nat) : Res K :=
  if off < d.rows * d.cols then .ok (d.val (off / d.cols) (off % d.cols)) else .ub

/-- `data_->operator()(i, j)`: out of range is an Eigen assertion in debug builds and undefined otherwise. -/
def Data.at (d : Data K) (i j : Nat) : Res K := if i < d.rows ∧ j < d.cols then .ok (d.val i j) else .ub

/-- Expression trees over points of type `P`.  Each node stores its operands by value and each discretised leaf its own `mutable`
state, as in the code; pointer nodes (field_ptrs.h 28-76) delegate to the pointee and are identified with it.

* `const`: `Scalar` (scalar_expressions.h 86-95) and `ConstantField` (scalar_field.h 29-38);
* `fn`: `ScalarField` (scalar_field.h 45-90);
* `disc`: `DiscretizedScalarField` with its `value_` (scalar_expressions.h 98-108);
* `bin`, `un`, `neg`: `ScalarBinOp`, `ScalarUnOp`, `ScalarNegationOp` (scalar_expressions.h 111-181);
* `dot`: `DotProduct` (dot_product.h 28-79);
* `vconst`, `vscal`: `Vector`, `VectorScalar` (vector_expressions.h 92-100, 147-154);
* `vfield`: `VectorField` (vector_field.h 34-91);
* `vdisc`: `DiscretizedVectorField` with the offset its map points to, `none` for the null map of the constructor
  (vector_expressions.h 103-115);
* `vbin`, `vneg`: `VectorBinOp`, `VectorNegationOp` (vector_expressions.h 118-142, 167-179);
* `mulVec`: `MatrixVectorProduct` (matrix_expressions.h 38-55);
* `row`, `col`: `MatrixRow`, `MatrixCol` (matrix_expressions.h 80-113);
* `mconst`, `mscal`: `Matrix`, `MatrixScalar` (matrix_expressions.h 190-203, 265-271);
* `mfield`: `MatrixField` (matrix_field.h 34-73);
* `mdisc`: `DiscretizedMatrixField` (matrix_expressions.h 207-221);
* `mbin`, `mneg`: `MatrixBinOp`, `MatrixNegationOp` (matrix_expressions.h 224-242, 292-305).

`MatrixMatrixProduct` has no `coeff` and cannot be evaluated; it is not modelled.  The code restricts `*` and `/` between vectors
and matrices to scalar operands and refuses some trees of constants; the model accepts all trees. -/
inductive Exp (K P : Type) : Shape → Type
  | const (c : K) : Exp K P .sc
  | fn (f : P → K) : Exp K P .sc
  | disc (d : Data K) (value : K) : Exp K P .sc
  | bin (op : Op) (a b : Exp K P .sc) : Exp K P .sc
  | un (f : K → K) (a : Exp K P .sc) : Exp K P .sc
  | neg (a : Exp K P .sc) : Exp K P .sc
  | dot {l : Nat} (a b : Exp K P (.vec l)) : Exp K P .sc
  | vconst {l : Nat} (v : Fin l → K) : Exp K P (.vec l)
  | vscal {l : Nat} (c : K) : Exp K P (.vec l)
  | vfield {l : Nat} (f : Fin l → P → K) : Exp K P (.vec l)
  | vdisc {l : Nat} (d : Data K) (off : Option Nat) : Exp K P (.vec l)
  | vbin {l : Nat} (op : Op) (a b : Exp K P (.vec l)) : Exp K P (.vec l)
  | vneg {l : Nat} (a : Exp K P (.vec l)) : Exp K P (.vec l)
  | mulVec {m k : Nat} (a : Exp K P (.mat m k)) (v : Exp K P (.vec k)) : Exp K P (.vec m)
  | row {m k : Nat} (a : Exp K P (.mat m k)) (i : Nat) : Exp K P (.vec k)
  | col {m k : Nat} (a : Exp K P (.mat m k)) (j : Nat) : Exp K P (.vec m)
  | mconst {m k : Nat} (v : Fin m → Fin k → K) : Exp K P (.mat m k)
  | mscal {m k : Nat} (c : K) : Exp K P (.mat m k)
  | mfield {m k : Nat} (f : Fin m → Fin k → P → K) : Exp K P (.mat m k)
  | mdisc {m k : Nat} (d : Data K) (off : Option Nat) : Exp K P (.mat m k)
  | mbin {m k : Nat} (op : Op) (a b : Exp K P (.mat m k)) : Exp K P (.mat m k)
  | mneg {m k : Nat} (a : Exp K P (.mat m k)) : Exp K P (.mat m k)

variable {P : Type}

/-- The static members `rows` and `cols` of a vector node: `rows = N, cols = 1` (vector_expressions.h 60-61) except for a matrix
row, which redefines them to `1` and `K` (matrix_expressions.h 93-94).  A sum or difference of rows of an `m × k` matrix is a
`VectorExpr<N, m>` and has `rows = m`. -/
def vdims : {s : Shape} → Exp K P s → Nat × Nat
  | _, .row (k := k) _ _ => (1, k)
  | _, .vbin _ a _ => (vouter a, 1)
  | _, .vneg a => (vouter a, 1)
  | .vec l, _ => (l, 1)
  | _, _ => (1, 1)
where
  /-- `outer_size()` of a vector node (vector_expressions.h 69): its template argument `N`, which for a row of an `m × k` matrix
  is `m` (matrix_expressions.h 80) although the row has `k` components. -/
  vouter : {s : Shape} → Exp K P s → Nat
  | _, .row (m := m) _ _ => m
  | _, .vbin _ a _ => vouter a
  | _, .vneg a => vouter a
  | .vec l, _ => l
  | _, _ => 1

/-- `dot_product_outer_size` (dot_product.h 39-46) for static sizes. -/
def dotSize (d1 d2 : Nat × Nat) : Nat :=
  if d1.2 = d2.2 then d1.1 else if d1.2 = d2.1 then d1.2 else d1.1

/-- Positions of an expression: none for scalars, the argument of `operator[]`, the arguments of `coeff`. -/
abbrev Ix : Shape → Type
  | .sc => Unit
  | .vec _ => Nat
  | .mat _ _ => Nat × Nat

/-- Reading a component of a fixed-size vector; out of range is undefined behaviour. -/
def getFin {l : Nat} (v : Fin l → K) (j : Nat) : Res K := if h : j < l then .ok (v ⟨j, h⟩) else .ub

/-- Reading a coefficient of a fixed-size matrix; out of range is undefined behaviour. -/
def getFin2 {m k : Nat} (v : Fin m → Fin k → K) (i j : Nat) : Res K :=
  if h : i < m ∧ j < k then .ok (v ⟨i, h.1⟩ ⟨j, h.2⟩) else .ub

/-- Reading through an `Eigen::Map` of `l` entries at offset `off`; reading through the null map is undefined behaviour. -/
def readMap (d : Data K) (off : Option Nat) (l j : Nat) : Res K :=
  match off with
  | none => .ub
  | some o => if j < l then d.raw (o + j) else .ub

/-- Evaluation of one entry at a point: `operator()(p)` of scalar nodes, `operator[](i)(p)` of vector nodes, `coeff(i, j)(p)` of
matrix nodes.
* `disc` returns `value_` (scalar_expressions.h 106);
* `bin`, `un`, `neg`: scalar_expressions.h 128-131, 156, 175;
* `dot`: accumulates `op1_[i] * op2_[i]` for `i < dot_product_outer_size()` (dot_product.h 57-70);
* `mulVec`: the dot product of the `i`-th row with the vector (matrix_expressions.h 47-49);
* `row`, `col`: `expr_.coeff(row_, i)`, `expr_.coeff(i, col_)` (matrix_expressions.h 87, 104);
* `mdisc`: the map is a column-major `SMatrix<M, K>` (matrix_expressions.h 213, 217). -/
def eval : {s : Shape} → Exp K P s → Ix s → P → Res K
  | _, .const c, _, _ => .ok c
  | _, .fn f, _, p => .ok (f p)
  | _, .disc _ v, _, _ => .ok v
  | _, .bin op a b, _, p => do
      let x ← eval a () p
      let y ← eval b () p
      return op.app x y
  | _, .un f a, _, p => do
      let x ← eval a () p
      return f x
  | _, .neg a, _, p => do
      let x ← eval a () p
      return -x
  | _, .dot a b, _, p =>
      foldRes (fun acc j => do
        let x ← eval a j p
        let y ← eval b j p
        return acc + x * y) 0 (List.range (dotSize (vdims a) (vdims b)))
  | _, .vconst v, j, _ => getFin v j
  | _, .vscal c, _, _ => .ok c
  | _, .vfield f, j, p => getFin (fun j' => f j' p) j
  | .vec l, .vdisc d off, j, _ => readMap d off l j
  | _, .vbin op a b, j, p => do
      let x ← eval a j p
      let y ← eval b j p
      return op.app x y
  | _, .vneg a, j, p => do
      let x ← eval a j p
      return -x
  | _, .mulVec (k := k) a v, i, p =>
      foldRes (fun acc j => do
        let x ← eval a (i, j) p
        let y ← eval v j p
        return acc + x * y) 0 (List.range (dotSize (1, k) (vdims v)))
  | _, .row a i, j, p => eval a (i, j) p
  | _, .col a j, i, p => eval a (i, j) p
  | _, .mconst v, ij, _ => getFin2 v ij.1 ij.2
  | _, .mscal c, _, _ => .ok c
  | _, .mfield f, ij, p => getFin2 (fun i' j' => f i' j' p) ij.1 ij.2
  | .mat m k, .mdisc d off, ij, _ => if ij.1 < m ∧ ij.2 < k then readMap d off (m * k) (ij.1 + ij.2 * m) else .ub
  | _, .mbin op a b, ij, p => do
      let x ← eval a ij p
      let y ← eval b ij p
      return op.app x y
  | _, .mneg a, ij, p => do
      let x ← eval a ij p
      return -x

/-- `forward(i)`: sets the discretised leaves to row `i`.
* `disc`: `value_ = data_->operator()(i, 0)` (scalar_expressions.h 107);
* `vdisc`: the map is moved to offset `i * N` (vector_expressions.h 112-114);
* `mdisc`: the map is moved to offset `i * M * K` (matrix_expressions.h 218-220);
* binary operations, negations, products, rows and columns forward to their operands (scalar_expressions.h 133-136, 177-180;
  vector_expressions.h 137-141, 175-178; matrix_expressions.h 50-54, 88-91, 105-108, 236-240, 301-304; dot_product.h 71-75);
* `un` does not redefine `forward` and inherits the one of `ScalarExpr`, which does nothing (scalar_expressions.h 73, 144-157);
  so do constants and fields (vector_expressions.h 86, matrix_expressions.h 176). -/
def forward (i : Nat) : {s : Shape} → Exp K P s → Res (Exp K P s)
  | _, .disc d _ => do
      let v ← d.at i 0
      return .disc d v
  | .vec l, .vdisc d _ => .ok (.vdisc d (some (i * l)))
  | .mat m k, .mdisc d _ => .ok (.mdisc d (some (i * m * k)))
  | _, .bin op a b => do
      let a' ← forward i a
      let b' ← forward i b
      return .bin op a' b'
  | _, .neg a => do
      let a' ← forward i a
      return .neg a'
  | _, .dot a b => do
      let a' ← forward i a
      let b' ← forward i b
      return .dot a' b'
  | _, .vbin op a b => do
      let a' ← forward i a
      let b' ← forward i b
      return .vbin op a' b'
  | _, .vneg a => do
      let a' ← forward i a
      return .vneg a'
  | _, .mulVec a v => do
      let a' ← forward i a
      let v' ← forward i v
      return .mulVec a' v'
  | _, .row a r => do
      let a' ← forward i a
      return .row a' r
  | _, .col a c => do
      let a' ← forward i a
      return .col a' c
  | _, .mbin op a b => do
      let a' ← forward i a
      let b' ← forward i b
      return .mbin op a' b'
  | _, .mneg a => do
      let a' ← forward i a
      return .mneg a'
  | _, e => .ok e

/-- `VectorExpr::operator()` (vector_expressions.h 71-76): the entries below `outer_size`. -/
def evalVec {l : Nat} (e : Exp K P (.vec l)) (p : P) : Res (List K) :=
  foldRes (fun acc j => do
    let x ← eval e j p
    return acc ++ [x]) [] (List.range (vdims.vouter e))

/-- `MatrixExpr::operator()` (matrix_expressions.h 159-170), the rows of the result in order. -/
def evalMat {m k : Nat} (e : Exp K P (.mat m k)) (p : P) : Res (List (List K)) :=
  foldRes (fun acc i => do
    let r ← foldRes (fun acc j => do
      let x ← eval e (i, j) p
      return acc ++ [x]) [] (List.range k)
    return acc ++ [r]) [] (List.range m)

end Fdapde.Fields
