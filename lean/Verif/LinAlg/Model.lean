import Verif.Common.Loop
import Mathlib.Algebra.Ring.Defs
import Mathlib.Algebra.BigOperators.Group.Finset.Defs
import Mathlib.LinearAlgebra.Matrix.Defs
import Mathlib.Data.Matrix.Mul
/-
Model of fdaPDE/linear_algebra/{kronecker_product,sparse_block_matrix,smw,lumping}.h.
Scalars are elements of a commutative ring: rounding is not modelled.  Eigen itself is a dependency and is modelled by
what it documents: dense coefficient access is undefined out of range, a column of a compressed sparse matrix is the
list of its stored (inner index, value) pairs.
-/
namespace Fdapde.LinAlg

/-- A dense matrix expression. -/
structure Mat (R : Type) where
  rows : Nat
  cols : Nat
  coeff : Nat → Nat → R

/-- Coefficient access of the Eigen operand. -/
def Mat.get {R : Type} (A : Mat R) (i j : Nat) : Res R := if i < A.rows ∧ j < A.cols then .ok (A.coeff i j) else .ub

section Kronecker
variable {R : Type} [CommRing R]

/-- kronecker_product.h:46-47 -/
def kronRows (A B : Mat R) : Nat := A.rows * B.rows
def kronCols (A B : Mat R) : Nat := A.cols * B.cols

/-- kronecker_product.h:152-155 : `coeff(row, col)` of the dense product.  Division by zero is undefined. -/
def kronCoeff (A B : Mat R) (row col : Nat) : Res R :=
  if B.rows = 0 ∨ B.cols = 0 then .ub else do
    let a ← A.get (row / B.rows) (col / B.cols)
    let b ← B.get (row % B.rows) (col % B.cols)
    .ok (a * b)

/-! ### Sparse product -/

/-- A compressed column-major sparse matrix: inner indices and values of all columns one after the other, column `j`
occupies positions `start j`, ..., `start (j+1) - 1`. -/
structure Sp (R : Type) where
  rows : Nat
  cols : Nat
  start : Nat → Nat
  data : List (Nat × R)

/-- Stored entries of a column in storage order (Eigen's `InnerIterator`). -/
def Sp.col (A : Sp R) (j : Nat) : List (Nat × R) := (A.data.drop (A.start j)).take (A.start (j + 1) - A.start j)

/-- State of the iterator, kronecker_product.h:226-235.  `lhs` and `rhs` are what the operands' iterators have left,
`rhs0` is the whole column of the right operand. -/
structure KIt (R : Type) where
  lhs : List (Nat × R)
  rhs : List (Nat × R)
  rhs0 : List (Nat × R)
  index : Int
  value : Option R
  rhsEmpty : Bool

/-- kronecker_product.h:196-218 : `operator++`. -/
def KIt.next (rbInner : Nat) (it : KIt R) : KIt R :=
  if it.rhsEmpty then { it with index := -1 } else
    match it.rhs, it.lhs with
    | (k, b) :: rhs, (i, a) :: _ =>
      { it with index := ((i * rbInner + k : Nat) : Int), value := some (a * b), rhs := rhs }
    | [], _ :: (i, a) :: lhs =>                                    -- ++lhs_it succeeds
      match it.rhs0 with
      | (k, b) :: rhs =>
        { it with lhs := (i, a) :: lhs, rhs := rhs, index := ((i * rbInner + k : Nat) : Int), value := some (a * b) }
      | [] => { it with lhs := (i, a) :: lhs, rhs := [], index := -1 }
    | [], _ => { it with lhs := [], index := -1 }
    | _ :: _, [] => { it with index := -1 }

/-- kronecker_product.h:184-194 : constructor.  `lhs_it.index()` is evaluated also when the column is empty: Eigen then
reads the inner index stored at the position where the column ends. -/
def KIt.make (A B : Sp R) (outer : Nat) : Res (KIt R) :=
  if B.cols = 0 then .ub else
    let jl := outer / B.cols
    let jr := outer % B.cols
    match A.data[A.start jl]? with
    | none => .ub
    | some _ => .ok (KIt.next B.rows ⟨A.col jl, B.col jr, B.col jr, 0, none, (B.col jr).isEmpty⟩)

/-- `for (InnerIterator it(eval, outer); it; ++it)` : collects index and value; `none` if the fuel does not suffice. -/
def KIt.collect (rbInner : Nat) : Nat → KIt R → Option (List (Int × Option R))
  | 0, _ => none
  | f + 1, it => if 0 ≤ it.index then ((it.index, it.value) :: ·) <$> KIt.collect rbInner f (it.next rbInner) else some []

end Kronecker

/-! ### SparseBlockMatrix -/
section Block
variable {R : Type}

/-- Data members, sparse_block_matrix.h:121-126. -/
structure SBShape where
  outerOffset : List Nat
  innerOffset : List Nat
  outerSize : List Nat
  innerSize : List Nat
  cols : Nat
  rows : Nat
  deriving DecidableEq

def SBShape.init : SBShape := ⟨[0], [0], [], [], 0, 0⟩

/-- sparse_block_matrix.h:48-65 : treatment of argument `i`, of size `mr` x `mc`.  The arrays have fixed size; the model
grows lists, `j` and `k` of the code are their lengths. -/
def sbStep (C : Nat) (s : SBShape) (i mr mc : Nat) : Res SBShape :=
  let r := i / C
  let c := i % C
  if (r = 0 ∨ s.outerSize[c]? = some mc) ∧ (c = 0 ∨ s.innerSize[r]? = some mr) then
    let s1 := if r = 0 then
        { s with cols := s.cols + mc, outerSize := s.outerSize ++ [mc],
                 outerOffset := s.outerOffset ++ [mc + s.outerOffset.getLastD 0] }
      else s
    let s2 := if c = 0 then
        { s1 with rows := s1.rows + mr, innerSize := s1.innerSize ++ [mr],
                  innerOffset := s1.innerOffset ++ [mr + s1.innerOffset.getLastD 0] }
      else s1
    .ok s2
  else .throws

/-- sparse_block_matrix.h:42-66 : `N` arguments, row-major, argument `i` of size `shape i`. -/
def sbBuild (C N : Nat) (shape : Nat → Nat × Nat) : Res SBShape :=
  foldRes (fun s i => sbStep C s i (shape i).1 (shape i).2) SBShape.init (List.range N)

/-- `std::distance(begin, upper_bound(begin, end, i))` on a sorted array. -/
def upperBound (l : List Nat) (i : Nat) : Nat := l.findIdx (fun x => decide (i < x))

/-- sparse_block_matrix.h:105-111 -/
def blockIndex (off : List Nat) (i : Nat) : Nat := upperBound off i - 1
/-- sparse_block_matrix.h:113-119 : dereferencing before the array is undefined. -/
def indexToBlock (off : List Nat) (i : Nat) : Res Nat :=
  if upperBound off i = 0 then .ub else (fun o => i - o) <$> Res.ofOptionUB off[upperBound off i - 1]?

/-- sparse_block_matrix.h:92-103 : `coeff(row, col)`; `blocks` are stored row-major.  (`coeff` as written calls the
non-const `coeffRef` on a const block; the value is that of `coeffRef`, 92-96.) -/
def sbCoeff (C : Nat) (s : SBShape) (blocks : List (Mat R)) (row col : Nat) : Res R :=
  if row < s.rows ∧ col < s.cols then do
    let b ← Res.ofOptionUB blocks[blockIndex s.innerOffset row * C + blockIndex s.outerOffset col]?
    let i ← indexToBlock s.innerOffset row
    let j ← indexToBlock s.outerOffset col
    b.get i j
  else .throws

/-- State of the inner iterator, sparse_block_matrix.h:209-217. -/
structure SBIt (R : Type) where
  inner : List (Nat × R)
  blk : Nat
  off : Nat
  index : Int
  value : Option R

/-- sparse_block_matrix.h:187-201 : `operator++` on block column `colB`, given as the list of its blocks, each with its
number of rows and the stored entries of the column iterated over.  The loop runs at most once per block. -/
def SBIt.next (colB : List (Nat × List (Nat × R))) : Nat → SBIt R → Option (SBIt R)
  | 0, _ => none
  | f + 1, it =>
    match it.inner with
    | (k, v) :: rest => some { it with value := some v, index := ((it.off + k : Nat) : Int), inner := rest }
    | [] =>
      if it.blk = colB.length - 1 then some { it with index := -1 }
      else
        SBIt.next colB f
          { it with inner := (colB.getD (it.blk + 1) (0, [])).2, blk := it.blk + 1,
                    off := it.off + (colB.getD 0 (0, [])).1 }

/-- sparse_block_matrix.h:177-186 -/
def SBIt.make (colB : List (Nat × List (Nat × R))) : Option (SBIt R) :=
  SBIt.next colB (colB.length + 1) ⟨(colB.getD 0 (0, [])).2, 0, 0, 0, none⟩

/-- The for loop over the iterator. -/
def SBIt.collect (colB : List (Nat × List (Nat × R))) : Nat → SBIt R → Option (List (Int × Option R))
  | 0, _ => none
  | f + 1, it =>
    if 0 ≤ it.index then
      match SBIt.next colB (colB.length + 1) it with
      | none => none
      | some it' => ((it.index, it.value) :: ·) <$> SBIt.collect colB f it'
    else some []

end Block

/-! ### SMW and lumping -/
section Smw
variable {R : Type} [CommRing R] {n q k : Type} [Fintype n] [Fintype q]

/-- smw.h:45-59 : `solveA` is the factorised sparse solver (it is called with right-hand sides of two widths), `solveG M`
the dense solver after `compute(M)`. -/
def smwSolve (solveAk : Matrix n k R → Matrix n k R) (solveAq : Matrix n q R → Matrix n q R)
    (solveG : Matrix q q R → Matrix q k R → Matrix q k R) (U : Matrix n q R) (invC : Matrix q q R) (V : Matrix q n R)
    (b : Matrix n k R) : Matrix n k R :=
  let y := solveAk b
  let Y := solveAq U
  let G := invC + V * Y
  let t := solveG G (V * y)
  let v := solveAk (U * t)
  y - v

end Smw

section Lump
variable {R : Type} [CommRing R]

/-- lumping.h:43-52 : dense version. -/
def lumpDense (A : Mat R) : Res (Mat R) :=
  if A.rows = A.cols then
    let d := fun i => (List.range A.cols).foldl (fun acc j => acc + A.coeff i j) 0
    .ok ⟨A.rows, A.rows, fun i j => if i = j then d i else 0⟩
  else .throws

/-- Entry of a sparse matrix given by its stored entries (row, column, value); repeated ones add up, as in
`setFromTriplets`. -/
def tripletCoeff (l : List (Nat × Nat × R)) (i j : Nat) : R :=
  l.foldl (fun acc t => if t.1 = i ∧ t.2.1 = j then acc + t.2.2 else acc) 0

/-- `expr.row(i).sum()` : sum of the stored entries of row `i`. -/
def rowSum (l : List (Nat × Nat × R)) (i : Nat) : R :=
  l.foldl (fun acc t => if t.1 = i then acc + t.2.2 else acc) 0

/-- lumping.h:28-41 : sparse version, from and to stored entries. -/
def lumpSparse (rows cols : Nat) (l : List (Nat × Nat × R)) : Res (List (Nat × Nat × R)) :=
  if rows = cols then .ok ((List.range rows).map fun i => (i, i, rowSum l i)) else .throws

end Lump
end Fdapde.LinAlg
