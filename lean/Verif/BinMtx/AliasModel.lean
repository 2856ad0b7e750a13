import Verif.BinMtx.Model
import Verif.Common.Loop
/-
Model of fdaPDE/linear_algebra/binary_matrix.h for programs with named matrices.  A matrix is nested by reference in the expressions which
use it (`NestAsRef = 1`, line 38, and utils/symbols.h:187-193), the other nodes by value; their sizes are those of the moment they were
built (510).  An assignment writes the packs of the destination one after the other while the expression is evaluated (185-202), so that an
expression which mentions the destination reads a matrix which is being written.  All matrices are `BinaryMatrix<Dynamic, Dynamic>`.
-/
namespace Fdapde.BinMtx

/-- The matrices of the program. -/
abbrev Env := Nat → BMat

/-- The matrix named `x` becomes `m`. -/
def Env.upd (env : Env) (x : Nat) (m : BMat) : Env := fun y => if y = x then m else env y

/-- Expressions as they are written, with names for the matrices (the nodes of `Xpr`). -/
inductive Src where
  | var (x : Nat)
  | not (e : Src)
  | bin (op : BOp) (a b : Src)
  | block (e : Src) (r0 c0 h w : Nat)
  | rep (e : Src) (a b : Nat)
  | resh (e : Src) (r c : Nat)

/-- The expression over the matrices as they are now. -/
def Src.xpr (env : Env) : Src → Xpr
  | .var x => .mat (env x)
  | .not e => .not (e.xpr env)
  | .bin op a b => .bin op (a.xpr env) (b.xpr env)
  | .block e r0 c0 h w => .block (e.xpr env) r0 c0 h w
  | .rep e a b => .rep (e.xpr env) a b
  | .resh e r c => .resh (e.xpr env) r c

/-- binary_matrix.h:512 : `rows()` of a nested operand; a matrix has its present size, a node the one it had when it was built over `old`. -/
def Src.rowsNow (old env : Env) : Src → Nat
  | .var x => (env x).rows
  | e => (e.xpr old).rows

/-- binary_matrix.h:513 : `cols()` of a nested operand. -/
def Src.colsNow (old env : Env) : Src → Nat
  | .var x => (env x).cols
  | e => (e.xpr old).cols

/-- Coefficient of an expression built over the matrices `old` and read when they are `env` : lines 158-160, 238, 257, 311-314, 454-457,
487-490. -/
def Src.coeff (old env : Env) : Src → Nat → Nat → Res Bool
  | .var x, i, j => (env x).read i j
  | .not e, i, j => (fun b => !b) <$> e.coeff old env i j
  | .bin op a b, i, j => do
    let x ← a.coeff old env i j
    let y ← b.coeff old env i j
    return op.onBool x y
  | .block e r0 c0 h w, i, j => if i < h ∧ j < w then e.coeff old env (i + r0) (j + c0) else .throws
  | .rep e a b, i, j =>
    if i < (e.xpr old).rows * a ∧ j < (e.xpr old).cols * b then
      (if e.rowsNow old env = 0 ∨ e.colsNow old env = 0 then .ub
       else e.coeff old env (i % e.rowsNow old env) (j % e.colsNow old env))
    else .throws
  | .resh e r c, i, j =>
    if i < r ∧ j < c then
      (if e.colsNow old env = 0 then .ub
       else e.coeff old env ((i * c + j) / e.colsNow old env) ((i * c + j) % e.colsNow old env))
    else .throws

/-- Pack of an expression built over the matrices `old` and read when they are `env` : lines 165, 239, 258, 327-338, 458-466, 491. -/
def Src.bitpack (old env : Env) : Src → Nat → Res Word
  | .var x, k => getWord (env x).data k
  | .not e, k => (fun w => ~~~w) <$> e.bitpack old env k
  | .bin op a b, k => do
    let x ← a.bitpack old env k
    let y ← b.bitpack old env k
    return op.onWord x y
  | .block e r0 c0 h w, k =>
    if w = 0 then .ub
    else
      let col_offset := c0 + (if k = 0 then 0 else (k * 64) % w)
      let row_offset := r0 + rowOff k w
      assemble (fun j => e.coeff old env (row_offset + j / w) (col_offset + j % w)) (min 64 (h * w - k * 64))
  | .rep e a b, k =>
    assemble (fun j =>
      if e.rowsNow old env = 0 ∨ e.colsNow old env = 0 then .ub
      else e.coeff old env (((k * 64 + j) / ((e.xpr old).cols * b)) % e.rowsNow old env) ((k * 64 + j) % e.colsNow old env))
      (min 64 ((e.xpr old).rows * a * ((e.xpr old).cols * b) - k * 64))
  | .resh e _ _, k => e.bitpack old env k

/-- `std::vector::resize(n, 0)`. -/
def resizeWords (d : List Word) (n : Nat) : List Word := d.take n ++ List.replicate (n - d.length) 0#64

/-- binary_matrix.h:200 : `data_[k] = rhs.bitpack(k)`. -/
def assignPack (old : Env) (x : Nat) (e : Src) (env : Env) (k : Nat) : Res Env := do
  let w ← e.bitpack old env k
  if k < (env x).data.length then .ok (env.upd x { env x with data := (env x).data.set k w }) else .ub

/-- binary_matrix.h:185-202 : `x = e`.  The sizes of `x` are changed and its storage is resized before the expression is read.  If `e` is a
matrix, the assignment is the one of the compiler: member by member. -/
def assign (env : Env) (x : Nat) : Src → Res Env
  | .var y => .ok (env.upd x (env y))
  | e => do
    let v ← (e.xpr env).build
    foldRes (assignPack env x e) (env.upd x ⟨v.rows, v.cols, v.bitpacks, resizeWords (env x).data v.bitpacks⟩) (List.range v.bitpacks)

/-- binary_matrix.h:315, 340-353 : `x.block(r0, c0, h, w) = e`, coefficient by coefficient. -/
def assignBlockTo (env : Env) (x r0 c0 h w : Nat) (e : Src) : Res Env :=
  if r0 + h ≤ (env x).rows ∧ c0 + w ≤ (env x).cols then do
    let v ← (e.xpr env).build
    if v.rows = h ∧ v.cols = w then
      forLoop (fun i s => forLoop (fun j s => do
        let b ← e.coeff env s i j
        if b then (fun m => s.upd x m) <$> BMat.set (s x) (i + r0 : Nat) (j + c0 : Nat) else .ok s) 0 w s) 0 h env
    else .throws
  else .throws

/-- Statements of a program. -/
inductive Stmt where
  | set (x i j : Nat)
  | clear (x i j : Nat)
  | assign (x : Nat) (e : Src)
  | block (x r0 c0 h w : Nat) (e : Src)

/-- One statement: lines 168-171, 176-179, 185-202, 340-353. -/
def Stmt.run (env : Env) : Stmt → Res Env
  | .set x i j => (fun m => env.upd x m) <$> (env x).set i j
  | .clear x i j => (fun m => env.upd x m) <$> (env x).clear i j
  | .assign x e => Fdapde.BinMtx.assign env x e
  | .block x r0 c0 h w e => assignBlockTo env x r0 c0 h w e

/-- A program; an exception ends it. -/
def runStmts (env : Env) (p : List Stmt) : Res Env := foldRes Stmt.run env p

end Fdapde.BinMtx
