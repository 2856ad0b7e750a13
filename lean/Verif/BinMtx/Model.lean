import Verif.Common.Res
/-
Model of fdaPDE/linear_algebra/binary_matrix.h.

`BitPackType` is `std::uintmax_t` (binary_matrix.h:36, 505), modelled as `BitVec 64`
(`PackSize = 64`, lines 37, 506).  Indices of the public setters/getters of `BinaryMatrix` are C++
`int`, modelled as `Int` (without overflow); indices inside expressions are `Nat` because every
caller in the file passes non-negative values.  Compile-time sizes are not distinguished from
run-time sizes.
-/
namespace Fdapde.BinMtx

abbrev Word := BitVec 64

/-- binary_matrix.h:57, 146, 153, 510 : `1 + std::ceil((n_rows_ * n_cols_) / PackSize)`; the
division is an integer division, so `ceil` has no effect. -/
def packs (size : Nat) : Nat := 1 + size / 64

/-- binary_matrix.h:32, 219, 501-502 : data members of `BinaryMatrix`. -/
structure BMat where
  rows : Nat
  cols : Nat
  nbp : Nat
  data : List Word
  deriving Repr, DecidableEq

/-- binary_matrix.h:56-58, 141-148 : constructor with sizes / `resize`. -/
def BMat.zero (r c : Nat) : BMat := ⟨r, c, packs (r * c), List.replicate (packs (r * c)) 0#64⟩

/-- binary_matrix.h:221 : `pack_of` (C++ integer division truncates). -/
def packOf (cols : Nat) (i j : Int) : Int := (i * cols + j).tdiv 64

/-- binary_matrix.h:159, 170, 178 : shift amount `(i * n_cols_ + j) % PackSize` (C++ remainder). -/
def bitOf (cols : Nat) (i j : Int) : Int := (i * cols + j).tmod 64

/-- Unchecked access to `data_[k]`, out of range is undefined behaviour. -/
def getWord (d : List Word) (k : Int) : Res Word :=
  if k < 0 then .ub else Res.ofOptionUB d[k.toNat]?

/-- Shift left of a 64-bit word; shifting by a negative amount or by at least 64 is undefined. -/
def shl (w : Word) (s : Int) : Res Word :=
  if s < 0 ∨ 64 ≤ s then .ub else .ok (w <<< s.toNat)

/-- Logical shift right, undefined for amounts outside `[0,64)`. -/
def shr (w : Word) (s : Int) : Res Word :=
  if s < 0 ∨ 64 ≤ s then .ub else .ok (w >>> s.toNat)

/-- binary_matrix.h:158-160 : `operator()(i,j)` (no bounds assertion in this overload). -/
def BMat.read (m : BMat) (i j : Int) : Res Bool := do
  let w ← getWord m.data (packOf m.cols i j)
  let b ← shl 1#64 (bitOf m.cols i j)
  return (w &&& b) != 0#64

/-- binary_matrix.h:168-171 : `set(i,j)`. -/
def BMat.set (m : BMat) (i j : Int) : Res BMat :=
  if i < m.rows ∧ j < m.cols then do
    let w ← getWord m.data (packOf m.cols i j)
    let b ← shl 1#64 (bitOf m.cols i j)
    return { m with data := m.data.set (packOf m.cols i j).toNat (w ||| b) }
  else .throws

/-- binary_matrix.h:176-179 : `clear(i,j)`. -/
def BMat.clear (m : BMat) (i j : Int) : Res BMat :=
  if i < m.rows ∧ j < m.cols then do
    let w ← getWord m.data (packOf m.cols i j)
    let b ← shl 1#64 (bitOf m.cols i j)
    return { m with data := m.data.set (packOf m.cols i j).toNat (w &&& ~~~b) }
  else .throws

/-- binary_matrix.h:114-129 : `Ones`: every pack is `-1` (padding bits included). -/
def BMat.ones (r c : Nat) : BMat :=
  ⟨r, c, packs (r * c), List.replicate (packs (r * c)) (~~~ 0#64)⟩

/-- Loop `for k in [a, a+n)` with a state that may throw. -/
def forLoop {σ : Type} (body : Nat → σ → Res σ) : Nat → Nat → σ → Res σ
  | _, 0, s => .ok s
  | a, n + 1, s => do
    let s' ← body a s
    forLoop body (a + 1) n s'

/-- binary_matrix.h:131-137 : `Identity(i,j)`. -/
def BMat.identity (r c : Nat) : Res BMat :=
  forLoop (fun k m => m.set k k) 0 (min r c) (BMat.zero r c)

/-- binary_matrix.h:82-92 and 204-217 : construction/assignment from an Eigen matrix
(`resize`, then `set` where the coefficient converts to true). -/
def BMat.ofDense (r c : Nat) (f : Nat → Nat → Bool) : Res BMat :=
  forLoop (fun i m => forLoop (fun j m => if f i j then m.set i j else .ok m) 0 c m) 0 r (BMat.zero r c)

/-- binary_matrix.h:95-103 : construction from an iterator pair.  `xs` is the range `[begin,end)`.
The loop runs while `it != end || i < size`; dereferencing `it == end` is undefined (the range
is shorter than `size`), integer division by `n_rows = 0` as well. -/
def BMat.ofRangeGo (n_rows n_cols size : Nat) : List Bool → Nat → BMat → Res BMat
  | [], i, m => if i < size then .ub else .ok m
  | x :: xs, i, m =>
    if x then
      if n_rows = 0 ∨ n_cols = 0 then .ub
      else do
        let m' ← m.set ((i / n_rows : Nat) : Int) ((i % n_cols : Nat) : Int)
        BMat.ofRangeGo n_rows n_cols size xs (i + 1) m'
    else BMat.ofRangeGo n_rows n_cols size xs (i + 1) m

def BMat.ofRange (xs : List Bool) (n_rows n_cols : Nat) : Res BMat :=
  BMat.ofRangeGo n_rows n_cols (n_rows * n_cols) xs 0 (BMat.zero n_rows n_cols)

/-- binary_matrix.h:104-111 : vector construction from an iterator pair (`set(i)` = `set(i,0)`). -/
def BMat.ofRangeVecGo (n_rows : Nat) : List Bool → Nat → BMat → Res BMat
  | [], i, m => if i < n_rows then .ub else .ok m
  | x :: xs, i, m =>
    if x then do
      let m' ← m.set (i : Int) 0
      BMat.ofRangeVecGo n_rows xs (i + 1) m'
    else BMat.ofRangeVecGo n_rows xs (i + 1) m

def BMat.ofRangeVec (xs : List Bool) (n_rows : Nat) : Res BMat :=
  BMat.ofRangeVecGo n_rows xs 0 (BMat.zero n_rows 1)

/-! ### Expressions -/

/-- binary_matrix.h:268-270 : the functors of the binary operators. -/
inductive BOp where
  | and | or | xor
  deriving Repr, DecidableEq

/-- `std::bit_and<>`, `std::bit_or<>`, `std::bit_xor<>` on packs (line 258). -/
def BOp.onWord : BOp → Word → Word → Word
  | .and, a, b => a &&& b
  | .or, a, b => a ||| b
  | .xor, a, b => a ^^^ b

/-- The same functors on `bool` operands (line 257). -/
def BOp.onBool : BOp → Bool → Bool → Bool
  | .and, a, b => a && b
  | .or, a, b => a || b
  | .xor, a, b => a ^^ b

/-- Expression templates: `BinaryMatrix` leaf, `BinMtxUnaryOp` (only instantiated with NOT, line
549), `BinMtxBinaryOp`, `BinMtxBlock`, `BinMtxRepeatOp`, `BinMtxReshapedOp`. -/
inductive Xpr where
  | mat (m : BMat)
  | not (e : Xpr)
  | bin (op : BOp) (a b : Xpr)
  | block (e : Xpr) (r0 c0 h w : Nat)
  | rep (e : Xpr) (a b : Nat)
  | resh (e : Xpr) (r c : Nat)

/-- `rows()` : lines 237, 254, 285/304, 452, 484, 512. -/
def Xpr.rows : Xpr → Nat
  | .mat m => m.rows
  | .not e => e.rows
  | .bin _ a _ => a.rows
  | .block _ _ _ h _ => h
  | .rep e a _ => e.rows * a
  | .resh _ r _ => r

/-- `cols()` : lines 237, 254, 285/304, 452, 484, 513. -/
def Xpr.cols : Xpr → Nat
  | .mat m => m.cols
  | .not e => e.cols
  | .bin _ a _ => a.cols
  | .block _ _ _ _ w => w
  | .rep e _ b => e.cols * b
  | .resh _ _ c => c

/-- `size()` : line 515. -/
def Xpr.size (e : Xpr) : Nat := e.rows * e.cols

/-- `bitpacks()` : line 514, computed by the `BinMtxBase` constructor (510) for expressions. -/
def Xpr.bitpacks : Xpr → Nat
  | .mat m => m.nbp
  | e => packs e.size

/-- Conjunction of the assertions of all the constructors used to build the expression: 255 (binary
operators), 306-308 (blocks), 485 (reshape).  An expression for which this is false is never
built: the constructor throws. -/
def Xpr.asserts : Xpr → Bool
  | .mat _ => true
  | .not e => e.asserts
  | .bin _ a b => a.asserts && b.asserts && (a.rows == b.rows) && (a.cols == b.cols)
  | .block e r0 c0 h w => e.asserts && decide (r0 + h ≤ e.rows) && decide (c0 + w ≤ e.cols)
  | .rep e _ _ => e.asserts
  | .resh e r c => e.asserts && (r * c == e.rows * e.cols)

/-- Building an expression node: throws if an assertion of a constructor fails. -/
def Xpr.build (e : Xpr) : Res Xpr := if e.asserts then .ok e else .throws

/-- Coefficient access `operator()(i,j)` : lines 158-160, 238, 257, 311-314, 454-457, 487-490. -/
def Xpr.coeff : Xpr → Nat → Nat → Res Bool
  | .mat m, i, j => m.read i j
  | .not e, i, j => (fun b => !b) <$> e.coeff i j
  | .bin op a b, i, j => do
    let x ← a.coeff i j
    let y ← b.coeff i j
    return op.onBool x y
  | .block e r0 c0 h w, i, j => if i < h ∧ j < w then e.coeff (i + r0) (j + c0) else .throws
  | .rep e a b, i, j =>
    if i < e.rows * a ∧ j < e.cols * b then
      (if e.rows = 0 ∨ e.cols = 0 then .ub else e.coeff (i % e.rows) (j % e.cols))
    else .throws
  | .resh e r c, i, j =>
    if i < r ∧ j < c then
      (if e.cols = 0 then .ub else e.coeff ((i * c + j) / e.cols) ((i * c + j) % e.cols))
    else .throws

/-- The pack assembling loops, lines 334-336 and 460-464:
`for j in [0,n): out |= bit(j) << j`. -/
def assemble (bit : Nat → Res Bool) (n : Nat) : Res Word :=
  forLoop (fun j (out : Word) => do
    let b ← bit j
    let s ← shl (if b then 1#64 else 0#64) j
    return out ||| s) 0 n 0#64

/-- The integer nearest to `a / b`, the even one of two equally near. -/
def roundDiv (a b : Nat) : Nat :=
  let q := a / b
  let r := a % b
  if 2 * r < b then q
  else if b < 2 * r then q + 1
  else if q % 2 = 0 then q else q + 1

/-- Rounding of an integer to one with at most 53 significant bits (round to nearest even). -/
def round53 (p : Nat) : Nat :=
  if p < 2 ^ 53 then p
  else
    let t := Nat.log2 p - 52
    roundDiv p (2 ^ t) * 2 ^ t

/-- Number of fractional bits of the double `64 / n`, whose mantissa is in `[2^52, 2^53]`. -/
def fracBits (n : Nat) : Nat := 46 + (if n ≤ 1 then 0 else Nat.log2 (n - 1) + 1)

/-- binary_matrix.h:331 : `std::floor(i * (PackSize / (double)n_cols_))` in binary64 arithmetic with
rounding to nearest even: `64 / n` is rounded to the 53-bit mantissa `m` over `2 ^ fracBits n`, the
product `i * m` is rounded to 53 bits, and the floor drops the fractional bits.  Neither overflow
nor subnormal numbers occur for `0 < n < 2^31`. -/
def rowOff (i n : Nat) : Nat :=
  round53 (i * roundDiv (64 * 2 ^ fracBits n) n) / 2 ^ fracBits n

/-- Pack access `bitpack(k)` : lines 165, 239, 258, 327-338, 458-466, 491.
In the block case (330) `n_cols_ - (n_cols_ - x) = x`; with `n_cols_ = 0` the conversion of the
NaN/inf of line 331 to `int` is undefined. -/
def Xpr.bitpack : Xpr → Nat → Res Word
  | .mat m, k => getWord m.data k
  | .not e, k => (fun w => ~~~w) <$> e.bitpack k
  | .bin op a b, k => do
    let x ← a.bitpack k
    let y ← b.bitpack k
    return op.onWord x y
  | .block e r0 c0 h w, k =>
    if w = 0 then .ub
    else
      let col_offset := c0 + (if k = 0 then 0 else (k * 64) % w)
      let row_offset := r0 + rowOff k w
      assemble (fun j => e.coeff (row_offset + j / w) (col_offset + j % w)) (min 64 (h * w - k * 64))
  | .rep e a b, k =>
    assemble (fun j =>
      if e.rows = 0 ∨ e.cols = 0 then .ub
      else e.coeff (((k * 64 + j) / (e.cols * b)) % e.rows) ((k * 64 + j) % e.cols))
      (min 64 (e.rows * a * (e.cols * b) - k * 64))
  | .resh e _ _, k => e.bitpack k

/-- Reads packs `a, a+1, ..., a+n-1`. -/
def Xpr.readPacks (e : Xpr) : Nat → Nat → Res (List Word)
  | _, 0 => .ok []
  | a, n + 1 => do
    let w ← e.bitpack a
    let ws ← Xpr.readPacks e (a + 1) n
    return w :: ws

/-- binary_matrix.h:64-80 and 185-202 : construction / assignment of a matrix from an expression. -/
def BMat.ofXpr (e : Xpr) : Res BMat := do
  let ws ← e.readPacks 0 e.bitpacks
  return ⟨e.rows, e.cols, e.bitpacks, ws⟩

/-- Same lines, branch `Cols == 1 && Rows_ == 1` : a row expression assigned to a column vector. -/
def BMat.ofXprVec (e : Xpr) : Res BMat := do
  let ws ← e.readPacks 0 e.bitpacks
  return ⟨e.cols, 1, e.bitpacks, ws⟩

/-! ### Block assignment -/

/-- binary_matrix.h:315, 340-353 : `m.block(r0,c0,h,w) = rhs`. -/
def BMat.assignBlock (m : BMat) (r0 c0 h w : Nat) (rhs : Xpr) : Res BMat :=
  if r0 + h ≤ m.rows ∧ c0 + w ≤ m.cols then       -- 306-308
    if rhs.rows = h ∧ rhs.cols = w then           -- 346
      forLoop (fun i m => forLoop (fun j m => do
        let b ← rhs.coeff i j
        if b then BMat.set m (i + r0 : Nat) (j + c0 : Nat) else .ok m) 0 w m) 0 h m
    else .throws
  else .throws

/-- binary_matrix.h:316-320 : `m.block(...).set()`. -/
def BMat.setBlock (m : BMat) (r0 c0 h w : Nat) : Res BMat :=
  if r0 + h ≤ m.rows ∧ c0 + w ≤ m.cols then
    forLoop (fun i m => forLoop (fun j m => BMat.set m (i + r0 : Nat) (j + c0 : Nat)) 0 w m) 0 h m
  else .throws

/-- binary_matrix.h:322-326 : `m.block(...).clear()`. -/
def BMat.clearBlock (m : BMat) (r0 c0 h w : Nat) : Res BMat :=
  if r0 + h ≤ m.rows ∧ c0 + w ≤ m.cols then
    forLoop (fun i m => forLoop (fun j m => BMat.clear m (i + r0 : Nat) (j + c0 : Nat)) 0 w m) 0 h m
  else .throws

/-! ### Visitors -/

/-- A bitpack visitor (411-430): full-pack step, partial-pack step, stop test. -/
structure PackVisitor where
  full : Word → Bool → Bool
  part : Word → Nat → Bool → Res Bool
  stop : Bool → Bool

/-- binary_matrix.h:412-421 : `all_visitor`. -/
def allVisitor : PackVisitor where
  full b res := res && (~~~b == 0#64)
  part b size res := do
    let one ← shl 1#64 (64 - size : Int)
    let mask := one - 1#64
    return res && ((mask &&& b) == mask)
  stop res := res == false

/-- binary_matrix.h:423-430 : `any_visitor`. -/
def anyVisitor : PackVisitor where
  full b res := res || (b != 0#64)
  part b size res := do
    let mask ← shr (~~~ 0#64) (64 - size : Int)
    return res || ((mask &&& b) != 0#64)
  stop res := res == true

/-- binary_matrix.h:373-377 : the loop over full packs; returns `(stopped, k, i, res)`. -/
def visitFull (v : PackVisitor) (e : Xpr) (size : Nat) (k i : Nat) (res : Bool) :
    Res (Bool × Nat × Nat × Bool) :=
  if i + 64 - 1 < size then do
    let b ← e.bitpack k
    let res' := v.full b res
    if v.stop res' then return (true, k, i, res')
    else visitFull v e size (k + 1) (i + 64) res'
  else .ok (false, k, i, res)
termination_by size - i

/-- binary_matrix.h:365-380 : `linear_bitpack_visit::run`. -/
def visitPacks (v : PackVisitor) (e : Xpr) (init : Bool) : Res Bool :=
  let size := e.size
  if size = 0 then .ok init
  else if size < 64 then do
    let b ← e.bitpack 0
    v.part b (64 - size) init
  else do
    let (stopped, k, i, res) ← visitFull v e size 0 0 init
    if stopped then return res
    else if i < size then do
      let b ← e.bitpack k
      v.part b (size - i) res
    else return res

/-- binary_matrix.h:577 : `all()`. -/
def Xpr.all (e : Xpr) : Res Bool := visitPacks allVisitor e true
/-- binary_matrix.h:578 : `any()`. -/
def Xpr.any (e : Xpr) : Res Bool := visitPacks anyVisitor e false

/-- binary_matrix.h:395-398, 401-404 : apply the visitor to `n` bits of a pack, LSB first
(`count_visitor`, 432-437: increment when true). -/
def countBits (bitpack : Word) : Nat → Nat → Nat
  | 0, res => res
  | n + 1, res =>
    countBits (bitpack >>> 1) n (if (bitpack &&& 1#64) == 1#64 then res + 1 else res)

/-- binary_matrix.h:391-406 : loop over packs of `linear_bit_visit::run`; `n` packs remain. -/
def countPacks (e : Xpr) (size : Nat) : Nat → Nat → Nat → Nat → Res Nat
  | 0, _, _, res => .ok res
  | n + 1, k, i, res => do
    let b ← e.bitpack k
    if i + 64 < size then countPacks e size n (k + 1) (i + 64) (countBits b 64 res)
    else countPacks e size n (k + 1) (max i size) (countBits b (size - i) res)

/-- binary_matrix.h:388-408, 579 : `count()`. -/
def Xpr.count (e : Xpr) : Res Nat :=
  if e.size = 0 then .ok 0 else countPacks e e.size e.bitpacks 0 0 0

/-- binary_matrix.h:524-532 : `which(b)`. -/
def Xpr.which (e : Xpr) (b : Bool) : Res (List Nat) :=
  forLoop (fun i acc => forLoop (fun j (acc : List Nat) => do
    let x ← e.coeff i j
    return (if x == b then acc ++ [i * e.cols + j] else acc)) 0 e.cols acc) 0 e.rows []

/-- binary_matrix.h:581-591 : `select` on a dense matrix of scalars (`0` where false). -/
def Xpr.select {α : Type} (zero : α) (e : Xpr) (r c : Nat) (mtx : Nat → Nat → α) :
    Res (Nat → Nat → α) :=
  if e.rows = r ∧ e.cols = c then
    forLoop (fun i acc => forLoop (fun j (acc : Nat → Nat → α) => do
      let x ← e.coeff i j
      return (if !x then (fun i' j' => if i' = i ∧ j' = j then zero else acc i' j') else acc))
      0 c acc) 0 r mtx
  else .throws

/-- binary_matrix.h:592-602 : `select` on a sparse matrix.  The sparse storage (594-595, a compressed
copy of the argument) is the list of its stored entries `(row, col, value)` in storage order; the
loops 596-599 visit them in that order and overwrite the value of those where the mask is false. -/
def Xpr.selectSparse {α : Type} (zero : α) (e : Xpr) (r c : Nat) (mtx : List (Nat × Nat × α)) :
    Res (List (Nat × Nat × α)) :=
  if e.rows = r ∧ e.cols = c then
    forLoop (fun k (acc : List (Nat × Nat × α)) => do
      let t ← Res.ofOptionUB acc[k]?
      let x ← e.coeff t.1 t.2.1
      return (if !x then acc.set k (t.1, t.2.1, zero) else acc)) 0 mtx.length mtx
  else .throws

/-! ### Text output -/

/-- What a stream with its default flags writes for a `bool`. -/
def bitChar (b : Bool) : Char := if b then '1' else '0'

/-- binary_matrix.h:541, 545 : `for j: out << tmp(i, j)`.  The stream is the list of the characters
written so far. -/
def BMat.printRow (m : BMat) (i : Int) (out : List Char) : Res (List Char) :=
  forLoop (fun j (out : List Char) => do
    let b ← m.read i j
    return out ++ [bitChar b]) 0 m.cols out

/-- binary_matrix.h:536-547 : `operator<<`.  The argument is evaluated into a temporary matrix (538-539),
all rows but the last are written with a line feed (540-543), the last one without (545). -/
def Xpr.print (e : Xpr) (out : List Char) : Res (List Char) := do
  let tmp ← BMat.ofXpr e
  let out ← forLoop (fun i (out : List Char) => do
    let out ← tmp.printRow i out
    return out ++ ['\n']) 0 (tmp.rows - 1) out
  tmp.printRow ((tmp.rows : Int) - 1) out

/-! ### Comparison -/

/-- binary_matrix.h:632 : loop of `operator==` over the first `n` packs, starting at `i`. -/
def eqLoop (a b : Xpr) : Nat → Nat → Bool → Res Bool
  | _, 0, res => .ok res
  | i, n + 1, res =>
    if res then do
      let x ← a.bitpack i
      let y ← b.bitpack i
      eqLoop a b (i + 1) n (res && (x == y))
    else .ok res

/-- binary_matrix.h:622-637 : `operator==` (the sizes must agree, else it throws). -/
def Xpr.eq (a b : Xpr) : Res Bool :=
  if a.rows = b.rows ∧ a.cols = b.cols then do
    let n := a.bitpacks - 1
    let res ← eqLoop a b 0 n true
    let mask ← shr (~~~ 0#64) (64 - ((a.size : Int) - 64 * n))
    let x ← a.bitpack n
    let y ← b.bitpack n
    return res && ((mask &&& x) == (mask &&& y))
  else .throws

/-- binary_matrix.h:649 : loop of `operator!=`. -/
def neLoop (a b : Xpr) : Nat → Nat → Bool → Res Bool
  | _, 0, res => .ok res
  | i, n + 1, res =>
    if !res then do
      let x ← a.bitpack i
      let y ← b.bitpack i
      neLoop a b (i + 1) n (res || (x != y))
    else .ok res

/-- binary_matrix.h:639-654 : `operator!=`. -/
def Xpr.ne (a b : Xpr) : Res Bool :=
  if a.rows = b.rows ∧ a.cols = b.cols then do
    let n := a.bitpacks - 1
    let res ← neLoop a b 0 n false
    let mask ← shr (~~~ 0#64) (64 - ((a.size : Int) - 64 * n))
    let x ← a.bitpack n
    let y ← b.bitpack n
    return res || ((mask &&& x) != (mask &&& y))
  else .throws

end Fdapde.BinMtx
