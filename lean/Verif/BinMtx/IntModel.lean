import Verif.BinMtx.Model
/-
binary_matrix.h with the `int` of the machine: 32 bits, overflow is undefined behaviour.  The functions are those of Model.lean with a
check after each operation on indices and sizes.  `PackSize` is an `int` (37, 506), so that no operation is done in a wider type, but for
the number of packs, which `std::ceil` makes a `double` (exact, and again an `int` by conversion).  The values are never negative, hence
`Nat`; the indices given to `set`, `clear` and `operator()` of a matrix are `Int`.
-/
namespace Fdapde.BinMtx

/-- An `int` result which is not negative. -/
def chk (x : Nat) : Res Nat := if x < 2 ^ 31 then .ok x else .ub

/-- An `int` result. -/
def i32 (x : Int) : Res Int := if -2 ^ 31 ≤ x ∧ x < 2 ^ 31 then .ok x else .ub

/-- binary_matrix.h:56-58, 141-148, 510 : constructor with sizes / `resize`. -/
def BMat.zeroI (r c : Nat) : Res BMat := do
  let s ← chk (r * c)
  return ⟨r, c, packs s, List.replicate (packs s) 0#64⟩

/-- binary_matrix.h:159, 170, 178, 221 : `i * n_cols_ + j`, computed twice by the code. -/
def posI (cols : Nat) (i j : Int) : Res Int := do
  let p ← i32 (i * cols)
  i32 (p + j)

/-- binary_matrix.h:158-160 : `operator()(i,j)`. -/
def BMat.readI (m : BMat) (i j : Int) : Res Bool := do
  let p ← posI m.cols i j
  let w ← getWord m.data (p.tdiv 64)
  let b ← shl 1#64 (p.tmod 64)
  return (w &&& b) != 0#64

/-- binary_matrix.h:168-171 : `set(i,j)`. -/
def BMat.setI (m : BMat) (i j : Int) : Res BMat :=
  if i < m.rows ∧ j < m.cols then do
    let p ← posI m.cols i j
    let w ← getWord m.data (p.tdiv 64)
    let b ← shl 1#64 (p.tmod 64)
    return { m with data := m.data.set (p.tdiv 64).toNat (w ||| b) }
  else .throws

/-- binary_matrix.h:176-179 : `clear(i,j)`. -/
def BMat.clearI (m : BMat) (i j : Int) : Res BMat :=
  if i < m.rows ∧ j < m.cols then do
    let p ← posI m.cols i j
    let w ← getWord m.data (p.tdiv 64)
    let b ← shl 1#64 (p.tmod 64)
    return { m with data := m.data.set (p.tdiv 64).toNat (w &&& ~~~b) }
  else .throws

/-- What the constructors of the nodes compute: 510 (the product of the sizes, for every node), 306-308 (blocks), 452 (repeat), 485 (reshape). -/
def Xpr.buildI : Xpr → Res Unit
  | .mat _ => .ok ()
  | .not e => do
    e.buildI
    let _ ← chk (e.rows * e.cols)
    return ()
  | .bin _ a b => do
    a.buildI
    b.buildI
    let _ ← chk (a.rows * a.cols)
    if a.rows = b.rows ∧ a.cols = b.cols then .ok () else .throws
  | .block e r0 c0 h w => do
    e.buildI
    let _ ← chk (h * w)
    let x ← chk (r0 + h)
    if x ≤ e.rows then
      let y ← chk (c0 + w)
      if y ≤ e.cols then .ok () else .throws
    else .throws
  | .rep e a b => do
    e.buildI
    let r ← chk (e.rows * a)
    let c ← chk (e.cols * b)
    let _ ← chk (r * c)
    return ()
  | .resh e r c => do
    e.buildI
    let x ← chk (r * c)
    let y ← chk (e.rows * e.cols)
    if x = y then .ok () else .throws

/-- Coefficient access: lines 158-160, 238, 257, 311-314, 454-457, 487-490. -/
def Xpr.coeffI : Xpr → Nat → Nat → Res Bool
  | .mat m, i, j => m.readI i j
  | .not e, i, j => (fun b => !b) <$> e.coeffI i j
  | .bin op a b, i, j => do
    let x ← a.coeffI i j
    let y ← b.coeffI i j
    return op.onBool x y
  | .block e r0 c0 h w, i, j =>
    if i < h ∧ j < w then do
      let i' ← chk (i + r0)
      let j' ← chk (j + c0)
      e.coeffI i' j'
    else .throws
  | .rep e a b, i, j =>
    if i < e.rows * a ∧ j < e.cols * b then
      (if e.rows = 0 ∨ e.cols = 0 then .ub else e.coeffI (i % e.rows) (j % e.cols))
    else .throws
  | .resh e r c, i, j =>
    if i < r ∧ j < c then do
      let p ← chk (i * c)
      let q ← chk (p + j)
      if e.cols = 0 then .ub else e.coeffI (q / e.cols) (q % e.cols)
    else .throws

/-- The pack assembling loops, lines 334-336 and 460-464, from `j` on with `n` iterations left until `j` is `PackSize`:
`j < PackSize && i * PackSize + j < size()`. -/
def assembleI (start size : Nat) (bit : Nat → Res Bool) : Nat → Nat → Word → Res Word
  | 0, _, out => .ok out
  | n + 1, j, out => do
    let p ← chk (start + j)
    if p < size then do
      let b ← bit j
      let s ← shl (if b then 1#64 else 0#64) j
      assembleI start size bit n (j + 1) (out ||| s)
    else .ok out

/-- Pack access `bitpack(k)` : lines 165, 239, 258, 327-338, 458-466, 491. -/
def Xpr.bitpackI : Xpr → Nat → Res Word
  | .mat m, k => getWord m.data k
  | .not e, k => (fun w => ~~~w) <$> e.bitpackI k
  | .bin op a b, k => do
    let x ← a.bitpackI k
    let y ← b.bitpackI k
    return op.onWord x y
  | .block e r0 c0 h w, k => do
    if w = 0 then .ub
    else
      let s ← chk (k * 64)
      let col ← chk (c0 + (if k = 0 then 0 else s % w))
      let row ← chk (r0 + rowOff k w)
      let size ← chk (h * w)
      assembleI s size (fun j => do
        let a ← chk (row + j / w)
        let b ← chk (col + j % w)
        e.coeffI a b) 64 0 0#64
  | .rep e a b, k => do
    let s ← chk (k * 64)
    let size ← chk (e.rows * a * (e.cols * b))
    assembleI s size (fun j =>
      if e.rows = 0 ∨ e.cols = 0 then .ub
      else e.coeffI (((s + j) / (e.cols * b)) % e.rows) ((s + j) % e.cols)) 64 0 0#64
  | .resh e _ _, k => e.bitpackI k

/-- Reads packs `a, a+1, ..., a+n-1`. -/
def Xpr.readPacksI (e : Xpr) : Nat → Nat → Res (List Word)
  | _, 0 => .ok []
  | a, n + 1 => do
    let w ← e.bitpackI a
    let ws ← Xpr.readPacksI e (a + 1) n
    return w :: ws

/-- binary_matrix.h:64-80 and 185-202 : construction / assignment of a matrix from an expression. -/
def BMat.ofXprI (e : Xpr) : Res BMat := do
  e.buildI
  let ws ← e.readPacksI 0 e.bitpacks
  return ⟨e.rows, e.cols, e.bitpacks, ws⟩

/-- binary_matrix.h:373-377 : the condition of the loop is `i + PackSize - 1 < size`, from left to right. -/
def visitFullI (v : PackVisitor) (e : Xpr) (size : Nat) (k i : Nat) (res : Bool) : Res (Bool × Nat × Nat × Bool) :=
  match chk (i + 64) with
  | .throws => .throws
  | .ub => .ub
  | .ok p =>
    if p - 1 < size then
      if _h : i + 64 - 1 < size then do
        let b ← e.bitpackI k
        let res' := v.full b res
        if v.stop res' then return (true, k, i, res')
        else visitFullI v e size (k + 1) (i + 64) res'
      else .ub          -- never reached: p = i + 64
    else .ok (false, k, i, res)
termination_by size - i

/-- binary_matrix.h:365-380 : `linear_bitpack_visit::run`. -/
def visitPacksI (v : PackVisitor) (e : Xpr) (init : Bool) : Res Bool := do
  let size ← chk e.size
  if size = 0 then .ok init
  else if size < 64 then do
    let b ← e.bitpackI 0
    v.part b (64 - size) init
  else do
    let (stopped, k, i, res) ← visitFullI v e size 0 0 init
    if stopped then return res
    else if i < size then do
      let b ← e.bitpackI k
      v.part b (size - i) res
    else return res

/-- binary_matrix.h:577 : `all()`. -/
def Xpr.allI (e : Xpr) : Res Bool := visitPacksI allVisitor e true
/-- binary_matrix.h:578 : `any()`. -/
def Xpr.anyI (e : Xpr) : Res Bool := visitPacksI anyVisitor e false

/-- binary_matrix.h:391-406 : the condition of the branch is `i + PackSize < size`. -/
def countPacksI (e : Xpr) (size : Nat) : Nat → Nat → Nat → Nat → Res Nat
  | 0, _, _, res => .ok res
  | n + 1, k, i, res => do
    let b ← e.bitpackI k
    let p ← chk (i + 64)
    if p < size then countPacksI e size n (k + 1) p (countBits b 64 res)
    else countPacksI e size n (k + 1) (max i size) (countBits b (size - i) res)

/-- binary_matrix.h:388-408, 579 : `count()`. -/
def Xpr.countI (e : Xpr) : Res Nat := do
  let size ← chk e.size
  if size = 0 then .ok 0 else countPacksI e size e.bitpacks 0 0 0

/-- binary_matrix.h:524-532 : `which(b)`. -/
def Xpr.whichI (e : Xpr) (b : Bool) : Res (List Nat) :=
  forLoop (fun i acc => forLoop (fun j (acc : List Nat) => do
    let x ← e.coeffI i j
    if x == b then do
      let p ← chk (i * e.cols)
      let q ← chk (p + j)
      return acc ++ [q]
    else return acc) 0 e.cols acc) 0 e.rows []

end Fdapde.BinMtx
