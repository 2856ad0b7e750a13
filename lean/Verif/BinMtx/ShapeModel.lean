import Verif.BinMtx.Model
/-
Binary matrices with their compile-time shape: the parts of fdaPDE/linear_algebra/binary_matrix.h
whose behaviour depends on the template arguments `Rows`, `Cols` (`Dynamic` or a number).
-/
namespace Fdapde.BinMtx

/-- binary_matrix.h:32 : the template arguments `Rows`, `Cols`; `none` is `Dynamic`. -/
structure Shape where
  rows : Option Nat
  cols : Option Nat
  deriving Repr, DecidableEq

/-- binary_matrix.h:42-44 : `is_dynamic_sized`. -/
def Shape.dynamic (s : Shape) : Bool := s.rows.isNone || s.cols.isNone

/-- binary_matrix.h:283-291 : constructor `BinMtxBlock(xpr, i)` of a view of a row
(`BlockRows == 1`) or column (`BlockCols == 1`). -/
def lineView (oneRow oneCol : Bool) (e : Xpr) (i : Int) : Res Xpr :=
  if 0 ≤ i ∧ ((oneRow = true ∧ i < e.rows) ∨ (oneCol = true ∧ i < e.cols)) then
    .ok (.block e (if oneRow then i.toNat else 0) (if oneCol then i.toNat else 0)
      (if oneRow then 1 else e.rows) (if oneCol then 1 else e.cols))
  else .throws

/-- binary_matrix.h:553-556 : `row(i)` is a `BinMtxBlock<1, Cols>`. -/
def rowView (s : Shape) (e : Xpr) (i : Int) : Res Xpr := lineView true (s.cols == some 1) e i

/-- binary_matrix.h:557-560 : `col(j)` is a `BinMtxBlock<Rows, 1>`. -/
def colView (s : Shape) (e : Xpr) (j : Int) : Res Xpr := lineView (s.rows == some 1) true e j

/-- binary_matrix.h:293-309, 561-568 : `block(start_row, start_col, ...)`. -/
def blockView (e : Xpr) (r0 c0 : Int) (h w : Nat) : Res Xpr :=
  if 0 ≤ r0 ∧ r0 + h ≤ e.rows ∧ 0 ≤ c0 ∧ c0 + w ≤ e.cols then
    .ok (.block e r0.toNat c0.toNat h w)
  else .throws

/-- binary_matrix.h:570 -/
def topRows (e : Xpr) (n : Nat) : Res Xpr := blockView e 0 0 n e.cols
/-- binary_matrix.h:571 -/
def bottomRows (e : Xpr) (n : Nat) : Res Xpr := blockView e ((e.rows : Int) - n) 0 n e.cols
/-- binary_matrix.h:572 -/
def leftCols (e : Xpr) (n : Nat) : Res Xpr := blockView e 0 0 e.rows n
/-- binary_matrix.h:573 -/
def rightCols (e : Xpr) (n : Nat) : Res Xpr := blockView e 0 ((e.cols : Int) - n) e.rows n

/-- binary_matrix.h:315 : `m.block(r0, c0, h, w).set(i, j)`; the indices are not compared with the
sizes of the block. -/
def setInBlock (m : BMat) (r0 c0 : Int) (h w : Nat) (i j : Int) : Res BMat := do
  let _ ← blockView (.mat m) r0 c0 h w
  m.set (i + r0) (j + c0)

/-- binary_matrix.h:321 : `m.block(r0, c0, h, w).clear(i, j)`. -/
def clearInBlock (m : BMat) (r0 c0 : Int) (h w : Nat) (i j : Int) : Res BMat := do
  let _ ← blockView (.mat m) r0 c0 h w
  m.clear (i + r0) (j + c0)

/-- binary_matrix.h:139-148 : `resize(rows, cols)` (only if a size is dynamic). -/
def resize (s : Shape) (r c : Nat) : Res BMat :=
  if (s.rows = none ∨ (s.rows = some 1 ∧ r = 1)) ∧ (s.cols = none ∨ (s.cols = some 1 ∧ c = 1)) then
    .ok (BMat.zero r c)
  else .throws

/-- binary_matrix.h:87, 211 : `if constexpr (is_dynamic_sized) resize(n_rows_, n_cols_)`. -/
def renew (s : Shape) (r c : Nat) (m : BMat) : Res BMat := if s.dynamic then resize s r c else .ok m

/-- binary_matrix.h:205-216 : assignment of a dense Eigen matrix `f` of size `r × c` to the matrix
`m`; the storage is renewed only if a size is dynamic. -/
def assignDense (s : Shape) (m : BMat) (r c : Nat) (f : Nat → Nat → Bool) : Res BMat := do
  let m0 ← renew s r c { m with rows := r, cols := c }
  forLoop (fun i m => forLoop (fun j m => if f i j then BMat.set m i j else .ok m) 0 c m) 0 r m0

/-- binary_matrix.h:82-92 : construction from a dense Eigen matrix.  `junk` is what the storage
holds before: a `std::array` member without initialiser if both sizes are static, an empty vector
otherwise. -/
def constructDense (s : Shape) (junk : List Word) (r c : Nat) (f : Nat → Nat → Bool) : Res BMat := do
  let m0 ← renew s r c ⟨r, c, packs (r * c), junk⟩
  forLoop (fun i m => forLoop (fun j m => if f i j then BMat.set m i j else .ok m) 0 c m) 0 r m0

/-- binary_matrix.h:77-78, 199-200 : copy of the packs into the storage, which is resized first if
a size is dynamic; writing beyond the end of a `std::array` is undefined. -/
def overwrite (s : Shape) (d ws : List Word) : Res (List Word) :=
  if s.dynamic then .ok ws
  else if ws.length ≤ d.length then .ok (ws ++ d.drop ws.length) else .ub

/-- binary_matrix.h:185-202 (and 64-80) : assignment of an expression `e` of compile-time shape `t`
to the matrix `m` of compile-time shape `s`. -/
def assignXpr (s t : Shape) (m : BMat) (e : Xpr) : Res BMat := do
  let rows := if s.cols = some 1 ∧ (t.rows = some 1 ∨ t.cols = some 1) then
      (if t.rows = some 1 then e.cols else e.rows) else e.rows
  let cols := if s.cols = some 1 then 1 else e.cols
  let ws ← e.readPacks 0 e.bitpacks
  let data ← overwrite s m.data ws
  return ⟨rows, cols, e.bitpacks, data⟩

/-- binary_matrix.h:187-191 : the static assertion on the shapes in an assignment. -/
def assignable (s t : Shape) : Bool :=
  s.dynamic || (s == t) || (s.cols == some 1 && (t.rows == some 1 || t.cols == some 1))

end Fdapde.BinMtx
