import Verif.Common.Loop
import Mathlib.Data.List.Basic
/-
Model of fdaPDE/utils/data_structures/block_vector.h and block_frame.h.
Out-of-range accesses to Eigen matrices are undefined (Eigen asserts are not exceptions).
-/
namespace Fdapde.Blocks

/-! ### BlockVector -/

/-- block_vector.h:24-29 : `n` blocks of size `m` stored contiguously. -/
structure BVec (V : Type) where
  n : Nat
  m : Nat
  data : List V

/-- block_vector.h:31 -/
def BVec.zero {V : Type} (z : V) (n m : Nat) : BVec V := ⟨n, m, List.replicate (n * m) z⟩

/-- Eigen `data_.block(start, 0, len, 1)` read as a vector. -/
def seg {V : Type} (data : List V) (start len : Nat) : Res (List V) :=
  if start + len ≤ data.length then .ok ((data.drop start).take len) else .ub

/-- Assignment `data_.block(start, 0, len, 1) = x` (the sizes must agree). -/
def segSet {V : Type} (data : List V) (start len : Nat) (x : List V) : Res (List V) :=
  if start + len ≤ data.length ∧ x.length = len then .ok (data.take start ++ x ++ data.drop (start + len)) else .ub

/-- block_vector.h:32 -/
def BVec.at {V : Type} (v : BVec V) (i : Nat) : Res (List V) := seg v.data (i * v.m) v.m
/-- block_vector.h:33-35 : `operator()(i, j)`, `j` blocks from block `i`. -/
def BVec.range {V : Type} (v : BVec V) (i j : Nat) : Res (List V) := seg v.data (i * v.m) (j * v.m)
/-- block_vector.h:37 -/
def BVec.head {V : Type} (v : BVec V) (i : Nat) : Res (List V) := seg v.data 0 (i * v.m)
/-- block_vector.h:38 : unsigned `n_ - i` wraps for `i > n_`, which is out of range. -/
def BVec.tail {V : Type} (v : BVec V) (i : Nat) : Res (List V) :=
  if i ≤ v.n then seg v.data ((v.n - i) * v.m) (i * v.m) else .ub
/-- `v(i) = x` -/
def BVec.setAt {V : Type} (v : BVec V) (i : Nat) (x : List V) : Res (BVec V) :=
  (fun d => { v with data := d }) <$> segSet v.data (i * v.m) v.m x
/-- `v(i, j) = x` -/
def BVec.setRange {V : Type} (v : BVec V) (i j : Nat) (x : List V) : Res (BVec V) :=
  (fun d => { v with data := d }) <$> segSet v.data (i * v.m) (j * v.m) x

/-! ### BlockFrame -/

/-- A dense matrix stored by rows. -/
structure Block (V : Type) where
  cols : Nat
  data : List (List V)
  deriving DecidableEq

def Block.rows {V : Type} (b : Block V) : Nat := b.data.length

/-- block_frame.h:41-50.  `data T k` is the entry of key `k` in the map of type number `T`. -/
structure Frame (V : Type) where
  data : Nat → String → Option (Block V)
  columns : List String
  rows : Nat
  dirty : List Bool

variable {V : Type}

/-- block_frame.h:53 -/
def Frame.empty : Frame V := ⟨fun _ _ => none, [], 0, []⟩

/-- block_frame.h:54 : `BlockFrame(rows)`, a frame without blocks whose number of rows is given (a negative number is not modelled). -/
def Frame.ofRows (n : Nat) : Frame V := ⟨fun _ _ => none, [], n, []⟩

/-- block_frame.h:70-72 -/
def Frame.hasBlock (f : Frame V) (k : String) : Bool := f.columns.contains k

/-- block_frame.h:84-100 : `insert<T>(key, data, dirty_bit)`. -/
def Frame.insert (f : Frame V) (T : Nat) (k : String) (b : Block V) (d : Bool) : Res (Frame V) :=
  if f.rows = 0 ∨ b.rows = f.rows then
    let data := fun t x => if t = T ∧ x = k then some b else f.data t x
    let rows := if f.rows = 0 then b.rows else f.rows
    if !f.hasBlock k then
      .ok ⟨data, f.columns ++ [k], rows, f.dirty ++ [d]⟩
    else if f.columns.idxOf k < f.dirty.length then
      .ok ⟨data, f.columns, rows, f.dirty.set (f.columns.idxOf k) d⟩
    else .ub
  else .throws

/-- block_frame.h:101-113 : columns of the block one after the other. -/
def stacked (b : Block V) : Block V :=
  ⟨1, (List.range b.cols).flatMap fun i => b.data.map fun r => (r[i]?).toList⟩

/-- block_frame.h:101-114 : `stack<T>(key, data)`. -/
def Frame.stack (f : Frame V) (T : Nat) (k : String) (b : Block V) : Res (Frame V) :=
  f.insert T k (stacked b) true

/-- block_frame.h:118-130 : `get<T>(key)`; `at` throws if the key is not in the map of that type. -/
def Frame.get (f : Frame V) (T : Nat) (k : String) : Res (Block V) :=
  if !f.hasBlock k then .throws else
    match f.data T k with
    | none => .throws
    | some b => .ok b

/-- block_frame.h:192-199 : `remove<T>(key)`; erasing the end iterator is undefined.  The iterator used
at 197 was invalidated at 196; the model takes the position it had. -/
def Frame.remove (f : Frame V) (T : Nat) (k : String) : Res (Frame V) :=
  let data := fun t x => if t = T ∧ x = k then none else f.data t x
  if f.hasBlock k then
    .ok ⟨data, f.columns.eraseIdx (f.columns.idxOf k), f.rows, f.dirty.eraseIdx (f.columns.idxOf k)⟩
  else .ub

/-- block_frame.h:74-77 -/
def Frame.clearDirty (f : Frame V) (k : String) : Res (Frame V) :=
  if !f.hasBlock k then .ok f
  else if f.columns.idxOf k < f.dirty.length then .ok { f with dirty := f.dirty.set (f.columns.idxOf k) false }
  else .ub

/-- block_frame.h:79-82 -/
def Frame.isDirty (f : Frame V) (k : String) : Res Bool :=
  if !f.hasBlock k then .ok false else Res.ofOptionUB f.dirty[f.columns.idxOf k]?

/-- block_frame.h:64-66 : body of the loop. -/
def Frame.dirtyStep (f : Frame V) (acc : List String) (i : Nat) : Res (List String) :=
  match f.dirty[i]? with
  | some true => (fun c => acc ++ [c]) <$> Res.ofOptionUB f.columns[i]?
  | _ => .ok acc

/-- block_frame.h:61-68 : names of the modified columns. -/
def Frame.dirtyCols (f : Frame V) : Res (List String) :=
  foldRes f.dirtyStep [] (List.range f.dirty.length)

/-- block_frame.h:163-170 : `col<T>(key, idx)`, after `fdapde_assert(block.cols() < idx)`. -/
def Frame.col (f : Frame V) (T : Nat) (k : String) (idx : Nat) : Res (List V) := do
  let b ← f.get T k
  if b.cols < idx then
    (if idx < b.cols then .ok (b.data.flatMap fun r => (r[idx]?).toList) else .ub)
  else .throws

/-- Operations of a history. -/
inductive Op (V : Type) where
  | insert (T : Nat) (k : String) (b : Block V) (d : Bool)
  | remove (T : Nat) (k : String)
  | clear (k : String)

def Frame.step (f : Frame V) : Op V → Res (Frame V)
  | .insert T k b d => f.insert T k b d
  | .remove T k => f.remove T k
  | .clear k => f.clearDirty k

def run (h : List (Op V)) : Res (Frame V) := foldRes Frame.step Frame.empty h

/-- A history of a frame constructed with a number of rows. -/
def runRows (n : Nat) (h : List (Op V)) : Res (Frame V) := foldRes Frame.step (Frame.ofRows n) h

/-! ### extract_unique -/

/-- State of the loop: `uniques` (a set), `row_map`, next index. -/
structure USt (R : Type) where
  uniques : List R
  rowMap : R → Option Nat
  i : Nat

/-- block_frame.h:139-145 : one row. -/
def uniqueStep {R : Type} [DecidableEq R] (s : USt R) (r : R) : USt R :=
  if s.uniques.contains r then s
  else ⟨r :: s.uniques, fun x => if x = r then some s.i else s.rowMap x, s.i + 1⟩

/-- block_frame.h:147-148 : `result.row(row_map.at(r)) = r` for the elements of the set in the order
`order`; rows not written stay undefined (`none`). -/
def uniqueWrite {R : Type} (rowMap : R → Option Nat) (acc : List (Option R)) (r : R) : Res (List (Option R)) :=
  match rowMap r with
  | none => .throws
  | some j => if j < acc.length then .ok (acc.set j (some r)) else .ub

/-- block_frame.h:146-148 : allocation of the result and the copy loop. -/
def uniqueFill {R : Type} (rowMap : R → Option Nat) (size : Nat) (order : List R) : Res (List (Option R)) :=
  foldRes (uniqueWrite rowMap) (List.replicate size none) order

/-- block_frame.h:131-150 : unique rows of a block.  `order` lists the elements of `uniques` in the
unspecified order of the unordered set. -/
def uniqueRows {R : Type} [DecidableEq R] (rows : List R) (order : List R → List R) : Res (List (Option R)) :=
  let s := rows.foldl uniqueStep ⟨[], fun _ => none, 0⟩
  uniqueFill s.rowMap s.uniques.length (order s.uniques)

/-! ### Views -/

/-- The three kinds of view with their stored indexes, block_frame.h:224-232. -/
inductive View where
  | row (i : Int)
  | range (b e : Int)
  | sparse (idx : List Int)

/-- A row of a matrix, undefined out of range. -/
def rowAt (b : Block V) (i : Int) : Res (List V) :=
  if i < 0 then .ub else Res.ofOptionUB b.data[i.toNat]?

/-- Copy of the rows with the given indexes, block_frame.h:249-256. -/
def rowsAt (b : Block V) (idx : List Int) : Res (List (List V)) :=
  foldRes (fun acc i => (fun r => acc ++ [r]) <$> rowAt b i) [] idx

/-- block_frame.h:234-259 : `BlockView::get<T>(key)`. -/
def View.get (f : Frame V) (v : View) (T : Nat) (k : String) : Res (Block V) :=
  if !f.hasBlock k then .throws else
    match f.data T k with
    | none => .throws
    | some b =>
      match v with
      | .row i => (fun r => ⟨b.cols, [r]⟩) <$> rowAt b i
      | .range s e =>
        if 0 ≤ s ∧ 0 ≤ e - s + 1 ∧ s + (e - s + 1) ≤ b.rows then
          .ok ⟨b.cols, (b.data.drop s.toNat).take (e - s + 1).toNat⟩
        else .ub
      | .sparse idx => (fun d => ⟨b.cols, d⟩) <$> rowsAt b idx

/-- block_frame.h:173 : `tail(begin)`. -/
def Frame.tailView (f : Frame V) (b : Int) : View := .range b ((f.rows : Int) - 1)
/-- block_frame.h:175 : `head(end)`. -/
def Frame.headView (_f : Frame V) (e : Int) : View := .range 0 e

/-- block_frame.h:213-220, 291-299 : `extract()`; `keys` are the stored (type, key) pairs in the order of
the types and of the unordered maps. -/
def View.extract (f : Frame V) (v : View) (keys : List (Nat × String)) : Res (Frame V) :=
  foldRes (fun g (p : Nat × String) => do
    let b ← v.get f p.1 p.2
    g.insert p.1 p.2 b true) Frame.empty keys

/-- block_frame.h:178-189 : `shuffle(seed)`.  `shuf` stands for `std::shuffle` with the generator: it
is applied to the indexes `0, ..., rows_ - 1`, and any rearrangement is a possible result. -/
def Frame.shuffle (f : Frame V) (shuf : List Int → List Int) (keys : List (Nat × String)) : Res (Frame V) :=
  (View.sparse (shuf ((List.range f.rows).map fun (i : Nat) => (i : Int)))).extract f keys

/-- Number of rows of a view, block_frame.h:271-273. -/
def View.nRows : View → Int
  | .row _ => 1
  | .range b e => e - b + 1
  | .sparse idx => idx.length

/-- `result.middleCols(i, col) = b` on a matrix whose coefficients may not be assigned yet; the sizes must agree. -/
def setMiddleCols (m : List (List (Option V))) (i col : Nat) (b : Block V) : Res (List (List (Option V))) :=
  if b.cols = col ∧ b.rows = m.length ∧ (∀ r ∈ m, i + col ≤ r.length) then
    .ok (List.zipWith (fun r n => r.take i ++ n.map some ++ r.drop (i + col)) m b.data)
  else .ub

/-- block_frame.h:275 : sum of the numbers of columns. -/
def View.multiCols (f : Frame V) (T : Nat) (keys : List String) : Res Nat :=
  foldRes (fun c k => (fun b => c + b.cols) <$> f.get T k) 0 keys

/-- block_frame.h:281-283 : the copy of one block, with the running column. -/
def View.multiStep (f : Frame V) (v : View) (T : Nat) (s : List (List (Option V)) × Nat) (k : String) :
    Res (List (List (Option V)) × Nat) := do
  let col ← f.get T k
  let b ← v.get f T k
  let m ← setMiddleCols s.1 s.2 col.cols b
  .ok (m, s.2 + col.cols)

/-- block_frame.h:264-288 : `BlockView::get<T>(keys...)`; a negative number of rows is undefined. -/
def View.getMulti (f : Frame V) (v : View) (T : Nat) (keys : List String) : Res (Nat × List (List (Option V))) := do
  let cols ← View.multiCols f T keys
  if v.nRows < 0 then .ub
  else do
    let s ← foldRes (v.multiStep f T) (List.replicate v.nRows.toNat (List.replicate cols none), 0) keys
    .ok (cols, s.1)

end Fdapde.Blocks
