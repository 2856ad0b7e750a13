import Mathlib.Algebra.Group.Defs
import Verif.Common.Res
import Verif.Common.Loop

/-!
# CSV files

Model of `fdaPDE/utils/IO/csv_reader.h`.  Strings are lists of characters; the file system is left out, a file is its content and a
file that cannot be opened is an empty one.  Conversion of a string to a number by `istringstream >> x` is a parameter `num`:
`none` means that only white space was left, in which case the stream fails before `x` is written and `x` keeps its value;
otherwise it gives the value written (0 if the characters do not form a number).
-/

namespace Fdapde.IO

/-- `std::string::find(sep)`: position of the first occurrence, `none` for `npos`. -/
def find (sep : List Char) : List Char → Option Nat
  | [] => if sep.isPrefixOf [] then some 0 else none
  | c :: s => if sep.isPrefixOf (c :: s) then some 0 else (find sep s).map (· + 1)

/-- The loop of `split_string` (csv_reader.h 46-51): `push_back(s.substr(0, j)); s.erase(0, j + sep.length())` until `find` gives
`npos`.  The first argument bounds the number of turns, `none` if it is not over. -/
def splitLoop (sep : List Char) : Nat → List Char → Option (List (List Char))
  | 0, _ => none
  | k + 1, s =>
    match find sep s with
    | none => some [s]
    | some j => (splitLoop sep k (s.drop (j + sep.length))).map (s.take j :: ·)

/-- `split_string(s, ",")`; the loop takes at most one turn more than there are characters. -/
def splitComma (s : List Char) : List (List Char) := (splitLoop [','] (s.length + 1) s).getD []

/-- `remove_char(s, filter_)` (csv_reader.h 55-63). -/
def removeChars (cs s : List Char) : List Char := s.foldl (fun r c => if c ∈ cs then r else r ++ [c]) []

/-- The member `filter_` (csv_reader.h 39). -/
def filter : List Char := [' ', '"']

/-- The keys of `reserved_tokens_` (csv_reader.h 34-38). -/
def reserved : List (List Char) := ["NA".toList, "NaN".toList, "nan".toList]

/-- `getline(stream, line)`: the line and the rest of the stream; `none` when nothing can be read. -/
def getline : List Char → Option (List Char × List Char)
  | [] => none
  | s => some (s.takeWhile (· ≠ '\n'), (s.dropWhile (· ≠ '\n')).drop 1)

/-- `while (getline(stream, line))`: the lines read; the first argument bounds the number of turns. -/
def readLines : Nat → List Char → List (List Char)
  | 0, _ => []
  | k + 1, s =>
    match getline s with
    | none => []
    | some (l, r) => l :: readLines k r

variable {K : Type}

/-- The value a token gives to a variable holding `old`: csv_reader.h 102-108, 145-152. -/
def token (nan : K) (num : List Char → Option K) (t : List Char) (old : Option K) : Option K :=
  let t := removeChars filter t
  if t ∈ reserved then some nan
  else match num t with
    | some v => some v
    | none => old

/-- Assignment `m(i, j) = v` in a `rows × cols` matrix; out of range is undefined behaviour. -/
def setCell (m : List (List (Option K))) (i j : Nat) (v : Option K) : Res (List (List (Option K))) :=
  match m[i]? with
  | none => .ub
  | some r => if j < r.length then .ok (m.set i (r.set j v)) else .ub

/-- The value of cell `(i, j)`, `none` if it was never written. -/
def getCell (m : List (List (Option K))) (i j : Nat) : Option K := ((m[i]?).bind (·[j]?)).join

/-- The parsed matrix: its size and its cells. -/
structure Parsed (K : Type) where
  rows : Nat
  cols : Nat
  cells : List (List (Option K))
  deriving DecidableEq

/-- One data line of the dense parser (csv_reader.h 97-110): line number and line. -/
def denseLine (nan : K) (num : List Char → Option K) (m : List (List (Option K))) (p : Nat × List Char) :
    Res (List (List (Option K))) :=
  foldRes (fun m col => setCell m p.1 (col - 1) (token nan num ((splitComma p.2).getD col []) (getCell m p.1 (col - 1))))
    m ((List.range ((splitComma p.2).length - 1)).map (· + 1))

/-- `parse_file<Eigen::Dense>` (csv_reader.h 75-117). -/
def parseDense (nan : K) (num : List Char → Option K) (text : List Char) : Res (Parsed K) :=
  let first := (getline text).getD ([], [])
  let cols := (splitComma first.1).length - 1
  let lines := readLines (text.length + 1) first.2
  let rows := lines.length
  (fun m => ⟨rows, cols, m⟩) <$> foldRes (denseLine nan num) (List.replicate rows (List.replicate cols none)) ((List.range rows).zip lines)

/-- State of the loop of the sparse parser: `row`, `col`, `n_row`, `n_col`, `val`, `triplet_list` (csv_reader.h 132-135). -/
structure SpSt (K : Type) where
  row : Int
  col : Int
  nRow : Int
  nCol : Int
  val : K
  trip : List (Int × Int × K)

/-- One line of the sparse parser (csv_reader.h 137-155); fewer than four fields are undefined behaviour. -/
def spLine (nan : K) (num : List Char → Option K) (int : List Char → Option Int) (s : SpSt K) (line : List Char) : Res (SpSt K) :=
  match splitComma line with
  | _ :: t1 :: t2 :: t3 :: _ =>
    let row := (int (removeChars filter t1)).getD s.row
    let nRow := if s.nRow < row then row else s.nRow
    let col := (int (removeChars filter t2)).getD s.col
    let nCol := if s.nCol < col then col else s.nCol
    let val := (token nan num t3 (some s.val)).getD s.val
    .ok ⟨row, col, nRow, nCol, val, s.trip ++ [(row - 1, col - 1, val)]⟩
  | _ => .ub

/-- The matrix built by `setFromTriplets`: values at equal positions are added. -/
def spEntry [Zero K] [Add K] (l : List (Int × Int × K)) (i j : Nat) : K :=
  l.foldl (fun v t => if t.1 = (i : Int) ∧ t.2.1 = (j : Int) then v + t.2.2 else v) 0

/-- `parse_file<Eigen::Sparse>` (csv_reader.h 120-166): number of rows and columns and the entries.  A triplet outside of the
matrix is undefined behaviour of `setFromTriplets`. -/
def parseSparse [Zero K] [Add K] (nan : K) (num : List Char → Option K) (int : List Char → Option Int) (text : List Char) :
    Res (Int × Int × (Nat → Nat → K)) :=
  let first := (getline text).getD ([], [])
  if (splitComma first.1).length - 1 ≠ 3 then .throws
  else do
    let s ← foldRes (spLine nan num int) ⟨0, 0, 0, 0, 0, []⟩ (readLines (text.length + 1) first.2)
    if s.trip.all fun t => 0 ≤ t.1 ∧ t.1 < s.nRow ∧ 0 ≤ t.2.1 ∧ t.2.1 < s.nCol then
      .ok (s.nRow, s.nCol, spEntry s.trip)
    else .ub

end Fdapde.IO
