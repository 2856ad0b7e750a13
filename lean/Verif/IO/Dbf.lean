import Verif.IO.Binary

/-!
# The dBase reader

Model of `dbf_reader` (`fdaPDE/utils/IO/shp_reader.h` 260-352).  The file is the list of its bytes; a file which cannot be opened is not
modelled.
-/

namespace Fdapde.IO

/-- `field_descriptor` (shp_reader.h:264-271). -/
structure FieldDesc where
  name : List Byte
  type : Byte
  length : Int
deriving DecidableEq, Repr

/-- `std::unordered_map<std::string, std::vector<std::string>>` (shp_reader.h:276), as a list of keys with their values. -/
abbrev Columns := List (List Byte × List (List Byte))

/-- `data_[name].push_back(v)` (shp_reader.h:324): a missing key is inserted with an empty vector. -/
def push (d : Columns) (name v : List Byte) : Columns :=
  match d with
  | [] => [(name, [v])]
  | (n, vs) :: d => if n = name then (n, vs ++ [v]) :: d else (n, vs) :: push d name v

/-- `read<char>`. -/
def readByte : Rd Byte := do
  let v ← readLittle 1
  return UInt8.ofNat v

/-- One field descriptor (shp_reader.h:300-309). -/
def readField : Rd FieldDesc := do
  let name ← many readByte 11
  let type ← readByte
  skip 4
  let length ← readI8
  skip 15
  return ⟨name.takeWhile (· ≠ 0), type, length⟩

/-- One field of one record (shp_reader.h:321-323): `reserve` of a negative length (converted to a huge `size_t`) throws
`std::length_error`. -/
def readCell (f : FieldDesc) : Rd (List Byte) := if f.length < 0 then Rd.throw else many readByte f.length.toNat

/-- The fields of one record (shp_reader.h:320-325). -/
def readCells : List FieldDesc → Columns → Rd Columns
  | [], d => pure d
  | f :: fs, d => do
    let v ← readCell f
    readCells fs (push d f.name v)

/-- The records (shp_reader.h:318-326). -/
def readRows (fields : List FieldDesc) : Nat → Columns → Rd Columns
  | 0, d => pure d
  | n + 1, d => do
    skip 1
    let d ← readCells fields d
    readRows fields n d

/-- What the reader holds. -/
structure Dbf where
  fields : List FieldDesc
  data : Columns
deriving DecidableEq, Repr

/-- The first 32 bytes (shp_reader.h:287-291): number of records, lengths of the header and of a record. -/
def readDbfHeader : Rd (Int × Int × Int) := do
  skip 4
  let n ← readI32
  let h ← readI16
  let r ← readI16
  return (n, h, r)

/-- The rest of the file (shp_reader.h:299-326).  With a bad terminator the constructor returns early. -/
def readDbfBody (nFields nRecords : Int) : Rd Dbf := do
  let fields ← many readField nFields.toNat
  let t ← readI8
  if t ≠ 0x0D then return ⟨fields, []⟩
  else
    let d ← readRows fields nRecords.toNat []
    return ⟨fields, d⟩

/-- The constructor `dbf_reader(file_name)` (shp_reader.h:280-332).  The size of the second buffer is computed in `int`; an overflow is
undefined behaviour, a negative size throws. -/
def dbfReader (file : List Byte) : Res Dbf :=
  match readDbfHeader (file.take 32) 0 with
  | .throws => .throws
  | .ub => .ub
  | .ok ((nRecords, headerLength, recordLength), _) =>
    let nFields := (headerLength - 32 - 1).tdiv 32
    let size := nFields * 32 + 1 + recordLength * nRecords
    if ¬ (-2 ^ 31 ≤ recordLength * nRecords ∧ recordLength * nRecords < 2 ^ 31 ∧ -2 ^ 31 ≤ size ∧ size < 2 ^ 31) then .ub
    else if size < 0 then .throws
    else Prod.fst <$> readDbfBody nFields nRecords ((file.drop 32).take size.toNat) 0

/-- `data_.at(colname)` behind the assertion `data_.count(colname) == 1` (shp_reader.h:334). -/
def Dbf.column (f : Dbf) (name : List Byte) : Res (List (List Byte)) :=
  match f.data.lookup name with
  | some l => .ok l
  | none => .throws

/-- `get_as<T>` for a numeric type (shp_reader.h:338-344): `val` is declared outside of the loop and left unchanged when the conversion
fails. -/
def convert {T : Type} (num : List Byte → Option T) (val : T) : List (List Byte) → List T
  | [] => []
  | v :: vs =>
    let val := (num v).getD val
    val :: convert num val vs

def Dbf.getAs {T : Type} (num : List Byte → Option T) (zero : T) (f : Dbf) (name : List Byte) : Res (List T) :=
  (fun l => convert num zero l) <$> f.column name

/-- The value of the digits at the front of a text. -/
def digitsValue (acc : Int) : List Byte → Int
  | [] => acc
  | b :: bs => if 48 ≤ b.toNat ∧ b.toNat ≤ 57 then digitsValue (10 * acc + (b.toNat - 48 : Nat)) bs else acc

/-- `std::from_chars` for `int`: an optional minus sign, then at least one digit; leading blanks are not skipped; nothing is stored if the
text does not start with a number or the number does not fit. -/
def fromCharsInt (s : List Byte) : Option Int :=
  let (neg, t) : Bool × List Byte := match s with
    | 45 :: t => (true, t)
    | t => (false, t)
  match t with
  | [] => none
  | b :: _ =>
    if 48 ≤ b.toNat ∧ b.toNat ≤ 57 then
      let v := if neg then -digitsValue 0 t else digitsValue 0 t
      if -2 ^ 31 ≤ v ∧ v < 2 ^ 31 then some v else none
    else none

/-- `field_descriptors()` (shp_reader.h:347-351). -/
def Dbf.descriptors (f : Dbf) : List (List Byte × Byte) := f.fields.map fun d => (d.name, d.type)

end Fdapde.IO
