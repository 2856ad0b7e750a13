import Mathlib.Data.Nat.Digits.Defs
import Verif.IO.BinarySpec
import Verif.IO.Dbf

/-! # The dBase format: specification -/

namespace Fdapde.IO

/-- A field: its name (at most 11 characters, none of them zero), type, length, and the bytes the format reserves for other uses. -/
structure Field where
  name : List Byte
  type : Byte
  length : Nat
  reserved : List Byte
  reserved' : List Byte

/-- A record: the deletion flag and one text per field. -/
structure Rec where
  flag : Byte
  cells : List (List Byte)

/-- 32 bytes per field: name padded with zeros, type, 4 reserved bytes, length, 15 reserved bytes (the decimal count among them). -/
def encField (f : Field) : List Byte :=
  f.name ++ List.replicate (11 - f.name.length) 0 ++ [f.type] ++ f.reserved ++ [UInt8.ofNat f.length] ++ f.reserved'

def encRec (r : Rec) : List Byte := r.flag :: r.cells.flatten

/-- The length of a record: the flag and the fields. -/
def recordLength (fields : List Field) : Nat := 1 + (fields.map Field.length).sum

/-- A file: version and date, number of records, length of the header, length of a record, 20 reserved bytes, the fields, the terminator
and the records. -/
def encDbf (version reserved : List Byte) (fields : List Field) (records : List Rec) : List Byte :=
  version ++ i32le records.length ++ i16le (32 * fields.length + 33 : Nat) ++ i16le (recordLength fields) ++ reserved ++
    fields.flatMap encField ++ [0x0D] ++ records.flatMap encRec

/-- The files of the format, within the sizes the reader can represent and for lengths up to `maxLen`. -/
structure WellFormed (maxLen : Nat) (version reserved : List Byte) (fields : List Field) (records : List Rec) : Prop where
  version : version.length = 4
  reserved : reserved.length = 20
  name : ∀ f ∈ fields, f.name.length ≤ 11 ∧ 0 ∉ f.name
  unique : (fields.map Field.name).Nodup
  length : ∀ f ∈ fields, 1 ≤ f.length ∧ f.length ≤ maxLen
  pad : ∀ f ∈ fields, f.reserved.length = 4 ∧ f.reserved'.length = 15
  cells : ∀ r ∈ records, r.cells.map List.length = fields.map Field.length
  header : 32 * fields.length + 33 < 2 ^ 15
  row : recordLength fields < 2 ^ 15
  size : 32 * fields.length + 1 + recordLength fields * records.length < 2 ^ 31

/-- The texts of the `j`-th field in all the records, in order. -/
def columnOf (records : List Rec) (j : Nat) : List (List Byte) := records.map fun r => r.cells.getD j []

/-- The ASCII digits of a number. -/
def decimal (n : Nat) : List Byte := if n = 0 then [48] else (Nat.digits 10 n).reverse.map fun d => UInt8.ofNat (48 + d)

/-- An integer as text, without padding. -/
def integerText (z : Int) : List Byte := if z < 0 then 45 :: decimal z.natAbs else decimal z.natAbs

end Fdapde.IO
