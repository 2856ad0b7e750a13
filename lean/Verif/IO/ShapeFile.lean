import Verif.IO.Csv
import Verif.IO.Dbf
import Verif.IO.Shp
/-
Model of `ShapeFile`, fdaPDE/utils/IO/shp_reader.h:354-404: a folder with a shapefile, its table and its projection.
`std::size_t` has 64 bits; strings of the file system are lists of characters.
-/
namespace Fdapde.IO

/-- `std::string::npos` -/
def npos : Nat := 2 ^ 64 - 1

/-- `s.find(pat, pos)` -/
def findFrom (pat s : List Char) (pos : Nat) : Nat :=
  if pos ≤ s.length then match find pat (s.drop pos) with
    | some k => pos + k
    | none => npos
  else npos

/-- `s.substr(pos, n)`; a position beyond the end throws `std::out_of_range`. -/
def substr (s : List Char) (pos n : Nat) : Res (List Char) := if pos ≤ s.length then .ok ((s.drop pos).take n) else .throws

/-- shp_reader.h:363-364 : the loop over the slashes; `none`: not over after the given number of turns. -/
def nameStart (folder : List Char) : Nat → Nat → Option Nat
  | 0, _ => none
  | k + 1, pos => if findFrom ['/'] folder pos = npos then some pos else nameStart folder k (findFrom ['/'] folder pos + 1)

/-- shp_reader.h:362-365 : `file_name`. -/
def fileName (folder : List Char) : Option (Res (List Char)) :=
  (nameStart folder (folder.length + 1) 0).map fun pos => substr folder pos (npos - pos)

/-- shp_reader.h:375-378 : `gcs`; the sums of positions wrap. -/
def gcsOf (line : List Char) : Res (List Char) :=
  let i := (findFrom "GEOGCS".toList line 0 + "GEOGCS[\"".toList.length) % 2 ^ 64
  let j := findFrom ['"'] line i
  substr line i ((j + 2 ^ 64 - i) % 2 ^ 64)

/-- shp_reader.h:373-378 : from the content of the file; the first line of an empty file is empty. -/
def gcsFile (text : List Char) : Res (List Char) := gcsOf ((getline text).getD ([], [])).1

/-- What can be read: binary files and text files by their path, `none` for those which cannot be opened. -/
structure Files where
  bin : List Char → Option (List Byte)
  text : List Char → Option (List Char)

/-- Data members (shp_reader.h:356-359); `none` for a part whose file cannot be opened: it is left as it was default constructed. -/
structure ShapeFile where
  folder : List Char
  shp : Option ShpFile
  dbf : Option Dbf
  gcs : List Char

/-- A file which cannot be opened gives no content, otherwise the reader runs. -/
def load {α β : Type} (reader : α → Option (Res β)) : Option α → Option (Res (Option β))
  | none => some (.ok none)
  | some a => (reader a).map fun r => some <$> r

/-- shp_reader.h:369-379 -/
def loadGcs : Option (List Char) → Res (List Char)
  | none => .ok "UNDEFINED".toList
  | some t => gcsFile t

/-- The path of a part of the shapefile. -/
def partPath (folder name ext : List Char) : List Char := folder ++ '/' :: (name ++ '.' :: ext)

/-- shp_reader.h:366-379 : the three files. -/
def openParts (fs : Files) (folder name : List Char) : Option (Res ShapeFile) :=
  (load shpReader (fs.bin (partPath folder name "shp".toList))).bind fun rs =>
    (load (fun b => some (dbfReader b)) (fs.bin (partPath folder name "dbf".toList))).map fun rd =>
      rs >>= fun s => rd >>= fun d => (fun g => ⟨folder, s, d, g⟩) <$> loadGcs (fs.text (partPath folder name "prj".toList))

/-- shp_reader.h:361-380 : constructor; `none`: it does not return. -/
def openShapeFile (fs : Files) (folder : List Char) : Option (Res ShapeFile) :=
  (fileName folder).bind fun
    | .ok name => openParts fs folder name
    | .throws => some .throws
    | .ub => some .ub

/-- What `operator<<` prints after the name of the folder. -/
structure Printed where
  shapeType : List Char
  fileSize : Int
  nRecords : Nat
  bbox : List F64
  fields : List (List Byte × Byte)
deriving DecidableEq, Repr

/-- shp_reader.h:387-391 -/
def typeName (st : Int) : List Char :=
  if st = 1 then "POINT".toList else if st = 3 then "POLYLINE".toList else if st = 5 then "POLYGON".toList
  else if st = 8 then "MULTIPOINT".toList else []

/-- shp_reader.h:398-401 : the fields; with no field the bound `cols_.size() - 1` of the loop wraps and the vector is read out of
range. -/
def printFields (f : List (List Byte × Byte)) : Res (List (List Byte × Byte)) := if f = [] then .ub else .ok f

/-- shp_reader.h:384 : `field_descriptors()`. -/
def ShapeFile.fieldList (f : ShapeFile) : List (List Byte × Byte) :=
  match f.dbf with
  | some d => d.descriptors
  | none => []

/-- shp_reader.h:385-403 : `operator<<`; the header of a file that could not be opened is not initialised (reading it is undefined); the
product is computed in `int`. -/
def ShapeFile.print (f : ShapeFile) : Res Printed :=
  match f.shp with
  | none => .ub
  | some s =>
    if -2 ^ 31 ≤ s.header.fileLength * 2 ∧ s.header.fileLength * 2 < 2 ^ 31 then
      (fun l => ⟨typeName s.header.shapeType, s.header.fileLength * 2, s.nRecords, s.header.bbox.take 4, l⟩) <$>
        printFields f.fieldList
    else .ub

end Fdapde.IO
