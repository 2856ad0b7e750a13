import Verif.IO.Binary

/-!
# The shapefile reader

Model of `shp_reader` (`fdaPDE/utils/IO/shp_reader.h` 48-258).  The file is the list of its bytes; a file which cannot be opened is not
modelled.  Sizes which do not fit in memory are not modelled.  Members which the code leaves uninitialised are `none`.
-/

namespace Fdapde.IO

/-- A `double`, by its bits. -/
abbrev F64 := BitVec 64

/-- `sf_point_t` (shp_reader.h:59-61); `z` and `m` are `none` while uninitialised. -/
structure Point where
  recordNumber : Int
  x : F64
  y : F64
  z : Option F64
  m : Option F64
deriving DecidableEq, Repr

/-- Points of a polygon: `sf_point_t(double x_, double y_)` (shp_reader.h:64), whose record number stays uninitialised. -/
structure Vertex where
  x : F64
  y : F64
  z : Option F64
  m : Option F64
deriving DecidableEq, Repr

/-- `sf_multipoint_t` (shp_reader.h:76-90). -/
structure MultiPoint where
  recordNumber : Int
  bbox : List F64
  mRange : Option (F64 × F64)
  zRange : Option (F64 × F64)
  nPoints : Int
  x : List F64
  y : List F64
  z : List F64
  m : List F64
deriving DecidableEq, Repr

/-- `sf_polygon_t` (shp_reader.h:110-117), also used for `sf_polyline_t`. -/
structure Polygon where
  recordNumber : Int
  bbox : List F64
  mRange : Option (F64 × F64)
  zRange : Option (F64 × F64)
  nRings : Int
  nPoints : Int
  ringBegin : List Int
  ringEnd : List Int
  points : List Vertex
deriving DecidableEq, Repr

/-- A vector resized to `n` entries (`n` an `int`; a negative one is converted to a huge `size_t`, `std::length_error`) and then filled
with `n` reads. -/
def manyInt {α : Type} (p : Rd α) (n : Int) : Rd (List α) := if n < 0 then Rd.throw else many p n.toNat

/-- Two doubles in a row. -/
def readPair : Rd (F64 × F64) := do
  let a ← readF64
  let b ← readF64
  return (a, b)

/-- `sf_point_t(int, shp_reader&)` (shp_reader.h:65-74), with `st` the shape type in the header of the file. -/
def readPoint (st : Int) (number : Int) : Rd Point := do
  let x ← readF64
  let y ← readF64
  if st = 21 then
    let m ← readF64
    return ⟨number, x, y, none, some m⟩
  else if st = 11 then
    let z ← readF64
    let m ← readF64
    return ⟨number, x, y, some z, some m⟩
  else
    return ⟨number, x, y, none, none⟩

/-- `read_zm_block` (shp_reader.h:78-83): the vector is a by-value parameter, so that only the range is visible to the caller. -/
def readZmBlock (n : Int) : Rd (F64 × F64) := do
  let range ← readPair
  let _ ← manyInt readF64 n
  return range

/-- `sf_multipoint_t(int, shp_reader&)` (shp_reader.h:93-108). -/
def readMultiPoint (st : Int) (number : Int) : Rd MultiPoint := do
  let bbox ← many readF64 4
  let n ← readI32
  let xy ← manyInt readPair n
  let x := xy.map Prod.fst
  let y := xy.map Prod.snd
  if st = 28 then
    let mr ← readZmBlock n
    return ⟨number, bbox, some mr, none, n, x, y, [], []⟩
  else if st = 18 then
    let zr ← readZmBlock n
    let mr ← readZmBlock n
    return ⟨number, bbox, some mr, some zr, n, x, y, [], []⟩
  else
    return ⟨number, bbox, none, none, n, x, y, [], []⟩

/-- The ends of the rings (shp_reader.h:130-136), for `n_rings ≥ 0`: with no ring `ring_end[-1]` is written.  `ring_begin[i + 1] - 1` does
not fit an `int` for `ring_begin[i + 1] = -2 ^ 31`. -/
def ringEnds (ringBegin : List Int) (nPoints : Int) : Res (List Int) :=
  let n := ringBegin.length
  if n = 1 then .ok [nPoints]
  else if n = 0 then .ub
  else do
    let e ← foldRes (fun (e : List Int) i => do
      let b ← Res.ofOptionUB ringBegin[i + 1]?
      if b = -2 ^ 31 then .ub else .ok (e.set i (b - 1))) (List.replicate n 0) (List.range (n - 1))
    .ok (e.set (n - 1) nPoints)

/-- A result as code which reads nothing. -/
def Rd.lift {α : Type} (r : Res α) : Rd α := fun _ head => (fun a => (a, head)) <$> r

/-- `sf_polygon_t(int, shp_reader&)` (shp_reader.h:120-157). -/
def readPolygon (st : Int) (number : Int) : Rd Polygon := do
  let bbox ← many readF64 4
  let nRings ← readI32
  let nPoints ← readI32
  let ringBegin ← manyInt readI32 nRings
  let ringEnd ← Rd.lift (ringEnds ringBegin nPoints)
  let xy ← manyInt readPair nPoints
  if st = 25 ∨ st = 23 then
    let mr ← readPair
    let ms ← manyInt readF64 nPoints
    return ⟨number, bbox, some mr, none, nRings, nPoints, ringBegin, ringEnd,
      List.zipWith (fun p m => ⟨p.1, p.2, none, some m⟩) xy ms⟩
  else if st = 15 ∨ st = 13 then
    let zr ← readPair
    let zs ← manyInt readF64 nPoints
    let mr ← readPair
    let ms ← manyInt readF64 nPoints
    return ⟨number, bbox, some mr, some zr, nRings, nPoints, ringBegin, ringEnd,
      List.zipWith (fun (p : F64 × F64) (q : F64 × F64) => ⟨p.1, p.2, some q.1, some q.2⟩) xy (List.zip zs ms)⟩
  else
    return ⟨number, bbox, none, none, nRings, nPoints, ringBegin, ringEnd, xy.map fun p => ⟨p.1, p.2, none, none⟩⟩

/-- One turn of the loop of `read_into` (shp_reader.h:190-193). -/
def readRecord {α : Type} (rec : Int → Rd α) : Rd α := do
  let number ← readI32Big
  skip 8
  rec number

/-- `read_into` (shp_reader.h:188-195): the loop `while (head_ < limit)`, with at most `fuel` turns (`none`: not finished).  The contents
of the container at the end. -/
def readInto {α : Type} (rec : Int → Rd α) (limit : Int) (buf : List Byte) : Nat → Nat → Option (Res (List α))
  | 0, _ => none
  | fuel + 1, head =>
    if (head : Int) < limit then
      match readRecord rec buf head with
      | .ok (a, head) => (readInto rec limit buf fuel head).map fun r => (fun l => a :: l) <$> r
      | .throws => some .throws
      | .ub => some .ub
    else some (.ok [])

/-- `sf_header_t` (shp_reader.h:51-58). -/
structure Header where
  fileCode : Int
  fileLength : Int
  version : Int
  shapeType : Int
  bbox : List F64
deriving DecidableEq, Repr

/-- The header (shp_reader.h:222-229); the product `2 * read` overflows for more than `2 ^ 30 - 1` words. -/
def readHeader : Rd Header := do
  let code ← readI32Big
  skip 20
  let words ← readI32Big
  let len ← (if -2 ^ 31 ≤ 2 * words ∧ 2 * words < 2 ^ 31 then (pure (2 * words) : Rd Int) else Rd.undefined)
  let version ← readI32
  let st ← readI32
  let bbox ← many readF64 8
  return ⟨code, len, version, st, bbox⟩

/-- What the reader holds after construction. -/
structure ShpFile where
  header : Header
  points : List Point
  polylines : List Polygon
  polygons : List Polygon
  multipoints : List MultiPoint
deriving DecidableEq, Repr

/-- `n_records()` (shp_reader.h:193, 252): incremented with every record. -/
def ShpFile.nRecords (f : ShpFile) : Nat := f.points.length + f.polylines.length + f.polygons.length + f.multipoints.length

/-- The constructor `shp_reader(file_name)` (shp_reader.h:216-248).  `new char[n]` throws for a negative `n`.  `none`: the loop did not end
(see `C75_terminates`). -/
def shpReader (file : List Byte) : Option (Res ShpFile) :=
  match readHeader (file.take 100) 0 with
  | .throws => some .throws
  | .ub => some .ub
  | .ok (h, _) =>
    let limit := h.fileLength - 100
    if limit < 0 then some .throws
    else
      let buf := (file.drop 100).take limit.toNat
      let fuel := limit.toNat + 1
      let st := h.shapeType
      if st = 1 ∨ st = 11 ∨ st = 21 then
        (readInto (readPoint st) limit buf fuel 0).map fun r => (fun l => ⟨h, l, [], [], []⟩) <$> r
      else if st = 3 ∨ st = 13 ∨ st = 23 then
        (readInto (readPolygon st) limit buf fuel 0).map fun r => (fun l => ⟨h, [], l, [], []⟩) <$> r
      else if st = 5 ∨ st = 15 ∨ st = 25 then
        (readInto (readPolygon st) limit buf fuel 0).map fun r => (fun l => ⟨h, [], [], l, []⟩) <$> r
      else if st = 8 ∨ st = 18 ∨ st = 28 then
        (readInto (readMultiPoint st) limit buf fuel 0).map fun r => (fun l => ⟨h, [], [], [], l⟩) <$> r
      else some (.ok ⟨h, [], [], [], []⟩)

/-- The points visited by `for (it = ring.begin(); it != ring.end(); ++it)` for the `i`-th ring of `polygon.begin()` (shp_reader.h:164-170): the range `[ring_begin[i], ring_end[i])`.  Ranges outside of the vector, and an end before the beginning, are undefined
behaviour. -/
def Polygon.ring (p : Polygon) (i : Nat) : Res (List Vertex) :=
  match p.ringBegin[i]?, p.ringEnd[i]? with
  | some b, some e =>
    if 0 ≤ b ∧ b ≤ e ∧ e ≤ p.points.length then .ok ((p.points.drop b.toNat).take (e - b).toNat) else .ub
  | _, _ => .ub

/-- `for (ring = begin(); ring != end(); ++ring)` (shp_reader.h:171-180): the rings visited, in order. -/
def Polygon.rings (p : Polygon) : Res (List (List Vertex)) :=
  foldRes (fun (l : List (List Vertex)) i => (fun r => l ++ [r]) <$> p.ring i) [] (List.range p.nRings.toNat)

end Fdapde.IO
