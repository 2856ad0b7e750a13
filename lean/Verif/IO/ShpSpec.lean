import Verif.IO.BinarySpec
import Verif.IO.Shp

/-!
# The shapefile format: specification

The layout of a shapefile (ESRI Shapefile Technical Description, 1998), for files in which all the shapes have the type declared in the
header, and in which the measures which the format declares optional are present.
-/

namespace Fdapde.IO

/-- What is attached to a point besides `x` and `y`. -/
inductive Dim | xy | xym | xyz
deriving DecidableEq

/-- The type codes: 1, 3, 5, 8 for points, polylines, polygons and multipoints; 10 more with `z`, 20 more with measures only. -/
def Dim.code (d : Dim) (base : Int) : Int :=
  match d with
  | .xy => base
  | .xym => base + 20
  | .xyz => base + 10

/-- A point with all the coordinates; those not in the file are ignored. -/
structure Pt where
  x : F64
  y : F64
  z : F64
  m : F64
deriving DecidableEq

/-- What a reader can know about `z`, `m`. -/
def Dim.z (d : Dim) (v : F64) : Option F64 := if d = .xyz then some v else none
def Dim.m (d : Dim) (v : F64) : Option F64 := if d = .xy then none else some v

/-- A point record. -/
def encPoint (d : Dim) (p : Pt) : List Byte :=
  f64le p.x ++ f64le p.y ++
    match d with
    | .xy => []
    | .xym => f64le p.m
    | .xyz => f64le p.z ++ f64le p.m

/-- Ranges of `z` and `m`. -/
structure Ranges where
  z : F64 × F64
  m : F64 × F64

def encPair (r : F64 × F64) : List Byte := f64le r.1 ++ f64le r.2

/-- The blocks which follow the points of multipoints, polylines and polygons. -/
def encZM (d : Dim) (r : Ranges) (ps : List Pt) : List Byte :=
  match d with
  | .xy => []
  | .xym => encPair r.m ++ ps.flatMap fun p => f64le p.m
  | .xyz => (encPair r.z ++ ps.flatMap fun p => f64le p.z) ++ (encPair r.m ++ ps.flatMap fun p => f64le p.m)

/-- A multipoint record. -/
structure MP where
  box : F64 × F64 × F64 × F64
  ranges : Ranges
  points : List Pt

def encBox (b : F64 × F64 × F64 × F64) : List Byte := [b.1, b.2.1, b.2.2.1, b.2.2.2].flatMap f64le

def encMP (d : Dim) (s : MP) : List Byte :=
  encBox s.box ++ i32le s.points.length ++ (s.points.flatMap fun p => encPair (p.x, p.y)) ++ encZM d s.ranges s.points

/-- A polygon or polyline record: its rings (parts), each with its points. -/
structure Poly where
  box : F64 × F64 × F64 × F64
  ranges : Ranges
  rings : List (List Pt)

/-- The index of the first point of each ring. -/
def starts : Nat → List (List Pt) → List Int
  | _, [] => []
  | n, r :: rs => (n : Int) :: starts (n + r.length) rs

def encPoly (d : Dim) (s : Poly) : List Byte :=
  encBox s.box ++ i32le s.rings.length ++ i32le s.rings.flatten.length ++ ((starts 0 s.rings).flatMap i32le) ++
    (s.rings.flatten.flatMap fun p => encPair (p.x, p.y)) ++ encZM d s.ranges s.rings.flatten

/-- A record: number, length of the content in 16-bit words, type, content. -/
def encRecord (type number : Int) (content : List Byte) : List Byte :=
  i32be number ++ i32be ((4 + content.length) / 2) ++ i32le type ++ content

/-- The body of a file. -/
def encBody {α : Type} (type : Int) (enc : α → List Byte) (records : List (Int × α)) : List Byte :=
  records.flatMap fun r => encRecord type r.1 (enc r.2)

/-- A file: the 100 bytes of the header (code, five unused integers, length in 16-bit words, version, type, bounding box), the body. -/
def encFile (type : Int) (box : List F64) (body : List Byte) : List Byte :=
  i32be 9994 ++ List.replicate 20 0 ++ i32be ((100 + body.length) / 2) ++ i32le 1000 ++ i32le type ++ box.flatMap f64le ++ body

/-- The header a reader has to find. -/
def fileHeader (type : Int) (box : List F64) (body : List Byte) : Header := ⟨9994, 100 + body.length, 1000, type, box⟩

/-- The vertices a reader has to find. -/
def vertexOf (d : Dim) (p : Pt) : Vertex := ⟨p.x, p.y, d.z p.z, d.m p.m⟩
def pointOf (d : Dim) (r : Int × Pt) : Point := ⟨r.1, r.2.x, r.2.y, d.z r.2.z, d.m r.2.m⟩

/-- What the code returns for a multipoint record. -/
def multiOf (d : Dim) (r : Int × MP) : MultiPoint :=
  ⟨r.1, [r.2.box.1, r.2.box.2.1, r.2.box.2.2.1, r.2.box.2.2.2], (if d = .xy then none else some r.2.ranges.m),
    (if d = .xyz then some r.2.ranges.z else none), r.2.points.length, r.2.points.map Pt.x, r.2.points.map Pt.y, [], []⟩

/-- What the code returns for a polygon or polyline record. -/
def polyOf (d : Dim) (r : Int × Poly) : Polygon :=
  ⟨r.1, [r.2.box.1, r.2.box.2.1, r.2.box.2.2.1, r.2.box.2.2.2], (if d = .xy then none else some r.2.ranges.m),
    (if d = .xyz then some r.2.ranges.z else none), r.2.rings.length, r.2.rings.flatten.length, starts 0 r.2.rings,
    (starts 0 r.2.rings).tail.map (· - 1) ++ [(r.2.rings.flatten.length : Int)], r.2.rings.flatten.map (vertexOf d)⟩

end Fdapde.IO
