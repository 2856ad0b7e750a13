import Verif.Geometry.Search
/-
tree_search.h on a mesh whose range is flat in some direction, e.g. a plane surface `z = 0` in space.  There the normalisation
constant is `1.0 / 0.0`, an infinity, and the scaled coordinates are `0.0 * inf`, NaN: the model of Search.lean is repeated with
scalars that have the infinities and the NaN of IEEE 754 (real numbers otherwise).
-/
namespace Fdapde.Geometry
open KDTree BinTree
noncomputable section
variable {d N : Nat}

/-- A double: a real number, an infinity (negative or not) or NaN. -/
inductive Flt where
  | num (x : ℝ)
  | inf (neg : Bool)
  | nan

/-- `<` of doubles. -/
def Flt.lt : Flt → Flt → Prop
  | .num x, .num y => x < y
  | .num _, .inf n => n = false
  | .inf n, .num _ => n = true
  | .inf a, .inf b => a = true ∧ b = false
  | _, _ => False
/-- `<=` of doubles: false if an operand is NaN. -/
def Flt.le : Flt → Flt → Prop
  | .num x, .num y => x ≤ y
  | .num _, .inf n => n = false
  | .inf n, .num _ => n = true
  | .inf a, .inf b => a = true ∨ b = false
  | _, _ => False
instance : LT Flt := ⟨Flt.lt⟩
instance : LE Flt := ⟨Flt.le⟩
instance : DecidableLT Flt := Classical.decRel _
instance : DecidableLE Flt := Classical.decRel _

/-- `1.0 / x` for a length `x` (not negative). -/
def Flt.inv (x : ℝ) : Flt := if x = 0 then .inf false else .num (1.0 / x)
/-- `x * c` for a real `x`: `0 * inf` is NaN. -/
def Flt.mul (x : ℝ) : Flt → Flt
  | .num c => .num (x * c)
  | .inf n => if x = 0 then .nan else .inf (xor n (decide (x < 0)))
  | .nan => .nan

/-- tree_search.h:54 -/
def SMesh.cF (m : SMesh d N) (k : Fin N) : Flt := Flt.inv (m.hi k - m.lo k)
/-- tree_search.h:38, 59-60 : `(x - range().row(0)) * c_` -/
def SMesh.scaleF (m : SMesh d N) (x : Vec N) (k : Fin N) : Flt := Flt.mul (x k - m.lo k) (m.cF k)
/-- An Eigen vector `<< a, b` of size 2 N. -/
def stackF (a b : Fin N → Flt) (k : Nat) : Flt :=
  if h : k < N then a ⟨k, h⟩ else if h : k - N < N then b ⟨k - N, h⟩ else .num 0
/-- tree_search.h:55-62 -/
def SMesh.dataF (m : SMesh d N) (i k : Nat) : Flt :=
  stackF (m.scaleF (m.cell i).boundingBox.1) (m.scaleF (m.cell i).boundingBox.2) k
/-- tree_search.h:37-43 -/
def SMesh.queryF (m : SMesh d N) (p : Vec N) : Box Flt :=
  ⟨stackF (fun _ => .num 0) (m.scaleF p), stackF (m.scaleF p) (fun _ => .num 1)⟩
/-- tree_search.h:68-71, 77-80 -/
def SMesh.candidatesF (m : SMesh d N) (nth : Nat → Nat → List Nat → List Nat) (ord : List Nat → List Nat) (p : Vec N) :
    Option (Res (List Nat)) :=
  match build nth m.dataF (2 * N) m.n with
  | some (.ok t) =>
    match rangeSearch m.dataF (2 * N) (m.queryF p) t m.n with
    | some (.ok l) => some (.ok (ord l))
    | some .throws => some .throws
    | some .ub => some .ub
    | none => none
  | some .throws => some .throws
  | some .ub => some .ub
  | none => none
/-- tree_search.h:76-83 -/
def SMesh.locateF (m : SMesh d N) (nth : Nat → Nat → List Nat → List Nat) (ord : List Nat → List Nat) (eps : ℝ) (p : Vec N) : Option (Res Int) :=
  match m.candidatesF nth ord p with
  | some (.ok l) => some (.ok (scanFirst (m.hit eps p) l))
  | some .throws => some .throws
  | some .ub => some .ub
  | none => none

end
end Fdapde.Geometry
