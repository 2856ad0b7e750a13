import Verif.Geometry.Model
import Verif.KDTree.Model
/-
Model of fdaPDE/geometry/tree_search.h.  Scalars are real numbers.  The mesh is given by its cells (simplices) and by
its range; a mesh that is flat in some direction (where 1 / 0 is computed) is excluded in the theorems.
-/
namespace Fdapde.Geometry
open KDTree BinTree
noncomputable section
variable {d N : Nat}

/-- What `TreeSearch` reads of the mesh: cells, number of cells, `range()` (triangulation.h:54-55). -/
structure SMesh (d N : Nat) where
  cell : Nat → Simplex d N
  n : Nat
  lo : Vec N
  hi : Vec N

/-- tree_search.h:54 : normalisation constants. -/
def SMesh.c (m : SMesh d N) (k : Fin N) : ℝ := 1.0 / (m.hi k - m.lo k)
/-- `(x - range().row(0)) * c_` -/
def SMesh.scale (m : SMesh d N) (x : Vec N) (k : Fin N) : ℝ := (x k - m.lo k) * m.c k
/-- An Eigen vector `<< a, b` of size 2 N. -/
def stack (a b : Fin N → ℝ) (k : Nat) : ℝ :=
  if h : k < N then a ⟨k, h⟩ else if h : k - N < N then b ⟨k - N, h⟩ else 0
/-- tree_search.h:55-62 : row `i` of the data of the tree. -/
def SMesh.data (m : SMesh d N) (i k : Nat) : ℝ :=
  stack (m.scale (m.cell i).boundingBox.1) (m.scale (m.cell i).boundingBox.2) k
/-- tree_search.h:37-43 -/
def SMesh.query (m : SMesh d N) (p : Vec N) : Box ℝ :=
  ⟨stack (fun _ => 0) (m.scale p), stack (m.scale p) (fun _ => 1)⟩

/-- tree_search.h:68-71, 77-80 : `range_search(query(p))`; `ord` is the iteration order of the unordered set. -/
def SMesh.candidates (m : SMesh d N) (nth : Nat → Nat → List Nat → List Nat) (ord : List Nat → List Nat) (p : Vec N) :
    Option (Res (List Nat)) :=
  match build nth m.data (2 * N) m.n with
  | some (.ok t) =>
    match rangeSearch m.data (2 * N) (m.query p) t m.n with
    | some (.ok l) => some (.ok (ord l))
    | some .throws => some .throws
    | some .ub => some .ub
    | none => none
  | some .throws => some .throws
  | some .ub => some .ub
  | none => none

/-- tree_search.h:70 : conversion of the answer of `contains` to bool. -/
def SMesh.hit (m : SMesh d N) (eps : ℝ) (p : Vec N) (id : Nat) : Bool :=
  open Classical in decide ((m.cell id).contains eps p ≠ .outside)

/-- tree_search.h:69-71 -/
def scanAll (hit : Nat → Bool) : List Nat → List Nat → List Nat
  | [], res => res
  | id :: ids, res => if hit id then scanAll hit ids (res ++ [id]) else scanAll hit ids res
/-- tree_search.h:77-81 -/
def scanFirst (hit : Nat → Bool) : List Nat → Int
  | [] => -1
  | id :: ids => if hit id then (id : Int) else scanFirst hit ids

/-- tree_search.h:67-74 -/
def SMesh.allLocate (m : SMesh d N) (nth : Nat → Nat → List Nat → List Nat) (ord : List Nat → List Nat) (eps : ℝ) (p : Vec N) : Option (Res (List Nat)) :=
  match m.candidates nth ord p with
  | some (.ok l) => some (.ok (scanAll (m.hit eps p) l []))
  | some .throws => some .throws
  | some .ub => some .ub
  | none => none
/-- tree_search.h:76-83 -/
def SMesh.locate (m : SMesh d N) (nth : Nat → Nat → List Nat → List Nat) (ord : List Nat → List Nat) (eps : ℝ) (p : Vec N) : Option (Res Int) :=
  match m.candidates nth ord p with
  | some (.ok l) => some (.ok (scanFirst (m.hit eps p) l))
  | some .throws => some .throws
  | some .ub => some .ub
  | none => none

end
end Fdapde.Geometry
