import Verif.Geometry.Search
import Verif.Float.Round
/-
tree_search.h and `contains` of simplex.h with rounded operations.  Same code as in Search.lean; comparisons are exact.  `inv i` is
the matrix stored as `invJ_` in cell `i`: Eigen computes it, and it need not be the exact inverse.
-/
namespace Fdapde.Geometry
open KDTree BinTree Fdapde.Fp
noncomputable section
variable {d N : Nat}

/-- tree_search.h:54 -/
def SMesh.cR (r : Rounding) (m : SMesh d N) (k : Fin N) : ℝ := r.ops.div 1 (r.ops.sub (m.hi k) (m.lo k))
/-- tree_search.h:38, 59-60 : `(x - range().row(0)) * c_` -/
def SMesh.scaleR (r : Rounding) (m : SMesh d N) (x : Vec N) (k : Fin N) : ℝ := r.ops.mul (r.ops.sub (x k) (m.lo k)) (m.cR r k)
/-- tree_search.h:55-62 -/
def SMesh.dataR (r : Rounding) (m : SMesh d N) (i k : Nat) : ℝ :=
  stack (m.scaleR r (m.cell i).boundingBox.1) (m.scaleR r (m.cell i).boundingBox.2) k
/-- tree_search.h:37-43 -/
def SMesh.queryR (r : Rounding) (m : SMesh d N) (p : Vec N) : Box ℝ :=
  ⟨stack (fun _ => 0) (m.scaleR r p), stack (m.scaleR r p) (fun _ => 1)⟩
/-- tree_search.h:68-71, 77-80 -/
def SMesh.candidatesR (r : Rounding) (m : SMesh d N) (nth : Nat → Nat → List Nat → List Nat) (ord : List Nat → List Nat) (p : Vec N) :
    Option (Res (List Nat)) :=
  match build nth (m.dataR r) (2 * N) m.n with
  | some (.ok t) =>
    match rangeSearch (m.dataR r) (2 * N) (m.queryR r p) t m.n with
    | some (.ok l) => some (.ok (ord l))
    | some .throws => some .throws
    | some .ub => some .ub
    | none => none
  | some .throws => some .throws
  | some .ub => some .ub
  | none => none

/-- A sum of a few doubles, from left to right (Eigen's `sum()` and the inner products of small matrices). -/
def sumR (r : Rounding) : List ℝ → ℝ
  | [] => 0
  | a :: l => l.foldl r.ops.add a

/-- simplex.h:69-74, 119-122 -/
def Simplex.baryR (r : Rounding) (inv : Matrix (Fin d) (Fin N) ℝ) (S : Simplex d N) (p : Vec N) : Fin (d + 1) → ℝ :=
  let z : Fin d → ℝ := fun j => sumR r (List.ofFn fun i : Fin N => r.ops.mul (inv j i) (r.ops.sub (p i) (S.coords 0 i)))
  Fin.cons (α := fun _ => ℝ) (r.ops.sub 1 (sumR r (List.ofFn z))) z

/-- simplex.h:123 and tree_search.h:70 for cells of the dimension of the space: `contains` does not answer OUTSIDE. -/
def SMesh.hitR (r : Rounding) (inv : Nat → Matrix (Fin N) (Fin N) ℝ) (m : SMesh N N) (eps : ℝ) (p : Vec N) (id : Nat) : Bool :=
  open Classical in decide (¬ ∃ i, (m.cell id).baryR r (inv id) p i < -eps)

/-- tree_search.h:67-74 -/
def SMesh.allLocateR (r : Rounding) (inv : Nat → Matrix (Fin N) (Fin N) ℝ) (m : SMesh N N) (nth : Nat → Nat → List Nat → List Nat)
    (ord : List Nat → List Nat) (eps : ℝ) (p : Vec N) : Option (Res (List Nat)) :=
  match m.candidatesR r nth ord p with
  | some (.ok l) => some (.ok (scanAll (m.hitR r inv eps p) l []))
  | some .throws => some .throws
  | some .ub => some .ub
  | none => none

/-- tree_search.h:76-83 -/
def SMesh.locateR (r : Rounding) (inv : Nat → Matrix (Fin N) (Fin N) ℝ) (m : SMesh N N) (nth : Nat → Nat → List Nat → List Nat)
    (ord : List Nat → List Nat) (eps : ℝ) (p : Vec N) : Option (Res Int) :=
  match m.candidatesR r nth ord p with
  | some (.ok l) => some (.ok (scanFirst (m.hitR r inv eps p) l))
  | some .throws => some .throws
  | some .ub => some .ub
  | none => none

end
end Fdapde.Geometry
