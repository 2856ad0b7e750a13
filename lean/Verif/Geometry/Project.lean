import Verif.Geometry.Search
/-
Model of fdaPDE/geometry/project.h: projection of points on a mesh.  Scalars are real numbers; the initial value
`numeric_limits<double>::max()` of the best distance is `none`, larger than every distance, and goes with the row of
`proj`, which is not initialised.
-/
namespace Fdapde.Geometry
open KDTree BinTree
noncomputable section
variable {d N : Nat}

/-- project.h:39-43, 60-64 : keeps the candidate `q` if strictly nearer to `p`. -/
def keep (p : Vec N) (best : Option (ℝ × Vec N)) (q : Vec N) : Option (ℝ × Vec N) :=
  open Classical in
  match best with
  | none => some (norm (q - p), q)
  | some b => if norm (q - p) < b.1 then some (norm (q - p), q) else some b

/-- project.h:34-47 : exact projection of a list of points (`none`: the row is never written); `cells_begin()` to
`cells_end()` visits every cell in order (C18). -/
def projectExact (eps : ℝ) (srt : (n : Nat) → (Fin n → ℝ) → Equiv.Perm (Fin n)) (m : SMesh d N) (ps : List (Vec N)) :
    List (Option (Vec N)) :=
  ((List.range m.n).foldl
    (fun best j => List.zipWith (fun p b => keep p b ((m.cell j).nearest eps srt p)) ps best) (ps.map fun _ => none)).map
    fun b => b.map Prod.snd

/-- The components of a point, as read by the tree. -/
def comp (p : Vec N) (k : Nat) : ℝ := if h : k < N then p ⟨k, h⟩ else 0

/-- project.h:58-65 : best candidate among the cells of a list. -/
def bestOf (eps : ℝ) (srt : (n : Nat) → (Fin n → ℝ) → Equiv.Perm (Fin n)) (m : SMesh d N) (p : Vec N) (l : List Nat) :
    Option (Vec N) :=
  (l.foldl (fun b j => keep p b ((m.cell j).nearest eps srt p)) none).map Prod.snd

/-- project.h:55-66 : approximate projection (the default) of one point.  `nodes` are the nodes of the mesh and `t` the
tree built on them (line 52), `fuel` bounds the steps of the search in the tree.  Dereferencing the end iterator is
undefined. -/
def projectApprox (nth : Nat → Nat → List Nat → List Nat) (ord : List Nat → List Nat) (eps : ℝ)
    (srt : (n : Nat) → (Fin n → ℝ) → Equiv.Perm (Fin n)) (m : SMesh d N) (nodes : Nat → Vec N) (t : BT Nat) (fuel : Nat)
    (p : Vec N) : Option (Res (Option (Vec N))) :=
  match nnSearch (fun i => comp (nodes i)) N (comp p) t fuel with
  | some (.ok (some i)) =>
    match m.allLocate nth ord eps (nodes i) with
    | some (.ok l) => some (.ok (bestOf eps srt m p l))
    | some .throws => some .throws
    | some .ub => some .ub
    | none => none
  | some (.ok none) => some .ub
  | some .throws => some .throws
  | some .ub => some .ub
  | none => none

end
end Fdapde.Geometry
