import Verif.Optim.FloatModel
import Verif.Geometry.Search
import Verif.Common.Loop
/-
Point location with doubles, infinities and NaN included (Float/Ieee.lean): fdaPDE/geometry/interval.h, tree_search.h, walk_search.h, kd_tree.h and `contains`
of simplex.h.  The coordinates of the mesh are numbers; what is asked for may be anything a `double` holds.  The order in which Eigen adds up is left open
(`Order`, Optim/FloatModel.lean).
-/
namespace Fdapde.Geometry.Dp
open Fdapde.Fp Fdapde.Optim.Flt KDTree BinTree Classical
noncomputable section
variable {d N : Nat}

instance : LT Dbl := ⟨Dbl.Lt⟩
instance : LE Dbl := ⟨Dbl.Le⟩
instance : DecidableLT Dbl := Classical.decRel _
instance : DecidableLE Dbl := Classical.decRel _

/-- `std::sqrt`. -/
def sqrtD : Dbl → Dbl
  | .fin a => if 0 ≤ a then Dbl.round (Real.sqrt a) else .nan
  | .inf false => .inf false
  | _ => .nan

/-- `1.0 / x` for a length (zero is the positive one). -/
def recip : Dbl → Dbl
  | .fin a => if a = 0 then .inf false else Dbl.round (1 / a)
  | .inf _ => .fin 0
  | .nan => .nan

/-- Sum of the entries of a vector. -/
def osum (z : FVec d) : Order d → Dbl
  | .term i => z i
  | .plus l r => (osum z l).add (osum z r)

/-! ### interval.h -/

/-- interval.h:110-122 : the binary search with the comparisons in the order of the code; `nodes_[j + 1]` is read only if the first comparison is true.  `none`
after `fuel` turns. -/
def search (nodes : List Dbl) (p : Dbl) : Nat → Nat → Nat → Option (Res Int)
  | 0, _, _ => none
  | f + 1, hmin, hmax =>
    let j := hmin + (hmax - hmin) / 2
    match nodes[j]? with
    | none => some .ub
    | some x =>
      if p ≥ x then
        match nodes[j + 1]? with
        | none => some .ub
        | some y =>
          if p < y then some (.ok (j : Int))
          else if p < x then search nodes p f hmin j else search nodes p f j hmax
      else if p < x then search nodes p f hmin j else search nodes p f j hmax

/-- interval.h:98-126 : `locate` for one point, at most `fuel` turns of the search. -/
def locate1 (nodes : List Dbl) (p : Dbl) (fuel : Nat) : Option (Res Int) :=
  match nodes[0]?, nodes[nodes.length - 1]? with
  | some a, some b => if p < a ∨ p > b then some (.ok (-1)) else search nodes p fuel 0 nodes.length
  | _, _ => some .ub

/-! ### simplex.h -/

/-- How Eigen adds up: the rows of `invJ_ * v`, the sum of the coordinates, the squares of a norm. -/
structure Sums (d N : Nat) where
  row : Fin d → Order N
  all : Order d
  sq : Order N

/-- Every term is in its sum. -/
def Sums.Whole (o : Sums d N) : Prop := (∀ i k, (o.row i).Has k) ∧ (∀ i, o.all.Has i) ∧ ∀ k, o.sq.Has k

/-- A simplex: its vertices are numbers; `invJ_` and the projection on the supporting plane are what the program has computed, whatever that is. -/
structure Cell (d N : Nat) where
  pts : Simplex d N
  invJ : Fin d → FVec N
  proj : FVec N → FVec N

/-- simplex.h:119-122 -/
def Cell.bary (S : Cell d N) (o : Sums d N) (x : FVec N) : Fin (d + 1) → Dbl :=
  let z : FVec d := fun i => dot (S.invJ i) (fun k => (x k).sub (.fin (S.pts.coords 0 k))) (o.row i)
  Fin.cons ((Dbl.fin 1).sub (osum z o.all)) z

/-- hyperplane.h:99 -/
def Cell.distance (S : Cell d N) (o : Sums d N) (x : FVec N) : Dbl :=
  let v : FVec N := fun k => (x k).sub (S.proj x k)
  sqrtD (dot v v o.sq)

/-- simplex.h:115-128 -/
def Cell.contains (S : Cell d N) (o : Sums d N) (eps : Dbl) (x : FVec N) : Loc :=
  if d ≠ N ∧ S.distance o x > eps then .outside
  else if ∃ i, S.bary o x i < eps.neg then .outside
  else
    let nonzeros := (Finset.univ.filter fun i => S.bary o x i > eps).card
    if nonzeros = 1 then .onVertex else if nonzeros = d then .onFace else .inside

/-! ### tree_search.h -/

/-- What `TreeSearch` reads of the mesh. -/
structure DMesh (d N : Nat) where
  cell : Nat → Cell d N
  n : Nat
  lo : Vec N
  hi : Vec N

/-- tree_search.h:54 : normalisation constants. -/
def DMesh.c (m : DMesh d N) (k : Fin N) : Dbl := recip ((Dbl.fin (m.hi k)).sub (.fin (m.lo k)))
/-- `(x - range().row(0)) * c_` -/
def DMesh.scale (m : DMesh d N) (x : FVec N) (k : Fin N) : Dbl := ((x k).sub (.fin (m.lo k))).mul (m.c k)
/-- An Eigen vector `<< a, b` of size 2 N. -/
def stackD (a b : FVec N) (k : Nat) : Dbl := if h : k < N then a ⟨k, h⟩ else if h : k - N < N then b ⟨k - N, h⟩ else .fin 0
/-- tree_search.h:55-62 : row `i` of the data of the tree. -/
def DMesh.data (m : DMesh d N) (i k : Nat) : Dbl :=
  stackD (m.scale fun k => .fin ((m.cell i).pts.boundingBox.1 k)) (m.scale fun k => .fin ((m.cell i).pts.boundingBox.2 k)) k
/-- tree_search.h:37-43 -/
def DMesh.query (m : DMesh d N) (p : FVec N) : Box Dbl := ⟨stackD (fun _ => .fin 0) (m.scale p), stackD (m.scale p) fun _ => .fin 1⟩

/-- tree_search.h:76-83 : `locate`; `nth` is `std::nth_element`, `ord` the order of the unordered set. -/
def DMesh.locate (m : DMesh d N) (o : Nat → Sums d N) (nth : Nat → Nat → List Nat → List Nat) (ord : List Nat → List Nat) (eps : Dbl) (p : FVec N) :
    Option (Res Int) :=
  match build nth m.data (2 * N) m.n with
  | some (.ok t) =>
    match rangeSearch m.data (2 * N) (m.query p) t m.n with
    | some (.ok l) => some (.ok (scanFirst (fun id => decide ((m.cell id).contains (o id) eps p ≠ .outside)) (ord l)))
    | some .throws => some .throws
    | some .ub => some .ub
    | none => none
  | some .throws => some .throws
  | some .ub => some .ub
  | none => none

/-! ### walk_search.h -/

/-- walk_search.h:44-54 from the cell `next`: `mincoeff` is Eigen's `minCoeff(&index)`, whatever it does with NaN. -/
def DMesh.walkLoop (m : DMesh N N) (o : Nat → Sums N N) (neigh : Nat → Fin (N + 1) → Int) (mincoeff : (Fin (N + 1) → Dbl) → Fin (N + 1)) (eps : Dbl) (p : FVec N) :
    Nat → Int → List Int → Option (Res Int)
  | 0, _, _ => none
  | fuel + 1, next, visited =>
    if 0 ≤ next ∧ next < m.n then
      let T := m.cell next.toNat
      if T.contains (o next.toNat) eps p = .outside ∨ next ∈ visited then
        m.walkLoop o neigh mincoeff eps p fuel (neigh next.toNat (mincoeff (T.bary (o next.toNat) p))) (next :: visited)
      else some (.ok (if T.contains (o next.toNat) eps p ≠ .outside then next else -1))
    else some .ub

/-! ### kd_tree.h -/

/-- kd_tree.h:91-95 : `walk_down` from a node. -/
def walkD (data : Nat → Nat → Dbl) (K : Nat) (p : Nat → Dbl) : BinTree.Tree Nat → List (BinTree.Tree Nat) → Res (List (BinTree.Tree Nat))
  | .nil, _ => .ub
  | .node l v dp r, st =>
    if l.isNil && r.isNil then .ok (.node l v dp r :: st)
    else if p (dp % K) < data v (dp % K) then walkD data K p l (.node l v dp r :: st)
    else walkD data K p r (.node l v dp r :: st)

/-- kd_tree.h:88-96 -/
def walkDownD (data : Nat → Nat → Dbl) (K : Nat) (p : Nat → Dbl) (t : BinTree.Tree Nat) (st : List (BinTree.Tree Nat)) : Res (List (BinTree.Tree Nat)) :=
  if t.isNil then .ok st else walkD data K p t st

/-- kd_tree.h:105 : square of the distance of row `i` from `p`. -/
def sqDistD (data : Nat → Nat → Dbl) {K : Nat} (p : Nat → Dbl) (o : Order K) (i : Nat) : Dbl :=
  let v : FVec K := fun k => (data i k).sub (p k)
  dot v v o

/-- kd_tree.h:100-117 : the unwinding loop; `best` is the node found so far (none at first, when `best` points nowhere) with its distance. -/
def nnLoopD (data : Nat → Nat → Dbl) {K : Nat} (p : Nat → Dbl) (o : Order K) :
    Nat → List (BinTree.Tree Nat) → Option Nat → Dbl → Option (Res (Option Nat))
  | _, [], best, _ => some (.ok best)
  | 0, _ :: _, _, _ => none
  | _ + 1, .nil :: _, _, _ => some .ub
  | fuel + 1, .node l v dp r :: st, best, dist =>
    let cd := sqDistD data p o v
    let r' := (data v (dp % K)).sub (p (dp % K))
    if cd < dist ∧ cd = .fin 0 then some (.ok (some v))
    else
      let best' := if cd < dist then some v else best
      let dist' := if cd < dist then cd else dist
      if r'.mul r' < dist' then
        match walkDownD data K p (if r' > .fin 0 then l else r) st with
        | .ok st' => nnLoopD data p o fuel st' best' dist'
        | .throws => some .throws
        | .ub => some .ub
      else nnLoopD data p o fuel st best' dist'

/-- kd_tree.h:82-118 : `nn_search`; the id of the node the result points to, `none` if it points nowhere. -/
def nnSearchD (data : Nat → Nat → Dbl) {K : Nat} (p : Nat → Dbl) (o : Order K) (t : BT Nat) (fuel : Nat) : Option (Res (Option Nat)) :=
  if t.n = 0 then some (.ok none)
  else match walkDownD data K p t.root [] with
    | .ok st => nnLoopD data p o fuel st none (.inf false)
    | .throws => some .throws
    | .ub => some .ub

end
end Fdapde.Geometry.Dp
