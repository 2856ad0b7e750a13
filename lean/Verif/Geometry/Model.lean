import Mathlib.Analysis.Real.Sqrt
import Mathlib.LinearAlgebra.Matrix.NonsingularInverse
import Mathlib.LinearAlgebra.CrossProduct
import Mathlib.Data.Fin.Tuple.Basic
/-
Model of fdaPDE/geometry/simplex.h and hyperplane.h.  Scalars are real numbers: rounding, infinities and NaN are not
modelled.  A fixed size Eigen vector is a function on `Fin N`.
-/
namespace Fdapde.Geometry
open Matrix
noncomputable section

abbrev Vec (N : Nat) := Fin N → ℝ

/-- `squaredNorm()`, `norm()`, `normalized()` of Eigen. -/
def sqNorm {N : Nat} (v : Vec N) : ℝ := v ⬝ᵥ v
def norm {N : Nat} (v : Vec N) : ℝ := Real.sqrt (sqNorm v)
def normalized {N : Nat} (v : Vec N) : Vec N := (norm v)⁻¹ • v

/-! ### hyperplane.h -/

/-- hyperplane.h:29-31 -/
def orthogonalProject {N : Nat} (v u : Vec N) : Vec N := (v ⬝ᵥ u / sqNorm u) • u

/-- Data members, hyperplane.h:37-41; the columns of `basis_` are a family of vectors. -/
structure HyperPlane (M N : Nat) where
  basis : Fin M → Vec N
  offset : ℝ
  normal : Vec N
  p : Vec N

/-- hyperplane.h:46-54 in the plane: the normal is `(-tmp[0], tmp[1])`; the result of `normal_.normalized()` is discarded. -/
def line2 (x1 x2 : Vec 2) : HyperPlane 1 2 :=
  let tmp := x2 - x1
  let nrm : Vec 2 := ![-tmp 0, tmp 1]
  ⟨fun _ => normalized tmp, -(x1 ⬝ᵥ nrm), nrm, x1⟩
/-- hyperplane.h:46-54 in space. -/
def line3 (x1 x2 : Vec 3) : HyperPlane 1 3 :=
  let tmp := x2 - x1
  let nrm : Vec 3 := ![-tmp 0, tmp 1, 0]
  ⟨fun _ => normalized tmp, -(x1 ⬝ᵥ nrm), nrm, x1⟩
/-- hyperplane.h:56-62 -/
def plane3 (x1 x2 x3 : Vec 3) : HyperPlane 2 3 :=
  let b0 := normalized (x2 - x1)
  let b1 := normalized ((x3 - x1) - orthogonalProject (x3 - x1) b0)
  let nrm := normalized ((x2 - x1) ⨯₃ (x3 - x1))
  ⟨![b0, b1], -(x1 ⬝ᵥ nrm), nrm, x1⟩

/-- hyperplane.h:71-76 : a column after the subtraction of its projections on the previous ones, one after the other. -/
def gsStep {N : Nat} (done : List (Vec N)) (v : Vec N) : Vec N := normalized (done.foldl (fun w q => w - orthogonalProject w q) v)
/-- hyperplane.h:69-77 : modified Gram-Schmidt orthonormalization of the columns. -/
def gramSchmidt {N : Nat} (cols : List (Vec N)) : List (Vec N) := cols.foldl (fun done v => done ++ [gsStep done v]) []
/-- hyperplane.h:67-80 : the constructor for M > 2.  As written the calls of `orthogonal_project` on columns of a matrix do not compile (the
size N is not deduced from a block expression); they are modelled as if the columns were converted to vectors.  The normal is an
element of the kernel of the matrix of the columns, which is zero for independent columns. -/
def general {M N : Nat} (coords : Fin (M + 1) → Vec N) : HyperPlane M N :=
  ⟨fun i => (gramSchmidt (List.ofFn fun j : Fin M => coords j.succ - coords 0)).getD i 0, 0, 0, coords 0⟩

variable {M N : Nat}

/-- hyperplane.h:82-91 : `project_onto`, for M < N. -/
def HyperPlane.projectOnto (h : HyperPlane M N) (x : Vec N) : Vec M := fun i => (x - h.p) ⬝ᵥ h.basis i
/-- hyperplane.h:92-98 : `basis_ * basis_.transpose() * (x - p_) + p_`, for M < N. -/
def HyperPlane.project (h : HyperPlane M N) (x : Vec N) : Vec N := (∑ i, ((x - h.p) ⬝ᵥ h.basis i) • h.basis i) + h.p
/-- hyperplane.h:99 -/
def HyperPlane.distance (h : HyperPlane M N) (x : Vec N) : ℝ := norm (x - h.project x)
/-- hyperplane.h:100 -/
def HyperPlane.eval (h : HyperPlane M N) (x : Vec N) : ℝ := h.normal ⬝ᵥ x + h.offset
/-- hyperplane.h:101-105 : point with the given coordinates. -/
def HyperPlane.point (h : HyperPlane M N) (c : Vec M) : Vec N := h.p + ∑ i, c i • h.basis i

/-! ### simplex.h -/

/-- `coords_` : column `v` is vertex `v`. -/
structure Simplex (d N : Nat) where
  coords : Fin (d + 1) → Vec N

variable {d : Nat}

/-- simplex.h:185 -/
def Simplex.J (S : Simplex d N) : Matrix (Fin N) (Fin d) ℝ := Matrix.of fun i j => S.coords j.succ i - S.coords 0 i
/-- simplex.h:186-191 : inverse if d = N, Penrose inverse otherwise. -/
def Simplex.invJ (S : Simplex d N) : Matrix (Fin d) (Fin N) ℝ :=
  if h : d = N then ((S.J.submatrix id (Fin.cast h.symm))⁻¹).submatrix (Fin.cast h) id
  else (S.Jᵀ * S.J)⁻¹ * S.Jᵀ
/-- simplex.h:188 : measure when d = N. -/
def Simplex.measure (S : Simplex N N) : ℝ := |S.J.det| / N.factorial
/-- simplex.h:192-193 : measure of a triangle in space and of a segment in the plane or in space. -/
def Simplex.measureTri (S : Simplex 2 3) : ℝ := 0.5 * norm ((fun i => S.J i 0) ⨯₃ (fun i => S.J i 1))
def Simplex.measureSeg (S : Simplex 1 N) : ℝ := norm (fun i => S.J i 0)
/-- simplex.h:61-63 -/
def Simplex.boundingBox (S : Simplex d N) : Vec N × Vec N :=
  (fun i => Finset.univ.inf' Finset.univ_nonempty fun v => S.coords v i,
   fun i => Finset.univ.sup' Finset.univ_nonempty fun v => S.coords v i)
/-- simplex.h:65-67 -/
def Simplex.barycenter (S : Simplex d N) : Vec N := S.J *ᵥ (fun _ => 1 / ((d : ℝ) + 1)) + S.coords 0
/-- simplex.h:69-74 -/
def Simplex.bary (S : Simplex d N) (p : Vec N) : Fin (d + 1) → ℝ :=
  let z := S.invJ *ᵥ (p - S.coords 0)
  Fin.cons (1 - ∑ j, z j) z

/-- simplex.h:78 -/
def Simplex.circumcenterSeg (S : Simplex 1 N) : Vec N := (1 / 2 : ℝ) • (S.coords 0 + S.coords 1)
/-- simplex.h:79-86 -/
def Simplex.circumcenterTri (S : Simplex 2 3) : Vec 3 :=
  let a := S.coords 1 - S.coords 0
  let b := S.coords 2 - S.coords 0
  let aXb := a ⨯₃ b
  S.coords 0 + (2 * sqNorm aXb)⁻¹ • (sqNorm b • (aXb ⨯₃ a) + sqNorm a • (b ⨯₃ aXb))
/-- simplex.h:87-98 -/
def Simplex.circumcenterFull (S : Simplex N N) : Vec N :=
  let M : Matrix (Fin N) (Fin N) ℝ := Matrix.of fun i j => S.coords i.succ j - S.coords 0 j
  let b : Vec N := fun i => sqNorm (S.coords i.succ) - sqNorm (S.coords 0)
  ((1 / 2 : ℝ) • M⁻¹) *ᵥ b

/-- simplex.h:114 -/
inductive Loc where
  | outside
  | inside
  | onFace
  | onVertex
  deriving DecidableEq

/-- simplex.h:119-127 : the part after the test on the supporting plane; `eps` is `machine_epsilon`. -/
def Simplex.containsB (eps : ℝ) (S : Simplex d N) (x : Vec N) : Loc :=
  let z := S.bary x
  open Classical in
  if ∃ i, z i < -eps then .outside
  else
    let nonzeros := (Finset.univ.filter fun i => z i > eps).card
    if nonzeros = 1 then .onVertex else if nonzeros = d then .onFace else .inside

/-- simplex.h:102-105 : distance of `x` from the supporting plane, for the instances with d < N in use. -/
def Simplex.planeDist : {d N : Nat} → Simplex d N → Vec N → ℝ
  | 1, 2, S, x => (line2 (S.coords 0) (S.coords 1)).distance x
  | 1, 3, S, x => (line3 (S.coords 0) (S.coords 1)).distance x
  | 2, 3, S, x => (plane3 (S.coords 0) (S.coords 1) (S.coords 2)).distance x
  | _, _, _, _ => 0

/-- simplex.h:115-128 -/
def Simplex.contains (eps : ℝ) (S : Simplex d N) (x : Vec N) : Loc :=
  open Classical in
  if d ≠ N ∧ S.planeDist x > eps then .outside else S.containsB eps x

/-- simplex.h:160-166 : the inside test of `nearest`. -/
def Simplex.nearInside (eps : ℝ) (S : Simplex d N) (p : Vec N) : Prop :=
  (∀ i, S.bary p i > -eps) ∧ (d ≠ N → S.planeDist p < eps)

/-- simplex.h:157-181 : `nearest`.  `srt n dst` is the permutation produced by `std::sort` on the indices 0, ..., n-1
with keys `dst`; how ties are broken is left open.  A simplex of order 0 is never asked. -/
def Simplex.nearest (eps : ℝ) (srt : (n : Nat) → (Fin n → ℝ) → Equiv.Perm (Fin n)) :
    {d : Nat} → Simplex d N → Vec N → Vec N
  | 0, S, _ => S.coords 0
  | 1, S, p =>
    open Classical in
    if S.nearInside eps p then p else if S.bary p 0 < 0 then S.coords 1 else S.coords 0
  | d + 2, S, p =>
    open Classical in
    if S.nearInside eps p then p
    else
      let idx := srt (d + 3) fun i => norm (S.coords i - p)
      Simplex.nearest eps srt (⟨fun i => S.coords (idx i.castSucc)⟩ : Simplex (d + 1) N) p

end
end Fdapde.Geometry
