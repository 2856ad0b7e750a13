import Verif.FEM.Space
import Verif.FEM.SpaceSpec
import Verif.FEM.PropsLagrange
import Verif.FEM.PropsEval
import Verif.FEM.PropsDofs
import Verif.Geometry.PropsSimplex
import Mathlib.Algebra.MvPolynomial.Degrees
import Mathlib.Analysis.Convex.Topology
import Mathlib.Topology.Algebra.MvPolynomial
/- C123: the finite element space consists of continuous functions. -/
set_option linter.unusedSectionVars false
namespace Fdapde.FEM
open Fdapde.Geometry Fdapde.Triang
variable {d N : Nat}

/-- Reproduction of polynomials on the reference simplex (C55) for Mathlib's polynomials. -/
theorem mv_reproduces (M R n : Nat) (h : Supported M R n) (q : MvPolynomial (Fin M) ℝ) (hq : q.totalDegree ≤ R) (x : Nat → ℝ) :
    ∑ i : Fin n, MvPolynomial.eval (fun z : Fin M => refNodesK ℝ M R i z) q * refBasis ℝ M R n i x =
      MvPolynomial.eval (fun z : Fin M => x z) q := by
  classical
  set toL : (Fin M →₀ ℕ) → List Nat := fun m => List.ofFn m with htoL
  have inj : Function.Injective toL := fun a b e => by
    have := List.ofFn_injective e
    exact DFunLike.coe_injective this
  set g : List Nat → ℝ := fun v => if hv : ∃ m, toL m = v then q.coeff hv.choose else 0
  have hg : ∀ m, g (toL m) = q.coeff m := by
    intro m
    have hv : ∃ m', toL m' = toL m := ⟨m, rfl⟩
    show (if hv : _ then _ else _) = _
    rw [dif_pos hv, inj hv.choose_spec]
  have hget : ∀ (m : Fin M →₀ ℕ) (z : Fin M), (toL m).getD z 0 = m z := by
    intro m z
    simp [htoL, List.getD_eq_getElem?_getD]
  have hev : ∀ y : Nat → ℝ, ∑ v ∈ q.support.image toL, g v * ∏ z ∈ Finset.range M, y z ^ v.getD z 0 =
      MvPolynomial.eval (fun z : Fin M => y z) q := by
    intro y
    rw [Finset.sum_image (fun a _ b _ e => inj e), MvPolynomial.eval_eq']
    refine Finset.sum_congr rfl fun m _ => ?_
    rw [hg, Finset.prod_range]
    simp only [hget]
  have := C55_reproduces (K := ℝ) M R n h (q.support.image toL) g (by
    intro v hv
    obtain ⟨m, hm, rfl⟩ := Finset.mem_image.1 hv
    refine ⟨by simp [htoL], ?_⟩
    rw [htoL, List.sum_ofFn]
    have := MvPolynomial.le_totalDegree hm
    rw [Finsupp.sum_fintype _ _ (by simp)] at this
    exact this.trans hq) x
  rw [hev] at this
  rw [← this]
  refine Finset.sum_congr rfl fun i _ => ?_
  rw [hev]

/-- A polynomial after a change of coordinates `x ↦ A x + b`. -/
noncomputable def aff (A : Matrix (Fin N) (Fin d) ℝ) (b : Fin N → ℝ) (q : MvPolynomial (Fin N) ℝ) : MvPolynomial (Fin d) ℝ :=
  MvPolynomial.aeval (fun i => (∑ j, MvPolynomial.C (A i j) * MvPolynomial.X j) + MvPolynomial.C (b i)) q

theorem aff_eval (A : Matrix (Fin N) (Fin d) ℝ) (b : Fin N → ℝ) (q : MvPolynomial (Fin N) ℝ) (x : Fin d → ℝ) :
    MvPolynomial.eval x (aff A b q) = MvPolynomial.eval (A.mulVec x + b) q := by
  rw [aff, MvPolynomial.aeval_def, MvPolynomial.eval₂_eq', map_sum, MvPolynomial.eval_eq']
  refine Finset.sum_congr rfl fun m _ => ?_
  rw [map_mul, map_prod]
  congr 1
  · simp [MvPolynomial.algebraMap_eq]
  · refine Finset.prod_congr rfl fun i _ => ?_
    rw [map_pow]
    congr 1
    simp [Matrix.mulVec, dotProduct]

theorem aff_degree (A : Matrix (Fin N) (Fin d) ℝ) (b : Fin N → ℝ) (q : MvPolynomial (Fin N) ℝ) : (aff A b q).totalDegree ≤ q.totalDegree := by
  rw [aff, MvPolynomial.aeval_def, MvPolynomial.eval₂_eq']
  refine MvPolynomial.totalDegree_finsetSum_le fun m hm => ?_
  refine (MvPolynomial.totalDegree_mul _ _).trans ?_
  rw [MvPolynomial.algebraMap_eq, MvPolynomial.totalDegree_C, zero_add]
  refine (MvPolynomial.totalDegree_finsetProd _ _).trans ?_
  have hm' := MvPolynomial.le_totalDegree hm
  rw [Finsupp.sum_fintype _ _ (by simp)] at hm'
  refine le_trans (Finset.sum_le_sum fun i _ => ?_) hm'
  refine (MvPolynomial.totalDegree_pow _ _).trans ?_
  have h1 : ((∑ j, MvPolynomial.C (A i j) * MvPolynomial.X j) + MvPolynomial.C (b i) : MvPolynomial (Fin d) ℝ).totalDegree ≤ 1 := by
    refine (MvPolynomial.totalDegree_add _ _).trans (max_le ?_ (by simp))
    refine MvPolynomial.totalDegree_finsetSum_le fun j _ => (MvPolynomial.totalDegree_mul _ _).trans ?_
    simp
  calc m i * _ ≤ m i * 1 := Nat.mul_le_mul_left _ h1
    _ = m i := mul_one _

/-! ### Barycentric coordinates -/

theorem region_hull (cells : Nat → Nat → Nat) (X : Nat → Vec N) (c : Nat) :
    region (d + 1) cells X c = convexHull ℝ (Set.range (cellOf d cells X c).coords) := by
  unfold region
  congr 1
  ext x
  simp only [Set.mem_ofPred_eq, Set.mem_range, cellOf]
  exact ⟨fun ⟨v, hv, e⟩ => ⟨⟨v, hv⟩, e.symm⟩, fun ⟨v, e⟩ => ⟨v, v.2, e.symm⟩⟩

theorem proper_nondeg {n : Nat} {cells : Nat → Nat → Nat} {X : Nat → Vec N} (h : Proper (d + 1) n cells X) {c : Nat} (hc : c < n) :
    (cellOf d cells X c).Nondeg := h c hc

theorem proper_inj {n : Nat} {cells : Nat → Nat → Nat} {X : Nat → Vec N} (h : Proper (d + 1) n cells X) {c : Nat} (hc : c < n)
    {v w : Fin (d + 1)} (e : cells c v = cells c w) : v = w :=
  (h c hc).injective (by show X _ = X _; rw [e])

/-- Weight of node `y` in the barycentric coordinates of `p` in cell `c`. -/
noncomputable def wt (d : Nat) (cells : Nat → Nat → Nat) (X : Nat → Vec N) (c : Nat) (p : Vec N) (y : Nat) : ℝ :=
  ∑ v : Fin (d + 1), if cells c v = y then (cellOf d cells X c).bary p v else 0

theorem wt_node {n : Nat} {cells : Nat → Nat → Nat} {X : Nat → Vec N} (h : Proper (d + 1) n cells X) {c : Nat} (hc : c < n) (p : Vec N)
    (v : Fin (d + 1)) : wt d cells X c p (cells c v) = (cellOf d cells X c).bary p v := by
  unfold wt
  rw [Finset.sum_eq_single v]
  · rw [if_pos rfl]
  · intro w _ hw
    rw [if_neg fun e => hw (proper_inj h hc e)]
  · simp

theorem wt_other {cells : Nat → Nat → Nat} {X : Nat → Vec N} {c : Nat} (p : Vec N) {y : Nat} (hy : ∀ v < d + 1, cells c v ≠ y) :
    wt d cells X c p y = 0 :=
  Finset.sum_eq_zero fun v _ => if_neg (hy v v.2)

/-- The weights of a point in the hull of some nodes of a cell vanish at the other nodes, and any weights with the same sum on
nodes of the cell are these. -/
theorem wt_of_hull {n : Nat} {cells : Nat → Nat → Nat} {X : Nat → Vec N} (h : Proper (d + 1) n cells X) {c : Nat} (hc : c < n) {p : Vec N}
    (A : Finset Nat) (hA : ∀ y ∈ A, ∃ v < d + 1, cells c v = y) (μ : Nat → ℝ) (h1 : ∑ y ∈ A, μ y = 1) (hp : ∑ y ∈ A, μ y • X y = p) :
    ∀ y, wt d cells X c p y = if y ∈ A then μ y else 0 := by
  classical
  have hinj : ∀ (f : Nat → Vec N), ∑ v : Fin (d + 1), (if cells c v ∈ A then f (cells c v) else 0) = ∑ y ∈ A, f y := by
    intro f
    rw [← Finset.sum_filter]
    refine Finset.sum_bij (fun v _ => cells c v) (by simp) (fun v _ w _ e => proper_inj h hc e) (fun y hy => ?_) (fun _ _ => rfl)
    obtain ⟨v, hv, e⟩ := hA y hy
    exact ⟨⟨v, hv⟩, by simp [e, hy], e⟩
  have hinj' : ∀ (f : Nat → ℝ), ∑ v : Fin (d + 1), (if cells c v ∈ A then f (cells c v) else 0) = ∑ y ∈ A, f y := by
    intro f
    rw [← Finset.sum_filter]
    refine Finset.sum_bij (fun v _ => cells c v) (by simp) (fun v _ w _ e => proper_inj h hc e) (fun y hy => ?_) (fun _ _ => rfl)
    obtain ⟨v, hv, e⟩ := hA y hy
    exact ⟨⟨v, hv⟩, by simp [e, hy], e⟩
  have hb := C42_unique (proper_nondeg h hc) p (fun v => if cells c v ∈ A then μ (cells c v) else 0)
    (by rw [hinj' μ, h1]) (by
      rw [← hp, ← hinj fun y => μ y • X y]
      refine Finset.sum_congr rfl fun v _ => ?_
      split_ifs
      · rfl
      · simp)
  intro y
  by_cases hy : ∃ v < d + 1, cells c v = y
  · obtain ⟨v, hv, rfl⟩ := hy
    rw [wt_node h hc p ⟨v, hv⟩, hb]
  · push Not at hy
    rw [wt_other p hy, if_neg]
    intro hA'
    obtain ⟨v, hv, e⟩ := hA y hA'
    exact hy v hv e

/-- On a conforming mesh the weights of a point do not depend on the cell. -/
theorem wt_same {n : Nat} {cells : Nat → Nat → Nat} {X : Nat → Vec N} (h : Proper (d + 1) n cells X) (hf : Conforming (d + 1) n cells X)
    {c c' : Nat} (hc : c < n) (hc' : c' < n) {p : Vec N} (hp : p ∈ region (d + 1) cells X c) (hp' : p ∈ region (d + 1) cells X c') :
    wt d cells X c p = wt d cells X c' p := by
  classical
  have hm := hf c hc c' hc' ⟨hp, hp'⟩
  set A : Finset Nat := (Finset.range (d + 1)).image (cells c) ∩ (Finset.range (d + 1)).image (cells c') with hA
  have e : {x | ∃ v < d + 1, ∃ w < d + 1, cells c v = cells c' w ∧ x = X (cells c v)} = X '' (A : Set Nat) := by
    ext x
    simp only [Set.mem_ofPred_eq, Set.mem_image, Finset.mem_coe, hA, Finset.mem_inter, Finset.mem_image, Finset.mem_range]
    constructor
    · rintro ⟨v, hv, w, hw, e, rfl⟩
      exact ⟨cells c v, ⟨⟨v, hv, rfl⟩, ⟨w, hw, e.symm⟩⟩, rfl⟩
    · rintro ⟨y, ⟨⟨v, hv, rfl⟩, ⟨w, hw, e⟩⟩, rfl⟩
      exact ⟨v, hv, w, hw, e.symm, rfl⟩
  rw [e] at hm
  have hm' : ∃ μ : Nat → ℝ, ∑ y ∈ A, μ y = 1 ∧ ∑ y ∈ A, μ y • X y = p := by
    have hinj : Set.InjOn X (A : Set Nat) := by
      intro a ha b hb e
      obtain ⟨v, hv, rfl⟩ := Finset.mem_image.1 (Finset.mem_inter.1 (Finset.mem_coe.1 ha)).1
      obtain ⟨w, hw, rfl⟩ := Finset.mem_image.1 (Finset.mem_inter.1 (Finset.mem_coe.1 hb)).1
      have := (h c hc).injective (a₁ := ⟨v, Finset.mem_range.1 hv⟩) (a₂ := ⟨w, Finset.mem_range.1 hw⟩) e
      rw [Fin.mk.injEq] at this
      rw [this]
    rw [← Finset.coe_image, Finset.mem_convexHull'] at hm
    obtain ⟨w, _, hw1, hw2⟩ := hm
    refine ⟨fun y => w (X y), ?_, ?_⟩
    · rw [← hw1, Finset.sum_image hinj]
    · rw [← hw2, Finset.sum_image hinj]
  obtain ⟨μ, h1, h2⟩ := hm'
  funext y
  rw [wt_of_hull h hc A (fun y hy => by
      obtain ⟨v, hv, e⟩ := Finset.mem_image.1 (Finset.mem_inter.1 hy).1
      exact ⟨v, Finset.mem_range.1 hv, e⟩) μ h1 h2,
    wt_of_hull h hc' A (fun y hy => by
      obtain ⟨v, hv, e⟩ := Finset.mem_image.1 (Finset.mem_inter.1 hy).2
      exact ⟨v, Finset.mem_range.1 hv, e⟩) μ h1 h2]

/-! ### Values of the basis functions -/

/-- The barycentric coordinates as polynomials on the reference simplex. -/
noncomputable def lam (M : Nat) (v : Fin (M + 1)) : MvPolynomial (Fin M) ℝ :=
  Fin.cons (α := fun _ => MvPolynomial (Fin M) ℝ) (1 - ∑ z, MvPolynomial.X z) (fun z => MvPolynomial.X z) v

theorem lam_degree (M : Nat) (v : Fin (M + 1)) : (lam M v).totalDegree ≤ 1 := by
  refine Fin.cases ?_ (fun z => ?_) v
  · refine (MvPolynomial.totalDegree_sub _ _).trans (max_le (by simp) ?_)
    exact MvPolynomial.totalDegree_finsetSum_le fun z _ => by simp
  · simp [lam]

/-- At the point of the reference simplex that corresponds to `p` they are the barycentric coordinates of `p`. -/
theorem lam_bary (S : Simplex d N) (p : Vec N) (v : Fin (d + 1)) :
    MvPolynomial.eval (fun z : Fin d => refPoint S p z) (lam d v) = S.bary p v := by
  have h : ∀ z : Fin d, refPoint S p z = (S.invJ.mulVec (p - S.coords 0)) z := fun z => dif_pos z.2
  refine Fin.cases ?_ (fun z => ?_) v
  · simp [lam, Simplex.bary, h]
  · simp [lam, Simplex.bary, h]

theorem supported1 {M : Nat} (hM : M ∈ [1, 2, 3]) : Supported M 1 (M + 1) := by
  simp only [List.mem_cons, List.not_mem_nil, or_false] at hM
  rcases hM with rfl | rfl | rfl <;> (unfold Supported; decide)

theorem nodes1 {M : Nat} (hM : M ∈ [1, 2, 3]) (i : Fin (M + 1)) (z : Fin M) :
    refNodesK ℝ M 1 i z = if i = z.succ then 1 else 0 := by
  simp only [List.mem_cons, List.not_mem_nil, or_false] at hM
  rcases hM with rfl | rfl | rfl <;> fin_cases i <;> fin_cases z <;> simp [refNodesK, refNodes, look, Fin.ext_iff]

theorem lam_nodes1 {M : Nat} (hM : M ∈ [1, 2, 3]) (i v : Fin (M + 1)) :
    MvPolynomial.eval (fun z : Fin M => refNodesK ℝ M 1 i z) (lam M v) = if i = v then 1 else 0 := by
  simp only [nodes1 hM]
  refine Fin.cases ?_ (fun z => ?_) v
  · simp only [lam, Fin.cons_zero, map_sub, map_one, map_sum, MvPolynomial.eval_X]
    refine Fin.cases ?_ (fun w => ?_) i
    · simp [Fin.ext_iff]
    · simp [Fin.succ_inj, Fin.succ_ne_zero]
  · simp [lam]

/-- First order basis functions are the barycentric coordinates. -/
theorem basis1 {M : Nat} (hM : M ∈ [1, 2, 3]) (v : Fin (M + 1)) (x : Nat → ℝ) :
    refBasis ℝ M 1 (M + 1) v x = MvPolynomial.eval (fun z : Fin M => x z) (lam M v) := by
  rw [← mv_reproduces M 1 (M + 1) (supported1 hM) (lam M v) (lam_degree M v) x]
  simp [lam_nodes1 hM]

/-- The local edges of a triangle: first and second node of edge `j`. -/
def ea : Fin 3 → Fin 3 := ![0, 0, 1]
def eb : Fin 3 → Fin 3 := ![1, 2, 2]

theorem supported22 : Supported 2 2 6 := by unfold Supported; decide

theorem nodes2 (i : Fin 6) : (refNodesK ℝ 2 2 i 0, refNodesK ℝ 2 2 i 1) =
    (![(0, 0), (1, 0), (0, 1), (1 / 2, 0), (0, 1 / 2), (1 / 2, 1 / 2)] : Fin 6 → ℝ × ℝ) i := by
  fin_cases i <;> simp [refNodesK, refNodes, look]

/-- Second order basis functions of the vertices and of the edges of a triangle. -/
noncomputable def quad (h : Fin 6) : MvPolynomial (Fin 2) ℝ :=
  if hh : h.1 < 3 then lam 2 ⟨h, hh⟩ * (2 * lam 2 ⟨h, hh⟩ - 1)
  else 4 * lam 2 (ea ⟨h.1 - 3, by omega⟩) * lam 2 (eb ⟨h.1 - 3, by omega⟩)

theorem quad_degree (h : Fin 6) : (quad h).totalDegree ≤ 2 := by
  unfold quad
  have hC : ∀ k : Nat, (k : MvPolynomial (Fin 2) ℝ).totalDegree = 0 := fun k => by
    rw [← map_natCast (MvPolynomial.C (σ := Fin 2) (R := ℝ)), MvPolynomial.totalDegree_C]
  split_ifs with hh
  · refine (MvPolynomial.totalDegree_mul _ _).trans ?_
    have h1 := lam_degree 2 ⟨h, hh⟩
    have h2 : (2 * lam 2 ⟨h, hh⟩ - 1 : MvPolynomial (Fin 2) ℝ).totalDegree ≤ 1 := by
      refine (MvPolynomial.totalDegree_sub _ _).trans (max_le ?_ (by simp))
      refine (MvPolynomial.totalDegree_mul _ _).trans ?_
      have := hC 2
      push_cast at this
      omega
    omega
  · refine (MvPolynomial.totalDegree_mul _ _).trans ?_
    have h1 := lam_degree 2 (ea ⟨h.1 - 3, by omega⟩)
    have h2 := lam_degree 2 (eb ⟨h.1 - 3, by omega⟩)
    have h3 := MvPolynomial.totalDegree_mul (4 : MvPolynomial (Fin 2) ℝ) (lam 2 (ea ⟨h.1 - 3, by omega⟩))
    have := hC 4
    push_cast at this
    omega

theorem lam_two (x : Fin 2 → ℝ) (v : Fin 3) : MvPolynomial.eval x (lam 2 v) = ![1 - (x 0 + x 1), x 0, x 1] v := by
  refine Fin.cases ?_ (fun z => ?_) v
  · simp [lam, Fin.sum_univ_succ]
  · show MvPolynomial.eval x (MvPolynomial.X z) = _
    rw [MvPolynomial.eval_X]
    fin_cases z <;> rfl

theorem quad_nodes (i h : Fin 6) : MvPolynomial.eval (fun z : Fin 2 => refNodesK ℝ 2 2 i z) (quad h) = if i = h then 1 else 0 := by
  have e : (fun z : Fin 2 => refNodesK ℝ 2 2 i z) = ![(![(0, 0), (1, 0), (0, 1), (1 / 2, 0), (0, 1 / 2), (1 / 2, 1 / 2)] : Fin 6 → ℝ × ℝ) i |>.1,
      (![(0, 0), (1, 0), (0, 1), (1 / 2, 0), (0, 1 / 2), (1 / 2, 1 / 2)] : Fin 6 → ℝ × ℝ) i |>.2] := by
    rw [← nodes2 i]
    funext z
    fin_cases z <;> rfl
  rw [e]
  fin_cases i <;> fin_cases h <;> norm_num [quad, lam_two, ea, eb] <;>
    first | rfl | (show 2 * (1 / 2 : ℝ) = 1; norm_num)

theorem basis2 (h : Fin 6) (x : Nat → ℝ) : refBasis ℝ 2 2 6 h x = MvPolynomial.eval (fun z : Fin 2 => x z) (quad h) := by
  rw [← mv_reproduces 2 2 6 supported22 (quad h) (quad_degree h) x]
  simp [quad_nodes]

/-! ### Functions of the space -/

/-- Value at `p` of the function with coefficients `u`, computed in cell `c`. -/
noncomputable def valIn (d R nb : Nat) (cells dofs : Nat → Nat → Nat) (X : Nat → Vec N) (u : Nat → ℝ) (c : Nat) (p : Vec N) : ℝ :=
  ∑ h : Fin nb, u (dofs c h) * refBasis ℝ d R nb h (refPoint (cellOf d cells X c) p)

/-- The evaluation matrix times the coefficients. -/
theorem row_val (d R nb nc size : Nat) (cells dofs : Nat → Nat → Nat) (X : Nat → Vec N) (ids : List Int) (locs : Nat → Vec N) (hne : ids ≠ [])
    (hid : ∀ id ∈ ids, id = -1 ∨ (0 ≤ id ∧ id.toNat < nc))
    (hinj : ∀ c < nc, ∀ h < nb, ∀ h' < nb, dofs c h = dofs c h' → h = h') (hlt : ∀ c < nc, ∀ h < nb, dofs c h < size) :
    ∃ l, pointEval nc nb dofs ids (psiAt d R nb cells X locs) = .ok l ∧ ∀ u : Nat → ℝ,
      (∀ i, ids[i]? = some (-1) → ∑ j ∈ Finset.range size, entry l i j * u j = 0) ∧
      ∀ i c : Nat, ids[i]? = some (c : Int) → ∑ j ∈ Finset.range size, entry l i j * u j = valIn d R nb cells dofs X u c (locs i) := by
  obtain ⟨l, h1, h2, h3⟩ := C58_pointwise nc nb size dofs ids (psiAt d R nb cells X locs) hne hid hinj hlt
  refine ⟨l, h1, fun u => ⟨fun i hi => Finset.sum_eq_zero fun j _ => by rw [h2 i j hi, zero_mul], fun i c hi => ?_⟩⟩
  have hc : c < nc := by
    rcases hid _ (List.mem_of_getElem? hi) with h | h
    · omega
    · simpa using h.2
  obtain ⟨e1, e2, _⟩ := h3 i c hi
  rw [← Finset.sum_subset (s₁ := (Finset.range nb).image (dofs c))]
  · rw [Finset.sum_image fun a ha b hb e => hinj c hc a (Finset.mem_range.1 ha) b (Finset.mem_range.1 hb) e, valIn, Finset.sum_range]
    refine Finset.sum_congr rfl fun h _ => ?_
    rw [e1 h h.2, psiAt, dif_pos h.2, mul_comm]
  · intro j hj
    obtain ⟨h, hh, rfl⟩ := Finset.mem_image.1 hj
    exact Finset.mem_range.2 (hlt c hc h (Finset.mem_range.1 hh))
  · intro j _ hj
    rw [e2 j fun h hh e => hj (Finset.mem_image.2 ⟨h, Finset.mem_range.2 hh, e⟩), zero_mul]

/-- Functions which agree where the pieces meet make one continuous function. -/
theorem glue {E : Type} [TopologicalSpace E] (n : Nat) (reg : Nat → Set E) (f : Nat → E → ℝ) (hcl : ∀ c < n, IsClosed (reg c))
    (hf : ∀ c < n, Continuous (f c)) (hag : ∀ c < n, ∀ c' < n, ∀ p, p ∈ reg c → p ∈ reg c' → f c p = f c' p) :
    ∃ F : E → ℝ, ContinuousOn F (⋃ c ∈ {c | c < n}, reg c) ∧ ∀ c < n, ∀ p ∈ reg c, F p = f c p := by
  classical
  set F : E → ℝ := fun p => if h : ∃ c < n, p ∈ reg c then f h.choose p else 0
  have hF : ∀ c < n, ∀ p ∈ reg c, F p = f c p := by
    intro c hc p hp
    have h : ∃ c < n, p ∈ reg c := ⟨c, hc, hp⟩
    show (if h : _ then _ else _) = _
    rw [dif_pos h]
    exact hag _ h.choose_spec.1 c hc p h.choose_spec.2 hp
  refine ⟨F, ?_, hF⟩
  have hU : (⋃ c ∈ {c | c < n}, reg c) = ⋃ c : Fin n, reg c := by
    ext p
    simp only [Set.mem_iUnion, Set.mem_ofPred_eq, exists_prop]
    exact ⟨fun ⟨c, h1, h2⟩ => ⟨⟨c, h1⟩, h2⟩, fun ⟨c, h⟩ => ⟨c, c.2, h⟩⟩
  rw [hU]
  refine LocallyFinite.continuousOn_iUnion (locallyFinite_of_finite _) (fun c => hcl c c.2) fun c => ?_
  exact (hf c c.2).continuousOn.congr fun p hp => hF c c.2 p hp

theorem bary_continuous (S : Simplex d N) (v : Fin (d + 1)) : Continuous fun p => S.bary p v := by
  have hz : ∀ z : Fin d, Continuous fun p : Vec N => (S.invJ.mulVec (p - S.coords 0)) z := by
    intro z
    unfold Matrix.mulVec dotProduct
    fun_prop
  refine Fin.cases ?_ (fun z => ?_) v
  · show Continuous fun p => 1 - ∑ j, (S.invJ.mulVec (p - S.coords 0)) j
    exact continuous_const.sub (continuous_finset_sum _ fun z _ => hz z)
  · exact hz z

theorem wt_continuous (cells : Nat → Nat → Nat) (X : Nat → Vec N) (c y : Nat) : Continuous fun p => wt d cells X c p y := by
  unfold wt
  refine continuous_finset_sum _ fun v _ => ?_
  split_ifs
  · exact bary_continuous _ v
  · exact continuous_const

theorem region_closed (nn : Nat) (cells : Nat → Nat → Nat) (X : Nat → Vec N) (c : Nat) : IsClosed (region nn cells X c) := by
  unfold region
  refine (Set.Finite.isCompact_convexHull ℝ ?_).isClosed
  refine ((Set.finite_Iio nn).image fun v => X (cells c v)).subset ?_
  rintro x ⟨v, hv, rfl⟩
  exact ⟨v, hv, rfl⟩

theorem sum_nodes {n : Nat} {cells : Nat → Nat → Nat} {X : Nat → Vec N} (h : Proper (d + 1) n cells X) {nNodes : Nat}
    (hlt : ∀ c < n, ∀ v < d + 1, cells c v < nNodes) {c : Nat} (hc : c < n) (p : Vec N) (g : Nat → ℝ → ℝ) (g0 : ∀ y, g y 0 = 0) :
    ∑ v : Fin (d + 1), g (cells c v) ((cellOf d cells X c).bary p v) = ∑ y ∈ Finset.range nNodes, g y (wt d cells X c p y) := by
  rw [← Finset.sum_subset (s₁ := (Finset.univ : Finset (Fin (d + 1))).image fun v : Fin (d + 1) => cells c v)]
  · rw [Finset.sum_image fun a _ b _ e => proper_inj h hc e]
    exact Finset.sum_congr rfl fun v _ => by rw [wt_node h hc]
  · intro y hy
    obtain ⟨v, _, rfl⟩ := Finset.mem_image.1 hy
    exact Finset.mem_range.2 (hlt c hc v v.2)
  · intro y _ hy
    rw [wt_other p fun v hv e => hy (Finset.mem_image.2 ⟨⟨v, hv⟩, Finset.mem_univ _, e⟩), g0]

theorem val1 {M : Nat} (hM : M ∈ [1, 2, 3]) {n : Nat} {cells : Nat → Nat → Nat} {X : Nat → Vec N} (h : Proper (M + 1) n cells X) {nNodes : Nat}
    (hlt : ∀ c < n, ∀ v < M + 1, cells c v < nNodes) (u : Nat → ℝ) {c : Nat} (hc : c < n) (p : Vec N) :
    valIn M 1 (M + 1) cells cells X u c p = ∑ y ∈ Finset.range nNodes, u y * wt M cells X c p y := by
  rw [← sum_nodes h hlt hc p (fun y t => u y * t) (by simp), valIn]
  exact Finset.sum_congr rfl fun v _ => by rw [basis1 hM, lam_bary]

/-! ### Nodes, polynomials -/

/-- The basis functions of an element are polynomials `B`. -/
structure Shape (d R nb : Nat) (B : Fin nb → MvPolynomial (Fin d) ℝ) : Prop where
  sup : Supported d R nb
  deg : ∀ h, (B h).totalDegree ≤ R
  basis : ∀ h x, refBasis ℝ d R nb h x = MvPolynomial.eval (fun z : Fin d => x z) (B h)
  nodal : ∀ i h : Fin nb, MvPolynomial.eval (fun z : Fin d => refNodesK ℝ d R i z) (B h) = if i = h then 1 else 0

theorem shape1 {M : Nat} (hM : M ∈ [1, 2, 3]) : Shape M 1 (M + 1) (lam M) :=
  ⟨supported1 hM, lam_degree M, basis1 hM, lam_nodes1 hM⟩

theorem shape2 : Shape 2 2 6 quad := ⟨supported22, quad_degree, basis2, quad_nodes⟩

/-- Image of the `i`-th node of the reference simplex. -/
noncomputable def nodeIn (d R : Nat) (cells : Nat → Nat → Nat) (X : Nat → Vec N) (c i : Nat) : Vec N :=
  (cellOf d cells X c).J.mulVec (fun z : Fin d => refNodesK ℝ d R i z) + (cellOf d cells X c).coords 0

theorem refPoint_of {S : Simplex d N} (hS : S.Nondeg) (x : Fin d → ℝ) (z : Fin d) : refPoint S (S.J.mulVec x + S.coords 0) z = x z := by
  rw [refPoint, dif_pos z.2, add_sub_cancel_right, Matrix.mulVec_mulVec, Simplex.invJ_mul_J hS, Matrix.one_mulVec]

theorem refPoint_back {S : Simplex d N} (hS : S.Nondeg) {p : Vec N} (hp : p ∈ convexHull ℝ (Set.range S.coords)) :
    S.J.mulVec (fun z : Fin d => refPoint S p z) + S.coords 0 = p := by
  have h1 := C42_reconstruct hS p (convexHull_subset_affineSpan _ hp)
  rw [Simplex.bary_combo, add_comm] at h1
  have e : (fun z : Fin d => refPoint S p z) = S.invJ.mulVec (p - S.coords 0) := funext fun z => dif_pos z.2
  rw [e, h1]

theorem val_node {R nb : Nat} {B : Fin nb → MvPolynomial (Fin d) ℝ} (hB : Shape d R nb B) {n : Nat} {cells dofs : Nat → Nat → Nat} {X : Nat → Vec N}
    (h : Proper (d + 1) n cells X) (u : Nat → ℝ) {c : Nat} (hc : c < n) (i : Fin nb) :
    valIn d R nb cells dofs X u c (nodeIn d R cells X c i) = u (dofs c i) := by
  rw [valIn, Finset.sum_eq_single i]
  · simp only [hB.basis, nodeIn, refPoint_of (proper_nondeg h hc), hB.nodal, if_true, mul_one]
  · intro j _ hj
    simp only [hB.basis, nodeIn, refPoint_of (proper_nondeg h hc), hB.nodal]
    rw [if_neg (Ne.symm hj), mul_zero]
  · simp

theorem val_poly {R nb : Nat} {B : Fin nb → MvPolynomial (Fin d) ℝ} (hB : Shape d R nb B) {n : Nat} {cells dofs : Nat → Nat → Nat} {X : Nat → Vec N}
    (h : Proper (d + 1) n cells X) (u : Nat → ℝ) {c : Nat} (hc : c < n) (q : MvPolynomial (Fin N) ℝ) (hq : q.totalDegree ≤ R)
    (hu : ∀ i : Fin nb, u (dofs c i) = MvPolynomial.eval (nodeIn d R cells X c i) q) {p : Vec N} (hp : p ∈ region (d + 1) cells X c) :
    valIn d R nb cells dofs X u c p = MvPolynomial.eval p q := by
  rw [region_hull] at hp
  have := mv_reproduces d R nb hB.sup (aff (cellOf d cells X c).J ((cellOf d cells X c).coords 0) q) ((aff_degree _ _ q).trans hq)
    (refPoint (cellOf d cells X c) p)
  rw [aff_eval, refPoint_back (proper_nondeg h hc) hp] at this
  rw [← this, valIn]
  refine Finset.sum_congr rfl fun i _ => ?_
  rw [hu, aff_eval]
  rfl

/-- In a cell the functions are polynomials. -/
theorem val_piece {R nb : Nat} {B : Fin nb → MvPolynomial (Fin d) ℝ} (hB : Shape d R nb B) (cells dofs : Nat → Nat → Nat) (X : Nat → Vec N)
    (u : Nat → ℝ) (c : Nat) : ∃ q : MvPolynomial (Fin N) ℝ, q.totalDegree ≤ R ∧ ∀ p, valIn d R nb cells dofs X u c p = MvPolynomial.eval p q := by
  set S := cellOf d cells X c
  refine ⟨∑ h : Fin nb, MvPolynomial.C (u (dofs c h)) * aff S.invJ (-(S.invJ.mulVec (S.coords 0))) (B h), ?_, fun p => ?_⟩
  · refine MvPolynomial.totalDegree_finsetSum_le fun h _ => (MvPolynomial.totalDegree_mul _ _).trans ?_
    rw [MvPolynomial.totalDegree_C, zero_add]
    exact (aff_degree _ _ _).trans (hB.deg h)
  · rw [map_sum, valIn]
    refine Finset.sum_congr rfl fun h _ => ?_
    rw [map_mul, MvPolynomial.eval_C, aff_eval, hB.basis]
    have e : (fun z : Fin d => refPoint S p z) = S.invJ.mulVec p + -(S.invJ.mulVec (S.coords 0)) := by
      rw [← sub_eq_add_neg, ← Matrix.mulVec_sub]
      exact funext fun z => dif_pos z.2
    rw [e]

theorem nodeIn1 {M : Nat} (hM : M ∈ [1, 2, 3]) (cells : Nat → Nat → Nat) (X : Nat → Vec N) (c : Nat) (i : Fin (M + 1)) :
    nodeIn M 1 cells X c i = X (cells c i) := by
  simp only [nodeIn, nodes1 hM]
  rw [Simplex.J_mulVec]
  refine Fin.cases ?_ (fun w => ?_) i
  · simp [Fin.ext_iff, cellOf]
  · simp [Fin.succ_inj, cellOf]

/-! ### Second order -/

theorem nodeIn2 (cells : Nat → Nat → Nat) (X : Nat → Vec N) (c : Nat) :
    (∀ v : Fin 3, nodeIn 2 2 cells X c v = X (cells c v)) ∧
    ∀ j : Fin 3, nodeIn 2 2 cells X c (3 + j) = (1 / 2 : ℝ) • (X (cells c (ea j)) + X (cells c (eb j))) := by
  have hJ : ∀ x : Fin 2 → ℝ, (cellOf 2 cells X c).J.mulVec x + (cellOf 2 cells X c).coords 0 =
      (1 - x 0 - x 1) • X (cells c 0) + x 0 • X (cells c 1) + x 1 • X (cells c 2) := by
    intro x
    rw [Simplex.J_mulVec]
    simp only [Fin.sum_univ_two, cellOf, smul_sub, sub_smul, one_smul]
    show x 0 • X (cells c 1) - x 0 • X (cells c 0) + (x 1 • X (cells c 2) - x 1 • X (cells c 0)) + X (cells c 0) = _
    abel
  constructor
  · intro v
    rw [nodeIn, hJ]
    fin_cases v <;> simp [refNodesK, refNodes, look]
  · intro j
    rw [nodeIn, hJ]
    fin_cases j <;> norm_num [refNodesK, refNodes, look, ea, eb] <;> rfl

/-- The nodes of the edge of `c` which carries local dof `3 + j`. -/
theorem facet_perm {cells : Nat → Nat → Nat} {c : Nat} (hd : ∀ v < 3, ∀ w < 3, cells c v = cells c w → v = w) (j : Fin 3) {k : List Nat}
    (hf : IsFacet cells 3 c (2 - j) k) : k.Perm [cells c (ea j), cells c (eb j)] := by
  rw [List.perm_ext_iff_of_nodup (hf.1.imp (fun h => Nat.ne_of_lt h))]
  · intro x
    rw [hf.2]
    simp only [List.mem_cons, List.not_mem_nil, or_false]
    constructor
    · rintro ⟨w, hw, hne, rfl⟩
      fin_cases j <;> simp [ea, eb] at hne ⊢ <;>
        rcases (by omega : w = 0 ∨ w = 1 ∨ w = 2) with rfl | rfl | rfl <;> simp_all
    · rintro (rfl | rfl)
      · exact ⟨ea j, (ea j).2, by fin_cases j <;> simp [ea], rfl⟩
      · exact ⟨eb j, (eb j).2, by fin_cases j <;> simp [eb], rfl⟩
  · have : (ea j : Nat) ≠ eb j := by fin_cases j <;> simp [ea, eb]
    simp only [List.nodup_cons, List.mem_singleton, List.not_mem_nil, not_false_eq_true, List.nodup_nil, and_true]
    exact fun e => this (hd _ (ea j).2 _ (eb j).2 e)

/-- Two nodes of `c` on an edge of the mesh are on an edge of `c`. -/
theorem facet_mine {cells : Nat → Nat → Nat} {n c c' v : Nat} (hm : Manifold cells 3 n) (hc' : c' < n) (hv : v < 3) {k : List Nat}
    (hf : IsFacet cells 3 c' v k) (hk : ∀ x ∈ k, ∃ w < 3, cells c w = x) : ∃ j : Fin 3, IsFacet cells 3 c (2 - j) k := by
  have hp := facet_perm (hm.distinct c' hc') ⟨2 - v, by omega⟩ (k := k) (by
    rw [show 2 - ((⟨2 - v, by omega⟩ : Fin 3) : Nat) = v by show 2 - (2 - v) = v; omega]; exact hf)
  set x := cells c' (ea ⟨2 - v, by omega⟩)
  set y := cells c' (eb ⟨2 - v, by omega⟩)
  have hxy : x ≠ y := by
    have := hp.nodup_iff.1 (hf.1.imp (fun h => Nat.ne_of_lt h))
    simpa using this
  obtain ⟨a, ha, ea'⟩ := hk x (hp.mem_iff.2 (by simp))
  obtain ⟨b, hb, eb'⟩ := hk y (hp.mem_iff.2 (by simp))
  have hab : a ≠ b := fun e => hxy (by rw [← ea', ← eb', e])
  have hs : a + b - 1 < 3 := by omega
  refine ⟨⟨a + b - 1, hs⟩, hf.1, fun z => ?_⟩
  show z ∈ k ↔ ∃ w < 3, w ≠ 2 - (a + b - 1) ∧ cells c w = z
  rw [hp.mem_iff]
  simp only [List.mem_cons, List.not_mem_nil, or_false]
  constructor
  · rintro (rfl | rfl)
    · exact ⟨a, ha, by omega, ea'⟩
    · exact ⟨b, hb, by omega, eb'⟩
  · rintro ⟨w, hw, hne, rfl⟩
    have : w = a ∨ w = b := by omega
    rcases this with rfl | rfl
    · exact .inl ea'
    · exact .inr eb'

/-- What the numbering of the second order dofs gives. -/
structure Numbered (cells : Nat → Nat → Nat) (n nNodes : Nat) (fs : List (List Nat)) (D : Nat → Nat → Nat) : Prop where
  nodup : fs.Nodup
  mem : ∀ k, k ∈ fs ↔ ∃ c < n, ∃ v < 3, IsFacet cells 3 c v k
  low : ∀ c < n, ∀ v < 3, D c v = cells c v
  high : ∀ c < n, ∀ j < 3, ∃ h k, D c (3 + j) = nNodes + h ∧ fs[h]? = some k ∧ IsFacet cells 3 c (2 - j) k

theorem numbered_inj {cells : Nat → Nat → Nat} {n nNodes : Nat} {fs : List (List Nat)} {D : Nat → Nat → Nat} (hm : Manifold cells 3 n)
    (hn : ∀ c < n, ∀ v < 3, cells c v < nNodes) (hD : Numbered cells n nNodes fs D) :
    (∀ c < n, ∀ h < 6, ∀ h' < 6, D c h = D c h' → h = h') ∧ ∀ c < n, ∀ h < 6, D c h < nNodes + fs.length := by
  have key : ∀ c < n, ∀ j : Fin 3, ∀ j' : Fin 3, D c (3 + j) = D c (3 + j') → j = j' := by
    intro c hc j j' e
    obtain ⟨h, k, e1, e2, e3⟩ := hD.high c hc j j.2
    obtain ⟨h', k', e1', e2', e3'⟩ := hD.high c hc j' j'.2
    have hh : h = h' := by omega
    subst hh
    rw [e2] at e2'
    obtain rfl := Option.some.inj e2'
    have p1 := facet_perm (hm.distinct c hc) j e3
    have p2 := facet_perm (hm.distinct c hc) j' e3'
    have p3 := p1.symm.trans p2
    have hd := hm.distinct c hc
    have a01 : cells c 0 ≠ cells c 1 := fun e => by have := hd 0 (by omega) 1 (by omega) e; omega
    have a02 : cells c 0 ≠ cells c 2 := fun e => by have := hd 0 (by omega) 2 (by omega) e; omega
    have a12 : cells c 1 ≠ cells c 2 := fun e => by have := hd 1 (by omega) 2 (by omega) e; omega
    have m1 := fun x => p3.mem_iff (a := x)
    have m0 := m1 (cells c 0)
    have m2 := m1 (cells c 1)
    have m3 := m1 (cells c 2)
    fin_cases j <;> fin_cases j' <;> simp [ea, eb, a01, a02, a12, a01.symm, a02.symm, a12.symm] at m0 m2 m3 ⊢
  refine ⟨fun c hc h hh h' hh' e => ?_, fun c hc h hh => ?_⟩
  · by_cases h3 : h < 3 <;> by_cases h3' : h' < 3
    · rw [hD.low c hc h h3, hD.low c hc h' h3'] at e
      exact hm.distinct c hc h h3 h' h3' e
    · obtain ⟨g, k, e1, _, _⟩ := hD.high c hc (h' - 3) (by omega)
      rw [show 3 + (h' - 3) = h' by omega] at e1
      have := hn c hc h h3
      rw [hD.low c hc h h3] at e
      omega
    · obtain ⟨g, k, e1, _, _⟩ := hD.high c hc (h - 3) (by omega)
      rw [show 3 + (h - 3) = h by omega] at e1
      have := hn c hc h' h3'
      rw [hD.low c hc h' h3'] at e
      omega
    · have := key c hc ⟨h - 3, by omega⟩ ⟨h' - 3, by omega⟩ (by
        show D c (3 + (h - 3)) = D c (3 + (h' - 3))
        rw [show 3 + (h - 3) = h by omega, show 3 + (h' - 3) = h' by omega, e])
      have := Fin.mk.inj this
      omega
  · by_cases h3 : h < 3
    · have := hn c hc h h3
      rw [hD.low c hc h h3]; omega
    · obtain ⟨g, k, e1, e2, _⟩ := hD.high c hc (h - 3) (by omega)
      rw [show 3 + (h - 3) = h by omega] at e1
      have := (List.getElem?_eq_some_iff.1 e2).1
      omega

theorem sum6 (g : Fin 6 → ℝ) : ∑ h, g h = (∑ v : Fin 3, g (Fin.castAdd 3 v)) + ∑ j : Fin 3, g (Fin.natAdd 3 j) := Fin.sum_univ_add (a := 3) (b := 3) g

/-- The value of a second order function through the weights of the nodes: a formula in which the cell does not appear. -/
theorem val2 {n : Nat} {cells : Nat → Nat → Nat} {X : Nat → Vec N} (h : Proper 3 n cells X) (hm : Manifold cells 3 n) {nNodes : Nat}
    (hlt : ∀ c < n, ∀ v < 3, cells c v < nNodes) {fs : List (List Nat)} {D : Nat → Nat → Nat} (hD : Numbered cells n nNodes fs D)
    (u : Nat → ℝ) {c : Nat} (hc : c < n) (p : Vec N) :
    valIn 2 2 6 cells D X u c p = (∑ y ∈ Finset.range nNodes, u y * (wt 2 cells X c p y * (2 * wt 2 cells X c p y - 1))) +
      ∑ g ∈ Finset.range fs.length, u (nNodes + g) * (4 * ((fs.getD g []).map (wt 2 cells X c p)).prod) := by
  classical
  rw [valIn, sum6]
  congr 1
  · rw [← sum_nodes h hlt hc p (fun y t => u y * (t * (2 * t - 1))) (by simp)]
    refine Finset.sum_congr rfl fun v _ => ?_
    rw [basis2, quad, dif_pos (show (Fin.castAdd 3 v).1 < 3 from v.2)]
    have e : D c (Fin.castAdd 3 v) = cells c v := hD.low c hc v v.2
    rw [e]
    simp only [map_mul, map_sub, map_ofNat, map_one]
    rw [show (⟨(Fin.castAdd 3 v).1, v.2⟩ : Fin (2 + 1)) = v from rfl, lam_bary]
  · have hprod : ∀ j : Fin 3, ∀ k, IsFacet cells 3 c (2 - j) k → (k.map (wt 2 cells X c p)).prod =
        (cellOf 2 cells X c).bary p (ea j) * (cellOf 2 cells X c).bary p (eb j) := by
      intro j k hk
      rw [((facet_perm (hm.distinct c hc) j hk).map _).prod_eq]
      simp only [List.map_cons, List.map_nil, List.prod_cons, List.prod_nil, mul_one]
      rw [wt_node h hc p (ea j), wt_node h hc p (eb j)]
    have hch : ∀ j : Fin 3, ∃ g k, D c (3 + j) = nNodes + g ∧ fs[g]? = some k ∧ IsFacet cells 3 c (2 - j) k := fun j => hD.high c hc j j.2
    choose g k e1 e2 e3 using hch
    have ginj : Function.Injective g := fun a b e => by
      have := (numbered_inj hm hlt hD).1 c hc (3 + a) (by omega) (3 + b) (by omega) (by rw [e1, e1, e])
      exact Fin.ext (by omega)
    rw [← Finset.sum_subset (s₁ := (Finset.univ : Finset (Fin 3)).image g)]
    · rw [Finset.sum_image fun a _ b _ e => ginj e]
      refine Finset.sum_congr rfl fun j _ => ?_
      rw [basis2, quad, dif_neg (by simp)]
      have e : D c (Fin.natAdd 3 j) = nNodes + g j := e1 j
      rw [e, List.getD_eq_getElem?_getD, e2, Option.getD_some, hprod j _ (e3 j)]
      simp only [map_mul, map_ofNat]
      have e4 : (⟨(Fin.natAdd 3 j).1 - 3, by simp⟩ : Fin 3) = j := Fin.ext (by simp)
      rw [e4, lam_bary, lam_bary]
      ring
    · intro y hy
      obtain ⟨j, _, rfl⟩ := Finset.mem_image.1 hy
      exact Finset.mem_range.2 (List.getElem?_eq_some_iff.1 (e2 j)).1
    · intro y hy hn
      have hy' := Finset.mem_range.1 hy
      rw [List.getD_eq_getElem?_getD, List.getElem?_eq_getElem hy', Option.getD_some]
      have hmem := (hD.mem _).1 (List.getElem_mem hy')
      obtain ⟨c', hc', v, hv, hf⟩ := hmem
      by_cases hk : ∀ x ∈ fs[y], ∃ w < 3, cells c w = x
      · exfalso
        obtain ⟨j, hj⟩ := facet_mine hm hc' hv hf hk
        have hkk := isFacet_unique hj (e3 j)
        have i2 := List.getElem?_eq_some_iff.1 (e2 j)
        have := (List.Nodup.getElem_inj_iff hD.nodup).1 (hkk.trans i2.2.symm)
        exact hn (Finset.mem_image.2 ⟨j, Finset.mem_univ _, this.symm⟩)
      · push Not at hk
        obtain ⟨x, hx, hw⟩ := hk
        have : ((fs[y]).map (wt 2 cells X c p)).prod = 0 :=
          List.prod_eq_zero (List.mem_map.2 ⟨x, hx, wt_other p fun v hv => hw v hv⟩)
        rw [this]; ring

theorem refToCell_eq (cells : Nat → Nat → Nat) (X : Nat → Vec N) (c : Nat) (j : Fin 3) :
    refToCell (cellOf 2 cells X c) (3 + j) = (1 / 2 : ℝ) • (X (cells c (ea j)) + X (cells c (eb j))) := by
  rw [← (nodeIn2 cells X c).2 j, refToCell, nodeIn]
  congr 2
  funext z
  fin_cases j <;> fin_cases z <;> simp [refNodesK, refNodes, refBary, look]

/-- The table of coordinates: nodes first, then the midpoints of the edges. -/
theorem coords2 {n : Nat} {cells : Nat → Nat → Nat} (X : Nat → Vec N) (hm : Manifold cells 3 n) {nNodes : Nat}
    {fs : List (List Nat)} {D : Nat → Nat → Nat} (hD : Numbered cells n nNodes fs D)
    {dofs : Nat → Nat → Option Nat} (hdofs : ∀ c < n, ∀ h < 6, dofs c h = some (D c h)) :
    ∃ Y, dofsCoords2 cells n nNodes (nNodes + fs.length) X dofs = .ok Y ∧ (∀ y < nNodes, Y y = some (X y)) ∧
      ∀ c < n, ∀ j : Fin 3, Y (D c (3 + j)) = some ((1 / 2 : ℝ) • (X (cells c (ea j)) + X (cells c (eb j)))) := by
  set mid : List Nat → Vec N := fun k => (1 / 2 : ℝ) • (k.map X).sum
  have hmid : ∀ c < n, ∀ j : Fin 3, ∀ k, IsFacet cells 3 c (2 - j) k → mid k = (1 / 2 : ℝ) • (X (cells c (ea j)) + X (cells c (eb j))) := by
    intro c hc j k hk
    show (1 / 2 : ℝ) • (k.map X).sum = _
    rw [((facet_perm (hm.distinct c hc) j hk).map X).sum_eq]
    simp
  set f : (Nat → Option (Vec N)) × List Nat → Nat × Nat → Res ((Nat → Option (Vec N)) × List Nat) :=
    fun s q => coordsDof (nNodes + fs.length) dofs (cellOf 2 cells X q.1) q.1 s q.2
  set L : List (Nat × Nat) := (List.range n).flatMap fun c => [3, 4, 5].map fun j => (c, j)
  have hL : ∀ q ∈ L, q.1 < n ∧ ∃ j : Fin 3, q.2 = 3 + j := by
    intro q hq
    obtain ⟨c, hc, hq⟩ := List.mem_flatMap.1 hq
    obtain ⟨j, hj, rfl⟩ := List.mem_map.1 hq
    refine ⟨List.mem_range.1 hc, ?_⟩
    simp only [List.mem_cons, List.not_mem_nil, or_false] at hj
    rcases hj with rfl | rfl | rfl
    · exact ⟨0, rfl⟩
    · exact ⟨1, rfl⟩
    · exact ⟨2, rfl⟩
  obtain ⟨s, h1, h2, h3, h4⟩ := foldRes_inv f (fun done s => (∀ y < nNodes, s.1 y = some (X y)) ∧
      (∀ y ∈ s.2, ∃ g k, y = nNodes + g ∧ fs[g]? = some k ∧ s.1 y = some (mid k)) ∧ ∀ q ∈ done, D q.1 q.2 ∈ s.2) L (by
    rintro done q rest s hl ⟨i1, i2, i3⟩
    obtain ⟨hc, j, hj⟩ := hL q (by rw [hl]; simp)
    obtain ⟨g, k, e1, e2, e3⟩ := hD.high q.1 hc j j.2
    have hg := (List.getElem?_eq_some_iff.1 e2).1
    have hd : dofs q.1 q.2 = some (D q.1 q.2) := hdofs _ hc _ (by omega)
    rw [← hj] at e1
    by_cases hv : s.2.contains (D q.1 q.2)
    · refine ⟨s, by simp only [f, coordsDof, hd]; rw [if_pos hv], i1, i2, ?_⟩
      intro r hr
      rcases List.mem_append.1 hr with hr | hr
      · exact i3 r hr
      · rw [List.mem_singleton] at hr
        subst hr
        exact List.contains_iff_mem.1 hv
    · refine ⟨_, by simp only [f, coordsDof, hd]; rw [if_neg hv, if_pos (by omega)], ?_, ?_, ?_⟩
      · intro y hy
        show (if y = D q.1 q.2 then _ else _) = _
        rw [if_neg (by omega), i1 y hy]
      · intro y hy
        show ∃ g k, y = nNodes + g ∧ fs[g]? = some k ∧ (if y = D q.1 q.2 then _ else _) = _
        by_cases hyd : y = D q.1 q.2
        · refine ⟨g, k, by omega, e2, ?_⟩
          rw [if_pos hyd, hj, refToCell_eq, hmid _ hc j k e3]
        · obtain ⟨g', k', f1, f2, f3⟩ := i2 y (by
            rcases List.mem_cons.1 hy with h | h
            · exact absurd h hyd
            · exact h)
          exact ⟨g', k', f1, f2, by rw [if_neg hyd, f3]⟩
      · intro r hr
        rcases List.mem_append.1 hr with hr | hr
        · exact List.mem_cons_of_mem _ (i3 r hr)
        · rw [List.mem_singleton] at hr
          subst hr
          exact List.mem_cons_self) (fun y => if y < nNodes then some (X y) else none, [])
    ⟨fun y hy => if_pos hy, by simp, by simp⟩
  refine ⟨s.1, ?_, h2, fun c hc j => ?_⟩
  · rw [dofsCoords2]
    have e : (fun s c => foldRes (coordsDof (nNodes + fs.length) dofs (cellOf 2 cells X c) c) s [3, 4, 5]) =
        fun s c => foldRes f s ([3, 4, 5].map fun j => (c, j)) := by
      funext s c
      rw [foldRes_map]
    rw [e, foldRes_flatMap]
    show Prod.fst <$> foldRes f _ L = _
    rw [h1]
    rfl
  · have hmem : (c, 3 + j.1) ∈ L := by
      refine List.mem_flatMap.2 ⟨c, List.mem_range.2 hc, List.mem_map.2 ⟨3 + j, ?_, rfl⟩⟩
      fin_cases j <;> simp
    obtain ⟨g, k, e1, e2, e3⟩ := h3 _ (h4 _ hmem)
    obtain ⟨g', k', f1, f2, f3⟩ := hD.high c hc j j.2
    have : g = g' := by
      simp only at e1
      omega
    subst this
    rw [e2] at f2
    obtain rfl := Option.some.inj f2
    rw [← hmid c hc j k f3]
    exact e3

/-! ### The theorems -/

/-- **C123**, first order, in dimension one, two and three, and on curves and surfaces: for every vector of coefficients there is
one continuous function on the domain, a polynomial of degree one on each cell, with the coefficients as values at the nodes, such that the
evaluation matrix times the coefficients is the value of this function at the locations, whichever of the cells that contain it is
given for a location. -/
theorem C123_first_order {M : Nat} (hM : M ∈ [1, 2, 3]) (n nNodes : Nat) (cells : Nat → Nat → Nat) (X : Nat → Fin N → ℝ)
    (hp : Proper (M + 1) n cells X) (hf : Conforming (M + 1) n cells X) (hlt : ∀ c < n, ∀ v < M + 1, cells c v < nNodes) (u : Nat → ℝ) :
    ∃ F : (Fin N → ℝ) → ℝ, ContinuousOn F (domain (M + 1) n cells X) ∧
      (∀ c < n, ∃ q : MvPolynomial (Fin N) ℝ, q.totalDegree ≤ 1 ∧ ∀ p ∈ region (M + 1) cells X c, F p = MvPolynomial.eval p q) ∧
      (∀ c < n, ∀ v < M + 1, ∃ x, dofsCoords1 nNodes X (cells c v) = some x ∧ x = X (cells c v) ∧ F x = u (cells c v)) ∧
      ∀ (ids : List Int) (locs : Nat → Fin N → ℝ), ids ≠ [] →
        (∀ i id, ids[i]? = some id → id = -1 ∨ ∃ c < n, id = (c : Int) ∧ locs i ∈ region (M + 1) cells X c) →
        ∃ l, pointEval n (M + 1) cells ids (psiAt M 1 (M + 1) cells X locs) = .ok l ∧
          (∀ i, ids[i]? = some (-1) → ∑ j ∈ Finset.range nNodes, entry l i j * u j = 0) ∧
          ∀ i (c : Nat), ids[i]? = some (c : Int) → ∑ j ∈ Finset.range nNodes, entry l i j * u j = F (locs i) := by
  have hB := shape1 hM
  obtain ⟨F, h1, h2⟩ := glue n (region (M + 1) cells X) (fun c p => valIn M 1 (M + 1) cells cells X u c p)
    (fun c _ => region_closed _ _ _ c) (fun c _ => by
      obtain ⟨q, _, hq⟩ := val_piece hB cells cells X u c
      simp only [hq]
      exact MvPolynomial.continuous_eval q)
    (fun c hc c' hc' p hpc hpc' => by
      rw [val1 hM hp hlt u hc, val1 hM hp hlt u hc', wt_same hp hf hc hc' hpc hpc'])
  refine ⟨F, h1, fun c hc => ?_, fun c hc v hv => ?_, fun ids locs hne hid => ?_⟩
  · obtain ⟨q, hq1, hq2⟩ := val_piece hB cells cells X u c
    exact ⟨q, hq1, fun p hpc => by rw [h2 c hc p hpc, hq2]⟩
  · refine ⟨_, if_pos (hlt c hc v hv), rfl, ?_⟩
    rw [h2 c hc _ (subset_convexHull ℝ _ ⟨v, hv, rfl⟩)]
    have := val_node (dofs := cells) hB hp u hc ⟨v, hv⟩
    rwa [nodeIn1 hM] at this
  · obtain ⟨l, e1, e2⟩ := row_val M 1 (M + 1) n nNodes cells cells X ids locs hne (fun id hmem => by
        obtain ⟨i, hi⟩ := List.mem_iff_getElem?.1 hmem
        rcases hid i id hi with h | ⟨c, hc, h, _⟩
        · exact .inl h
        · exact .inr (by omega))
      (fun c hc h hh h' hh' e => Fin.mk.inj (proper_inj hp hc (v := ⟨h, hh⟩) (w := ⟨h', hh'⟩) e)) hlt
    refine ⟨l, e1, (e2 u).1, fun i c hi => ?_⟩
    rcases hid i _ hi with h | ⟨c', hc', h, hl⟩
    · omega
    · obtain rfl : c = c' := by omega
      rw [(e2 u).2 i c hi, h2 c hc' _ hl]

/-- **C123**, second order, on triangles of the plane or of a surface.  The coordinates of the dofs are well defined: the nodes, then
the midpoints of the edges, whichever cell they are computed from. -/
theorem C123_second_order (n nNodes : Nat) (cells : Nat → Nat → Nat) (X : Nat → Fin N → ℝ) (bNodes : Nat → Bool)
    (hp : Proper 3 n cells X) (hf : Conforming 3 n cells X) (hm : Manifold cells 3 n) (hlt : ∀ c < n, ∀ v < 3, cells c v < nNodes) :
    ∃ t dofs bnd size Y, build2 cells n = .ok t ∧ enumDofs2 cells n nNodes bNodes t = .ok (dofs, bnd, size) ∧
      dofsCoords2 cells n nNodes size X dofs = .ok Y ∧
      (∀ y < nNodes, Y y = some (X y)) ∧ (∀ y < size, nNodes ≤ y → ∃ x, Y y = some x ∧ x ∈ domain 3 n cells X) ∧
      (∀ c < n, (∀ v < 3, dofs c v = some (cells c v)) ∧
        ∀ e ∈ [(3, 0, 1), (4, 0, 2), (5, 1, 2)], ∃ y, dofs c e.1 = some y ∧ nNodes ≤ y ∧ y < size ∧
          Y y = some ((1 / 2 : ℝ) • (X (cells c e.2.1) + X (cells c e.2.2)))) ∧
      ∀ u : Nat → ℝ, ∃ F : (Fin N → ℝ) → ℝ, ContinuousOn F (domain 3 n cells X) ∧
        (∀ c < n, ∃ q : MvPolynomial (Fin N) ℝ, q.totalDegree ≤ 2 ∧ ∀ p ∈ region 3 cells X c, F p = MvPolynomial.eval p q) ∧
        (∀ c < n, ∀ h < 6, ∃ y x, dofs c h = some y ∧ Y y = some x ∧ F x = u y) ∧
        ∀ (ids : List Int) (locs : Nat → Fin N → ℝ), ids ≠ [] →
          (∀ i id, ids[i]? = some id → id = -1 ∨ ∃ c < n, id = (c : Int) ∧ locs i ∈ region 3 cells X c) →
          ∃ l, pointEval n 6 (fun c h => (dofs c h).getD 0) ids (psiAt 2 2 6 cells X locs) = .ok l ∧
            (∀ i, ids[i]? = some (-1) → ∑ j ∈ Finset.range size, entry l i j * u j = 0) ∧
            ∀ i (c : Nat), ids[i]? = some (c : Int) → ∑ j ∈ Finset.range size, entry l i j * u j = F (locs i) := by
  obtain ⟨t, h1, dofs, bnd, h2, hv, he, _, _⟩ := C57_numbering cells n nNodes bNodes hm
  obtain ⟨t', h1', ht⟩ := build2_spec hm
  rw [h1] at h1'
  obtain rfl := Res.ok.inj h1'
  set D : Nat → Nat → Nat := fun c h => (dofs c h).getD 0 with hDdef
  have hD : Numbered cells n nNodes t.facets D := by
    refine ⟨ht.nodup, ht.mem, fun c hc v hv' => ?_, fun c hc j hj => ?_⟩
    · show (dofs c v).getD 0 = _
      rw [hv c hc v hv', Option.getD_some]
    · obtain ⟨g, k, e1, e2, e3⟩ := he c hc j hj
      exact ⟨g, k, by show (dofs c (3 + j)).getD 0 = _; rw [e1, Option.getD_some], e2, e3⟩
  have hdofs : ∀ c < n, ∀ h < 6, dofs c h = some (D c h) := by
    intro c hc h hh
    by_cases h3 : h < 3
    · rw [hD.low c hc h h3, hv c hc h h3]
    · obtain ⟨g, k, e1, _, _⟩ := he c hc (h - 3) (by omega)
      rw [show 3 + (h - 3) = h by omega] at e1
      show _ = some ((dofs c h).getD 0)
      rw [e1]; rfl
  obtain ⟨Y, y1, y2, y3⟩ := coords2 X hm hD hdofs
  obtain ⟨hinj, hsize⟩ := numbered_inj hm hlt hD
  have hmidreg : ∀ c, ∀ a < 3, ∀ b < 3, (1 / 2 : ℝ) • (X (cells c a) + X (cells c b)) ∈ region 3 cells X c := by
    intro c a ha b hb
    have := (convex_convexHull ℝ {x | ∃ v < 3, x = X (cells c v)}) (subset_convexHull ℝ _ ⟨a, ha, rfl⟩)
      (subset_convexHull ℝ _ ⟨b, hb, rfl⟩) (by norm_num : (0 : ℝ) ≤ 1 / 2) (by norm_num : (0 : ℝ) ≤ 1 / 2) (by norm_num)
    rwa [← smul_add] at this
  refine ⟨t, dofs, bnd, _, Y, h1, h2, y1, y2, ?_, ?_, fun u => ?_⟩
  · intro y hy hge
    have hg : y - nNodes < t.facets.length := by omega
    obtain ⟨c, hc, v, hv', hfac⟩ := (ht.mem _).1 (List.getElem_mem hg)
    obtain ⟨g, k, e1, e2, e3⟩ := hD.high c hc (2 - v) (by omega)
    rw [show 2 - (2 - v) = v by omega] at e3
    have hkk := isFacet_unique e3 hfac
    have i1 := List.getElem?_eq_some_iff.1 e2
    have := (List.Nodup.getElem_inj_iff ht.nodup).1 (i1.2.trans hkk)
    have e : y = D c (3 + (⟨2 - v, by omega⟩ : Fin 3)) := by
      show y = D c (3 + (2 - v))
      omega
    refine ⟨_, by rw [e]; exact y3 c hc _, ?_⟩
    exact Set.mem_iUnion₂.2 ⟨c, hc, hmidreg c _ (ea _).2 _ (eb _).2⟩
  · intro c hc
    refine ⟨hv c hc, fun e hmem => ?_⟩
    have key : ∀ j : Fin 3, ∃ y, dofs c (3 + j) = some y ∧ nNodes ≤ y ∧ y < nNodes + t.facets.length ∧
        Y y = some ((1 / 2 : ℝ) • (X (cells c (ea j)) + X (cells c (eb j)))) := by
      intro j
      obtain ⟨g, k, e1, e2, _⟩ := hD.high c hc j j.2
      exact ⟨D c (3 + j), hdofs c hc _ (by omega), by omega, hsize c hc _ (by omega), y3 c hc j⟩
    simp only [List.mem_cons, List.not_mem_nil, or_false] at hmem
    rcases hmem with rfl | rfl | rfl
    · exact key 0
    · exact key 1
    · exact key 2
  · obtain ⟨F, f1, f2⟩ := glue n (region 3 cells X) (fun c p => valIn 2 2 6 cells D X u c p)
      (fun c _ => region_closed _ _ _ c) (fun c _ => by
        obtain ⟨q, _, hq⟩ := val_piece shape2 cells D X u c
        simp only [hq]
        exact MvPolynomial.continuous_eval q)
      (fun c hc c' hc' p hpc hpc' => by
        rw [val2 hp hm hlt hD u hc, val2 hp hm hlt hD u hc', wt_same hp hf hc hc' hpc hpc'])
    refine ⟨F, f1, fun c hc => ?_, fun c hc h hh => ?_, fun ids locs hne hid => ?_⟩
    · obtain ⟨q, hq1, hq2⟩ := val_piece shape2 cells D X u c
      exact ⟨q, hq1, fun p hpc => by rw [f2 c hc p hpc, hq2]⟩
    · have hval := val_node (dofs := D) shape2 hp u hc ⟨h, hh⟩
      by_cases h3 : h < 3
      · refine ⟨_, _, hdofs c hc h hh, by rw [hD.low c hc h h3]; exact y2 _ (hlt c hc h h3), ?_⟩
        have e : nodeIn 2 2 cells X c h = X (cells c h) := (nodeIn2 cells X c).1 ⟨h, h3⟩
        rw [f2 c hc _ (subset_convexHull ℝ _ ⟨h, h3, rfl⟩), ← e]
        exact hval
      · have e := (nodeIn2 cells X c).2 ⟨h - 3, by omega⟩
        rw [show 3 + ((⟨h - 3, by omega⟩ : Fin 3) : Nat) = h by show 3 + (h - 3) = h; omega] at e
        have ey := y3 c hc ⟨h - 3, by omega⟩
        rw [show 3 + ((⟨h - 3, by omega⟩ : Fin 3) : Nat) = h by show 3 + (h - 3) = h; omega] at ey
        refine ⟨_, _, hdofs c hc h hh, ey, ?_⟩
        rw [f2 c hc _ (hmidreg c _ (ea _).2 _ (eb _).2), ← e]
        exact hval
    · obtain ⟨l, e1, e2⟩ := row_val 2 2 6 n (nNodes + t.facets.length) cells D X ids locs hne (fun id hmem => by
          obtain ⟨i, hi⟩ := List.mem_iff_getElem?.1 hmem
          rcases hid i id hi with h | ⟨c, hc, h, _⟩
          · exact .inl h
          · exact .inr (by omega)) hinj hsize
      refine ⟨l, e1, (e2 u).1, fun i c hi => ?_⟩
      rcases hid i _ hi with h | ⟨c', hc', h, hl⟩
      · omega
      · obtain rfl : c = c' := by omega
        rw [(e2 u).2 i c hi, f2 c hc' _ hl]

/-- **C123**, first order polynomials are reproduced: with their values at the nodes as coefficients the matrix returns their values at
the locations. -/
theorem C123_linear {M : Nat} (hM : M ∈ [1, 2, 3]) (n nNodes : Nat) (cells : Nat → Nat → Nat) (X : Nat → Fin N → ℝ)
    (hp : Proper (M + 1) n cells X) (hlt : ∀ c < n, ∀ v < M + 1, cells c v < nNodes) (q : MvPolynomial (Fin N) ℝ) (hq : q.totalDegree ≤ 1)
    (ids : List Int) (locs : Nat → Fin N → ℝ) (hne : ids ≠ [])
    (hid : ∀ i id, ids[i]? = some id → ∃ c < n, id = (c : Int) ∧ locs i ∈ region (M + 1) cells X c) :
    ∃ l, pointEval n (M + 1) cells ids (psiAt M 1 (M + 1) cells X locs) = .ok l ∧
      ∀ i < ids.length, ∑ j ∈ Finset.range nNodes, entry l i j * MvPolynomial.eval (X j) q = MvPolynomial.eval (locs i) q := by
  obtain ⟨l, e1, e2⟩ := row_val M 1 (M + 1) n nNodes cells cells X ids locs hne (fun id hmem => by
      obtain ⟨i, hi⟩ := List.mem_iff_getElem?.1 hmem
      obtain ⟨c, hc, h, _⟩ := hid i id hi
      exact .inr (by omega))
    (fun c hc h hh h' hh' e => Fin.mk.inj (proper_inj hp hc (v := ⟨h, hh⟩) (w := ⟨h', hh'⟩) e)) hlt
  refine ⟨l, e1, fun i hi => ?_⟩
  obtain ⟨c, hc, h, hl⟩ := hid i ids[i] (List.getElem?_eq_getElem hi)
  rw [(e2 fun j => MvPolynomial.eval (X j) q).2 i c (by rw [List.getElem?_eq_getElem hi, h])]
  exact val_poly (shape1 hM) hp _ hc q hq (fun v => by rw [nodeIn1 hM]) hl

/-- **C123**, second order: polynomials of degree two are reproduced from their values at the coordinates of the dofs. -/
theorem C123_quadratic (n nNodes : Nat) (cells : Nat → Nat → Nat) (X : Nat → Fin N → ℝ) (bNodes : Nat → Bool)
    (hp : Proper 3 n cells X) (hm : Manifold cells 3 n) (hlt : ∀ c < n, ∀ v < 3, cells c v < nNodes)
    (q : MvPolynomial (Fin N) ℝ) (hq : q.totalDegree ≤ 2) (ids : List Int) (locs : Nat → Fin N → ℝ) (hne : ids ≠ [])
    (hid : ∀ i id, ids[i]? = some id → ∃ c < n, id = (c : Int) ∧ locs i ∈ region 3 cells X c) :
    ∃ t dofs bnd size Y l, build2 cells n = .ok t ∧ enumDofs2 cells n nNodes bNodes t = .ok (dofs, bnd, size) ∧
      dofsCoords2 cells n nNodes size X dofs = .ok Y ∧
      pointEval n 6 (fun c h => (dofs c h).getD 0) ids (psiAt 2 2 6 cells X locs) = .ok l ∧
      ∀ i < ids.length, ∑ j ∈ Finset.range size, entry l i j * MvPolynomial.eval ((Y j).getD 0) q = MvPolynomial.eval (locs i) q := by
  obtain ⟨t, h1, dofs, bnd, h2, hv, he, _, _⟩ := C57_numbering cells n nNodes bNodes hm
  obtain ⟨t', h1', ht⟩ := build2_spec hm
  rw [h1] at h1'
  obtain rfl := Res.ok.inj h1'
  have hD : Numbered cells n nNodes t.facets fun c h => (dofs c h).getD 0 := by
    refine ⟨ht.nodup, ht.mem, fun c hc v hv' => ?_, fun c hc j hj => ?_⟩
    · rw [hv c hc v hv', Option.getD_some]
    · obtain ⟨g, k, e1, e2, e3⟩ := he c hc j hj
      exact ⟨g, k, by rw [e1, Option.getD_some], e2, e3⟩
  have hdofs : ∀ c < n, ∀ h < 6, dofs c h = some ((dofs c h).getD 0) := by
    intro c hc h hh
    by_cases h3 : h < 3
    · rw [hv c hc h h3, Option.getD_some]
    · obtain ⟨g, k, e1, _, _⟩ := he c hc (h - 3) (by omega)
      rw [show 3 + (h - 3) = h by omega] at e1
      rw [e1]; rfl
  obtain ⟨Y, y1, y2, y3⟩ := coords2 X hm hD hdofs
  obtain ⟨hinj, hsize⟩ := numbered_inj hm hlt hD
  obtain ⟨l, e1, e2⟩ := row_val 2 2 6 n (nNodes + t.facets.length) cells (fun c h => (dofs c h).getD 0) X ids locs hne (fun id hmem => by
      obtain ⟨i, hi⟩ := List.mem_iff_getElem?.1 hmem
      obtain ⟨c, hc, h, _⟩ := hid i id hi
      exact .inr (by omega)) hinj hsize
  refine ⟨t, dofs, bnd, _, Y, l, h1, h2, y1, e1, fun i hi => ?_⟩
  obtain ⟨c, hc, h, hl⟩ := hid i ids[i] (List.getElem?_eq_getElem hi)
  rw [(e2 fun j => MvPolynomial.eval ((Y j).getD 0) q).2 i c (by rw [List.getElem?_eq_getElem hi, h])]
  refine val_poly shape2 hp _ hc q hq (fun v => ?_) hl
  by_cases h3 : v.1 < 3
  · have e : nodeIn 2 2 cells X c v = X (cells c v) := (nodeIn2 cells X c).1 ⟨v, h3⟩
    rw [e]
    have : (dofs c v).getD 0 = cells c v := hD.low c hc v h3
    rw [this, y2 _ (hlt c hc v h3), Option.getD_some]
  · have e := (nodeIn2 cells X c).2 ⟨v - 3, by omega⟩
    have ey := y3 c hc ⟨v - 3, by omega⟩
    rw [show 3 + ((⟨v.1 - 3, by omega⟩ : Fin 3) : Nat) = v by show 3 + (v.1 - 3) = v; omega] at e ey
    rw [ey, Option.getD_some, e]

/-! ### The hypotheses hold: two triangles of the unit square -/

/-- The corners of the unit square. -/
def squareX : Nat → Fin 2 → ℝ := fun y => ![![0, 0], ![1, 0], ![0, 1], ![1, 1]] (Fin.ofNat 4 y)

theorem square_proper : Proper 3 2 demo2 squareX := by
  intro c hc
  rw [affineIndependent_iff_of_fintype]
  intro w h1 h2
  rw [Finset.weightedVSub_eq_linear_combination _ h1] at h2
  have a := congrFun h2 0
  have b := congrFun h2 1
  rw [Fin.sum_univ_three] at h1
  rcases (by omega : c = 0 ∨ c = 1) with rfl | rfl <;>
  · simp [Fin.sum_univ_three, demo2, squareX, Fin.ofNat] at a b
    intro i
    fin_cases i <;> simp <;> linarith

theorem square_conforming : Conforming 3 2 demo2 squareX := by
  have hle : ∀ p ∈ region 3 demo2 squareX 0, p 0 + p 1 ≤ 1 ∧ 0 ≤ p 0 ∧ 0 ≤ p 1 := by
    have hc : Convex ℝ {p : Fin 2 → ℝ | p 0 + p 1 ≤ 1 ∧ 0 ≤ p 0 ∧ 0 ≤ p 1} := by
      intro x hx y hy a b ha hb hab
      simp only [Set.mem_ofPred_eq, Pi.add_apply, Pi.smul_apply, smul_eq_mul] at hx hy ⊢
      refine ⟨by nlinarith, by nlinarith [mul_nonneg ha hx.2.1, mul_nonneg hb hy.2.1], by nlinarith [mul_nonneg ha hx.2.2, mul_nonneg hb hy.2.2]⟩
    refine convexHull_min ?_ hc
    rintro x ⟨v, hv, rfl⟩
    show squareX (demo2 0 v) 0 + squareX (demo2 0 v) 1 ≤ 1 ∧ 0 ≤ squareX (demo2 0 v) 0 ∧ 0 ≤ squareX (demo2 0 v) 1
    rcases (by omega : v = 0 ∨ v = 1 ∨ v = 2) with rfl | rfl | rfl <;> simp [demo2, squareX, Fin.ofNat]
  have hge : ∀ p ∈ region 3 demo2 squareX 1, 1 ≤ p 0 + p 1 := by
    have hc : Convex ℝ {p : Fin 2 → ℝ | 1 ≤ p 0 + p 1} := by
      intro x hx y hy a b ha hb hab
      simp only [Set.mem_ofPred_eq, Pi.add_apply, Pi.smul_apply, smul_eq_mul] at hx hy ⊢
      nlinarith
    refine convexHull_min ?_ hc
    rintro x ⟨v, hv, rfl⟩
    show 1 ≤ squareX (demo2 1 v) 0 + squareX (demo2 1 v) 1
    rcases (by omega : v = 0 ∨ v = 1 ∨ v = 2) with rfl | rfl | rfl <;> norm_num [demo2, squareX, Fin.ofNat]
  have hseg : ∀ p : Fin 2 → ℝ, p ∈ region 3 demo2 squareX 0 → p ∈ region 3 demo2 squareX 1 → ∀ s : Set (Fin 2 → ℝ),
      ![1, 0] ∈ s → ![0, 1] ∈ s → p ∈ convexHull ℝ s := by
    intro p h0 h1 s a b
    obtain ⟨e1, e2, e3⟩ := hle p h0
    have e4 := hge p h1
    have e : p = p 0 • ![1, 0] + p 1 • ![0, 1] := by
      funext z
      fin_cases z <;> simp
    rw [e]
    exact (convex_convexHull ℝ s) (subset_convexHull ℝ s a) (subset_convexHull ℝ s b) e2 e3 (by linarith)
  have hself : ∀ c, region 3 demo2 squareX c ⊆ convexHull ℝ {x | ∃ v < 3, ∃ w < 3, demo2 c v = demo2 c w ∧ x = squareX (demo2 c v)} := by
    intro c
    refine convexHull_mono ?_
    rintro x ⟨v, hv, rfl⟩
    exact ⟨v, hv, v, hv, rfl, rfl⟩
  intro c hc c' hc' p ⟨h, h'⟩
  rcases (by omega : c = 0 ∨ c = 1) with rfl | rfl <;> rcases (by omega : c' = 0 ∨ c' = 1) with rfl | rfl
  · exact hself 0 h
  · exact hseg p h h' _ ⟨1, by omega, 2, by omega, by decide, by simp [demo2, squareX, Fin.ofNat]⟩
      ⟨2, by omega, 1, by omega, by decide, by simp [demo2, squareX, Fin.ofNat]⟩
  · exact hseg p h' h _ ⟨2, by omega, 1, by omega, by decide, by simp [demo2, squareX, Fin.ofNat]⟩
      ⟨1, by omega, 2, by omega, by decide, by simp [demo2, squareX, Fin.ofNat]⟩
  · exact hself 1 h

theorem square_lt : ∀ c < 2, ∀ v < 3, demo2 c v < 4 := by decide

example (u : Nat → ℝ) := C123_first_order (by simp) 2 4 demo2 squareX square_proper square_conforming square_lt u
example := C123_second_order 2 4 demo2 squareX (fun _ => true) square_proper square_conforming demo2_manifold square_lt
/-- The midpoint of the common edge may be given to either cell. -/
example : (![1 / 2, 1 / 2] : Fin 2 → ℝ) ∈ region 3 demo2 squareX 0 ∩ region 3 demo2 squareX 1 := by
  have key : ∀ c, ∀ a < 3, ∀ b < 3, (1 / 2 : ℝ) • squareX (demo2 c a) + (1 / 2 : ℝ) • squareX (demo2 c b) ∈ region 3 demo2 squareX c := fun c a ha b hb =>
    (convex_convexHull ℝ {x | ∃ v < 3, x = squareX (demo2 c v)}) (subset_convexHull ℝ _ ⟨a, ha, rfl⟩)
      (subset_convexHull ℝ _ ⟨b, hb, rfl⟩) (by norm_num : (0 : ℝ) ≤ 1 / 2) (by norm_num : (0 : ℝ) ≤ 1 / 2) (by norm_num)
  constructor
  · have := key 0 1 (by omega) 2 (by omega)
    simpa [demo2, squareX, Fin.ofNat] using this
  · have := key 1 1 (by omega) 2 (by omega)
    simpa [demo2, squareX, Fin.ofNat] using this

end Fdapde.FEM
