import Verif.PDE.PropsRegression
/- C162: spatial regression with second order elements on triangles. -/
set_option linter.unusedSectionVars false
namespace Fdapde.PDE
open Finset FEM LinAlg Triang

variable {N n nNodes : Nat} {cells : Nat → Nat → Nat} {X : Nat → Fin N → ℝ}

/-- `F` is a polynomial of degree at most two on each triangle, with values `u` at the nodes and at the middles of the edges, where
`dofs c` numbers the three nodes of triangle `c` and then the middles of its edges 01, 02, 12. -/
def IsP2 (n : Nat) (cells : Nat → Nat → Nat) (X : Nat → Fin N → ℝ) (dofs : Nat → Nat → Nat) (u : Nat → ℝ) (F : (Fin N → ℝ) → ℝ) : Prop :=
  (∀ c < n, ∃ q : MvPolynomial (Fin N) ℝ, q.totalDegree ≤ 2 ∧ ∀ p ∈ region 3 cells X c, F p = MvPolynomial.eval p q) ∧
    ∀ c < n, (∀ v < 3, F (X (cells c v)) = u (dofs c v)) ∧
      ∀ e ∈ [(3, 0, 1), (4, 0, 2), (5, 1, 2)], F ((1 / 2 : ℝ) • (X (cells c e.2.1) + X (cells c e.2.2))) = u (dofs c e.1)

theorem p2_const (dofs : Nat → Nat → Nat) (a : ℝ) : IsP2 n cells X dofs (fun _ => a) fun _ => a :=
  ⟨fun c _ => ⟨MvPolynomial.C a, by simp, fun p _ => by simp⟩, fun _ _ => ⟨fun _ _ => rfl, fun _ _ => rfl⟩⟩

theorem mid_region (c : Nat) {a b : Nat} (ha : a < 3) (hb : b < 3) : (1 / 2 : ℝ) • (X (cells c a) + X (cells c b)) ∈ region 3 cells X c := by
  have := (convex_convexHull ℝ {x | ∃ v < 3, x = X (cells c v)}) (subset_convexHull ℝ _ ⟨a, ha, rfl⟩)
    (subset_convexHull ℝ _ ⟨b, hb, rfl⟩) (by norm_num : (0 : ℝ) ≤ 1 / 2) (by norm_num : (0 : ℝ) ≤ 1 / 2) (by norm_num)
  rwa [← smul_add] at this

theorem node_region (c : Nat) {v : Nat} (hv : v < 3) : X (cells c v) ∈ region 3 cells X c :=
  subset_convexHull ℝ _ ⟨v, hv, rfl⟩

theorem p2_value (h : Proper 3 n cells X) {dofs : Nat → Nat → Nat} {u : Nat → ℝ} {F : (Fin N → ℝ) → ℝ} (hF : IsP2 n cells X dofs u F)
    {c : Nat} (hc : c < n) {p : Fin N → ℝ} (hp : p ∈ region 3 cells X c) : valIn 2 2 6 cells dofs X u c p = F p := by
  obtain ⟨q, h1, h2⟩ := hF.1 c hc
  obtain ⟨k1, k2⟩ := hF.2 c hc
  obtain ⟨m1, m2⟩ := nodeIn2 cells X c
  have hv : ∀ v : Fin 3, u (dofs c v) = MvPolynomial.eval (nodeIn 2 2 cells X c v) q := fun v => by
    rw [m1 v, ← h2 _ (subset_convexHull ℝ _ ⟨v, v.2, rfl⟩), k1 v v.2]
  have he : ∀ j : Fin 3, u (dofs c (3 + j)) = MvPolynomial.eval (nodeIn 2 2 cells X c (3 + j)) q := fun j => by
    rw [m2 j, ← h2 _ (mid_region c (ea j).2 (eb j).2)]
    match j with
    | 0 => exact (k2 (3, 0, 1) (by simp)).symm
    | 1 => exact (k2 (4, 0, 2) (by simp)).symm
    | 2 => exact (k2 (5, 1, 2) (by simp)).symm
  rw [val_poly shape2 h u hc q h1 (fun i => ?_) hp, h2 p hp]
  match i with
  | 0 => exact hv 0
  | 1 => exact hv 1
  | 2 => exact hv 2
  | 3 => exact he 0
  | 4 => exact he 1
  | 5 => exact he 2

theorem mesh_fit2 (hN : N = 2 ∨ N = 3) {op : Op ℝ} (hs : FlagRight N op) (hns : NoScalar op) (bNodes : Nat → Bool) (h : GoodMesh 3 n nNodes cells X)
    (hm : Manifold cells 3 n) (hell : ∀ r, Elliptic N op r) {ids : List Int} {locs : Nat → Fin N → ℝ} (hL : Located 3 n cells X ids locs) :
    ∃ P I J l, problem2 op cells n nNodes X bNodes = .ok P ∧ nNodes ≤ P.m ∧ P.op = op ∧ P.Lagrange 2 2 I J ∧
      (∀ data : Dense ℝ, n * Quadrature.size P.t ≤ data.rows → 0 < data.cols → FitData P data ids (psiAt 2 2 6 cells X locs) l) ∧
      (∀ u F, IsP2 n cells X P.dofs u F → ∀ i < ids.length,
        ∑ q ∈ range P.m, entry l i q * u q = if ids[i]? = some (-1) then 0 else F (locs i)) ∧
      ∀ u, ∃ F, ContinuousOn F (domain 3 n cells X) ∧ IsP2 n cells X P.dofs u F := by
  obtain ⟨P, I, J, e, hLa, e1, e2, e3, e4, e5, e6, e7, e8, hpos, hcon⟩ := C131_second_order hN op bNodes h hm
  obtain ⟨i0, id0, hi0, hn0⟩ := hL.one
  obtain ⟨t, dofs, bnd, size, Y, b1, b2, _, b3, b4, b5, b6⟩ := C123_second_order n nNodes cells X bNodes h.proper h.conforming hm h.nodes
  obtain ⟨t', b1', dofs', bnd', m', b2', _, _, b7, b8⟩ := C57_bijection cells n nNodes bNodes hm h.nodes
  obtain rfl := Res.ok.inj (b1.symm.trans b1')
  have ee := Res.ok.inj (b2.symm.trans b2')
  simp only [Prod.mk.injEq] at ee
  obtain ⟨rfl, rfl, rfl⟩ := ee
  have eP := e
  rw [problem2, show standardRule 2 2 = some Quadrature.rule2_6 from rfl, Res.ofOptionUB_some, Res.ok_bind, b1, Res.ok_bind, b2, Res.ok_bind] at eP
  have eD : P.dofs = fun c v => (dofs c v).getD 0 := by rw [← Res.ok.inj eP]; rfl
  have eM : P.m = size := by rw [← Res.ok.inj eP]; rfl
  have hC : ∀ u, ∃ F, (ContinuousOn F (domain 3 n cells X) ∧ IsP2 n cells X P.dofs u F) ∧
      ∃ l, pointEval P.n P.nb P.dofs ids (psiAt 2 2 6 cells X locs) = .ok l ∧
        (∀ i, ids[i]? = some (-1) → ∑ j ∈ range size, entry l i j * u j = 0) ∧
        ∀ i (c : Nat), ids[i]? = some (c : Int) → ∑ j ∈ range size, entry l i j * u j = F (locs i) := by
    intro u
    obtain ⟨F, f1, f2, f3, f4⟩ := b6 u
    refine ⟨F, ⟨f1, f2, fun c hc => ⟨fun v hv => ?_, fun k hk => ?_⟩⟩, ?_⟩
    · obtain ⟨y, x, g1, g2, g3⟩ := f3 c hc v (by omega)
      rw [(b5 c hc).1 v hv] at g1
      obtain rfl := Option.some.inj g1
      rw [b3 _ (h.nodes c hc v hv)] at g2
      obtain rfl := Option.some.inj g2
      rw [g3, e7 c hc v hv]
    · obtain ⟨y, g1, _, _, g2⟩ := (b5 c hc).2 k hk
      obtain ⟨y', x, g1', g2', g3⟩ := f3 c hc k.1 (by
        simp only [List.mem_cons, List.not_mem_nil, or_false] at hk
        rcases hk with rfl | rfl | rfl <;> norm_num)
      obtain rfl := Option.some.inj (g1.symm.trans g1')
      obtain rfl := Option.some.inj (g2.symm.trans g2')
      rw [g3, eD]
      show u y = u ((dofs c k.1).getD 0)
      rw [g1, Option.getD_some]
    · obtain ⟨l, g1, g2, g3⟩ := f4 ids locs (by rintro rfl; simp at hi0) hL.cell
      exact ⟨l, by rw [e3, e4, eD]; exact g1, g2, g3⟩
  obtain ⟨_, _, l, el, _, _⟩ := hC fun _ => 0
  have hval : ∀ u F, IsP2 n cells X P.dofs u F → ∀ i < ids.length,
      ∑ q ∈ range P.m, entry l i q * u q = if ids[i]? = some (-1) then 0 else F (locs i) := by
    intro u F hF i hi
    obtain ⟨F', ⟨_, hF'⟩, l', el', g1, g2⟩ := hC u
    obtain rfl := Res.ok.inj (el.symm.trans el')
    rw [eM]
    split_ifs with hm'
    · exact g1 i hm'
    · rcases hL.cell i _ (List.getElem?_eq_getElem hi) with h1 | ⟨c, hc, h1, h2⟩
      · exact absurd (by rw [List.getElem?_eq_getElem hi, h1]) hm'
      · rw [g2 i c (by rw [List.getElem?_eq_getElem hi, h1]), ← p2_value h.proper hF' hc h2, p2_value h.proper hF hc h2]
  refine ⟨P, I, J, l, e, e5, e1, hLa, fun data hr hc => ?_, hval, fun u => ?_⟩
  · refine ⟨⟨fun c hc i hi => e8 c (by omega) i (by omega), by rw [e1, e2]; exact hs, by rw [e1]; exact hns⟩,
      C103_coercive P (C103_elements P hLa (by simp) (fun c _ k _ => by rw [e1, e2]; exact hell _) (by rwa [e3]) hcon),
      C104_mass_definite P hLa (by simp) (by rwa [e3]) fun p hp => ?_, by rwa [e3], hc, el, ⟨i0, ?_, ?_⟩⟩
    · by_cases hpn : p < nNodes
      · obtain ⟨c, hc, v, hv, e9⟩ := h.used p hpn
        exact ⟨c, by omega, v, by omega, by rw [e7 c hc v hv, e9]⟩
      · obtain ⟨c, hc, j, hj, e9⟩ := b8 p (by omega) (by omega)
        exact ⟨c, by omega, 3 + j, by omega, by rw [eD]; show (dofs c (3 + j)).getD 0 = p; rw [e9, Option.getD_some]⟩
    · exact (List.getElem?_eq_some_iff.1 hi0).1
    · have h1 := hval (fun _ => 1) (fun _ => 1) (p2_const _ 1) i0 (List.getElem?_eq_some_iff.1 hi0).1
      rw [if_neg (by rw [hi0]; simpa using hn0)] at h1
      rw [← h1]
      simp only [mul_one]
  · obtain ⟨F, hF, _⟩ := hC u
    exact ⟨F, hF⟩

section
variable (hN : N = 2 ∨ N = 3) {op : Op ℝ} (hs : FlagRight N op) (hns : NoScalar op) (bNodes : Nat → Bool) (h : GoodMesh 3 n nNodes cells X)
    (hm : Manifold cells 3 n) (hell : ∀ r, Elliptic N op r) {ids : List Int} {locs : Nat → Fin N → ℝ} (hL : Located 3 n cells X ids locs)
include hN hs hns h hm hell hL

/-- **C162** on connected meshes of triangles in the plane or on a surface, second order elements: the fitted function is continuous,
quadratic on each triangle, and of all such functions it alone has the least criterion. -/
theorem C162_quadratic_partial :
    ∃ P, problem2 op cells n nNodes X bNodes = .ok P ∧ ∀ lu : Solver ℝ, ExactLU (P.m + P.m) lu → CompleteLU (P.m + P.m) lu →
      ∀ data : Dense ℝ, n * Quadrature.size P.t ≤ data.rows → 0 < data.cols → ∀ junk lam, 0 < lam →
      ∀ y : Nat → ℝ, ∃ f g F, spatialFit lu P data junk ids (psiAt 2 2 6 cells X locs) lam y = .ok (some (f, g)) ∧
        ContinuousOn F (domain 3 n cells X) ∧ IsP2 n cells X P.dofs f F ∧ P.Gap data f g ∧
        ∀ f' g' F', IsP2 n cells X P.dofs f' F' → P.Gap data f' g' →
          misfitAt ids locs y F + lam * P.l2 g g ≤ misfitAt ids locs y F' + lam * P.l2 g' g' ∧
          ((∃ p < P.m, f' p ≠ f p) → misfitAt ids locs y F + lam * P.l2 g g < misfitAt ids locs y F' + lam * P.l2 g' g') := by
  obtain ⟨P, I, J, l, e, em, _, _, hD, hV, hC⟩ := mesh_fit2 hN hs hns bNodes h hm hell hL
  refine ⟨P, e, fun lu hlu hlc data hr hc junk lam hl y => ?_⟩
  obtain ⟨f, g, e1, hg, _, hmin⟩ := C162_fit_partial (hD data hr hc) hlu hlc junk lam hl y
  obtain ⟨F, f1, f2⟩ := hC f
  refine ⟨f, g, F, e1, f1, f2, hg, fun f' g' F' hF' hg' => ?_⟩
  have := hmin f' g' hg'
  rw [misfit_split y (hV f F f2), misfit_split y (hV f' F' hF')] at this
  exact ⟨by linarith [this.1], fun hne => by linarith [this.2 hne]⟩

/-- **C162** with second order elements: without reaction term and forcing, constant data are fitted by the constant. -/
theorem C162_quadratic_constants_partial (hr : NoReaction op) :
    ∃ P, problem2 op cells n nNodes X bNodes = .ok P ∧ ∀ lu : Solver ℝ, ExactLU (P.m + P.m) lu → CompleteLU (P.m + P.m) lu →
      ∀ data : Dense ℝ, n * Quadrature.size P.t ≤ data.rows → 0 < data.cols → (∀ r, data.at' r 0 = 0) → ∀ junk lam, 0 < lam →
      ∀ (y : Nat → ℝ) (α : ℝ), (∀ i < ids.length, ids[i]? ≠ some (-1) → y i = α) →
        ∃ f g, spatialFit lu P data junk ids (psiAt 2 2 6 cells X locs) lam y = .ok (some (f, g)) ∧ ∀ p < P.m, f p = α := by
  obtain ⟨P, I, J, l, e, em, eo, hLa, hD, hV, hC⟩ := mesh_fit2 hN hs hns bNodes h hm hell hL
  refine ⟨P, e, fun lu hlu hlc data hrw hc h0 junk lam hl y α hy => ?_⟩
  obtain ⟨f, g, e1, hg, _, hmin⟩ := C162_fit_partial (hD data hrw hc) hlu hlc junk lam hl y
  refine ⟨f, g, e1, fun p hp => ?_⟩
  have hz : P.Gap data (fun _ => α) fun _ => 0 := fun v => by
    rw [lagrange_const hLa (by rw [eo]; exact hr)]
    simp [Prob.load, Prob.l2, feValue, h0]
  obtain ⟨F, f1, f2⟩ := hC f
  by_contra hne
  have := (hmin _ _ hz).2 ⟨p, hp, Ne.symm hne⟩
  rw [misfit_split y (hV f F f2), misfit_split y (hV _ _ (p2_const _ α))] at this
  have z1 : misfitAt ids locs y (fun _ => α) = 0 := sum_eq_zero fun i hi => by
    obtain ⟨h1, h2⟩ := mem_filter.1 hi
    rw [hy i (mem_range.1 h1) h2, sub_self, zero_pow two_ne_zero]
  have z2 : P.l2 (fun _ => 0) (fun _ => 0) = 0 := by simp [Prob.l2, feValue]
  have n1 : 0 ≤ misfitAt ids locs y F := sum_nonneg fun _ _ => sq_nonneg _
  have n2 := mul_nonneg hl.le ((hD data hrw hc).mass g).1
  rw [z1, z2] at this
  linarith

/-- **C162** with second order elements: without reaction term, the differences between data and fitted values at the locations in the
mesh have sum zero. -/
theorem C162_quadratic_residuals_partial (hr : NoReaction op) :
    ∃ P, problem2 op cells n nNodes X bNodes = .ok P ∧ ∀ lu : Solver ℝ, ExactLU (P.m + P.m) lu → CompleteLU (P.m + P.m) lu →
      ∀ data : Dense ℝ, n * Quadrature.size P.t ≤ data.rows → 0 < data.cols → ∀ junk lam, 0 < lam →
      ∀ y : Nat → ℝ, ∃ f g F, spatialFit lu P data junk ids (psiAt 2 2 6 cells X locs) lam y = .ok (some (f, g)) ∧
        IsP2 n cells X P.dofs f F ∧ ∑ i ∈ range ids.length with ids[i]? ≠ some (-1), (y i - F (locs i)) = 0 := by
  obtain ⟨P, I, J, l, e, em, eo, hLa, hD, hV, hC⟩ := mesh_fit2 hN hs hns bNodes h hm hell hL
  refine ⟨P, e, fun lu hlu hlc data hrw hc junk lam hl y => ?_⟩
  obtain ⟨f, g, e1, hz⟩ := C162_residuals_partial (hD data hrw hc) hlu hlc junk (fun v => lagrange_const hLa (by rw [eo]; exact hr) 1 v) lam hl y
  obtain ⟨F, f1, f2⟩ := hC f
  refine ⟨f, g, F, e1, f2, Eq.trans ?_ hz⟩
  rw [sum_filter]
  refine sum_congr rfl fun i hi => ?_
  have h1 := hV _ _ (p2_const _ 1) i (mem_range.1 hi)
  simp only [mul_one] at h1
  rw [h1, hV f F f2 i (mem_range.1 hi)]
  by_cases hm' : ids[i]? = some (-1) <;> simp [hm']

end

/-! ### The hypotheses are met -/

/-- Two triangles of the unit square: the first node and the middle of an edge of the first, the last node of the second, and a location
outside of the square. -/
theorem square_located : Located 3 2 demo2 FEM.squareX [0, 0, -1, 1]
    fun i => if i = 0 then FEM.squareX (demo2 0 0) else if i = 1 then (1 / 2 : ℝ) • (FEM.squareX (demo2 0 0) + FEM.squareX (demo2 0 1)) else
      if i = 2 then fun _ => 7 else FEM.squareX (demo2 1 2) where
  cell := fun i id hi => by
    match i with
    | 0 => exact .inr ⟨0, by norm_num, by simpa using hi.symm, (node_region 0 (v := 0) (by norm_num) : FEM.squareX (demo2 0 0) ∈ region 3 demo2 FEM.squareX 0)⟩
    | 1 => exact .inr ⟨0, by norm_num, by simpa using hi.symm, by simpa using mid_region (X := FEM.squareX) (cells := demo2) 0 (a := 0) (b := 1) (by norm_num) (by norm_num)⟩
    | 2 => exact .inl (by simpa using hi.symm)
    | 3 => exact .inr ⟨1, by norm_num, by simpa using hi.symm, (node_region 1 (v := 2) (by norm_num) : FEM.squareX (demo2 1 2) ∈ region 3 demo2 FEM.squareX 1)⟩
    | i + 4 => simp at hi
  one := ⟨0, 0, rfl, by norm_num⟩

example (bNodes : Nat → Bool) (lam : ℝ) (hl : 0 < lam) (y : Nat → ℝ) : ∃ (lu : Solver ℝ) (P : Prob ℝ) (f g : Nat → ℝ) (F : (Fin 2 → ℝ) → ℝ),
    problem2 (.neg .lap) demo2 2 4 FEM.squareX bNodes = .ok P ∧
    spatialFit lu P ⟨2 * Quadrature.size P.t, 1, fun r _ => r⟩ (fun _ => 0) [0, 0, -1, 1] (psiAt 2 2 6 demo2 FEM.squareX
      fun i => if i = 0 then FEM.squareX (demo2 0 0) else if i = 1 then (1 / 2 : ℝ) • (FEM.squareX (demo2 0 0) + FEM.squareX (demo2 0 1)) else
        if i = 2 then fun _ => 7 else FEM.squareX (demo2 1 2)) lam y = .ok (some (f, g)) ∧ IsP2 2 demo2 FEM.squareX P.dofs f F ∧
    ContinuousOn F (domain 3 2 demo2 FEM.squareX) := by
  obtain ⟨P, e, h⟩ := C162_quadratic_partial (.inl rfl) (op := .neg .lap) (fun _ => trivial) trivial bNodes square_good demo2_manifold
    (fun r => C103_laplacian 2 r) square_located
  obtain ⟨lu, h1, h2⟩ := exists_exactLU (K := ℝ) (P.m + P.m)
  obtain ⟨f, g, F, e1, hF, hP, _⟩ := h lu h1 h2 ⟨2 * Quadrature.size P.t, 1, fun r _ => r⟩ le_rfl (by norm_num) (fun _ => 0) lam hl y
  exact ⟨lu, P, f, g, F, e, e1, hP, hF⟩

end Fdapde.PDE
