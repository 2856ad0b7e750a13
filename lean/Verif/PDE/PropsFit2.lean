import Verif.PDE.PropsRegression2
import Verif.PDE.PropsSemi
import Verif.PDE.PropsSpaceTime
/- C164 and C165: regression with covariates and regression in space and time, with second order elements on triangles. -/
set_option linter.unusedSectionVars false
namespace Fdapde.PDE
open Finset FEM LinAlg Triang

variable {N n nNodes : Nat} {cells : Nat → Nat → Nat} {Y : Nat → Fin N → ℝ} {ids : List Int}

section
variable {q : Nat} {X : Nat → Nat → ℝ}

theorem identified2 {m : Nat} {dofs : Nat → Nat → Nat} {l : List (Trip ℝ)} {locs : Nat → Fin N → ℝ}
    (hV : ∀ u F, IsP2 n cells Y dofs u F → ∀ i < ids.length, ∑ q ∈ range m, entry l i q * u q = if ids[i]? = some (-1) then 0 else F (locs i))
    (hX : ∀ (c : ℝ) (b : Fin q → ℝ), (∀ i < ids.length, (if ids[i]? = some (-1) then 0 else c) = ∑ a : Fin q, X i a * b a) → c = 0 ∧ b = 0) :
    Identified q m ids.length (entry l) X := by
  intro c b hb
  refine hX c b fun i hi => ?_
  have h1 := hV (fun _ => 1) (fun _ => 1) (p2_const _ 1) i hi
  simp only [mul_one] at h1
  rw [← hb i hi, h1]
  split <;> simp

variable (hN : N = 2 ∨ N = 3) {op : Op ℝ} (hs : FlagRight N op) (hns : NoScalar op) (bNodes : Nat → Bool) (h : GoodMesh 3 n nNodes cells Y)
    (hm : Manifold cells 3 n) (hell : ∀ r, Elliptic N op r) {locs : Nat → Fin N → ℝ} (hL : Located 3 n cells Y ids locs)
    {dense : DenseSolver ℝ q} (hE : ExactDense dense)
    (hX : ∀ (c : ℝ) (b : Fin q → ℝ), (∀ i < ids.length, (if ids[i]? = some (-1) then 0 else c) = ∑ a : Fin q, X i a * b a) → c = 0 ∧ b = 0)
include hN hs hns h hm hell hL hE hX

/-- **C164** on connected meshes of triangles in the plane or on a surface, second order elements, for covariates independent of the constant at
the locations: the fitted function is continuous, quadratic on each triangle, and of all coefficients and all such functions the fitted ones
alone have the least criterion. -/
theorem C164_quadratic_partial :
    ∃ P, problem2 op cells n nNodes Y bNodes = .ok P ∧ ∀ lu : Solver ℝ, ExactLU (P.m + P.m) lu → CompleteLU (P.m + P.m) lu →
      ∀ data : Dense ℝ, n * Quadrature.size P.t ≤ data.rows → 0 < data.cols → ∀ junk lam, 0 < lam →
      ∀ y : Nat → ℝ, ∃ (β : Fin q → ℝ) (f g : Nat → ℝ) (F : (Fin N → ℝ) → ℝ),
        semiFit lu dense P data junk ids (psiAt 2 2 6 cells Y locs) lam X y = .ok (some (β, f, g)) ∧
        ContinuousOn F (domain 3 n cells Y) ∧ IsP2 n cells Y P.dofs f F ∧ P.Gap data f g ∧
        ∀ (β' : Fin q → ℝ) (f' g' : Nat → ℝ) (F' : (Fin N → ℝ) → ℝ), IsP2 n cells Y P.dofs f' F' → P.Gap data f' g' →
          semiMisfit ids locs X y β F + lam * P.l2 g g ≤ semiMisfit ids locs X y β' F' + lam * P.l2 g' g' ∧
          ((β' ≠ β ∨ ∃ p < P.m, f' p ≠ f p) → semiMisfit ids locs X y β F + lam * P.l2 g g < semiMisfit ids locs X y β' F' + lam * P.l2 g' g') := by
  obtain ⟨P, I, J, l, e, em, _, _, hD, hV, hC⟩ := mesh_fit2 hN hs hns bNodes h hm hell hL
  refine ⟨P, e, fun lu hlu hlc data hr hc junk lam hl y => ?_⟩
  obtain ⟨β, f, g, e1, hg, _, hmin⟩ := C164_fit_partial (hD data hr hc) (identified2 hV hX) hlu hlc hE junk lam hl y
  obtain ⟨F, f1, f2⟩ := hC f
  refine ⟨β, f, g, F, e1, f1, f2, hg, fun β' f' g' F' hF' hg' => ?_⟩
  have := hmin β' f' g' hg'
  rw [semi_misfit y (hV f F f2), semi_misfit y (hV f' F' hF')] at this
  exact this

/-- **C164** with second order elements: without reaction term and forcing, data equal to a combination of the covariates, plus a constant where
a location has a cell, give back the coefficients and the constant. -/
theorem C164_quadratic_recovers_partial (hr : NoReaction op) :
    ∃ P, problem2 op cells n nNodes Y bNodes = .ok P ∧ ∀ lu : Solver ℝ, ExactLU (P.m + P.m) lu → CompleteLU (P.m + P.m) lu →
      ∀ data : Dense ℝ, n * Quadrature.size P.t ≤ data.rows → 0 < data.cols →
      (∀ r, data.at' r 0 = 0) → ∀ junk lam, 0 < lam → ∀ (y : Nat → ℝ) (b : Fin q → ℝ) (α : ℝ),
        (∀ i < ids.length, y i = ∑ a : Fin q, X i a * b a + if ids[i]? = some (-1) then 0 else α) →
        ∃ f g, semiFit lu dense P data junk ids (psiAt 2 2 6 cells Y locs) lam X y = .ok (some (b, f, g)) ∧ ∀ p < P.m, f p = α := by
  obtain ⟨P, I, J, l, e, em, eo, hLa, hD, hV, hC⟩ := mesh_fit2 hN hs hns bNodes h hm hell hL
  refine ⟨P, e, fun lu hlu hlc data hrw hc h0 junk lam hl y b α hy => ?_⟩
  obtain ⟨f, g, e1, hz⟩ := C164_exact_partial (hD data hrw hc) (identified2 hV hX) hlu hlc hE junk lam hl y (fun _ => α) b (fun v => by
    rw [lagrange_const hLa (by rw [eo]; exact hr)]
    simp [Prob.load, h0]) fun i hi => by rw [hV _ _ (p2_const _ α) i hi]; exact hy i hi
  exact ⟨f, g, e1, fun p hp => (hz p hp).1⟩

end

section
variable {tol : ℝ} {R : Nat} {knots qn qw times : List ℝ} (ht : TimeData tol R knots qn qw times)
    (hN : N = 2 ∨ N = 3) {op : Op ℝ} (hs : FlagRight N op) (hns : NoScalar op) (bNodes : Nat → Bool) (h : GoodMesh 3 n nNodes cells Y)
    (hm : Manifold cells 3 n) (hell : ∀ r, Elliptic N op r) {locs : Nat → Fin N → ℝ} (hL : Located 3 n cells Y ids locs)
include ht hN hs hns h hm hell hL

/-- **C165** on connected meshes of triangles in the plane or on a surface, second order elements: the fitted function is, at every time,
continuous and quadratic on each triangle, and of all such functions it alone has the least criterion. -/
theorem C165_quadratic_partial :
    ∃ P, problem2 op cells n nNodes Y bNodes = .ok P ∧ ∀ lu : Solver ℝ,
      ExactLU ((knots.length + R - 1) * P.m + (knots.length + R - 1) * P.m) lu →
      CompleteLU ((knots.length + R - 1) * P.m + (knots.length + R - 1) * P.m) lu →
      ∀ data : Dense ℝ, n * Quadrature.size P.t ≤ data.rows → 0 < data.cols →
      ∀ junk lamT lamD, 0 < lamT → 0 < lamD → ∀ y : Nat → ℝ, ∃ t b b2 f g, ∃ F : ℝ → (Fin N → ℝ) → ℝ, TimeBasis tol R knots t b b2 ∧
        spaceTimeFit tol R knots qn qw times lu P data junk ids (psiAt 2 2 6 cells Y locs) lamT lamD y = .ok (some (f, g)) ∧
        (∀ x, ContinuousOn (F x) (domain 3 n cells Y) ∧ IsP2 n cells Y P.dofs (atTime (Splines.size R t) P.m (fun a => b a x) f) (F x)) ∧
        P.TimeGap (Splines.size R t) f g ∧
        ∀ (f' g' : Nat → ℝ) (F' : ℝ → (Fin N → ℝ) → ℝ), (∀ x, IsP2 n cells Y P.dofs (atTime (Splines.size R t) P.m (fun a => b a x) f') (F' x)) →
          P.TimeGap (Splines.size R t) f' g' →
          ∑ j ∈ range times.length, misfitAt ids locs (fun i => y (ids.length * j + i)) (F (times.getD j 0)) +
              P.penalties qn qw knots b b2 (Splines.size R t) lamT lamD f g ≤
            ∑ j ∈ range times.length, misfitAt ids locs (fun i => y (ids.length * j + i)) (F' (times.getD j 0)) +
              P.penalties qn qw knots b b2 (Splines.size R t) lamT lamD f' g' ∧
          ((∃ p < Splines.size R t * P.m, f' p ≠ f p) →
            ∑ j ∈ range times.length, misfitAt ids locs (fun i => y (ids.length * j + i)) (F (times.getD j 0)) +
                P.penalties qn qw knots b b2 (Splines.size R t) lamT lamD f g <
              ∑ j ∈ range times.length, misfitAt ids locs (fun i => y (ids.length * j + i)) (F' (times.getD j 0)) +
                P.penalties qn qw knots b b2 (Splines.size R t) lamT lamD f' g') := by
  obtain ⟨P, I, J, l, e, em, _, _, hD, hV, hC⟩ := mesh_fit2 hN hs hns bNodes h hm hell hL
  refine ⟨P, e, fun lu hlu hlc data hr hc junk lamT lamD hT hDD y => ?_⟩
  obtain ⟨t, b, b2, f, g, hb, e1, hg, _, hmin⟩ := C165_fit_partial ht (hD data hr hc) hlu hlc junk lamT lamD hT hDD y
  choose F f1 f2 using fun x => hC (atTime (Splines.size R t) P.m (fun a => b a x) f)
  refine ⟨t, b, b2, f, g, F, hb, e1, fun x => ⟨f1 x, f2 x⟩, hg, fun f' g' F' hF' hg' => ?_⟩
  have := hmin f' g' hg'
  rw [st_misfit_split (F := F) y fun j _ => hV _ _ (f2 _), st_misfit_split (F := F') y fun j _ => hV _ _ (hF' _)] at this
  exact ⟨by linarith [this.1], fun hne => by linarith [this.2 hne]⟩

/-- **C165** with second order elements: without reaction term, the differences between data and fitted values, over all times and the locations
in the mesh, have sum zero and are orthogonal to the times. -/
theorem C165_quadratic_residuals_partial (hr : NoReaction op) :
    ∃ P, problem2 op cells n nNodes Y bNodes = .ok P ∧ ∀ lu : Solver ℝ,
      ExactLU ((knots.length + R - 1) * P.m + (knots.length + R - 1) * P.m) lu →
      CompleteLU ((knots.length + R - 1) * P.m + (knots.length + R - 1) * P.m) lu →
      ∀ data : Dense ℝ, n * Quadrature.size P.t ≤ data.rows → 0 < data.cols →
      ∀ junk lamT lamD, 0 < lamT → 0 < lamD → ∀ y : Nat → ℝ, ∃ t b b2 f g, ∃ F : ℝ → (Fin N → ℝ) → ℝ, TimeBasis tol R knots t b b2 ∧
        spaceTimeFit tol R knots qn qw times lu P data junk ids (psiAt 2 2 6 cells Y locs) lamT lamD y = .ok (some (f, g)) ∧
        (∀ x, IsP2 n cells Y P.dofs (atTime (Splines.size R t) P.m (fun a => b a x) f) (F x)) ∧
        ∑ j ∈ range times.length, ∑ i ∈ range ids.length with ids[i]? ≠ some (-1), (y (ids.length * j + i) - F (times.getD j 0) (locs i)) = 0 ∧
        ∑ j ∈ range times.length, times.getD j 0 * ∑ i ∈ range ids.length with ids[i]? ≠ some (-1),
          (y (ids.length * j + i) - F (times.getD j 0) (locs i)) = 0 := by
  obtain ⟨P, I, J, l, e, em, eo, hLa, hD, hV, hC⟩ := mesh_fit2 hN hs hns bNodes h hm hell hL
  refine ⟨P, e, fun lu hlu hlc data hrw hc junk lamT lamD hT hDD y => ?_⟩
  obtain ⟨t, b, b2, f, g, hb, e1, hz⟩ := C165_residuals_partial ht (hD data hrw hc) hlu hlc junk
    (fun v => lagrange_const hLa (by rw [eo]; exact hr) 1 v) lamT lamD hT hDD y
  choose F f1 f2 using fun x => hC (atTime (Splines.size R t) P.m (fun a => b a x) f)
  refine ⟨t, b, b2, f, g, F, hb, e1, f2, ?_⟩
  have key : ∀ j, ∑ i ∈ range ids.length, (y (ids.length * j + i) - ∑ q ∈ range P.m, entry l i q *
      atTime (Splines.size R t) P.m (fun a => b a (times.getD j 0)) f q) * ∑ q ∈ range P.m, entry l i q =
      ∑ i ∈ range ids.length with ids[i]? ≠ some (-1), (y (ids.length * j + i) - F (times.getD j 0) (locs i)) := by
    intro j
    rw [sum_filter]
    refine sum_congr rfl fun i hi => ?_
    have h1 := hV _ _ (p2_const _ 1) i (mem_range.1 hi)
    simp only [mul_one] at h1
    rw [h1, hV _ _ (f2 _) i (mem_range.1 hi)]
    by_cases hm' : ids[i]? = some (-1) <;> simp [hm']
  constructor
  · have := hz 1 0
    simp only [zero_mul, add_zero, one_mul] at this
    exact Eq.trans (sum_congr rfl fun j _ => (key j).symm) this
  · have := hz 0 1
    simp only [zero_add, one_mul] at this
    exact Eq.trans (sum_congr rfl fun j _ => by rw [← key, mul_sum]) this

end

/-! ### The hypotheses are met -/

/-- The two triangles of the unit square, one covariate that is the number of the location. -/
example (bNodes : Nat → Bool) (lam : ℝ) (hl : 0 < lam) (b α : ℝ) : ∃ (lu : Solver ℝ) (dense : DenseSolver ℝ 1) (P : Prob ℝ) (f g : Nat → ℝ),
    problem2 (.neg .lap) demo2 2 4 FEM.squareX bNodes = .ok P ∧
    semiFit lu dense P ⟨2 * Quadrature.size P.t, 1, fun _ _ => 0⟩ (fun _ => 0) [0, 0, -1, 1] (psiAt 2 2 6 demo2 FEM.squareX
      fun i => if i = 0 then FEM.squareX (demo2 0 0) else if i = 1 then (1 / 2 : ℝ) • (FEM.squareX (demo2 0 0) + FEM.squareX (demo2 0 1)) else
        if i = 2 then fun _ => 7 else FEM.squareX (demo2 1 2)) lam (fun i _ => (i : ℝ)) (fun i => i * b + if i = 2 then 0 else α) =
      .ok (some (fun _ => b, f, g)) ∧ ∀ p < P.m, f p = α := by
  have hE : ExactDense (fun M B => M⁻¹ * B : DenseSolver ℝ 1) := fun M B hd => by
    rw [← Matrix.mul_assoc, Matrix.mul_nonsing_inv _ (isUnit_iff_ne_zero.2 hd), Matrix.one_mul]
  obtain ⟨P, e, h⟩ := C164_quadratic_recovers_partial (ids := [0, 0, -1, 1]) (X := fun i _ => (i : ℝ)) (.inl rfl) (op := .neg .lap) (fun _ => trivial) trivial
    bNodes square_good demo2_manifold (fun r => C103_laplacian 2 r) square_located hE (by
      intro c b hb
      have a0 := hb 0 (by simp)
      have a1 := hb 1 (by simp)
      simp at a0 a1
      rw [a0] at a1
      refine ⟨a0, funext fun a => ?_⟩
      rw [Subsingleton.elim a 0]
      simpa using a1.symm) trivial
  obtain ⟨lu, h1, h2⟩ := exists_exactLU (K := ℝ) (P.m + P.m)
  obtain ⟨f, g, e1, hz⟩ := h lu h1 h2 ⟨2 * Quadrature.size P.t, 1, fun _ _ => 0⟩ le_rfl (by norm_num) (fun r => by simp [Dense.at']) (fun _ => 0) lam hl
    (fun i => i * b + if i = 2 then 0 else α) (fun _ => b) α (by
      intro i hi
      have : i = 0 ∨ i = 1 ∨ i = 2 ∨ i = 3 := by simp at hi; omega
      rcases this with rfl | rfl | rfl | rfl <;> simp)
  exact ⟨lu, _, P, f, g, e, e1, hz⟩

/-- Cubic splines in time on the knots 0, 1 and 3, quadratic elements on the square. -/
example (bNodes : Nat → Bool) (y : Nat → ℝ) : ∃ (lu : Solver ℝ) (P : Prob ℝ) (f g : Nat → ℝ),
    problem2 (.neg .lap) demo2 2 4 FEM.squareX bNodes = .ok P ∧
    spaceTimeFit (1 / 10) 3 [0, 1, 3] (Splines.splineNodes ℝ) (Splines.splineWeights ℝ) [1 / 2, 2, 3] lu P ⟨2 * Quadrature.size P.t, 1, fun r _ => r⟩
      (fun _ => 0) [0, 0, -1, 1] (psiAt 2 2 6 demo2 FEM.squareX fun i => if i = 0 then FEM.squareX (demo2 0 0) else
        if i = 1 then (1 / 2 : ℝ) • (FEM.squareX (demo2 0 0) + FEM.squareX (demo2 0 1)) else if i = 2 then fun _ => 7 else FEM.squareX (demo2 1 2))
      7 8 y = .ok (some (f, g)) := by
  obtain ⟨P, e, h⟩ := C165_quadratic_partial demo_time (.inl rfl) (op := .neg .lap) (fun _ => trivial) trivial bNodes square_good demo2_manifold
    (fun r => C103_laplacian 2 r) square_located
  obtain ⟨lu, h1, h2⟩ := exists_exactLU (K := ℝ) (5 * P.m + 5 * P.m)
  obtain ⟨t, b, b2, f, g, F, -, e1, -⟩ := h lu h1 h2 ⟨2 * Quadrature.size P.t, 1, fun r _ => r⟩ le_rfl (by norm_num) (fun _ => 0) 7 8 (by norm_num) (by norm_num) y
  exact ⟨lu, P, f, g, e, e1⟩

end Fdapde.PDE
