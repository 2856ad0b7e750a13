import Verif.PDE.PropsSemiInexact
import Verif.PDE.PropsFitInexact2
import Verif.PDE.PropsFit2
/- C168: regression with covariates, inexact solvers and second order elements on triangles. -/
namespace Fdapde.PDE
open Finset FEM LinAlg Triang

variable {N n nNodes q : Nat} {cells : Nat → Nat → Nat} {Z : Nat → Fin N → ℝ} {ids : List Int} {X : Nat → Nat → ℝ}

/-- **C168** with covariates and second order elements on triangles in the plane or on a surface (partial: the matrices are exact): coefficients of the
covariates, and values of the function at every point of the domain. -/
theorem C168_covariates_quadratic_partial (hN : N = 2 ∨ N = 3) {op : Op ℝ} (hs : FlagRight N op) (hns : NoScalar op) (bNodes : Nat → Bool)
    (h : GoodMesh 3 n nNodes cells Z) (hm : Manifold cells 3 n) (hell : ∀ r, Elliptic N op r) {locs : Nat → Fin N → ℝ}
    (hL : Located 3 n cells Z ids locs)
    (hX : ∀ (c : ℝ) (b : Fin q → ℝ), (∀ i < ids.length, (if ids[i]? = some (-1) then 0 else c) = ∑ a : Fin q, X i a * b a) → c = 0 ∧ b = 0)
    (lam : ℝ) (hl : 0 < lam) :
    ∃ P C, problem2 op cells n nNodes Z bNodes = .ok P ∧ 0 ≤ C ∧
      ∀ (data : Dense ℝ), n * Quadrature.size P.t ≤ data.rows → 0 < data.cols → ∀ (junk y : Nat → ℝ) (ε : ℝ) (lu lu' : Solver ℝ) (dense dense' : DenseSolver ℝ q),
        0 ≤ ε → C * ε ≤ 1 → BackwardLU (P.m + P.m) ε lu → CompleteLU (P.m + P.m) lu → ExactLU (P.m + P.m) lu' → CompleteLU (P.m + P.m) lu' →
        BackwardDense ε dense → ExactDense dense' →
        ∃ β f g β' f' g' F F', semiFit lu dense P data junk ids (psiAt 2 2 6 cells Z locs) lam X y = .ok (some (β, f, g)) ∧
          semiFit lu' dense' P data junk ids (psiAt 2 2 6 cells Z locs) lam X y = .ok (some (β', f', g')) ∧
          ContinuousOn F (domain 3 n cells Z) ∧ IsP2 n cells Z P.dofs f F ∧
          ContinuousOn F' (domain 3 n cells Z) ∧ IsP2 n cells Z P.dofs f' F' ∧
          ∀ Y, 0 ≤ Y → (∀ j < ids.length, |y j| ≤ Y) → (∀ p < P.m, |f' p| ≤ Y ∧ |g' p| ≤ Y) →
            (∀ a, |β a - β' a| ≤ C * ε * Y) ∧ ∀ x ∈ domain 3 n cells Z, |F x - F' x| ≤ C * ε * Y := by
  obtain ⟨P, I, J, l, e, em, -, -, hD, hV, hP2⟩ := mesh_fit2 hN hs hns bNodes h hm hell hL
  obtain ⟨C, hC0, hC⟩ := C168_covariates_partial (hD ⟨n * Quadrature.size P.t, 1, fun _ _ => 0⟩ le_rfl (by norm_num)) (identified2 hV hX) lam hl
  obtain ⟨en, hdm⟩ : P.n = n ∧ ∀ c < n, ∀ i < 6, P.dofs c i < P.m := by
    obtain ⟨P', _, _, e', _, _, _, e3, _, _, _, _, e8, _⟩ := C131_second_order hN op bNodes h hm
    rw [e] at e'
    rw [Res.ok.inj e']
    exact ⟨e3, e8⟩
  refine ⟨P, 7 / 3 * C, e, by positivity, fun data hr hc junk y ε lu lu' dense dense' hε hCε b1 b2 x1 x2 hB hE => ?_⟩
  obtain ⟨β, f, g, β', f', g', r1, r2, hb⟩ := hC data (by rw [en]; exact hr) hc junk y ε lu lu' dense dense' hε (by nlinarith [mul_nonneg hC0 hε]) b1 b2 x1 x2 hB hE
  obtain ⟨F, hF1, hF2⟩ := hP2 f
  obtain ⟨F', hF1', hF2'⟩ := hP2 f'
  refine ⟨β, f, g, β', f', g', F, F', r1, r2, hF1, hF2, hF1', hF2', fun Y hY hy hfg => ?_⟩
  have hb' := hb Y hY hy hfg
  refine ⟨fun a => (hb'.1 a).trans ?_, fun x hx => ?_⟩
  · have := mul_nonneg (mul_nonneg hC0 hε) hY
    linarith
  · refine (p2_gap h.proper hdm hF2 hF2' (fun p hp => (hb'.2 p hp).1) hx).trans (le_of_eq ?_)
    ring

/-! ### The hypotheses are met -/

/-- Two triangles, four locations of which one is outside, one covariate, solvers that are not exact. -/
example (bNodes : Nat → Bool) (y : Nat → ℝ) : ∃ (ε : ℝ) (lu lu' : Solver ℝ) (dense dense' : DenseSolver ℝ 1) (P : Prob ℝ) (C : ℝ) (β β' : Fin 1 → ℝ)
    (f g f' g' : Nat → ℝ) (F F' : (Fin 2 → ℝ) → ℝ), 0 < ε ∧ (∀ M B, M.det ≠ 0 → M * dense M B = (1 + ε) • B) ∧
    problem2 (.neg .lap) demo2 2 4 FEM.squareX bNodes = .ok P ∧
    semiFit lu dense P ⟨2 * Quadrature.size P.t, 1, fun r _ => r⟩ (fun _ => 0) [0, 0, -1, 1] (psiAt 2 2 6 demo2 FEM.squareX
      fun i => if i = 0 then FEM.squareX (demo2 0 0) else if i = 1 then (1 / 2 : ℝ) • (FEM.squareX (demo2 0 0) + FEM.squareX (demo2 0 1)) else
        if i = 2 then fun _ => 7 else FEM.squareX (demo2 1 2)) 5 (fun i _ => (i : ℝ)) y = .ok (some (β, f, g)) ∧
    semiFit lu' dense' P ⟨2 * Quadrature.size P.t, 1, fun r _ => r⟩ (fun _ => 0) [0, 0, -1, 1] (psiAt 2 2 6 demo2 FEM.squareX
      fun i => if i = 0 then FEM.squareX (demo2 0 0) else if i = 1 then (1 / 2 : ℝ) • (FEM.squareX (demo2 0 0) + FEM.squareX (demo2 0 1)) else
        if i = 2 then fun _ => 7 else FEM.squareX (demo2 1 2)) 5 (fun i _ => (i : ℝ)) y = .ok (some (β', f', g')) ∧
    IsP2 2 demo2 FEM.squareX P.dofs f F ∧ IsP2 2 demo2 FEM.squareX P.dofs f' F' ∧
    ∀ Y, 0 ≤ Y → (∀ j < 4, |y j| ≤ Y) → (∀ p < P.m, |f' p| ≤ Y ∧ |g' p| ≤ Y) →
      (∀ a, |β a - β' a| ≤ C * ε * Y) ∧ ∀ x ∈ domain 3 2 demo2 FEM.squareX, |F x - F' x| ≤ C * ε * Y := by
  obtain ⟨P, C, e, hC0, hC⟩ := C168_covariates_quadratic_partial (q := 1) (ids := [0, 0, -1, 1]) (X := fun i _ => (i : ℝ)) (.inl rfl) (op := .neg .lap)
    (fun _ => trivial) trivial bNodes square_good demo2_manifold (fun r => C103_laplacian 2 r) square_located (by
      intro c b hb
      have a0 := hb 0 (by simp)
      have a1 := hb 1 (by simp)
      simp at a0 a1
      rw [a0] at a1
      refine ⟨a0, funext fun a => ?_⟩
      rw [Subsingleton.elim a 0]
      simpa using a1.symm) 5 (by norm_num)
  have hp : 0 < 1 / (C + 1) := by positivity
  obtain ⟨lu, b1, b2, -⟩ := exists_inflatedLU (P.m + P.m) hp.le
  obtain ⟨lu', x1, x2⟩ := exists_exactLU (K := ℝ) (P.m + P.m)
  obtain ⟨dense, d1, d2⟩ := exists_inflatedDense (q := 1) hp.le
  have hE : ExactDense (fun M B => M⁻¹ * B : DenseSolver ℝ 1) := fun M B hd => by
    rw [← Matrix.mul_assoc, Matrix.mul_nonsing_inv _ (isUnit_iff_ne_zero.2 hd), Matrix.one_mul]
  obtain ⟨β, f, g, β', f', g', F, F', r1, r2, -, hF, -, hF', hb⟩ := hC ⟨2 * Quadrature.size P.t, 1, fun r _ => r⟩ le_rfl (by norm_num) (fun _ => 0) y _ lu lu'
    dense _ hp.le (by rw [mul_one_div, div_le_one (by linarith)]; linarith) b1 b2 x1 x2 d1 hE
  exact ⟨_, lu, lu', dense, _, P, C, β, β', f, g, f', g', F, F', hp, d2, e, r1, r2, hF, hF', hb⟩

end Fdapde.PDE
