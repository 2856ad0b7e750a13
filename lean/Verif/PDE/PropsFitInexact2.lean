import Verif.PDE.PropsFitInexact
import Verif.PDE.PropsRegression2
/- C168: regression with inexact solvers and second order elements on triangles. -/
namespace Fdapde.PDE
open Finset FEM LinAlg Triang Geometry

variable {N n nNodes : Nat} {cells : Nat → Nat → Nat} {X : Nat → Fin N → ℝ}

/-- Two piecewise quadratic functions whose values at the nodes and at the middles of the edges differ by at most `B` differ by at most 7/3 `B`. -/
theorem p2_gap (h : Proper 3 n cells X) {dofs : Nat → Nat → Nat} {m : Nat} (hd : ∀ c < n, ∀ i < 6, dofs c i < m) {u u' : Nat → ℝ} {F F' : (Fin N → ℝ) → ℝ}
    (hF : IsP2 n cells X dofs u F) (hF' : IsP2 n cells X dofs u' F') {B : ℝ} (hB : ∀ p < m, |u p - u' p| ≤ B) {x : Fin N → ℝ}
    (hx : x ∈ domain 3 n cells X) : |F x - F' x| ≤ 7 / 3 * B := by
  obtain ⟨c, hc, hxc⟩ : ∃ c, c < n ∧ x ∈ region 3 cells X c := by simpa [domain] using hx
  rw [← p2_value h hF hc hxc, ← p2_value h hF' hc hxc]
  have hS := proper_nondeg h hc
  have hxh := hxc
  rw [region_hull (d := 2)] at hxh
  set S := cellOf 2 cells X c with hSd
  have h0 : ∀ v, 0 ≤ S.bary x v := (bary_nonneg_iff hS x (convexHull_subset_affineSpan _ hxh)).2 hxh
  have h1 := C42_sum_one S x
  rw [Fin.sum_univ_three] at h1
  have hq : ∀ i : Fin 6, refBasis ℝ 2 2 6 i (refPoint S x) = MvPolynomial.eval (fun z : Fin 2 => refPoint S x z) (quad i) := fun i => basis2 i _
  have hv : ∀ i : Fin 6, |u (dofs c i) - u' (dofs c i)| ≤ B := fun i => hB _ (hd c hc i i.2)
  have e : valIn 2 2 6 cells dofs X u c x - valIn 2 2 6 cells dofs X u' c x =
      ∑ i : Fin 6, (u (dofs c i) - u' (dofs c i)) * MvPolynomial.eval (fun z : Fin 2 => refPoint S x z) (quad i) := by
    rw [valIn, valIn, ← Finset.sum_sub_distrib]
    exact Finset.sum_congr rfl fun i _ => by rw [← hSd, hq]; ring
  have hB0 : 0 ≤ B := (abs_nonneg _).trans (hv 0)
  rw [e]
  refine (Finset.abs_sum_le_sum_abs _ _).trans ?_
  have hb : ∀ i : Fin 6, |(u (dofs c i) - u' (dofs c i)) * MvPolynomial.eval (fun z : Fin 2 => refPoint S x z) (quad i)| ≤
      B * |MvPolynomial.eval (fun z : Fin 2 => refPoint S x z) (quad i)| := fun i => by
    rw [abs_mul]; exact mul_le_mul_of_nonneg_right (hv i) (abs_nonneg _)
  refine (Finset.sum_le_sum fun i _ => hb i).trans ?_
  rw [← Finset.mul_sum, mul_comm]
  refine mul_le_mul_of_nonneg_right ?_ hB0
  have hn : ∀ v : Fin 3, |S.bary x v * (2 * S.bary x v - 1)| ≤ S.bary x v := fun v => by
    have h3 : S.bary x v ≤ 1 := by
      have := h0 0; have := h0 1; have := h0 2
      fin_cases v <;> simp only [Fin.zero_eta, Fin.mk_one, Fin.reduceFinMk] <;> linarith
    rw [abs_mul, abs_of_nonneg (h0 v)]
    exact mul_le_of_le_one_right (h0 v) (abs_le.2 ⟨by linarith [h0 v], by linarith⟩)
  have he : ∀ v w : Fin 3, |4 * S.bary x v * S.bary x w| = 4 * S.bary x v * S.bary x w := fun v w =>
    abs_of_nonneg (mul_nonneg (mul_nonneg (by norm_num) (h0 v)) (h0 w))
  have q : ∀ i : Fin 6, MvPolynomial.eval (fun z : Fin 2 => refPoint S x z) (quad i) =
      ![S.bary x 0 * (2 * S.bary x 0 - 1), S.bary x 1 * (2 * S.bary x 1 - 1), S.bary x 2 * (2 * S.bary x 2 - 1),
        4 * S.bary x 0 * S.bary x 1, 4 * S.bary x 0 * S.bary x 2, 4 * S.bary x 1 * S.bary x 2] i := fun i => by
    have l := lam_bary S x
    fin_cases i <;> simp [quad, ea, eb, l, -lam]
  rw [Fin.sum_univ_six]
  simp only [q]
  show |S.bary x 0 * (2 * S.bary x 0 - 1)| + |S.bary x 1 * (2 * S.bary x 1 - 1)| + |S.bary x 2 * (2 * S.bary x 2 - 1)| +
    |4 * S.bary x 0 * S.bary x 1| + |4 * S.bary x 0 * S.bary x 2| + |4 * S.bary x 1 * S.bary x 2| ≤ 7 / 3
  rw [he, he, he]
  have := hn 0; have := hn 1; have := hn 2
  nlinarith [sq_nonneg (S.bary x 0 - S.bary x 1), sq_nonneg (S.bary x 0 - S.bary x 2), sq_nonneg (S.bary x 1 - S.bary x 2),
    congrArg (fun t => t * t) h1]

/-- **C168** with second order elements on triangles in the plane or on a surface (partial: the matrices are exact).  There is a number C such that, for all
forcings and observations, the piecewise quadratic function obtained with any solver of relative residual ε (C ε ≤ 1) differs at no point of the domain from
the one that minimizes the penalized sum of squares by more than C ε times the largest coefficient of the latter and of its misfit. -/
theorem C168_quadratic_partial (hN : N = 2 ∨ N = 3) {op : Op ℝ} (hs : FlagRight N op) (hns : NoScalar op) (bNodes : Nat → Bool)
    (h : GoodMesh 3 n nNodes cells X) (hm : Manifold cells 3 n) (hell : ∀ r, Elliptic N op r) {ids : List Int} {locs : Nat → Fin N → ℝ}
    (hL : Located 3 n cells X ids locs) (lam : ℝ) (hl : 0 < lam) :
    ∃ P C, problem2 op cells n nNodes X bNodes = .ok P ∧ 0 ≤ C ∧
      ∀ (data : Dense ℝ), n * Quadrature.size P.t ≤ data.rows → 0 < data.cols → ∀ (junk y : Nat → ℝ) (ε : ℝ) (lu lu' : Solver ℝ), 0 ≤ ε → C * ε ≤ 1 →
        BackwardLU (P.m + P.m) ε lu → CompleteLU (P.m + P.m) lu → ExactLU (P.m + P.m) lu' → CompleteLU (P.m + P.m) lu' →
        ∃ f g f' g' F F', spatialFit lu P data junk ids (psiAt 2 2 6 cells X locs) lam y = .ok (some (f, g)) ∧
          spatialFit lu' P data junk ids (psiAt 2 2 6 cells X locs) lam y = .ok (some (f', g')) ∧
          ContinuousOn F (domain 3 n cells X) ∧ IsP2 n cells X P.dofs f F ∧
          ContinuousOn F' (domain 3 n cells X) ∧ IsP2 n cells X P.dofs f' F' ∧
          ∀ Z, (∀ p < P.m, |f' p| ≤ Z ∧ |g' p| ≤ Z) → ∀ x ∈ domain 3 n cells X, |F x - F' x| ≤ C * ε * Z := by
  obtain ⟨P, I, J, l, e, em, -, -, hD, -, hP2⟩ := mesh_fit2 hN hs hns bNodes h hm hell hL
  obtain ⟨C, hC0, hC⟩ := C168_spatial_partial (hD ⟨n * Quadrature.size P.t, 1, fun _ _ => 0⟩ le_rfl (by norm_num)) lam hl
  obtain ⟨en, hdm⟩ : P.n = n ∧ ∀ c < n, ∀ i < 6, P.dofs c i < P.m := by
    obtain ⟨P', _, _, e', _, _, _, e3, _, _, _, _, e8, _⟩ := C131_second_order hN op bNodes h hm
    rw [e] at e'
    rw [Res.ok.inj e']
    exact ⟨e3, e8⟩
  refine ⟨P, 7 / 3 * C, e, by positivity, fun data hr hc junk y ε lu lu' hε hCε b1 b2 x1 x2 => ?_⟩
  obtain ⟨f, g, f', g', r1, r2, hb⟩ := hC data (by rw [en]; exact hr) hc junk y ε lu lu' hε (by nlinarith [mul_nonneg hC0 hε]) b1 b2 x1 x2
  obtain ⟨F, hF1, hF2⟩ := hP2 f
  obtain ⟨F', hF1', hF2'⟩ := hP2 f'
  refine ⟨f, g, f', g', F, F', r1, r2, hF1, hF2, hF1', hF2', fun Z hZ x hx => ?_⟩
  refine (p2_gap h.proper hdm hF2 hF2' (fun p hp => (hb Z hZ p hp).1) hx).trans (le_of_eq ?_)
  ring

/-! ### The hypotheses are met -/

example (bNodes : Nat → Bool) (y : Nat → ℝ) : ∃ (ε : ℝ) (lu lu' : Solver ℝ) (P : Prob ℝ) (C : ℝ) (f g f' g' : Nat → ℝ) (F F' : (Fin 2 → ℝ) → ℝ), 0 < ε ∧
    problem2 (.neg .lap) demo2 2 4 FEM.squareX bNodes = .ok P ∧
    spatialFit lu P ⟨2 * Quadrature.size P.t, 1, fun r _ => r⟩ (fun _ => 0) [0, 0, -1, 1] (psiAt 2 2 6 demo2 FEM.squareX
      fun i => if i = 0 then FEM.squareX (demo2 0 0) else if i = 1 then (1 / 2 : ℝ) • (FEM.squareX (demo2 0 0) + FEM.squareX (demo2 0 1)) else
        if i = 2 then fun _ => 7 else FEM.squareX (demo2 1 2)) 5 y = .ok (some (f, g)) ∧
    IsP2 2 demo2 FEM.squareX P.dofs f F ∧ IsP2 2 demo2 FEM.squareX P.dofs f' F' ∧
    ∀ Z, (∀ p < P.m, |f' p| ≤ Z ∧ |g' p| ≤ Z) → ∀ x ∈ domain 3 2 demo2 FEM.squareX, |F x - F' x| ≤ C * ε * Z := by
  obtain ⟨P, C, e, hC0, hC⟩ := C168_quadratic_partial (.inl rfl) (op := .neg .lap) (fun _ => trivial) trivial bNodes square_good demo2_manifold
    (fun r => C103_laplacian 2 r) square_located 5 (by norm_num)
  have hp : 0 < 1 / (C + 1) := by positivity
  obtain ⟨lu, b1, b2, -⟩ := exists_inflatedLU (P.m + P.m) hp.le
  obtain ⟨lu', x1, x2⟩ := exists_exactLU (K := ℝ) (P.m + P.m)
  obtain ⟨f, g, f', g', F, F', r1, r2, -, hF, -, hF', hb⟩ := hC ⟨2 * Quadrature.size P.t, 1, fun r _ => r⟩ le_rfl (by norm_num) (fun _ => 0) y _ lu lu' hp.le
    (by rw [mul_one_div, div_le_one (by linarith)]; linarith) b1 b2 x1 x2
  exact ⟨_, lu, lu', P, C, f, g, f', g', F, F', hp, e, r1, hF, hF', hb⟩

end Fdapde.PDE
