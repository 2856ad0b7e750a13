import Verif.PDE.PropsSemiRounded
import Verif.PDE.PropsFitRoundedMesh
/- C169 : regression with covariates in floating point, on meshes of intervals, triangles and tetrahedra. -/
set_option linter.unusedSectionVars false
namespace Fdapde.PDE
open Finset FEM LinAlg Fdapde.Fp Fdapde.Quadrature

variable {d N n nNodes : Nat} {cells : Nat → Nat → Nat} {X : Nat → Fin N → ℝ}
variable {q : Nat}

/-- C169 with covariates `W` on a mesh, first order elements: coefficients of the covariates, and the function at every point of the domain. -/
theorem C169_covariates_mesh (hd : Dims d N) {op : Op ℝ} (hs : FlagRight N op) (hns : NoScalar op) (bNodes : Nat → Bool)
    (h : GoodMesh (d + 1) n nNodes cells X) (hell : ∀ r, Elliptic N op r) {ids : List Int} {locs : Nat → Fin N → ℝ}
    (hL : Located (d + 1) n cells X ids locs) {W : Nat → Nat → ℝ}
    (hW : ∀ (c : ℝ) (b : Fin q → ℝ), (∀ i < ids.length, (if ids[i]? = some (-1) then 0 else c) = ∑ a : Fin q, W i a * b a) → c = 0 ∧ b = 0) (lam : ℝ) (hl : 0 < lam) {v : Nat} (hv : Valence n (d + 1) cells v) (kd : Nat) (μ G : ℝ) {B : ℝ} (hB : 0 ≤ B) :
    ∃ P C, problem1 d op cells n nNodes X bNodes = .ok P ∧ 0 ≤ C ∧
      ∀ (r : Rounding) (S : List ℝ → ℝ) (ms : Nat → ℝ) (ps : Nat → (Nat → ℝ) → ℝ) (gr : Nat → Nat → (Nat → ℝ) → Nat → ℝ) (psi' : Nat → Nat → Nat → ℝ),
        r.Summation S → P.Computed r kd μ G ms ps gr → PsiErr r kd B (d + 1) ids (psiAt d 1 (d + 1) cells X locs) psi' →
        ∀ (data : Dense ℝ), n * size P.t ≤ data.rows → 0 < data.cols → ∀ (junk y : Nat → ℝ) (ε : ℝ) (lu lu' : Solver ℝ) (dense dense' : DenseSolver ℝ q),
        r.b ^ semiDepth P kd v ids.length q - 1 ≤ ε → C * ε ≤ 1 →
        BackwardLU (nNodes + nNodes) ε lu → CompleteLU (nNodes + nNodes) lu → ExactLU (nNodes + nNodes) lu' → CompleteLU (nNodes + nNodes) lu' → BackwardDense ε dense → ExactDense dense' →
        ∃ β f g β' f' g' F F', semiFitR r S lu dense (P.withData ms ps gr) data junk ids psi' lam W y = .ok (some (β, f, g)) ∧
          semiFit lu' dense' P data junk ids (psiAt d 1 (d + 1) cells X locs) lam W y = .ok (some (β', f', g')) ∧
          ContinuousOn F (domain (d + 1) n cells X) ∧ IsP1 (d + 1) n nNodes cells X f F ∧
          ContinuousOn F' (domain (d + 1) n cells X) ∧ IsP1 (d + 1) n nNodes cells X f' F' ∧
          ∀ Y, 0 ≤ Y → (∀ j < ids.length, |y j| ≤ Y) → (∀ k < n * size P.t, |data.at' k 0| ≤ Y) →
            (∀ a, |β a - β' a| ≤ C * ε * Y) ∧ ∀ x ∈ domain (d + 1) n cells X, |F x - F' x| ≤ C * ε * Y := by
  obtain ⟨P, I, J, l, e, em, -, -, hD, hV, hP1⟩ := mesh_fit hd hs hns bNodes h hell hL
  obtain ⟨en, enb, edofs⟩ : P.n = n ∧ P.nb = d + 1 ∧ P.dofs = cells := by
    obtain ⟨P', _, _, e', _, _, _, e3, e4, _, _, e7, _⟩ := C131_first_order hd op bNodes h
    rw [e] at e'
    rw [Res.ok.inj e']
    exact ⟨e3, e4, funext fun c => funext fun w => e7 c w⟩
  set κ := ∑ c ∈ range P.n, ∑ k ∈ range (size P.t), |weakAbs P.N P.op (size P.t * c + k) 1 1 (fun _ => G) (fun _ => G)| with hκ
  obtain ⟨C, hC0, hC⟩ := C169_covariates (hD ⟨n * size P.t, 1, fun _ _ => 0⟩ le_rfl (by norm_num)) (by rw [em]; exact mesh_identified hV hW) (v := v) (by rw [en, enb, edofs]; exact hv) lam hl
    (kd := kd) (μ := μ) (G := G) (κ := κ) hB (fun c hc k hk => (le_abs_self _).trans ((single_le_sum
      (f := fun k => |weakAbs P.N P.op (size P.t * c + k) 1 1 (fun _ => G) (fun _ => G)|) (fun _ _ => abs_nonneg _) (mem_range.2 hk)).trans
      (single_le_sum (f := fun c => ∑ k ∈ range (size P.t), |weakAbs P.N P.op (size P.t * c + k) 1 1 (fun _ => G) (fun _ => G)|)
        (fun _ _ => sum_nonneg fun _ _ => abs_nonneg _) (mem_range.2 hc))))
  refine ⟨P, C, e, hC0, fun r S ms ps gr psi' hS hcomp hpsi data hr hc junk y ε lu lu' dense dense' hε hCε b1 b2 x1 x2 hBd hE => ?_⟩
  rw [← em] at b1 b2 x1 x2
  obtain ⟨β, f, g, β', f', g', r1, r2, hb⟩ := hC r S ms ps gr psi' hS hcomp (by rw [enb]; exact hpsi) data (by rw [en]; exact hr) hc junk y ε lu lu' dense dense' hε hCε b1 b2 x1 x2 hBd hE
  obtain ⟨F, hF1, hF2⟩ := hP1 f
  obtain ⟨F', hF1', hF2'⟩ := hP1 f'
  refine ⟨β, f, g, β', f', g', F, F', r1, r2, hF1, hF2, hF1', hF2', fun Y hY0 hy hf =>
    ⟨(hb Y hY0 hy (by rw [en]; exact hf)).1, fun x hx => ?_⟩⟩
  exact p1_gap h.nodes hF2 hF2' (fun p hp => ((hb Y hY0 hy (by rw [en]; exact hf)).2 p (by rw [em]; exact hp)).1) hx

/-- C169 with covariates on a mesh of intervals, with lengths, derivatives and values of the basis as the program computes them from the coordinates. -/
theorem C169_covariates_intervals {X : Nat → Fin 1 → ℝ} {op : Op ℝ} (hs : FlagRight 1 op) (hns : NoScalar op) (bNodes : Nat → Bool)
    (h : GoodMesh 2 n nNodes cells X) {hh ρ : ℝ} (hsh : MeshShape n cells X hh ρ) (hρ : 0 < ρ) (hell : ∀ r, Elliptic 1 op r) {ids : List Int}
    {locs : Nat → Fin 1 → ℝ} (hL : Located 2 n cells X ids locs) {W : Nat → Nat → ℝ}
    (hW : ∀ (c : ℝ) (b : Fin q → ℝ), (∀ i < ids.length, (if ids[i]? = some (-1) then 0 else c) = ∑ a : Fin q, W i a * b a) → c = 0 ∧ b = 0) (lam : ℝ) (hl : 0 < lam) {v : Nat} (hv : Valence n 2 cells v) (kb : Nat) :
    ∃ P C, problem1 1 op cells n nNodes X bNodes = .ok P ∧ 0 ≤ C ∧
      ∀ (r : Rounding) (S : List ℝ → ℝ) (ps : Nat → (Nat → ℝ) → ℝ) (dps : Nat → (Nat → ℝ) → Nat → ℝ) (cf : Nat → Nat → ℝ),
        r.Summation S → r.b - 1 ≤ 1 / 2 →
        (∀ i : Fin 2, ∀ k < size P.t, |ps i (node ℝ P.t k) - refBasis ℝ 1 1 2 i (node ℝ P.t k)| ≤ r.b ^ kb - 1) →
        (∀ i : Fin 2, ∀ k < size P.t, ∀ w < 1, |dps i (node ℝ P.t k) w - refGrad ℝ 1 1 2 i (node ℝ P.t k) w| ≤ r.b ^ kb - 1) →
        (∀ i < 2, ∀ m < 2, |cf i m - coef1 i m| ≤ r.b ^ kb - 1) →
        ∀ (data : Dense ℝ), n * size P.t ≤ data.rows → 0 < data.cols → ∀ (junk y : Nat → ℝ) (ε : ℝ) (lu lu' : Solver ℝ) (dense dense' : DenseSolver ℝ q),
        r.b ^ semiDepth P (kb + 8) v ids.length q - 1 ≤ ε → C * ε ≤ 1 →
        BackwardLU (nNodes + nNodes) ε lu → CompleteLU (nNodes + nNodes) lu → ExactLU (nNodes + nNodes) lu' → CompleteLU (nNodes + nNodes) lu' → BackwardDense ε dense → ExactDense dense' →
        ∃ β f g β' f' g' F F', semiFitR r S lu dense (P.withData (fun c => measure1R r (cellOf 1 cells X c)) ps
            fun c i => gradOfR r S 1 (inv1AtR r (cellOf 1 cells X c)) dps i) data junk ids
            (psiAtR r S cf (fun c => inv1AtR r (cellOf 1 cells X c)) cells X locs) lam W y = .ok (some (β, f, g)) ∧
          semiFit lu' dense' P data junk ids (psiAt 1 1 2 cells X locs) lam W y = .ok (some (β', f', g')) ∧
          ContinuousOn F (domain 2 n cells X) ∧ IsP1 2 n nNodes cells X f F ∧ ContinuousOn F' (domain 2 n cells X) ∧ IsP1 2 n nNodes cells X f' F' ∧
          ∀ Y, 0 ≤ Y → (∀ j < ids.length, |y j| ≤ Y) → (∀ k < n * size P.t, |data.at' k 0| ≤ Y) →
            (∀ a, |β a - β' a| ≤ C * ε * Y) ∧ ∀ x ∈ domain 2 n cells X, |F x - F' x| ≤ C * ε * Y := by
  obtain ⟨P, C, e, hC0, hC⟩ := C169_covariates_mesh (d := 1) (by unfold Dims; decide) hs hns bNodes h hell hL hW lam hl hv (kb + 8) 1 (2 / ρ) (B := 1 + 1 * (1 * (2 / ρ * hh)))
    (by have := shape_nonneg hsh hL; positivity)
  refine ⟨P, C, e, hC0, fun r S ps dps cf hS hsm hps hdp hcf data hr hc junk y ε lu lu' dense dense' => hC r S _ _ _ _ hS ?_ ?_ data hr hc junk y ε lu lu' dense dense'⟩
  · obtain ⟨P', e', hP'⟩ := C151_intervals op bNodes h.proper hsh hρ hsm hS (kb := kb) (ps := ps) (dps := dps) (nNodes := nNodes)
    obtain rfl := Res.ok.inj (e.symm.trans e')
    exact (hP' hps hdp).mono (by omega)
  · obtain ⟨t, ht⟩ := rule1 (d := 1) (by decide)
    have h1 := psi_err (N := 1) (by decide) hS hsh (fun c hc w hw z hz => (int_cell (nNodes := nNodes) ht op bNodes h.proper hsh hρ hsm hc).2 w hw z hz) hcf hL
    push_cast at h1
    exact h1

/-- C169 with covariates on a mesh of triangles of the plane, with areas, gradients and values of the basis as the program computes them from the coordinates. -/
theorem C169_covariates_triangles {X : Nat → Fin 2 → ℝ} {op : Op ℝ} (hs : FlagRight 2 op) (hns : NoScalar op) (bNodes : Nat → Bool)
    (h : GoodMesh 3 n nNodes cells X) {hh ρ : ℝ} (hsh : MeshShape n cells X hh ρ) (hρ : 0 < ρ) (hell : ∀ r, Elliptic 2 op r) {ids : List Int}
    {locs : Nat → Fin 2 → ℝ} (hL : Located 3 n cells X ids locs) {W : Nat → Nat → ℝ}
    (hW : ∀ (c : ℝ) (b : Fin q → ℝ), (∀ i < ids.length, (if ids[i]? = some (-1) then 0 else c) = ∑ a : Fin q, W i a * b a) → c = 0 ∧ b = 0) (lam : ℝ) (hl : 0 < lam) {v : Nat} (hv : Valence n 3 cells v) (kb : Nat) :
    ∃ P C, problem1 2 op cells n nNodes X bNodes = .ok P ∧ 0 ≤ C ∧
      ∀ (r : Rounding) (S : List ℝ → ℝ) (ps : Nat → (Nat → ℝ) → ℝ) (dps : Nat → (Nat → ℝ) → Nat → ℝ) (cf : Nat → Nat → ℝ),
        r.Summation S → (r.b ^ 4 - 1) * (hh / ρ) ≤ 1 / 2 →
        (∀ i : Fin 3, ∀ k < size P.t, |ps i (node ℝ P.t k) - refBasis ℝ 2 1 3 i (node ℝ P.t k)| ≤ r.b ^ kb - 1) →
        (∀ i : Fin 3, ∀ k < size P.t, ∀ w < 2, |dps i (node ℝ P.t k) w - refGrad ℝ 2 1 3 i (node ℝ P.t k) w| ≤ r.b ^ kb - 1) →
        (∀ i < 3, ∀ m < 3, |cf i m - coef1 i m| ≤ r.b ^ kb - 1) →
        ∀ (data : Dense ℝ), n * size P.t ≤ data.rows → 0 < data.cols → ∀ (junk y : Nat → ℝ) (ε : ℝ) (lu lu' : Solver ℝ) (dense dense' : DenseSolver ℝ q),
        r.b ^ semiDepth P (kb + 15) v ids.length q - 1 ≤ ε → C * ε ≤ 1 →
        BackwardLU (nNodes + nNodes) ε lu → CompleteLU (nNodes + nNodes) lu → ExactLU (nNodes + nNodes) lu' → CompleteLU (nNodes + nNodes) lu' → BackwardDense ε dense → ExactDense dense' →
        ∃ β f g β' f' g' F F', semiFitR r S lu dense (P.withData (fun c => measureR r (cellOf 2 cells X c)) ps
            fun c i => gradAtR r S (cellOf 2 cells X c) dps i) data junk ids
            (psiAtR r S cf (fun c => invAtR r (cellOf 2 cells X c)) cells X locs) lam W y = .ok (some (β, f, g)) ∧
          semiFit lu' dense' P data junk ids (psiAt 2 1 3 cells X locs) lam W y = .ok (some (β', f', g')) ∧
          ContinuousOn F (domain 3 n cells X) ∧ IsP1 3 n nNodes cells X f F ∧ ContinuousOn F' (domain 3 n cells X) ∧ IsP1 3 n nNodes cells X f' F' ∧
          ∀ Y, 0 ≤ Y → (∀ j < ids.length, |y j| ≤ Y) → (∀ k < n * size P.t, |data.at' k 0| ≤ Y) →
            (∀ a, |β a - β' a| ≤ C * ε * Y) ∧ ∀ x ∈ domain 3 n cells X, |F x - F' x| ≤ C * ε * Y := by
  obtain ⟨P, C, e, hC0, hC⟩ := C169_covariates_mesh (d := 2) (by unfold Dims; decide) hs hns bNodes h hell hL hW lam hl hv (kb + 15) (hh / ρ) (4 * hh / ρ ^ 2) (B := 1 + 2 * (2 * (2 * (hh / ρ) * (1 / ρ) * hh)))
    (by have := shape_nonneg hsh hL; positivity)
  refine ⟨P, C, e, hC0, fun r S ps dps cf hS hsm hps hdp hcf data hr hc junk y ε lu lu' dense dense' => hC r S _ _ _ _ hS ?_ ?_ data hr hc junk y ε lu lu' dense dense'⟩
  · obtain ⟨P', e', hP'⟩ := C151_triangles op bNodes h.proper hsh hρ hsm hS (kb := kb) (ps := ps) (dps := dps) (nNodes := nNodes)
    obtain rfl := Res.ok.inj (e.symm.trans e')
    exact (hP' hps hdp).mono (by omega)
  · obtain ⟨t, ht⟩ := rule1 (d := 2) (by decide)
    have h1 := psi_err (N := 2) (by decide) hS hsh (fun c hc w hw z hz => (tri_cell (nNodes := nNodes) ht op bNodes h.proper hsh hρ hsm hc).2 w hw z hz) hcf hL
    push_cast at h1
    exact h1

/-- C169 with covariates on a mesh of tetrahedra, with volumes, gradients and values of the basis as the program computes them from the coordinates. -/
theorem C169_covariates_tetrahedra {X : Nat → Fin 3 → ℝ} {op : Op ℝ} (hs : FlagRight 3 op) (hns : NoScalar op) (bNodes : Nat → Bool)
    (h : GoodMesh 4 n nNodes cells X) {hh ρ : ℝ} (hsh : MeshShape n cells X hh ρ) (hρ : 0 < ρ) (hell : ∀ r, Elliptic 3 op r) {ids : List Int}
    {locs : Nat → Fin 3 → ℝ} (hL : Located 4 n cells X ids locs) {W : Nat → Nat → ℝ}
    (hW : ∀ (c : ℝ) (b : Fin q → ℝ), (∀ i < ids.length, (if ids[i]? = some (-1) then 0 else c) = ∑ a : Fin q, W i a * b a) → c = 0 ∧ b = 0) (lam : ℝ) (hl : 0 < lam) {v : Nat} (hv : Valence n 4 cells v) (kb : Nat) :
    ∃ P C, problem1 3 op cells n nNodes X bNodes = .ok P ∧ 0 ≤ C ∧
      ∀ (r : Rounding) (S : List ℝ → ℝ) (ps : Nat → (Nat → ℝ) → ℝ) (dps : Nat → (Nat → ℝ) → Nat → ℝ) (cf : Nat → Nat → ℝ),
        r.Summation S → (r.b ^ 9 - 1) * (2 * (hh / ρ) ^ 3) ≤ 1 / 2 →
        (∀ i : Fin 4, ∀ k < size P.t, |ps i (node ℝ P.t k) - refBasis ℝ 3 1 4 i (node ℝ P.t k)| ≤ r.b ^ kb - 1) →
        (∀ i : Fin 4, ∀ k < size P.t, ∀ w < 3, |dps i (node ℝ P.t k) w - refGrad ℝ 3 1 4 i (node ℝ P.t k) w| ≤ r.b ^ kb - 1) →
        (∀ i < 4, ∀ m < 4, |cf i m - coef1 i m| ≤ r.b ^ kb - 1) →
        ∀ (data : Dense ℝ), n * size P.t ≤ data.rows → 0 < data.cols → ∀ (junk y : Nat → ℝ) (ε : ℝ) (lu lu' : Solver ℝ) (dense dense' : DenseSolver ℝ q),
        r.b ^ semiDepth P (kb + 25) v ids.length q - 1 ≤ ε → C * ε ≤ 1 →
        BackwardLU (nNodes + nNodes) ε lu → CompleteLU (nNodes + nNodes) lu → ExactLU (nNodes + nNodes) lu' → CompleteLU (nNodes + nNodes) lu' → BackwardDense ε dense → ExactDense dense' →
        ∃ β f g β' f' g' F F', semiFitR r S lu dense (P.withData (fun c => measure3R r (cellOf 3 cells X c)) ps
            fun c i => gradOfR r S 3 (inv3AtR r S (cellOf 3 cells X c)) dps i) data junk ids
            (psiAtR r S cf (fun c => inv3AtR r S (cellOf 3 cells X c)) cells X locs) lam W y = .ok (some (β, f, g)) ∧
          semiFit lu' dense' P data junk ids (psiAt 3 1 4 cells X locs) lam W y = .ok (some (β', f', g')) ∧
          ContinuousOn F (domain 4 n cells X) ∧ IsP1 4 n nNodes cells X f F ∧ ContinuousOn F' (domain 4 n cells X) ∧ IsP1 4 n nNodes cells X f' F' ∧
          ∀ Y, 0 ≤ Y → (∀ j < ids.length, |y j| ≤ Y) → (∀ k < n * size P.t, |data.at' k 0| ≤ Y) →
            (∀ a, |β a - β' a| ≤ C * ε * Y) ∧ ∀ x ∈ domain 4 n cells X, |F x - F' x| ≤ C * ε * Y := by
  obtain ⟨P, C, e, hC0, hC⟩ := C169_covariates_mesh (d := 3) (by unfold Dims; decide) hs hns bNodes h hell hL hW lam hl hv (kb + 25) (3 * (hh / ρ) ^ 3)
    (12 * hh ^ 5 / ρ ^ 6) (B := 1 + 3 * (3 * (4 * hh ^ 5 / ρ ^ 6 * hh)))
    (by have := shape_nonneg hsh hL; positivity)
  refine ⟨P, C, e, hC0, fun r S ps dps cf hS hsm hps hdp hcf data hr hc junk y ε lu lu' dense dense' => hC r S _ _ _ _ hS ?_ ?_ data hr hc junk y ε lu lu' dense dense'⟩
  · obtain ⟨P', e', hP'⟩ := C151_tetrahedra op bNodes h.proper hsh hρ hsm hS (kb := kb) (ps := ps) (dps := dps) (nNodes := nNodes)
    obtain rfl := Res.ok.inj (e.symm.trans e')
    exact (hP' hps hdp).mono (by omega)
  · obtain ⟨t, ht⟩ := rule1 (d := 3) (by decide)
    have h1 := psi_err (N := 3) (by decide) hS hsh (fun c hc w hw z hz => (tet_cell (nNodes := nNodes) ht op bNodes h.proper hsh hρ hsm hS hc).2 w hw z hz) hcf hL
    push_cast at h1
    exact h1

/-! ### The hypotheses are met -/

/-- The rod from 0 to `n`, locations 1/2 and 1/3 in the first cell and one outside of the rod, one covariate equal to the number of the location; an
arithmetic and solvers that are not exact. -/
example (n : Nat) (hn : 0 < n) (y : Nat → ℝ) : ∃ (r : Rounding) (ε : ℝ) (lu lu' : Solver ℝ) (dense dense' : DenseSolver ℝ 1) (P : Prob ℝ) (C : ℝ)
    (β β' : Fin 1 → ℝ) (f g f' g' : Nat → ℝ) (F F' : (Fin 1 → ℝ) → ℝ),
    0 < r.u ∧ (∀ x, r.rnd x = (1 + r.u) * x) ∧ 0 < ε ∧ (∀ M B, M.det ≠ 0 → M * dense M B = (1 + ε) • B) ∧
    problem1 1 (.neg .lap) lineCells n (n + 1) lineX (fun p => p == 0 || p == n) = .ok P ∧
    semiFitR r r.sumLeft lu dense (P.withData (fun c => measure1R r (cellOf 1 lineCells lineX c)) (basisAt 1 1 2)
        fun c i => gradOfR r r.sumLeft 1 (inv1AtR r (cellOf 1 lineCells lineX c)) (fun i x w => if h : i < 2 then refGrad ℝ 1 1 2 ⟨i, h⟩ x w else 0) i)
      ⟨n * size P.t, 1, fun r _ => r⟩ (fun _ => 0) [0, -1, 0] (psiAtR r r.sumLeft coef1 (fun c => inv1AtR r (cellOf 1 lineCells lineX c)) lineCells lineX
        fun i _ => if i = 0 then 1 / 2 else if i = 1 then -5 else 1 / 3) 7 (fun i _ => (i : ℝ)) y = .ok (some (β, f, g)) ∧
    semiFit lu' dense' P ⟨n * size P.t, 1, fun r _ => r⟩ (fun _ => 0) [0, -1, 0] (psiAt 1 1 2 lineCells lineX fun i _ => if i = 0 then 1 / 2 else
      if i = 1 then -5 else 1 / 3) 7 (fun i _ => (i : ℝ)) y = .ok (some (β', f', g')) ∧
    IsP1 2 n (n + 1) lineCells lineX f F ∧ IsP1 2 n (n + 1) lineCells lineX f' F' ∧
    ∀ Y, 0 ≤ Y → (∀ j < 3, |y j| ≤ Y) → (∀ k < n * size P.t, |(k : ℝ)| ≤ Y) →
      (∀ a, |β a - β' a| ≤ C * ε * Y) ∧ ∀ x ∈ domain 2 n lineCells lineX, |F x - F' x| ≤ C * ε * Y := by
  obtain ⟨P, C, e, hC0, hC⟩ := C169_covariates_intervals (q := 1) (op := .neg .lap) (W := fun i _ => (i : ℝ)) (fun _ => trivial) trivial
    (fun p => p == 0 || p == n) (line_good n hn) (line_shape n) one_pos (fun r => C103_laplacian 1 r) (demo_located n hn) (by
      intro c b hb
      have a0 := hb 0 (by simp)
      have a2 := hb 2 (by simp)
      simp at a0 a2
      rw [a0] at a2
      refine ⟨a0, funext fun a => ?_⟩
      rw [Subsingleton.elim a 0]
      simpa using a2.symm) 7 (by norm_num) (valence_all n 2 lineCells) 0
  have hp : 0 < 1 / (2 * (C + 1)) := by positivity
  obtain ⟨r, hr0, hr1, hr⟩ := exists_upward (semiDepth P (0 + 8) (n * 2) 3 1) hp
  obtain ⟨lu, b1, b2, -⟩ := exists_inflatedLU (n + 1 + (n + 1)) hp.le
  obtain ⟨lu', x1, x2⟩ := exists_exactLU (K := ℝ) (n + 1 + (n + 1))
  obtain ⟨dense, d1, d2⟩ := exists_inflatedDense (q := 1) hp.le
  have hE : ExactDense (fun M B => M⁻¹ * B : DenseSolver ℝ 1) := fun M B hd => by
    rw [← Matrix.mul_assoc, Matrix.mul_nonsing_inv _ (isUnit_iff_ne_zero.2 hd), Matrix.one_mul]
  have hle : 1 / (2 * (C + 1)) ≤ 1 / 2 := by rw [div_le_div_iff₀ (by positivity) (by norm_num)]; linarith
  have hb1 : r.b ≤ r.b ^ semiDepth P (0 + 8) (n * 2) 3 1 := le_self_pow₀ r.one_le_b (by rw [semiDepth]; omega)
  obtain ⟨β, f, g, β', f', g', F, F', r1, r2, -, q1, -, q2, hb⟩ := hC r r.sumLeft (basisAt 1 1 2)
    (fun i x w => if h : i < 2 then refGrad ℝ 1 1 2 ⟨i, h⟩ x w else 0)
    coef1 (fun l => r.sumLeft_adds l) (by linarith) (fun i k _ => by rw [basisAt, dif_pos i.2]; simp)
    (fun i k _ w _ => by rw [dif_pos i.2]; simp) (fun i _ m _ => by simp)
    ⟨n * size P.t, 1, fun r _ => r⟩ le_rfl (by norm_num) (fun _ => 0) y _ lu lu' dense _ hr
    (by rw [mul_one_div, div_le_one (by positivity)]; linarith) b1 b2 x1 x2 d1 hE
  exact ⟨r, _, lu, lu', dense, _, P, C, β, β', f, g, f', g', F, F', hr0, hr1, hp, d2, e, r1, r2, q1, q2, hb⟩

end Fdapde.PDE
