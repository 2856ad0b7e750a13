import Verif.PDE.PropsFitRounded
import Verif.PDE.LemmasPsiRounded
/- C169 : regression in space on a mesh in floating point arithmetic. -/
set_option linter.unusedSectionVars false
namespace Fdapde.PDE
open Finset FEM LinAlg Fdapde.Fp Fdapde.Quadrature

variable {d N n nNodes : Nat} {cells : Nat → Nat → Nat} {X : Nat → Fin N → ℝ}

theorem valence_all (n nb : Nat) (dofs : Nat → Nat → Nat) : Valence n nb dofs (n * nb) := fun _ =>
  (card_filter_le _ _).trans (by rw [card_product, card_range, card_range])

theorem Prob.Computed.mono {P : Prob ℝ} {r : Rounding} {k k' : Nat} {μ G : ℝ} {ms : Nat → ℝ} {ps : Nat → (Nat → ℝ) → ℝ}
    {gr : Nat → Nat → (Nat → ℝ) → Nat → ℝ} (h : P.Computed r k μ G ms ps gr) (hk : k ≤ k') : P.Computed r k' μ G ms ps gr :=
  ⟨fun c hc => (h.measure c hc).mono hk, fun i hi k hk' => (h.psi i hi k hk').mono hk, fun c hc i hi k hk' z hz => (h.grad c hc i hi k hk' z hz).mono hk⟩

theorem shape_nonneg {hh ρ : ℝ} (hsh : MeshShape n cells X hh ρ) {ids : List Int} {locs : Nat → Fin N → ℝ} (hL : Located (N + 1) n cells X ids locs) : 0 ≤ hh := by
  obtain ⟨i, id, hi, hn⟩ := hL.one
  obtain ⟨c, hc, -⟩ := (hL.cell i id hi).resolve_left hn
  exact (Real.sqrt_nonneg _).trans (hsh.diam c hc 0 (by omega) 0 (by omega))

/-- **C169** on a mesh.  For every mesh, elliptic operator, locations and parameter there is a number C such that, for all
forcings and observations, when geometry, basis, assembly, products of matrices and linear solver round, with C ε ≤ 1, ε being the larger of the residual of
the solver and of the error of `fitDepth` roundings, the piecewise affine function that the program obtains differs at no point of the domain from the one that
minimizes the penalized sum of squares by more than C ε times the largest of the observations and values of the forcing. -/
theorem C169_mesh (hd : Dims d N) {op : Op ℝ} (hs : FlagRight N op) (hns : NoScalar op) (bNodes : Nat → Bool)
    (h : GoodMesh (d + 1) n nNodes cells X) (hell : ∀ r, Elliptic N op r) {ids : List Int} {locs : Nat → Fin N → ℝ}
    (hL : Located (d + 1) n cells X ids locs) (lam : ℝ) (hl : 0 < lam) {v : Nat} (hv : Valence n (d + 1) cells v) (kd : Nat) (μ G : ℝ) {B : ℝ} (hB : 0 ≤ B) :
    ∃ P C, problem1 d op cells n nNodes X bNodes = .ok P ∧ 0 ≤ C ∧
      ∀ (r : Rounding) (S : List ℝ → ℝ) (ms : Nat → ℝ) (ps : Nat → (Nat → ℝ) → ℝ) (gr : Nat → Nat → (Nat → ℝ) → Nat → ℝ) (psi' : Nat → Nat → Nat → ℝ),
        r.Summation S → P.Computed r kd μ G ms ps gr → PsiErr r kd B (d + 1) ids (psiAt d 1 (d + 1) cells X locs) psi' →
        ∀ (data : Dense ℝ), n * size P.t ≤ data.rows → 0 < data.cols → ∀ (junk y : Nat → ℝ) (ε : ℝ) (lu lu' : Solver ℝ),
        r.b ^ fitDepth P kd v ids.length - 1 ≤ ε → C * ε ≤ 1 →
        BackwardLU (nNodes + nNodes) ε lu → CompleteLU (nNodes + nNodes) lu → ExactLU (nNodes + nNodes) lu' → CompleteLU (nNodes + nNodes) lu' →
        ∃ f g f' g' F F', spatialFitR r S lu (P.withData ms ps gr) data junk ids psi' lam y = .ok (some (f, g)) ∧
          spatialFit lu' P data junk ids (psiAt d 1 (d + 1) cells X locs) lam y = .ok (some (f', g')) ∧
          ContinuousOn F (domain (d + 1) n cells X) ∧ IsP1 (d + 1) n nNodes cells X f F ∧
          ContinuousOn F' (domain (d + 1) n cells X) ∧ IsP1 (d + 1) n nNodes cells X f' F' ∧
          ∀ Y, 0 ≤ Y → (∀ j < ids.length, |y j| ≤ Y) → (∀ k < n * size P.t, |data.at' k 0| ≤ Y) →
            ∀ x ∈ domain (d + 1) n cells X, |F x - F' x| ≤ C * ε * Y := by
  obtain ⟨P, I, J, l, e, em, -, -, hD, -, hP1⟩ := mesh_fit hd hs hns bNodes h hell hL
  obtain ⟨en, enb, edofs⟩ : P.n = n ∧ P.nb = d + 1 ∧ P.dofs = cells := by
    obtain ⟨P', _, _, e', _, _, _, e3, e4, _, _, e7, _⟩ := C131_first_order hd op bNodes h
    rw [e] at e'
    rw [Res.ok.inj e']
    exact ⟨e3, e4, funext fun c => funext fun w => e7 c w⟩
  set κ := ∑ c ∈ range P.n, ∑ k ∈ range (size P.t), |weakAbs P.N P.op (size P.t * c + k) 1 1 (fun _ => G) (fun _ => G)| with hκ
  obtain ⟨C, hC0, hC⟩ := C169_regression (hD ⟨n * size P.t, 1, fun _ _ => 0⟩ le_rfl (by norm_num)) (v := v) (by rw [en, enb, edofs]; exact hv) lam hl
    (kd := kd) (μ := μ) (G := G) (κ := κ) hB (fun c hc k hk => (le_abs_self _).trans ((single_le_sum
      (f := fun k => |weakAbs P.N P.op (size P.t * c + k) 1 1 (fun _ => G) (fun _ => G)|) (fun _ _ => abs_nonneg _) (mem_range.2 hk)).trans
      (single_le_sum (f := fun c => ∑ k ∈ range (size P.t), |weakAbs P.N P.op (size P.t * c + k) 1 1 (fun _ => G) (fun _ => G)|)
        (fun _ _ => sum_nonneg fun _ _ => abs_nonneg _) (mem_range.2 hc))))
  refine ⟨P, C, e, hC0, fun r S ms ps gr psi' hS hcomp hpsi data hr hc junk y ε lu lu' hε hCε b1 b2 x1 x2 => ?_⟩
  rw [← em] at b1 b2 x1 x2
  obtain ⟨f, g, f', g', r1, r2, hb⟩ := hC r S ms ps gr psi' hS hcomp (by rw [enb]; exact hpsi) data (by rw [en]; exact hr) hc junk y ε lu lu' hε hCε b1 b2 x1 x2
  obtain ⟨F, hF1, hF2⟩ := hP1 f
  obtain ⟨F', hF1', hF2'⟩ := hP1 f'
  refine ⟨f, g, f', g', F, F', r1, r2, hF1, hF2, hF1', hF2', fun Y hY0 hy hf x hx => ?_⟩
  exact p1_gap h.nodes hF2 hF2' (fun p hp => (hb Y hY0 hy (by rw [en]; exact hf) p (by rw [em]; exact hp)).1) hx

/-- C169 on a mesh of intervals, with lengths, derivatives and values of the basis as the program computes them from the coordinates. -/
theorem C169_intervals {X : Nat → Fin 1 → ℝ} {op : Op ℝ} (hs : FlagRight 1 op) (hns : NoScalar op) (bNodes : Nat → Bool)
    (h : GoodMesh 2 n nNodes cells X) {hh ρ : ℝ} (hsh : MeshShape n cells X hh ρ) (hρ : 0 < ρ) (hell : ∀ r, Elliptic 1 op r) {ids : List Int}
    {locs : Nat → Fin 1 → ℝ} (hL : Located 2 n cells X ids locs) (lam : ℝ) (hl : 0 < lam) {v : Nat} (hv : Valence n 2 cells v) (kb : Nat) :
    ∃ P C, problem1 1 op cells n nNodes X bNodes = .ok P ∧ 0 ≤ C ∧
      ∀ (r : Rounding) (S : List ℝ → ℝ) (ps : Nat → (Nat → ℝ) → ℝ) (dps : Nat → (Nat → ℝ) → Nat → ℝ) (cf : Nat → Nat → ℝ),
        r.Summation S → r.b - 1 ≤ 1 / 2 →
        (∀ i : Fin 2, ∀ k < size P.t, |ps i (node ℝ P.t k) - refBasis ℝ 1 1 2 i (node ℝ P.t k)| ≤ r.b ^ kb - 1) →
        (∀ i : Fin 2, ∀ k < size P.t, ∀ w < 1, |dps i (node ℝ P.t k) w - refGrad ℝ 1 1 2 i (node ℝ P.t k) w| ≤ r.b ^ kb - 1) →
        (∀ i < 2, ∀ m < 2, |cf i m - coef1 i m| ≤ r.b ^ kb - 1) →
        ∀ (data : Dense ℝ), n * size P.t ≤ data.rows → 0 < data.cols → ∀ (junk y : Nat → ℝ) (ε : ℝ) (lu lu' : Solver ℝ),
        r.b ^ fitDepth P (kb + 8) v ids.length - 1 ≤ ε → C * ε ≤ 1 →
        BackwardLU (nNodes + nNodes) ε lu → CompleteLU (nNodes + nNodes) lu → ExactLU (nNodes + nNodes) lu' → CompleteLU (nNodes + nNodes) lu' →
        ∃ f g f' g' F F', spatialFitR r S lu (P.withData (fun c => measure1R r (cellOf 1 cells X c)) ps
            fun c i => gradOfR r S 1 (inv1AtR r (cellOf 1 cells X c)) dps i) data junk ids
            (psiAtR r S cf (fun c => inv1AtR r (cellOf 1 cells X c)) cells X locs) lam y = .ok (some (f, g)) ∧
          spatialFit lu' P data junk ids (psiAt 1 1 2 cells X locs) lam y = .ok (some (f', g')) ∧
          ContinuousOn F (domain 2 n cells X) ∧ IsP1 2 n nNodes cells X f F ∧ ContinuousOn F' (domain 2 n cells X) ∧ IsP1 2 n nNodes cells X f' F' ∧
          ∀ Y, 0 ≤ Y → (∀ j < ids.length, |y j| ≤ Y) → (∀ k < n * size P.t, |data.at' k 0| ≤ Y) →
            ∀ x ∈ domain 2 n cells X, |F x - F' x| ≤ C * ε * Y := by
  obtain ⟨P, C, e, hC0, hC⟩ := C169_mesh (d := 1) (by unfold Dims; decide) hs hns bNodes h hell hL lam hl hv (kb + 8) 1 (2 / ρ) (B := 1 + 1 * (1 * (2 / ρ * hh)))
    (by have := shape_nonneg hsh hL; positivity)
  refine ⟨P, C, e, hC0, fun r S ps dps cf hS hsm hps hdp hcf data hr hc junk y ε lu lu' => hC r S _ _ _ _ hS ?_ ?_ data hr hc junk y ε lu lu'⟩
  · obtain ⟨P', e', hP'⟩ := C151_intervals op bNodes h.proper hsh hρ hsm hS (kb := kb) (ps := ps) (dps := dps) (nNodes := nNodes)
    obtain rfl := Res.ok.inj (e.symm.trans e')
    exact (hP' hps hdp).mono (by omega)
  · obtain ⟨t, ht⟩ := rule1 (d := 1) (by decide)
    have h1 := psi_err (N := 1) (by decide) hS hsh (fun c hc w hw z hz => (int_cell (nNodes := nNodes) ht op bNodes h.proper hsh hρ hsm hc).2 w hw z hz) hcf hL
    push_cast at h1
    exact h1

/-- C169 on a mesh of triangles of the plane, with areas, gradients and values of the basis as the program computes them from the coordinates. -/
theorem C169_triangles {X : Nat → Fin 2 → ℝ} {op : Op ℝ} (hs : FlagRight 2 op) (hns : NoScalar op) (bNodes : Nat → Bool)
    (h : GoodMesh 3 n nNodes cells X) {hh ρ : ℝ} (hsh : MeshShape n cells X hh ρ) (hρ : 0 < ρ) (hell : ∀ r, Elliptic 2 op r) {ids : List Int}
    {locs : Nat → Fin 2 → ℝ} (hL : Located 3 n cells X ids locs) (lam : ℝ) (hl : 0 < lam) {v : Nat} (hv : Valence n 3 cells v) (kb : Nat) :
    ∃ P C, problem1 2 op cells n nNodes X bNodes = .ok P ∧ 0 ≤ C ∧
      ∀ (r : Rounding) (S : List ℝ → ℝ) (ps : Nat → (Nat → ℝ) → ℝ) (dps : Nat → (Nat → ℝ) → Nat → ℝ) (cf : Nat → Nat → ℝ),
        r.Summation S → (r.b ^ 4 - 1) * (hh / ρ) ≤ 1 / 2 →
        (∀ i : Fin 3, ∀ k < size P.t, |ps i (node ℝ P.t k) - refBasis ℝ 2 1 3 i (node ℝ P.t k)| ≤ r.b ^ kb - 1) →
        (∀ i : Fin 3, ∀ k < size P.t, ∀ w < 2, |dps i (node ℝ P.t k) w - refGrad ℝ 2 1 3 i (node ℝ P.t k) w| ≤ r.b ^ kb - 1) →
        (∀ i < 3, ∀ m < 3, |cf i m - coef1 i m| ≤ r.b ^ kb - 1) →
        ∀ (data : Dense ℝ), n * size P.t ≤ data.rows → 0 < data.cols → ∀ (junk y : Nat → ℝ) (ε : ℝ) (lu lu' : Solver ℝ),
        r.b ^ fitDepth P (kb + 15) v ids.length - 1 ≤ ε → C * ε ≤ 1 →
        BackwardLU (nNodes + nNodes) ε lu → CompleteLU (nNodes + nNodes) lu → ExactLU (nNodes + nNodes) lu' → CompleteLU (nNodes + nNodes) lu' →
        ∃ f g f' g' F F', spatialFitR r S lu (P.withData (fun c => measureR r (cellOf 2 cells X c)) ps
            fun c i => gradAtR r S (cellOf 2 cells X c) dps i) data junk ids
            (psiAtR r S cf (fun c => invAtR r (cellOf 2 cells X c)) cells X locs) lam y = .ok (some (f, g)) ∧
          spatialFit lu' P data junk ids (psiAt 2 1 3 cells X locs) lam y = .ok (some (f', g')) ∧
          ContinuousOn F (domain 3 n cells X) ∧ IsP1 3 n nNodes cells X f F ∧ ContinuousOn F' (domain 3 n cells X) ∧ IsP1 3 n nNodes cells X f' F' ∧
          ∀ Y, 0 ≤ Y → (∀ j < ids.length, |y j| ≤ Y) → (∀ k < n * size P.t, |data.at' k 0| ≤ Y) →
            ∀ x ∈ domain 3 n cells X, |F x - F' x| ≤ C * ε * Y := by
  obtain ⟨P, C, e, hC0, hC⟩ := C169_mesh (d := 2) (by unfold Dims; decide) hs hns bNodes h hell hL lam hl hv (kb + 15) (hh / ρ) (4 * hh / ρ ^ 2) (B := 1 + 2 * (2 * (2 * (hh / ρ) * (1 / ρ) * hh)))
    (by have := shape_nonneg hsh hL; positivity)
  refine ⟨P, C, e, hC0, fun r S ps dps cf hS hsm hps hdp hcf data hr hc junk y ε lu lu' => hC r S _ _ _ _ hS ?_ ?_ data hr hc junk y ε lu lu'⟩
  · obtain ⟨P', e', hP'⟩ := C151_triangles op bNodes h.proper hsh hρ hsm hS (kb := kb) (ps := ps) (dps := dps) (nNodes := nNodes)
    obtain rfl := Res.ok.inj (e.symm.trans e')
    exact (hP' hps hdp).mono (by omega)
  · obtain ⟨t, ht⟩ := rule1 (d := 2) (by decide)
    have h1 := psi_err (N := 2) (by decide) hS hsh (fun c hc w hw z hz => (tri_cell (nNodes := nNodes) ht op bNodes h.proper hsh hρ hsm hc).2 w hw z hz) hcf hL
    push_cast at h1
    exact h1

/-- C169 on a mesh of tetrahedra, with volumes, gradients and values of the basis as the program computes them from the coordinates. -/
theorem C169_tetrahedra {X : Nat → Fin 3 → ℝ} {op : Op ℝ} (hs : FlagRight 3 op) (hns : NoScalar op) (bNodes : Nat → Bool)
    (h : GoodMesh 4 n nNodes cells X) {hh ρ : ℝ} (hsh : MeshShape n cells X hh ρ) (hρ : 0 < ρ) (hell : ∀ r, Elliptic 3 op r) {ids : List Int}
    {locs : Nat → Fin 3 → ℝ} (hL : Located 4 n cells X ids locs) (lam : ℝ) (hl : 0 < lam) {v : Nat} (hv : Valence n 4 cells v) (kb : Nat) :
    ∃ P C, problem1 3 op cells n nNodes X bNodes = .ok P ∧ 0 ≤ C ∧
      ∀ (r : Rounding) (S : List ℝ → ℝ) (ps : Nat → (Nat → ℝ) → ℝ) (dps : Nat → (Nat → ℝ) → Nat → ℝ) (cf : Nat → Nat → ℝ),
        r.Summation S → (r.b ^ 9 - 1) * (2 * (hh / ρ) ^ 3) ≤ 1 / 2 →
        (∀ i : Fin 4, ∀ k < size P.t, |ps i (node ℝ P.t k) - refBasis ℝ 3 1 4 i (node ℝ P.t k)| ≤ r.b ^ kb - 1) →
        (∀ i : Fin 4, ∀ k < size P.t, ∀ w < 3, |dps i (node ℝ P.t k) w - refGrad ℝ 3 1 4 i (node ℝ P.t k) w| ≤ r.b ^ kb - 1) →
        (∀ i < 4, ∀ m < 4, |cf i m - coef1 i m| ≤ r.b ^ kb - 1) →
        ∀ (data : Dense ℝ), n * size P.t ≤ data.rows → 0 < data.cols → ∀ (junk y : Nat → ℝ) (ε : ℝ) (lu lu' : Solver ℝ),
        r.b ^ fitDepth P (kb + 25) v ids.length - 1 ≤ ε → C * ε ≤ 1 →
        BackwardLU (nNodes + nNodes) ε lu → CompleteLU (nNodes + nNodes) lu → ExactLU (nNodes + nNodes) lu' → CompleteLU (nNodes + nNodes) lu' →
        ∃ f g f' g' F F', spatialFitR r S lu (P.withData (fun c => measure3R r (cellOf 3 cells X c)) ps
            fun c i => gradOfR r S 3 (inv3AtR r S (cellOf 3 cells X c)) dps i) data junk ids
            (psiAtR r S cf (fun c => inv3AtR r S (cellOf 3 cells X c)) cells X locs) lam y = .ok (some (f, g)) ∧
          spatialFit lu' P data junk ids (psiAt 3 1 4 cells X locs) lam y = .ok (some (f', g')) ∧
          ContinuousOn F (domain 4 n cells X) ∧ IsP1 4 n nNodes cells X f F ∧ ContinuousOn F' (domain 4 n cells X) ∧ IsP1 4 n nNodes cells X f' F' ∧
          ∀ Y, 0 ≤ Y → (∀ j < ids.length, |y j| ≤ Y) → (∀ k < n * size P.t, |data.at' k 0| ≤ Y) →
            ∀ x ∈ domain 4 n cells X, |F x - F' x| ≤ C * ε * Y := by
  obtain ⟨P, C, e, hC0, hC⟩ := C169_mesh (d := 3) (by unfold Dims; decide) hs hns bNodes h hell hL lam hl hv (kb + 25) (3 * (hh / ρ) ^ 3)
    (12 * hh ^ 5 / ρ ^ 6) (B := 1 + 3 * (3 * (4 * hh ^ 5 / ρ ^ 6 * hh)))
    (by have := shape_nonneg hsh hL; positivity)
  refine ⟨P, C, e, hC0, fun r S ps dps cf hS hsm hps hdp hcf data hr hc junk y ε lu lu' => hC r S _ _ _ _ hS ?_ ?_ data hr hc junk y ε lu lu'⟩
  · obtain ⟨P', e', hP'⟩ := C151_tetrahedra op bNodes h.proper hsh hρ hsm hS (kb := kb) (ps := ps) (dps := dps) (nNodes := nNodes)
    obtain rfl := Res.ok.inj (e.symm.trans e')
    exact (hP' hps hdp).mono (by omega)
  · obtain ⟨t, ht⟩ := rule1 (d := 3) (by decide)
    have h1 := psi_err (N := 3) (by decide) hS hsh (fun c hc w hw z hz => (tet_cell (nNodes := nNodes) ht op bNodes h.proper hsh hρ hsm hS hc).2 w hw z hz) hcf hL
    push_cast at h1
    exact h1

/-! ### The hypotheses are met -/

/-- The rod from 0 to `n` is made of intervals of length 1. -/
theorem line_shape (n : Nat) : MeshShape n lineCells lineX 1 1 where
  diam := fun c _ v hv w hw => by
    rw [len_one]
    have e : (lineX (lineCells c v) - lineX (lineCells c w)) 0 = (v : ℝ) - w := by simp [lineX, lineCells]
    rw [e]
    rcases (by omega : v = 0 ∨ v = 1) with rfl | rfl <;> rcases (by omega : w = 0 ∨ w = 1) with rfl | rfl <;> norm_num
  height := fun c _ v hv x hx => by
    have hset : {x : Fin 1 → ℝ | ∃ w < 1 + 1, w ≠ v ∧ x = lineX (lineCells c w)} = {lineX (lineCells c (1 - v))} := by
      ext y
      simp only [Set.mem_ofPred_eq, Set.mem_singleton_iff]
      constructor
      · rintro ⟨w, hw, hne, rfl⟩; rw [show w = 1 - v by omega]
      · rintro rfl; exact ⟨1 - v, by omega, by omega, rfl⟩
    rw [hset, AffineSubspace.mem_affineSpan_singleton] at hx
    rw [hx, len_one]
    have e : (lineX (lineCells c v) - lineX (lineCells c (1 - v))) 0 = (v : ℝ) - ((1 - v : Nat) : ℝ) := by simp [lineX, lineCells]
    rw [e]
    rcases (by omega : v = 0 ∨ v = 1) with rfl | rfl <;> norm_num

/-- An arithmetic in which every operation is wrong by the factor 1 + `u`. -/
noncomputable def upward (u : ℝ) (h0 : 0 ≤ u) (h1 : u < 1) : Rounding where
  rnd := fun x => (1 + u) * x
  u := u
  u_pos := h0
  u_lt := h1
  err := fun x => by rw [show (1 + u) * x - x = u * x by ring, abs_mul, abs_of_nonneg h0]
  mono := fun x y h => mul_le_mul_of_nonneg_left h (by linarith)
  odd := fun x => by ring

/-- Whatever the number of roundings, such an arithmetic may be precise enough. -/
theorem exists_upward (K : Nat) {ε : ℝ} (hε : 0 < ε) : ∃ r : Rounding, 0 < r.u ∧ (∀ x, r.rnd x = (1 + r.u) * x) ∧ r.b ^ K - 1 ≤ ε := by
  have hK : (0 : ℝ) < K + 1 := by positivity
  have hu : 0 < ε / ((1 + ε) * (K + 1)) := by positivity
  have hu1 : ε / ((1 + ε) * (K + 1)) * (K + 1) = ε / (1 + ε) := by field_simp
  have hlt : ε / (1 + ε) < 1 := by rw [div_lt_one (by linarith)]; linarith
  have hK1 : (1 : ℝ) ≤ K + 1 := by have : (0 : ℝ) ≤ K := Nat.cast_nonneg K; linarith
  have hul : ε / ((1 + ε) * (K + 1)) ≤ ε / (1 + ε) := by rw [← hu1]; exact le_mul_of_one_le_right hu.le hK1
  refine ⟨upward _ hu.le (by linarith), hu, fun _ => rfl, ?_⟩
  set u := ε / ((1 + ε) * (K + 1)) with hudef
  show (1 - u)⁻¹ ^ K - 1 ≤ ε
  have hb := one_add_mul_le_pow (a := -u) (by linarith) K
  have h2 : 1 - ε / (1 + ε) ≤ (1 - u) ^ K := by
    refine le_trans ?_ (le_of_le_of_eq hb (by ring))
    linarith
  have h3 : 1 - ε / (1 + ε) = (1 + ε)⁻¹ := by field_simp; ring
  rw [inv_pow]
  have h4 : ((1 - u) ^ K)⁻¹ ≤ 1 + ε := by
    rw [h3] at h2
    have := inv_anti₀ (by positivity) h2
    rwa [inv_inv] at this
  linarith

/-- The rod from 0 to `n`, locations 1/2 and 1/3 in the first cell and one outside of the rod; an arithmetic and a solver that are not exact. -/
example (n : Nat) (hn : 0 < n) (y : Nat → ℝ) : ∃ (r : Rounding) (ε : ℝ) (lu lu' : Solver ℝ) (P : Prob ℝ) (C : ℝ) (f g f' g' : Nat → ℝ) (F F' : (Fin 1 → ℝ) → ℝ),
    0 < r.u ∧ (∀ x, r.rnd x = (1 + r.u) * x) ∧ problem1 1 (.neg .lap) lineCells n (n + 1) lineX (fun p => p == 0 || p == n) = .ok P ∧
    spatialFitR r r.sumLeft lu (P.withData (fun c => measure1R r (cellOf 1 lineCells lineX c)) (basisAt 1 1 2)
        fun c i => gradOfR r r.sumLeft 1 (inv1AtR r (cellOf 1 lineCells lineX c)) (fun i x w => if h : i < 2 then refGrad ℝ 1 1 2 ⟨i, h⟩ x w else 0) i)
      ⟨n * size P.t, 1, fun r _ => r⟩ (fun _ => 0) [0, -1, 0] (psiAtR r r.sumLeft coef1 (fun c => inv1AtR r (cellOf 1 lineCells lineX c)) lineCells lineX
        fun i _ => if i = 0 then 1 / 2 else if i = 1 then -5 else 1 / 3) 7 y = .ok (some (f, g)) ∧
    spatialFit lu' P ⟨n * size P.t, 1, fun r _ => r⟩ (fun _ => 0) [0, -1, 0] (psiAt 1 1 2 lineCells lineX fun i _ => if i = 0 then 1 / 2 else
      if i = 1 then -5 else 1 / 3) 7 y = .ok (some (f', g')) ∧ IsP1 2 n (n + 1) lineCells lineX f F ∧ IsP1 2 n (n + 1) lineCells lineX f' F' ∧
    ∀ Y, 0 ≤ Y → (∀ j < 3, |y j| ≤ Y) → (∀ k < n * size P.t, |(k : ℝ)| ≤ Y) → ∀ x ∈ domain 2 n lineCells lineX, |F x - F' x| ≤ C * ε * Y := by
  obtain ⟨P, C, e, hC0, hC⟩ := C169_intervals (op := .neg .lap) (fun _ => trivial) trivial (fun p => p == 0 || p == n) (line_good n hn)
    (line_shape n) one_pos (fun r => C103_laplacian 1 r) (demo_located n hn) 7 (by norm_num) (valence_all n 2 lineCells) 0
  have hp : 0 < 1 / (2 * (C + 1)) := by positivity
  obtain ⟨r, hr0, hr1, hr⟩ := exists_upward (fitDepth P (0 + 8) (n * 2) 3) hp
  obtain ⟨lu, b1, b2, -⟩ := exists_inflatedLU (n + 1 + (n + 1)) hp.le
  obtain ⟨lu', x1, x2⟩ := exists_exactLU (K := ℝ) (n + 1 + (n + 1))
  have hle : 1 / (2 * (C + 1)) ≤ 1 / 2 := by rw [div_le_div_iff₀ (by positivity) (by norm_num)]; linarith
  have hb1 : r.b ≤ r.b ^ fitDepth P (0 + 8) (n * 2) 3 := le_self_pow₀ r.one_le_b (by rw [fitDepth]; omega)
  obtain ⟨f, g, f', g', F, F', r1, r2, -, q1, -, q2, hb⟩ := hC r r.sumLeft (basisAt 1 1 2) (fun i x w => if h : i < 2 then refGrad ℝ 1 1 2 ⟨i, h⟩ x w else 0)
    coef1 (fun l => r.sumLeft_adds l) (by linarith) (fun i k _ => by rw [basisAt, dif_pos i.2]; simp)
    (fun i k _ w _ => by rw [dif_pos i.2]; simp) (fun i _ m _ => by simp)
    ⟨n * size P.t, 1, fun r _ => r⟩ le_rfl (by norm_num) (fun _ => 0) y _ lu lu' hr
    (by rw [mul_one_div, div_le_one (by positivity)]; linarith) b1 b2 x1 x2
  exact ⟨r, _, lu, lu', P, C, f, g, f', g', F, F', hr0, hr1, e, r1, r2, q1, q2, hb⟩

end Fdapde.PDE
