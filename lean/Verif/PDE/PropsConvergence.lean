import Verif.PDE.ConvergenceSpec
import Verif.PDE.LemmasL2
import Verif.PDE.PropsMesh
import Mathlib.MeasureTheory.Measure.Lebesgue.EqHaar
import Mathlib.Analysis.Calculus.ContDiff.Basic
set_option linter.unusedSectionVars false
/-!
# C132: the finite element method converges
-/
namespace Fdapde.PDE
open Fdapde.Quadrature MeasureTheory Matrix Fdapde.Geometry Fdapde.FEM
variable {N : Nat}

theorem mesh_cell {t : Table} (op : Op ℝ) {n nNodes : Nat} {cells : Nat → Nat → Nat} {X : Nat → Vec N} (bNodes : Nat → Bool) (c : Nat) :
    (meshProb N 1 (N + 1) t op cells n X (enumDofs1 cells nNodes bNodes)).cell (natX X) c = region (N + 1) cells X c := by
  rw [region_hull]
  refine congrArg (convexHull ℝ) (congrArg Set.range ?_)
  funext j z
  exact dif_pos z.2

theorem len_sq (x : Fin N → ℝ) : len x ^ 2 = ∑ z, x z ^ 2 := Real.sq_sqrt (Finset.sum_nonneg fun z _ => sq_nonneg _)
theorem len_nonneg (x : Fin N → ℝ) : 0 ≤ len x := Real.sqrt_nonneg _

theorem natX_fin (X : Nat → Vec N) (p : Nat) : (fun z : Fin N => natX X p z) = X p := by
  funext z; exact dif_pos z.2

/-! ### The cells do not overlap -/

theorem cells_null {n nNodes : Nat} {cells : Nat → Nat → Nat} {X : Nat → Vec N} (h : GoodMesh (N + 1) n nNodes cells X) {c c' : Nat}
    (hc : c < n) (hc' : c' < n) (hne : c ≠ c') : volume (region (N + 1) cells X c ∩ region (N + 1) cells X c') = 0 := by
  have hv : ∃ v : Fin (N + 1), ∀ w < N + 1, cells c' w ≠ cells c v := by
    by_contra hno
    push Not at hno
    exact hne (h.distinct c hc c' hc' fun v hv => hno ⟨v, hv⟩)
  obtain ⟨v, hv⟩ := hv
  have hsub : region (N + 1) cells X c ∩ region (N + 1) cells X c' ⊆
      (affineSpan ℝ ((fun w : Fin (N + 1) => X (cells c w)) '' {w | w ≠ v}) : Set (Vec N)) := by
    refine (h.conforming c hc c' hc').trans ((convexHull_mono ?_).trans (convexHull_subset_affineSpan _))
    rintro _ ⟨a, ha, w, hw, e, rfl⟩
    refine ⟨⟨a, ha⟩, fun e' => hv w hw ?_, rfl⟩
    rw [← e, ← e']
  refine measure_mono_null hsub (Measure.addHaar_affineSubspace volume _ fun htop => ?_)
  have hmem : X (cells c v) ∈ affineSpan ℝ ((fun w : Fin (N + 1) => X (cells c w)) '' {w | w ≠ v}) := by rw [htop]; trivial
  exact (h.proper c hc).notMem_affineSpan_diff v Set.univ (by
    convert hmem using 3
    ext w; simp)

theorem region_compact (cells : Nat → Nat → Nat) (X : Nat → Vec N) (c : Nat) : IsCompact (region (N + 1) cells X c) := by
  rw [region_hull]
  exact (Set.finite_range _).isCompact_convexHull (𝕜 := ℝ)

/-- The volume of the domain is the sum of those of the cells. -/
theorem domain_volume {n nNodes : Nat} {cells : Nat → Nat → Nat} {X : Nat → Vec N} (h : GoodMesh (N + 1) n nNodes cells X) :
    ∑ c ∈ Finset.range n, (volume (region (N + 1) cells X c)).toReal = (volume (domain (N + 1) n cells X)).toReal := by
  have e : domain (N + 1) n cells X = ⋃ c ∈ Finset.range n, region (N + 1) cells X c := by
    simp only [domain, Set.mem_ofPred_eq, Finset.mem_range]
  rw [e, measure_biUnion_finset₀, ENNReal.toReal_sum]
  · exact fun c _ => (region_compact cells X c).measure_ne_top
  · intro c hc c' hc' hne
    exact cells_null h (Finset.mem_range.1 hc) (Finset.mem_range.1 hc') hne
  · exact fun c _ => (region_compact cells X c).measurableSet.nullMeasurableSet

/-! ### The exact solution -/

theorem region_domain {n : Nat} {cells : Nat → Nat → Nat} {X : Nat → Vec N} {c : Nat} (hc : c < n) : region (N + 1) cells X c ⊆ domain (N + 1) n cells X :=
  Set.subset_biUnion_of_mem (u := fun c => region (N + 1) cells X c) (show c ∈ {c | c < n} from hc)

theorem fderiv_pderiv (u : Vec N → ℝ) (x : Vec N) : fderiv ℝ u x = ∑ z, pderiv u z x • ContinuousLinearMap.proj (R := ℝ) (φ := fun _ : Fin N => ℝ) z := by
  ext y
  have hy : y = ∑ z, y z • (Pi.single z 1 : Vec N) := by
    ext a; simp [Finset.sum_apply, Pi.single_apply]
  conv_lhs => rw [hy, map_sum]
  rw [_root_.sum_apply]
  exact Finset.sum_congr rfl fun z _ => by simp [pderiv, mul_comm]

theorem pderiv_hasFDerivAt {u : Vec N → ℝ} {x : Vec N} (h : DifferentiableAt ℝ u x) :
    HasFDerivAt u (∑ z, pderiv u z x • ContinuousLinearMap.proj (R := ℝ) (φ := fun _ : Fin N => ℝ) z) x := by
  rw [← fderiv_pderiv]; exact h.hasFDerivAt

theorem pderiv_contDiff {u : Vec N → ℝ} {U : Set (Vec N)} (hU : IsOpen U) (hu : ContDiffOn ℝ 2 u U) (z : Fin N) : ContDiffOn ℝ 1 (pderiv u z) U :=
  (hu.fderiv_of_isOpen hU (m := 1) (by norm_num)).clm_apply contDiffOn_const

theorem exact_smooth {t : Table} (op : Op ℝ) {n nNodes : Nat} {cells : Nat → Nat → Nat} {X : Nat → Vec N} (bNodes : Nat → Bool) {u : Vec N → ℝ} {M B L : ℝ}
    (hM : 0 ≤ M) (hu : SmoothOn n cells X u M B L) :
    (meshProb N 1 (N + 1) t op cells n X (enumDofs1 cells nNodes bNodes)).Smooth (natX X) u (fun x z => pderiv u z x) M := by
  obtain ⟨U, hU, hD, hC⟩ := hu.smooth
  refine C112_smooth hM (fun c hc x hx => ?_) fun c hc x hx y hy => ?_
  · rw [mesh_cell] at hx
    have hd : DifferentiableAt ℝ u x := (hC.contDiffAt (hU.mem_nhds (hD (region_domain hc hx)))).differentiableAt (by norm_num)
    exact (pderiv_hasFDerivAt hd).hasFDerivWithinAt
  · rw [mesh_cell] at hx hy
    have h1 := pow_le_pow_left₀ (len_nonneg _) (hu.gradient c hc x hx y hy) 2
    rw [mul_pow, len_sq, len_sq] at h1
    exact h1

theorem exact_poisson (hN : N ∈ [1, 2, 3]) {t : Table} (ht : standardRule N 1 = some t) (op : Op ℝ) {n nNodes : Nat} {cells : Nat → Nat → Nat} {X : Nat → Vec N}
    (h : GoodMesh (N + 1) n nNodes cells X) {bNodes : Nat → Bool} (hb : MarksBoundary (N + 1) n cells bNodes) {u : Vec N → ℝ} {M B L : ℝ}
    (hu : SmoothOn n cells X u M B L) :
    (meshProb N 1 (N + 1) t op cells n X (enumDofs1 cells nNodes bNodes)).Poisson (natX X) (fun x z => pderiv u z x) (fun x => -laplacian u x) := by
  have hN0 : 0 < N := by
    simp only [List.mem_cons, List.not_mem_nil, or_false] at hN
    omega
  obtain ⟨U, hU, hD, hC⟩ := hu.smooth
  refine poisson_of_strong (mesh_onNodes hN ht op h.proper bNodes) (mesh_conforming hN0 op h hb) h.nodes
    (fun c x z => fderiv ℝ (pderiv u z) x) (fun c hc x hx z => ?_) (fun c hc z => ?_) fun c hc x hx => rfl
  · rw [mesh_cell] at hx
    exact (((pderiv_contDiff hU hC z).contDiffAt (hU.mem_nhds (hD (region_domain hc hx)))).differentiableAt (by norm_num)).hasFDerivAt.hasFDerivWithinAt
  · rw [mesh_cell]
    exact ((pderiv_contDiff hU hC z).continuousOn_fderiv_of_isOpen hU (by norm_num)).mono ((region_domain hc).trans hD)

theorem exact_regular {t : Table} (op : Op ℝ) {n nNodes : Nat} {cells : Nat → Nat → Nat} {X : Nat → Vec N} (bNodes : Nat → Bool) {u : Vec N → ℝ} {M B L : ℝ}
    (hu : SmoothOn n cells X u M B L) :
    (meshProb N 1 (N + 1) t op cells n X (enumDofs1 cells nNodes bNodes)).Regular (natX X) (fun x => -laplacian u x) B L := by
  refine ⟨fun c hc x hx => ?_, fun c hc x hx y hy => ?_⟩
  · rw [mesh_cell] at hx
    rw [abs_neg]
    exact hu.bound x (region_domain hc hx)
  · rw [mesh_cell] at hx hy
    rw [← neg_sub', abs_neg]
    exact hu.lipschitz c hc x hx y hy

theorem exact_shape {t : Table} (op : Op ℝ) {n nNodes : Nat} {cells : Nat → Nat → Nat} {X : Nat → Vec N} (bNodes : Nat → Bool) {hh ρ : ℝ}
    (hρ : 0 < ρ) (hs : MeshShape n cells X hh ρ) :
    (meshProb N 1 (N + 1) t op cells n X (enumDofs1 cells nNodes bNodes)).Shape (natX X) hh ρ := by
  refine ⟨fun c hc i hi j hj => ?_, fun c hc i hi μ h1 h0 => ?_⟩
  · have h1 := pow_le_pow_left₀ (len_nonneg _) (hs.diam c hc i hi j hj) 2
    rw [len_sq] at h1
    refine le_trans (le_of_eq (Finset.sum_congr rfl fun z _ => ?_)) h1
    show (natX X (cells c i) z - natX X (cells c j) z) ^ 2 = _
    rw [natX, natX, dif_pos (show (z : Nat) < N from z.2), dif_pos (show (z : Nat) < N from z.2)]
    rfl
  · change i < N + 1 at hi
    change ∑ j ∈ Finset.range (N + 1), μ j = 1 at h1
    have hmem : (∑ j ∈ (Finset.range (N + 1)).erase i, μ j • X (cells c j)) ∈ affineSpan ℝ {x | ∃ w < N + 1, w ≠ i ∧ x = X (cells c w)} := by
      have hs1 : ∑ j ∈ (Finset.range (N + 1)).erase i, μ j = 1 := by
        rw [← h1, ← Finset.add_sum_erase _ _ (Finset.mem_range.2 hi), h0, zero_add]
      rw [← Finset.affineCombination_eq_linear_combination _ (fun j => X (cells c j)) _ hs1]
      have := affineCombination_mem_affineSpan_image (k := ℝ) hs1 (s' := {w | w < N + 1 ∧ w ≠ i})
        (fun j hj hn => absurd ⟨Finset.mem_range.1 (Finset.mem_of_mem_erase hj), Finset.ne_of_mem_erase hj⟩ hn) fun j => X (cells c j)
      refine affineSpan_mono ℝ ?_ this
      rintro _ ⟨w, ⟨hw1, hw2⟩, rfl⟩
      exact ⟨w, hw1, hw2, rfl⟩
    have h2 := pow_le_pow_left₀ hρ.le (hs.height c hc i hi _ hmem) 2
    rw [len_sq] at h2
    refine h2.trans (le_of_eq (Finset.sum_congr rfl fun z _ => ?_))
    show _ = (natX X (cells c i) z - ∑ j ∈ Finset.range (N + 1), μ j * natX X (cells c j) z) ^ 2
    rw [← Finset.add_sum_erase _ _ (Finset.mem_range.2 hi), h0, zero_mul, zero_add]
    simp only [natX, dif_pos (show (z : Nat) < N from z.2), Pi.sub_apply, Finset.sum_apply, Pi.smul_apply, smul_eq_mul]

theorem mesh_gradError {t : Table} (op : Op ℝ) {n nNodes : Nat} {cells : Nat → Nat → Nat} {X : Nat → Vec N} (bNodes : Nat → Bool) (u : Vec N → ℝ)
    (W : Nat → Fin N → ℝ) : gradError n cells X u W =
      (meshProb N 1 (N + 1) t op cells n X (enumDofs1 cells nNodes bNodes)).errorSq (natX X) (fun x z => pderiv u z x) W :=
  Finset.sum_congr rfl fun c _ => congrArg (fun s : Set (Fin N → ℝ) => ∫ x in s, ∑ z, (pderiv u z x - W c z) ^ 2)
    (mesh_cell (t := t) (nNodes := nNodes) op bNodes c).symm

theorem mesh_valueError {t : Table} (op : Op ℝ) {n nNodes : Nat} {cells : Nat → Nat → Nat} {X : Nat → Vec N} (bNodes : Nat → Bool) (u : Vec N → ℝ)
    (W : Nat → Fin N → ℝ) (b : Nat → ℝ) : valueError n cells X u W b = ∑ c ∈ Finset.range n,
      ∫ x in (meshProb N 1 (N + 1) t op cells n X (enumDofs1 cells nNodes bNodes)).cell (natX X) c, (u x - PDE.aff (W c) (b c) x) ^ 2 :=
  Finset.sum_congr rfl fun c _ => congrArg (fun s : Set (Fin N → ℝ) => ∫ x in s, (u x - ((∑ z, W c z * x z) + b c)) ^ 2)
    (mesh_cell (t := t) (nNodes := nNodes) op bNodes c).symm

/-! ### The theorems -/

/-- **C132**: let a function `u` have continuous second derivatives on the domain of a mesh of full dimension whose boundary nodes are marked.  Given the
values of -Δu at the quadrature nodes and of `u` at the boundary nodes, first order elements return a function that differs from `u` by a multiple
of the size of the cells, in the gradient and in the values.  Nothing is assumed about the discrete problem.  Partial as `C131_solve_first_partial`
(dof 0 on the boundary, see `C62_bug_dof_zero`; exact factorization). -/
theorem C132_poisson_partial (hN : N ∈ [1, 2, 3]) {n nNodes : Nat} {cells : Nat → Nat → Nat} {X : Nat → Fin N → ℝ} (bNodes : Nat → Bool)
    (h : GoodMesh (N + 1) n nNodes cells X) (hb : MarksBoundary (N + 1) n cells bNodes) {hh ρ : ℝ} (hs : MeshShape n cells X hh ρ) (hρ : 0 < ρ)
    {u : (Fin N → ℝ) → ℝ} {M B L : ℝ} (hu : SmoothOn n cells X u M B L) (hM : 0 ≤ M) (hL : 0 ≤ L)
    (z : Fin N) {a ℓ : ℝ} (hl : ∀ x ∈ domain (N + 1) n cells X, |x z - a| ≤ ℓ)
    (lu : Solver ℝ) (hlu : ExactLU nNodes lu) (hlc : CompleteLU nNodes lu) (hm : 0 < nNodes) (h0 : bNodes 0 = true) :
    ∃ P, problem1 N (.neg .lap) cells n nNodes X bNodes = .ok P ∧ ∀ (data : Dense ℝ), n * size P.t ≤ data.rows → data.cols = 1 →
      (∀ c < n, ∀ k < size P.t, data.at' (size P.t * c + k) 0 = -laplacian u (meshPoint cells X c fun w => node ℝ P.t k w)) →
      ∀ g : Dense ℝ, nNodes ≤ g.rows → 0 < g.cols → (∀ p < nNodes, bNodes p = true → g.at' p 0 = u (X p)) →
      ∀ junk, ∃ w W b, (P.init data junk >>= pdeSolveElliptic lu g) = .ok (true, some w) ∧ PiecewiseAffine n cells X w W b ∧
        gradError n cells X u W ≤ (((N + 1) * M * hh ^ 2 / (2 * ρ)) ^ 2 + (hh * (2 * ℓ * L + B)) ^ 2) * (volume (domain (N + 1) n cells X)).toReal ∧
        valueError n cells X u W b ≤ (2 * (M / 2 * hh ^ 2) ^ 2 +
          16 * ℓ ^ 2 * (2 * ((N + 1) * M * hh ^ 2 / (2 * ρ)) ^ 2 + (hh * (2 * ℓ * L + B)) ^ 2)) * (volume (domain (N + 1) n cells X)).toReal := by
  have hd : Dims N N := by
    simp only [Dims, List.mem_cons, Prod.mk.injEq, List.not_mem_nil, or_false] at hN ⊢
    omega
  have hN0 : 0 < N := by
    simp only [List.mem_cons, List.not_mem_nil, or_false] at hN
    omega
  obtain ⟨P, I, J, e, -, e1, e2, e3, e4, e5, e6, e7, hpos, hcon⟩ := C131_first_order hd (.neg .lap) bNodes h
  obtain ⟨t, ht⟩ := rule1 hN
  have eP : P = meshProb N 1 (N + 1) t (.neg .lap) cells n X (enumDofs1 cells nNodes bNodes) := by
    rw [problem1, ht, Res.ofOptionUB_some, Res.ok_bind] at e
    exact (Res.ok.inj e).symm
  clear e1 e2 e3 e4 e5 e6 e7 hpos
  have hO := mesh_onNodes (nNodes := nNodes) hN ht (.neg .lap) h.proper bNodes
  have hcf := mesh_conforming (t := t) hN0 (.neg .lap) h hb
  have hsm := exact_smooth (t := t) (nNodes := nNodes) (.neg .lap) bNodes hM hu
  have hpo := exact_poisson hN ht (.neg .lap) h hb hu
  have hre := exact_regular (t := t) (nNodes := nNodes) (.neg .lap) bNodes hu
  have hsh := exact_shape (t := t) (nNodes := nNodes) (.neg .lap) bNodes hρ hs
  obtain ⟨c0, hc0, v0, hv0, -⟩ := h.used 0 hm
  have hx0 : X (cells c0 v0) ∈ domain (N + 1) n cells X := region_domain hc0 (subset_convexHull ℝ _ ⟨v0, hv0, rfl⟩)
  have hh0 : 0 ≤ hh := (len_nonneg _).trans (hs.diam c0 hc0 v0 hv0 v0 hv0)
  have hB : 0 ≤ B := (abs_nonneg _).trans (hu.bound _ hx0)
  have hl0 : 0 ≤ ℓ := (abs_nonneg _).trans (hl _ hx0)
  have hvol : ∑ c ∈ Finset.range n, (volume ((meshProb N 1 (N + 1) t (.neg .lap) cells n X (enumDofs1 cells nNodes bNodes)).cell (natX X) c)).toReal =
      (volume (domain (N + 1) n cells X)).toReal := by
    rw [← domain_volume h]
    exact Finset.sum_congr rfl fun c _ => congrArg (fun s : Set (Fin N → ℝ) => (volume s).toReal) (mesh_cell (t := t) (nNodes := nNodes) _ bNodes c)
  have hFr := friedrichs hO hcf h.nodes z (a := a) (ℓ := ℓ) fun c hc x hx => hl x (region_domain hc (by rw [mesh_cell] at hx; exact hx))
  refine ⟨P, e, fun data hr hc hf g hg hgc hgb junk => ?_⟩
  subst eP
  have hE := C103_coercive _ (C103_elements _ hO.lagrange (by simp) (fun c _ k _ => C103_laplacian N _) (fun c hc => measure_pos hO hc) hcon)
  obtain ⟨w, s1, s2, -⟩ := C103_solve_partial (meshProb N 1 (N + 1) t (.neg .lap) cells n X (enumDofs1 cells nNodes bNodes)) ⟨h.nodes, fun _ => trivial, trivial⟩ hE lu hlu hlc data hr hc g hg hgc hm h0 junk
  obtain ⟨W, b, hW⟩ := affine_exists hO w
  have hgb' : ∀ p < nNodes, bNodes p = true → g.at' p 0 = u fun z : Fin N => natX X p z := fun p hp hb => by rw [natX_fin]; exact hgb p hp hb
  have hcs := C112_consistent hO hsh hh0 hre hL hB (mul_nonneg two_pos.le hl0) hFr hpo (fun c k => data.at' (size t * c + k) 0) fun c hc k hk => by
    rw [show data.at' (size t * c + k) 0 = _ from hf c hc k hk]
    congr 2
    funext z
    exact (meshPoint_eq cells X c _ z).symm
  have hgr := C112_order hO (lap_diffusive N) hsh hρ hsm hM _ _ hcs (fun p => g.at' p 0) w hgb' s2 W fun c hc => ⟨b c, hW c hc⟩
  have hva := value_error hO hsh hρ hsm hM (fun c hc => by
    rw [mesh_cell]
    obtain ⟨U, hU, hD, hC⟩ := hu.smooth
    exact hC.continuousOn.mono ((region_domain hc).trans hD)) hFr hW (fun p hp hb => (s2.1 p hp hb).trans (hgb' p hp hb))
  have hms : ∑ c ∈ Finset.range n, (meshProb N 1 (N + 1) t (.neg .lap) cells n X (enumDofs1 cells nNodes bNodes)).measure c =
      (volume (domain (N + 1) n cells X)).toReal := by
    rw [← hvol]
    exact Finset.sum_congr rfl fun c hc => (cell_measure hO (Finset.mem_range.1 hc)).symm
  set V := (volume (domain (N + 1) n cells X)).toReal with hV
  have hV0 : 0 ≤ V := ENNReal.toReal_nonneg
  have hge := mesh_gradError (t := t) (n := n) (nNodes := nNodes) (cells := cells) (X := X) (.neg .lap) bNodes u W
  have hve := mesh_valueError (t := t) (n := n) (nNodes := nNodes) (cells := cells) (X := X) (.neg .lap) bNodes u W b
  have hg1 : gradError n cells X u W ≤ (((N + 1) * M * hh ^ 2 / (2 * ρ)) ^ 2 + (hh * (2 * ℓ * L + B)) ^ 2) * V := by
    refine (le_of_eq hge).trans (hgr.trans (le_of_eq ?_))
    rw [show (∑ c ∈ Finset.range (meshProb N 1 (N + 1) t (.neg .lap) cells n X (enumDofs1 cells nNodes bNodes)).n, _) = _ from hvol, mul_pow,
      Real.sq_sqrt hV0, mul_comm L]
    show ((N + 1) * M * hh ^ 2 / (2 * ρ)) ^ 2 * V + _ = _
    ring
  refine ⟨w, W, b, s1, fun c hc v hv => ?_, hg1, ?_⟩
  · refine (hW c hc v hv).trans ?_
    congr 1
    exact Finset.sum_congr rfl fun z _ => by rw [← natX_fin X]; rfl
  · refine (le_of_eq hve).trans (hva.trans ?_)
    rw [← hge, show (∑ c ∈ Finset.range (meshProb N 1 (N + 1) t (.neg .lap) cells n X (enumDofs1 cells nNodes bNodes)).n, _) = _ from hms]
    show 2 * ((M / 2 * hh ^ 2) ^ 2 * V) + 4 * (2 * ℓ) ^ 2 * (gradError n cells X u W + ((N + 1) * M * hh ^ 2 / (2 * ρ)) ^ 2 * V) ≤ _
    have := mul_le_mul_of_nonneg_left hg1 (by positivity : 0 ≤ 4 * (2 * ℓ) ^ 2)
    linarith

/-- **C132**, order of convergence: on a domain `D`, for cells whose size is at most `κ` times their heights, one constant bounds the squares of the errors
by the square of the size of the cells, for every mesh of `D`.  Partial as `C132_poisson_partial`. -/
theorem C132_order_partial (hN : N ∈ [1, 2, 3]) {D : Set (Fin N → ℝ)} (z : Fin N) {a ℓ : ℝ} (hl : ∀ x ∈ D, |x z - a| ≤ ℓ)
    (u : (Fin N → ℝ) → ℝ) {M B L κ H : ℝ} (hM : 0 ≤ M) (hL : 0 ≤ L) :
    ∃ C : ℝ, ∀ (n nNodes : Nat) (cells : Nat → Nat → Nat) (X : Nat → Fin N → ℝ) (bNodes : Nat → Bool) (hh ρ : ℝ),
      GoodMesh (N + 1) n nNodes cells X → MarksBoundary (N + 1) n cells bNodes → domain (N + 1) n cells X = D →
      SmoothOn n cells X u M B L → MeshShape n cells X hh ρ → 0 < ρ → hh ≤ κ * ρ → hh ≤ H → 0 < nNodes → bNodes 0 = true →
      ∀ lu : Solver ℝ, ExactLU nNodes lu → CompleteLU nNodes lu →
      ∃ P, problem1 N (.neg .lap) cells n nNodes X bNodes = .ok P ∧ ∀ (data : Dense ℝ), n * size P.t ≤ data.rows → data.cols = 1 →
        (∀ c < n, ∀ k < size P.t, data.at' (size P.t * c + k) 0 = -laplacian u (meshPoint cells X c fun w => node ℝ P.t k w)) →
        ∀ g : Dense ℝ, nNodes ≤ g.rows → 0 < g.cols → (∀ p < nNodes, bNodes p = true → g.at' p 0 = u (X p)) →
        ∀ junk, ∃ w W b, (P.init data junk >>= pdeSolveElliptic lu g) = .ok (true, some w) ∧ PiecewiseAffine n cells X w W b ∧
          gradError n cells X u W ≤ C * hh ^ 2 ∧ valueError n cells X u W b ≤ C * hh ^ 2 := by
  set V := (volume D).toReal with hV
  have hV0 : 0 ≤ V := ENNReal.toReal_nonneg
  set A := ((N + 1) * M * κ / 2) ^ 2 with hA
  set E := (2 * ℓ * L + B) ^ 2 with hE
  have hA0 : 0 ≤ A := sq_nonneg _
  have hE0 : 0 ≤ E := sq_nonneg _
  refine ⟨(A + E) * V + (2 * (M / 2) ^ 2 * H ^ 2 + 16 * ℓ ^ 2 * (2 * A + E)) * V, ?_⟩
  intro n nNodes cells X bNodes hh ρ h hb hD hu hs hρ hκ hH hm h0 lu hlu hlc
  obtain ⟨P, e, hP⟩ := C132_poisson_partial hN bNodes h hb hs hρ hu hM hL z (hD ▸ hl) lu hlu hlc hm h0
  refine ⟨P, e, fun data hr hc hf g hg hgc hgb junk => ?_⟩
  obtain ⟨w, W, b, r1, r2, r3, r4⟩ := hP data hr hc hf g hg hgc hgb junk
  obtain ⟨c0, hc0, v0, hv0, -⟩ := h.used 0 hm
  have hh0 : 0 ≤ hh := (len_nonneg _).trans (hs.diam c0 hc0 v0 hv0 v0 hv0)
  have b1 : ((N + 1) * M * hh ^ 2 / (2 * ρ)) ^ 2 ≤ A * hh ^ 2 := by
    have : (N + 1) * M * hh ^ 2 / (2 * ρ) ≤ (N + 1) * M * κ / 2 * hh := by
      rw [div_le_iff₀ (by positivity)]
      have : (N + 1) * M * hh * hh ≤ (N + 1) * M * hh * (κ * ρ) := mul_le_mul_of_nonneg_left hκ (by positivity)
      nlinarith
    rw [hA, ← mul_pow]
    exact pow_le_pow_left₀ (by positivity) this 2
  have b2 : (hh * (2 * ℓ * L + B)) ^ 2 = E * hh ^ 2 := by rw [hE]; ring
  have b3 : (M / 2 * hh ^ 2) ^ 2 ≤ (M / 2) ^ 2 * H ^ 2 * hh ^ 2 := by
    have : hh ^ 2 ≤ H ^ 2 := pow_le_pow_left₀ hh0 hH 2
    have := mul_le_mul_of_nonneg_right (mul_le_mul_of_nonneg_left this (sq_nonneg (M / 2))) (sq_nonneg hh)
    calc _ = (M / 2) ^ 2 * hh ^ 2 * hh ^ 2 := by ring
      _ ≤ _ := this
  rw [hD, b2] at r3 r4
  refine ⟨w, W, b, r1, r2, r3.trans ?_, r4.trans ?_⟩
  · calc _ ≤ (A * hh ^ 2 + E * hh ^ 2) * V := mul_le_mul_of_nonneg_right (by linarith) hV0
      _ = (A + E) * V * hh ^ 2 := by ring
      _ ≤ _ := mul_le_mul_of_nonneg_right (le_add_of_nonneg_right (by positivity)) (sq_nonneg _)
  · have hl2 : 0 ≤ 16 * ℓ ^ 2 := by positivity
    calc _ ≤ (2 * ((M / 2) ^ 2 * H ^ 2 * hh ^ 2) + 16 * ℓ ^ 2 * (2 * (A * hh ^ 2) + E * hh ^ 2)) * V := by
          refine mul_le_mul_of_nonneg_right (add_le_add (by linarith) (mul_le_mul_of_nonneg_left (by linarith) hl2)) hV0
      _ = (2 * (M / 2) ^ 2 * H ^ 2 + 16 * ℓ ^ 2 * (2 * A + E)) * V * hh ^ 2 := by ring
      _ ≤ _ := mul_le_mul_of_nonneg_right (le_add_of_nonneg_left (by positivity)) (sq_nonneg _)

/-! ### The hypotheses are met -/

open scoped Pointwise

theorem scale_region {nn : Nat} (s : ℝ) (cells : Nat → Nat → Nat) (X : Nat → Vec N) (c : Nat) :
    region nn cells (fun p => s • X p) c = s • region nn cells X c := by
  rw [region, region, ← convexHull_smul]
  congr 1
  ext x
  simp only [Set.mem_smul_set, Set.mem_ofPred_eq]
  constructor
  · rintro ⟨v, hv, rfl⟩; exact ⟨_, ⟨v, hv, rfl⟩, rfl⟩
  · rintro ⟨_, ⟨v, hv, rfl⟩, rfl⟩; exact ⟨v, hv, rfl⟩

theorem scale_domain {nn n : Nat} (s : ℝ) (cells : Nat → Nat → Nat) (X : Nat → Vec N) :
    domain nn n cells (fun p => s • X p) = s • domain nn n cells X := by
  simp only [domain, scale_region, Set.smul_set_iUnion₂]

/-- A mesh on another scale. -/
theorem scale_good {nn n nNodes : Nat} {cells : Nat → Nat → Nat} {X : Nat → Vec N} {s : ℝ} (hs : s ≠ 0) (h : GoodMesh nn n nNodes cells X) :
    GoodMesh nn n nNodes cells (fun p => s • X p) where
  nodes := h.nodes
  used := h.used
  proper := fun c hc => by
    have := (h.proper c hc).map' ((s • LinearMap.id : Vec N →ₗ[ℝ] Vec N).toAffineMap) fun x y e => by
      simpa [hs] using e
    exact this
  conforming := fun c hc c' hc' => by
    rw [scale_region, scale_region, ← Set.smul_set_inter₀ hs]
    refine (Set.smul_set_mono (h.conforming c hc c' hc')).trans (le_of_eq ?_)
    rw [← convexHull_smul]
    congr 1
    ext x
    simp only [Set.mem_smul_set, Set.mem_ofPred_eq]
    constructor
    · rintro ⟨_, ⟨v, hv, w, hw, e, rfl⟩, rfl⟩; exact ⟨v, hv, w, hw, e, rfl⟩
    · rintro ⟨v, hv, w, hw, e, rfl⟩; exact ⟨_, ⟨v, hv, w, hw, e, rfl⟩, rfl⟩
  distinct := h.distinct
  connected := by
    rw [scale_domain]
    exact h.connected.image _ (continuous_const_smul s).continuousOn

/-- The interval from 0 to 1 in `n` cells. -/
noncomputable def unitX (n p : Nat) : Fin 1 → ℝ := (1 / n : ℝ) • lineX p

theorem unit_domain (n : Nat) (hn : 0 < n) : domain 2 n lineCells (unitX n) = {p : Fin 1 → ℝ | 0 ≤ p 0 ∧ p 0 ≤ 1} := by
  have hn' : (0 : ℝ) < n := by exact_mod_cast hn
  have := scale_domain (nn := 2) (n := n) (1 / n : ℝ) lineCells lineX
  refine this.trans ?_
  rw [line_domain n hn]
  ext p
  rw [Set.mem_smul_set_iff_inv_smul_mem₀ (by positivity)]
  simp only [Set.mem_ofPred_eq, Pi.smul_apply, smul_eq_mul, one_div, inv_inv]
  constructor
  · rintro ⟨h1, h2⟩; exact ⟨by nlinarith, by nlinarith⟩
  · rintro ⟨h1, h2⟩; exact ⟨by nlinarith, by nlinarith⟩

theorem len_one (x : Fin 1 → ℝ) : len x = |x 0| := by
  rw [len, Fin.sum_univ_one, Real.sqrt_sq_eq_abs]

theorem unit_shape (n : Nat) (hn : 0 < n) : MeshShape n lineCells (unitX n) (1 / n) (1 / n) where
  diam := fun c hc v hv w hw => by
    rw [len_one]
    have e : (unitX n (lineCells c v) - unitX n (lineCells c w)) 0 = 1 / n * ((v : ℝ) - w) := by
      simp [unitX, lineX, lineCells]; ring
    rw [e, abs_mul, abs_of_nonneg (by positivity)]
    refine mul_le_of_le_one_right (by positivity) ?_
    rcases (by omega : v = 0 ∨ v = 1) with rfl | rfl <;> rcases (by omega : w = 0 ∨ w = 1) with rfl | rfl <;> norm_num
  height := fun c hc v hv x hx => by
    have hset : {x : Fin 1 → ℝ | ∃ w < 1 + 1, w ≠ v ∧ x = unitX n (lineCells c w)} = {unitX n (lineCells c (1 - v))} := by
      ext y
      simp only [Set.mem_ofPred_eq, Set.mem_singleton_iff]
      constructor
      · rintro ⟨w, hw, hne, rfl⟩; rw [show w = 1 - v by omega]
      · rintro rfl; exact ⟨1 - v, by omega, by omega, rfl⟩
    rw [hset, AffineSubspace.mem_affineSpan_singleton] at hx
    rw [hx, len_one]
    have e : (unitX n (lineCells c v) - unitX n (lineCells c (1 - v))) 0 = 1 / n * ((v : ℝ) - ((1 - v : Nat) : ℝ)) := by
      simp [unitX, lineX, lineCells]; ring
    rw [e, abs_mul, abs_of_nonneg (by positivity)]
    rcases (by omega : v = 0 ∨ v = 1) with rfl | rfl <;> norm_num

theorem sq_pderiv (z : Fin 1) (x : Fin 1 → ℝ) : pderiv (fun x : Fin 1 → ℝ => x 0 ^ 2) z x = 2 * x 0 := by
  have h : HasFDerivAt (fun x : Fin 1 → ℝ => x 0 ^ 2) ((2 * x 0 ^ (2 - 1)) • ContinuousLinearMap.proj (R := ℝ) (φ := fun _ : Fin 1 => ℝ) 0) x := by
    have := (ContinuousLinearMap.proj (R := ℝ) (φ := fun _ : Fin 1 => ℝ) 0).hasFDerivAt (x := x)
    simpa using this.pow 2
  rw [pderiv, h.fderiv, Subsingleton.elim z 0]
  simp

theorem sq_laplacian (x : Fin 1 → ℝ) : laplacian (fun x : Fin 1 → ℝ => x 0 ^ 2) x = 2 := by
  rw [laplacian, Fin.sum_univ_one]
  have : pderiv (fun x : Fin 1 → ℝ => x 0 ^ 2) 0 = fun x => 2 * x 0 := funext (sq_pderiv 0)
  have h : HasFDerivAt (fun x : Fin 1 → ℝ => 2 * x 0) ((2 : ℝ) • ContinuousLinearMap.proj (R := ℝ) (φ := fun _ : Fin 1 => ℝ) 0) x :=
    ((ContinuousLinearMap.proj (R := ℝ) (φ := fun _ : Fin 1 => ℝ) 0).hasFDerivAt (x := x)).const_mul 2
  rw [this, pderiv, h.fderiv]
  simp

theorem sq_smooth (n : Nat) : SmoothOn n lineCells (unitX n) (fun x : Fin 1 → ℝ => x 0 ^ 2) 2 2 0 where
  smooth := ⟨Set.univ, isOpen_univ, Set.subset_univ _, ContDiff.contDiffOn (by fun_prop)⟩
  gradient := fun c _ x _ y _ => by
    simp only [len_one, sq_pderiv, Pi.sub_apply]
    rw [← mul_sub, abs_mul, abs_two]
  bound := fun x _ => by rw [sq_laplacian]; norm_num
  lipschitz := fun c _ x _ y _ => by rw [sq_laplacian, sq_laplacian]; simp

/-- -u'' = -2 on the interval from 0 to 1 in `n` cells, for every `n`: the errors are of the order of the size of the cells. -/
example : ∃ C : ℝ, ∀ n : Nat, 0 < n → ∃ (lu : Solver ℝ) (P : Prob ℝ) (w : Nat → ℝ) (W : Nat → Fin 1 → ℝ) (b : Nat → ℝ),
    problem1 1 (.neg .lap) lineCells n (n + 1) (unitX n) (fun p => p == 0 || p == n) = .ok P ∧
    (P.init ⟨n * size P.t, 1, fun _ _ => -2⟩ (fun _ => 0) >>= pdeSolveElliptic lu ⟨n + 1, 1, fun p _ => (p / n : ℝ) ^ 2⟩) = .ok (true, some w) ∧
      PiecewiseAffine n lineCells (unitX n) w W b ∧ gradError n lineCells (unitX n) (fun x => x 0 ^ 2) W ≤ C * (1 / n) ^ 2 ∧
      valueError n lineCells (unitX n) (fun x => x 0 ^ 2) W b ≤ C * (1 / n) ^ 2 := by
  obtain ⟨C, hC⟩ := C132_order_partial (N := 1) (by simp) (D := {p : Fin 1 → ℝ | 0 ≤ p 0 ∧ p 0 ≤ 1}) 0 (a := 0) (ℓ := 1)
    (fun x hx => by rw [sub_zero, abs_of_nonneg hx.1]; exact hx.2) (fun x => x 0 ^ 2) (M := 2) (B := 2) (L := 0) (κ := 1) (H := 1) (by norm_num) le_rfl
  refine ⟨C, fun n hn => ?_⟩
  have hn' : (1 : ℝ) ≤ n := by exact_mod_cast hn
  obtain ⟨lu, h1, h2⟩ := exists_exactLU (K := ℝ) (n + 1)
  obtain ⟨P, e, h⟩ := hC n (n + 1) lineCells (unitX n) (fun p => p == 0 || p == n) (1 / n) (1 / n) (scale_good (by positivity) (line_good n hn)) (line_marks n)
    (unit_domain n hn) (sq_smooth n) (unit_shape n hn) (by positivity) (by rw [one_mul]) (by rw [div_le_one (by positivity)]; exact hn') (by omega) (by simp) lu h1 h2
  obtain ⟨w, W, b, r1, r2, r3, r4⟩ := h ⟨n * size P.t, 1, fun _ _ => -2⟩ le_rfl rfl (fun c hc k hk => by rw [sq_laplacian])
    ⟨n + 1, 1, fun p _ => (p / n : ℝ) ^ 2⟩ le_rfl (by norm_num) (fun p hp _ => by simp [Dense.at', unitX, lineX]; ring) (fun _ => 0)
  exact ⟨lu, P, w, W, b, e, r1, r2, r3, r4⟩

end Fdapde.PDE
