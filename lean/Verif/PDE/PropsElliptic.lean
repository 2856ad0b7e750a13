import Verif.PDE.EllipticSpec
import Verif.PDE.LemmasElliptic
set_option linter.unusedSectionVars false
/-!
# C139: first order elements converge for problems with diffusion, transport and reaction
-/
namespace Fdapde.PDE
open Fdapde.Quadrature MeasureTheory Matrix Fdapde.Geometry Fdapde.FEM
variable {N : Nat}

/-! ### The exact solution -/

theorem flux_smooth {t : Table} (op : Op ℝ) {n nNodes : Nat} {cells : Nat → Nat → Nat} {X : Nat → Vec N} (bNodes : Nat → Bool)
    {A : Vec N → Fin N → Fin N → ℝ} {u : Vec N → ℝ} {M F B L : ℝ} (hM : 0 ≤ M) (hu : FluxOn n cells X A u M F B L) :
    (meshProb N 1 (N + 1) t op cells n X (enumDofs1 cells nNodes bNodes)).Smooth (natX X) u (fun x z => pderiv u z x) M := by
  obtain ⟨U, hU, hD, hC, -⟩ := hu.smooth
  refine C112_smooth hM (fun c hc x hx => ?_) fun c hc x hx y hy => ?_
  · rw [mesh_cell] at hx
    have hd : DifferentiableAt ℝ u x := (hC.contDiffAt (hU.mem_nhds (hD (region_domain hc hx)))).differentiableAt (by norm_num)
    exact (pderiv_hasFDerivAt hd).hasFDerivWithinAt
  · rw [mesh_cell] at hx hy
    have h1 := pow_le_pow_left₀ (len_nonneg _) (hu.gradient c hc x hx y hy) 2
    rw [mul_pow, len_sq, len_sq] at h1
    exact h1

theorem flux_poisson (hN : N ∈ [1, 2, 3]) {t : Table} (ht : standardRule N 1 = some t) (op : Op ℝ) {n nNodes : Nat} {cells : Nat → Nat → Nat} {X : Nat → Vec N}
    (h : GoodMesh (N + 1) n nNodes cells X) {bNodes : Nat → Bool} (hb : MarksBoundary (N + 1) n cells bNodes)
    {A : Vec N → Fin N → Fin N → ℝ} {u : Vec N → ℝ} {M F B L : ℝ} (hu : FluxOn n cells X A u M F B L) :
    (meshProb N 1 (N + 1) t op cells n X (enumDofs1 cells nNodes bNodes)).Poisson (natX X) (fun x z => flux A u z x) (fun x => -divFlux A u x) := by
  have hN0 : 0 < N := by
    simp only [List.mem_cons, List.not_mem_nil, or_false] at hN
    omega
  obtain ⟨U, hU, hD, -, hC⟩ := hu.smooth
  refine poisson_of_strong (mesh_onNodes hN ht op h.proper bNodes) (mesh_conforming hN0 op h hb) h.nodes
    (fun c x z => fderiv ℝ (flux A u z) x) (fun c hc x hx z => ?_) (fun c hc z => ?_) fun c hc x hx => rfl
  · rw [mesh_cell] at hx
    exact (((hC z).contDiffAt (hU.mem_nhds (hD (region_domain hc hx)))).differentiableAt (by norm_num)).hasFDerivAt.hasFDerivWithinAt
  · rw [mesh_cell]
    exact ((hC z).continuousOn_fderiv_of_isOpen hU (by norm_num)).mono ((region_domain hc).trans hD)

theorem flux_regular {t : Table} (op : Op ℝ) {n nNodes : Nat} {cells : Nat → Nat → Nat} {X : Nat → Vec N} (bNodes : Nat → Bool)
    {A : Vec N → Fin N → Fin N → ℝ} {u : Vec N → ℝ} {M F B L : ℝ} (hu : FluxOn n cells X A u M F B L) :
    (meshProb N 1 (N + 1) t op cells n X (enumDofs1 cells nNodes bNodes)).Regular (natX X) (fun x => -divFlux A u x) B L := by
  refine ⟨fun c hc x hx => ?_, fun c hc x hx y hy => ?_⟩
  · rw [mesh_cell] at hx
    rw [abs_neg]
    exact hu.bound x (region_domain hc hx)
  · rw [mesh_cell] at hx hy
    rw [← neg_sub', abs_neg]
    exact hu.lipschitz c hc x hx y hy

theorem mesh_point {t : Table} (op : Op ℝ) {n nNodes : Nat} {cells : Nat → Nat → Nat} {X : Nat → Vec N} (bNodes : Nat → Bool) (c k : Nat) :
    (meshProb N 1 (N + 1) t op cells n X (enumDofs1 cells nNodes bNodes)).point (natX X) c k = meshPoint cells X c fun w => node ℝ t k w := by
  funext z
  exact meshPoint_eq cells X c (node ℝ t k) z

/-! ### The theorems -/

/-- The constant of the error: quadrature of the forcing, variation of A∇u on the cells, and interpolation. -/
noncomputable def ellipticConst (N : Nat) (hh ρ ℓ Λ bm cm M F B L : ℝ) : ℝ :=
  hh * (2 * ℓ * L + B) + F * hh + Λ * ((N + 1) * M * hh ^ 2 / (2 * ρ)) +
    (bm * ((N + 1) * M * hh ^ 2 / (2 * ρ)) + cm * (M / 2 * hh ^ 2)) * (2 * ℓ + hh)

set_option maxHeartbeats 1000000 in
/-- **C139**: let a smooth function `u` be given on the domain of a mesh of full dimension whose boundary nodes are marked, with coefficients of
diffusion, transport and reaction that depend on the point, the diffusion dominating the other terms.  Given the values of the coefficients and of
-div(A∇u) + β·∇u + r u at the quadrature nodes, and of `u` at the boundary nodes, first order elements return a function that differs from `u` by a
multiple of the size of the cells, in the gradient and in the values.  Partial as `C131_solve_first_partial` (dof 0 on the boundary, see
`C62_bug_dof_zero`; exact factorization). -/
theorem C139_elliptic_partial (hN : N ∈ [1, 2, 3]) {n nNodes : Nat} {cells : Nat → Nat → Nat} {X : Nat → Fin N → ℝ} (bNodes : Nat → Bool)
    (h : GoodMesh (N + 1) n nNodes cells X) (hb : MarksBoundary (N + 1) n cells bNodes) {hh ρ : ℝ} (hs : MeshShape n cells X hh ρ) (hρ : 0 < ρ)
    {A : (Fin N → ℝ) → Fin N → Fin N → ℝ} {β : (Fin N → ℝ) → Fin N → ℝ} {r u : (Fin N → ℝ) → ℝ} {α Λ bm γ cm M F B L : ℝ}
    (hco : Bounded (domain (N + 1) n cells X) A β r α Λ bm γ cm) (hu : FluxOn n cells X A u M F B L) (hM : 0 ≤ M) (hF : 0 ≤ F) (hL : 0 ≤ L)
    (hΛ : 0 ≤ Λ) (hγ : 0 ≤ γ) (z : Fin N) {a ℓ : ℝ} (hl : ∀ x ∈ domain (N + 1) n cells X, |x z - a| ≤ ℓ)
    (hα : 0 < α - bm * (2 * ℓ + hh) - γ * (2 * ℓ + hh) ^ 2)
    {op : Op ℝ} {Dr : Nat → Nat → Nat → ℝ} {br : Nat → Nat → ℝ} {cr : Nat → ℝ} (hop : StandsFor N op Dr br cr) (hsy : FlagRight N op) (hns : NoScalar op)
    (lu : Solver ℝ) (hlu : ExactLU nNodes lu) (hlc : CompleteLU nNodes lu) (hm : 0 < nNodes) (h0 : bNodes 0 = true) :
    ∃ P, problem1 N op cells n nNodes X bNodes = .ok P ∧ (Sampled n cells X P.t A β r Dr br cr →
      ∀ (data : Dense ℝ), n * size P.t ≤ data.rows → data.cols = 1 →
      (∀ c < n, ∀ k < size P.t, data.at' (size P.t * c + k) 0 = ellipticForcing A β r u (meshPoint cells X c fun w => node ℝ P.t k w)) →
      ∀ g : Dense ℝ, nNodes ≤ g.rows → 0 < g.cols → (∀ p < nNodes, bNodes p = true → g.at' p 0 = u (X p)) →
      ∀ junk, ∃ w W b, (P.init data junk >>= pdeSolveElliptic lu g) = .ok (true, some w) ∧ PiecewiseAffine n cells X w W b ∧
        gradError n cells X u W ≤ 2 * (((N + 1) * M * hh ^ 2 / (2 * ρ)) ^ 2 +
          (ellipticConst N hh ρ ℓ Λ bm cm M F B L / (α - bm * (2 * ℓ + hh) - γ * (2 * ℓ + hh) ^ 2)) ^ 2) * (volume (domain (N + 1) n cells X)).toReal ∧
        valueError n cells X u W b ≤ (2 * (M / 2 * hh ^ 2) ^ 2 + 16 * ℓ ^ 2 * (3 * ((N + 1) * M * hh ^ 2 / (2 * ρ)) ^ 2 +
          2 * (ellipticConst N hh ρ ℓ Λ bm cm M F B L / (α - bm * (2 * ℓ + hh) - γ * (2 * ℓ + hh) ^ 2)) ^ 2)) *
            (volume (domain (N + 1) n cells X)).toReal) := by
  have hd : Dims N N := by
    simp only [Dims, List.mem_cons, Prod.mk.injEq, List.not_mem_nil, or_false] at hN ⊢
    omega
  have hN0 : 0 < N := by
    simp only [List.mem_cons, List.not_mem_nil, or_false] at hN
    omega
  obtain ⟨t, ht⟩ := rule1 hN
  refine ⟨meshProb N 1 (N + 1) t op cells n X (enumDofs1 cells nNodes bNodes), by rw [problem1, ht]; rfl, fun hsa data hr hc hf g hg hgc hgb junk => ?_⟩
  change Sampled n cells X t A β r Dr br cr at hsa
  have hO := mesh_onNodes (nNodes := nNodes) hN ht op h.proper bNodes
  have hcf := mesh_conforming (t := t) hN0 op h hb
  have hsm := flux_smooth (t := t) (nNodes := nNodes) op bNodes hM hu
  have hpo := flux_poisson hN ht op h hb hu
  have hre := flux_regular (t := t) (nNodes := nNodes) op bNodes hu
  have hsh := exact_shape (t := t) (nNodes := nNodes) op bNodes hρ hs
  have hpt := mesh_point (t := t) (n := n) (nNodes := nNodes) (cells := cells) (X := X) op bNodes
  have hce := mesh_cell (t := t) (n := n) (nNodes := nNodes) (cells := cells) (X := X) op bNodes
  have hPo : (meshProb N 1 (N + 1) t op cells n X (enumDofs1 cells nNodes bNodes)).Ok := ⟨h.nodes, hsy, hns⟩
  obtain ⟨c0, hc0, v0, hv0, -⟩ := h.used 0 hm
  have hx0 : X (cells c0 v0) ∈ domain (N + 1) n cells X := region_domain hc0 (subset_convexHull ℝ _ ⟨v0, hv0, rfl⟩)
  have hh0 : 0 ≤ hh := (len_nonneg _).trans (hs.diam c0 hc0 v0 hv0 v0 hv0)
  have hB : 0 ≤ B := (abs_nonneg _).trans (hu.bound _ hx0)
  have hl0 : 0 ≤ ℓ := (abs_nonneg _).trans (hl _ hx0)
  have hbm : 0 ≤ bm := (len_nonneg _).trans (hco.transport _ hx0)
  have hcm : 0 ≤ cm := (abs_nonneg _).trans (hco.reaction _ hx0).2
  have hvol : ∑ c ∈ Finset.range n, (volume ((meshProb N 1 (N + 1) t op cells n X (enumDofs1 cells nNodes bNodes)).cell (natX X) c)).toReal =
      (volume (domain (N + 1) n cells X)).toReal := by
    rw [← domain_volume h]
    exact Finset.sum_congr rfl fun c _ => congrArg (fun s : Set (Fin N → ℝ) => (volume s).toReal) (hce c)
  have hms : ∑ c ∈ Finset.range n, (meshProb N 1 (N + 1) t op cells n X (enumDofs1 cells nNodes bNodes)).measure c =
      (volume (domain (N + 1) n cells X)).toReal := by
    rw [← hvol]
    exact Finset.sum_congr rfl fun c hc => (cell_measure hO (Finset.mem_range.1 hc)).symm
  have hFr := friedrichs hO hcf h.nodes z (a := a) (ℓ := ℓ) fun c hc x hx => hl x (region_domain hc (by rw [hce] at hx; exact hx))
  have hC0 : 0 ≤ 2 * ℓ := mul_nonneg two_pos.le hl0
  have hpd : ∀ c < n, ∀ k < size t, (meshPoint cells X c fun w => node ℝ t k w) ∈ region (N + 1) cells X c := fun c hc k hk => by
    have := node_mem hO c hk
    rw [hce] at this
    rw [← hpt c k]
    exact this
  have hpD : ∀ c < n, ∀ k < size t, (meshPoint cells X c fun w => node ℝ t k w) ∈ domain (N + 1) n cells X := fun c hc k hk => region_domain hc (hpd c hc k hk)
  have hform : (meshProb N 1 (N + 1) t op cells n X (enumDofs1 cells nNodes bNodes)).Form
      (fun c k z y => A (meshPoint cells X c fun w => node ℝ t k w) z y) (fun c k z => β (meshPoint cells X c fun w => node ℝ t k w) z)
      (fun c k => r (meshPoint cells X c fun w => node ℝ t k w)) := by
    intro c hc k hk u v gu gv
    refine (hop (size t * c + k) u v gu gv).trans ?_
    rw [hsa.reaction c hc k hk]
    simp only [dot]
    rw [Finset.sum_range, Finset.sum_range]
    simp only [Finset.sum_range, hsa.diffusion c hc k hk, hsa.transport c hc k hk]
    rfl
  have hdef := form_definite hO hform hsh hh0 hC0 hFr hbm hγ (fun c hc k hk => hco.elliptic _ (hpD c hc k hk)) (fun c hc k hk => hco.transport _ (hpD c hc k hk))
    (fun c hc k hk => (hco.reaction _ (hpD c hc k hk)).1) hα h.used
  obtain ⟨w, s1, s2, -⟩ := C103_definite_partial (meshProb N 1 (N + 1) t op cells n X (enumDofs1 cells nNodes bNodes)) hPo hdef lu hlu hlc data hr hc g hg hgc hm h0 junk
  obtain ⟨W, b, hW⟩ := affine_exists hO w
  have hgb' : ∀ p < nNodes, bNodes p = true → g.at' p 0 = u fun z : Fin N => natX X p z := fun p hp hb => by rw [natX_fin]; exact hgb p hp hb
  have hcs := C112_consistent hO hsh hh0 hre hL hB hC0 hFr hpo (fun c k => -divFlux A u (meshPoint cells X c fun w => node ℝ t k w)) fun c hc k hk => by
    rw [← hpt c k]; rfl
  have hgr := form_error hO hPo hform hsh hh0 hρ hC0 hFr hsm hM (φ := fun x z => flux A u z x) (Λ := Λ) (bm := bm) (cm := cm) (Lq := F * hh) (fun c hc => by
      rw [hce]
      obtain ⟨U, hU, hD, -, hC⟩ := hu.smooth
      exact continuousOn_pi.2 fun z => (hC z).continuousOn.mono ((region_domain hc).trans hD)) hΛ hbm hcm hγ
    (fun c hc k hk => hco.elliptic _ (hpD c hc k hk)) (fun c hc k hk => hco.diffusion _ (hpD c hc k hk)) (fun c hc k hk => hco.transport _ (hpD c hc k hk))
    (fun c hc k hk => (hco.reaction _ (hpD c hc k hk)).1) (fun c hc k hk => (hco.reaction _ (hpD c hc k hk)).2) hα
    (fun c hc k hk x hx => by
      have hxr : x ∈ region (N + 1) cells X c := by rw [← hce]; exact hx
      have h1 := hu.flux c hc _ (hpd c hc k hk) x hxr
      have h2 : len ((show Fin N → ℝ from x) - meshPoint cells X c fun w => node ℝ t k w) ≤ hh := by
        have := cell_diam hO hsh hc (node_mem hO c hk) hx
        rw [← Real.sqrt_sq hh0]
        refine Real.sqrt_le_sqrt (le_trans (le_of_eq ?_) this)
        refine Finset.sum_congr rfl fun z _ => ?_
        rw [← hpt c k]
        rfl
      refine le_trans (le_of_eq ?_) (h1.trans (mul_le_mul_of_nonneg_left h2 hF))
      rw [← hpt c k]
      rfl)
    _ (fun c k => data.at' (size t * c + k) 0) hcs (fun c hc k hk => by
      rw [show data.at' (size t * c + k) 0 = _ from hf c hc k hk, hpt c k]
      rfl)
    (fun p => g.at' p 0) w hgb' s2 hW
  have hva := value_error hO hsh hρ hsm hM (fun c hc => by
    rw [hce]
    obtain ⟨U, hU, hD, hC, -⟩ := hu.smooth
    exact hC.continuousOn.mono ((region_domain hc).trans hD)) hFr hW (fun p hp hb => (s2.1 p hp hb).trans (hgb' p hp hb))
  have hge := mesh_gradError (t := t) (n := n) (nNodes := nNodes) (cells := cells) (X := X) op bNodes u W
  have hve := mesh_valueError (t := t) (n := n) (nNodes := nNodes) (cells := cells) (X := X) op bNodes u W b
  set V := (volume (domain (N + 1) n cells X)).toReal with hV
  have hV0 : 0 ≤ V := ENNReal.toReal_nonneg
  set α0 := α - bm * (2 * ℓ + hh) - γ * (2 * ℓ + hh) ^ 2 with hα0
  have hg1 : gradError n cells X u W ≤ 2 * (((N + 1) * M * hh ^ 2 / (2 * ρ)) ^ 2 + (ellipticConst N hh ρ ℓ Λ bm cm M F B L / α0) ^ 2) * V := by
    refine (le_of_eq hge).trans (hgr.trans (le_of_eq ?_))
    rw [show (∑ c ∈ Finset.range (meshProb N 1 (N + 1) t op cells n X (enumDofs1 cells nNodes bNodes)).n,
        (volume ((meshProb N 1 (N + 1) t op cells n X (enumDofs1 cells nNodes bNodes)).cell (natX X) c)).toReal) = _ from hvol,
      show (∑ c ∈ Finset.range (meshProb N 1 (N + 1) t op cells n X (enumDofs1 cells nNodes bNodes)).n,
        (meshProb N 1 (N + 1) t op cells n X (enumDofs1 cells nNodes bNodes)).measure c) = _ from hms]
    show 2 * (((N + 1) * M * hh ^ 2 / (2 * ρ)) ^ 2 * V) + 2 * ((hh * (L * (2 * ℓ) + B) * Real.sqrt V + (F * hh + Λ * ((N + 1) * M * hh ^ 2 / (2 * ρ)) +
      (bm * ((N + 1) * M * hh ^ 2 / (2 * ρ)) + cm * (M / 2 * hh ^ 2)) * (2 * ℓ + hh)) * Real.sqrt V) / α0) ^ 2 = _
    have e : (hh * (L * (2 * ℓ) + B) * Real.sqrt V + (F * hh + Λ * ((N + 1) * M * hh ^ 2 / (2 * ρ)) +
      (bm * ((N + 1) * M * hh ^ 2 / (2 * ρ)) + cm * (M / 2 * hh ^ 2)) * (2 * ℓ + hh)) * Real.sqrt V) / α0 =
        ellipticConst N hh ρ ℓ Λ bm cm M F B L / α0 * Real.sqrt V := by
      rw [ellipticConst]; ring
    rw [e, mul_pow, Real.sq_sqrt hV0]
    ring
  refine ⟨w, W, b, s1, fun c hc v hv => ?_, hg1, ?_⟩
  · refine (hW c hc v hv).trans ?_
    congr 1
    exact Finset.sum_congr rfl fun z _ => by rw [← natX_fin X]; rfl
  · refine (le_of_eq hve).trans (hva.trans ?_)
    rw [← hge, show (∑ c ∈ Finset.range (meshProb N 1 (N + 1) t op cells n X (enumDofs1 cells nNodes bNodes)).n, _) = _ from hms]
    show 2 * ((M / 2 * hh ^ 2) ^ 2 * V) + 4 * (2 * ℓ) ^ 2 * (gradError n cells X u W + ((N + 1) * M * hh ^ 2 / (2 * ρ)) ^ 2 * V) ≤ _
    have := mul_le_mul_of_nonneg_left hg1 (by positivity : 0 ≤ 4 * (2 * ℓ) ^ 2)
    linarith

/-- **C139**, order of convergence: on a domain `D`, for cells whose size is at most `H` and at most `κ` times their heights, one constant bounds the
squares of the errors by the square of the size of the cells, for every mesh of `D`.  Partial as `C139_elliptic_partial`. -/
theorem C139_order_partial (hN : N ∈ [1, 2, 3]) {S : Set (Fin N → ℝ)} (z : Fin N) {a ℓ : ℝ} (hl : ∀ x ∈ S, |x z - a| ≤ ℓ)
    {A : (Fin N → ℝ) → Fin N → Fin N → ℝ} {β : (Fin N → ℝ) → Fin N → ℝ} {r : (Fin N → ℝ) → ℝ} {α Λ bm γ cm : ℝ} (hco : Bounded S A β r α Λ bm γ cm)
    (hΛ : 0 ≤ Λ) (hγ : 0 ≤ γ) (u : (Fin N → ℝ) → ℝ) {M F B L κ H : ℝ} (hM : 0 ≤ M) (hF : 0 ≤ F) (hL : 0 ≤ L)
    (hα : 0 < α - bm * (2 * ℓ + H) - γ * (2 * ℓ + H) ^ 2) :
    ∃ C : ℝ, ∀ (n nNodes : Nat) (cells : Nat → Nat → Nat) (X : Nat → Fin N → ℝ) (bNodes : Nat → Bool) (hh ρ : ℝ),
      GoodMesh (N + 1) n nNodes cells X → MarksBoundary (N + 1) n cells bNodes → domain (N + 1) n cells X = S →
      FluxOn n cells X A u M F B L → MeshShape n cells X hh ρ → 0 < ρ → hh ≤ κ * ρ → hh ≤ H → 0 < nNodes → bNodes 0 = true →
      ∀ (op : Op ℝ) (Dr : Nat → Nat → Nat → ℝ) (br : Nat → Nat → ℝ) (cr : Nat → ℝ), StandsFor N op Dr br cr → FlagRight N op → NoScalar op →
      ∀ lu : Solver ℝ, ExactLU nNodes lu → CompleteLU nNodes lu →
      ∃ P, problem1 N op cells n nNodes X bNodes = .ok P ∧ (Sampled n cells X P.t A β r Dr br cr →
        ∀ (data : Dense ℝ), n * size P.t ≤ data.rows → data.cols = 1 →
        (∀ c < n, ∀ k < size P.t, data.at' (size P.t * c + k) 0 = ellipticForcing A β r u (meshPoint cells X c fun w => node ℝ P.t k w)) →
        ∀ g : Dense ℝ, nNodes ≤ g.rows → 0 < g.cols → (∀ p < nNodes, bNodes p = true → g.at' p 0 = u (X p)) →
        ∀ junk, ∃ w W b, (P.init data junk >>= pdeSolveElliptic lu g) = .ok (true, some w) ∧ PiecewiseAffine n cells X w W b ∧
          gradError n cells X u W ≤ C * hh ^ 2 ∧ valueError n cells X u W b ≤ C * hh ^ 2) := by
  set V := (volume S).toReal with hV
  have hV0 : 0 ≤ V := ENNReal.toReal_nonneg
  set α0 := α - bm * (2 * ℓ + H) - γ * (2 * ℓ + H) ^ 2 with hα0
  set a1 := (N + 1) * M * κ / 2 with ha1
  set K := 2 * ℓ * L + B + F + Λ * a1 + (bm * a1 + cm * (M / 2 * H)) * (2 * ℓ + H) with hK
  refine ⟨2 * (a1 ^ 2 + (K / α0) ^ 2) * V + (2 * (M / 2) ^ 2 * H ^ 2 + 16 * ℓ ^ 2 * (3 * a1 ^ 2 + 2 * (K / α0) ^ 2)) * V, ?_⟩
  intro n nNodes cells X bNodes hh ρ h hb hD hu hs hρ hκ hH hm h0 op Dr br cr hop hsy hns lu hlu hlc
  obtain ⟨c0, hc0, v0, hv0, -⟩ := h.used 0 hm
  have hx0 : X (cells c0 v0) ∈ domain (N + 1) n cells X := region_domain hc0 (subset_convexHull ℝ _ ⟨v0, hv0, rfl⟩)
  have hxS := hD ▸ hx0
  have hh0 : 0 ≤ hh := (len_nonneg _).trans (hs.diam c0 hc0 v0 hv0 v0 hv0)
  have hB : 0 ≤ B := (abs_nonneg _).trans (hu.bound _ hx0)
  have hl0 : 0 ≤ ℓ := (abs_nonneg _).trans (hl _ hxS)
  have hbm : 0 ≤ bm := (len_nonneg _).trans (hco.transport _ hxS)
  have hcm : 0 ≤ cm := (abs_nonneg _).trans (hco.reaction _ hxS).2
  have hle : 2 * ℓ + hh ≤ 2 * ℓ + H := by linarith
  have hp0 : 0 ≤ 2 * ℓ + hh := by linarith
  have hαle : α0 ≤ α - bm * (2 * ℓ + hh) - γ * (2 * ℓ + hh) ^ 2 := by
    have i1 := mul_le_mul_of_nonneg_left hle hbm
    have i2 := mul_le_mul_of_nonneg_left (pow_le_pow_left₀ hp0 hle 2) hγ
    linarith
  set α1 := α - bm * (2 * ℓ + hh) - γ * (2 * ℓ + hh) ^ 2 with hα1
  obtain ⟨P, e, hP⟩ := C139_elliptic_partial hN bNodes h hb hs hρ (hD ▸ hco) hu hM hF hL hΛ hγ z (hD ▸ hl) (hα.trans_le hαle) hop hsy hns lu hlu hlc hm h0
  refine ⟨P, e, fun hsa data hr hc hf g hg hgc hgb junk => ?_⟩
  obtain ⟨w, W, b, r1, r2, r3, r4⟩ := hP hsa data hr hc hf g hg hgc hgb junk
  set I := (N + 1) * M * hh ^ 2 / (2 * ρ) with hI
  have hI0 : 0 ≤ I := by positivity
  have b1 : I ≤ a1 * hh := by
    rw [hI, div_le_iff₀ (by positivity)]
    have : (N + 1) * M * hh * hh ≤ (N + 1) * M * hh * (κ * ρ) := mul_le_mul_of_nonneg_left hκ (by positivity)
    calc _ = (N + 1) * M * hh * hh := by ring
      _ ≤ _ := this
      _ = _ := by rw [ha1]; ring
  have b2 : ellipticConst N hh ρ ℓ Λ bm cm M F B L ≤ K * hh := by
    rw [ellipticConst, ← hI]
    have j1 : cm * (M / 2 * hh ^ 2) ≤ cm * (M / 2 * H) * hh := by
      have := mul_le_mul_of_nonneg_left hH (show 0 ≤ cm * (M / 2) * hh by positivity)
      calc _ = cm * (M / 2) * hh * hh := by ring
        _ ≤ _ := this
        _ = _ := by ring
    have j2 : bm * I ≤ bm * a1 * hh := by
      have := mul_le_mul_of_nonneg_left b1 hbm
      linarith
    have j3 : Λ * I ≤ Λ * a1 * hh := by
      have := mul_le_mul_of_nonneg_left b1 hΛ
      linarith
    have j4 : (bm * I + cm * (M / 2 * hh ^ 2)) * (2 * ℓ + hh) ≤ (bm * a1 * hh + cm * (M / 2 * H) * hh) * (2 * ℓ + H) :=
      mul_le_mul (add_le_add j2 j1) hle hp0 (add_nonneg ((mul_nonneg hbm hI0).trans j2) ((by positivity : (0:ℝ) ≤ cm * (M / 2 * hh ^ 2)).trans j1))
    calc _ ≤ hh * (2 * ℓ * L + B) + F * hh + Λ * a1 * hh + (bm * a1 * hh + cm * (M / 2 * H) * hh) * (2 * ℓ + H) :=
          add_le_add (add_le_add le_rfl j3) j4
      _ = _ := by rw [hK]; ring
  have c0' : 0 ≤ ellipticConst N hh ρ ℓ Λ bm cm M F B L := by
    rw [ellipticConst, ← hI]; positivity
  have b3 : (ellipticConst N hh ρ ℓ Λ bm cm M F B L / α1) ^ 2 ≤ (K / α0) ^ 2 * hh ^ 2 := by
    rw [← mul_pow]
    refine pow_le_pow_left₀ (div_nonneg c0' (hα.trans_le hαle).le) ?_ 2
    calc _ ≤ ellipticConst N hh ρ ℓ Λ bm cm M F B L / α0 := div_le_div_of_nonneg_left c0' hα hαle
      _ ≤ K * hh / α0 := div_le_div_of_nonneg_right b2 hα.le
      _ = _ := by ring
  have b4 : I ^ 2 ≤ a1 ^ 2 * hh ^ 2 := by
    rw [← mul_pow]
    exact pow_le_pow_left₀ hI0 b1 2
  have b5 : (M / 2 * hh ^ 2) ^ 2 ≤ (M / 2) ^ 2 * H ^ 2 * hh ^ 2 := by
    have : hh ^ 2 ≤ H ^ 2 := pow_le_pow_left₀ hh0 hH 2
    have := mul_le_mul_of_nonneg_right (mul_le_mul_of_nonneg_left this (sq_nonneg (M / 2))) (sq_nonneg hh)
    calc _ = (M / 2) ^ 2 * hh ^ 2 * hh ^ 2 := by ring
      _ ≤ _ := this
  rw [hD] at r3 r4
  refine ⟨w, W, b, r1, r2, r3.trans ?_, r4.trans ?_⟩
  · calc _ ≤ 2 * (a1 ^ 2 * hh ^ 2 + (K / α0) ^ 2 * hh ^ 2) * V := mul_le_mul_of_nonneg_right (by linarith) hV0
      _ = 2 * (a1 ^ 2 + (K / α0) ^ 2) * V * hh ^ 2 := by ring
      _ ≤ _ := mul_le_mul_of_nonneg_right (le_add_of_nonneg_right (by positivity)) (sq_nonneg _)
  · have hl2 : 0 ≤ 16 * ℓ ^ 2 := by positivity
    calc _ ≤ (2 * ((M / 2) ^ 2 * H ^ 2 * hh ^ 2) + 16 * ℓ ^ 2 * (3 * (a1 ^ 2 * hh ^ 2) + 2 * ((K / α0) ^ 2 * hh ^ 2))) * V := by
          refine mul_le_mul_of_nonneg_right (add_le_add (by linarith) (mul_le_mul_of_nonneg_left (by linarith) hl2)) hV0
      _ = (2 * (M / 2) ^ 2 * H ^ 2 + 16 * ℓ ^ 2 * (3 * a1 ^ 2 + 2 * (K / α0) ^ 2)) * V * hh ^ 2 := by ring
      _ ≤ _ := mul_le_mul_of_nonneg_right (le_add_of_nonneg_left (by positivity)) (sq_nonneg _)

/-- **C139**, operators: sums of a diffusion with minus sign, a transport and a reaction, and those without some of the terms. -/
theorem C139_operators (N : Nat) (D : Nat → Nat → Nat → ℝ) (b : Nat → Nat → ℝ) (c : Nat → ℝ) :
    StandsFor N (.add (.add (.neg (.diff D)) (.adv b)) (.react c)) D b c ∧ StandsFor N (.add (.neg (.diff D)) (.react c)) D (fun _ _ => 0) c ∧
      StandsFor N (.add (.neg (.diff D)) (.adv b)) D b (fun _ => 0) ∧ StandsFor N (.neg (.diff D)) D (fun _ _ => 0) (fun _ => 0) ∧
      StandsFor N (.add (.add (.neg .lap) (.adv b)) (.react c)) (fun _ z y => if z = y then 1 else 0) b c := by
  refine ⟨fun row u v gu gv => ?_, fun row u v gu gv => ?_, fun row u v gu gv => ?_, fun row u v gu gv => ?_, fun row u v gu gv => ?_⟩
  · simp only [form]; ring
  · simp only [form, dot, zero_mul, Finset.sum_const_zero]; ring
  · simp only [form]; ring
  · simp only [form, dot, zero_mul, Finset.sum_const_zero]; ring
  · have e : dot N gu gv = dot N (fun z => dot N (fun y => if z = y then 1 else 0) gu) gv :=
      Finset.sum_congr rfl fun z hz => by
        simp only [dot, ite_mul, one_mul, zero_mul]
        rw [Finset.sum_ite_eq, if_pos hz]
    simp only [form]
    rw [← e]
    ring

/-! ### The hypotheses are met -/

/-- Diffusion 1 + x on the interval from 0 to 1. -/
noncomputable def rodA (x : Fin 1 → ℝ) (_ _ : Fin 1) : ℝ := 1 + x 0

theorem rod_flux (z : Fin 1) (x : Fin 1 → ℝ) : flux rodA (fun x => x 0 ^ 2) z x = 2 * x 0 + 2 * x 0 ^ 2 := by
  simp only [flux, Fin.sum_univ_one, rodA, sq_pderiv]; ring

theorem rod_div (x : Fin 1 → ℝ) : divFlux rodA (fun x => x 0 ^ 2) x = 2 + 4 * x 0 := by
  rw [divFlux, Fin.sum_univ_one]
  have h0 := (ContinuousLinearMap.proj (R := ℝ) (φ := fun _ : Fin 1 => ℝ) 0).hasFDerivAt (x := x)
  have h : HasFDerivAt (fun x : Fin 1 → ℝ => 2 * x 0 + 2 * x 0 ^ 2) ((2 : ℝ) • ContinuousLinearMap.proj (R := ℝ) (φ := fun _ : Fin 1 => ℝ) 0 +
      (2 : ℝ) • ((2 * x 0 ^ (2 - 1)) • ContinuousLinearMap.proj (R := ℝ) (φ := fun _ : Fin 1 => ℝ) 0)) x := by
    have h2 : HasFDerivAt (fun x : Fin 1 → ℝ => x 0 ^ 2) ((2 * x 0 ^ (2 - 1)) • ContinuousLinearMap.proj (R := ℝ) (φ := fun _ : Fin 1 => ℝ) 0) x := by
      simpa using h0.pow 2
    exact (h0.const_mul 2).add (h2.const_mul 2)
  rw [show flux rodA (fun x => x 0 ^ 2) 0 = fun x => 2 * x 0 + 2 * x 0 ^ 2 from funext (rod_flux 0), pderiv, h.fderiv]
  simp
  ring

theorem rod_bounded : Bounded {p : Fin 1 → ℝ | 0 ≤ p 0 ∧ p 0 ≤ 1} rodA (fun _ _ => 1 / 8) (fun _ => 1) 1 2 (1 / 8) 0 1 where
  elliptic := fun x hx ξ => by
    rw [len_sq]
    simp only [Fin.sum_univ_one, rodA]
    nlinarith [mul_nonneg hx.1 (sq_nonneg (ξ 0))]
  diffusion := fun x hx ξ => by
    simp only [len_one, Fin.sum_univ_one, rodA]
    rw [abs_mul, abs_of_nonneg (by linarith [hx.1])]
    exact mul_le_mul_of_nonneg_right (by linarith [hx.2]) (abs_nonneg _)
  transport := fun x _ => by rw [len_one]; norm_num
  reaction := fun x _ => by norm_num

theorem rod_smooth (n : Nat) (hn : 0 < n) : FluxOn n lineCells (unitX n) rodA (fun x : Fin 1 → ℝ => x 0 ^ 2) 2 6 6 4 where
  smooth := ⟨Set.univ, isOpen_univ, Set.subset_univ _, ContDiff.contDiffOn (by fun_prop), fun z => by
    rw [show flux rodA (fun x => x 0 ^ 2) z = fun x => 2 * x 0 + 2 * x 0 ^ 2 from funext (rod_flux z)]
    exact ContDiff.contDiffOn (by fun_prop)⟩
  gradient := (sq_smooth n).gradient
  flux := fun c hc x hx y hy => by
    have hx' := region_domain hc hx
    have hy' := region_domain hc hy
    rw [unit_domain n hn] at hx' hy'
    simp only [len_one, rod_flux, Pi.sub_apply]
    rw [show 2 * y 0 + 2 * y 0 ^ 2 - (2 * x 0 + 2 * x 0 ^ 2) = (2 + 2 * (y 0 + x 0)) * (y 0 - x 0) by ring, abs_mul,
      abs_of_nonneg (by linarith [hx'.1, hy'.1])]
    exact mul_le_mul_of_nonneg_right (by linarith [hx'.2, hy'.2]) (abs_nonneg _)
  bound := fun x hx => by
    rw [unit_domain n hn] at hx
    rw [rod_div, abs_of_nonneg (by linarith [hx.1])]
    linarith [hx.2]
  lipschitz := fun c _ x _ y _ => by
    rw [rod_div, rod_div, len_one, Pi.sub_apply, show 2 + 4 * y 0 - (2 + 4 * x 0) = 4 * (y 0 - x 0) by ring, abs_mul]
    norm_num

/-- Rows of the diffusion: values at the two quadrature nodes of each cell. -/
noncomputable def rodRows (n row _z _y : Nat) : ℝ := rodA (meshPoint lineCells (unitX n) (row / 2) fun w => node ℝ rule1_2 (row % 2) w) 0 0

/-- -((1 + x) u')' + u' / 8 + u = -(2 + 4x) + x / 4 + x² on the interval from 0 to 1 in `n` cells, for every `n`: the errors are of the order of the
size of the cells. -/
example : ∃ C : ℝ, ∀ n : Nat, 0 < n → ∃ (lu : Solver ℝ) (P : Prob ℝ) (f : Nat → ℝ) (w : Nat → ℝ) (W : Nat → Fin 1 → ℝ) (b : Nat → ℝ),
    problem1 1 (.add (.add (.neg (.diff (rodRows n))) (.adv fun _ _ => 1 / 8)) (.react fun _ => 1)) lineCells n (n + 1) (unitX n)
      (fun p => p == 0 || p == n) = .ok P ∧
    (P.init ⟨n * size P.t, 1, fun r _ => f r⟩ (fun _ => 0) >>= pdeSolveElliptic lu ⟨n + 1, 1, fun p _ => (p / n : ℝ) ^ 2⟩) = .ok (true, some w) ∧
      PiecewiseAffine n lineCells (unitX n) w W b ∧ gradError n lineCells (unitX n) (fun x => x 0 ^ 2) W ≤ C * (1 / n) ^ 2 ∧
      valueError n lineCells (unitX n) (fun x => x 0 ^ 2) W b ≤ C * (1 / n) ^ 2 := by
  obtain ⟨C, hC⟩ := C139_order_partial (N := 1) (by simp) (S := {p : Fin 1 → ℝ | 0 ≤ p 0 ∧ p 0 ≤ 1}) 0 (a := 1 / 2) (ℓ := 1 / 2)
    (fun x hx => by rw [abs_le]; constructor <;> linarith [hx.1, hx.2]) rod_bounded (by norm_num) le_rfl (fun x => x 0 ^ 2)
    (M := 2) (F := 6) (B := 6) (L := 4) (κ := 1) (H := 1) (by norm_num) (by norm_num) (by norm_num) (by norm_num)
  refine ⟨C, fun n hn => ?_⟩
  have hn' : (1 : ℝ) ≤ n := by exact_mod_cast hn
  obtain ⟨lu, h1, h2⟩ := exists_exactLU (K := ℝ) (n + 1)
  obtain ⟨P, e, h⟩ := hC n (n + 1) lineCells (unitX n) (fun p => p == 0 || p == n) (1 / n) (1 / n) (scale_good (by positivity) (line_good n hn)) (line_marks n)
    (unit_domain n hn) (rod_smooth n hn) (unit_shape n hn) (by positivity) (by rw [one_mul]) (by rw [div_le_one (by positivity)]; exact hn') (by omega) (by simp)
    _ _ _ _ (C139_operators 1 (rodRows n) (fun _ _ => 1 / 8) fun _ => 1).1 (fun _ => ⟨⟨fun r z _ k _ => rfl, trivial⟩, trivial⟩) ⟨⟨trivial, trivial⟩, trivial⟩ lu h1 h2
  have et : P.t = rule1_2 := by
    have := Res.ok.inj (show Res.ok _ = Res.ok P from e)
    rw [← this]
    rfl
  have hsz : size P.t = 2 := by rw [et]; rfl
  have hrow : ∀ (c k : Nat), k < 2 → rodRows n (2 * c + k) 0 0 = rodA (meshPoint lineCells (unitX n) c fun w => node ℝ P.t k w) 0 0 := by
    intro c k hk
    rw [rodRows, et, show (2 * c + k) / 2 = c by omega, show (2 * c + k) % 2 = k by omega]
  refine ⟨lu, P, fun row => ellipticForcing rodA (fun _ _ => 1 / 8) (fun _ => 1) (fun x => x 0 ^ 2)
    (meshPoint lineCells (unitX n) (row / 2) fun w => node ℝ P.t (row % 2) w), ?_⟩
  obtain ⟨w, W, b, r1, r2, r3, r4⟩ := h ⟨fun c _ k hk z y => by
      rw [hsz] at hk ⊢
      exact hrow c k hk, fun _ _ _ _ _ => rfl, fun _ _ _ _ => rfl⟩
    ⟨n * size P.t, 1, fun row _ => ellipticForcing rodA (fun _ _ => 1 / 8) (fun _ => 1) (fun x => x 0 ^ 2)
      (meshPoint lineCells (unitX n) (row / 2) fun w => node ℝ P.t (row % 2) w)⟩ le_rfl rfl (fun c hc k hk => by
        rw [hsz] at hk ⊢
        simp only [Dense.at']
        rw [show (2 * c + k) / 2 = c by omega, show (2 * c + k) % 2 = k by omega])
    ⟨n + 1, 1, fun p _ => (p / n : ℝ) ^ 2⟩ le_rfl (by norm_num) (fun p hp _ => by simp [Dense.at', unitX, lineX]; ring) (fun _ => 0)
  exact ⟨w, W, b, e, r1, r2, r3, r4⟩

end Fdapde.PDE
