import Verif.PDE.ParabolicSpec
import Verif.PDE.LemmasParabolic
import Verif.PDE.PropsHeat
import Verif.PDE.PropsElliptic
set_option linter.all false
/-!
# C142: the time stepping converges for equations with diffusion, transport and reaction
-/
namespace Fdapde.PDE
open Fdapde.Quadrature MeasureTheory Matrix Fdapde.Geometry Fdapde.FEM
variable {N : Nat}

/-- The derivative in time at the nodes of the quadrature is close to the difference quotient of the interpolant. -/
theorem flow_quotient (hN : N ∈ [1, 2, 3]) {t : Table} (hrule : standardRule N 1 = some t) (op : Op ℝ) {n nNodes : Nat} {cells : Nat → Nat → Nat} {X : Nat → Vec N}
    (h : GoodMesh (N + 1) n nNodes cells X) (bNodes : Nat → Bool) {hh ρ : ℝ} (hs : MeshShape n cells X hh ρ) (hρ : 0 < ρ) (hh0 : 0 ≤ hh)
    {A : Vec N → Fin N → Fin N → ℝ} {u u' : ℝ → Vec N → ℝ} {t0 T1 dt M F B L K L' : ℝ} (hu : FlowOn n cells X A u u' t0 T1 M F B L K L') (hK : 0 ≤ K) (hL' : 0 ≤ L')
    (hdt0 : 0 < dt) (cols : Nat) (hin : ∀ j < cols, t0 + (j : ℝ) * dt ∈ Set.Icc t0 T1) (P : Prob ℝ)
    (hPdef : P = meshProb N 1 (N + 1) t op cells n X (enumDofs1 cells nNodes bNodes)) :
    ∀ i, i + 1 < cols → ∀ c < P.n, ∀ k < size P.t,
      |u' (t0 + ((i + 1 : Nat) : ℝ) * dt) (meshPoint cells X c fun w => node ℝ t k w) - feValue P.nb (P.dofs c)
        (fun p => (u (t0 + ((i + 1 : Nat) : ℝ) * dt) (fun z : Fin N => natX X p z) - u (t0 + (i : ℝ) * dt) fun z : Fin N => natX X p z) / dt)
          (fun j => P.psi j (node ℝ P.t k))| ≤ K * dt + L' * hh := by
  have hO := mesh_onNodes (nNodes := nNodes) hN hrule op h.proper bNodes
  have hsh := exact_shape (t := t) (nNodes := nNodes) op bNodes hρ hs
  subst hPdef
  set P := meshProb N 1 (N + 1) t op cells n X (enumDofs1 cells nNodes bNodes) with hPdef
  have hpt : ∀ c k, (fun z : Fin N => cellPoint N (natX X) (cells c) (node ℝ t k) z) = meshPoint cells X c fun w => node ℝ t k w := by
    intro c k
    funext z
    exact meshPoint_eq cells X c (node ℝ t k) z
  intro i hi c hc k hk
  change c < n at hc
  set s := t0 + (i : ℝ) * dt with hsd
  set τ := t0 + ((i + 1 : Nat) : ℝ) * dt with hτ
  have hτs : τ - s = dt := by rw [hτ, hsd]; push_cast; ring
  have hsτ : s < τ := by linarith
  have hsI := hin i (by omega)
  have hτI := hin (i + 1) hi
  set x := meshPoint cells X c fun w => node ℝ t k w with hx
  have hxc : x ∈ region (N + 1) cells X c := by
    have := node_mem hO c hk
    rw [mesh_cell] at this
    rw [hx, ← hpt c k]
    exact this
  have hxD := region_domain (n := n) hc hxc
  have a1 := quotient_close (hu.time x hxD) (hu.velocity x hxD) hsI hτI hsτ hK
  rw [hτs] at a1
  have a2 : ∀ v < N + 1, |((u τ x - u s x) - (u τ (X (cells c v)) - u s (X (cells c v)))) / dt| ≤ L' * hh := by
    intro v hv
    have hvc : X (cells c v) ∈ region (N + 1) cells X c := subset_convexHull ℝ _ ⟨v, hv, rfl⟩
    have hvD := region_domain (n := n) hc hvc
    have hlen : len (x - X (cells c v)) ≤ hh := by
      have := cell_dist hO hsh hc (i := v) hv (x := x) (by rw [mesh_cell]; exact hxc)
      have h1 : len (x - X (cells c v)) ^ 2 ≤ hh ^ 2 := by
        rw [len_sq]
        refine le_trans (le_of_eq (Finset.sum_congr rfl fun z _ => ?_)) this
        show (x z - X (cells c v) z) ^ 2 = (natX X (cells c v) z - x z) ^ 2
        rw [show natX X (cells c v) z = X (cells c v) z from congrFun (natX_fin X (cells c v)) z]
        ring
      exact abs_le_of_sq_le_sq' h1 hh0 |>.2
    have := quotient_lip (φ := fun t => u t x - u t (X (cells c v))) (φ' := fun t => u' t x - u' t (X (cells c v))) (C := L' * hh)
      (fun r hr => (hu.time x hxD r hr).sub (hu.time _ hvD r hr))
      (fun r hr => (hu.spread r hr c hc _ hvc _ hxc).trans (mul_le_mul_of_nonneg_left hlen hL')) hsI hτI hsτ
    rw [hτs] at this
    refine le_trans (le_of_eq ?_) this
    congr 2
    ring
  have hn : P.nb = N + 1 := rfl
  have a3 : |(u τ x - u s x) / dt - feValue P.nb (P.dofs c) (fun p => (u τ (fun z : Fin N => natX X p z) - u s fun z : Fin N => natX X p z) / dt)
      (fun j => P.psi j (node ℝ P.t k))| ≤ L' * hh := by
    have e : (u τ x - u s x) / dt - feValue P.nb (P.dofs c) (fun p => (u τ (fun z : Fin N => natX X p z) - u s fun z : Fin N => natX X p z) / dt)
        (fun j => P.psi j (node ℝ P.t k)) = ∑ v ∈ Finset.range P.nb,
          ((u τ x - u s x) - (u τ (X (cells c v)) - u s (X (cells c v)))) / dt * P.psi v (node ℝ P.t k) := by
      have e1 : (u τ x - u s x) / dt = ∑ v ∈ Finset.range P.nb, (u τ x - u s x) / dt * P.psi v (node ℝ P.t k) := by
        rw [← Finset.mul_sum, psi_sum hO hk, mul_one]
      rw [e1, feValue, ← Finset.sum_sub_distrib]
      refine Finset.sum_congr rfl fun v _ => ?_
      rw [natX_fin]
      show _ - (u τ (X (cells c v)) - u s (X (cells c v))) / dt * _ = _
      ring
    rw [e]
    refine (Finset.abs_sum_le_sum_abs _ _).trans ?_
    calc _ ≤ ∑ v ∈ Finset.range P.nb, L' * hh * P.psi v (node ℝ P.t k) := by
          refine Finset.sum_le_sum fun v hv => ?_
          have hv' := Finset.mem_range.1 hv
          rw [abs_mul, abs_of_nonneg (psi_nonneg hO hk hv')]
          exact mul_le_mul_of_nonneg_right (a2 v hv') (psi_nonneg hO hk hv')
      _ = _ := by rw [← Finset.mul_sum, psi_sum hO hk, mul_one]
  exact (abs_sub_le _ _ _).trans (add_le_add a1 a3)

/-- The bound of the errors after the time `τ`: `l` is the rate of growth, `E` the error of the difference quotients and `Q` the one of the elements. -/
noncomputable def flowBound (l α τ E Q : ℝ) : ℝ := Real.exp (2 * l * τ) * (τ * E + Real.sqrt (2 * τ / α) * Q)

theorem flowBound_mono {l α E Q τ τ' : ℝ} (hl : 0 ≤ l) (hα : 0 < α) (hE : 0 ≤ E) (hQ : 0 ≤ Q) (h0 : 0 ≤ τ) (h : τ ≤ τ') :
    flowBound l α τ E Q ≤ flowBound l α τ' E Q := by
  have hτ' : 0 ≤ τ' := h0.trans h
  have h1 : Real.exp (2 * l * τ) ≤ Real.exp (2 * l * τ') := Real.exp_le_exp.2 (mul_le_mul_of_nonneg_left h (by positivity))
  have h2 : τ * E + Real.sqrt (2 * τ / α) * Q ≤ τ' * E + Real.sqrt (2 * τ' / α) * Q := by
    refine add_le_add (mul_le_mul_of_nonneg_right h hE) (mul_le_mul_of_nonneg_right (Real.sqrt_le_sqrt ?_) hQ)
    exact div_le_div_of_nonneg_right (by linarith) hα.le
  exact mul_le_mul h1 h2 (by positivity) (Real.exp_nonneg _)

set_option maxHeartbeats 2000000 in
/-- **C142**: let `u` be a smooth function of time and space on the domain of a mesh of full dimension whose boundary nodes are marked, with coefficients of
diffusion, transport and reaction that depend on the point; the diffusion is uniformly positive, the transport and the reaction are bounded, with any size.
Given the values of the coefficients and of u' - div(A∇u) + β·∇u + r u at the quadrature nodes, of `u` at the boundary nodes at each instant, and of `u` at the
nodes as initial condition, the time stepping with first order elements succeeds for every time step that is at most half the inverse of the rate of growth
bm²/(2α) + γ.  It returns at each instant a function whose mean square distance from `u` is bounded by the time step and the size of the cells, with the factors
below, in which only the elapsed time grows; likewise the sum over the instants of the mean square distances of the gradients.
Partial as `C139_elliptic_partial` (dof 0 on the boundary, see `C62_bug_dof_zero`; exact factorization). -/
theorem C142_parabolic_partial (hN : N ∈ [1, 2, 3]) {n nNodes : Nat} {cells : Nat → Nat → Nat} {X : Nat → Fin N → ℝ} (bNodes : Nat → Bool)
    (h : GoodMesh (N + 1) n nNodes cells X) (hb : MarksBoundary (N + 1) n cells bNodes) {hh ρ : ℝ} (hs : MeshShape n cells X hh ρ) (hρ : 0 < ρ)
    {t0 t1 : ℝ} (ht : t0 < t1) (ts : List ℝ) (cols : Nat) (hcols : 0 < cols)
    {A : (Fin N → ℝ) → Fin N → Fin N → ℝ} {β : (Fin N → ℝ) → Fin N → ℝ} {r : (Fin N → ℝ) → ℝ} {α Λ bm γ cm : ℝ}
    (hco : Bounded (domain (N + 1) n cells X) A β r α Λ bm γ cm) (hα : 0 < α) (hΛ : 0 ≤ Λ) (hγ : 0 ≤ γ)
    {u u' : ℝ → (Fin N → ℝ) → ℝ} {M F B L K L' : ℝ} (hu : FlowOn n cells X A u u' t0 (t0 + (cols - 1 : Nat) * (t1 - t0)) M F B L K L')
    (hM : 0 ≤ M) (hF : 0 ≤ F) (hL : 0 ≤ L) (hK : 0 ≤ K) (hL' : 0 ≤ L')
    (z : Fin N) {a ℓ : ℝ} (hl : ∀ x ∈ domain (N + 1) n cells X, |x z - a| ≤ ℓ) (hstep : (bm ^ 2 / (2 * α) + γ) * (t1 - t0) ≤ 1 / 2)
    {op : Op ℝ} {Dr : Nat → Nat → Nat → ℝ} {br : Nat → Nat → ℝ} {cr : Nat → ℝ} (hop : StandsFor N op Dr br cr) (hpar : hasDT op = true)
    (hsy : FlagRight N op) (hns : NoScalar op)
    (lu : Solver ℝ) (hlu : ExactLU nNodes lu) (hlc : CompleteLU nNodes lu) (hm : 0 < nNodes) (h0 : bNodes 0 = true) :
    ∃ P, problem1 N op cells n nNodes X bNodes = .ok P ∧ (Sampled n cells X P.t A β r Dr br cr →
      ∀ (data : Dense ℝ), n * size P.t ≤ data.rows → data.cols = cols →
      (∀ j < cols, ∀ c < n, ∀ k < size P.t, data.at' (size P.t * c + k) j =
        parabolicForcing A β r u u' (t0 + j * (t1 - t0)) (meshPoint cells X c fun w => node ℝ P.t k w)) →
      ∀ g : Dense ℝ, nNodes ≤ g.rows → cols ≤ g.cols → (∀ j < cols, ∀ p < nNodes, bNodes p = true → g.at' p j = u (t0 + j * (t1 - t0)) (X p)) →
      ∀ junk, ∃ (sol : Nat → Nat → ℝ) (W : Nat → Nat → Fin N → ℝ) (b : Nat → Nat → ℝ), (P.init data junk >>= pdeSolveParabolic lu (t0 :: t1 :: ts) cols (fun p => u t0 (X p)) g) = .ok (true, sol) ∧
        ∀ i < cols, PiecewiseAffine n cells X (sol i) (W i) (b i) ∧
          valueError n cells X (u (t0 + i * (t1 - t0))) (W i) (b i) ≤ (2 * (M / 2 * hh ^ 2) ^ 2 +
            50 * flowBound (bm ^ 2 / (2 * α) + γ) α (i * (t1 - t0)) (K * (t1 - t0) + L' * hh) (ellipticConst N hh ρ ℓ Λ bm cm M F B L) ^ 2) *
              (volume (domain (N + 1) n cells X)).toReal ∧
          ∑ j ∈ Finset.range i, (t1 - t0) * gradError n cells X (u (t0 + (j + 1 : Nat) * (t1 - t0))) (W (j + 1)) ≤
            i * (t1 - t0) * (2 * ((N + 1) * M * hh ^ 2 / (2 * ρ)) ^ 2 + 16 / α * ((bm ^ 2 / (2 * α) + γ) *
              flowBound (bm ^ 2 / (2 * α) + γ) α (i * (t1 - t0)) (K * (t1 - t0) + L' * hh) (ellipticConst N hh ρ ℓ Λ bm cm M F B L) ^ 2 +
              (K * (t1 - t0) + L' * hh) * flowBound (bm ^ 2 / (2 * α) + γ) α (i * (t1 - t0)) (K * (t1 - t0) + L' * hh) (ellipticConst N hh ρ ℓ Λ bm cm M F B L) +
              ellipticConst N hh ρ ℓ Λ bm cm M F B L ^ 2 / α)) * (volume (domain (N + 1) n cells X)).toReal) := by
  have hN0 : 0 < N := by
    simp only [List.mem_cons, List.not_mem_nil, or_false] at hN
    omega
  obtain ⟨t, hrule⟩ := rule1 hN
  refine ⟨meshProb N 1 (N + 1) t op cells n X (enumDofs1 cells nNodes bNodes), by rw [problem1, hrule]; rfl, fun hsa data hr hc hf g hg hgc hgb junk => ?_⟩
  change Sampled n cells X t A β r Dr br cr at hsa
  have hO := mesh_onNodes (nNodes := nNodes) hN hrule op h.proper bNodes
  have hcf := mesh_conforming (t := t) hN0 op h hb
  have hsh := exact_shape (t := t) (nNodes := nNodes) op bNodes hρ hs
  have hpt := mesh_point (t := t) (n := n) (nNodes := nNodes) (cells := cells) (X := X) op bNodes
  have hce := mesh_cell (t := t) (n := n) (nNodes := nNodes) (cells := cells) (X := X) op bNodes
  have hge := fun u W => mesh_gradError (t := t) (n := n) (nNodes := nNodes) (cells := cells) (X := X) op bNodes u W
  have hve := fun u W b => mesh_valueError (t := t) (n := n) (nNodes := nNodes) (cells := cells) (X := X) op bNodes u W b
  set dt := t1 - t0 with hdt
  have hdt0 : 0 < dt := by rw [hdt]; linarith
  set T1 := t0 + ((cols - 1 : Nat) : ℝ) * dt with hT1
  have hin : ∀ j < cols, t0 + (j : ℝ) * dt ∈ Set.Icc t0 T1 := by
    intro j hj
    have h1 : (j : ℝ) ≤ ((cols - 1 : Nat) : ℝ) := by exact_mod_cast (by omega : j ≤ cols - 1)
    have h2 := mul_le_mul_of_nonneg_right h1 hdt0.le
    have h3 : 0 ≤ (j : ℝ) * dt := by positivity
    exact ⟨by linarith, by rw [hT1]; linarith⟩
  have hsm : ∀ j < cols, _ := fun j hj => flux_smooth (t := t) (nNodes := nNodes) op bNodes hM (hu.space _ (hin j hj))
  have hpo : ∀ j < cols, _ := fun j hj => flux_poisson hN hrule op h hb (hu.space _ (hin j hj))
  have hre : ∀ j < cols, _ := fun j hj => flux_regular (t := t) (nNodes := nNodes) op bNodes (hu.space _ (hin j hj))
  obtain ⟨c0, hc0, v0, hv0, -⟩ := h.used 0 hm
  have hx0 : X (cells c0 v0) ∈ domain (N + 1) n cells X := region_domain hc0 (subset_convexHull ℝ _ ⟨v0, hv0, rfl⟩)
  have hh0 : 0 ≤ hh := (len_nonneg _).trans (hs.diam c0 hc0 v0 hv0 v0 hv0)
  have hB : 0 ≤ B := (abs_nonneg _).trans ((hu.space _ (hin 0 hcols)).bound _ hx0)
  have hl0 : 0 ≤ ℓ := (abs_nonneg _).trans (hl _ hx0)
  have hbm : 0 ≤ bm := (len_nonneg _).trans (hco.transport _ hx0)
  have hcm : 0 ≤ cm := (abs_nonneg _).trans (hco.reaction _ hx0).2
  have hcl := flow_quotient hN hrule op h bNodes hs hρ hh0 hu hK hL' hdt0 cols hin _ rfl
  have hvol : ∑ c ∈ Finset.range n, (volume ((meshProb N 1 (N + 1) t op cells n X (enumDofs1 cells nNodes bNodes)).cell (natX X) c)).toReal =
      (volume (domain (N + 1) n cells X)).toReal := by
    rw [← domain_volume h]
    exact Finset.sum_congr rfl fun c _ => congrArg (fun s : Set (Fin N → ℝ) => (volume s).toReal) (hce c)
  have hms : ∑ c ∈ Finset.range n, (meshProb N 1 (N + 1) t op cells n X (enumDofs1 cells nNodes bNodes)).measure c =
      (volume (domain (N + 1) n cells X)).toReal := by
    rw [← hvol]
    exact Finset.sum_congr rfl fun c hc => (cell_measure hO (Finset.mem_range.1 hc)).symm
  have hFr := friedrichs hO hcf h.nodes z (a := a) (ℓ := ℓ) fun c hc x hx => hl x (region_domain hc (by rw [hce] at hx; exact hx))
  have hC0 : 0 ≤ 2 * ℓ := mul_nonneg two_pos.le hl0
  have hpd : ∀ c < n, ∀ k < size t, (meshPoint cells X c fun w => node ℝ t k w) ∈ region (N + 1) cells X c := fun c hc k hk => by
    have := node_mem hO c hk
    rw [hce] at this
    rw [← hpt c k]
    exact this
  have hpD : ∀ c < n, ∀ k < size t, (meshPoint cells X c fun w => node ℝ t k w) ∈ domain (N + 1) n cells X := fun c hc k hk => region_domain hc (hpd c hc k hk)
  have hform : (meshProb N 1 (N + 1) t op cells n X (enumDofs1 cells nNodes bNodes)).Form
      (fun c k z y => A (meshPoint cells X c fun w => node ℝ t k w) z y) (fun c k z => β (meshPoint cells X c fun w => node ℝ t k w) z)
      (fun c k => r (meshPoint cells X c fun w => node ℝ t k w)) := by
    intro c hc k hk u v gu gv
    refine (hop (size t * c + k) u v gu gv).trans ?_
    rw [hsa.reaction c hc k hk]
    simp only [dot]
    rw [Finset.sum_range, Finset.sum_range]
    simp only [Finset.sum_range, hsa.diffusion c hc k hk, hsa.transport c hc k hk]
    rfl
  set V := (volume (domain (N + 1) n cells X)).toReal with hV
  have hV0 : 0 ≤ V := ENNReal.toReal_nonneg
  set E := K * dt + L' * hh with hE
  have hE0 : 0 ≤ E := by positivity
  set Q := ellipticConst N hh ρ ℓ Λ bm cm M F B L with hQ
  have hQ0 : 0 ≤ Q := by rw [hQ, ellipticConst]; positivity
  set l := bm ^ 2 / (2 * α) + γ with hld
  have hl00 : 0 ≤ l := by positivity
  -- residual of the interpolant
  have hres : ∀ j < cols, ∀ (v : Nat → ℝ) (Vg : Nat → Fin N → ℝ) (b : Nat → ℝ),
      (meshProb N 1 (N + 1) t op cells n X (enumDofs1 cells nNodes bNodes)).Test v →
      (meshProb N 1 (N + 1) t op cells n X (enumDofs1 cells nNodes bNodes)).Affine (natX X) v Vg b →
      |(meshProb N 1 (N + 1) t op cells n X (enumDofs1 cells nNodes bNodes)).load
          (fun c k => ellipticForcing A β r (u (t0 + (j : ℝ) * dt)) (meshPoint cells X c fun w => node ℝ t k w)) v -
        (meshProb N 1 (N + 1) t op cells n X (enumDofs1 cells nNodes bNodes)).bilin (fun p => u (t0 + (j : ℝ) * dt) fun z : Fin N => natX X p z) v| ≤
      (∑ k ∈ Finset.range (size t), weight ℝ t k) * (Q * Real.sqrt V *
        Real.sqrt ((meshProb N 1 (N + 1) t op cells n X (enumDofs1 cells nNodes bNodes)).energySq (natX X) Vg)) := by
    intro j hj v Vg b hT hv
    have huj := hu.space _ (hin j hj)
    have hcs := C112_consistent hO hsh hh0 (hre j hj) hL hB hC0 hFr (hpo j hj)
      (fun c k => -divFlux A (u (t0 + (j : ℝ) * dt)) (meshPoint cells X c fun w => node ℝ t k w)) fun c hc k hk => by
        rw [← hpt c k]; rfl
    have := form_residual hO hform hsh hh0 hρ hC0 hFr (hsm j hj) hM (φ := fun x z => flux A (u (t0 + (j : ℝ) * dt)) z x) (Λ := Λ) (bm := bm) (cm := cm) (Lq := F * hh)
      (fun c hc => by
        rw [hce]
        obtain ⟨U, hU, hD, -, hC⟩ := huj.smooth
        exact continuousOn_pi.2 fun z => (hC z).continuousOn.mono ((region_domain hc).trans hD)) hΛ hbm hcm
      (fun c hc k hk => hco.diffusion _ (hpD c hc k hk)) (fun c hc k hk => hco.transport _ (hpD c hc k hk))
      (fun c hc k hk => (hco.reaction _ (hpD c hc k hk)).2)
      (fun c hc k hk x hx => by
        have hxr : x ∈ region (N + 1) cells X c := by rw [← hce]; exact hx
        have h1 := huj.flux c hc _ (hpd c hc k hk) x hxr
        have h2 : len ((show Fin N → ℝ from x) - meshPoint cells X c fun w => node ℝ t k w) ≤ hh := by
          have := cell_diam hO hsh hc (node_mem hO c hk) hx
          rw [← Real.sqrt_sq hh0]
          refine Real.sqrt_le_sqrt (le_trans (le_of_eq ?_) this)
          refine Finset.sum_congr rfl fun z _ => ?_
          rw [← hpt c k]
          rfl
        refine le_trans (le_of_eq ?_) (h1.trans (mul_le_mul_of_nonneg_left h2 hF))
        rw [← hpt c k]
        rfl)
      _ (fun c k => ellipticForcing A β r (u (t0 + (j : ℝ) * dt)) (meshPoint cells X c fun w => node ℝ t k w)) hcs (fun c hc k hk => by
        rw [hpt c k]
        rfl) hT hv
    refine this.trans (le_of_eq ?_)
    rw [show (∑ c ∈ Finset.range (meshProb N 1 (N + 1) t op cells n X (enumDofs1 cells nNodes bNodes)).n,
        (volume ((meshProb N 1 (N + 1) t op cells n X (enumDofs1 cells nNodes bNodes)).cell (natX X) c)).toReal) = _ from hvol,
      show (∑ c ∈ Finset.range (meshProb N 1 (N + 1) t op cells n X (enumDofs1 cells nNodes bNodes)).n,
        (meshProb N 1 (N + 1) t op cells n X (enumDofs1 cells nNodes bNodes)).measure c) = _ from hms]
    show (∑ k ∈ Finset.range (size t), weight ℝ t k) * ((hh * (L * (2 * ℓ) + B) * Real.sqrt V + (F * hh + Λ * ((N + 1) * M * hh ^ 2 / (2 * ρ)) +
      (bm * ((N + 1) * M * hh ^ 2 / (2 * ρ)) + cm * (M / 2 * hh ^ 2)) * (2 * ℓ + hh)) * Real.sqrt V) * _) = _
    rw [hQ, ellipticConst]
    ring
  have hgar : ∀ (v : Nat → ℝ) (Vg : Nat → Fin N → ℝ) (b : Nat → ℝ),
      (meshProb N 1 (N + 1) t op cells n X (enumDofs1 cells nNodes bNodes)).Affine (natX X) v Vg b →
      (∑ k ∈ Finset.range (size t), weight ℝ t k) * (α / 2 * (meshProb N 1 (N + 1) t op cells n X (enumDofs1 cells nNodes bNodes)).energySq (natX X) Vg) -
        l * (meshProb N 1 (N + 1) t op cells n X (enumDofs1 cells nNodes bNodes)).l2 v v ≤
          (meshProb N 1 (N + 1) t op cells n X (enumDofs1 cells nNodes bNodes)).bilin v v := fun v Vg b hv =>
    garding hO hform hα (fun c hc k hk => hco.elliptic _ (hpD c hc k hk)) (fun c hc k hk => hco.transport _ (hpD c hc k hk))
      (fun c hc k hk => (hco.reaction _ (hpD c hc k hk)).1) hv
  have hOk : (meshProb N 1 (N + 1) t op cells n X (enumDofs1 cells nNodes bNodes)).Ok := ⟨h.nodes, hsy, hns⟩
  have hpe : (meshProb N 1 (N + 1) t op cells n X (enumDofs1 cells nNodes bNodes)).op = op := rfl
  set P := meshProb N 1 (N + 1) t op cells n X (enumDofs1 cells nNodes bNodes) with hPdef
  have hcol : 0 < data.cols := by omega
  have hgc' : data.cols ≤ g.cols := by omega
  have hdef : ∀ v, P.Test v → P.l2 v v / (t1 - t0) + P.bilin v v = 0 → ∀ p < P.m, v p = 0 := by
    intro v _ hv p hp
    obtain ⟨Vg, bg, hA⟩ := affine_exists hO v
    have h1 := hgar v Vg bg hA
    have h2 := l2_nonneg P (fun c hc => measure_pos hO hc) (fun k hk => weight_pos hO hk) v
    have h3 : 0 ≤ (∑ k ∈ Finset.range (size t), weight ℝ t k) * (α / 2 * P.energySq (natX X) Vg) :=
      mul_nonneg (weights_pos hO).le (mul_nonneg (by positivity) (energySq_nonneg hO _))
    rw [← hdt] at hv
    have h4 : P.l2 v v = 0 := by
      by_contra hne
      have hpos := lt_of_le_of_ne h2 (Ne.symm hne)
      have h5 : P.l2 v v / dt ≤ l * P.l2 v v := by linarith
      rw [div_le_iff₀ hdt0] at h5
      have h6 : l * P.l2 v v * dt ≤ 1 / 2 * P.l2 v v := by
        have := mul_le_mul_of_nonneg_right hstep hpos.le
        linarith
      linarith
    obtain ⟨c, hc, w, hw, rfl⟩ := h.used p hp
    exact l2_zero hO h4 hc hw
  obtain ⟨sol, s1⟩ := C104_nonsingular_partial P hOk t0 t1 hdef lu hlu hlc data hr hcol g hg hgc' hm h0 junk (fun p => u t0 (X p)) ts
  obtain ⟨bb, sol', s2, s3, s4⟩ := C102_parabolic_partial P hOk hpar lu hlu data hr hcol g hg hgc' hm h0 junk (fun p => u t0 (X p)) t0 t1 ts
  have hsame := s1.symm.trans s2
  simp only [Res.ok.injEq, Prod.mk.injEq] at hsame
  obtain ⟨hbb, rfl⟩ := hsame
  have s4 := s4 hbb.symm
  rw [hc] at s1 s4
  choose W b hW using fun i => affine_exists hO (sol i)
  choose Y bY hY using fun i : Nat => affine_exists hO fun p => u (t0 + (i : ℝ) * dt) fun z : Fin N => natX X p z
  have hA : ∀ i, P.Affine (natX X) (fun p => sol i p - u (t0 + (i : ℝ) * dt) fun z : Fin N => natX X p z) (fun c z => W i c z - Y i c z) (fun c => b i c - bY i c) := by
    intro i c hc j hj
    have h1 := hY i c hc j hj
    have h2 := hW i c hc j hj
    simp only at h1
    simp only [sub_mul, Finset.sum_sub_distrib]
    rw [h2, h1]
    ring
  refine ⟨sol, W, b, s1, fun i hi => ⟨fun c hc v hv => ?_, ?_⟩⟩
  · refine (hW i c hc v hv).trans ?_
    congr 1
    exact Finset.sum_congr rfl fun z _ => by rw [← natX_fin X]; rfl
  have hsq : ∀ j : Nat, Real.exp (2 * l * (j * dt)) * (j * dt * (E * Real.sqrt V) + Real.sqrt (2 * (j * dt) * ((Q * Real.sqrt V) ^ 2 / (2 * (α / 2))))) =
      flowBound l α (j * dt) E Q * Real.sqrt V := by
    intro j
    have hj : 0 ≤ (j : ℝ) * dt := by positivity
    have e1 : 2 * ((j : ℝ) * dt) * ((Q * Real.sqrt V) ^ 2 / (2 * (α / 2))) = 2 * (j * dt) / α * (Q * Real.sqrt V) ^ 2 := by
      field_simp
    rw [e1, Real.sqrt_mul (by positivity), Real.sqrt_sq (by positivity), flowBound]
    ring
  have hsteps := parabolic_steps hO hOk (i + 1) (fun j => u (t0 + (j : ℝ) * dt))
    (fun j c k => ellipticForcing A β r (u (t0 + (j : ℝ) * dt)) (meshPoint cells X c fun w => node ℝ t k w))
    (fun j c k => u' (t0 + (j : ℝ) * dt) (meshPoint cells X c fun w => node ℝ t k w)) (κ := α / 2) (l := l) (Q := Q * Real.sqrt V) (E := E) (dt := dt)
    (by positivity) hl00 (by positivity) hE0 hdt0 hstep hgar (fun j hj => hres j (by omega)) (fun j hj => hcl j (by omega)) sol
    (fun p => by
      show sol 0 p = u (t0 + ((0 : Nat) : ℝ) * dt) fun z : Fin N => natX X p z
      rw [s3, natX_fin, Nat.cast_zero, zero_mul, add_zero])
    (fun i hi p hp hbp => by
      show sol (i + 1) p = u (t0 + ((i + 1 : Nat) : ℝ) * dt) fun z : Fin N => natX X p z
      rw [(s4 i (by omega)).1 p hp hbp, natX_fin]
      exact hgb (i + 1) (by omega) p hp hbp)
    (fun i hi v hv => by
      rw [(s4 i (by omega)).2 v hv]
      refine Finset.sum_congr rfl fun c hc => congrArg _ (Finset.sum_congr rfl fun k hk => ?_)
      show weight ℝ P.t k * (data.at' (size P.t * c + k) (i + 1) * _) = _
      rw [hf (i + 1) (by omega) c (Finset.mem_range.1 hc) k (Finset.mem_range.1 hk), parabolicForcing]
      rfl)
    (fun i c z => W i c z - Y i c z) (fun i c => b i c - bY i c) hA (A := flowBound l α (i * dt) E Q * Real.sqrt V) (fun j hj => by
      rw [show (∑ c ∈ Finset.range P.n, P.measure c) = V from hms, hsq]
      refine mul_le_mul_of_nonneg_right (flowBound_mono hl00 hα hE0 hQ0 (by positivity) ?_) (Real.sqrt_nonneg _)
      exact mul_le_mul_of_nonneg_right (by exact_mod_cast (by omega : j ≤ i)) hdt0.le)
  rw [show (∑ c ∈ Finset.range P.n, P.measure c) = V from hms] at hsteps
  have hst := hsteps.1 i (by omega)
  have hen := hsteps.2 i (by omega)
  rw [hsq i] at hst
  have hfb : 0 ≤ flowBound l α (i * dt) E Q := by
    have : 0 ≤ (i : ℝ) * dt := by positivity
    rw [flowBound]; positivity
  set R := flowBound l α (i * dt) E Q with hR
  refine ⟨?_, ?_⟩
  · set w : (Fin N → ℝ) → ℝ := u (t0 + (i : ℝ) * dt) with hw
    have hvn := value_norm hO (hA i)
    have hl2 : P.l2 (fun p => sol i p - w fun z : Fin N => natX X p z) (fun p => sol i p - w fun z : Fin N => natX X p z) =
        P.nrm (fun p => sol i p - w fun z : Fin N => natX X p z) ^ 2 :=
      (Real.sq_sqrt (l2_nonneg P (fun c hc => measure_pos hO hc) (fun k hk => weight_pos hO hk) _)).symm
    have hbound : P.nrm (fun p => sol i p - w fun z : Fin N => natX X p z) ^ 2 ≤ R ^ 2 * V := by
      refine (pow_le_pow_left₀ (Real.sqrt_nonneg _) hst 2).trans (le_of_eq ?_)
      rw [mul_pow, Real.sq_sqrt hV0]
    have huc : ∀ c < n, ContinuousOn w (region (N + 1) cells X c) := by
      intro c hc
      obtain ⟨U, hU, hD, hC, -⟩ := (hu.space _ (hin i hi)).smooth
      exact hC.continuousOn.mono ((region_domain hc).trans hD)
    have hsplit : valueError n cells X w (W i) (b i) ≤ 2 * ((M / 2 * hh ^ 2) ^ 2 * V) +
        2 * ∑ c ∈ Finset.range n, ∫ x in P.cell (natX X) c, aff (fun z => W i c z - Y i c z) (b i c - bY i c) x ^ 2 := by
      rw [hve w (W i) (b i), ← hms, Finset.mul_sum, Finset.mul_sum, Finset.mul_sum, ← Finset.sum_add_distrib]
      refine Finset.sum_le_sum fun c hc => ?_
      have hc' : c < n := Finset.mem_range.1 hc
      have cW : Continuous (aff (W i c) (b i c)) := aff_cont _ _
      have cE : Continuous (aff (fun z => W i c z - Y i c z) (b i c - bY i c)) := aff_cont _ _
      have e : 2 * ((M / 2 * hh ^ 2) ^ 2 * P.measure c) + 2 * ∫ x in P.cell (natX X) c, aff (fun z => W i c z - Y i c z) (b i c - bY i c) x ^ 2 =
          ∫ x in P.cell (natX X) c, (2 * (M / 2 * hh ^ 2) ^ 2 + 2 * aff (fun z => W i c z - Y i c z) (b i c - bY i c) x ^ 2) := by
        rw [integral_add (int_const c _) ?_, cell_const hO hc', integral_const_mul]
        · ring
        · exact ContinuousOn.integrableOn_compact (cell_compact c) (Continuous.continuousOn (by fun_prop))
      rw [e]
      refine setIntegral_mono_on ?_ ?_ (cell_compact c).measurableSet fun x hx => ?_
      · have huc' : ContinuousOn w (P.cell (natX X) c) := by rw [hce]; exact huc c hc'
        exact ((huc'.sub cW.continuousOn).pow 2).integrableOn_compact (cell_compact c)
      · exact ContinuousOn.integrableOn_compact (cell_compact c) (Continuous.continuousOn (by fun_prop))
      · have h1 := interpolation_value hO hsh (hsm i hi) hM (hY i) hc' hx
        have h2 : aff (fun z => W i c z - Y i c z) (b i c - bY i c) x = aff (W i c) (b i c) x - aff (Y i c) (bY i c) x := by
          simp only [aff, sub_mul, Finset.sum_sub_distrib]
          ring
        rw [h2]
        change (w x - aff (Y i c) (bY i c) x) ^ 2 ≤ _ at h1
        have h3 := sq_sub_le (w x - aff (Y i c) (bY i c) x) (aff (W i c) (b i c) x - aff (Y i c) (bY i c) x)
        rw [sub_sub_sub_cancel_right] at h3
        exact h3.trans (add_le_add_left (mul_le_mul_of_nonneg_left h1 two_pos.le) _)
    rw [hl2] at hvn
    change ∑ c ∈ Finset.range n, _ ≤ _ at hvn
    linarith
  · have hgi : ∀ j ∈ Finset.range i, dt * gradError n cells X (u (t0 + (j + 1 : Nat) * dt)) (W (j + 1)) ≤
        dt * (2 * (((N + 1) * M * hh ^ 2 / (2 * ρ)) ^ 2 * V)) + 2 * (dt * P.energySq (natX X) fun c z => W (j + 1) c z - Y (j + 1) c z) := by
      intro j hj
      have hj' : j + 1 < cols := by have := Finset.mem_range.1 hj; omega
      have h1 := grad_split hO hsh hρ (hsm (j + 1) hj') hM (Y := Y (j + 1)) (W := W (j + 1)) fun c hc => ⟨bY (j + 1) c, hY (j + 1) c hc⟩
      rw [show (∑ c ∈ Finset.range P.n, P.measure c) = V from hms] at h1
      rw [hge (u (t0 + ((j + 1 : Nat) : ℝ) * dt)) (W (j + 1))]
      have h2 := mul_le_mul_of_nonneg_left h1 hdt0.le
      refine h2.trans (le_of_eq ?_)
      show dt * (2 * (((N + 1) * M * hh ^ 2 / (2 * ρ)) ^ 2 * V) + 2 * _) = _
      ring
    refine (Finset.sum_le_sum hgi).trans ?_
    rw [Finset.sum_add_distrib, Finset.sum_const, Finset.card_range, nsmul_eq_mul, ← Finset.mul_sum]
    set S := ∑ j ∈ Finset.range i, dt * P.energySq (natX X) fun c z => W (j + 1) c z - Y (j + 1) c z with hS
    have h1 : α / 2 / 4 * S ≤ i * dt * (l * R ^ 2 + E * R + Q ^ 2 / α) * V := by
      refine hen.trans (le_of_eq ?_)
      have e1 : (R * Real.sqrt V) ^ 2 = R ^ 2 * V := by rw [mul_pow, Real.sq_sqrt hV0]
      have e2 : (Q * Real.sqrt V) ^ 2 = Q ^ 2 * V := by rw [mul_pow, Real.sq_sqrt hV0]
      have e3 : E * Real.sqrt V * (R * Real.sqrt V) = E * R * V := by
        rw [show E * Real.sqrt V * (R * Real.sqrt V) = E * R * (Real.sqrt V * Real.sqrt V) by ring, Real.mul_self_sqrt hV0]
      rw [e1, e2, e3]
      field_simp
    have h2 : S ≤ 8 / α * (i * dt * (l * R ^ 2 + E * R + Q ^ 2 / α) * V) := by
      have := mul_le_mul_of_nonneg_left h1 (show 0 ≤ 8 / α by positivity)
      refine le_trans (le_of_eq ?_) this
      field_simp
      ring
    calc _ ≤ (i : ℝ) * (dt * (2 * (((N + 1) * M * hh ^ 2 / (2 * ρ)) ^ 2 * V))) + 2 * (8 / α * (i * dt * (l * R ^ 2 + E * R + Q ^ 2 / α) * V)) := by linarith
      _ = _ := by ring

/-- The constant of the elements is of the order of the size of the cells. -/
theorem ellipticConst_le (N : Nat) {hh ρ ℓ Λ bm cm M F B L κ H : ℝ} (hρ : 0 < ρ) (hκ : hh ≤ κ * ρ) (hH : hh ≤ H) (hh0 : 0 ≤ hh) (hl0 : 0 ≤ ℓ) (hΛ : 0 ≤ Λ)
    (hbm : 0 ≤ bm) (hcm : 0 ≤ cm) (hM : 0 ≤ M) : (N + 1) * M * hh ^ 2 / (2 * ρ) ≤ (N + 1) * M * κ / 2 * hh ∧
      ellipticConst N hh ρ ℓ Λ bm cm M F B L ≤ (2 * ℓ * L + B + F + Λ * ((N + 1) * M * κ / 2) + (bm * ((N + 1) * M * κ / 2) + cm * (M / 2 * H)) * (2 * ℓ + H)) * hh := by
  set a1 := (N + 1) * M * κ / 2 with ha1
  have hle : 2 * ℓ + hh ≤ 2 * ℓ + H := by linarith
  have hp0 : 0 ≤ 2 * ℓ + hh := by linarith
  set I := (N + 1) * M * hh ^ 2 / (2 * ρ) with hI
  have hI0 : 0 ≤ I := by positivity
  have b1 : I ≤ a1 * hh := by
    rw [hI, div_le_iff₀ (by positivity)]
    have : (N + 1) * M * hh * hh ≤ (N + 1) * M * hh * (κ * ρ) := mul_le_mul_of_nonneg_left hκ (by positivity)
    calc _ = (N + 1) * M * hh * hh := by ring
      _ ≤ _ := this
      _ = _ := by rw [ha1]; ring
  refine ⟨b1, ?_⟩
  rw [ellipticConst, ← hI]
  have j1 : cm * (M / 2 * hh ^ 2) ≤ cm * (M / 2 * H) * hh := by
    have := mul_le_mul_of_nonneg_left hH (show 0 ≤ cm * (M / 2) * hh by positivity)
    calc _ = cm * (M / 2) * hh * hh := by ring
      _ ≤ _ := this
      _ = _ := by ring
  have j2 : bm * I ≤ bm * a1 * hh := by
    have := mul_le_mul_of_nonneg_left b1 hbm
    linarith
  have j3 : Λ * I ≤ Λ * a1 * hh := by
    have := mul_le_mul_of_nonneg_left b1 hΛ
    linarith
  have j4 : (bm * I + cm * (M / 2 * hh ^ 2)) * (2 * ℓ + hh) ≤ (bm * a1 * hh + cm * (M / 2 * H) * hh) * (2 * ℓ + H) :=
    mul_le_mul (add_le_add j2 j1) hle hp0 (add_nonneg ((mul_nonneg hbm hI0).trans j2) ((by positivity : (0:ℝ) ≤ cm * (M / 2 * hh ^ 2)).trans j1))
  calc _ ≤ hh * (2 * ℓ * L + B) + F * hh + Λ * a1 * hh + (bm * a1 * hh + cm * (M / 2 * H) * hh) * (2 * ℓ + H) :=
        add_le_add (add_le_add le_rfl j3) j4
    _ = _ := by ring

/-- The bounds of `C142_parabolic_partial` are of second order in the time step and the size of the cells. -/
theorem flow_orders {l α T τ dt hh E R Q G K L' Kq : ℝ} (hl : 0 ≤ l) (hα : 0 < α) (hτ : 0 ≤ τ) (hT : τ ≤ T) (hdt : 0 ≤ dt) (hh0 : 0 ≤ hh)
    (hK : 0 ≤ K) (hL' : 0 ≤ L') (hE : E = K * dt + L' * hh) (hR : R = flowBound l α τ E Q) (hQ0 : 0 ≤ Q) (hQ : Q ≤ Kq * hh) (hG : G = Real.exp (2 * l * T)) :
    0 ≤ R ∧ R ^ 2 ≤ G ^ 2 * (2 * ((T * K) ^ 2 + (T * L' + Real.sqrt (2 * T / α) * Kq) ^ 2)) * (dt ^ 2 + hh ^ 2) ∧
      E * R ≤ 2 * (K ^ 2 + L' ^ 2) * (dt ^ 2 + hh ^ 2) + R ^ 2 ∧ Q ^ 2 ≤ Kq ^ 2 * (dt ^ 2 + hh ^ 2) := by
  have hE0 : 0 ≤ E := by rw [hE]; positivity
  have hR0 : 0 ≤ R := by rw [hR, flowBound]; positivity
  refine ⟨hR0, ?_, ?_, ?_⟩
  · have h1 := flowBound_mono hl hα hE0 hQ0 hτ hT
    rw [← hR] at h1
    have h2 : flowBound l α T E Q ≤ G * (T * K * dt + (T * L' + Real.sqrt (2 * T / α) * Kq) * hh) := by
      rw [flowBound, ← hG]
      refine mul_le_mul_of_nonneg_left ?_ (by rw [hG]; positivity)
      calc _ ≤ T * E + Real.sqrt (2 * T / α) * (Kq * hh) := add_le_add le_rfl (mul_le_mul_of_nonneg_left hQ (Real.sqrt_nonneg _))
        _ = _ := by rw [hE]; ring
    refine (pow_le_pow_left₀ hR0 (h1.trans h2) 2).trans ?_
    rw [mul_pow, mul_assoc (G ^ 2)]
    exact mul_le_mul_of_nonneg_left (sq_add_le _ _ _ _) (sq_nonneg _)
  · have h1 : E ^ 2 ≤ 2 * (K ^ 2 + L' ^ 2) * (dt ^ 2 + hh ^ 2) := by rw [hE]; exact sq_add_le _ _ _ _
    nlinarith [sq_nonneg (E - R), sq_nonneg (E + R)]
  · refine (pow_le_pow_left₀ hQ0 hQ 2).trans ?_
    rw [mul_pow]
    exact mul_le_mul_of_nonneg_left (le_add_of_nonneg_left (sq_nonneg _)) (sq_nonneg _)

set_option maxHeartbeats 1000000 in
/-- **C142**, order: with one constant for all the meshes of a domain whose cells have bounded shape and all the time steps up to half the inverse of the
rate of growth, up to a given horizon, the mean square errors of the values at each instant and the sum over the instants, times the step, of the ones of the
gradients are at most the constant times the square of the step plus the square of the size of the cells. -/
theorem C142_order_partial (hN : N ∈ [1, 2, 3]) {S : Set (Fin N → ℝ)} (z : Fin N) {a ℓ : ℝ} (hl : ∀ x ∈ S, |x z - a| ≤ ℓ)
    {A : (Fin N → ℝ) → Fin N → Fin N → ℝ} {β : (Fin N → ℝ) → Fin N → ℝ} {r : (Fin N → ℝ) → ℝ} {α Λ bm γ cm : ℝ} (hco : Bounded S A β r α Λ bm γ cm)
    (hα : 0 < α) (hΛ : 0 ≤ Λ) (hγ : 0 ≤ γ) (u u' : ℝ → (Fin N → ℝ) → ℝ) {M F B L K L' κ H T t0 : ℝ} (hM : 0 ≤ M) (hF : 0 ≤ F) (hL : 0 ≤ L) (hK : 0 ≤ K)
    (hL' : 0 ≤ L') :
    ∃ C : ℝ, ∀ (n nNodes : Nat) (cells : Nat → Nat → Nat) (X : Nat → Fin N → ℝ) (bNodes : Nat → Bool) (hh ρ t1 : ℝ) (ts : List ℝ) (cols : Nat),
      GoodMesh (N + 1) n nNodes cells X → MarksBoundary (N + 1) n cells bNodes → domain (N + 1) n cells X = S →
      t0 < t1 → 0 < cols → (cols - 1 : Nat) * (t1 - t0) ≤ T → (bm ^ 2 / (2 * α) + γ) * (t1 - t0) ≤ 1 / 2 →
      FlowOn n cells X A u u' t0 (t0 + (cols - 1 : Nat) * (t1 - t0)) M F B L K L' →
      MeshShape n cells X hh ρ → 0 < ρ → hh ≤ κ * ρ → hh ≤ H → 0 < nNodes → bNodes 0 = true →
      ∀ (op : Op ℝ) (Dr : Nat → Nat → Nat → ℝ) (br : Nat → Nat → ℝ) (cr : Nat → ℝ), StandsFor N op Dr br cr → hasDT op = true → FlagRight N op → NoScalar op →
      ∀ lu : Solver ℝ, ExactLU nNodes lu → CompleteLU nNodes lu →
      ∃ P, problem1 N op cells n nNodes X bNodes = .ok P ∧ (Sampled n cells X P.t A β r Dr br cr →
        ∀ (data : Dense ℝ), n * size P.t ≤ data.rows → data.cols = cols →
        (∀ j < cols, ∀ c < n, ∀ k < size P.t, data.at' (size P.t * c + k) j =
          parabolicForcing A β r u u' (t0 + j * (t1 - t0)) (meshPoint cells X c fun w => node ℝ P.t k w)) →
        ∀ g : Dense ℝ, nNodes ≤ g.rows → cols ≤ g.cols → (∀ j < cols, ∀ p < nNodes, bNodes p = true → g.at' p j = u (t0 + j * (t1 - t0)) (X p)) →
        ∀ junk, ∃ (sol : Nat → Nat → ℝ) (W : Nat → Nat → Fin N → ℝ) (b : Nat → Nat → ℝ),
          (P.init data junk >>= pdeSolveParabolic lu (t0 :: t1 :: ts) cols (fun p => u t0 (X p)) g) = .ok (true, sol) ∧
          ∀ i < cols, PiecewiseAffine n cells X (sol i) (W i) (b i) ∧
            valueError n cells X (u (t0 + i * (t1 - t0))) (W i) (b i) ≤ C * ((t1 - t0) ^ 2 + hh ^ 2) ∧
            ∑ j ∈ Finset.range i, (t1 - t0) * gradError n cells X (u (t0 + (j + 1 : Nat) * (t1 - t0))) (W (j + 1)) ≤ C * ((t1 - t0) ^ 2 + hh ^ 2)) := by
  set V := (volume S).toReal with hV
  have hV0 : 0 ≤ V := ENNReal.toReal_nonneg
  set a1 := (N + 1) * M * κ / 2 with ha1
  set Kq := 2 * ℓ * L + B + F + Λ * a1 + (bm * a1 + cm * (M / 2 * H)) * (2 * ℓ + H) with hKq
  set l := bm ^ 2 / (2 * α) + γ with hld
  have hl00 : 0 ≤ l := by positivity
  set G := Real.exp (2 * l * T) with hG
  set rr := G ^ 2 * (2 * ((T * K) ^ 2 + (T * L' + Real.sqrt (2 * T / α) * Kq) ^ 2)) with hrr
  have hrr0 : 0 ≤ rr := by positivity
  set C1 := (2 * (M / 2) ^ 2 * H ^ 2 + 50 * rr) * V with hC1
  set C2 := |T| * (2 * a1 ^ 2 + 16 / α * (l * rr + (2 * (K ^ 2 + L' ^ 2) + rr) + Kq ^ 2 / α)) * V with hC2
  have hC10 : 0 ≤ C1 := by positivity
  have hC20 : 0 ≤ C2 := by positivity
  refine ⟨C1 + C2, ?_⟩
  intro n nNodes cells X bNodes hh ρ t1 ts cols h hb hD ht hcols hT hstep hu hs hρ hκ hH hm h0 op Dr br cr hop hpar hsy hns lu hlu hlc
  obtain ⟨c0, hc0, v0, hv0, -⟩ := h.used 0 hm
  have hx0 : X (cells c0 v0) ∈ domain (N + 1) n cells X := region_domain hc0 (subset_convexHull ℝ _ ⟨v0, hv0, rfl⟩)
  have hxS := hD ▸ hx0
  have hh0 : 0 ≤ hh := (len_nonneg _).trans (hs.diam c0 hc0 v0 hv0 v0 hv0)
  have hl0 : 0 ≤ ℓ := (abs_nonneg _).trans (hl _ hxS)
  have hbm : 0 ≤ bm := (len_nonneg _).trans (hco.transport _ hxS)
  have hcm : 0 ≤ cm := (abs_nonneg _).trans (hco.reaction _ hxS).2
  obtain ⟨P, e, hP⟩ := C142_parabolic_partial hN bNodes h hb hs hρ ht ts cols hcols (hD ▸ hco) hα hΛ hγ hu hM hF hL hK hL' z (hD ▸ hl) hstep hop hpar hsy hns
    lu hlu hlc hm h0
  refine ⟨P, e, fun hsa data hr hc hf g hg hgc hgb junk => ?_⟩
  obtain ⟨sol, W, b, r1, r2⟩ := hP hsa data hr hc hf g hg hgc hgb junk
  refine ⟨sol, W, b, r1, fun i hi => ?_⟩
  obtain ⟨r3, r4, r5⟩ := r2 i hi
  rw [hD] at r4 r5
  set dt := t1 - t0 with hdt
  have hdt0 : 0 < dt := by rw [hdt]; linarith
  have hspan : 0 ≤ ((cols - 1 : Nat) : ℝ) * dt := by positivity
  have hT0 : 0 ≤ T := hspan.trans hT
  have hB : 0 ≤ B := (abs_nonneg _).trans ((hu.space t0 ⟨le_rfl, by linarith⟩).bound _ hx0)
  have hx : (i : ℝ) * dt ≤ T := by
    have h1 : (i : ℝ) ≤ ((cols - 1 : Nat) : ℝ) := by exact_mod_cast (by omega : i ≤ cols - 1)
    exact (mul_le_mul_of_nonneg_right h1 hdt0.le).trans hT
  have hx0' : 0 ≤ (i : ℝ) * dt := by positivity
  obtain ⟨b1, b2⟩ := ellipticConst_le N (F := F) (B := B) (L := L) hρ hκ hH hh0 hl0 hΛ hbm hcm hM
  rw [← ha1] at b1 b2
  rw [← hKq] at b2
  set Q := ellipticConst N hh ρ ℓ Λ bm cm M F B L with hQ
  have hQ0 : 0 ≤ Q := by rw [hQ, ellipticConst]; positivity
  set R := flowBound l α (i * dt) (K * dt + L' * hh) Q with hR
  obtain ⟨d0, d1, d2, d3⟩ := flow_orders hl00 hα hx0' hx hdt0.le hh0 hK hL' rfl hR hQ0 b2 hG
  rw [← hrr] at d1
  set D2 := dt ^ 2 + hh ^ 2 with hD2
  have hD20 : 0 ≤ D2 := by positivity
  have hhD : hh ^ 2 ≤ D2 := le_add_of_nonneg_left (sq_nonneg dt)
  have b4 : (M / 2 * hh ^ 2) ^ 2 ≤ (M / 2) ^ 2 * H ^ 2 * D2 := by
    have h1 : hh ^ 2 ≤ H ^ 2 := pow_le_pow_left₀ hh0 hH 2
    calc _ = (M / 2) ^ 2 * (hh ^ 2 * hh ^ 2) := by ring
      _ ≤ (M / 2) ^ 2 * (H ^ 2 * D2) := mul_le_mul_of_nonneg_left (mul_le_mul h1 hhD (sq_nonneg _) (sq_nonneg _)) (sq_nonneg _)
      _ = _ := by ring
  have b5 : ((N + 1) * M * hh ^ 2 / (2 * ρ)) ^ 2 ≤ a1 ^ 2 * D2 := by
    refine (pow_le_pow_left₀ (by positivity) b1 2).trans ?_
    rw [mul_pow]
    exact mul_le_mul_of_nonneg_left hhD (sq_nonneg _)
  refine ⟨r3, r4.trans ?_, r5.trans ?_⟩
  · calc _ ≤ (2 * ((M / 2) ^ 2 * H ^ 2 * D2) + 50 * (rr * D2)) * V := mul_le_mul_of_nonneg_right (by linarith) hV0
      _ = C1 * D2 := by rw [hC1]; ring
      _ ≤ _ := mul_le_mul_of_nonneg_right (le_add_of_nonneg_right hC20) hD20
  · have h1 : l * R ^ 2 ≤ l * (rr * D2) := mul_le_mul_of_nonneg_left d1 hl00
    have h2 : Q ^ 2 / α ≤ Kq ^ 2 * D2 / α := div_le_div_of_nonneg_right d3 hα.le
    have h3 : 16 / α * (l * R ^ 2 + (K * dt + L' * hh) * R + Q ^ 2 / α) ≤ 16 / α * (l * (rr * D2) + (2 * (K ^ 2 + L' ^ 2) * D2 + rr * D2) + Kq ^ 2 * D2 / α) :=
      mul_le_mul_of_nonneg_left (by linarith) (by positivity)
    have h4 : 2 * ((N + 1) * M * hh ^ 2 / (2 * ρ)) ^ 2 + 16 / α * (l * R ^ 2 + (K * dt + L' * hh) * R + Q ^ 2 / α) ≤
        2 * (a1 ^ 2 * D2) + 16 / α * (l * (rr * D2) + (2 * (K ^ 2 + L' ^ 2) * D2 + rr * D2) + Kq ^ 2 * D2 / α) := by linarith
    have h5 : 0 ≤ 2 * (a1 ^ 2 * D2) + 16 / α * (l * (rr * D2) + (2 * (K ^ 2 + L' ^ 2) * D2 + rr * D2) + Kq ^ 2 * D2 / α) := by positivity
    calc _ ≤ (i : ℝ) * dt * (2 * (a1 ^ 2 * D2) + 16 / α * (l * (rr * D2) + (2 * (K ^ 2 + L' ^ 2) * D2 + rr * D2) + Kq ^ 2 * D2 / α)) * V :=
          mul_le_mul_of_nonneg_right (mul_le_mul_of_nonneg_left h4 hx0') hV0
      _ ≤ T * (2 * (a1 ^ 2 * D2) + 16 / α * (l * (rr * D2) + (2 * (K ^ 2 + L' ^ 2) * D2 + rr * D2) + Kq ^ 2 * D2 / α)) * V :=
          mul_le_mul_of_nonneg_right (mul_le_mul_of_nonneg_right hx h5) hV0
      _ = C2 * D2 := by rw [hC2, abs_of_nonneg hT0]; ring
      _ ≤ _ := mul_le_mul_of_nonneg_right (le_add_of_nonneg_left hC10) hD20

/-- **C142**, operators: sums of the derivative in time, a diffusion with minus sign, a transport and a reaction. -/
theorem C142_operators (N : Nat) (D : Nat → Nat → Nat → ℝ) (b : Nat → Nat → ℝ) (c : Nat → ℝ) :
    StandsFor N (.add (.add (.add .dT (.neg (.diff D))) (.adv b)) (.react c)) D b c ∧
      StandsFor N (.add (.add .dT (.neg (.diff D))) (.adv b)) D b (fun _ => 0) ∧
      StandsFor N (.add (.add .dT (.neg (.diff D))) (.react c)) D (fun _ _ => 0) c ∧
      StandsFor N (.add (.add (.add .dT (.neg .lap)) (.adv b)) (.react c)) (fun _ z y => if z = y then 1 else 0) b c := by
  refine ⟨fun row u v gu gv => ?_, fun row u v gu gv => ?_, fun row u v gu gv => ?_, fun row u v gu gv => ?_⟩
  · simp only [form]; ring
  · simp only [form]; ring
  · simp only [form, dot, zero_mul, Finset.sum_const_zero]; ring
  · have e : dot N gu gv = dot N (fun z => dot N (fun y => if z = y then 1 else 0) gu) gv :=
      Finset.sum_congr rfl fun z hz => by
        simp only [dot, ite_mul, one_mul, zero_mul]
        rw [Finset.sum_ite_eq, if_pos hz]
    simp only [form]
    rw [← e]
    ring

/-! ### The hypotheses are met -/

theorem trod_flux (t : ℝ) (z : Fin 1) (x : Fin 1 → ℝ) : flux rodA (fun x => t * x 0 ^ 2) z x = t * (2 * x 0 + 2 * x 0 ^ 2) := by
  simp only [flux, Fin.sum_univ_one, rodA, tsq_pderiv]; ring

theorem trod_div (t : ℝ) (x : Fin 1 → ℝ) : divFlux rodA (fun x => t * x 0 ^ 2) x = t * (2 + 4 * x 0) := by
  rw [divFlux, Fin.sum_univ_one]
  have h0 := (ContinuousLinearMap.proj (R := ℝ) (φ := fun _ : Fin 1 => ℝ) 0).hasFDerivAt (x := x)
  have h : HasFDerivAt (fun x : Fin 1 → ℝ => t * (2 * x 0 + 2 * x 0 ^ 2)) (t • ((2 : ℝ) • ContinuousLinearMap.proj (R := ℝ) (φ := fun _ : Fin 1 => ℝ) 0 +
      (2 : ℝ) • ((2 * x 0 ^ (2 - 1)) • ContinuousLinearMap.proj (R := ℝ) (φ := fun _ : Fin 1 => ℝ) 0))) x := by
    have h2 : HasFDerivAt (fun x : Fin 1 → ℝ => x 0 ^ 2) ((2 * x 0 ^ (2 - 1)) • ContinuousLinearMap.proj (R := ℝ) (φ := fun _ : Fin 1 => ℝ) 0) x := by
      simpa using h0.pow 2
    exact ((h0.const_mul 2).add (h2.const_mul 2)).const_mul t
  rw [show flux rodA (fun x => t * x 0 ^ 2) 0 = fun x => t * (2 * x 0 + 2 * x 0 ^ 2) from funext (trod_flux t 0), pderiv, h.fderiv]
  simp
  ring

/-- Diffusion 1 + x, transport 10 and reaction -3: neither is dominated by the diffusion. -/
theorem trod_bounded : Bounded {p : Fin 1 → ℝ | 0 ≤ p 0 ∧ p 0 ≤ 1} rodA (fun _ _ => 10) (fun _ => -3) 1 2 10 3 3 where
  elliptic := rod_bounded.elliptic
  diffusion := rod_bounded.diffusion
  transport := fun x _ => by rw [len_one]; norm_num
  reaction := fun x _ => by norm_num

theorem trod_flow (n : Nat) (hn : 0 < n) {T : ℝ} (hT : T ≤ 1) :
    FlowOn n lineCells (unitX n) rodA (fun t x => t * x 0 ^ 2) (fun _ x => x 0 ^ 2) 0 T 2 6 6 4 0 2 where
  space := fun t ht =>
    { smooth := ⟨Set.univ, isOpen_univ, Set.subset_univ _, ContDiff.contDiffOn (by fun_prop), fun z => by
        rw [show flux rodA (fun x => t * x 0 ^ 2) z = fun x => t * (2 * x 0 + 2 * x 0 ^ 2) from funext (trod_flux t z)]
        exact ContDiff.contDiffOn (by fun_prop)⟩
      gradient := ((tsq_heat n hn hT).space t ht).gradient
      flux := fun c hc x hx y hy => by
        have := (rod_smooth n hn).flux c hc x hx y hy
        simp only [len_one, rod_flux, trod_flux, Pi.sub_apply] at this ⊢
        rw [← mul_sub, abs_mul, abs_of_nonneg ht.1]
        exact (mul_le_of_le_one_left (abs_nonneg _) (ht.2.trans hT)).trans this
      bound := fun x hx => by
        have := (rod_smooth n hn).bound x hx
        rw [rod_div] at this
        rw [trod_div, abs_mul, abs_of_nonneg ht.1]
        exact (mul_le_of_le_one_left (abs_nonneg _) (ht.2.trans hT)).trans this
      lipschitz := fun c hc x hx y hy => by
        have := (rod_smooth n hn).lipschitz c hc x hx y hy
        rw [rod_div, rod_div] at this
        rw [trod_div, trod_div, ← mul_sub, abs_mul, abs_of_nonneg ht.1]
        exact (mul_le_of_le_one_left (abs_nonneg _) (ht.2.trans hT)).trans this }
  time := (tsq_heat n hn hT).time
  velocity := (tsq_heat n hn hT).velocity
  spread := (tsq_heat n hn hT).spread

/-- u' - ((1 + x) uₓ)ₓ + 10 uₓ - 3 u on the interval from 0 to 1 in `n` cells with `m` steps, for every `n` and every `m` from 106 on: the errors are of the
order of the size of the cells and of the step. -/
example : ∃ C : ℝ, ∀ n m : Nat, 0 < n → 106 ≤ m → ∃ (lu : Solver ℝ) (P : Prob ℝ) (sol : Nat → Nat → ℝ) (W : Nat → Nat → Fin 1 → ℝ) (b : Nat → Nat → ℝ),
    problem1 1 (.add (.add (.add .dT (.neg (.diff (rodRows n)))) (.adv fun _ _ => 10)) (.react fun _ => -3)) lineCells n (n + 1) (unitX n)
      (fun p => p == 0 || p == n) = .ok P ∧
    (P.init ⟨n * size P.t, m + 1, fun r j => parabolicForcing rodA (fun _ _ => 10) (fun _ => -3) (fun t x => t * x 0 ^ 2) (fun _ x => x 0 ^ 2) (j * (1 / m : ℝ))
        (meshPoint lineCells (unitX n) (r / size P.t) fun w => node ℝ P.t (r % size P.t) w)⟩ (fun _ => 0) >>=
      pdeSolveParabolic lu [0, 1 / m] (m + 1) (fun _ => 0) ⟨n + 1, m + 1, fun p j => (j * (1 / m : ℝ)) * (unitX n p 0) ^ 2⟩) = .ok (true, sol) ∧
      ∀ i ≤ m, PiecewiseAffine n lineCells (unitX n) (sol i) (W i) (b i) ∧
        valueError n lineCells (unitX n) (fun x => i / m * x 0 ^ 2) (W i) (b i) ≤ C * ((1 / m) ^ 2 + (1 / n) ^ 2) := by
  obtain ⟨C, hC⟩ := C142_order_partial (N := 1) (by simp) (S := {p : Fin 1 → ℝ | 0 ≤ p 0 ∧ p 0 ≤ 1}) 0 (a := 0) (ℓ := 1)
    (fun x hx => by rw [sub_zero, abs_of_nonneg hx.1]; exact hx.2) trod_bounded one_pos (by norm_num) (by norm_num) (fun t x => t * x 0 ^ 2) (fun _ x => x 0 ^ 2)
    (M := 2) (F := 6) (B := 6) (L := 4) (K := 0) (L' := 2) (κ := 1) (H := 1) (T := 1) (t0 := 0) (by norm_num) (by norm_num) (by norm_num) le_rfl (by norm_num)
  refine ⟨C, fun n m hn hm => ?_⟩
  have hn' : (1 : ℝ) ≤ n := by exact_mod_cast hn
  have hm' : (106 : ℝ) ≤ m := by exact_mod_cast hm
  have hm0 : (0 : ℝ) < m := by linarith
  obtain ⟨lu, h1, h2⟩ := exists_exactLU (K := ℝ) (n + 1)
  have hT : ((m + 1 - 1 : Nat) : ℝ) * (1 / m - 0) = 1 := by
    rw [Nat.add_sub_cancel]
    field_simp
    ring
  have hst : ((10 : ℝ) ^ 2 / (2 * 1) + 3) * (1 / m - 0) ≤ 1 / 2 := by
    rw [sub_zero, mul_one_div, div_le_div_iff₀ hm0 two_pos]
    linarith
  obtain ⟨P, e, h⟩ := hC n (n + 1) lineCells (unitX n) (fun p => p == 0 || p == n) (1 / n) (1 / n) (1 / m) [] (m + 1)
    (scale_good (by positivity) (line_good n hn)) (line_marks n) (unit_domain n hn) (by positivity) (by omega) hT.le hst
    (trod_flow n hn (by rw [hT]; norm_num)) (unit_shape n hn) (by positivity) (by rw [one_mul])
    (by rw [div_le_one (by positivity)]; exact hn') (by omega) (by simp)
    _ _ _ _ (C142_operators 1 (rodRows n) (fun _ _ => 10) fun _ => -3).1 rfl (fun _ => ⟨⟨⟨trivial, fun r z _ k _ => rfl⟩, trivial⟩, trivial⟩)
    ⟨⟨⟨trivial, trivial⟩, trivial⟩, trivial⟩ lu h1 h2
  have et : P.t = rule1_2 := by
    have := Res.ok.inj (show Res.ok _ = Res.ok P from e)
    rw [← this]
    rfl
  have hsz2 : size P.t = 2 := by rw [et]; rfl
  have hrow : ∀ (c k : Nat), k < 2 → rodRows n (2 * c + k) 0 0 = rodA (meshPoint lineCells (unitX n) c fun w => node ℝ P.t k w) 0 0 := by
    intro c k hk
    rw [rodRows, et, show (2 * c + k) / 2 = c by omega, show (2 * c + k) % 2 = k by omega]
  have hsz : ∀ k, k < size P.t → 0 < size P.t := fun k hk => by omega
  obtain ⟨sol, W, b, r1, r2⟩ := h ⟨fun c _ k hk z y => by
      rw [hsz2] at hk ⊢
      exact hrow c k hk, fun _ _ _ _ _ => rfl, fun _ _ _ _ => rfl⟩
    ⟨n * size P.t, m + 1, fun r j => parabolicForcing rodA (fun _ _ => 10) (fun _ => -3) (fun t x => t * x 0 ^ 2) (fun _ x => x 0 ^ 2) (j * (1 / m : ℝ))
        (meshPoint lineCells (unitX n) (r / size P.t) fun w => node ℝ P.t (r % size P.t) w)⟩ le_rfl rfl
    (fun j hj c hc k hk => by
      dsimp only
      rw [Nat.mul_add_div (hsz k hk), Nat.div_eq_of_lt hk, add_zero, Nat.mul_add_mod, Nat.mod_eq_of_lt hk, zero_add, sub_zero])
    ⟨n + 1, m + 1, fun p j => (j * (1 / m : ℝ)) * (unitX n p 0) ^ 2⟩ le_rfl le_rfl
    (fun j hj p hp _ => by simp only [zero_add, sub_zero]) (fun _ => 0)
  refine ⟨lu, P, sol, W, b, e, ?_, fun i hi => ?_⟩
  · rw [← r1]
    simp only [zero_mul]
  · obtain ⟨r3, r4, -⟩ := r2 i (by omega)
    refine ⟨r3, ?_⟩
    have e1 : (fun x : Fin 1 → ℝ => (i : ℝ) / m * x 0 ^ 2) = fun x => (0 + (i : ℝ) * (1 / m - 0)) * x 0 ^ 2 := by
      funext x; ring
    rw [e1]
    rw [sub_zero] at r4 ⊢
    exact r4

end Fdapde.PDE
