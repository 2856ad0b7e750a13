import Verif.PDE.HeatSpec
import Verif.PDE.LemmasHeat
set_option linter.unusedSectionVars false
/-!
# C138: the time stepping converges to the solution of the heat equation
-/
namespace Fdapde.PDE
open Fdapde.Quadrature MeasureTheory Matrix Fdapde.Geometry Fdapde.FEM
variable {N : Nat}

theorem heat_diffusive (N : Nat) : Diffusive N (.add .dT (.neg .lap) : Op ℝ) fun _ z y => if z = y then 1 else 0 := by
  intro r u v gu gv
  rw [← lap_diffusive (K := ℝ) N r u v gu gv]
  simp [form]

/-- Difference quotients in time: close to the derivative, and Lipschitz in space. -/
theorem quotient_close {φ φ' : ℝ → ℝ} {T0 T1 s t K : ℝ} (hd : ∀ r ∈ Set.Icc T0 T1, HasDerivWithinAt φ (φ' r) (Set.Icc T0 T1) r)
    (hK : ∀ r ∈ Set.Icc T0 T1, ∀ r' ∈ Set.Icc T0 T1, |φ' r' - φ' r| ≤ K * |r' - r|) (hs : s ∈ Set.Icc T0 T1) (ht : t ∈ Set.Icc T0 T1) (hst : s < t) (hK0 : 0 ≤ K) :
    |φ' t - (φ t - φ s) / (t - s)| ≤ K * (t - s) := by
  have hsub : Set.Icc s t ⊆ Set.Icc T0 T1 := Set.Icc_subset_Icc hs.1 ht.2
  have h1 := (convex_Icc s t).norm_image_sub_le_of_norm_hasDerivWithin_le (f := fun r => φ r - r * φ' t) (f' := fun r => φ' r - 1 * φ' t) (C := K * (t - s))
    (fun r hr => ((hd r (hsub hr)).mono hsub).sub ((hasDerivWithinAt_id r _).mul_const _)) (fun r hr => by
      rw [one_mul, Real.norm_eq_abs, abs_sub_comm]
      refine (hK r (hsub hr) t ht).trans (mul_le_mul_of_nonneg_left ?_ hK0)
      rw [abs_of_nonneg (by linarith [hr.2])]
      linarith [hr.1])
    (x := s) (y := t) ⟨le_rfl, hst.le⟩ ⟨hst.le, le_rfl⟩
  have hpos : 0 < t - s := by linarith
  rw [Real.norm_eq_abs, Real.norm_eq_abs, abs_of_pos hpos] at h1
  have e : φ' t - (φ t - φ s) / (t - s) = -((φ t - t * φ' t - (φ s - s * φ' t)) / (t - s)) := by
    field_simp
    ring
  rw [e, abs_neg, abs_div, abs_of_pos hpos, div_le_iff₀ hpos]
  exact h1

theorem quotient_lip {φ φ' : ℝ → ℝ} {T0 T1 s t C : ℝ} (hd : ∀ r ∈ Set.Icc T0 T1, HasDerivWithinAt φ (φ' r) (Set.Icc T0 T1) r)
    (hC : ∀ r ∈ Set.Icc T0 T1, |φ' r| ≤ C) (hs : s ∈ Set.Icc T0 T1) (ht : t ∈ Set.Icc T0 T1) (hst : s < t) :
    |(φ t - φ s) / (t - s)| ≤ C := by
  have h1 := (convex_Icc T0 T1).norm_image_sub_le_of_norm_hasDerivWithin_le (f := φ) (f' := φ') (C := C) hd
    (fun r hr => by rw [Real.norm_eq_abs]; exact hC r hr) (x := s) (y := t) hs ht
  have hpos : 0 < t - s := by linarith
  rw [Real.norm_eq_abs, Real.norm_eq_abs, abs_of_pos hpos] at h1
  rw [abs_div, abs_of_pos hpos, div_le_iff₀ hpos]
  exact h1

theorem sq_sub_le (p r : ℝ) : (p - r) ^ 2 ≤ 2 * p ^ 2 + 2 * r ^ 2 := by nlinarith [sq_nonneg (p + r)]

theorem sq_add_le (p q d e : ℝ) : (p * d + q * e) ^ 2 ≤ 2 * (p ^ 2 + q ^ 2) * (d ^ 2 + e ^ 2) := by
  have h : 0 ≤ (p * e - q * d) ^ 2 := sq_nonneg _
  have h' : 0 ≤ (p * d + q * e) ^ 2 := sq_nonneg _
  nlinarith

theorem psi_sum {P : Prob ℝ} {X : Nat → Nat → ℝ} {I : Nat → Nat → Nat → ℝ} (h : P.OnNodes X I) {k : Nat} (hk : k < size P.t) :
    ∑ i ∈ Finset.range P.nb, P.psi i (node ℝ P.t k) = 1 := by
  have hn := nb_eq h
  rw [hn, Finset.sum_range_succ', psi_node h hk (by omega), if_pos rfl,
    Finset.sum_congr rfl fun w hw => by rw [psi_node h hk (by have := Finset.mem_range.1 hw; omega), if_neg (by omega)]]
  simp only [Nat.add_sub_cancel]
  ring

set_option maxHeartbeats 1000000 in
/-- **C138**: let `u` be a smooth function of time and space on the domain of a mesh of full dimension whose boundary nodes are marked.  Given
the values of u' - Δu at the quadrature nodes, of `u` at the boundary nodes at each instant, and of `u` at the nodes as initial condition, the
time stepping with first order elements returns at each instant a function whose mean square distance from `u` is bounded by the time step and the
size of the cells, with the factors below, in which only the elapsed time grows.  Partial as `C132_poisson_partial`. -/
theorem C138_heat_partial (hN : N ∈ [1, 2, 3]) {n nNodes : Nat} {cells : Nat → Nat → Nat} {X : Nat → Fin N → ℝ} (bNodes : Nat → Bool)
    (h : GoodMesh (N + 1) n nNodes cells X) (hb : MarksBoundary (N + 1) n cells bNodes) {hh ρ : ℝ} (hs : MeshShape n cells X hh ρ) (hρ : 0 < ρ)
    {t0 t1 : ℝ} (ht : t0 < t1) (ts : List ℝ) (cols : Nat) (hcols : 0 < cols)
    {u u' : ℝ → (Fin N → ℝ) → ℝ} {M B L K L' : ℝ} (hu : HeatOn n cells X u u' t0 (t0 + (cols - 1 : Nat) * (t1 - t0)) M B L K L')
    (hM : 0 ≤ M) (hL : 0 ≤ L) (hK : 0 ≤ K) (hL' : 0 ≤ L')
    (z : Fin N) {a ℓ : ℝ} (hl : ∀ x ∈ domain (N + 1) n cells X, |x z - a| ≤ ℓ)
    (lu : Solver ℝ) (hlu : ExactLU nNodes lu) (hlc : CompleteLU nNodes lu) (hm : 0 < nNodes) (h0 : bNodes 0 = true) :
    ∃ P, problem1 N (.add .dT (.neg .lap)) cells n nNodes X bNodes = .ok P ∧ ∀ (data : Dense ℝ), n * size P.t ≤ data.rows → data.cols = cols →
      (∀ j < cols, ∀ c < n, ∀ k < size P.t, data.at' (size P.t * c + k) j =
        heatForcing u u' (t0 + j * (t1 - t0)) (meshPoint cells X c fun w => node ℝ P.t k w)) →
      ∀ g : Dense ℝ, nNodes ≤ g.rows → cols ≤ g.cols → (∀ j < cols, ∀ p < nNodes, bNodes p = true → g.at' p j = u (t0 + j * (t1 - t0)) (X p)) →
      ∀ junk, ∃ sol, (P.init data junk >>= pdeSolveParabolic lu (t0 :: t1 :: ts) cols (fun p => u t0 (X p)) g) = .ok (true, sol) ∧
        ∀ i < cols, ∃ W b, PiecewiseAffine n cells X (sol i) W b ∧
          valueError n cells X (u (t0 + i * (t1 - t0))) W b ≤ (2 * (M / 2 * hh ^ 2) ^ 2 + 50 * (i * (t1 - t0) * (K * (t1 - t0) + L' * hh) +
            Real.sqrt (i * (t1 - t0) / 2) * (hh * (2 * ℓ * L + B) + (N + 1) * M * hh ^ 2 / (2 * ρ))) ^ 2) *
              (volume (domain (N + 1) n cells X)).toReal := by
  have hd : Dims N N := by
    simp only [Dims, List.mem_cons, Prod.mk.injEq, List.not_mem_nil, or_false] at hN ⊢
    omega
  have hN0 : 0 < N := by
    simp only [List.mem_cons, List.not_mem_nil, or_false] at hN
    omega
  obtain ⟨P, I, J, e, -, e1, e2, e3, e4, e5, e6, e7, hpos, hcon⟩ := C131_first_order hd (.add .dT (.neg .lap)) bNodes h
  obtain ⟨t, hrule⟩ := rule1 hN
  have eP : P = meshProb N 1 (N + 1) t (.add .dT (.neg .lap)) cells n X (enumDofs1 cells nNodes bNodes) := by
    rw [problem1, hrule, Res.ofOptionUB_some, Res.ok_bind] at e
    exact (Res.ok.inj e).symm
  clear e1 e2 e3 e4 e5 e6 e7 hpos hcon
  have hO := mesh_onNodes (nNodes := nNodes) hN hrule (.add .dT (.neg .lap)) h.proper bNodes
  have hcf := mesh_conforming (t := t) hN0 (.add .dT (.neg .lap)) h hb
  have hsh := exact_shape (t := t) (nNodes := nNodes) (.add .dT (.neg .lap)) bNodes hρ hs
  set dt := t1 - t0 with hdt
  have hdt0 : 0 < dt := by rw [hdt]; linarith
  set T1 := t0 + ((cols - 1 : Nat) : ℝ) * dt with hT1
  have hin : ∀ j < cols, t0 + (j : ℝ) * dt ∈ Set.Icc t0 T1 := by
    intro j hj
    have h1 : (j : ℝ) ≤ ((cols - 1 : Nat) : ℝ) := by exact_mod_cast (by omega : j ≤ cols - 1)
    have h2 := mul_le_mul_of_nonneg_right h1 hdt0.le
    have h3 : 0 ≤ (j : ℝ) * dt := by positivity
    exact ⟨by linarith, by rw [hT1]; linarith⟩
  have hsm : ∀ j < cols, _ := fun j hj => exact_smooth (t := t) (nNodes := nNodes) (.add .dT (.neg .lap)) bNodes hM (hu.space _ (hin j hj))
  have hpo : ∀ j < cols, _ := fun j hj => exact_poisson hN hrule (.add .dT (.neg .lap)) h hb (hu.space _ (hin j hj))
  have hre : ∀ j < cols, _ := fun j hj => exact_regular (t := t) (nNodes := nNodes) (.add .dT (.neg .lap)) bNodes (hu.space _ (hin j hj))
  obtain ⟨c0, hc0, v0, hv0, -⟩ := h.used 0 hm
  have hx0 : X (cells c0 v0) ∈ domain (N + 1) n cells X := region_domain hc0 (subset_convexHull ℝ _ ⟨v0, hv0, rfl⟩)
  have hh0 : 0 ≤ hh := (len_nonneg _).trans (hs.diam c0 hc0 v0 hv0 v0 hv0)
  have hB : 0 ≤ B := (abs_nonneg _).trans ((hu.space _ (hin 0 hcols)).bound _ hx0)
  have hl0 : 0 ≤ ℓ := (abs_nonneg _).trans (hl _ hx0)
  have hvol : ∑ c ∈ Finset.range n, (volume ((meshProb N 1 (N + 1) t (.add .dT (.neg .lap)) cells n X (enumDofs1 cells nNodes bNodes)).cell (natX X) c)).toReal =
      (volume (domain (N + 1) n cells X)).toReal := by
    rw [← domain_volume h]
    exact Finset.sum_congr rfl fun c _ => congrArg (fun s : Set (Fin N → ℝ) => (volume s).toReal) (mesh_cell (t := t) (nNodes := nNodes) _ bNodes c)
  have hFr := friedrichs hO hcf h.nodes z (a := a) (ℓ := ℓ) fun c hc x hx => hl x (region_domain hc (by rw [mesh_cell] at hx; exact hx))
  refine ⟨P, e, fun data hr hc hf g hg hgc hgb junk => ?_⟩
  subst eP
  set P := meshProb N 1 (N + 1) t (.add .dT (.neg .lap)) cells n X (enumDofs1 cells nNodes bNodes) with hPdef
  have hOk : P.Ok := ⟨h.nodes, fun _ => ⟨trivial, trivial⟩, ⟨trivial, trivial⟩⟩
  have hcol : 0 < data.cols := by omega
  have hgc' : data.cols ≤ g.cols := by omega
  have hform : ∀ c < P.n, ∀ k < size P.t, ∀ (y : ℝ) (gr : Nat → ℝ), 0 ≤ form P.N P.op (size P.t * c + k) y y gr gr := by
    intro c _ k _ y gr
    show 0 ≤ form N (.add .dT (.neg .lap)) _ y y gr gr
    simp only [form, neg_neg, zero_add]
    exact Finset.sum_nonneg fun z _ => mul_self_nonneg _
  have hmass : ∀ v, P.l2 v v = 0 → ∀ p < P.m, v p = 0 := by
    intro v hv p hp
    obtain ⟨c, hc, w, hw, rfl⟩ := h.used p hp
    exact l2_zero hO hv hc hw
  obtain ⟨sol, s1⟩ := C104_succeeds_partial P hOk hform (fun c hc => measure_pos hO hc) (fun k hk => weight_pos hO hk) hmass lu hlu hlc data hr hcol g hg hgc' hm h0
    junk (fun p => u t0 (X p)) t0 t1 ht ts
  obtain ⟨bb, sol', s2, s3, s4⟩ := C102_parabolic_partial P hOk rfl lu hlu data hr hcol g hg hgc' hm h0 junk (fun p => u t0 (X p)) t0 t1 ts
  have hsame := s1.symm.trans s2
  simp only [Res.ok.injEq, Prod.mk.injEq] at hsame
  obtain ⟨hbb, rfl⟩ := hsame
  have s4 := s4 hbb.symm
  rw [hc] at s1 s4
  refine ⟨sol, s1, ?_⟩
  have hms : ∑ c ∈ Finset.range n, P.measure c = (volume (domain (N + 1) n cells X)).toReal := by
    rw [← hvol]
    exact Finset.sum_congr rfl fun c hc => (cell_measure hO (Finset.mem_range.1 hc)).symm
  set V := (volume (domain (N + 1) n cells X)).toReal with hV
  have hV0 : 0 ≤ V := ENNReal.toReal_nonneg
  have hpt : ∀ c k, (fun z : Fin N => cellPoint N (natX X) (cells c) (node ℝ t k) z) = meshPoint cells X c fun w => node ℝ t k w := by
    intro c k
    funext z
    exact meshPoint_eq cells X c (node ℝ t k) z
  have hcs : ∀ j < cols, P.Consistent (natX X) (fun c k => -laplacian (u (t0 + j * dt)) (meshPoint cells X c fun w => node ℝ t k w))
      (fun x z => pderiv (u (t0 + j * dt)) z x) (hh * (L * (2 * ℓ) + B) * Real.sqrt V) := by
    intro j hj
    have := C112_consistent hO hsh hh0 (hre j hj) hL hB (mul_nonneg two_pos.le hl0) hFr (hpo j hj)
      (fun c k => -laplacian (u (t0 + j * dt)) (meshPoint cells X c fun w => node ℝ t k w)) fun c hc k hk => by
        rw [← hpt]; rfl
    rw [show (∑ c ∈ Finset.range P.n, _) = V from hvol] at this
    exact this
  -- the difference quotients
  have hcl : ∀ i, i + 1 < cols → ∀ c < P.n, ∀ k < size P.t,
      |u' (t0 + ((i + 1 : Nat) : ℝ) * dt) (meshPoint cells X c fun w => node ℝ t k w) - feValue P.nb (P.dofs c)
        (fun p => (u (t0 + ((i + 1 : Nat) : ℝ) * dt) (fun z : Fin N => natX X p z) - u (t0 + (i : ℝ) * dt) fun z : Fin N => natX X p z) / dt)
          (fun j => P.psi j (node ℝ P.t k))| ≤ K * dt + L' * hh := by
    intro i hi c hc k hk
    change c < n at hc
    set s := t0 + (i : ℝ) * dt with hsd
    set τ := t0 + ((i + 1 : Nat) : ℝ) * dt with hτ
    have hτs : τ - s = dt := by rw [hτ, hsd]; push_cast; ring
    have hsτ : s < τ := by linarith
    have hsI := hin i (by omega)
    have hτI := hin (i + 1) hi
    set x := meshPoint cells X c fun w => node ℝ t k w with hx
    have hxc : x ∈ region (N + 1) cells X c := by
      have := node_mem hO c hk
      rw [mesh_cell] at this
      rw [hx, ← hpt c k]
      exact this
    have hxD := region_domain (n := n) hc hxc
    have a1 := quotient_close (hu.time x hxD) (hu.velocity x hxD) hsI hτI hsτ hK
    rw [hτs] at a1
    have a2 : ∀ v < N + 1, |((u τ x - u s x) - (u τ (X (cells c v)) - u s (X (cells c v)))) / dt| ≤ L' * hh := by
      intro v hv
      have hvc : X (cells c v) ∈ region (N + 1) cells X c := subset_convexHull ℝ _ ⟨v, hv, rfl⟩
      have hvD := region_domain (n := n) hc hvc
      have hlen : len (x - X (cells c v)) ≤ hh := by
        have := cell_dist hO hsh hc (i := v) hv (x := x) (by rw [mesh_cell]; exact hxc)
        have h1 : len (x - X (cells c v)) ^ 2 ≤ hh ^ 2 := by
          rw [len_sq]
          refine le_trans (le_of_eq (Finset.sum_congr rfl fun z _ => ?_)) this
          show (x z - X (cells c v) z) ^ 2 = (natX X (cells c v) z - x z) ^ 2
          rw [show natX X (cells c v) z = X (cells c v) z from congrFun (natX_fin X (cells c v)) z]
          ring
        exact abs_le_of_sq_le_sq' h1 hh0 |>.2
      have := quotient_lip (φ := fun t => u t x - u t (X (cells c v))) (φ' := fun t => u' t x - u' t (X (cells c v))) (C := L' * hh)
        (fun r hr => (hu.time x hxD r hr).sub (hu.time _ hvD r hr))
        (fun r hr => (hu.spread r hr c hc _ hvc _ hxc).trans (mul_le_mul_of_nonneg_left hlen hL')) hsI hτI hsτ
      rw [hτs] at this
      refine le_trans (le_of_eq ?_) this
      congr 2
      ring
    have hn : P.nb = N + 1 := rfl
    have a3 : |(u τ x - u s x) / dt - feValue P.nb (P.dofs c) (fun p => (u τ (fun z : Fin N => natX X p z) - u s fun z : Fin N => natX X p z) / dt)
        (fun j => P.psi j (node ℝ P.t k))| ≤ L' * hh := by
      have e : (u τ x - u s x) / dt - feValue P.nb (P.dofs c) (fun p => (u τ (fun z : Fin N => natX X p z) - u s fun z : Fin N => natX X p z) / dt)
          (fun j => P.psi j (node ℝ P.t k)) = ∑ v ∈ Finset.range P.nb,
            ((u τ x - u s x) - (u τ (X (cells c v)) - u s (X (cells c v)))) / dt * P.psi v (node ℝ P.t k) := by
        have e1 : (u τ x - u s x) / dt = ∑ v ∈ Finset.range P.nb, (u τ x - u s x) / dt * P.psi v (node ℝ P.t k) := by
          rw [← Finset.mul_sum, psi_sum hO hk, mul_one]
        rw [e1, feValue, ← Finset.sum_sub_distrib]
        refine Finset.sum_congr rfl fun v _ => ?_
        rw [natX_fin]
        show _ - (u τ (X (cells c v)) - u s (X (cells c v))) / dt * _ = _
        ring
      rw [e]
      refine (Finset.abs_sum_le_sum_abs _ _).trans ?_
      calc _ ≤ ∑ v ∈ Finset.range P.nb, L' * hh * P.psi v (node ℝ P.t k) := by
            refine Finset.sum_le_sum fun v hv => ?_
            have hv' := Finset.mem_range.1 hv
            rw [abs_mul, abs_of_nonneg (psi_nonneg hO hk hv')]
            exact mul_le_mul_of_nonneg_right (a2 v hv') (psi_nonneg hO hk hv')
        _ = _ := by rw [← Finset.mul_sum, psi_sum hO hk, mul_one]
    exact (abs_sub_le _ _ _).trans (add_le_add a1 a3)
  have hsteps := heat_steps hO hOk (heat_diffusive N) hsh hρ hM hh0 cols (fun j => u (t0 + (j : ℝ) * dt)) (fun j x z => pderiv (u (t0 + (j : ℝ) * dt)) z x)
    hsm (fun j c k => -laplacian (u (t0 + (j : ℝ) * dt)) (meshPoint cells X c fun w => node ℝ t k w))
    (fun j c k => u' (t0 + (j : ℝ) * dt) (meshPoint cells X c fun w => node ℝ t k w)) (hh * (L * (2 * ℓ) + B) * Real.sqrt V) (K * dt + L' * hh) dt
    (by positivity) (by positivity) hdt0 hcs hcl sol
    (fun p => by
      show sol 0 p = u (t0 + ((0 : Nat) : ℝ) * dt) fun z : Fin N => natX X p z
      rw [s3, natX_fin, Nat.cast_zero, zero_mul, add_zero])
    (fun i hi p hp hbp => by
      show sol (i + 1) p = u (t0 + ((i + 1 : Nat) : ℝ) * dt) fun z : Fin N => natX X p z
      rw [(s4 i hi).1 p hp hbp, natX_fin]
      exact hgb (i + 1) hi p hp hbp)
    (fun i hi v hv => by
      rw [(s4 i hi).2 v hv]
      refine Finset.sum_congr rfl fun c hc => congrArg _ (Finset.sum_congr rfl fun k hk => ?_)
      show weight ℝ P.t k * (data.at' (size P.t * c + k) (i + 1) * _) = _
      rw [hf (i + 1) hi c (Finset.mem_range.1 hc) k (Finset.mem_range.1 hk), heatForcing]
      rfl)
  rw [show (∑ c ∈ Finset.range P.n, P.measure c) = V from hms] at hsteps
  intro i hi
  obtain ⟨W, b, hW⟩ := affine_exists hO (sol i)
  refine ⟨W, b, fun c hc v hv => ?_, ?_⟩
  · refine (hW c hc v hv).trans ?_
    congr 1
    exact Finset.sum_congr rfl fun z _ => by rw [← natX_fin X]; rfl
  have hst := hsteps i hi
  set w : (Fin N → ℝ) → ℝ := u (t0 + (i : ℝ) * dt) with hw
  obtain ⟨Y, bY, hY⟩ := affine_exists hO fun p => w fun z : Fin N => natX X p z
  have hA : P.Affine (natX X) (fun p => sol i p - w fun z : Fin N => natX X p z) (fun c z => W c z - Y c z) (fun c => b c - bY c) := by
    intro c hc j hj
    have h1 := hY c hc j hj
    have h2 := hW c hc j hj
    simp only at h1
    simp only [sub_mul, Finset.sum_sub_distrib]
    rw [h2, h1]
    ring
  have hvn := value_norm hO hA
  have hl2 : P.l2 (fun p => sol i p - w fun z : Fin N => natX X p z) (fun p => sol i p - w fun z : Fin N => natX X p z) =
      P.nrm (fun p => sol i p - w fun z : Fin N => natX X p z) ^ 2 :=
    (Real.sq_sqrt (l2_nonneg P (fun c hc => measure_pos hO hc) (fun k hk => weight_pos hO hk) _)).symm
  have hbound : P.nrm (fun p => sol i p - w fun z : Fin N => natX X p z) ^ 2 ≤ (i * dt * (K * dt + L' * hh) +
      Real.sqrt (i * dt / 2) * (hh * (2 * ℓ * L + B) + (N + 1) * M * hh ^ 2 / (2 * ρ))) ^ 2 * V := by
    have h1 := pow_le_pow_left₀ (Real.sqrt_nonneg _) hst 2
    refine h1.trans (le_of_eq ?_)
    have h2 : Real.sqrt (2 * (i * dt) * ((hh * (L * (2 * ℓ) + B) * Real.sqrt V + (N + 1) * M * hh ^ 2 / (2 * ρ) * Real.sqrt V) ^ 2 / 4)) =
        Real.sqrt (i * dt / 2) * (hh * (2 * ℓ * L + B) + (N + 1) * M * hh ^ 2 / (2 * ρ)) * Real.sqrt V := by
      have e : 2 * (i * dt) * ((hh * (L * (2 * ℓ) + B) * Real.sqrt V + (N + 1) * M * hh ^ 2 / (2 * ρ) * Real.sqrt V) ^ 2 / 4) =
          (i * dt / 2) * ((hh * (2 * ℓ * L + B) + (N + 1) * M * hh ^ 2 / (2 * ρ)) * Real.sqrt V) ^ 2 := by ring
      rw [e, Real.sqrt_mul (by positivity), Real.sqrt_sq (by positivity)]
      ring
    show (i * dt * ((K * dt + L' * hh) * Real.sqrt V) + Real.sqrt (2 * (i * dt) * ((hh * (L * (2 * ℓ) + B) * Real.sqrt V + (N + 1) * M * hh ^ 2 / (2 * ρ) * Real.sqrt V) ^ 2 / 4))) ^ 2 = _
    rw [h2, ← Real.sq_sqrt hV0, ← mul_pow, Real.sqrt_sq (Real.sqrt_nonneg V)]
    ring
  have huc : ∀ c < n, ContinuousOn w (region (N + 1) cells X c) := by
    intro c hc
    obtain ⟨U, hU, hD, hC⟩ := (hu.space _ (hin i hi)).smooth
    exact hC.continuousOn.mono ((region_domain hc).trans hD)
  have hsplit : valueError n cells X w W b ≤ 2 * ((M / 2 * hh ^ 2) ^ 2 * V) +
      2 * ∑ c ∈ Finset.range n, ∫ x in P.cell (natX X) c, aff (fun z => W c z - Y c z) (b c - bY c) x ^ 2 := by
    rw [mesh_valueError (t := t) (nNodes := nNodes) (.add .dT (.neg .lap)) bNodes w W b, ← hms, Finset.mul_sum, Finset.mul_sum, Finset.mul_sum, ← Finset.sum_add_distrib]
    refine Finset.sum_le_sum fun c hc => ?_
    have hc' : c < n := Finset.mem_range.1 hc
    have cW : Continuous (aff (W c) (b c)) := aff_cont _ _
    have cE : Continuous (aff (fun z => W c z - Y c z) (b c - bY c)) := aff_cont _ _
    have e : 2 * ((M / 2 * hh ^ 2) ^ 2 * P.measure c) + 2 * ∫ x in P.cell (natX X) c, aff (fun z => W c z - Y c z) (b c - bY c) x ^ 2 =
        ∫ x in P.cell (natX X) c, (2 * (M / 2 * hh ^ 2) ^ 2 + 2 * aff (fun z => W c z - Y c z) (b c - bY c) x ^ 2) := by
      rw [integral_add (int_const c _) ?_, cell_const hO hc', integral_const_mul]
      · ring
      · exact ContinuousOn.integrableOn_compact (cell_compact c) (Continuous.continuousOn (by fun_prop))
    rw [e]
    refine setIntegral_mono_on ?_ ?_ (cell_compact c).measurableSet fun x hx => ?_
    · have huc' : ContinuousOn w (P.cell (natX X) c) := by rw [mesh_cell]; exact huc c hc'
      exact ((huc'.sub cW.continuousOn).pow 2).integrableOn_compact (cell_compact c)
    · exact ContinuousOn.integrableOn_compact (cell_compact c) (Continuous.continuousOn (by fun_prop))
    · have h1 := interpolation_value hO hsh (hsm i hi) hM hY hc' hx
      have h2 : aff (fun z => W c z - Y c z) (b c - bY c) x = aff (W c) (b c) x - aff (Y c) (bY c) x := by
        simp only [aff, sub_mul, Finset.sum_sub_distrib]
        ring
      rw [h2]
      change (w x - aff (Y c) (bY c) x) ^ 2 ≤ _ at h1
      have h3 := sq_sub_le (w x - aff (Y c) (bY c) x) (aff (W c) (b c) x - aff (Y c) (bY c) x)
      rw [sub_sub_sub_cancel_right] at h3
      exact h3.trans (add_le_add_left (mul_le_mul_of_nonneg_left h1 two_pos.le) _)
  rw [hl2] at hvn
  change ∑ c ∈ Finset.range n, _ ≤ _ at hvn
  linarith

/-- **C138**, order of convergence: on a domain `D`, up to an elapsed time `T`, for cells whose size is at most `κ` times their heights, one constant bounds
the square of the mean error at every instant by the sum of the squares of the time step and of the size of the cells, for every mesh of `D` and every
time step.  Partial as `C138_heat_partial`. -/
theorem C138_order_partial (hN : N ∈ [1, 2, 3]) {D : Set (Fin N → ℝ)} (z : Fin N) {a ℓ : ℝ} (hl : ∀ x ∈ D, |x z - a| ≤ ℓ)
    (u u' : ℝ → (Fin N → ℝ) → ℝ) {M B L K L' κ H T t0 : ℝ} (hM : 0 ≤ M) (hL : 0 ≤ L) (hK : 0 ≤ K) (hL' : 0 ≤ L') :
    ∃ C : ℝ, ∀ (n nNodes : Nat) (cells : Nat → Nat → Nat) (X : Nat → Fin N → ℝ) (bNodes : Nat → Bool) (hh ρ t1 : ℝ) (ts : List ℝ) (cols : Nat),
      GoodMesh (N + 1) n nNodes cells X → MarksBoundary (N + 1) n cells bNodes → domain (N + 1) n cells X = D →
      t0 < t1 → 0 < cols → (cols - 1 : Nat) * (t1 - t0) ≤ T → HeatOn n cells X u u' t0 (t0 + (cols - 1 : Nat) * (t1 - t0)) M B L K L' →
      MeshShape n cells X hh ρ → 0 < ρ → hh ≤ κ * ρ → hh ≤ H → 0 < nNodes → bNodes 0 = true →
      ∀ lu : Solver ℝ, ExactLU nNodes lu → CompleteLU nNodes lu →
      ∃ P, problem1 N (.add .dT (.neg .lap)) cells n nNodes X bNodes = .ok P ∧ ∀ (data : Dense ℝ), n * size P.t ≤ data.rows → data.cols = cols →
        (∀ j < cols, ∀ c < n, ∀ k < size P.t, data.at' (size P.t * c + k) j =
          heatForcing u u' (t0 + j * (t1 - t0)) (meshPoint cells X c fun w => node ℝ P.t k w)) →
        ∀ g : Dense ℝ, nNodes ≤ g.rows → cols ≤ g.cols → (∀ j < cols, ∀ p < nNodes, bNodes p = true → g.at' p j = u (t0 + j * (t1 - t0)) (X p)) →
        ∀ junk, ∃ sol, (P.init data junk >>= pdeSolveParabolic lu (t0 :: t1 :: ts) cols (fun p => u t0 (X p)) g) = .ok (true, sol) ∧
          ∀ i < cols, ∃ W b, PiecewiseAffine n cells X (sol i) W b ∧
            valueError n cells X (u (t0 + i * (t1 - t0))) W b ≤ C * ((t1 - t0) ^ 2 + hh ^ 2) := by
  set V := (volume D).toReal with hV
  have hV0 : 0 ≤ V := ENNReal.toReal_nonneg
  set A := (N + 1) * M * κ / 2 with hA
  set p := T * K with hp
  set q := T * L' + Real.sqrt (T / 2) * (2 * ℓ * L + B + A) with hq
  refine ⟨(2 * (M / 2) ^ 2 * H ^ 2 + 100 * (p ^ 2 + q ^ 2)) * V, ?_⟩
  intro n nNodes cells X bNodes hh ρ t1 ts cols h hb hD ht hcols hT hu hs hρ hκ hH hm h0 lu hlu hlc
  obtain ⟨P, e, hP⟩ := C138_heat_partial hN bNodes h hb hs hρ ht ts cols hcols hu hM hL hK hL' z (hD ▸ hl) lu hlu hlc hm h0
  refine ⟨P, e, fun data hr hc hf g hg hgc hgb junk => ?_⟩
  obtain ⟨sol, r1, r2⟩ := hP data hr hc hf g hg hgc hgb junk
  refine ⟨sol, r1, fun i hi => ?_⟩
  obtain ⟨W, b, r3, r4⟩ := r2 i hi
  refine ⟨W, b, r3, r4.trans ?_⟩
  obtain ⟨c0, hc0, v0, hv0, -⟩ := h.used 0 hm
  have hx0 : X (cells c0 v0) ∈ domain (N + 1) n cells X := region_domain hc0 (subset_convexHull ℝ _ ⟨v0, hv0, rfl⟩)
  have hh0 : 0 ≤ hh := (len_nonneg _).trans (hs.diam c0 hc0 v0 hv0 v0 hv0)
  have hl0 : 0 ≤ ℓ := (abs_nonneg _).trans (hl _ (hD ▸ hx0))
  set dt := t1 - t0 with hdt
  have hdt0 : 0 < dt := by rw [hdt]; linarith
  have hspan : 0 ≤ ((cols - 1 : Nat) : ℝ) * dt := by positivity
  have hB : 0 ≤ B := (abs_nonneg _).trans ((hu.space t0 ⟨le_rfl, by linarith⟩).bound _ hx0)
  have hx : (i : ℝ) * dt ≤ T := by
    have h1 : (i : ℝ) ≤ ((cols - 1 : Nat) : ℝ) := by exact_mod_cast (by omega : i ≤ cols - 1)
    exact (mul_le_mul_of_nonneg_right h1 hdt0.le).trans hT
  have hx0' : 0 ≤ (i : ℝ) * dt := by positivity
  have b1 : (N + 1) * M * hh ^ 2 / (2 * ρ) ≤ A * hh := by
    rw [div_le_iff₀ (by positivity)]
    have : (N + 1) * M * hh * hh ≤ (N + 1) * M * hh * (κ * ρ) := mul_le_mul_of_nonneg_left hκ (by positivity)
    rw [hA]
    linarith
  have b2 : (i : ℝ) * dt * (K * dt + L' * hh) + Real.sqrt (i * dt / 2) * (hh * (2 * ℓ * L + B) + (N + 1) * M * hh ^ 2 / (2 * ρ)) ≤ p * dt + q * hh := by
    have c1 : (i : ℝ) * dt * (K * dt + L' * hh) ≤ T * (K * dt + L' * hh) := mul_le_mul_of_nonneg_right hx (by positivity)
    have c2 : Real.sqrt (i * dt / 2) * (hh * (2 * ℓ * L + B) + (N + 1) * M * hh ^ 2 / (2 * ρ)) ≤ Real.sqrt (T / 2) * (hh * (2 * ℓ * L + B) + A * hh) :=
      mul_le_mul (Real.sqrt_le_sqrt (by linarith)) (by linarith) (by positivity) (Real.sqrt_nonneg _)
    calc _ ≤ T * (K * dt + L' * hh) + Real.sqrt (T / 2) * (hh * (2 * ℓ * L + B) + A * hh) := add_le_add c1 c2
      _ = _ := by rw [hp, hq]; ring
  have b3 : ((i : ℝ) * dt * (K * dt + L' * hh) + Real.sqrt (i * dt / 2) * (hh * (2 * ℓ * L + B) + (N + 1) * M * hh ^ 2 / (2 * ρ))) ^ 2 ≤
      2 * (p ^ 2 + q ^ 2) * (dt ^ 2 + hh ^ 2) := by
    refine (pow_le_pow_left₀ (by positivity) b2 2).trans ?_
    exact sq_add_le p q dt hh
  have b4 : (M / 2 * hh ^ 2) ^ 2 ≤ (M / 2) ^ 2 * H ^ 2 * (dt ^ 2 + hh ^ 2) := by
    have h1 : hh ^ 2 ≤ H ^ 2 := pow_le_pow_left₀ hh0 hH 2
    have h2 : hh ^ 2 ≤ dt ^ 2 + hh ^ 2 := le_add_of_nonneg_left (sq_nonneg dt)
    calc _ = (M / 2) ^ 2 * (hh ^ 2 * hh ^ 2) := by ring
      _ ≤ (M / 2) ^ 2 * (H ^ 2 * (dt ^ 2 + hh ^ 2)) := mul_le_mul_of_nonneg_left (mul_le_mul h1 h2 (sq_nonneg _) (sq_nonneg _)) (sq_nonneg _)
      _ = _ := by ring
  rw [hD, ← hV]
  calc _ ≤ (2 * ((M / 2) ^ 2 * H ^ 2 * (dt ^ 2 + hh ^ 2)) + 50 * (2 * (p ^ 2 + q ^ 2) * (dt ^ 2 + hh ^ 2))) * V :=
        mul_le_mul_of_nonneg_right (add_le_add (mul_le_mul_of_nonneg_left b4 two_pos.le) (mul_le_mul_of_nonneg_left b3 (by norm_num))) hV0
    _ = _ := by ring

/-! ### The hypotheses are met -/

theorem tsq_fderiv (t : ℝ) (x : Fin 1 → ℝ) : HasFDerivAt (fun x : Fin 1 → ℝ => t * x 0 ^ 2)
    ((t * (2 * x 0)) • ContinuousLinearMap.proj (R := ℝ) (φ := fun _ : Fin 1 => ℝ) 0) x := by
  have := (((ContinuousLinearMap.proj (R := ℝ) (φ := fun _ : Fin 1 => ℝ) 0).hasFDerivAt (x := x)).pow 2).const_mul t
  refine this.congr_fderiv ?_
  ext y
  simp
  ring

theorem tsq_pderiv (t : ℝ) (z : Fin 1) (x : Fin 1 → ℝ) : pderiv (fun x : Fin 1 → ℝ => t * x 0 ^ 2) z x = t * (2 * x 0) := by
  rw [pderiv, (tsq_fderiv t x).fderiv, Subsingleton.elim z 0]
  simp

theorem tsq_laplacian (t : ℝ) (x : Fin 1 → ℝ) : laplacian (fun x : Fin 1 → ℝ => t * x 0 ^ 2) x = 2 * t := by
  rw [laplacian, Fin.sum_univ_one]
  have : pderiv (fun x : Fin 1 → ℝ => t * x 0 ^ 2) 0 = fun x => (t * 2) * x 0 := funext fun x => by rw [tsq_pderiv]; ring
  have h : HasFDerivAt (fun x : Fin 1 → ℝ => (t * 2) * x 0) ((t * 2 : ℝ) • ContinuousLinearMap.proj (R := ℝ) (φ := fun _ : Fin 1 => ℝ) 0) x :=
    ((ContinuousLinearMap.proj (R := ℝ) (φ := fun _ : Fin 1 => ℝ) 0).hasFDerivAt (x := x)).const_mul (t * 2)
  rw [this, pderiv, h.fderiv]
  simp
  ring

/-- u(t, x) = t x² on the interval from 0 to 1, between the instants 0 and 1. -/
theorem tsq_heat (n : Nat) (hn : 0 < n) {T : ℝ} (hT : T ≤ 1) :
    HeatOn n lineCells (unitX n) (fun t x => t * x 0 ^ 2) (fun _ x => x 0 ^ 2) 0 T 2 2 0 0 2 where
  space := fun t ht =>
    { smooth := ⟨Set.univ, isOpen_univ, Set.subset_univ _, ContDiff.contDiffOn (by fun_prop)⟩
      gradient := fun c _ x _ y _ => by
        simp only [len_one, tsq_pderiv, Pi.sub_apply]
        rw [← mul_sub, ← mul_sub, abs_mul, abs_mul, abs_two, abs_of_nonneg ht.1]
        exact mul_le_of_le_one_left (by positivity) (ht.2.trans hT)
      bound := fun x _ => by
        rw [tsq_laplacian, abs_of_nonneg (by linarith [ht.1])]
        linarith [ht.2]
      lipschitz := fun c _ x _ y _ => by rw [tsq_laplacian, tsq_laplacian]; simp }
  time := fun x _ t _ => by
    have := (hasDerivWithinAt_id t (Set.Icc 0 T)).mul_const (x 0 ^ 2)
    simpa using this
  velocity := fun x _ s _ t _ => by simp
  spread := fun t _ c hc x hx y hy => by
    have hx' := region_domain hc hx
    have hy' := region_domain hc hy
    rw [unit_domain n hn] at hx' hy'
    rw [len_one, show y 0 ^ 2 - x 0 ^ 2 = (y 0 + x 0) * (y 0 - x 0) by ring, abs_mul]
    refine mul_le_mul_of_nonneg_right ?_ (abs_nonneg _)
    rw [abs_of_nonneg (by linarith [hx'.1, hy'.1])]
    linarith [hx'.2, hy'.2]

/-- The interval in `n` cells and the unit time in `m` steps, for all `n` and `m`. -/
example : ∃ C : ℝ, ∀ n m : Nat, 0 < n → 0 < m → ∃ (lu : Solver ℝ) (P : Prob ℝ) (sol : Nat → Nat → ℝ),
    problem1 1 (.add .dT (.neg .lap)) lineCells n (n + 1) (unitX n) (fun p => p == 0 || p == n) = .ok P ∧
    (P.init ⟨n * size P.t, m + 1, fun r j => heatForcing (fun t x => t * x 0 ^ 2) (fun _ x => x 0 ^ 2) (j * (1 / m : ℝ))
        (meshPoint lineCells (unitX n) (r / size P.t) fun w => node ℝ P.t (r % size P.t) w)⟩ (fun _ => 0) >>=
      pdeSolveParabolic lu [0, 1 / m] (m + 1) (fun _ => 0) ⟨n + 1, m + 1, fun p j => (j * (1 / m : ℝ)) * (unitX n p 0) ^ 2⟩) = .ok (true, sol) ∧
      ∀ i ≤ m, ∃ W b, PiecewiseAffine n lineCells (unitX n) (sol i) W b ∧
        valueError n lineCells (unitX n) (fun x => i / m * x 0 ^ 2) W b ≤ C * ((1 / m) ^ 2 + (1 / n) ^ 2) := by
  obtain ⟨C, hC⟩ := C138_order_partial (N := 1) (by simp) (D := {p : Fin 1 → ℝ | 0 ≤ p 0 ∧ p 0 ≤ 1}) 0 (a := 0) (ℓ := 1)
    (fun x hx => by rw [sub_zero, abs_of_nonneg hx.1]; exact hx.2) (fun t x => t * x 0 ^ 2) (fun _ x => x 0 ^ 2)
    (M := 2) (B := 2) (L := 0) (K := 0) (L' := 2) (κ := 1) (H := 1) (T := 1) (t0 := 0) (by norm_num) le_rfl le_rfl (by norm_num)
  refine ⟨C, fun n m hn hm => ?_⟩
  have hn' : (1 : ℝ) ≤ n := by exact_mod_cast hn
  have hm' : (0 : ℝ) < m := by exact_mod_cast hm
  obtain ⟨lu, h1, h2⟩ := exists_exactLU (K := ℝ) (n + 1)
  have hT : ((m + 1 - 1 : Nat) : ℝ) * (1 / m - 0) = 1 := by
    rw [Nat.add_sub_cancel]
    field_simp
    ring
  obtain ⟨P, e, h⟩ := hC n (n + 1) lineCells (unitX n) (fun p => p == 0 || p == n) (1 / n) (1 / n) (1 / m) [] (m + 1)
    (scale_good (by positivity) (line_good n hn)) (line_marks n) (unit_domain n hn) (by positivity) (by omega) hT.le
    (tsq_heat n hn (by rw [hT]; norm_num)) (unit_shape n hn) (by positivity) (by rw [one_mul])
    (by rw [div_le_one (by positivity)]; exact hn') (by omega) (by simp) lu h1 h2
  have hsz : ∀ k, k < size P.t → 0 < size P.t := fun k hk => by omega
  obtain ⟨sol, r1, r2⟩ := h ⟨n * size P.t, m + 1, fun r j => heatForcing (fun t x => t * x 0 ^ 2) (fun _ x => x 0 ^ 2) (j * (1 / m : ℝ))
        (meshPoint lineCells (unitX n) (r / size P.t) fun w => node ℝ P.t (r % size P.t) w)⟩ le_rfl rfl
    (fun j hj c hc k hk => by
      dsimp only
      rw [Nat.mul_add_div (hsz k hk), Nat.div_eq_of_lt hk, add_zero, Nat.mul_add_mod, Nat.mod_eq_of_lt hk, zero_add, sub_zero])
    ⟨n + 1, m + 1, fun p j => (j * (1 / m : ℝ)) * (unitX n p 0) ^ 2⟩ le_rfl le_rfl
    (fun j hj p hp _ => by simp only [zero_add, sub_zero]) (fun _ => 0)
  refine ⟨lu, P, sol, e, ?_, fun i hi => ?_⟩
  · rw [← r1]
    simp only [zero_mul]
  · obtain ⟨W, b, r3, r4⟩ := r2 i (by omega)
    refine ⟨W, b, r3, ?_⟩
    have e1 : (fun x : Fin 1 → ℝ => (i : ℝ) / m * x 0 ^ 2) = fun x => (0 + (i : ℝ) * (1 / m - 0)) * x 0 ^ 2 := by
      funext x; ring
    rw [e1]
    rw [sub_zero] at r4 ⊢
    exact r4

end Fdapde.PDE
