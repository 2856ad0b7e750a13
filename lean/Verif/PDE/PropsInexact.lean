import Verif.PDE.LemmasInexact
set_option linter.unusedSectionVars false
/-!
# C146: linear systems solved with rounding errors
-/
namespace Fdapde.PDE
open Fdapde.Quadrature MeasureTheory Matrix Fdapde.Geometry Fdapde.FEM
variable {N : Nat} {P : Prob ℝ} {X : Nat → Nat → ℝ} {I : Nat → Nat → Nat → ℝ}

/-- **C146**, equations: for a problem with definite form, `init` and `solve` with a solver that succeeds on non-singular matrices and has backward
error `ε` succeed; the result takes the data on the boundary dofs, and satisfies the discrete equations of the other dofs, up to `ε` times the sum of
the absolute values of the terms.  Partial: dof 0 on the boundary, see `C62_bug_dof_zero`. -/
theorem C146_residual_partial (P : Prob ℝ) (hP : P.Ok) (hE : P.Definite) {ε : ℝ} (lu : Solver ℝ) (hlu : BackwardLU P.m ε lu) (hlc : CompleteLU P.m lu)
    (data : Dense ℝ) (hr : P.n * size P.t ≤ data.rows) (hc : data.cols = 1) (g : Dense ℝ) (hg : P.m ≤ g.rows) (hgc : 0 < g.cols)
    (hm : 0 < P.m) (h0 : P.bd 0 = true) (junk : Nat → ℝ) :
    ∃ (w : Nat → ℝ) (A : Nat → Nat → ℝ) (b : Nat → ℝ), (P.init data junk >>= pdeSolveElliptic lu g) = .ok (true, some w) ∧
      (∀ u v, ∑ p ∈ Finset.range P.m, ∑ q ∈ Finset.range P.m, v p * A p q * u q = P.bilin u v) ∧
      (∀ v : Nat → ℝ, ∑ p ∈ Finset.range P.m, v p * b p = P.load (fun c k => data.at' (size P.t * c + k) 0) v) ∧
      (∀ p < P.m, P.bd p = true → |w p - g.at' p 0| ≤ ε * (|w p| + |g.at' p 0|)) ∧
      ∀ p < P.m, P.bd p = false → |∑ q ∈ Finset.range P.m, A p q * w q - b p| ≤ ε * (∑ q ∈ Finset.range P.m, |A p q| * |w q| + |b p|) := by
  obtain ⟨s, h1, h2, h3, h4, h5, h6, _, h8⟩ := C102_init P hP data hr (by omega) junk
  have hload := h8 0 (Or.inl rfl)
  rw [hc, Nat.mul_one] at h5
  obtain ⟨s', e, a1, a2, a3, a4, a5, a6, a7⟩ := C62_rows g s h4 (by rw [h2]; exact hg) hgc (by rw [h2, h5])
  rw [h2, h3] at a6 a7
  have hbd : ∀ p, P.bd p = true → p < P.m → p < P.m ∧ (p = 0 ∨ P.bd p = true) := fun p hb hp => ⟨hp, .inr hb⟩
  have hin : ∀ p, P.bd p = false → ¬ (p < P.m ∧ (p = 0 ∨ P.bd p = true)) := by
    rintro p hb ⟨_, rfl | h⟩
    · rw [h0] at hb; cases hb
    · rw [h] at hb; cases hb
  have hs : (lu s'.stiff).isSome := by
    apply hlc
    refine dirichlet_det P hE s.stiff s'.stiff h6 fun p hp q => ?_
    rw [a6]
    by_cases hbp : P.bd p = true
    · rw [if_pos (hbd p hbp hp), if_pos hbp]
    · rw [if_neg (hin p (by simpa using hbp)), if_neg hbp]
  obtain ⟨F, hF⟩ := Option.isSome_iff_exists.1 hs
  refine ⟨F s'.force, s.stiff, s.force, ?_, h6, fun v => ?_, fun p hp hb => ?_, fun p hp hb => ?_⟩
  · rw [h1, Res.ok_bind, pdeSolveElliptic, if_neg (Nat.mul_pos (by omega) hgc).ne', e, Res.ok_bind]
    change solveElliptic lu s' = _
    rw [solveElliptic, if_neg (by simp [a5]), hF]
    dsimp only
    rw [if_pos (by rw [a4, a1, h5, h2])]
  · have := hload v
    simp only [Nat.mul_zero, Nat.zero_add] at this
    exact this
  · have := hlu _ _ hF s'.force p hp
    simp only [a6, a7, if_pos (hbd p hb hp), ite_mul, one_mul, zero_mul] at this
    rw [Finset.sum_ite_eq' (Finset.range P.m) p, if_pos (Finset.mem_range.2 hp)] at this
    refine this.trans (le_of_eq ?_)
    congr 2
    rw [Finset.sum_eq_single p]
    · simp
    · intro q _ hq; simp [hq]
    · intro hq; exact absurd (Finset.mem_range.2 hp) hq
  · have := hlu _ _ hF s'.force p hp
    simpa only [a6, a7, if_neg (hin p hb)] using this

theorem affine_sum (h : P.OnNodes X I) {w' w s v : Nat → ℝ} {W' W S V : Nat → Fin P.N → ℝ} {b' b a d : Nat → ℝ} (hW' : P.Affine X w' W' b')
    (hW : P.Affine X w W b) (hS : P.Affine X s S a) (hV : P.Affine X v V d) {c : Nat} (hc : c < P.n)
    (e : ∀ i < P.nb, w' (P.dofs c i) = w (P.dofs c i) + (s (P.dofs c i) + v (P.dofs c i))) :
    (∀ z, W' c z = W c z + (S c z + V c z)) ∧ b' c = b c + (a c + d c) := by
  have hz : ∀ z, W' c z = W c z + (S c z + V c z) := by
    intro z
    rw [← slope_grad h (fun c hc => ⟨b' c, hW' c hc⟩) hc z, ← slope_grad h (fun c hc => ⟨b c, hW c hc⟩) hc z,
      ← slope_grad h (fun c hc => ⟨a c, hS c hc⟩) hc z, ← slope_grad h (fun c hc => ⟨d c, hV c hc⟩) hc z, ← Finset.sum_add_distrib, ← Finset.sum_add_distrib]
    exact Finset.sum_congr rfl fun i hi => by rw [e i (Finset.mem_range.1 hi)]; ring
  refine ⟨hz, ?_⟩
  have h0 : 0 < P.nb := by rw [nb_eq h]; omega
  have := e 0 h0
  rw [hW' c hc 0 h0, hW c hc 0 h0, hS c hc 0 h0, hV c hc 0 h0] at this
  simp only [hz, add_mul, Finset.sum_add_distrib] at this
  linarith

/-- Amplification of the backward error in the gradient, over the root of the volume. -/
noncomputable def gradConst (N : Nat) (hh ρ C Λ bm cm α0 Wm Fm : ℝ) : ℝ := 2 * ((N + 1) / ρ) * Wm + innerConst N hh ρ C Λ bm cm Wm Fm / α0

/-- Square of the amplification of the backward error in the values, over the volume. -/
noncomputable def valueConst (N : Nat) (hh ρ C Λ bm cm α0 Wm Fm : ℝ) : ℝ := 8 * Wm ^ 2 + 2 * (C * (innerConst N hh ρ C Λ bm cm Wm Fm / α0)) ^ 2

/-- Errors in the presence of a perturbation that is the sum of a small function and of a test function with small gradient. -/
theorem near_errors (h : P.OnNodes X I) {hh ρ C : ℝ} (hs : P.Shape X hh ρ) (hρ : 0 < ρ) (hF : P.Friedrichs X C)
    {u : (Fin P.N → ℝ) → ℝ} {q : (Fin P.N → ℝ) → Fin P.N → ℝ} (hq : ∀ c < P.n, ContinuousOn q (P.cell X c)) (hu : ∀ c < P.n, ContinuousOn u (P.cell X c))
    {w w' s v : Nat → ℝ} {W W' S V : Nat → Fin P.N → ℝ} {b b' a d : Nat → ℝ} (hW : P.Affine X w W b) (hW' : P.Affine X w' W' b')
    (hS : P.Affine X s S a) (hV : P.Affine X v V d) (e : ∀ c < P.n, ∀ i < P.nb, w' (P.dofs c i) = w (P.dofs c i) + (s (P.dofs c i) + v (P.dofs c i)))
    {η ν : ℝ} (hη : 0 ≤ η) (hν : 0 ≤ ν) (hsη : ∀ p, |s p| ≤ η) (hT : P.Test v)
    (hvν : Real.sqrt (P.energySq X V) ≤ ν * Real.sqrt (∑ c ∈ Finset.range P.n, P.measure c)) :
    P.errorSq X q W' ≤ 2 * P.errorSq X q W + 2 * (((P.N + 1) / ρ * η + ν) ^ 2 * ∑ c ∈ Finset.range P.n, P.measure c) ∧
    ∑ c ∈ Finset.range P.n, ∫ x in P.cell X c, (u x - aff (W' c) (b' c) x) ^ 2 ≤
      2 * (∑ c ∈ Finset.range P.n, ∫ x in P.cell X c, (u x - aff (W c) (b c) x) ^ 2) +
        2 * ((2 * η ^ 2 + 2 * (C * ν) ^ 2) * ∑ c ∈ Finset.range P.n, P.measure c) := by
  have hV0 : 0 ≤ ∑ c ∈ Finset.range P.n, P.measure c := Finset.sum_nonneg fun c hc => (measure_pos h (Finset.mem_range.1 hc)).le
  have hsv := Real.sq_sqrt hV0
  have hEV : P.energySq X V ≤ ν ^ 2 * ∑ c ∈ Finset.range P.n, P.measure c := by
    have := pow_le_pow_left₀ (Real.sqrt_nonneg _) hvν 2
    rwa [Real.sq_sqrt (energySq_nonneg h V), mul_pow, hsv] at this
  constructor
  · have h1 : P.energySq X (fun c z => S c z + V c z) ≤ ((P.N + 1) / ρ * η + ν) ^ 2 * ∑ c ∈ Finset.range P.n, P.measure c := by
      have i1 := (energy_triangle h S V).trans (add_le_add (lift_energy h hs hρ hη (fun c _ i _ => hsη _) hS) hvν)
      rw [← add_mul] at i1
      have := pow_le_pow_left₀ (Real.sqrt_nonneg _) i1 2
      rwa [Real.sq_sqrt (energySq_nonneg h _), mul_pow, hsv] at this
    refine le_trans ?_ (add_le_add le_rfl (mul_le_mul_of_nonneg_left h1 two_pos.le))
    rw [Prob.errorSq, Prob.errorSq, energySq_eq h, Finset.mul_sum, Finset.mul_sum, ← Finset.sum_add_distrib]
    refine Finset.sum_le_sum fun c hc => ?_
    have hc' := Finset.mem_range.1 hc
    have hz := (affine_sum h hW' hW hS hV hc' (e c hc')).1
    have cont : ∀ G : Fin P.N → ℝ, ContinuousOn (fun x => ∑ z : Fin P.N, (q x z - G z) ^ 2) (P.cell X c) := fun G =>
      continuousOn_finsetSum _ fun z _ => (((continuousOn_pi.1 (hq c hc')) z).sub continuousOn_const).pow 2
    have i1 := (cont (W c)).integrableOn_compact (μ := volume) (cell_compact c)
    rw [← cell_const h hc', ← integral_const_mul, ← integral_const_mul, ← integral_add (i1.const_mul 2) ((int_const c _).const_mul 2)]
    refine setIntegral_mono_on ((cont (W' c)).integrableOn_compact (cell_compact c)) ((i1.const_mul 2).add ((int_const c _).const_mul 2))
      (cell_compact c).measurableSet fun x _ => ?_
    rw [Finset.mul_sum, Finset.mul_sum, ← Finset.sum_add_distrib]
    exact Finset.sum_le_sum fun z _ => by rw [hz z]; nlinarith [sq_nonneg ((q x z - W c z) + (S c z + V c z))]
  · have h2 : ∑ c ∈ Finset.range P.n, ∫ x in P.cell X c, aff (V c) (d c) x ^ 2 ≤ (C * ν) ^ 2 * ∑ c ∈ Finset.range P.n, P.measure c := by
      refine (hF v V d hT hV).trans ((mul_le_mul_of_nonneg_left hEV (sq_nonneg C)).trans (le_of_eq ?_))
      ring
    have h3 : ∑ c ∈ Finset.range P.n, ∫ x in P.cell X c, (u x - aff (W' c) (b' c) x) ^ 2 ≤
        ∑ c ∈ Finset.range P.n, (2 * (∫ x in P.cell X c, (u x - aff (W c) (b c) x) ^ 2) + 4 * (∫ x in P.cell X c, aff (V c) (d c) x ^ 2) +
          P.measure c * (4 * η ^ 2)) := by
      refine Finset.sum_le_sum fun c hc => ?_
      have hc' := Finset.mem_range.1 hc
      obtain ⟨hz, hb⟩ := affine_sum h hW' hW hS hV hc' (e c hc')
      have i1 : IntegrableOn (fun x => (u x - aff (W c) (b c) x) ^ 2) (P.cell X c) :=
        (((hu c hc').sub (aff_cont _ _).continuousOn).pow 2).integrableOn_compact (cell_compact c)
      have i2 : IntegrableOn (fun x => aff (V c) (d c) x ^ 2) (P.cell X c) := ((aff_cont _ _).pow 2).continuousOn.integrableOn_compact (cell_compact c)
      have i3 : IntegrableOn (fun x => (u x - aff (W' c) (b' c) x) ^ 2) (P.cell X c) :=
        (((hu c hc').sub (aff_cont _ _).continuousOn).pow 2).integrableOn_compact (cell_compact c)
      have i12 : IntegrableOn (fun x => 2 * (u x - aff (W c) (b c) x) ^ 2 + 4 * aff (V c) (d c) x ^ 2) (P.cell X c) := (i1.const_mul 2).add (i2.const_mul 4)
      rw [← cell_const h hc', ← integral_const_mul, ← integral_const_mul, ← integral_add (i1.const_mul 2) (i2.const_mul 4),
        ← integral_add i12 (int_const c _)]
      refine setIntegral_mono_on i3 (i12.add (int_const c _)) (cell_compact c).measurableSet fun x hx => ?_
      have ev : aff (W' c) (b' c) x = aff (W c) (b c) x + (aff (S c) (a c) x + aff (V c) (d c) x) := by
        simp only [aff, hz, hb, add_mul, Finset.sum_add_distrib]
        ring
      have hS' : aff (S c) (a c) x ^ 2 ≤ η ^ 2 := by
        rw [← sq_abs (aff (S c) (a c) x)]
        exact pow_le_pow_left₀ (abs_nonneg _) (node_value h hS hc' (fun i _ => hsη _) hx) 2
      show (u x - aff (W' c) (b' c) x) ^ 2 ≤ 2 * (u x - aff (W c) (b c) x) ^ 2 + 4 * aff (V c) (d c) x ^ 2 + 4 * η ^ 2
      rw [ev]
      set y := u x - aff (W c) (b c) x
      set p := aff (S c) (a c) x
      set t := aff (V c) (d c) x
      have : u x - (aff (W c) (b c) x + (p + t)) = y - (p + t) := by ring
      rw [this]
      nlinarith [sq_nonneg (y + (p + t)), sq_nonneg (p - t)]
    refine h3.trans ?_
    rw [Finset.sum_add_distrib, Finset.sum_add_distrib, ← Finset.mul_sum, ← Finset.mul_sum, ← Finset.sum_mul]
    linarith

set_option maxHeartbeats 1000000 in
/-- **C146**: as C139, for a linear solver with backward error `ε`: the function returned differs from the exact solution `u` by the errors of C139 and by
`ε` times a constant that depends on the coefficients, on the bounds `Wm` of the computed values and `Fm` of the forcing, and on the heights of the cells
(as the inverse of their square).  Partial: dof 0 on the boundary, see `C62_bug_dof_zero`; the assembly is exact, the error of its rounding is not modelled. -/
theorem C146_elliptic_partial (hN : N ∈ [1, 2, 3]) {n nNodes : Nat} {cells : Nat → Nat → Nat} {X : Nat → Fin N → ℝ} (bNodes : Nat → Bool)
    (h : GoodMesh (N + 1) n nNodes cells X) (hb : MarksBoundary (N + 1) n cells bNodes) {hh ρ : ℝ} (hs : MeshShape n cells X hh ρ) (hρ : 0 < ρ)
    {A : (Fin N → ℝ) → Fin N → Fin N → ℝ} {β : (Fin N → ℝ) → Fin N → ℝ} {r u : (Fin N → ℝ) → ℝ} {α Λ bm γ cm M F B L : ℝ}
    (hco : Bounded (domain (N + 1) n cells X) A β r α Λ bm γ cm) (hu : FluxOn n cells X A u M F B L) (hM : 0 ≤ M) (hF : 0 ≤ F) (hL : 0 ≤ L)
    (hΛ : 0 ≤ Λ) (hγ : 0 ≤ γ) (z : Fin N) {a ℓ : ℝ} (hl : ∀ x ∈ domain (N + 1) n cells X, |x z - a| ≤ ℓ)
    (hα : 0 < α - bm * (2 * ℓ + hh) - γ * (2 * ℓ + hh) ^ 2)
    {op : Op ℝ} {Dr : Nat → Nat → Nat → ℝ} {br : Nat → Nat → ℝ} {cr : Nat → ℝ} (hop : StandsFor N op Dr br cr) (hsy : FlagRight N op) (hns : NoScalar op)
    {ε : ℝ} (hε : 0 ≤ ε) (lu : Solver ℝ) (hlu : BackwardLU nNodes ε lu) (hlc : CompleteLU nNodes lu) (hm : 0 < nNodes) (h0 : bNodes 0 = true)
    {Fm : ℝ} (hFm : ∀ x ∈ domain (N + 1) n cells X, |ellipticForcing A β r u x| ≤ Fm) :
    ∃ P, problem1 N op cells n nNodes X bNodes = .ok P ∧ (Sampled n cells X P.t A β r Dr br cr →
      ∀ (data : Dense ℝ), n * size P.t ≤ data.rows → data.cols = 1 →
      (∀ c < n, ∀ k < size P.t, data.at' (size P.t * c + k) 0 = ellipticForcing A β r u (meshPoint cells X c fun w => node ℝ P.t k w)) →
      ∀ g : Dense ℝ, nNodes ≤ g.rows → 0 < g.cols → (∀ p < nNodes, bNodes p = true → g.at' p 0 = u (X p)) →
      ∀ junk, ∃ w W b, (P.init data junk >>= pdeSolveElliptic lu g) = .ok (true, some w) ∧ PiecewiseAffine n cells X w W b ∧
        ∀ Wm, (∀ p < nNodes, |w p| ≤ Wm) → (∀ p < nNodes, bNodes p = true → |u (X p)| ≤ Wm) →
        gradError n cells X u W ≤ (4 * (((N + 1) * M * hh ^ 2 / (2 * ρ)) ^ 2 +
          (ellipticConst N hh ρ ℓ Λ bm cm M F B L / (α - bm * (2 * ℓ + hh) - γ * (2 * ℓ + hh) ^ 2)) ^ 2) +
          2 * (ε * gradConst N hh ρ (2 * ℓ) Λ bm cm (α - bm * (2 * ℓ + hh) - γ * (2 * ℓ + hh) ^ 2) Wm Fm) ^ 2) * (volume (domain (N + 1) n cells X)).toReal ∧
        valueError n cells X u W b ≤ (2 * (2 * (M / 2 * hh ^ 2) ^ 2 + 16 * ℓ ^ 2 * (3 * ((N + 1) * M * hh ^ 2 / (2 * ρ)) ^ 2 +
          2 * (ellipticConst N hh ρ ℓ Λ bm cm M F B L / (α - bm * (2 * ℓ + hh) - γ * (2 * ℓ + hh) ^ 2)) ^ 2)) +
          2 * (ε ^ 2 * valueConst N hh ρ (2 * ℓ) Λ bm cm (α - bm * (2 * ℓ + hh) - γ * (2 * ℓ + hh) ^ 2) Wm Fm)) *
            (volume (domain (N + 1) n cells X)).toReal) := by
  obtain ⟨lu0, hlu0, hlc0⟩ := exists_exactLU (K := ℝ) nNodes
  obtain ⟨P0, eP0, hP0⟩ := C139_elliptic_partial hN bNodes h hb hs hρ hco hu hM hF hL hΛ hγ z hl hα hop hsy hns lu0 hlu0 hlc0 hm h0
  have hd : Dims N N := by
    simp only [Dims, List.mem_cons, Prod.mk.injEq, List.not_mem_nil, or_false] at hN ⊢
    omega
  have hN0 : 0 < N := by
    simp only [List.mem_cons, List.not_mem_nil, or_false] at hN
    omega
  obtain ⟨t, ht⟩ := rule1 hN
  refine ⟨meshProb N 1 (N + 1) t op cells n X (enumDofs1 cells nNodes bNodes), by rw [problem1, ht]; rfl, fun hsa data hr hc hf g hg hgc hgb junk => ?_⟩
  change Sampled n cells X t A β r Dr br cr at hsa
  have hO := mesh_onNodes (nNodes := nNodes) hN ht op h.proper bNodes
  have hcf := mesh_conforming (t := t) hN0 op h hb
  have hsm := flux_smooth (t := t) (nNodes := nNodes) op bNodes hM hu
  have hpo := flux_poisson hN ht op h hb hu
  have hre := flux_regular (t := t) (nNodes := nNodes) op bNodes hu
  have hsh := exact_shape (t := t) (nNodes := nNodes) op bNodes hρ hs
  have hpt := mesh_point (t := t) (n := n) (nNodes := nNodes) (cells := cells) (X := X) op bNodes
  have hce := mesh_cell (t := t) (n := n) (nNodes := nNodes) (cells := cells) (X := X) op bNodes
  have hPo : (meshProb N 1 (N + 1) t op cells n X (enumDofs1 cells nNodes bNodes)).Ok := ⟨h.nodes, hsy, hns⟩
  obtain ⟨c0, hc0, v0, hv0, -⟩ := h.used 0 hm
  have hx0 : X (cells c0 v0) ∈ domain (N + 1) n cells X := region_domain hc0 (subset_convexHull ℝ _ ⟨v0, hv0, rfl⟩)
  have hh0 : 0 ≤ hh := (len_nonneg _).trans (hs.diam c0 hc0 v0 hv0 v0 hv0)
  have hB : 0 ≤ B := (abs_nonneg _).trans (hu.bound _ hx0)
  have hl0 : 0 ≤ ℓ := (abs_nonneg _).trans (hl _ hx0)
  have hbm : 0 ≤ bm := (len_nonneg _).trans (hco.transport _ hx0)
  have hcm : 0 ≤ cm := (abs_nonneg _).trans (hco.reaction _ hx0).2
  have hvol : ∑ c ∈ Finset.range n, (volume ((meshProb N 1 (N + 1) t op cells n X (enumDofs1 cells nNodes bNodes)).cell (natX X) c)).toReal =
      (volume (domain (N + 1) n cells X)).toReal := by
    rw [← domain_volume h]
    exact Finset.sum_congr rfl fun c _ => congrArg (fun s : Set (Fin N → ℝ) => (volume s).toReal) (hce c)
  have hms : ∑ c ∈ Finset.range n, (meshProb N 1 (N + 1) t op cells n X (enumDofs1 cells nNodes bNodes)).measure c =
      (volume (domain (N + 1) n cells X)).toReal := by
    rw [← hvol]
    exact Finset.sum_congr rfl fun c hc => (cell_measure hO (Finset.mem_range.1 hc)).symm
  have hFr := friedrichs hO hcf h.nodes z (a := a) (ℓ := ℓ) fun c hc x hx => hl x (region_domain hc (by rw [hce] at hx; exact hx))
  have hC0 : 0 ≤ 2 * ℓ := mul_nonneg two_pos.le hl0
  have hpd : ∀ c < n, ∀ k < size t, (meshPoint cells X c fun w => node ℝ t k w) ∈ region (N + 1) cells X c := fun c hc k hk => by
    have := node_mem hO c hk
    rw [hce] at this
    rw [← hpt c k]
    exact this
  have hpD : ∀ c < n, ∀ k < size t, (meshPoint cells X c fun w => node ℝ t k w) ∈ domain (N + 1) n cells X := fun c hc k hk => region_domain hc (hpd c hc k hk)
  have hform : (meshProb N 1 (N + 1) t op cells n X (enumDofs1 cells nNodes bNodes)).Form
      (fun c k z y => A (meshPoint cells X c fun w => node ℝ t k w) z y) (fun c k z => β (meshPoint cells X c fun w => node ℝ t k w) z)
      (fun c k => r (meshPoint cells X c fun w => node ℝ t k w)) := by
    intro c hc k hk u v gu gv
    refine (hop (size t * c + k) u v gu gv).trans ?_
    rw [hsa.reaction c hc k hk]
    simp only [dot]
    rw [Finset.sum_range, Finset.sum_range]
    simp only [Finset.sum_range, hsa.diffusion c hc k hk, hsa.transport c hc k hk]
    rfl
  have hdef := form_definite hO hform hsh hh0 hC0 hFr hbm hγ (fun c hc k hk => hco.elliptic _ (hpD c hc k hk)) (fun c hc k hk => hco.transport _ (hpD c hc k hk))
    (fun c hc k hk => (hco.reaction _ (hpD c hc k hk)).1) hα h.used
  obtain ⟨w, As, bs, s1, s2, s3, s4, s5⟩ := C146_residual_partial (meshProb N 1 (N + 1) t op cells n X (enumDofs1 cells nNodes bNodes)) hPo hdef lu hlu hlc data hr hc g hg hgc hm h0 junk
  have eP : P0 = meshProb N 1 (N + 1) t op cells n X (enumDofs1 cells nNodes bNodes) := by
    rw [problem1, ht] at eP0
    exact (Res.ok.inj eP0).symm
  subst eP
  obtain ⟨w0, W0, b0, q1, q2, q3, q4⟩ := hP0 hsa data hr hc hf g hg hgc hgb junk
  obtain ⟨w1, k1, k2, -⟩ := C103_definite_partial (meshProb N 1 (N + 1) t op cells n X (enumDofs1 cells nNodes bNodes)) hPo hdef lu0 hlu0 hlc0 data hr hc g hg hgc hm h0 junk
  have e01 : w0 = w1 := by
    have := Res.ok.inj (q1.symm.trans k1)
    exact Option.some.inj (Prod.mk.inj this).2
  subst e01
  obtain ⟨W, b, hW⟩ := affine_exists hO w
  have hW0 : (meshProb N 1 (N + 1) t op cells n X (enumDofs1 cells nNodes bNodes)).Affine (natX X) w0 W0 b0 := fun c hc v hv => by
    refine (q2 c hc v hv).trans ?_
    congr 1
    exact Finset.sum_congr rfl fun z _ => by rw [← natX_fin X]; rfl
  have hgb' : ∀ p < nNodes, bNodes p = true → g.at' p 0 = u fun z : Fin N => natX X p z := fun p hp hb => by rw [natX_fin]; exact hgb p hp hb
  refine ⟨w, W, b, s1, fun c hc v hv => ?_, fun Wm hWm hgm => ?_⟩
  · refine (hW c hc v hv).trans ?_
    congr 1
    exact Finset.sum_congr rfl fun z _ => by rw [← natX_fin X]; rfl
  have hWm0 : 0 ≤ Wm := (abs_nonneg _).trans (hWm 0 hm)
  have hk : 0 < size t := by
    have hσ := weights_pos hO
    by_contra hk
    rw [show (meshProb N 1 (N + 1) t op cells n X (enumDofs1 cells nNodes bNodes)).t = t from rfl, Nat.eq_zero_of_not_pos hk] at hσ
    simp at hσ
  have hFm0 : 0 ≤ Fm := (abs_nonneg _).trans (hFm _ (hpD c0 hc0 0 hk))
  obtain ⟨s, v, n1, n2, n3, n4⟩ := near_split hO hPo hform hsh hh0 hρ hC0 hFr hΛ hbm hcm hγ
    (fun c hc k hk => hco.elliptic _ (hpD c hc k hk)) (fun c hc k hk => hco.diffusion _ (hpD c hc k hk)) (fun c hc k hk => hco.transport _ (hpD c hc k hk))
    (fun c hc k hk => (hco.reaction _ (hpD c hc k hk)).1) (fun c hc k hk => (hco.reaction _ (hpD c hc k hk)).2) hα
    (f := fun c k => data.at' (size t * c + k) 0) (Fm := Fm) (fun c hc k hk => by
      rw [show data.at' (size t * c + k) 0 = _ from hf c hc k hk]
      exact hFm _ (hpD c hc k hk)) s2 s3 k2 hε hWm hWm0 (fun p hp hb => by
        refine (s4 p hp hb).trans ?_
        have i1 := hWm p hp
        have i2 := hgm p hp hb
        rw [← hgb p hp hb] at i2
        have := mul_le_mul_of_nonneg_left (add_le_add i1 i2) hε
        linarith) s5
  obtain ⟨S, sa, hS⟩ := affine_exists hO s
  obtain ⟨V, vd, hV⟩ := affine_exists hO v
  have hrc : 0 ≤ rowConst N ρ Λ bm cm := by rw [rowConst]; positivity
  have hI0 : 0 ≤ innerConst N hh ρ (2 * ℓ) Λ bm cm Wm Fm := by rw [innerConst]; positivity
  obtain ⟨m1, m2⟩ := near_errors hO hsh hρ hFr (q := fun x z => pderiv u z x) (u := u)
    (flux_smooth (t := t) (nNodes := nNodes) op bNodes hM hu).cont (fun c hc => by
      rw [hce]
      obtain ⟨U, hU, hD, hC, -⟩ := hu.smooth
      exact hC.continuousOn.mono ((region_domain hc).trans hD)) hW0 hW hS hV (fun c hc i hi => n1 _ (hPo.dofs c hc i hi)) (η := 2 * ε * Wm)
    (ν := ε * (innerConst N hh ρ (2 * ℓ) Λ bm cm Wm Fm / (α - bm * (2 * ℓ + hh) - γ * (2 * ℓ + hh) ^ 2))) (by positivity)
    (mul_nonneg hε (div_nonneg hI0 hα.le)) n2 n3 (n4 V vd hV)
  rw [show (∑ c ∈ Finset.range (meshProb N 1 (N + 1) t op cells n X (enumDofs1 cells nNodes bNodes)).n, 
    (meshProb N 1 (N + 1) t op cells n X (enumDofs1 cells nNodes bNodes)).measure c) = _ from hms] at m1 m2
  have hge := mesh_gradError (t := t) (n := n) (nNodes := nNodes) (cells := cells) (X := X) op bNodes u
  have hve := mesh_valueError (t := t) (n := n) (nNodes := nNodes) (cells := cells) (X := X) op bNodes u
  rw [← hge W0] at m1
  have m2' : valueError n cells X u W b ≤ 2 * valueError n cells X u W0 b0 + 2 * ((2 * (2 * ε * Wm) ^ 2 +
      2 * (2 * ℓ * (ε * (innerConst N hh ρ (2 * ℓ) Λ bm cm Wm Fm / (α - bm * (2 * ℓ + hh) - γ * (2 * ℓ + hh) ^ 2)))) ^ 2) *
        (volume (domain (N + 1) n cells X)).toReal) := by
    rw [hve W0 b0, show valueError n cells X u W b = _ from hve W b]
    exact m2
  set Vo := (volume (domain (N + 1) n cells X)).toReal with hVo
  set α0 := α - bm * (2 * ℓ + hh) - γ * (2 * ℓ + hh) ^ 2 with hα0
  constructor
  · refine (le_of_eq (hge W)).trans (m1.trans ?_)
    have e : (N + 1) / ρ * (2 * ε * Wm) + ε * (innerConst N hh ρ (2 * ℓ) Λ bm cm Wm Fm / α0) = ε * gradConst N hh ρ (2 * ℓ) Λ bm cm α0 Wm Fm := by
      rw [gradConst]; ring
    show 2 * gradError n cells X u W0 + 2 * (((N + 1) / ρ * (2 * ε * Wm) + ε * (innerConst N hh ρ (2 * ℓ) Λ bm cm Wm Fm / α0)) ^ 2 * Vo) ≤ _
    rw [e]
    linarith
  · refine m2'.trans ?_
    have e : 2 * (2 * ε * Wm) ^ 2 + 2 * (2 * ℓ * (ε * (innerConst N hh ρ (2 * ℓ) Λ bm cm Wm Fm / α0))) ^ 2 =
        ε ^ 2 * valueConst N hh ρ (2 * ℓ) Λ bm cm α0 Wm Fm := by
      rw [valueConst]; ring
    rw [e]
    linarith

/-- The constants of the amplification grow as the inverse of the square of the heights. -/
theorem const_bounds {N : Nat} {hh ρ H ℓ Λ bm cm α0 α1 Wm Fm ε : ℝ} (hρ : 0 < ρ) (hρH : ρ ≤ H) (hh0 : 0 ≤ hh) (hH : hh ≤ H) (hl0 : 0 ≤ ℓ) (hΛ : 0 ≤ Λ)
    (hbm : 0 ≤ bm) (hcm : 0 ≤ cm) (hα : 0 < α0) (hαle : α0 ≤ α1) (hWm : 0 ≤ Wm) (hFm0 : 0 ≤ Fm) (hε : 0 ≤ ε) {k1 k2 k3 k4 : ℝ}
    (hk1 : k1 = Λ * (N + 1) + bm * (N + 1) * H + cm * H ^ 2)
    (hk2 : k2 = (N + 1) * (2 * ℓ + H) * (k1 + Fm * H ^ 2) + 2 * (Λ * (N + 1) * H + (bm * (N + 1) * H + cm * H ^ 2) * (2 * ℓ + H)))
    (hk3 : k3 = 2 * (N + 1) * H + k2 / α0) (hk4 : k4 = 8 * H ^ 4 + 2 * (2 * ℓ * (k2 / α0)) ^ 2) :
    (ε * gradConst N hh ρ (2 * ℓ) Λ bm cm α1 Wm Fm) ^ 2 ≤ k3 ^ 2 * (ε * (Wm + 1) / ρ ^ 2) ^ 2 ∧
      ε ^ 2 * valueConst N hh ρ (2 * ℓ) Λ bm cm α1 Wm Fm ≤ k4 * (ε * (Wm + 1) / ρ ^ 2) ^ 2 := by
  have hα1p : 0 < α1 := hα.trans_le hαle
  have hH0 : 0 ≤ H := hh0.trans hH
  have hle : 2 * ℓ + hh ≤ 2 * ℓ + H := by linarith
  have hp0 : 0 ≤ 2 * ℓ + hh := by linarith
  set T := (Wm + 1) / ρ ^ 2 with hT
  have hT0 : 0 ≤ T := by positivity
  have hρ2 : 0 < ρ ^ 2 := by positivity
  have hk10 : 0 ≤ k1 := by rw [hk1]; positivity
  have hk20 : 0 ≤ k2 := by rw [hk2]; positivity
  have c1 : (N + 1) / ρ ≤ (N + 1) * H / ρ ^ 2 := by
    rw [div_le_div_iff₀ hρ hρ2]
    calc _ = ((N : ℝ) + 1) * ρ * ρ := by ring
      _ ≤ ((N : ℝ) + 1) * ρ * H := mul_le_mul_of_nonneg_left hρH (by positivity)
      _ = _ := by ring
  have c2 : ∀ x : ℝ, 0 ≤ x → x ≤ x * H ^ 2 / ρ ^ 2 := fun x hx => by
    rw [le_div_iff₀ hρ2]
    exact mul_le_mul_of_nonneg_left (pow_le_pow_left₀ hρ.le hρH 2) hx
  have c3 : rowConst N ρ Λ bm cm ≤ k1 / ρ ^ 2 := by
    rw [rowConst]
    have i1 := mul_le_mul_of_nonneg_left c1 hbm
    have i2 := c2 cm hcm
    calc _ = Λ * (N + 1) / ρ ^ 2 + bm * ((N + 1) / ρ) + cm := by field_simp
      _ ≤ Λ * (N + 1) / ρ ^ 2 + bm * ((N + 1) * H / ρ ^ 2) + cm * H ^ 2 / ρ ^ 2 := by linarith
      _ = _ := by rw [hk1]; ring
  have c4 : innerConst N hh ρ (2 * ℓ) Λ bm cm Wm Fm ≤ k2 * T := by
    rw [innerConst]
    have i1 : rowConst N ρ Λ bm cm * Wm + Fm ≤ (k1 + Fm * H ^ 2) * T := by
      have j1 := mul_le_mul_of_nonneg_right c3 hWm
      have j2 := c2 Fm hFm0
      calc _ ≤ k1 / ρ ^ 2 * Wm + Fm * H ^ 2 / ρ ^ 2 := add_le_add j1 j2
        _ ≤ k1 / ρ ^ 2 * (Wm + 1) + Fm * H ^ 2 / ρ ^ 2 * (Wm + 1) :=
          add_le_add (mul_le_mul_of_nonneg_left (by linarith) (by positivity)) (le_mul_of_one_le_right (by positivity) (by linarith))
        _ = _ := by rw [hT]; ring
    have i2 : Λ * ((N + 1) / ρ) + (bm * ((N + 1) / ρ) + cm) * (2 * ℓ + hh) ≤
        (Λ * (N + 1) * H + (bm * (N + 1) * H + cm * H ^ 2) * (2 * ℓ + H)) / ρ ^ 2 := by
      have j1 := mul_le_mul_of_nonneg_left c1 hΛ
      have j2 : bm * ((N + 1) / ρ) + cm ≤ (bm * (N + 1) * H + cm * H ^ 2) / ρ ^ 2 := by
        have := mul_le_mul_of_nonneg_left c1 hbm
        have := c2 cm hcm
        calc _ ≤ bm * ((N + 1) * H / ρ ^ 2) + cm * H ^ 2 / ρ ^ 2 := by linarith
          _ = _ := by ring
      have j3 := mul_le_mul j2 hle hp0 (by positivity)
      calc _ ≤ Λ * ((N + 1) * H / ρ ^ 2) + (bm * (N + 1) * H + cm * H ^ 2) / ρ ^ 2 * (2 * ℓ + H) := add_le_add j1 j3
        _ = _ := by ring
    have i3 : (N + 1) * (2 * ℓ + hh) * (rowConst N ρ Λ bm cm * Wm + Fm) ≤ (N + 1) * (2 * ℓ + H) * ((k1 + Fm * H ^ 2) * T) := by
      have hrc : 0 ≤ rowConst N ρ Λ bm cm := by rw [rowConst]; positivity
      exact mul_le_mul (mul_le_mul_of_nonneg_left hle (by positivity)) i1 (by positivity) (by positivity)
    have i4 : 2 * Wm * (Λ * ((N + 1) / ρ) + (bm * ((N + 1) / ρ) + cm) * (2 * ℓ + hh)) ≤
        2 * (Λ * (N + 1) * H + (bm * (N + 1) * H + cm * H ^ 2) * (2 * ℓ + H)) * T := by
      calc _ ≤ 2 * Wm * ((Λ * (N + 1) * H + (bm * (N + 1) * H + cm * H ^ 2) * (2 * ℓ + H)) / ρ ^ 2) := mul_le_mul_of_nonneg_left i2 (by positivity)
        _ ≤ 2 * (Wm + 1) * ((Λ * (N + 1) * H + (bm * (N + 1) * H + cm * H ^ 2) * (2 * ℓ + H)) / ρ ^ 2) :=
          mul_le_mul_of_nonneg_right (by linarith) (by positivity)
        _ = _ := by rw [hT]; ring
    calc _ ≤ (N + 1) * (2 * ℓ + H) * ((k1 + Fm * H ^ 2) * T) + 2 * (Λ * (N + 1) * H + (bm * (N + 1) * H + cm * H ^ 2) * (2 * ℓ + H)) * T := add_le_add i3 i4
      _ = _ := by rw [hk2]; ring
  have hI20 : 0 ≤ innerConst N hh ρ (2 * ℓ) Λ bm cm Wm Fm := by
    have hrc : 0 ≤ rowConst N ρ Λ bm cm := by rw [rowConst]; positivity
    rw [innerConst]; positivity
  have c5 : innerConst N hh ρ (2 * ℓ) Λ bm cm Wm Fm / α1 ≤ k2 / α0 * T := by
    calc _ ≤ innerConst N hh ρ (2 * ℓ) Λ bm cm Wm Fm / α0 := div_le_div_of_nonneg_left hI20 hα hαle
      _ ≤ k2 * T / α0 := div_le_div_of_nonneg_right c4 hα.le
      _ = _ := by ring
  have c6 : (ε * gradConst N hh ρ (2 * ℓ) Λ bm cm α1 Wm Fm) ^ 2 ≤ k3 ^ 2 * (ε * T) ^ 2 := by
    rw [← mul_pow]
    refine pow_le_pow_left₀ (mul_nonneg hε (by rw [gradConst]; positivity)) ?_ 2
    have : gradConst N hh ρ (2 * ℓ) Λ bm cm α1 Wm Fm ≤ k3 * T := by
      rw [gradConst]
      calc _ ≤ 2 * ((N + 1) * H / ρ ^ 2) * (Wm + 1) + k2 / α0 * T :=
            add_le_add (mul_le_mul (mul_le_mul_of_nonneg_left c1 two_pos.le) (by linarith) hWm (by positivity)) c5
        _ = _ := by rw [hk3, hT]; ring
    calc _ ≤ ε * (k3 * T) := mul_le_mul_of_nonneg_left this hε
      _ = _ := by ring
  have c7 : ε ^ 2 * valueConst N hh ρ (2 * ℓ) Λ bm cm α1 Wm Fm ≤ k4 * (ε * T) ^ 2 := by
    have i1 : Wm ≤ H ^ 2 * T := by
      calc Wm ≤ Wm * H ^ 2 / ρ ^ 2 := c2 Wm hWm
        _ ≤ (Wm + 1) * H ^ 2 / ρ ^ 2 := div_le_div_of_nonneg_right (mul_le_mul_of_nonneg_right (by linarith) (sq_nonneg _)) hρ2.le
        _ = _ := by rw [hT]; ring
    have i2 := pow_le_pow_left₀ hWm i1 2
    have i3 : (2 * ℓ * (innerConst N hh ρ (2 * ℓ) Λ bm cm Wm Fm / α1)) ^ 2 ≤ (2 * ℓ * (k2 / α0 * T)) ^ 2 :=
      pow_le_pow_left₀ (by positivity) (mul_le_mul_of_nonneg_left c5 (by positivity)) 2
    rw [valueConst]
    calc _ ≤ ε ^ 2 * (8 * (H ^ 2 * T) ^ 2 + 2 * (2 * ℓ * (k2 / α0 * T)) ^ 2) := mul_le_mul_of_nonneg_left (by linarith) (sq_nonneg _)
      _ = _ := by rw [hk4]; ring
  have eT : ε * (Wm + 1) / ρ ^ 2 = ε * T := by rw [hT]; ring
  rw [eT]
  exact ⟨c6, c7⟩

theorem order_combine {x a k t h V : ℝ} (ha : 0 ≤ a) (hk : 0 ≤ k) (hV : 0 ≤ V) (hx : x ≤ (a * h ^ 2 + k * t ^ 2) * V) : x ≤ (a + k) * V * (h ^ 2 + t ^ 2) := by
  have h1 : 0 ≤ a * V * t ^ 2 := by positivity
  have h2 : 0 ≤ k * V * h ^ 2 := by positivity
  calc x ≤ _ := hx
    _ ≤ (a * h ^ 2 + k * t ^ 2) * V + (a * V * t ^ 2 + k * V * h ^ 2) := by linarith
    _ = _ := by ring

set_option maxHeartbeats 1000000 in
/-- **C146**, order: on a domain, for cells whose size is at most `κ` times their heights, one constant bounds the squares of the errors by the square of
the size of the cells plus the square of the backward error over the square of the heights, for every mesh and every solver.  Partial as
`C146_elliptic_partial`. -/
theorem C146_order_partial (hN : N ∈ [1, 2, 3]) {S : Set (Fin N → ℝ)} (z : Fin N) {a ℓ : ℝ} (hl : ∀ x ∈ S, |x z - a| ≤ ℓ)
    {A : (Fin N → ℝ) → Fin N → Fin N → ℝ} {β : (Fin N → ℝ) → Fin N → ℝ} {r : (Fin N → ℝ) → ℝ} {α Λ bm γ cm : ℝ} (hco : Bounded S A β r α Λ bm γ cm)
    (hΛ : 0 ≤ Λ) (hγ : 0 ≤ γ) (u : (Fin N → ℝ) → ℝ) {M F B L κ H Fm : ℝ} (hM : 0 ≤ M) (hF : 0 ≤ F) (hL : 0 ≤ L)
    (hα : 0 < α - bm * (2 * ℓ + H) - γ * (2 * ℓ + H) ^ 2) (hFm : ∀ x ∈ S, |ellipticForcing A β r u x| ≤ Fm) :
    ∃ C : ℝ, ∀ (n nNodes : Nat) (cells : Nat → Nat → Nat) (X : Nat → Fin N → ℝ) (bNodes : Nat → Bool) (hh ρ : ℝ),
      GoodMesh (N + 1) n nNodes cells X → MarksBoundary (N + 1) n cells bNodes → domain (N + 1) n cells X = S →
      FluxOn n cells X A u M F B L → MeshShape n cells X hh ρ → 0 < ρ → ρ ≤ H → hh ≤ κ * ρ → hh ≤ H → 0 < nNodes → bNodes 0 = true →
      ∀ (op : Op ℝ) (Dr : Nat → Nat → Nat → ℝ) (br : Nat → Nat → ℝ) (cr : Nat → ℝ), StandsFor N op Dr br cr → FlagRight N op → NoScalar op →
      ∀ (ε : ℝ) (lu : Solver ℝ), 0 ≤ ε → BackwardLU nNodes ε lu → CompleteLU nNodes lu →
      ∃ P, problem1 N op cells n nNodes X bNodes = .ok P ∧ (Sampled n cells X P.t A β r Dr br cr →
        ∀ (data : Dense ℝ), n * size P.t ≤ data.rows → data.cols = 1 →
        (∀ c < n, ∀ k < size P.t, data.at' (size P.t * c + k) 0 = ellipticForcing A β r u (meshPoint cells X c fun w => node ℝ P.t k w)) →
        ∀ g : Dense ℝ, nNodes ≤ g.rows → 0 < g.cols → (∀ p < nNodes, bNodes p = true → g.at' p 0 = u (X p)) →
        ∀ junk, ∃ w W b, (P.init data junk >>= pdeSolveElliptic lu g) = .ok (true, some w) ∧ PiecewiseAffine n cells X w W b ∧
          ∀ Wm, (∀ p < nNodes, |w p| ≤ Wm) → (∀ p < nNodes, bNodes p = true → |u (X p)| ≤ Wm) →
          gradError n cells X u W ≤ C * (hh ^ 2 + (ε * (Wm + 1) / ρ ^ 2) ^ 2) ∧ valueError n cells X u W b ≤ C * (hh ^ 2 + (ε * (Wm + 1) / ρ ^ 2) ^ 2)) := by
  set V := (volume S).toReal with hV
  have hV0 : 0 ≤ V := ENNReal.toReal_nonneg
  set α0 := α - bm * (2 * ℓ + H) - γ * (2 * ℓ + H) ^ 2 with hα0
  set a1 := (N + 1) * M * κ / 2 with ha1
  set K := 2 * ℓ * L + B + F + Λ * a1 + (bm * a1 + cm * (M / 2 * H)) * (2 * ℓ + H) with hK
  set k1 := Λ * (N + 1) + bm * (N + 1) * H + cm * H ^ 2 with hk1
  set k2 := (N + 1) * (2 * ℓ + H) * (k1 + Fm * H ^ 2) + 2 * (Λ * (N + 1) * H + (bm * (N + 1) * H + cm * H ^ 2) * (2 * ℓ + H)) with hk2
  set k3 := 2 * (N + 1) * H + k2 / α0 with hk3
  set k4 := 8 * H ^ 4 + 2 * (2 * ℓ * (k2 / α0)) ^ 2 with hk4
  refine ⟨(4 * (a1 ^ 2 + (K / α0) ^ 2) + 2 * k3 ^ 2) * V + (2 * (2 * (M / 2) ^ 2 * H ^ 2 + 16 * ℓ ^ 2 * (3 * a1 ^ 2 + 2 * (K / α0) ^ 2)) + 2 * k4) * V, ?_⟩
  intro n nNodes cells X bNodes hh ρ h hb hD hu hs hρ hρH hκ hH hm h0 op Dr br cr hop hsy hns ε lu hε hlu hlc
  obtain ⟨c0, hc0, v0, hv0, -⟩ := h.used 0 hm
  have hx0 : X (cells c0 v0) ∈ domain (N + 1) n cells X := region_domain hc0 (subset_convexHull ℝ _ ⟨v0, hv0, rfl⟩)
  have hxS := hD ▸ hx0
  have hh0 : 0 ≤ hh := (len_nonneg _).trans (hs.diam c0 hc0 v0 hv0 v0 hv0)
  have hB : 0 ≤ B := (abs_nonneg _).trans (hu.bound _ hx0)
  have hl0 : 0 ≤ ℓ := (abs_nonneg _).trans (hl _ hxS)
  have hbm : 0 ≤ bm := (len_nonneg _).trans (hco.transport _ hxS)
  have hcm : 0 ≤ cm := (abs_nonneg _).trans (hco.reaction _ hxS).2
  have hFm0 : 0 ≤ Fm := (abs_nonneg _).trans (hFm _ hxS)
  have hH0 : 0 ≤ H := hh0.trans hH
  have hle : 2 * ℓ + hh ≤ 2 * ℓ + H := by linarith
  have hp0 : 0 ≤ 2 * ℓ + hh := by linarith
  have hαle : α0 ≤ α - bm * (2 * ℓ + hh) - γ * (2 * ℓ + hh) ^ 2 := by
    have i1 := mul_le_mul_of_nonneg_left hle hbm
    have i2 := mul_le_mul_of_nonneg_left (pow_le_pow_left₀ hp0 hle 2) hγ
    linarith
  set α1 := α - bm * (2 * ℓ + hh) - γ * (2 * ℓ + hh) ^ 2 with hα1
  have hα1p : 0 < α1 := hα.trans_le hαle
  obtain ⟨P, e, hP⟩ := C146_elliptic_partial hN bNodes h hb hs hρ (hD ▸ hco) hu hM hF hL hΛ hγ z (hD ▸ hl) hα1p hop hsy hns hε lu hlu hlc hm h0
    (Fm := Fm) (hD ▸ hFm)
  refine ⟨P, e, fun hsa data hr hc hf g hg hgc hgb junk => ?_⟩
  obtain ⟨w, W, b, r1, r2, r3⟩ := hP hsa data hr hc hf g hg hgc hgb junk
  refine ⟨w, W, b, r1, r2, fun Wm hw1 hw2 => ?_⟩
  obtain ⟨r3, r4⟩ := r3 Wm hw1 hw2
  have hWm : 0 ≤ Wm := (abs_nonneg _).trans (hw1 0 hm)
  set I := (N + 1) * M * hh ^ 2 / (2 * ρ) with hI
  have hI0 : 0 ≤ I := by positivity
  have b1 : I ≤ a1 * hh := by
    rw [hI, div_le_iff₀ (by positivity)]
    have : (N + 1) * M * hh * hh ≤ (N + 1) * M * hh * (κ * ρ) := mul_le_mul_of_nonneg_left hκ (by positivity)
    calc _ = (N + 1) * M * hh * hh := by ring
      _ ≤ _ := this
      _ = _ := by rw [ha1]; ring
  have b2 : ellipticConst N hh ρ ℓ Λ bm cm M F B L ≤ K * hh := by
    rw [ellipticConst, ← hI]
    have j1 : cm * (M / 2 * hh ^ 2) ≤ cm * (M / 2 * H) * hh := by
      have := mul_le_mul_of_nonneg_left hH (show 0 ≤ cm * (M / 2) * hh by positivity)
      calc _ = cm * (M / 2) * hh * hh := by ring
        _ ≤ _ := this
        _ = _ := by ring
    have j2 : bm * I ≤ bm * a1 * hh := by
      have := mul_le_mul_of_nonneg_left b1 hbm
      linarith
    have j3 : Λ * I ≤ Λ * a1 * hh := by
      have := mul_le_mul_of_nonneg_left b1 hΛ
      linarith
    have j4 : (bm * I + cm * (M / 2 * hh ^ 2)) * (2 * ℓ + hh) ≤ (bm * a1 * hh + cm * (M / 2 * H) * hh) * (2 * ℓ + H) :=
      mul_le_mul (add_le_add j2 j1) hle hp0 (add_nonneg ((mul_nonneg hbm hI0).trans j2) ((by positivity : (0:ℝ) ≤ cm * (M / 2 * hh ^ 2)).trans j1))
    calc _ ≤ hh * (2 * ℓ * L + B) + F * hh + Λ * a1 * hh + (bm * a1 * hh + cm * (M / 2 * H) * hh) * (2 * ℓ + H) :=
          add_le_add (add_le_add le_rfl j3) j4
      _ = _ := by rw [hK]; ring
  have c0' : 0 ≤ ellipticConst N hh ρ ℓ Λ bm cm M F B L := by
    rw [ellipticConst, ← hI]; positivity
  have b3 : (ellipticConst N hh ρ ℓ Λ bm cm M F B L / α1) ^ 2 ≤ (K / α0) ^ 2 * hh ^ 2 := by
    rw [← mul_pow]
    refine pow_le_pow_left₀ (div_nonneg c0' (hα.trans_le hαle).le) ?_ 2
    calc _ ≤ ellipticConst N hh ρ ℓ Λ bm cm M F B L / α0 := div_le_div_of_nonneg_left c0' hα hαle
      _ ≤ K * hh / α0 := div_le_div_of_nonneg_right b2 hα.le
      _ = _ := by ring
  have b4 : I ^ 2 ≤ a1 ^ 2 * hh ^ 2 := by
    rw [← mul_pow]
    exact pow_le_pow_left₀ hI0 b1 2
  have b5 : (M / 2 * hh ^ 2) ^ 2 ≤ (M / 2) ^ 2 * H ^ 2 * hh ^ 2 := by
    have : hh ^ 2 ≤ H ^ 2 := pow_le_pow_left₀ hh0 hH 2
    have := mul_le_mul_of_nonneg_right (mul_le_mul_of_nonneg_left this (sq_nonneg (M / 2))) (sq_nonneg hh)
    calc _ = (M / 2) ^ 2 * hh ^ 2 * hh ^ 2 := by ring
      _ ≤ _ := this
  obtain ⟨c6, c7⟩ := const_bounds (N := N) hρ hρH hh0 hH hl0 hΛ hbm hcm hα hαle hWm hFm0 hε hk1 hk2 hk3 hk4
  have hH0 : 0 ≤ H := hh0.trans hH
  have hk40 : 0 ≤ k4 := by rw [hk4]; positivity
  rw [hD, ← hV, ← hα1] at r3 r4
  clear_value I a1 K V k3 k4 α0 α1
  set t := ε * (Wm + 1) / ρ ^ 2 with ht
  clear_value t
  have hG : 0 ≤ 4 * (a1 ^ 2 + (K / α0) ^ 2) := by positivity
  have hG' : 0 ≤ 2 * (2 * (M / 2) ^ 2 * H ^ 2 + 16 * ℓ ^ 2 * (3 * a1 ^ 2 + 2 * (K / α0) ^ 2)) := by positivity
  have hl2 : 0 ≤ 16 * ℓ ^ 2 := by positivity
  have hhT : 0 ≤ hh ^ 2 + t ^ 2 := by positivity
  constructor
  · refine (order_combine (h := hh) (t := t) hG (by positivity : 0 ≤ 2 * k3 ^ 2) hV0 (r3.trans (mul_le_mul_of_nonneg_right ?_ hV0))).trans
      (mul_le_mul_of_nonneg_right (le_add_of_nonneg_right (by positivity)) hhT)
    calc _ ≤ 4 * (a1 ^ 2 * hh ^ 2 + (K / α0) ^ 2 * hh ^ 2) + 2 * (k3 ^ 2 * t ^ 2) :=
          add_le_add (mul_le_mul_of_nonneg_left (add_le_add b4 b3) (by norm_num)) (mul_le_mul_of_nonneg_left c6 two_pos.le)
      _ = _ := by ring
  · refine (order_combine (h := hh) (t := t) hG' (by positivity : 0 ≤ 2 * k4) hV0 (r4.trans (mul_le_mul_of_nonneg_right ?_ hV0))).trans
      (mul_le_mul_of_nonneg_right (le_add_of_nonneg_left (by positivity)) hhT)
    calc _ ≤ 2 * (2 * ((M / 2) ^ 2 * H ^ 2 * hh ^ 2) + 16 * ℓ ^ 2 * (3 * (a1 ^ 2 * hh ^ 2) + 2 * ((K / α0) ^ 2 * hh ^ 2))) + 2 * (k4 * t ^ 2) :=
          add_le_add (mul_le_mul_of_nonneg_left (add_le_add (mul_le_mul_of_nonneg_left b5 two_pos.le)
            (mul_le_mul_of_nonneg_left (add_le_add (mul_le_mul_of_nonneg_left b4 (by norm_num)) (mul_le_mul_of_nonneg_left b3 two_pos.le)) hl2)) two_pos.le)
            (mul_le_mul_of_nonneg_left c7 two_pos.le)
      _ = _ := by ring

/-! ### The hypotheses are met -/

/-- A solver that is not exact: all results are too large by the factor `1 + ε`. -/
theorem exists_backwardLU (n : Nat) {ε : ℝ} (hε : 0 ≤ ε) : ∃ lu0 lu : Solver ℝ, ExactLU n lu0 ∧ BackwardLU n ε lu ∧ CompleteLU n lu ∧
    ∀ A, lu A = (lu0 A).map fun f b q => (1 + ε) * f b q := by
  obtain ⟨lu0, h1, h2⟩ := exists_exactLU (K := ℝ) n
  refine ⟨lu0, fun A => (lu0 A).map fun f b q => (1 + ε) * f b q, h1, fun A f hf b p hp => ?_, fun A hA => by
    rw [Option.isSome_map]; exact h2 A hA, fun _ => rfl⟩
  obtain ⟨f0, hf0, rfl⟩ := Option.map_eq_some_iff.1 hf
  have e := h1 A f0 hf0 b p hp
  have e1 : ∑ q ∈ Finset.range n, A p q * ((1 + ε) * f0 b q) = (1 + ε) * b p := by
    rw [← e, Finset.mul_sum]
    exact Finset.sum_congr rfl fun q _ => by ring
  rw [e1, show (1 + ε) * b p - b p = ε * b p by ring, abs_mul, abs_of_nonneg hε]
  exact mul_le_mul_of_nonneg_left (le_add_of_nonneg_left (Finset.sum_nonneg fun _ _ => by positivity)) hε

/-- -((1 + x) u')' + u' / 8 + u on the interval from 0 to 1 in `n` cells with a solver that is not exact, for every `n` and `ε`. -/
example : ∃ C : ℝ, ∀ n : Nat, 0 < n → ∀ ε : ℝ, 0 ≤ ε → ∃ (lu0 lu : Solver ℝ) (P : Prob ℝ) (f : Nat → ℝ) (w : Nat → ℝ) (W : Nat → Fin 1 → ℝ) (b : Nat → ℝ),
    ExactLU (n + 1) lu0 ∧ (∀ A, lu A = (lu0 A).map fun f b q => (1 + ε) * f b q) ∧
    problem1 1 (.add (.add (.neg (.diff (rodRows n))) (.adv fun _ _ => 1 / 8)) (.react fun _ => 1)) lineCells n (n + 1) (unitX n)
      (fun p => p == 0 || p == n) = .ok P ∧
    (P.init ⟨n * size P.t, 1, fun r _ => f r⟩ (fun _ => 0) >>= pdeSolveElliptic lu ⟨n + 1, 1, fun p _ => (p / n : ℝ) ^ 2⟩) = .ok (true, some w) ∧
      PiecewiseAffine n lineCells (unitX n) w W b ∧ ∀ Wm, (∀ p < n + 1, |w p| ≤ Wm) → 1 ≤ Wm →
        gradError n lineCells (unitX n) (fun x => x 0 ^ 2) W ≤ C * ((1 / n) ^ 2 + (ε * (Wm + 1) / (1 / n) ^ 2) ^ 2) := by
  obtain ⟨C, hC⟩ := C146_order_partial (N := 1) (by simp) (S := {p : Fin 1 → ℝ | 0 ≤ p 0 ∧ p 0 ≤ 1}) 0 (a := 1 / 2) (ℓ := 1 / 2)
    (fun x hx => by rw [abs_le]; constructor <;> linarith [hx.1, hx.2]) rod_bounded (by norm_num) le_rfl (fun x => x 0 ^ 2)
    (M := 2) (F := 6) (B := 6) (L := 4) (κ := 1) (H := 1) (Fm := 6) (by norm_num) (by norm_num) (by norm_num) (by norm_num) (fun x hx => by
      rw [ellipticForcing, rod_div, Fin.sum_univ_one, sq_pderiv, abs_le]
      have := hx.1
      have := hx.2
      constructor <;> nlinarith)
  refine ⟨C, fun n hn ε hε => ?_⟩
  have hn' : (1 : ℝ) ≤ n := by exact_mod_cast hn
  obtain ⟨lu0, lu, h0, h1, h2, h3⟩ := exists_backwardLU (n + 1) hε
  obtain ⟨P, e, h⟩ := hC n (n + 1) lineCells (unitX n) (fun p => p == 0 || p == n) (1 / n) (1 / n) (scale_good (by positivity) (line_good n hn)) (line_marks n)
    (unit_domain n hn) (rod_smooth n hn) (unit_shape n hn) (by positivity) (by rw [div_le_one (by positivity)]; exact hn') (by rw [one_mul])
    (by rw [div_le_one (by positivity)]; exact hn') (by omega) (by simp)
    _ _ _ _ (C139_operators 1 (rodRows n) (fun _ _ => 1 / 8) fun _ => 1).1 (fun _ => ⟨⟨fun r z _ k _ => rfl, trivial⟩, trivial⟩) ⟨⟨trivial, trivial⟩, trivial⟩ ε lu hε h1 h2
  have et : P.t = rule1_2 := by
    have := Res.ok.inj (show Res.ok _ = Res.ok P from e)
    rw [← this]
    rfl
  have hsz : size P.t = 2 := by rw [et]; rfl
  have hrow : ∀ (c k : Nat), k < 2 → rodRows n (2 * c + k) 0 0 = rodA (meshPoint lineCells (unitX n) c fun w => node ℝ P.t k w) 0 0 := by
    intro c k hk
    rw [rodRows, et, show (2 * c + k) / 2 = c by omega, show (2 * c + k) % 2 = k by omega]
  refine ⟨lu0, lu, P, fun row => ellipticForcing rodA (fun _ _ => 1 / 8) (fun _ => 1) (fun x => x 0 ^ 2)
    (meshPoint lineCells (unitX n) (row / 2) fun w => node ℝ P.t (row % 2) w), ?_⟩
  obtain ⟨w, W, b, r1, r2, r3⟩ := h ⟨fun c _ k hk z y => by
      rw [hsz] at hk ⊢
      exact hrow c k hk, fun _ _ _ _ _ => rfl, fun _ _ _ _ => rfl⟩
    ⟨n * size P.t, 1, fun row _ => ellipticForcing rodA (fun _ _ => 1 / 8) (fun _ => 1) (fun x => x 0 ^ 2)
      (meshPoint lineCells (unitX n) (row / 2) fun w => node ℝ P.t (row % 2) w)⟩ le_rfl rfl (fun c hc k hk => by
        rw [hsz] at hk ⊢
        simp only [Dense.at']
        rw [show (2 * c + k) / 2 = c by omega, show (2 * c + k) % 2 = k by omega])
    ⟨n + 1, 1, fun p _ => (p / n : ℝ) ^ 2⟩ le_rfl (by norm_num) (fun p hp _ => by simp [Dense.at', unitX, lineX]; ring) (fun _ => 0)
  refine ⟨w, W, b, h0, h3, e, r1, r2, fun Wm hW h1 => (r3 Wm hW fun p hp _ => ?_).1⟩
  have hp' : (p : ℝ) ≤ n := by exact_mod_cast Nat.lt_succ_iff.1 hp
  have hx : unitX n p 0 = p / n := by simp [unitX, lineX]; ring
  rw [hx, abs_of_nonneg (by positivity)]
  refine le_trans ?_ h1
  exact pow_le_one₀ (by positivity) ((div_le_one (by positivity)).2 hp')

end Fdapde.PDE
