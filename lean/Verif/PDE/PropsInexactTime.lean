import Verif.PDE.LemmasInexactTime
set_option linter.unusedSectionVars false
/-!
# C147: the time stepping with a linear solver that rounds
-/
namespace Fdapde.PDE
open Fdapde.Quadrature MeasureTheory Fdapde.FEM
variable {P : Prob ℝ} {X : Nat → Nat → ℝ} {I : Nat → Nat → Nat → ℝ} {N : Nat}

/-- **C147**, equations: with a linear solver that is not exact but has backward error `ε` the time stepping succeeds; at every instant the boundary values and
the equations of the implicit Euler recursion, started from the computed values of the instant before, hold up to the backward error. -/
theorem C147_residual_partial (P : Prob ℝ) (hP : P.Ok) (hpar : hasDT P.op = true) (t0 t1 : ℝ)
    (hD : ∀ v, P.Test v → P.l2 v v / (t1 - t0) + P.bilin v v = 0 → ∀ p < P.m, v p = 0)
    {ε : ℝ} (lu : Solver ℝ) (hlu : BackwardLU P.m ε lu) (hlc : CompleteLU P.m lu)
    (data : Dense ℝ) (hr : P.n * size P.t ≤ data.rows) (hc : 0 < data.cols) (g : Dense ℝ) (hg : P.m ≤ g.rows) (hgc : data.cols ≤ g.cols)
    (hm : 0 < P.m) (h0 : P.bd 0 = true) (junk ic : Nat → ℝ) (ts : List ℝ) :
    ∃ (sol : Nat → Nat → ℝ) (A Ma : Nat → Nat → ℝ) (b : Nat → Nat → ℝ),
      (P.init data junk >>= pdeSolveParabolic lu (t0 :: t1 :: ts) data.cols ic g) = .ok (true, sol) ∧ sol 0 = ic ∧
      (∀ u v, ∑ p ∈ Finset.range P.m, ∑ q ∈ Finset.range P.m, v p * A p q * u q = P.bilin u v) ∧
      (∀ u v, ∑ p ∈ Finset.range P.m, ∑ q ∈ Finset.range P.m, v p * Ma p q * u q = P.l2 u v) ∧
      (∀ i < data.cols, ∀ v : Nat → ℝ, ∑ p ∈ Finset.range P.m, v p * b i p = P.load (fun c k => data.at' (size P.t * c + k) i) v) ∧
      ∀ i, i + 1 < data.cols → (∀ p < P.m, P.bd p = true → |sol (i + 1) p - g.at' p (i + 1)| ≤ ε * (|sol (i + 1) p| + |g.at' p (i + 1)|)) ∧
        ∀ p < P.m, P.bd p = false → |∑ q ∈ Finset.range P.m, (Ma p q / (t1 - t0) + A p q) * sol (i + 1) q -
            ((∑ q ∈ Finset.range P.m, Ma p q / (t1 - t0) * sol i q) + b (i + 1) p)| ≤
          ε * (∑ q ∈ Finset.range P.m, |Ma p q / (t1 - t0) + A p q| * |sol (i + 1) q| + |(∑ q ∈ Finset.range P.m, Ma p q / (t1 - t0) * sol i q) + b (i + 1) p|) := by
  obtain ⟨s, h1, h2, h3, h4, h5, h6, h7, h8⟩ := C102_init P hP data hr hc junk
  have hb0 : ∀ p, (p = 0 ∨ P.bd p = true) ↔ P.bd p = true := fun p => ⟨fun h => h.elim (fun h => h ▸ h0) id, .inr⟩
  obtain ⟨s', e, a1, a2, a3, a4, a5, a6, a7⟩ := C62_rows g s h4 (by rw [h2]; exact hg) (by omega) (by rw [h5, h2]; exact Nat.le_mul_of_pos_right _ hc)
  rw [h2, h3] at a6 a7
  simp only [hb0] at a6 a7
  rw [h2] at a1
  rw [h3] at a2
  have hmat : (fun p q => if p < s'.n ∧ (p = 0 ∨ s'.bd p = true) then (if q = p then 1 else 0) else s'.mass p q / (t1 - t0) + s'.stiff p q) =
      fun p q => if p < P.m ∧ P.bd p = true then (if q = p then (1 : ℝ) else 0) else s.mass p q / (t1 - t0) + s.stiff p q := by
    funext p q
    rw [a1, a2, a3]
    simp only [hb0]
    split_ifs with h h'
    · rfl
    · rfl
    · rw [a6, if_neg h]
  have hsome : (lu (fun p q => if p < s'.n ∧ (p = 0 ∨ s'.bd p = true) then (if q = p then 1 else 0) else s'.mass p q / (t1 - t0) + s'.stiff p q)).isSome := by
    rw [hmat]
    obtain ⟨lu0, q1, q2⟩ := exists_exactLU (K := ℝ) P.m
    apply hlc
    intro hd
    obtain ⟨v, hv, hv0⟩ := Matrix.exists_mulVec_eq_zero_iff.2 hd
    set y : Nat → ℝ := fun p => if h : p < P.m then v ⟨p, h⟩ else 0 with hy
    have hyv : ∀ i : Fin P.m, y i = v i := fun i => by simp [hy, i.2]
    have hrow : ∀ p < P.m, ∑ q ∈ Finset.range P.m, (if P.bd p = true then (if q = p then 1 else 0)
        else s.mass p q / (t1 - t0) + s.stiff p q) * y q = 0 := by
      intro p hp
      have := congrFun hv0 ⟨p, hp⟩
      simp only [Matrix.mulVec, dotProduct, Matrix.of_apply, Pi.zero_apply, hp, true_and] at this
      rw [Finset.sum_range]
      simp only [hyv]
      exact this
    have hT : P.Test y := by
      intro p hp hb
      have := hrow p hp
      simp only [if_pos hb, ite_mul, one_mul, zero_mul] at this
      rwa [Finset.sum_ite_eq' (Finset.range P.m) p, if_pos (Finset.mem_range.2 hp)] at this
    have e := tested P.m (fun p => P.bd p = true) (fun p q => s.mass p q / (t1 - t0) + s.stiff p q) y (fun _ => 0)
      (fun p hp hb => by
        rw [← hrow p hp]
        exact Finset.sum_congr rfl fun q _ => by rw [if_neg hb]) y hT
    have e' : P.l2 y y / (t1 - t0) + P.bilin y y = 0 := by
      rw [← h6, ← h7, Finset.sum_div, ← Finset.sum_add_distrib]
      simp only [mul_zero, Finset.sum_const_zero] at e
      rw [← e]
      refine Finset.sum_congr rfl fun p _ => ?_
      rw [Finset.sum_div, ← Finset.sum_add_distrib]
      exact Finset.sum_congr rfl fun q _ => by ring
    have := hD y hT e'
    exact hv (funext fun i => by rw [← hyv]; exact this i i.2)
  obtain ⟨sol, r1, r2, r3⟩ := inexact_recursion lu t0 t1 ts data.cols ic g s' (by rw [a1]; exact hlu) a5 (by rw [a1]; exact hg) hgc hc
    (by rw [a4, a1, h5]) hsome
  rw [a1, a2, a3] at r3
  simp only [hb0] at r3
  refine ⟨sol, s.stiff, s.mass, fun i p => s.force (P.m * i + p), ?_, r2, h6, h7, fun i hi v => ?_, fun i hi => ⟨fun p hp hb => (r3 i hi p hp).1 hb, fun p hp hb => ?_⟩⟩
  · rw [h1, Res.ok_bind, pdeSolveParabolic, if_neg (Nat.mul_pos (by omega) (by omega)).ne', e, Res.ok_bind]
    exact r1
  · exact h8 i (.inr ⟨hpar, hi⟩) v
  · have h9 := (r3 i hi p hp).2 (by simp [hb])
    have hnp : s'.force (P.m * (i + 1) + p) = s.force (P.m * (i + 1) + p) := by
      rw [a7, if_neg]
      rintro ⟨h10, -⟩
      have : P.m * 1 ≤ P.m * (i + 1) := Nat.mul_le_mul_left _ (by omega)
      omega
    have hst : ∀ q, s'.stiff p q = s.stiff p q := fun q => by rw [a6, if_neg (by simp [hb])]
    simpa only [hnp, hst] using h9

/-- The error of the gradient in the presence of a perturbation that is the sum of a small function and of another discrete function. -/
theorem near_grad (h : P.OnNodes X I) {hh ρ : ℝ} (hs : P.Shape X hh ρ) (hρ : 0 < ρ)
    {q : (Fin P.N → ℝ) → Fin P.N → ℝ} (hq : ∀ c < P.n, ContinuousOn q (P.cell X c))
    {w w' s v : Nat → ℝ} {W W' S V : Nat → Fin P.N → ℝ} {b b' a d : Nat → ℝ} (hW : P.Affine X w W b) (hW' : P.Affine X w' W' b')
    (hS : P.Affine X s S a) (hV : P.Affine X v V d) (e : ∀ c < P.n, ∀ i < P.nb, w' (P.dofs c i) = w (P.dofs c i) + (s (P.dofs c i) + v (P.dofs c i)))
    {η : ℝ} (hη : 0 ≤ η) (hsη : ∀ p, |s p| ≤ η) :
    P.errorSq X q W' ≤ 2 * P.errorSq X q W + 4 * (((P.N + 1) / ρ * η) ^ 2 * ∑ c ∈ Finset.range P.n, P.measure c) + 4 * P.energySq X V := by
  have hV0 : 0 ≤ ∑ c ∈ Finset.range P.n, P.measure c := Finset.sum_nonneg fun c hc => (measure_pos h (Finset.mem_range.1 hc)).le
  have hES : P.energySq X S ≤ ((P.N + 1) / ρ * η) ^ 2 * ∑ c ∈ Finset.range P.n, P.measure c := by
    have := pow_le_pow_left₀ (Real.sqrt_nonneg _) (lift_energy h hs hρ hη (fun c _ i _ => hsη _) hS) 2
    rwa [Real.sq_sqrt (energySq_nonneg h S), mul_pow, Real.sq_sqrt hV0] at this
  refine le_trans ?_ (add_le_add_left (add_le_add_right (mul_le_mul_of_nonneg_left hES (by norm_num : (0 : ℝ) ≤ 4)) _) _)
  rw [Prob.errorSq, Prob.errorSq, energySq_eq h, energySq_eq h, Finset.mul_sum, Finset.mul_sum, Finset.mul_sum, ← Finset.sum_add_distrib, ← Finset.sum_add_distrib]
  refine Finset.sum_le_sum fun c hc => ?_
  have hc' := Finset.mem_range.1 hc
  have hz := (affine_sum h hW' hW hS hV hc' (e c hc')).1
  have cont : ∀ G : Fin P.N → ℝ, ContinuousOn (fun x => ∑ z : Fin P.N, (q x z - G z) ^ 2) (P.cell X c) := fun G =>
    continuousOn_finsetSum _ fun z _ => (((continuousOn_pi.1 (hq c hc')) z).sub continuousOn_const).pow 2
  have i1 := (cont (W c)).integrableOn_compact (μ := volume) (cell_compact c)
  have e1 : 2 * (∫ x in P.cell X c, ∑ z : Fin P.N, (q x z - W c z) ^ 2) + 4 * (P.measure c * ∑ z, S c z ^ 2) + 4 * (P.measure c * ∑ z, V c z ^ 2) =
      ∫ x in P.cell X c, (2 * (∑ z : Fin P.N, (q x z - W c z) ^ 2) + (4 * (∑ z, S c z ^ 2) + 4 * ∑ z, V c z ^ 2)) := by
    rw [integral_add (i1.const_mul 2) (int_const c _), cell_const h hc', integral_const_mul]
    ring
  refine le_trans ?_ (le_of_eq e1.symm)
  refine setIntegral_mono_on ((cont (W' c)).integrableOn_compact (cell_compact c)) ((i1.const_mul 2).add (int_const c _))
    (cell_compact c).measurableSet fun x _ => ?_
  simp only [Finset.mul_sum, ← Finset.sum_add_distrib]
  exact Finset.sum_le_sum fun z _ => by rw [hz z]; nlinarith [sq_nonneg ((q x z - W c z) + (S c z + V c z)), sq_nonneg (S c z - V c z)]

/-- The same for the values. -/
theorem near_value (h : P.OnNodes X I)
    {u : (Fin P.N → ℝ) → ℝ} (hu : ∀ c < P.n, ContinuousOn u (P.cell X c))
    {w w' s v : Nat → ℝ} {W W' S V : Nat → Fin P.N → ℝ} {b b' a d : Nat → ℝ} (hW : P.Affine X w W b) (hW' : P.Affine X w' W' b')
    (hS : P.Affine X s S a) (hV : P.Affine X v V d) (e : ∀ c < P.n, ∀ i < P.nb, w' (P.dofs c i) = w (P.dofs c i) + (s (P.dofs c i) + v (P.dofs c i)))
    {η : ℝ} (hsη : ∀ p, |s p| ≤ η) :
    ∑ c ∈ Finset.range P.n, ∫ x in P.cell X c, (u x - aff (W' c) (b' c) x) ^ 2 ≤
      2 * (∑ c ∈ Finset.range P.n, ∫ x in P.cell X c, (u x - aff (W c) (b c) x) ^ 2) + 4 * (η ^ 2 * ∑ c ∈ Finset.range P.n, P.measure c) + 100 * P.l2 v v := by
  have h3 : ∑ c ∈ Finset.range P.n, ∫ x in P.cell X c, (u x - aff (W' c) (b' c) x) ^ 2 ≤
      ∑ c ∈ Finset.range P.n, (2 * (∫ x in P.cell X c, (u x - aff (W c) (b c) x) ^ 2) + 4 * (∫ x in P.cell X c, aff (V c) (d c) x ^ 2) +
        P.measure c * (4 * η ^ 2)) := by
    refine Finset.sum_le_sum fun c hc => ?_
    have hc' := Finset.mem_range.1 hc
    obtain ⟨hz, hb⟩ := affine_sum h hW' hW hS hV hc' (e c hc')
    have i1 : IntegrableOn (fun x => (u x - aff (W c) (b c) x) ^ 2) (P.cell X c) :=
      (((hu c hc').sub (aff_cont _ _).continuousOn).pow 2).integrableOn_compact (cell_compact c)
    have i2 : IntegrableOn (fun x => aff (V c) (d c) x ^ 2) (P.cell X c) := ((aff_cont _ _).pow 2).continuousOn.integrableOn_compact (cell_compact c)
    have i3 : IntegrableOn (fun x => (u x - aff (W' c) (b' c) x) ^ 2) (P.cell X c) :=
      (((hu c hc').sub (aff_cont _ _).continuousOn).pow 2).integrableOn_compact (cell_compact c)
    have i12 : IntegrableOn (fun x => 2 * (u x - aff (W c) (b c) x) ^ 2 + 4 * aff (V c) (d c) x ^ 2) (P.cell X c) := (i1.const_mul 2).add (i2.const_mul 4)
    rw [← cell_const h hc', ← integral_const_mul, ← integral_const_mul, ← integral_add (i1.const_mul 2) (i2.const_mul 4),
      ← integral_add i12 (int_const c _)]
    refine setIntegral_mono_on i3 (i12.add (int_const c _)) (cell_compact c).measurableSet fun x hx => ?_
    have ev : aff (W' c) (b' c) x = aff (W c) (b c) x + (aff (S c) (a c) x + aff (V c) (d c) x) := by
      simp only [aff, hz, hb, add_mul, Finset.sum_add_distrib]
      ring
    have hS' : aff (S c) (a c) x ^ 2 ≤ η ^ 2 := by
      rw [← sq_abs (aff (S c) (a c) x)]
      exact pow_le_pow_left₀ (abs_nonneg _) (node_value h hS hc' (fun i _ => hsη _) hx) 2
    show (u x - aff (W' c) (b' c) x) ^ 2 ≤ 2 * (u x - aff (W c) (b c) x) ^ 2 + 4 * aff (V c) (d c) x ^ 2 + 4 * η ^ 2
    rw [ev]
    set y := u x - aff (W c) (b c) x
    set p := aff (S c) (a c) x
    set t := aff (V c) (d c) x
    have : u x - (aff (W c) (b c) x + (p + t)) = y - (p + t) := by ring
    rw [this]
    nlinarith [sq_nonneg (y + (p + t)), sq_nonneg (p - t)]
  refine h3.trans ?_
  rw [Finset.sum_add_distrib, Finset.sum_add_distrib, ← Finset.mul_sum, ← Finset.mul_sum, ← Finset.sum_mul]
  have := value_norm h hV
  linarith

set_option maxHeartbeats 2000000 in
/-- **C147**, rounding: the function returned with a linear solver that has backward error `ε` at every step differs from the one returned with an exact linear
solver by `ε` times a constant, in the mean square of the values at each instant and in the sum over the instants of the ones of the gradients. -/
theorem C147_rounding_partial (hN : N ∈ [1, 2, 3]) {n nNodes : Nat} {cells : Nat → Nat → Nat} {X : Nat → Fin N → ℝ} (bNodes : Nat → Bool)
    (h : GoodMesh (N + 1) n nNodes cells X) (hb : MarksBoundary (N + 1) n cells bNodes) {hh ρ : ℝ} (hs : MeshShape n cells X hh ρ) (hρ : 0 < ρ)
    {t0 t1 : ℝ} (ht : t0 < t1) (ts : List ℝ) (cols : Nat) (hcols : 0 < cols)
    {A : (Fin N → ℝ) → Fin N → Fin N → ℝ} {β : (Fin N → ℝ) → Fin N → ℝ} {r : (Fin N → ℝ) → ℝ} {α Λ bm γ cm : ℝ}
    (hco : Bounded (domain (N + 1) n cells X) A β r α Λ bm γ cm) (hα : 0 < α) (hΛ : 0 ≤ Λ) (hγ : 0 ≤ γ)
    {u u' : ℝ → (Fin N → ℝ) → ℝ} {M F B L K L' : ℝ} (hu : FlowOn n cells X A u u' t0 (t0 + (cols - 1 : Nat) * (t1 - t0)) M F B L K L') (hM : 0 ≤ M)
    (z : Fin N) {a ℓ : ℝ} (hl : ∀ x ∈ domain (N + 1) n cells X, |x z - a| ≤ ℓ) (hstep : (bm ^ 2 / (2 * α) + γ) * (t1 - t0) ≤ 1 / 2)
    {op : Op ℝ} {Dr : Nat → Nat → Nat → ℝ} {br : Nat → Nat → ℝ} {cr : Nat → ℝ} (hop : StandsFor N op Dr br cr) (hpar : hasDT op = true)
    (hsy : FlagRight N op) (hns : NoScalar op) (lu0 : Solver ℝ) (hlu0 : ExactLU nNodes lu0)
    {ε : ℝ} (hε : 0 ≤ ε) (lu : Solver ℝ) (hlu : BackwardLU nNodes ε lu) (hlc : CompleteLU nNodes lu) (hm : 0 < nNodes) (h0 : bNodes 0 = true)
    {Fm : ℝ} (hFm : ∀ j < cols, ∀ x ∈ domain (N + 1) n cells X, |parabolicForcing A β r u u' (t0 + j * (t1 - t0)) x| ≤ Fm) :
    ∃ P, problem1 N op cells n nNodes X bNodes = .ok P ∧ (Sampled n cells X P.t A β r Dr br cr →
      ∀ (data : Dense ℝ), n * size P.t ≤ data.rows → data.cols = cols →
      (∀ j < cols, ∀ c < n, ∀ k < size P.t, data.at' (size P.t * c + k) j =
        parabolicForcing A β r u u' (t0 + j * (t1 - t0)) (meshPoint cells X c fun w => node ℝ P.t k w)) →
      ∀ g : Dense ℝ, nNodes ≤ g.rows → cols ≤ g.cols → (∀ j < cols, ∀ p < nNodes, bNodes p = true → g.at' p j = u (t0 + j * (t1 - t0)) (X p)) →
      ∀ junk (w0 : Nat → Nat → ℝ) (W0 : Nat → Nat → Fin N → ℝ) (b0 : Nat → Nat → ℝ),
        (P.init data junk >>= pdeSolveParabolic lu0 (t0 :: t1 :: ts) cols (fun p => u t0 (X p)) g) = .ok (true, w0) →
        (∀ i < cols, PiecewiseAffine n cells X (w0 i) (W0 i) (b0 i)) →
        ∃ (sol : Nat → Nat → ℝ) (W : Nat → Nat → Fin N → ℝ) (b : Nat → Nat → ℝ),
        (P.init data junk >>= pdeSolveParabolic lu (t0 :: t1 :: ts) cols (fun p => u t0 (X p)) g) = .ok (true, sol) ∧
        ∀ Wm, (∀ j < cols, ∀ p < nNodes, |sol j p| ≤ Wm) → (∀ j < cols, ∀ p < nNodes, bNodes p = true → |u (t0 + j * (t1 - t0)) (X p)| ≤ Wm) →
        ∀ i < cols, PiecewiseAffine n cells X (sol i) (W i) (b i) ∧
          valueError n cells X (u (t0 + i * (t1 - t0))) (W i) (b i) ≤ 2 * valueError n cells X (u (t0 + i * (t1 - t0))) (W0 i) (b0 i) +
              (16 * (ε * Wm) ^ 2 + 100 * flowBound (bm ^ 2 / (2 * α) + γ) α (i * (t1 - t0)) 0 (ε * stepConst N hh ρ (2 * ℓ) Λ bm cm Wm Fm (t1 - t0)) ^ 2) *
              (volume (domain (N + 1) n cells X)).toReal ∧
          ∑ j ∈ Finset.range i, (t1 - t0) * gradError n cells X (u (t0 + (j + 1 : Nat) * (t1 - t0))) (W (j + 1)) ≤
            2 * (∑ j ∈ Finset.range i, (t1 - t0) * gradError n cells X (u (t0 + (j + 1 : Nat) * (t1 - t0))) (W0 (j + 1))) +
            i * (t1 - t0) * (16 * ((N + 1) / ρ * (ε * Wm)) ^ 2 + 32 / α * ((bm ^ 2 / (2 * α) + γ) *
              flowBound (bm ^ 2 / (2 * α) + γ) α (i * (t1 - t0)) 0 (ε * stepConst N hh ρ (2 * ℓ) Λ bm cm Wm Fm (t1 - t0)) ^ 2 +
              (ε * stepConst N hh ρ (2 * ℓ) Λ bm cm Wm Fm (t1 - t0)) ^ 2 / α)) * (volume (domain (N + 1) n cells X)).toReal) := by
  have hN0 : 0 < N := by
    simp only [List.mem_cons, List.not_mem_nil, or_false] at hN
    omega
  obtain ⟨t, hrule⟩ := rule1 hN
  refine ⟨meshProb N 1 (N + 1) t op cells n X (enumDofs1 cells nNodes bNodes), by rw [problem1, hrule]; rfl, fun hsa data hr hc hf g hg hgc hgb junk w0 W0 b0 q1 q2 => ?_⟩
  change Sampled n cells X t A β r Dr br cr at hsa
  have hO := mesh_onNodes (nNodes := nNodes) hN hrule op h.proper bNodes
  have hcf := mesh_conforming (t := t) hN0 op h hb
  have hsh := exact_shape (t := t) (nNodes := nNodes) op bNodes hρ hs
  have hpt := mesh_point (t := t) (n := n) (nNodes := nNodes) (cells := cells) (X := X) op bNodes
  have hce := mesh_cell (t := t) (n := n) (nNodes := nNodes) (cells := cells) (X := X) op bNodes
  have hge := fun u W => mesh_gradError (t := t) (n := n) (nNodes := nNodes) (cells := cells) (X := X) op bNodes u W
  have hve := fun u W b => mesh_valueError (t := t) (n := n) (nNodes := nNodes) (cells := cells) (X := X) op bNodes u W b
  set dt := t1 - t0 with hdt
  have hdt0 : 0 < dt := by rw [hdt]; linarith
  set T1 := t0 + ((cols - 1 : Nat) : ℝ) * dt with hT1
  have hin : ∀ j < cols, t0 + (j : ℝ) * dt ∈ Set.Icc t0 T1 := by
    intro j hj
    have h1 : (j : ℝ) ≤ ((cols - 1 : Nat) : ℝ) := by exact_mod_cast (by omega : j ≤ cols - 1)
    have h2 := mul_le_mul_of_nonneg_right h1 hdt0.le
    have h3 : 0 ≤ (j : ℝ) * dt := by positivity
    exact ⟨by linarith, by rw [hT1]; linarith⟩
  have hsm : ∀ j < cols, _ := fun j hj => flux_smooth (t := t) (nNodes := nNodes) op bNodes hM (hu.space _ (hin j hj))
  obtain ⟨c0, hc0, v0, hv0, -⟩ := h.used 0 hm
  have hx0 : X (cells c0 v0) ∈ domain (N + 1) n cells X := region_domain hc0 (subset_convexHull ℝ _ ⟨v0, hv0, rfl⟩)
  have hh0 : 0 ≤ hh := (len_nonneg _).trans (hs.diam c0 hc0 v0 hv0 v0 hv0)
  have hl0 : 0 ≤ ℓ := (abs_nonneg _).trans (hl _ hx0)
  have hbm : 0 ≤ bm := (len_nonneg _).trans (hco.transport _ hx0)
  have hcm : 0 ≤ cm := (abs_nonneg _).trans (hco.reaction _ hx0).2
  have hFm0 : 0 ≤ Fm := (abs_nonneg _).trans (hFm 0 hcols _ hx0)
  have hvol : ∑ c ∈ Finset.range n, (volume ((meshProb N 1 (N + 1) t op cells n X (enumDofs1 cells nNodes bNodes)).cell (natX X) c)).toReal =
      (volume (domain (N + 1) n cells X)).toReal := by
    rw [← domain_volume h]
    exact Finset.sum_congr rfl fun c _ => congrArg (fun s : Set (Fin N → ℝ) => (volume s).toReal) (hce c)
  have hms : ∑ c ∈ Finset.range n, (meshProb N 1 (N + 1) t op cells n X (enumDofs1 cells nNodes bNodes)).measure c =
      (volume (domain (N + 1) n cells X)).toReal := by
    rw [← hvol]
    exact Finset.sum_congr rfl fun c hc => (cell_measure hO (Finset.mem_range.1 hc)).symm
  have hFr := friedrichs hO hcf h.nodes z (a := a) (ℓ := ℓ) fun c hc x hx => hl x (region_domain hc (by rw [hce] at hx; exact hx))
  have hC0 : 0 ≤ 2 * ℓ := mul_nonneg two_pos.le hl0
  have hpd : ∀ c < n, ∀ k < size t, (meshPoint cells X c fun w => node ℝ t k w) ∈ region (N + 1) cells X c := fun c hc k hk => by
    have := node_mem hO c hk
    rw [hce] at this
    rw [← hpt c k]
    exact this
  have hpD : ∀ c < n, ∀ k < size t, (meshPoint cells X c fun w => node ℝ t k w) ∈ domain (N + 1) n cells X := fun c hc k hk => region_domain hc (hpd c hc k hk)
  have hform : (meshProb N 1 (N + 1) t op cells n X (enumDofs1 cells nNodes bNodes)).Form
      (fun c k z y => A (meshPoint cells X c fun w => node ℝ t k w) z y) (fun c k z => β (meshPoint cells X c fun w => node ℝ t k w) z)
      (fun c k => r (meshPoint cells X c fun w => node ℝ t k w)) := by
    intro c hc k hk u v gu gv
    refine (hop (size t * c + k) u v gu gv).trans ?_
    rw [hsa.reaction c hc k hk]
    simp only [dot]
    rw [Finset.sum_range, Finset.sum_range]
    simp only [Finset.sum_range, hsa.diffusion c hc k hk, hsa.transport c hc k hk]
    rfl
  have hOk : (meshProb N 1 (N + 1) t op cells n X (enumDofs1 cells nNodes bNodes)).Ok := ⟨h.nodes, hsy, hns⟩
  set V := (volume (domain (N + 1) n cells X)).toReal with hV
  have hV0 : 0 ≤ V := ENNReal.toReal_nonneg
  set l := bm ^ 2 / (2 * α) + γ with hld
  have hl00 : 0 ≤ l := by positivity
  have hgar : ∀ (v : Nat → ℝ) (Vg : Nat → Fin N → ℝ) (b : Nat → ℝ),
      (meshProb N 1 (N + 1) t op cells n X (enumDofs1 cells nNodes bNodes)).Affine (natX X) v Vg b →
      (∑ k ∈ Finset.range (size t), weight ℝ t k) * (α / 2 * (meshProb N 1 (N + 1) t op cells n X (enumDofs1 cells nNodes bNodes)).energySq (natX X) Vg) -
        l * (meshProb N 1 (N + 1) t op cells n X (enumDofs1 cells nNodes bNodes)).l2 v v ≤
          (meshProb N 1 (N + 1) t op cells n X (enumDofs1 cells nNodes bNodes)).bilin v v := fun v Vg b hv =>
    garding hO hform hα (fun c hc k hk => hco.elliptic _ (hpD c hc k hk)) (fun c hc k hk => hco.transport _ (hpD c hc k hk))
      (fun c hc k hk => (hco.reaction _ (hpD c hc k hk)).1) hv
  set P := meshProb N 1 (N + 1) t op cells n X (enumDofs1 cells nNodes bNodes) with hPdef
  have hcol : 0 < data.cols := by omega
  have hgc' : data.cols ≤ g.cols := by omega
  have hdef : ∀ v, P.Test v → P.l2 v v / (t1 - t0) + P.bilin v v = 0 → ∀ p < P.m, v p = 0 := by
    intro v _ hv p hp
    obtain ⟨Vg, bg, hA⟩ := affine_exists hO v
    have h1 := hgar v Vg bg hA
    have h2 := l2_nonneg P (fun c hc => measure_pos hO hc) (fun k hk => weight_pos hO hk) v
    have h3 : 0 ≤ (∑ k ∈ Finset.range (size t), weight ℝ t k) * (α / 2 * P.energySq (natX X) Vg) :=
      mul_nonneg (weights_pos hO).le (mul_nonneg (by positivity) (energySq_nonneg hO _))
    rw [← hdt] at hv
    have h4 : P.l2 v v = 0 := by
      by_contra hne
      have hpos := lt_of_le_of_ne h2 (Ne.symm hne)
      have h5 : P.l2 v v / dt ≤ l * P.l2 v v := by linarith
      rw [div_le_iff₀ hdt0] at h5
      have h6 : l * P.l2 v v * dt ≤ 1 / 2 * P.l2 v v := by
        have := mul_le_mul_of_nonneg_right hstep hpos.le
        linarith
      linarith
    obtain ⟨c, hc, w, hw, rfl⟩ := h.used p hp
    exact l2_zero hO h4 hc hw
  -- the exact steps
  obtain ⟨bb, sol', s2, s3, s4⟩ := C102_parabolic_partial P hOk hpar lu0 hlu0 data hr hcol g hg hgc' hm h0 junk (fun p => u t0 (X p)) t0 t1 ts
  rw [hc] at s2 s4
  have hsame := q1.symm.trans s2
  simp only [Res.ok.injEq, Prod.mk.injEq] at hsame
  obtain ⟨hbb, rfl⟩ := hsame
  have s4 := s4 hbb.symm
  -- the computed steps
  obtain ⟨sol, As, Ms, bs, r1, r2, r3, r4, r5, r6⟩ := C147_residual_partial P hOk hpar t0 t1 hdef lu hlu hlc data hr hcol g hg hgc' hm h0 junk (fun p => u t0 (X p)) ts
  rw [hc] at r1 r5 r6
  rw [← hdt] at r6 s4
  choose W b hW using fun i => affine_exists hO (sol i)
  refine ⟨sol, W, b, r1, fun Wm hWm hgm i hi => ⟨fun c hc v hv => ?_, ?_⟩⟩
  · refine (hW i c hc v hv).trans ?_
    congr 1
    exact Finset.sum_congr rfl fun z _ => by rw [← natX_fin X]; rfl
  have hWm0 : 0 ≤ Wm := (abs_nonneg _).trans (hWm 0 hcols 0 hm)
  obtain ⟨s, v, n1, n2, n3, n4⟩ := near_steps hO hOk hform hsh hh0 hρ hC0 hFr hΛ hbm hcm hγ hα
    (fun c hc k hk => hco.elliptic _ (hpD c hc k hk)) (fun c hc k hk => hco.diffusion _ (hpD c hc k hk)) (fun c hc k hk => hco.transport _ (hpD c hc k hk))
    (fun c hc k hk => (hco.reaction _ (hpD c hc k hk)).1) (fun c hc k hk => (hco.reaction _ (hpD c hc k hk)).2) (i + 1)
    (f := fun j c k => data.at' (size t * c + k) j) (w := w0) (w' := sol) (g := fun j p => g.at' p j) (Wm := Wm) (Fm := Fm) (ε := ε) (dt := dt) hdt0 hstep hε hWm0 hFm0
    (r2.trans s3.symm) (fun j hj => (s4 j (by omega)).2) (fun j hj => (s4 j (by omega)).1)
    (fun j hj p hp hb => by
      refine ((r6 j (by omega)).1 p hp hb).trans ?_
      have i1 := hWm (j + 1) (by omega) p hp
      have i2 := hgm (j + 1) (by omega) p hp hb
      rw [← hgb (j + 1) (by omega) p hp hb] at i2
      have := mul_le_mul_of_nonneg_left (add_le_add i1 i2) hε
      linarith)
    (fun j hj v hv => residual_time hO hOk hform hsh hρ hΛ (fun c hc k hk => hco.diffusion _ (hpD c hc k hk)) (fun c hc k hk => hco.transport _ (hpD c hc k hk))
      (fun c hc k hk => (hco.reaction _ (hpD c hc k hk)).2) (f := fun c k => data.at' (size t * c + k) (j + 1)) (Fm := Fm) (fun c hc k hk => by
        rw [show data.at' (size t * c + k) (j + 1) = _ from hf (j + 1) (by omega) c hc k hk]
        exact hFm (j + 1) (by omega) _ (hpD c hc k hk)) r3 r4 (r5 (j + 1) (by omega)) hdt0 (hWm (j + 1) (by omega)) (hWm j (by omega)) hε
        (r6 j (by omega)).2 hv)
  choose S sa hS using fun j => affine_exists hO (s j)
  choose Vg vd hVg using fun j => affine_exists hO (v j)
  set Qs := ε * stepConst N hh ρ (2 * ℓ) Λ bm cm Wm Fm dt with hQs
  have hrc : 0 ≤ rowConst N ρ Λ bm cm := by rw [rowConst]; positivity
  have hQs0 : 0 ≤ Qs := by rw [hQs, stepConst]; positivity
  have hsq : ∀ j : Nat, Real.exp (2 * l * (j * dt)) * (j * dt * 0 + Real.sqrt (2 * (j * dt) * ((Qs * Real.sqrt V) ^ 2 / α))) =
      flowBound l α (j * dt) 0 Qs * Real.sqrt V := by
    intro j
    have hj : 0 ≤ (j : ℝ) * dt := by positivity
    have e1 : 2 * ((j : ℝ) * dt) * ((Qs * Real.sqrt V) ^ 2 / α) = 2 * (j * dt) / α * (Qs * Real.sqrt V) ^ 2 := by
      field_simp
    rw [e1, Real.sqrt_mul (by positivity), Real.sqrt_sq (by positivity), flowBound]
    ring
  have hnear := n4 Vg vd hVg (flowBound l α (i * dt) 0 Qs * Real.sqrt V) (fun j hj => by
    rw [show (∑ c ∈ Finset.range P.n, P.measure c) = V from hms]
    refine (le_of_eq (hsq j)).trans ?_
    refine mul_le_mul_of_nonneg_right (flowBound_mono hl00 hα le_rfl hQs0 (by positivity) ?_) (Real.sqrt_nonneg _)
    exact mul_le_mul_of_nonneg_right (by exact_mod_cast (by omega : j ≤ i)) hdt0.le)
  rw [show (∑ c ∈ Finset.range P.n, P.measure c) = V from hms] at hnear
  have hst : P.nrm (v i) ≤ flowBound l α (i * dt) 0 Qs * Real.sqrt V := (hnear.1 i (by omega)).trans (le_of_eq (hsq i))
  have hen : α / 8 * ∑ j ∈ Finset.range i, dt * P.energySq (natX X) (Vg (j + 1)) ≤
      i * dt * (l * (flowBound l α (i * dt) 0 Qs * Real.sqrt V) ^ 2 + 0 * (flowBound l α (i * dt) 0 Qs * Real.sqrt V) + (Qs * Real.sqrt V) ^ 2 / α) :=
    hnear.2 i (by omega)
  set R := flowBound l α (i * dt) 0 Qs with hR
  have hAf : ∀ j < cols, P.Affine (natX X) (w0 j) (W0 j) (b0 j) := fun j hj c hc v hv => by
    refine (q2 j hj c hc v hv).trans ?_
    congr 1
    exact Finset.sum_congr rfl fun z _ => by rw [← natX_fin X]; rfl
  have huc : ∀ j < cols, ∀ c < n, ContinuousOn (u (t0 + (j : ℝ) * dt)) (P.cell (natX X) c) := by
    intro j hj c hc
    rw [hce]
    obtain ⟨U, hU, hD, hC, -⟩ := (hu.space _ (hin j hj)).smooth
    exact hC.continuousOn.mono ((region_domain hc).trans hD)
  have hη : 0 ≤ 2 * ε * Wm := by positivity
  refine ⟨?_, ?_⟩
  · have m1 := near_value hO (huc i hi) (hAf i hi) (hW i) (hS i) (hVg i) (fun c _ j _ => n1 i _) (n2 i (by omega))
    rw [show (∑ c ∈ Finset.range P.n, P.measure c) = V from hms] at m1
    have m2 : P.l2 (v i) (v i) ≤ R ^ 2 * V := by
      have := pow_le_pow_left₀ (Real.sqrt_nonneg _) hst 2
      rwa [Real.sq_sqrt (l2_nonneg P (fun c hc => measure_pos hO hc) (fun k hk => weight_pos hO hk) _), mul_pow, Real.sq_sqrt hV0] at this
    have m4 : valueError n cells X (u (t0 + (i : ℝ) * dt)) (W i) (b i) ≤ 2 * valueError n cells X (u (t0 + (i : ℝ) * dt)) (W0 i) (b0 i) +
        4 * ((2 * ε * Wm) ^ 2 * V) + 100 * P.l2 (v i) (v i) := by
      rw [hve _ (W0 i) (b0 i), show valueError n cells X (u (t0 + (i : ℝ) * dt)) (W i) (b i) = _ from hve _ (W i) (b i)]
      exact m1
    refine m4.trans ?_
    have e1 : 4 * ((2 * ε * Wm) ^ 2 * V) = 16 * (ε * Wm) ^ 2 * V := by ring
    rw [e1]
    linarith
  · have hgi : ∀ j ∈ Finset.range i, dt * gradError n cells X (u (t0 + (j + 1 : Nat) * dt)) (W (j + 1)) ≤
        2 * (dt * gradError n cells X (u (t0 + (j + 1 : Nat) * dt)) (W0 (j + 1))) + dt * (16 * ((N + 1) / ρ * (ε * Wm)) ^ 2 * V) +
          4 * (dt * P.energySq (natX X) (Vg (j + 1))) := by
      intro j hj
      have hj' : j + 1 < cols := by have := Finset.mem_range.1 hj; omega
      have h1 := near_grad hO hsh hρ (hsm (j + 1) hj').cont (hAf (j + 1) hj') (hW (j + 1)) (hS (j + 1)) (hVg (j + 1)) (fun c _ k _ => n1 (j + 1) _) hη
        (n2 (j + 1) (by have := Finset.mem_range.1 hj; omega))
      rw [show (∑ c ∈ Finset.range P.n, P.measure c) = V from hms] at h1
      rw [hge (u (t0 + ((j + 1 : Nat) : ℝ) * dt)) (W (j + 1)), hge (u (t0 + ((j + 1 : Nat) : ℝ) * dt)) (W0 (j + 1))]
      have h2 := mul_le_mul_of_nonneg_left h1 hdt0.le
      refine h2.trans (le_of_eq ?_)
      show dt * (2 * _ + 4 * (((N + 1) / ρ * (2 * ε * Wm)) ^ 2 * V) + 4 * _) = _
      ring
    refine (Finset.sum_le_sum hgi).trans ?_
    rw [Finset.sum_add_distrib, Finset.sum_add_distrib, Finset.sum_const, Finset.card_range, nsmul_eq_mul,
      ← Finset.mul_sum (Finset.range i) (fun j => dt * gradError n cells X (u (t0 + (j + 1 : Nat) * dt)) (W0 (j + 1))),
      ← Finset.mul_sum (Finset.range i) (fun j => dt * P.energySq (natX X) (Vg (j + 1)))]
    set Sg := ∑ j ∈ Finset.range i, dt * P.energySq (natX X) (Vg (j + 1)) with hSg
    have h1 : α / 8 * Sg ≤ i * dt * (l * R ^ 2 + Qs ^ 2 / α) * V := by
      refine hen.trans (le_of_eq ?_)
      have e1 : (R * Real.sqrt V) ^ 2 = R ^ 2 * V := by rw [mul_pow, Real.sq_sqrt hV0]
      have e2 : (Qs * Real.sqrt V) ^ 2 = Qs ^ 2 * V := by rw [mul_pow, Real.sq_sqrt hV0]
      rw [e1, e2]
      ring
    have h2 : Sg ≤ 8 / α * (i * dt * (l * R ^ 2 + Qs ^ 2 / α) * V) := by
      have := mul_le_mul_of_nonneg_left h1 (show 0 ≤ 8 / α by positivity)
      refine le_trans (le_of_eq ?_) this
      field_simp
    set G0 := ∑ j ∈ Finset.range i, dt * gradError n cells X (u (t0 + (j + 1 : Nat) * dt)) (W0 (j + 1)) with hG0
    calc _ ≤ 2 * G0 + i * (dt * (16 * ((N + 1) / ρ * (ε * Wm)) ^ 2 * V)) + 4 * (8 / α * (i * dt * (l * R ^ 2 + Qs ^ 2 / α) * V)) :=
          add_le_add le_rfl (mul_le_mul_of_nonneg_left h2 (by norm_num))
      _ = _ := by ring

set_option maxHeartbeats 2000000 in
/-- **C147**: as C142, for a linear solver with backward error `ε` at every step: the functions returned differ from the solution `u` by the errors of C142 and
by `ε` times a constant that depends on the coefficients, on the bounds `Wm` of the computed values and `Fm` of the forcing, on the heights of the cells (as the
inverse of their square), on the time step (as its inverse) and on the elapsed time.
Partial: dof 0 on the boundary, see `C62_bug_dof_zero`; the assembly is exact, the error of its rounding is not modelled. -/
theorem C147_parabolic_partial (hN : N ∈ [1, 2, 3]) {n nNodes : Nat} {cells : Nat → Nat → Nat} {X : Nat → Fin N → ℝ} (bNodes : Nat → Bool)
    (h : GoodMesh (N + 1) n nNodes cells X) (hb : MarksBoundary (N + 1) n cells bNodes) {hh ρ : ℝ} (hs : MeshShape n cells X hh ρ) (hρ : 0 < ρ)
    {t0 t1 : ℝ} (ht : t0 < t1) (ts : List ℝ) (cols : Nat) (hcols : 0 < cols)
    {A : (Fin N → ℝ) → Fin N → Fin N → ℝ} {β : (Fin N → ℝ) → Fin N → ℝ} {r : (Fin N → ℝ) → ℝ} {α Λ bm γ cm : ℝ}
    (hco : Bounded (domain (N + 1) n cells X) A β r α Λ bm γ cm) (hα : 0 < α) (hΛ : 0 ≤ Λ) (hγ : 0 ≤ γ)
    {u u' : ℝ → (Fin N → ℝ) → ℝ} {M F B L K L' : ℝ} (hu : FlowOn n cells X A u u' t0 (t0 + (cols - 1 : Nat) * (t1 - t0)) M F B L K L')
    (hM : 0 ≤ M) (hF : 0 ≤ F) (hL : 0 ≤ L) (hK : 0 ≤ K) (hL' : 0 ≤ L')
    (z : Fin N) {a ℓ : ℝ} (hl : ∀ x ∈ domain (N + 1) n cells X, |x z - a| ≤ ℓ) (hstep : (bm ^ 2 / (2 * α) + γ) * (t1 - t0) ≤ 1 / 2)
    {op : Op ℝ} {Dr : Nat → Nat → Nat → ℝ} {br : Nat → Nat → ℝ} {cr : Nat → ℝ} (hop : StandsFor N op Dr br cr) (hpar : hasDT op = true)
    (hsy : FlagRight N op) (hns : NoScalar op)
    {ε : ℝ} (hε : 0 ≤ ε) (lu : Solver ℝ) (hlu : BackwardLU nNodes ε lu) (hlc : CompleteLU nNodes lu) (hm : 0 < nNodes) (h0 : bNodes 0 = true)
    {Fm : ℝ} (hFm : ∀ j < cols, ∀ x ∈ domain (N + 1) n cells X, |parabolicForcing A β r u u' (t0 + j * (t1 - t0)) x| ≤ Fm) :
    ∃ P, problem1 N op cells n nNodes X bNodes = .ok P ∧ (Sampled n cells X P.t A β r Dr br cr →
      ∀ (data : Dense ℝ), n * size P.t ≤ data.rows → data.cols = cols →
      (∀ j < cols, ∀ c < n, ∀ k < size P.t, data.at' (size P.t * c + k) j =
        parabolicForcing A β r u u' (t0 + j * (t1 - t0)) (meshPoint cells X c fun w => node ℝ P.t k w)) →
      ∀ g : Dense ℝ, nNodes ≤ g.rows → cols ≤ g.cols → (∀ j < cols, ∀ p < nNodes, bNodes p = true → g.at' p j = u (t0 + j * (t1 - t0)) (X p)) →
      ∀ junk, ∃ (sol : Nat → Nat → ℝ) (W : Nat → Nat → Fin N → ℝ) (b : Nat → Nat → ℝ), (P.init data junk >>= pdeSolveParabolic lu (t0 :: t1 :: ts) cols (fun p => u t0 (X p)) g) = .ok (true, sol) ∧
        ∀ Wm, (∀ j < cols, ∀ p < nNodes, |sol j p| ≤ Wm) → (∀ j < cols, ∀ p < nNodes, bNodes p = true → |u (t0 + j * (t1 - t0)) (X p)| ≤ Wm) →
        ∀ i < cols, PiecewiseAffine n cells X (sol i) (W i) (b i) ∧
          valueError n cells X (u (t0 + i * (t1 - t0))) (W i) (b i) ≤ (2 * (2 * (M / 2 * hh ^ 2) ^ 2 +
            50 * flowBound (bm ^ 2 / (2 * α) + γ) α (i * (t1 - t0)) (K * (t1 - t0) + L' * hh) (ellipticConst N hh ρ ℓ Λ bm cm M F B L) ^ 2) +
              (16 * (ε * Wm) ^ 2 + 100 * flowBound (bm ^ 2 / (2 * α) + γ) α (i * (t1 - t0)) 0 (ε * stepConst N hh ρ (2 * ℓ) Λ bm cm Wm Fm (t1 - t0)) ^ 2)) *
              (volume (domain (N + 1) n cells X)).toReal ∧
          ∑ j ∈ Finset.range i, (t1 - t0) * gradError n cells X (u (t0 + (j + 1 : Nat) * (t1 - t0))) (W (j + 1)) ≤
            i * (t1 - t0) * (2 * (2 * ((N + 1) * M * hh ^ 2 / (2 * ρ)) ^ 2 + 16 / α * ((bm ^ 2 / (2 * α) + γ) *
              flowBound (bm ^ 2 / (2 * α) + γ) α (i * (t1 - t0)) (K * (t1 - t0) + L' * hh) (ellipticConst N hh ρ ℓ Λ bm cm M F B L) ^ 2 +
              (K * (t1 - t0) + L' * hh) * flowBound (bm ^ 2 / (2 * α) + γ) α (i * (t1 - t0)) (K * (t1 - t0) + L' * hh) (ellipticConst N hh ρ ℓ Λ bm cm M F B L) +
              ellipticConst N hh ρ ℓ Λ bm cm M F B L ^ 2 / α)) + (16 * ((N + 1) / ρ * (ε * Wm)) ^ 2 + 32 / α * ((bm ^ 2 / (2 * α) + γ) *
              flowBound (bm ^ 2 / (2 * α) + γ) α (i * (t1 - t0)) 0 (ε * stepConst N hh ρ (2 * ℓ) Λ bm cm Wm Fm (t1 - t0)) ^ 2 +
              (ε * stepConst N hh ρ (2 * ℓ) Λ bm cm Wm Fm (t1 - t0)) ^ 2 / α))) * (volume (domain (N + 1) n cells X)).toReal) := by
  obtain ⟨lu0, hlu0, hlc0⟩ := exists_exactLU (K := ℝ) nNodes
  obtain ⟨P0, eP0, hP0⟩ := C142_parabolic_partial hN bNodes h hb hs hρ ht ts cols hcols hco hα hΛ hγ hu hM hF hL hK hL' z hl hstep hop hpar hsy hns
    lu0 hlu0 hlc0 hm h0
  obtain ⟨P, eP, hP⟩ := C147_rounding_partial hN bNodes h hb hs hρ ht ts cols hcols hco hα hΛ hγ hu hM z hl hstep hop hpar hsy hns lu0 hlu0 hε lu hlu hlc hm h0 hFm
  obtain rfl := Res.ok.inj (eP0.symm.trans eP)
  refine ⟨P0, eP, fun hsa data hr hc hf g hg hgc hgb junk => ?_⟩
  obtain ⟨w0, W0, b0, q1, q2⟩ := hP0 hsa data hr hc hf g hg hgc hgb junk
  obtain ⟨sol, W, b, r1, r2⟩ := hP hsa data hr hc hf g hg hgc hgb junk w0 W0 b0 q1 fun i hi => (q2 i hi).1
  refine ⟨sol, W, b, r1, fun Wm hWm hgm i hi => ?_⟩
  obtain ⟨k1, k2, k3⟩ := r2 Wm hWm hgm i hi
  obtain ⟨-, m2, m3⟩ := q2 i hi
  refine ⟨k1, k2.trans ?_, k3.trans ?_⟩
  · refine (add_le_add (mul_le_mul_of_nonneg_left m2 two_pos.le) le_rfl).trans (le_of_eq ?_)
    ring
  · refine (add_le_add (mul_le_mul_of_nonneg_left m3 two_pos.le) le_rfl).trans (le_of_eq ?_)
    ring

/-- The constants of the amplification grow as the inverse of the square of the heights plus the inverse of the time step. -/
theorem step_bounds {N : Nat} {hh ρ H ℓ Λ bm cm Wm Fm dt : ℝ} (hρ : 0 < ρ) (hρH : ρ ≤ H) (hh0 : 0 ≤ hh) (hH : hh ≤ H) (hl0 : 0 ≤ ℓ) (hΛ : 0 ≤ Λ)
    (hbm : 0 ≤ bm) (hcm : 0 ≤ cm) (hWm : 0 ≤ Wm) (hFm0 : 0 ≤ Fm) (hdt : 0 < dt) {k1 k2 k3 : ℝ}
    (hk1 : k1 = Λ * (N + 1) + bm * (N + 1) * H + cm * H ^ 2)
    (hk2 : k2 = (N + 1) * (2 * ℓ + H) * (k1 + Fm * H ^ 2) + 2 * (Λ * (N + 1) * H + (bm * (N + 1) * H + cm * H ^ 2) * (2 * ℓ + H)))
    (hk3 : k3 = 2 * (N + 1) * H + k2) :
    stepConst N hh ρ (2 * ℓ) Λ bm cm Wm Fm dt ≤ (k3 + 6 * (N + 1) * (2 * ℓ + H)) * ((Wm + 1) * (1 / ρ ^ 2 + 1 / dt)) ∧
      (N + 1) / ρ * Wm ≤ k3 * ((Wm + 1) * (1 / ρ ^ 2 + 1 / dt)) ∧ Wm ≤ H ^ 2 * ((Wm + 1) * (1 / ρ ^ 2 + 1 / dt)) := by
  have hH0 : 0 ≤ H := hh0.trans hH
  have hk10 : 0 ≤ k1 := by rw [hk1]; positivity
  have hk20 : 0 ≤ k2 := by rw [hk2]; positivity
  have hk30 : 0 ≤ k3 := by rw [hk3]; positivity
  have hrc : 0 ≤ rowConst N ρ Λ bm cm := by rw [rowConst]; positivity
  have hI : 0 ≤ innerConst N hh ρ (2 * ℓ) Λ bm cm Wm Fm := by rw [innerConst]; positivity
  have h1 := (const_bounds (α0 := 1) (α1 := 1) (ε := 1) hρ hρH hh0 hH hl0 hΛ hbm hcm one_pos le_rfl hWm hFm0 zero_le_one hk1 hk2
    (k3 := k3) (by rw [hk3]; simp) rfl).1
  have hg0 : 0 ≤ gradConst N hh ρ (2 * ℓ) Λ bm cm 1 Wm Fm := by rw [gradConst]; positivity
  have h2 : gradConst N hh ρ (2 * ℓ) Λ bm cm 1 Wm Fm ≤ k3 * ((Wm + 1) / ρ ^ 2) := by
    rw [one_mul, one_mul, ← mul_pow] at h1
    exact le_of_sq_le_sq h1 (by positivity)
  have h3 : (Wm + 1) / ρ ^ 2 ≤ (Wm + 1) * (1 / ρ ^ 2 + 1 / dt) := by
    rw [mul_add, mul_one_div]
    exact le_add_of_nonneg_right (by positivity)
  have h4 : (Wm + 1) / dt ≤ (Wm + 1) * (1 / ρ ^ 2 + 1 / dt) := by
    rw [mul_add, mul_one_div _ dt]
    exact le_add_of_nonneg_left (by positivity)
  have h5 := h2.trans (mul_le_mul_of_nonneg_left h3 hk30)
  have e1 : gradConst N hh ρ (2 * ℓ) Λ bm cm 1 Wm Fm = 2 * ((N + 1) / ρ * Wm) + innerConst N hh ρ (2 * ℓ) Λ bm cm Wm Fm := by
    rw [gradConst, div_one]; ring
  have hp : 0 ≤ (N + 1) / ρ * Wm := by positivity
  refine ⟨?_, by linarith, ?_⟩
  · have e2 : stepConst N hh ρ (2 * ℓ) Λ bm cm Wm Fm dt = innerConst N hh ρ (2 * ℓ) Λ bm cm Wm Fm + 6 * (N + 1) * (2 * ℓ + hh) * (Wm / dt) := by
      rw [stepConst, innerConst]; ring
    have h6 : 6 * (N + 1) * (2 * ℓ + hh) * (Wm / dt) ≤ 6 * (N + 1) * (2 * ℓ + H) * ((Wm + 1) * (1 / ρ ^ 2 + 1 / dt)) := by
      refine mul_le_mul (by gcongr) (le_trans ?_ h4) (by positivity) (by positivity)
      exact div_le_div_of_nonneg_right (by linarith) hdt.le
    rw [e2, add_mul]
    exact add_le_add (by linarith) h6
  · have h7 : Wm ≤ H ^ 2 * ((Wm + 1) / ρ ^ 2) := by
      rw [mul_div_assoc', le_div_iff₀ (by positivity)]
      calc Wm * ρ ^ 2 ≤ (Wm + 1) * H ^ 2 := mul_le_mul (by linarith) (pow_le_pow_left₀ hρ.le hρH 2) (by positivity) (by positivity)
        _ = _ := by ring
    exact h7.trans (mul_le_mul_of_nonneg_left h3 (sq_nonneg H))

/-- The growth of the rounding errors up to a horizon. -/
theorem flow_rounding {l α T τ Q : ℝ} (hl : 0 ≤ l) (hα : 0 < α) (hτ : 0 ≤ τ) (hT : τ ≤ T) (hQ : 0 ≤ Q) :
    flowBound l α τ 0 Q ^ 2 ≤ Real.exp (2 * l * T) ^ 2 * (2 * T / α) * Q ^ 2 := by
  have h1 := flowBound_mono (E := 0) hl hα le_rfl hQ hτ hT
  have h0 : 0 ≤ flowBound l α τ 0 Q := by rw [flowBound]; positivity
  refine (pow_le_pow_left₀ h0 h1 2).trans (le_of_eq ?_)
  have : 0 ≤ 2 * T / α := div_nonneg (by linarith) hα.le
  rw [flowBound, mul_zero, zero_add, mul_pow, mul_pow, Real.sq_sqrt this]
  ring

set_option maxHeartbeats 1000000 in
/-- **C147**, order: as C142, plus the square of `ε` times the largest nodal value times the inverses of the square of the height of the cells and of the time
step: with one constant for all the meshes of a domain whose cells have bounded shape, all the admissible time steps up to a given horizon and all `ε`. -/
theorem C147_order_partial (hN : N ∈ [1, 2, 3]) {S : Set (Fin N → ℝ)} (z : Fin N) {a ℓ : ℝ} (hl : ∀ x ∈ S, |x z - a| ≤ ℓ)
    {A : (Fin N → ℝ) → Fin N → Fin N → ℝ} {β : (Fin N → ℝ) → Fin N → ℝ} {r : (Fin N → ℝ) → ℝ} {α Λ bm γ cm : ℝ} (hco : Bounded S A β r α Λ bm γ cm)
    (hα : 0 < α) (hΛ : 0 ≤ Λ) (hγ : 0 ≤ γ) (u u' : ℝ → (Fin N → ℝ) → ℝ) {M F B L K L' κ H T t0 Fm : ℝ} (hM : 0 ≤ M) (hF : 0 ≤ F) (hL : 0 ≤ L) (hK : 0 ≤ K)
    (hL' : 0 ≤ L') (hFm : ∀ t ∈ Set.Icc t0 (t0 + T), ∀ x ∈ S, |parabolicForcing A β r u u' t x| ≤ Fm) :
    ∃ C : ℝ, ∀ (n nNodes : Nat) (cells : Nat → Nat → Nat) (X : Nat → Fin N → ℝ) (bNodes : Nat → Bool) (hh ρ t1 : ℝ) (ts : List ℝ) (cols : Nat),
      GoodMesh (N + 1) n nNodes cells X → MarksBoundary (N + 1) n cells bNodes → domain (N + 1) n cells X = S →
      t0 < t1 → 0 < cols → (cols - 1 : Nat) * (t1 - t0) ≤ T → (bm ^ 2 / (2 * α) + γ) * (t1 - t0) ≤ 1 / 2 →
      FlowOn n cells X A u u' t0 (t0 + (cols - 1 : Nat) * (t1 - t0)) M F B L K L' →
      MeshShape n cells X hh ρ → 0 < ρ → ρ ≤ H → hh ≤ κ * ρ → hh ≤ H → 0 < nNodes → bNodes 0 = true →
      ∀ (op : Op ℝ) (Dr : Nat → Nat → Nat → ℝ) (br : Nat → Nat → ℝ) (cr : Nat → ℝ), StandsFor N op Dr br cr → hasDT op = true → FlagRight N op → NoScalar op →
      ∀ (ε : ℝ) (lu : Solver ℝ), 0 ≤ ε → BackwardLU nNodes ε lu → CompleteLU nNodes lu →
      ∃ P, problem1 N op cells n nNodes X bNodes = .ok P ∧ (Sampled n cells X P.t A β r Dr br cr →
        ∀ (data : Dense ℝ), n * size P.t ≤ data.rows → data.cols = cols →
        (∀ j < cols, ∀ c < n, ∀ k < size P.t, data.at' (size P.t * c + k) j =
          parabolicForcing A β r u u' (t0 + j * (t1 - t0)) (meshPoint cells X c fun w => node ℝ P.t k w)) →
        ∀ g : Dense ℝ, nNodes ≤ g.rows → cols ≤ g.cols → (∀ j < cols, ∀ p < nNodes, bNodes p = true → g.at' p j = u (t0 + j * (t1 - t0)) (X p)) →
        ∀ junk, ∃ (sol : Nat → Nat → ℝ) (W : Nat → Nat → Fin N → ℝ) (b : Nat → Nat → ℝ),
          (P.init data junk >>= pdeSolveParabolic lu (t0 :: t1 :: ts) cols (fun p => u t0 (X p)) g) = .ok (true, sol) ∧
          ∀ Wm, (∀ j < cols, ∀ p < nNodes, |sol j p| ≤ Wm) → (∀ j < cols, ∀ p < nNodes, bNodes p = true → |u (t0 + j * (t1 - t0)) (X p)| ≤ Wm) →
          ∀ i < cols, PiecewiseAffine n cells X (sol i) (W i) (b i) ∧
            valueError n cells X (u (t0 + i * (t1 - t0))) (W i) (b i) ≤
              C * ((t1 - t0) ^ 2 + hh ^ 2 + (ε * ((Wm + 1) * (1 / ρ ^ 2 + 1 / (t1 - t0)))) ^ 2) ∧
            ∑ j ∈ Finset.range i, (t1 - t0) * gradError n cells X (u (t0 + (j + 1 : Nat) * (t1 - t0))) (W (j + 1)) ≤
              C * ((t1 - t0) ^ 2 + hh ^ 2 + (ε * ((Wm + 1) * (1 / ρ ^ 2 + 1 / (t1 - t0)))) ^ 2)) := by
  obtain ⟨C0, hC0⟩ := C142_order_partial hN z hl hco hα hΛ hγ u u' (M := M) (F := F) (B := B) (L := L) (K := K) (L' := L') (κ := κ) (H := H) (T := T) (t0 := t0)
    hM hF hL hK hL'
  set V := (volume S).toReal with hV
  have hV0 : 0 ≤ V := ENNReal.toReal_nonneg
  set l := bm ^ 2 / (2 * α) + γ with hld
  have hl00 : 0 ≤ l := by positivity
  set k1 := Λ * (N + 1) + bm * (N + 1) * H + cm * H ^ 2 with hk1
  set k2 := (N + 1) * (2 * ℓ + H) * (k1 + Fm * H ^ 2) + 2 * (Λ * (N + 1) * H + (bm * (N + 1) * H + cm * H ^ 2) * (2 * ℓ + H)) with hk2
  set k3 := 2 * (N + 1) * H + k2 with hk3
  set k := k3 + 6 * (N + 1) * (2 * ℓ + H) with hk
  set G := Real.exp (2 * l * T) ^ 2 * (2 * |T| / α) with hG
  have hG0 : 0 ≤ G := by positivity
  set c1 := (16 * (H ^ 2) ^ 2 + 100 * (G * k ^ 2)) * V with hc1
  set c2 := |T| * (16 * k3 ^ 2 + 32 / α * (l * (G * k ^ 2) + k ^ 2 / α)) * V with hc2
  have hc10 : 0 ≤ c1 := by positivity
  have hc20 : 0 ≤ c2 := by positivity
  refine ⟨2 * |C0| + c1 + c2, ?_⟩
  intro n nNodes cells X bNodes hh ρ t1 ts cols h hb hD ht hcols hT hstep hu hs hρ hρH hκ hH hm h0 op Dr br cr hop hpar hsy hns ε lu hε hlu hlc
  obtain ⟨c0, hc0, v0, hv0, -⟩ := h.used 0 hm
  have hx0 : X (cells c0 v0) ∈ domain (N + 1) n cells X := region_domain hc0 (subset_convexHull ℝ _ ⟨v0, hv0, rfl⟩)
  have hxS := hD ▸ hx0
  have hh0 : 0 ≤ hh := (len_nonneg _).trans (hs.diam c0 hc0 v0 hv0 v0 hv0)
  have hl0 : 0 ≤ ℓ := (abs_nonneg _).trans (hl _ hxS)
  have hbm : 0 ≤ bm := (len_nonneg _).trans (hco.transport _ hxS)
  have hcm : 0 ≤ cm := (abs_nonneg _).trans (hco.reaction _ hxS).2
  have hdt0 : 0 < t1 - t0 := by linarith
  have hT0 : 0 ≤ T := le_trans (by positivity) hT
  have hF' : ∀ j < cols, ∀ x ∈ domain (N + 1) n cells X, |parabolicForcing A β r u u' (t0 + j * (t1 - t0)) x| ≤ Fm := fun j hj x hx => by
    refine hFm _ ⟨by have : 0 ≤ (j : ℝ) * (t1 - t0) := by positivity
                     linarith, ?_⟩ x (hD ▸ hx)
    have h1 : (j : ℝ) ≤ ((cols - 1 : Nat) : ℝ) := by exact_mod_cast (by omega : j ≤ cols - 1)
    have := mul_le_mul_of_nonneg_right h1 hdt0.le
    linarith
  have hFm0 : 0 ≤ Fm := (abs_nonneg _).trans (hF' 0 hcols _ hx0)
  obtain ⟨lu0, hlu0, hlc0⟩ := exists_exactLU (K := ℝ) nNodes
  obtain ⟨P0, eP0, hP0⟩ := hC0 n nNodes cells X bNodes hh ρ t1 ts cols h hb hD ht hcols hT hstep hu hs hρ hκ hH hm h0 op Dr br cr hop hpar hsy hns lu0 hlu0 hlc0
  obtain ⟨P, eP, hP⟩ := C147_rounding_partial hN bNodes h hb hs hρ ht ts cols hcols (hD ▸ hco) hα hΛ hγ hu hM z (hD ▸ hl) hstep hop hpar hsy hns lu0 hlu0
    hε lu hlu hlc hm h0 hF'
  obtain rfl := Res.ok.inj (eP0.symm.trans eP)
  refine ⟨P0, eP, fun hsa data hr hc hf g hg hgc hgb junk => ?_⟩
  obtain ⟨w0, W0, b0, q1, q2⟩ := hP0 hsa data hr hc hf g hg hgc hgb junk
  obtain ⟨sol, W, b, r1, r2⟩ := hP hsa data hr hc hf g hg hgc hgb junk w0 W0 b0 q1 fun i hi => (q2 i hi).1
  refine ⟨sol, W, b, r1, fun Wm hWm hgm i hi => ?_⟩
  obtain ⟨m1, m2, m3⟩ := r2 Wm hWm hgm i hi
  obtain ⟨-, p2, p3⟩ := q2 i hi
  have hWm0 : 0 ≤ Wm := (abs_nonneg _).trans (hWm 0 hcols 0 hm)
  obtain ⟨i1, i2, i3⟩ := step_bounds (N := N) (hh := hh) (ρ := ρ) (H := H) (ℓ := ℓ) (Λ := Λ) (bm := bm) (cm := cm) (Wm := Wm) (Fm := Fm) (dt := t1 - t0)
    hρ hρH hh0 hH hl0 hΛ hbm hcm hWm0 hFm0 hdt0 hk1 hk2 hk3
  rw [← hk] at i1
  rw [hD, ← hV, ← hld] at m2 m3
  have hτ : (i : ℝ) * (t1 - t0) ≤ T := by
    have h1 : (i : ℝ) ≤ ((cols - 1 : Nat) : ℝ) := by exact_mod_cast (by omega : i ≤ cols - 1)
    have := mul_le_mul_of_nonneg_right h1 hdt0.le
    linarith
  have hτ0 : 0 ≤ (i : ℝ) * (t1 - t0) := by positivity
  have hrc : 0 ≤ rowConst N ρ Λ bm cm := by rw [rowConst]; positivity
  have hst0 : 0 ≤ stepConst N hh ρ (2 * ℓ) Λ bm cm Wm Fm (t1 - t0) := by rw [stepConst]; positivity
  have hfl := flow_rounding (Q := ε * stepConst N hh ρ (2 * ℓ) Λ bm cm Wm Fm (t1 - t0)) hl00 hα hτ0 hτ (mul_nonneg hε hst0)
  have hfl' : flowBound l α (i * (t1 - t0)) 0 (ε * stepConst N hh ρ (2 * ℓ) Λ bm cm Wm Fm (t1 - t0)) ^ 2 ≤
      G * (ε * stepConst N hh ρ (2 * ℓ) Λ bm cm Wm Fm (t1 - t0)) ^ 2 := by rw [hG, abs_of_nonneg hT0]; exact hfl
  have hτ' : (i : ℝ) * (t1 - t0) ≤ |T| := hτ.trans (le_abs_self T)
  clear_value k1 k2 k3 k G V l
  set st := stepConst N hh ρ (2 * ℓ) Λ bm cm Wm Fm (t1 - t0) with hstd
  set fb := flowBound l α (i * (t1 - t0)) 0 (ε * st) with hfb
  set Y := (Wm + 1) * (1 / ρ ^ 2 + 1 / (t1 - t0)) with hY
  have hY0 : 0 ≤ Y := by positivity
  set dd := (t1 - t0) ^ 2 + hh ^ 2 with hdd
  have hdd0 : 0 ≤ dd := by positivity
  clear_value st fb Y dd
  set ev := valueError n cells X (u (t0 + i * (t1 - t0))) (W0 i) (b0 i)
  set eg := ∑ j ∈ Finset.range i, (t1 - t0) * gradError n cells X (u (t0 + (j + 1 : Nat) * (t1 - t0))) (W0 (j + 1))
  set xv := valueError n cells X (u (t0 + i * (t1 - t0))) (W i) (b i)
  set xg := ∑ j ∈ Finset.range i, (t1 - t0) * gradError n cells X (u (t0 + (j + 1 : Nat) * (t1 - t0))) (W (j + 1))
  have j1 : (ε * st) ^ 2 ≤ k ^ 2 * (ε * Y) ^ 2 := by
    refine (pow_le_pow_left₀ (mul_nonneg hε hst0) (mul_le_mul_of_nonneg_left i1 hε) 2).trans (le_of_eq ?_)
    ring
  have j2 : (ε * Wm) ^ 2 ≤ (H ^ 2) ^ 2 * (ε * Y) ^ 2 := by
    refine (pow_le_pow_left₀ (mul_nonneg hε hWm0) (mul_le_mul_of_nonneg_left i3 hε) 2).trans (le_of_eq ?_)
    ring
  have j3 : ((N + 1) / ρ * (ε * Wm)) ^ 2 ≤ k3 ^ 2 * (ε * Y) ^ 2 := by
    have : (N + 1) / ρ * (ε * Wm) = ε * ((N + 1) / ρ * Wm) := by ring
    rw [this]
    refine (pow_le_pow_left₀ (by positivity) (mul_le_mul_of_nonneg_left i2 hε) 2).trans (le_of_eq ?_)
    ring
  have j4 : fb ^ 2 ≤ G * k ^ 2 * (ε * Y) ^ 2 := by
    refine hfl'.trans ((mul_le_mul_of_nonneg_left j1 hG0).trans (le_of_eq ?_))
    ring
  have hC00 : C0 * dd ≤ |C0| * dd := mul_le_mul_of_nonneg_right (le_abs_self C0) hdd0
  set Z := (ε * Y) ^ 2 with hZ
  have hZ0 : 0 ≤ Z := sq_nonneg _
  clear_value Z
  have n0 : 0 ≤ |C0| * Z := mul_nonneg (abs_nonneg _) hZ0
  have n1 : 0 ≤ c1 * dd := mul_nonneg hc10 hdd0
  have n2 : 0 ≤ c2 * dd := mul_nonneg hc20 hdd0
  have n3 : 0 ≤ c1 * Z := mul_nonneg hc10 hZ0
  have n4 : 0 ≤ c2 * Z := mul_nonneg hc20 hZ0
  have e : (2 * |C0| + c1 + c2) * (dd + Z) = 2 * (|C0| * dd) + 2 * (|C0| * Z) + c1 * dd + c2 * dd + c1 * Z + c2 * Z := by ring
  rw [e]
  refine ⟨m1, m2.trans ?_, m3.trans ?_⟩
  · have y1 : (16 * (ε * Wm) ^ 2 + 100 * fb ^ 2) * V ≤ c1 * Z := by
      rw [hc1]
      refine (mul_le_mul_of_nonneg_right (add_le_add (mul_le_mul_of_nonneg_left j2 (by norm_num)) (mul_le_mul_of_nonneg_left j4 (by norm_num))) hV0).trans
        (le_of_eq ?_)
      ring
    linarith
  · have y1 : (i : ℝ) * (t1 - t0) * (16 * ((N + 1) / ρ * (ε * Wm)) ^ 2 + 32 / α * (l * fb ^ 2 + (ε * st) ^ 2 / α)) * V ≤ c2 * Z := by
      rw [hc2]
      have a1 : l * fb ^ 2 + (ε * st) ^ 2 / α ≤ l * (G * k ^ 2 * Z) + k ^ 2 * Z / α :=
        add_le_add (mul_le_mul_of_nonneg_left j4 hl00) (div_le_div_of_nonneg_right j1 hα.le)
      have a2 : 16 * ((N + 1) / ρ * (ε * Wm)) ^ 2 + 32 / α * (l * fb ^ 2 + (ε * st) ^ 2 / α) ≤
          16 * (k3 ^ 2 * Z) + 32 / α * (l * (G * k ^ 2 * Z) + k ^ 2 * Z / α) :=
        add_le_add (mul_le_mul_of_nonneg_left j3 (by norm_num)) (mul_le_mul_of_nonneg_left a1 (by positivity))
      refine (mul_le_mul_of_nonneg_right (mul_le_mul hτ' a2 (by positivity) (abs_nonneg _)) hV0).trans (le_of_eq ?_)
      ring
    linarith

/-- Every `ε`, number of cells and number of steps is met: the solver that returns `1 + ε` times the exact solution. -/
example : ∃ C : ℝ, ∀ n m : Nat, 0 < n → 106 ≤ m → ∀ ε : ℝ, 0 ≤ ε → ∃ (lu0 lu : Solver ℝ) (P : Prob ℝ) (sol : Nat → Nat → ℝ) (W : Nat → Nat → Fin 1 → ℝ) (b : Nat → Nat → ℝ),
    ExactLU (n + 1) lu0 ∧ (∀ A, lu A = (lu0 A).map fun f b q => (1 + ε) * f b q) ∧
    problem1 1 (.add (.add (.add .dT (.neg (.diff (rodRows n)))) (.adv fun _ _ => 10)) (.react fun _ => -3)) lineCells n (n + 1) (unitX n)
      (fun p => p == 0 || p == n) = .ok P ∧
    (P.init ⟨n * size P.t, m + 1, fun r j => parabolicForcing rodA (fun _ _ => 10) (fun _ => -3) (fun t x => t * x 0 ^ 2) (fun _ x => x 0 ^ 2) (j * (1 / m : ℝ))
        (meshPoint lineCells (unitX n) (r / size P.t) fun w => node ℝ P.t (r % size P.t) w)⟩ (fun _ => 0) >>=
      pdeSolveParabolic lu [0, 1 / m] (m + 1) (fun _ => 0) ⟨n + 1, m + 1, fun p j => (j * (1 / m : ℝ)) * (unitX n p 0) ^ 2⟩) = .ok (true, sol) ∧
      ∀ Wm, (∀ j ≤ m, ∀ p ≤ n, |sol j p| ≤ Wm) → 1 ≤ Wm → ∀ i ≤ m, PiecewiseAffine n lineCells (unitX n) (sol i) (W i) (b i) ∧
        valueError n lineCells (unitX n) (fun x => i / m * x 0 ^ 2) (W i) (b i) ≤
          C * ((1 / m) ^ 2 + (1 / n) ^ 2 + (ε * ((Wm + 1) * (1 / (1 / n) ^ 2 + 1 / (1 / m)))) ^ 2) := by
  obtain ⟨C, hC⟩ := C147_order_partial (N := 1) (by simp) (S := {p : Fin 1 → ℝ | 0 ≤ p 0 ∧ p 0 ≤ 1}) 0 (a := 0) (ℓ := 1)
    (fun x hx => by rw [sub_zero, abs_of_nonneg hx.1]; exact hx.2) trod_bounded one_pos (by norm_num) (by norm_num) (fun t x => t * x 0 ^ 2) (fun _ x => x 0 ^ 2)
    (M := 2) (F := 6) (B := 6) (L := 4) (K := 0) (L' := 2) (κ := 1) (H := 1) (T := 1) (t0 := 0) (Fm := 30) (by norm_num) (by norm_num) (by norm_num) le_rfl
    (by norm_num) (fun t ht x hx => by
      have h0 := hx.1
      have h1 := hx.2
      have h2 : 0 ≤ t := ht.1
      have h3 : t ≤ 1 := by linarith [ht.2]
      rw [parabolicForcing, ellipticForcing, trod_div, Fin.sum_univ_one, tsq_pderiv, abs_le]
      have a1 : 0 ≤ t * x 0 := by positivity
      have a2 : t * x 0 ≤ 1 := mul_le_one₀ h3 h0 h1
      have a3 : 0 ≤ t * x 0 ^ 2 := by positivity
      have a4 : t * x 0 ^ 2 ≤ 1 := mul_le_one₀ h3 (by positivity) (pow_le_one₀ h0 h1)
      have a5 : 0 ≤ x 0 ^ 2 := by positivity
      have a6 : x 0 ^ 2 ≤ 1 := pow_le_one₀ h0 h1
      constructor <;> linarith)
  refine ⟨C, fun n m hn hm ε hε => ?_⟩
  have hn' : (1 : ℝ) ≤ n := by exact_mod_cast hn
  have hm' : (106 : ℝ) ≤ m := by exact_mod_cast hm
  have hm0 : (0 : ℝ) < m := by linarith
  obtain ⟨lu0, lu, h0, h1, h2, h3⟩ := exists_backwardLU (n + 1) hε
  have hT : ((m + 1 - 1 : Nat) : ℝ) * (1 / m - 0) = 1 := by
    rw [Nat.add_sub_cancel]
    field_simp
    ring
  have hst : ((10 : ℝ) ^ 2 / (2 * 1) + 3) * (1 / m - 0) ≤ 1 / 2 := by
    rw [sub_zero, mul_one_div, div_le_div_iff₀ hm0 two_pos]
    linarith
  obtain ⟨P, e, h⟩ := hC n (n + 1) lineCells (unitX n) (fun p => p == 0 || p == n) (1 / n) (1 / n) (1 / m) [] (m + 1)
    (scale_good (by positivity) (line_good n hn)) (line_marks n) (unit_domain n hn) (by positivity) (by omega) hT.le hst
    (trod_flow n hn (by rw [hT]; norm_num)) (unit_shape n hn) (by positivity) (by rw [div_le_one (by positivity)]; exact hn') (by rw [one_mul])
    (by rw [div_le_one (by positivity)]; exact hn') (by omega) (by simp)
    _ _ _ _ (C142_operators 1 (rodRows n) (fun _ _ => 10) fun _ => -3).1 rfl (fun _ => ⟨⟨⟨trivial, fun r z _ k _ => rfl⟩, trivial⟩, trivial⟩)
    ⟨⟨⟨trivial, trivial⟩, trivial⟩, trivial⟩ ε lu hε h1 h2
  have et : P.t = rule1_2 := by
    have := Res.ok.inj (show Res.ok _ = Res.ok P from e)
    rw [← this]
    rfl
  have hsz2 : size P.t = 2 := by rw [et]; rfl
  have hrow : ∀ (c k : Nat), k < 2 → rodRows n (2 * c + k) 0 0 = rodA (meshPoint lineCells (unitX n) c fun w => node ℝ P.t k w) 0 0 := by
    intro c k hk
    rw [rodRows, et, show (2 * c + k) / 2 = c by omega, show (2 * c + k) % 2 = k by omega]
  have hsz : ∀ k, k < size P.t → 0 < size P.t := fun k hk => by omega
  obtain ⟨sol, W, b, r1, r2⟩ := h ⟨fun c _ k hk z y => by
      rw [hsz2] at hk ⊢
      exact hrow c k hk, fun _ _ _ _ _ => rfl, fun _ _ _ _ => rfl⟩
    ⟨n * size P.t, m + 1, fun r j => parabolicForcing rodA (fun _ _ => 10) (fun _ => -3) (fun t x => t * x 0 ^ 2) (fun _ x => x 0 ^ 2) (j * (1 / m : ℝ))
        (meshPoint lineCells (unitX n) (r / size P.t) fun w => node ℝ P.t (r % size P.t) w)⟩ le_rfl rfl
    (fun j hj c hc k hk => by
      dsimp only
      rw [Nat.mul_add_div (hsz k hk), Nat.div_eq_of_lt hk, add_zero, Nat.mul_add_mod, Nat.mod_eq_of_lt hk, zero_add, sub_zero])
    ⟨n + 1, m + 1, fun p j => (j * (1 / m : ℝ)) * (unitX n p 0) ^ 2⟩ le_rfl le_rfl
    (fun j hj p hp _ => by simp only [zero_add, sub_zero]) (fun _ => 0)
  refine ⟨lu0, lu, P, sol, W, b, h0, h3, e, ?_, fun Wm hW h1W i hi => ?_⟩
  · rw [← r1]
    simp only [zero_mul]
  · obtain ⟨r3, r4, -⟩ := r2 Wm (fun j hj p hp => hW j (by omega) p (by omega)) (fun j hj p hp _ => by
      have hp' : (p : ℝ) ≤ n := by exact_mod_cast Nat.lt_succ_iff.1 hp
      have hj' : (j : ℝ) ≤ m := by exact_mod_cast Nat.lt_succ_iff.1 hj
      have hx : unitX n p 0 = p / n := by simp [unitX, lineX]; ring
      rw [zero_add, sub_zero, mul_one_div, hx, abs_of_nonneg (by positivity)]
      exact le_trans (mul_le_one₀ ((div_le_one hm0).2 hj') (by positivity) (pow_le_one₀ (by positivity) ((div_le_one (by positivity)).2 hp'))) h1W) i (by omega)
    refine ⟨r3, ?_⟩
    have e1 : (fun x : Fin 1 → ℝ => (i : ℝ) / m * x 0 ^ 2) = fun x => (0 + (i : ℝ) * (1 / m - 0)) * x 0 ^ 2 := by
      funext x; ring
    rw [e1]
    rw [sub_zero] at r4 ⊢
    exact r4

end Fdapde.PDE
