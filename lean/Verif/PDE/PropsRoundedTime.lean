import Verif.PDE.LemmasRoundedTime
set_option linter.unusedSectionVars false
/-!
# C152: time stepping in double precision
-/
namespace Fdapde.PDE
open Fdapde.Quadrature MeasureTheory Fdapde.FEM Fdapde.Fp
noncomputable section
variable {r : Rounding} {S : List ℝ → ℝ} {P : Prob ℝ} {kd v : Nat} {μ G : ℝ} {ms : Nat → ℝ} {ps : Nat → (Nat → ℝ) → ℝ}
  {gr : Nat → Nat → (Nat → ℝ) → Nat → ℝ} {N : Nat}

/-- Number of roundings on the way from the data to an entry of the matrix or of the right hand side of a time step. -/
def stepDepth (P : Prob ℝ) (kd v : Nat) : Nat := opDepth P.N P.op + 3 * kd + size P.t + 10 + 2 * (v * P.nb)

/-- Bound of the residual of the computed values in the exact equations of a time step, for each unit of measure of the cells around the node: the part of the
linear solver and the part of the assembly and of the operations of the step. -/
def stepError (N : Nat) (ρ Λ bm cm ε δ μ κ Wm Fm dt : ℝ) : ℝ :=
  ε * (rowConst N ρ Λ bm cm * Wm + 2 * Wm / dt + Fm) + (1 + ε) * (δ * (μ * ((κ + 2 / dt) * (N + 1) * Wm + Fm)))

/-- A row of a system solved with a backward error, seen from a nearby system. -/
theorem row_residual {n : Nat} {K K' w : Nat → ℝ} {R R' ε : ℝ} (hε : 0 ≤ ε)
    (h : |∑ q ∈ Finset.range n, K' q * w q - R'| ≤ ε * (∑ q ∈ Finset.range n, |K' q| * |w q| + |R'|)) :
    |∑ q ∈ Finset.range n, K q * w q - R| ≤ ε * (∑ q ∈ Finset.range n, |K q| * |w q| + |R|) +
      (1 + ε) * (∑ q ∈ Finset.range n, |K' q - K q| * |w q| + |R' - R|) := by
  set dA := ∑ q ∈ Finset.range n, |K' q - K q| * |w q| with hdA
  have d1 : |∑ q ∈ Finset.range n, K q * w q - R| ≤ |∑ q ∈ Finset.range n, K' q * w q - R'| + dA + |R' - R| := by
    have e0 : ∑ q ∈ Finset.range n, K q * w q - R = (∑ q ∈ Finset.range n, K' q * w q - R') +
        -∑ q ∈ Finset.range n, (K' q - K q) * w q + (R' - R) := by
      simp only [sub_mul, Finset.sum_sub_distrib]
      ring
    rw [e0]
    refine (abs_add_three _ _ _).trans ?_
    rw [abs_neg]
    refine add_le_add (add_le_add le_rfl ((Finset.abs_sum_le_sum_abs _ _).trans (le_of_eq ?_))) le_rfl
    exact Finset.sum_congr rfl fun q _ => abs_mul _ _
  have d2 : ∑ q ∈ Finset.range n, |K' q| * |w q| + |R'| ≤ ∑ q ∈ Finset.range n, |K q| * |w q| + |R| + (dA + |R' - R|) := by
    have i1 : ∑ q ∈ Finset.range n, |K' q| * |w q| ≤ ∑ q ∈ Finset.range n, |K q| * |w q| + dA := by
      rw [hdA, ← Finset.sum_add_distrib]
      refine Finset.sum_le_sum fun q _ => ?_
      rw [← add_mul]
      refine mul_le_mul_of_nonneg_right ?_ (abs_nonneg _)
      have := abs_add_le (K q) (K' q - K q)
      rwa [add_sub_cancel] at this
    have i2 : |R'| ≤ |R| + |R' - R| := by
      have := abs_add_le R (R' - R)
      rwa [add_sub_cancel] at this
    linarith
  have d3 := mul_le_mul_of_nonneg_left d2 hε
  linarith

section
variable {X : Nat → Nat → ℝ} {I : Nat → Nat → Nat → ℝ} {D : Nat → Nat → Fin P.N → Fin P.N → ℝ} {β : Nat → Nat → Fin P.N → ℝ} {rc : Nat → Nat → ℝ}
  {hh ρ Λ bm cm : ℝ}

theorem mass_row (h : P.OnNodes X I) (hP : P.Ok) {Ma : Nat → Nat → ℝ}
    (hMa : ∀ u v, ∑ p ∈ Finset.range P.m, ∑ q ∈ Finset.range P.m, v p * Ma p q * u q = P.l2 u v) {w : Nat → ℝ} {Wm : ℝ} (hw : ∀ p < P.m, |w p| ≤ Wm)
    {p : Nat} (hp : p < P.m) : ∑ q ∈ Finset.range P.m, |Ma p q| * |w q| ≤ (∑ k ∈ Finset.range (size P.t), weight ℝ P.t k) *
      (Wm * ∑ c ∈ Finset.range P.n, P.measure c * P.cellSum (hatAt p) c) := by
  set s : Nat → ℝ := fun q => if 0 ≤ Ma p q then |w q| else -|w q| with hsd
  have es : ∑ q ∈ Finset.range P.m, |Ma p q| * |w q| = P.l2 s (hatAt p) := by
    rw [← hMa, hat_row P.m Ma s hp]
    refine Finset.sum_congr rfl fun q _ => ?_
    simp only [hsd]
    split_ifs with h0
    · rw [abs_of_nonneg h0]
    · rw [abs_of_neg (not_le.1 h0)]; ring
  have i1 := (le_abs_self _).trans (l2_rows h (s := s) (Wm := Wm) (fun c hc i hi => by
    have := hw _ (hP.dofs c hc i hi)
    simp only [hsd]
    split_ifs
    · rwa [abs_abs]
    · rwa [abs_neg, abs_abs]) (hatAt p))
  rw [es]
  refine i1.trans (le_of_eq ?_)
  congr 1
  rw [Finset.mul_sum]
  exact Finset.sum_congr rfl fun c _ => by ring

/-- The sizes of the terms of an equation of a time step. -/
theorem row_bound_time (h : P.OnNodes X I) (hP : P.Ok) (hop : P.Form D β rc) (hs : P.Shape X hh ρ) (hρ : 0 < ρ) (hΛ : 0 ≤ Λ)
    (hD : ∀ c < P.n, ∀ k < size P.t, ∀ ξ : Fin P.N → ℝ, len (fun z => ∑ y, D c k z y * ξ y) ≤ Λ * len ξ)
    (hβ : ∀ c < P.n, ∀ k < size P.t, len (β c k) ≤ bm) (hr : ∀ c < P.n, ∀ k < size P.t, |rc c k| ≤ cm)
    {f : Nat → Nat → ℝ} {Fm : ℝ} (hf : ∀ c < P.n, ∀ k < size P.t, |f c k| ≤ Fm)
    {A Ma : Nat → Nat → ℝ} (hA : ∀ u v, ∑ p ∈ Finset.range P.m, ∑ q ∈ Finset.range P.m, v p * A p q * u q = P.bilin u v)
    (hMa : ∀ u v, ∑ p ∈ Finset.range P.m, ∑ q ∈ Finset.range P.m, v p * Ma p q * u q = P.l2 u v)
    {b : Nat → ℝ} (hb : ∀ v : Nat → ℝ, ∑ p ∈ Finset.range P.m, v p * b p = P.load f v) {dt : ℝ} (hdt : 0 < dt)
    {w w0 : Nat → ℝ} {Wm : ℝ} (hw : ∀ p < P.m, |w p| ≤ Wm) (hw0 : ∀ p < P.m, |w0 p| ≤ Wm) {p : Nat} (hp : p < P.m) :
    ∑ q ∈ Finset.range P.m, |Ma p q / dt + A p q| * |w q| + |(∑ q ∈ Finset.range P.m, Ma p q / dt * w0 q) + b p| ≤
      (∑ k ∈ Finset.range (size P.t), weight ℝ P.t k) *
      ((rowConst P.N ρ Λ bm cm * Wm + 2 * Wm / dt + Fm) * ∑ c ∈ Finset.range P.n, P.measure c * P.cellSum (hatAt p) c) := by
  set σ := ∑ k ∈ Finset.range (size P.t), weight ℝ P.t k with hσ
  have h1 := row_bound h hP hop hs hρ hΛ hD hβ hr hf hA hb hw hp
  have h2 := mass_row h hP hMa hw hp
  have h3 := mass_row h hP hMa hw0 hp
  have h1' : ∑ q ∈ Finset.range P.m, |A p q| * |w q| + |b p| ≤ σ * ((rowConst P.N ρ Λ bm cm * Wm + Fm) * ∑ c ∈ Finset.range P.n, P.measure c * P.cellSum (hatAt p) c) := by
    refine h1.trans (le_of_eq ?_)
    simp only [Finset.mul_sum]
    exact Finset.sum_congr rfl fun c _ => by ring
  rw [← hσ] at h2 h3
  set T := ∑ c ∈ Finset.range P.n, P.measure c * P.cellSum (hatAt p) c with hT
  have i1 : ∑ q ∈ Finset.range P.m, |Ma p q / dt + A p q| * |w q| ≤ (∑ q ∈ Finset.range P.m, |Ma p q| * |w q|) / dt + ∑ q ∈ Finset.range P.m, |A p q| * |w q| := by
    rw [Finset.sum_div, ← Finset.sum_add_distrib]
    refine Finset.sum_le_sum fun q _ => ?_
    refine (mul_le_mul_of_nonneg_right (abs_add_le _ _) (abs_nonneg _)).trans (le_of_eq ?_)
    rw [abs_div, abs_of_pos hdt]
    ring
  have i2 : |∑ q ∈ Finset.range P.m, Ma p q / dt * w0 q| ≤ (∑ q ∈ Finset.range P.m, |Ma p q| * |w0 q|) / dt := by
    refine (Finset.abs_sum_le_sum_abs _ _).trans (le_of_eq ?_)
    rw [Finset.sum_div]
    refine Finset.sum_congr rfl fun q _ => ?_
    rw [abs_mul, abs_div, abs_of_pos hdt]
    ring
  have i3 := div_le_div_of_nonneg_right h2 hdt.le
  have i4 := div_le_div_of_nonneg_right h3 hdt.le
  have i5 := abs_add_le (∑ q ∈ Finset.range P.m, Ma p q / dt * w0 q) (b p)
  have e : σ * ((rowConst P.N ρ Λ bm cm * Wm + 2 * Wm / dt + Fm) * T) = σ * (Wm * T) / dt + σ * (Wm * T) / dt + σ * ((rowConst P.N ρ Λ bm cm * Wm + Fm) * T) := by
    ring
  rw [e]
  linarith

set_option maxHeartbeats 1000000 in
/-- **C152**, equations: `init` in floating point arithmetic followed by the time stepping in floating point arithmetic, with a linear solver of backward error
`ε`, succeed if the error of the entries is small with respect to the ellipticity, and at every instant the result satisfies the exact equations of the implicit
Euler recursion, started from the computed values of the instant before, up to the error of the solver and the error of the operations.
Partial: dof 0 on the boundary, see `C62_bug_dof_zero`. -/
theorem C152_residual_partial (hS : r.Summation S) (h : P.OnNodes X I) (hP : P.Ok) (hpar : hasDT P.op = true) (hop : P.Form D β rc) {C α γ : ℝ}
    (hs : P.Shape X hh ρ) (hh0 : 0 ≤ hh)
    (hρ : 0 < ρ) (hC : 0 ≤ C) (hFr : P.Friedrichs X C) (hΛ : 0 ≤ Λ) (hα : 0 < α)
    (hDα : ∀ c < P.n, ∀ k < size P.t, ∀ ξ : Fin P.N → ℝ, α * len ξ ^ 2 ≤ ∑ z, (∑ y, D c k z y * ξ y) * ξ z)
    (hD : ∀ c < P.n, ∀ k < size P.t, ∀ ξ : Fin P.N → ℝ, len (fun z => ∑ y, D c k z y * ξ y) ≤ Λ * len ξ)
    (hβ : ∀ c < P.n, ∀ k < size P.t, len (β c k) ≤ bm) (hrγ : ∀ c < P.n, ∀ k < size P.t, -γ ≤ rc c k) (hr : ∀ c < P.n, ∀ k < size P.t, |rc c k| ≤ cm)
    {t0 t1 : ℝ} (ht : t0 < t1) (hstep : (bm ^ 2 / (2 * α) + γ) * (t1 - t0) ≤ 1 / 2)
    (hE : ∀ v, P.Test v → P.l2 v v / (t1 - t0) + P.bilin v v = 0 → ∀ p < P.m, v p = 0)
    (hd : P.Computed r kd μ G ms ps gr) (hv : Valence P.n P.nb P.dofs v) {κ : ℝ} (hμ : 0 ≤ μ) (hκ0 : 0 ≤ κ)
    (hκ : ∀ c < P.n, ∀ k < size P.t, weakAbs P.N P.op (size P.t * c + k) 1 1 (fun _ => G) (fun _ => G) ≤ κ)
    (hsmall : (r.b ^ stepDepth P kd v - 1) * (μ * (κ + 1 / (t1 - t0))) * ((P.N + 1) * (C + hh)) ^ 2 < α / 2)
    {ε : ℝ} (hε : 0 ≤ ε) (lu : Solver ℝ) (hlu : BackwardLU P.m ε lu) (hlc : CompleteLU P.m lu)
    (data : Dense ℝ) (hrows : P.n * size P.t ≤ data.rows) (hc : 0 < data.cols) {Fm : ℝ} (hFm0 : 0 ≤ Fm)
    (hFm : ∀ i < data.cols, ∀ c < P.n, ∀ k < size P.t, |data.at' (size P.t * c + k) i| ≤ Fm) (g : Dense ℝ) (hg : P.m ≤ g.rows) (hgc : data.cols ≤ g.cols)
    (hm : 0 < P.m) (h0 : P.bd 0 = true) (junk ic : Nat → ℝ) (ts : List ℝ) :
    ∃ (sol : Nat → Nat → ℝ) (A Ma : Nat → Nat → ℝ) (b : Nat → Nat → ℝ),
      ((P.withData ms ps gr).initR r S data junk >>= pdeSolveParabolicR r S lu (t0 :: t1 :: ts) data.cols ic g) = .ok (true, sol) ∧ sol 0 = ic ∧
      (∀ u v, ∑ p ∈ Finset.range P.m, ∑ q ∈ Finset.range P.m, v p * A p q * u q = P.bilin u v) ∧
      (∀ u v, ∑ p ∈ Finset.range P.m, ∑ q ∈ Finset.range P.m, v p * Ma p q * u q = P.l2 u v) ∧
      (∀ i < data.cols, ∀ v : Nat → ℝ, ∑ p ∈ Finset.range P.m, v p * b i p = P.load (fun c k => data.at' (size P.t * c + k) i) v) ∧
      ∀ i, i + 1 < data.cols → (∀ p < P.m, P.bd p = true → |sol (i + 1) p - g.at' p (i + 1)| ≤ ε * (|sol (i + 1) p| + |g.at' p (i + 1)|)) ∧
        ∀ Wm, (∀ p < P.m, |sol (i + 1) p| ≤ Wm) → (∀ p < P.m, |sol i p| ≤ Wm) → ∀ p < P.m, P.bd p = false →
          |∑ q ∈ Finset.range P.m, (Ma p q / (t1 - t0) + A p q) * sol (i + 1) q - ((∑ q ∈ Finset.range P.m, Ma p q / (t1 - t0) * sol i q) + b (i + 1) p)| ≤
            (∑ k ∈ Finset.range (size P.t), weight ℝ P.t k) * ∑ c ∈ Finset.range P.n, P.measure c *
              (stepError P.N ρ Λ bm cm ε (r.b ^ stepDepth P kd v - 1) μ κ Wm Fm (t1 - t0) * P.cellSum (hatAt p) c) := by
  have hσ : ∑ k ∈ Finset.range (size P.t), |weight ℝ P.t k| = ∑ k ∈ Finset.range (size P.t), weight ℝ P.t k :=
    Finset.sum_congr rfl fun k hk => abs_of_pos (weight_pos h (Finset.mem_range.1 hk))
  set δ := r.b ^ stepDepth P kd v - 1 with hδd
  have hδ : 0 ≤ δ := sub_nonneg.2 (one_le_pow₀ r.one_le_b)
  set dt := t1 - t0 with hdtd
  have hdt : 0 < dt := by rw [hdtd]; linarith
  obtain ⟨s0, s, h1, e1, e2, e3, e4, e5, eA, eM, eF⟩ := assembly_err hS hP hd hv hκ data hrows hc (Fm := fun _ => Fm) hFm junk
  obtain ⟨s0', h1', h2, h3, h4, h5, h6, h7, h8⟩ := C102_init P hP data hrows hc junk
  have es := Res.ok.inj (h1.symm.trans h1')
  subst es
  rw [hσ] at eA eM eF
  set σ := ∑ k ∈ Finset.range (size P.t), weight ℝ P.t k with hσd
  have hσ0 : 0 < σ := weights_pos h
  have hnb : 1 ≤ P.nb := by rw [nb_eq h]; omega
  have hvn : v ≤ v * P.nb := Nat.le_mul_of_pos_right v hnb
  have mono : ∀ j, j ≤ stepDepth P kd v → r.b ^ j - 1 ≤ δ := fun j hj => sub_le_sub_right (pow_le_pow_right₀ r.one_le_b hj) 1
  rw [h2] at e2
  rw [h3] at e3
  rw [h5] at e4
  obtain ⟨s', e, a1, a2, a3, a4, a5, a6, a7⟩ := C62_rows g s e5 (by rw [e2]; exact hg) (by omega) (by rw [e2, e4]; exact Nat.le_mul_of_pos_right _ hc)
  rw [e2, e3] at a6 a7
  rw [e2] at a1
  rw [e3] at a2
  have hb0 : ∀ p, (p = 0 ∨ P.bd p = true) ↔ P.bd p = true := fun p => ⟨fun h => h.elim (fun h => h ▸ h0) id, .inr⟩
  simp only [hb0] at a6 a7
  set BA := fun p q => fullSum P.n P.nb P.dofs (fun c _ _ => σ * (μ * κ * P.measure c)) p q with hBA
  set BM := fun p q => fullSum P.n P.nb P.dofs (fun c _ _ => σ * (μ * P.measure c)) p q with hBM
  -- the entries of the matrix
  have hK : ∀ p q, P.bd p = false → |stepEntryR r s' (r.rnd dt) p q - (s0.mass p q / dt + s0.stiff p q)| ≤ δ * (BM p q / dt + BA p q) := by
    intro p q hb
    have hst : s'.stiff p q = s.stiff p q := by rw [a6, if_neg (by simp [hb])]
    have hma : s'.mass p q = s.mass p q := by rw [a3]
    have := stepEntry_err (r := r) hdt (s := s') (p := p) (q := q) (by rw [hma]; exact eM p q) (by rw [hst]; exact eA p q)
    exact this.2.trans (mul_le_mul_of_nonneg_right (mono _ (by rw [stepDepth]; omega)) this.nonneg)
  have hKf : ∀ p q, BM p q / dt + BA p q = fullSum P.n P.nb P.dofs (fun c _ _ => σ * (μ * (κ + 1 / dt) * P.measure c)) p q := by
    intro p q
    simp only [hBM, hBA, fullSum, Finset.sum_div, ← Finset.sum_add_distrib]
    refine Finset.sum_congr rfl fun c _ => Finset.sum_congr rfl fun i _ => Finset.sum_congr rfl fun j _ => ?_
    split_ifs
    · ring
    · simp
  have hsome : (lu (fun p q => if p < s'.n ∧ (p = 0 ∨ s'.bd p = true) then (if q = p then 1 else 0) else stepEntryR r s' (r.rnd (t1 - t0)) p q)).isSome := by
    apply hlc
    refine perturbed_form_det h hP hs hh0 hC hFr (a := fun u v => P.l2 u v / dt + P.bilin u v) (α0 := α / 2) (fun v V b _ hV => ?_) hE
      (A := fun p q => s0.mass p q / dt + s0.stiff p q) (A' := fun p q => if P.bd p = true then s0.mass p q / dt + s0.stiff p q else stepEntryR r s' (r.rnd dt) p q)
      (B := fun p q => if p < s'.n ∧ (p = 0 ∨ s'.bd p = true) then (if q = p then 1 else 0) else stepEntryR r s' (r.rnd (t1 - t0)) p q)
      (fun u v => ?_) (δ := δ * (μ * (κ + 1 / dt))) (by positivity) (fun p q => ?_) (fun p hp q => ?_) hsmall
    · have g1 := garding h hop hα hDα hβ hrγ hV
      have g2 := l2_nonneg P (fun c hc => measure_pos h hc) (fun k hk => weight_pos h hk) v
      have g3 : (bm ^ 2 / (2 * α) + γ) * P.l2 v v ≤ P.l2 v v / dt := by
        rw [le_div_iff₀ hdt]
        have := mul_le_mul_of_nonneg_right hstep g2
        linarith
      show σ * (α / 2 * P.energySq X V) ≤ P.l2 v v / dt + P.bilin v v
      rw [← hσd] at g1
      linarith
    · show _ = P.l2 u v / dt + P.bilin u v
      rw [← h6, ← h7, Finset.sum_div, ← Finset.sum_add_distrib]
      refine Finset.sum_congr rfl fun p _ => ?_
      rw [Finset.sum_div, ← Finset.sum_add_distrib]
      exact Finset.sum_congr rfl fun q _ => by ring
    · have e9 : fullSum P.n P.nb P.dofs (fun c _ _ => σ * (δ * (μ * (κ + 1 / dt)) * P.measure c)) p q = δ * (BM p q / dt + BA p q) := by
        rw [hKf, fullSum, fullSum, Finset.mul_sum]
        refine Finset.sum_congr rfl fun c _ => ?_
        rw [Finset.mul_sum]
        refine Finset.sum_congr rfl fun i _ => ?_
        rw [Finset.mul_sum]
        refine Finset.sum_congr rfl fun j _ => ?_
        rw [mul_ite, mul_zero]
        refine if_congr Iff.rfl ?_ rfl
        ring
      rw [e9]
      by_cases hb : P.bd p = true
      · simp only [if_pos hb, sub_self, abs_zero]
        have := div_nonneg (eM p q).nonneg hdt.le
        exact mul_nonneg hδ (add_nonneg this (eA p q).nonneg)
      · simp only [if_neg hb]
        exact hK p q (by simpa using hb)
    · simp only [a1, a2, hp, true_and, hb0]
      by_cases hb : P.bd p = true
      · simp only [if_pos hb]
      · simp only [if_neg hb]
        rw [hdtd]
  obtain ⟨sol, r1, r2, r3⟩ := rounded_recursion (r := r) (S := S) lu t0 t1 ts data.cols ic g s' (by rw [a1]; exact hlu) a5 (by rw [a1]; exact hg) hgc hc
    (by rw [a4, a1, e4]) hsome
  rw [a1, a2] at r3
  simp only [hb0] at r3
  refine ⟨sol, s0.stiff, s0.mass, fun i p => s0.force (P.m * i + p), ?_, r2, h6, h7, fun i hi v => h8 i (.inr ⟨hpar, hi⟩) v,
    fun i hi => ⟨fun p hp hb => (r3 i hi p hp).1 hb, fun Wm hW1 hW0 p hp hb => ?_⟩⟩
  · rw [e1, Res.ok_bind, pdeSolveParabolicR, if_neg (Nat.mul_pos (by omega) (by omega)).ne', e, Res.ok_bind]
    exact r1
  have h9 := (r3 i hi p hp).2 (by simp [hb])
  have hWm0 : 0 ≤ Wm := (abs_nonneg _).trans (hW0 p hp)
  rw [← hdtd] at h9
  have key := row_residual (K := fun q => s0.mass p q / dt + s0.stiff p q) (R := (∑ q ∈ Finset.range P.m, s0.mass p q / dt * sol i q) + s0.force (P.m * (i + 1) + p))
    hε h9
  have rb := row_bound_time h hP hop hs hρ hΛ hD hβ hr (hFm (i + 1) hi) h6 h7 (h8 (i + 1) (.inr ⟨hpar, hi⟩)) hdt hW1 hW0 hp
  rw [← hσd] at rb
  set T := ∑ c ∈ Finset.range P.n, P.measure c * P.cellSum (hatAt p) c with hT
  have dK : ∑ q ∈ Finset.range P.m, |stepEntryR r s' (r.rnd dt) p q - (s0.mass p q / dt + s0.stiff p q)| * |sol (i + 1) q| ≤
      δ * (σ * (μ * ((κ + 1 / dt) * (P.N + 1) * Wm) * T)) := by
    have f1 := fullSum_row h hP (M := fun c => σ * (μ * (κ + 1 / dt) * P.measure c)) (fun c hc => by
      have := measure_pos h hc
      positivity) hW1 hp
    have f2 := mul_le_mul_of_nonneg_left f1 hδ
    refine le_trans ?_ (f2.trans (le_of_eq ?_))
    · rw [Finset.mul_sum]
      refine Finset.sum_le_sum fun q _ => ?_
      rw [← mul_assoc, ← hKf]
      exact mul_le_mul_of_nonneg_right (hK p q hb) (abs_nonneg _)
    · rw [hT]
      simp only [Finset.mul_sum]
      exact Finset.sum_congr rfl fun c _ => by ring
  have dR : |rhsRowR r S s' (r.rnd dt) (sol i) i p - ((∑ q ∈ Finset.range P.m, s0.mass p q / dt * sol i q) + s0.force (P.m * (i + 1) + p))| ≤
      δ * (σ * (μ * ((P.N + 1) * Wm / dt + Fm) * T)) := by
    have hfo : s'.force (s'.n * (i + 1) + p) = s.force (P.m * (i + 1) + p) := by
      rw [a1, a7, if_neg]
      rintro ⟨h10, -⟩
      have : P.m * 1 ≤ P.m * (i + 1) := Nat.mul_le_mul_left _ (by omega)
      omega
    have h10 := rhsRow_err hS hv hdt (s := s') (i := i) (p := p) (m := fun c => σ * (μ * P.measure c)) (Ma := s0.mass p) (fun q => by rw [a3]; exact eM p q)
      (by rw [hfo]; exact eF (i + 1) (.inr ⟨hpar, hi⟩) p hp) (sol i)
    rw [a1] at h10
    refine h10.2.trans ((mul_le_mul_of_nonneg_right (mono _ (by rw [stepDepth]; omega)) h10.nonneg).trans (mul_le_mul_of_nonneg_left ?_ hδ))
    have f1 := fullSum_row h hP (M := fun c => σ * (μ * P.measure c)) (fun c hc => by
      have := measure_pos h hc
      positivity) hW0 hp
    have f2 := div_le_div_of_nonneg_right f1 hdt.le
    rw [load_row]
    have e10 : ∑ q ∈ Finset.range P.m, fullSum P.n P.nb P.dofs (fun c _ _ => σ * (μ * P.measure c)) p q / dt * |sol i q| =
        (∑ q ∈ Finset.range P.m, fullSum P.n P.nb P.dofs (fun c _ _ => σ * (μ * P.measure c)) p q * |sol i q|) / dt := by
      rw [Finset.sum_div]
      exact Finset.sum_congr rfl fun q _ => by ring
    rw [e10]
    refine (add_le_add f2 le_rfl).trans (le_of_eq ?_)
    rw [hT, Finset.sum_div, ← Finset.sum_add_distrib]
    simp only [Finset.mul_sum]
    exact Finset.sum_congr rfl fun c _ => by ring
  have fin : ∑ c ∈ Finset.range P.n, P.measure c * (stepError P.N ρ Λ bm cm ε δ μ κ Wm Fm dt * P.cellSum (hatAt p) c) =
      stepError P.N ρ Λ bm cm ε δ μ κ Wm Fm dt * T := by
    rw [hT, Finset.mul_sum]
    exact Finset.sum_congr rfl fun c _ => by ring
  rw [fin]
  refine key.trans ?_
  have k1 := mul_le_mul_of_nonneg_left rb hε
  have k2 := mul_le_mul_of_nonneg_left (add_le_add dK dR) (show 0 ≤ 1 + ε by linarith)
  refine (add_le_add k1 k2).trans (le_of_eq ?_)
  rw [stepError]
  ring

end

set_option maxHeartbeats 2000000 in
/-- **C152**, rounding: the function returned in floating point arithmetic differs from the one returned with exact arithmetic by a multiple of the residual
`stepError` of the equations of the steps, in the mean square of the values at each instant and in the sum over the instants of the ones of the gradients. -/
theorem C152_rounding_partial (hN : N ∈ [1, 2, 3]) {n nNodes : Nat} {cells : Nat → Nat → Nat} {X : Nat → Fin N → ℝ} (bNodes : Nat → Bool)
    (h : GoodMesh (N + 1) n nNodes cells X) (hb : MarksBoundary (N + 1) n cells bNodes) {hh ρ : ℝ} (hs : MeshShape n cells X hh ρ) (hρ : 0 < ρ)
    {t0 t1 : ℝ} (ht : t0 < t1) (ts : List ℝ) (cols : Nat) (hcols : 0 < cols)
    {A : (Fin N → ℝ) → Fin N → Fin N → ℝ} {β : (Fin N → ℝ) → Fin N → ℝ} {rc : (Fin N → ℝ) → ℝ} {α Λ bm γ cm : ℝ}
    (hco : Bounded (domain (N + 1) n cells X) A β rc α Λ bm γ cm) (hα : 0 < α) (hΛ : 0 ≤ Λ) (hγ : 0 ≤ γ)
    {u u' : ℝ → (Fin N → ℝ) → ℝ} {M F B L K L' : ℝ} (hu : FlowOn n cells X A u u' t0 (t0 + (cols - 1 : Nat) * (t1 - t0)) M F B L K L') (hM : 0 ≤ M)
    (z : Fin N) {a ℓ : ℝ} (hl : ∀ x ∈ domain (N + 1) n cells X, |x z - a| ≤ ℓ) (hstep : (bm ^ 2 / (2 * α) + γ) * (t1 - t0) ≤ 1 / 2)
    {op : Op ℝ} {Dr : Nat → Nat → Nat → ℝ} {br : Nat → Nat → ℝ} {cr : Nat → ℝ} (hop : StandsFor N op Dr br cr) (hpar : hasDT op = true)
    (hsy : FlagRight N op) (hns : NoScalar op) (lu0 : Solver ℝ) (hlu0 : ExactLU nNodes lu0) (hS : r.Summation S) (hv : Valence n (N + 1) cells v)
    {ε : ℝ} (hε : 0 ≤ ε) (lu : Solver ℝ) (hlu : BackwardLU nNodes ε lu) (hlc : CompleteLU nNodes lu) (hm : 0 < nNodes) (h0 : bNodes 0 = true)
    {Fm : ℝ} (hFm : ∀ j < cols, ∀ x ∈ domain (N + 1) n cells X, |parabolicForcing A β rc u u' (t0 + j * (t1 - t0)) x| ≤ Fm) :
    ∃ P, problem1 N op cells n nNodes X bNodes = .ok P ∧ (Sampled n cells X P.t A β rc Dr br cr →
      ∀ kd μ G ms ps gr, P.Computed r kd μ G ms ps gr →
      ∀ κ, (∀ c < n, ∀ k < size P.t, weakAbs N op (size P.t * c + k) 1 1 (fun _ => G) (fun _ => G) ≤ κ) →
      (r.b ^ stepDepth P kd v - 1) * (μ * (κ + 1 / (t1 - t0))) * ((N + 1) * (2 * ℓ + hh)) ^ 2 < α / 2 →
      ∀ (data : Dense ℝ), n * size P.t ≤ data.rows → data.cols = cols →
      (∀ j < cols, ∀ c < n, ∀ k < size P.t, data.at' (size P.t * c + k) j =
        parabolicForcing A β rc u u' (t0 + j * (t1 - t0)) (meshPoint cells X c fun w => node ℝ P.t k w)) →
      ∀ g : Dense ℝ, nNodes ≤ g.rows → cols ≤ g.cols → (∀ j < cols, ∀ p < nNodes, bNodes p = true → g.at' p j = u (t0 + j * (t1 - t0)) (X p)) →
      ∀ junk (w0 : Nat → Nat → ℝ) (W0 : Nat → Nat → Fin N → ℝ) (b0 : Nat → Nat → ℝ),
        (P.init data junk >>= pdeSolveParabolic lu0 (t0 :: t1 :: ts) cols (fun p => u t0 (X p)) g) = .ok (true, w0) →
        (∀ i < cols, PiecewiseAffine n cells X (w0 i) (W0 i) (b0 i)) →
        ∃ (sol : Nat → Nat → ℝ) (W : Nat → Nat → Fin N → ℝ) (b : Nat → Nat → ℝ),
        ((P.withData ms ps gr).initR r S data junk >>= pdeSolveParabolicR r S lu (t0 :: t1 :: ts) cols (fun p => u t0 (X p)) g) = .ok (true, sol) ∧
        ∀ Wm, (∀ j < cols, ∀ p < nNodes, |sol j p| ≤ Wm) → (∀ j < cols, ∀ p < nNodes, bNodes p = true → |u (t0 + j * (t1 - t0)) (X p)| ≤ Wm) →
        ∀ Q, Q = stepGain N hh ρ (2 * ℓ) Λ bm cm (2 * ε * Wm) (t1 - t0) (stepError N ρ Λ bm cm ε (r.b ^ stepDepth P kd v - 1) μ κ Wm Fm (t1 - t0)) →
        ∀ i < cols, PiecewiseAffine n cells X (sol i) (W i) (b i) ∧
          valueError n cells X (u (t0 + i * (t1 - t0))) (W i) (b i) ≤ 2 * valueError n cells X (u (t0 + i * (t1 - t0))) (W0 i) (b0 i) +
              (16 * (ε * Wm) ^ 2 + 100 * flowBound (bm ^ 2 / (2 * α) + γ) α (i * (t1 - t0)) 0 Q ^ 2) *
              (volume (domain (N + 1) n cells X)).toReal ∧
          ∑ j ∈ Finset.range i, (t1 - t0) * gradError n cells X (u (t0 + (j + 1 : Nat) * (t1 - t0))) (W (j + 1)) ≤
            2 * (∑ j ∈ Finset.range i, (t1 - t0) * gradError n cells X (u (t0 + (j + 1 : Nat) * (t1 - t0))) (W0 (j + 1))) +
            i * (t1 - t0) * (16 * ((N + 1) / ρ * (ε * Wm)) ^ 2 + 32 / α * ((bm ^ 2 / (2 * α) + γ) *
              flowBound (bm ^ 2 / (2 * α) + γ) α (i * (t1 - t0)) 0 Q ^ 2 +
              Q ^ 2 / α)) * (volume (domain (N + 1) n cells X)).toReal) := by
  have hN0 : 0 < N := by
    simp only [List.mem_cons, List.not_mem_nil, or_false] at hN
    omega
  obtain ⟨t, hrule⟩ := rule1 hN
  refine ⟨meshProb N 1 (N + 1) t op cells n X (enumDofs1 cells nNodes bNodes), by rw [problem1, hrule]; rfl, fun hsa kd μ G ms ps gr hd κ hκ hsmall data hr hc hf g hg hgc hgb junk w0 W0 b0 q1 q2 => ?_⟩
  change Sampled n cells X t A β rc Dr br cr at hsa
  have hO := mesh_onNodes (nNodes := nNodes) hN hrule op h.proper bNodes
  have hcf := mesh_conforming (t := t) hN0 op h hb
  have hsh := exact_shape (t := t) (nNodes := nNodes) op bNodes hρ hs
  have hpt := mesh_point (t := t) (n := n) (nNodes := nNodes) (cells := cells) (X := X) op bNodes
  have hce := mesh_cell (t := t) (n := n) (nNodes := nNodes) (cells := cells) (X := X) op bNodes
  have hge := fun u W => mesh_gradError (t := t) (n := n) (nNodes := nNodes) (cells := cells) (X := X) op bNodes u W
  have hve := fun u W b => mesh_valueError (t := t) (n := n) (nNodes := nNodes) (cells := cells) (X := X) op bNodes u W b
  set dt := t1 - t0 with hdt
  have hdt0 : 0 < dt := by rw [hdt]; linarith
  set T1 := t0 + ((cols - 1 : Nat) : ℝ) * dt with hT1
  have hin : ∀ j < cols, t0 + (j : ℝ) * dt ∈ Set.Icc t0 T1 := by
    intro j hj
    have h1 : (j : ℝ) ≤ ((cols - 1 : Nat) : ℝ) := by exact_mod_cast (by omega : j ≤ cols - 1)
    have h2 := mul_le_mul_of_nonneg_right h1 hdt0.le
    have h3 : 0 ≤ (j : ℝ) * dt := by positivity
    exact ⟨by linarith, by rw [hT1]; linarith⟩
  have hsm : ∀ j < cols, _ := fun j hj => flux_smooth (t := t) (nNodes := nNodes) op bNodes hM (hu.space _ (hin j hj))
  obtain ⟨c0, hc0, v0, hv0, -⟩ := h.used 0 hm
  have hx0 : X (cells c0 v0) ∈ domain (N + 1) n cells X := region_domain hc0 (subset_convexHull ℝ _ ⟨v0, hv0, rfl⟩)
  have hh0 : 0 ≤ hh := (len_nonneg _).trans (hs.diam c0 hc0 v0 hv0 v0 hv0)
  have hl0 : 0 ≤ ℓ := (abs_nonneg _).trans (hl _ hx0)
  have hbm : 0 ≤ bm := (len_nonneg _).trans (hco.transport _ hx0)
  have hcm : 0 ≤ cm := (abs_nonneg _).trans (hco.reaction _ hx0).2
  have hFm0 : 0 ≤ Fm := (abs_nonneg _).trans (hFm 0 hcols _ hx0)
  have hvol : ∑ c ∈ Finset.range n, (volume ((meshProb N 1 (N + 1) t op cells n X (enumDofs1 cells nNodes bNodes)).cell (natX X) c)).toReal =
      (volume (domain (N + 1) n cells X)).toReal := by
    rw [← domain_volume h]
    exact Finset.sum_congr rfl fun c _ => congrArg (fun s : Set (Fin N → ℝ) => (volume s).toReal) (hce c)
  have hms : ∑ c ∈ Finset.range n, (meshProb N 1 (N + 1) t op cells n X (enumDofs1 cells nNodes bNodes)).measure c =
      (volume (domain (N + 1) n cells X)).toReal := by
    rw [← hvol]
    exact Finset.sum_congr rfl fun c hc => (cell_measure hO (Finset.mem_range.1 hc)).symm
  have hFr := friedrichs hO hcf h.nodes z (a := a) (ℓ := ℓ) fun c hc x hx => hl x (region_domain hc (by rw [hce] at hx; exact hx))
  have hC0 : 0 ≤ 2 * ℓ := mul_nonneg two_pos.le hl0
  have hpd : ∀ c < n, ∀ k < size t, (meshPoint cells X c fun w => node ℝ t k w) ∈ region (N + 1) cells X c := fun c hc k hk => by
    have := node_mem hO c hk
    rw [hce] at this
    rw [← hpt c k]
    exact this
  have hpD : ∀ c < n, ∀ k < size t, (meshPoint cells X c fun w => node ℝ t k w) ∈ domain (N + 1) n cells X := fun c hc k hk => region_domain hc (hpd c hc k hk)
  have hform : (meshProb N 1 (N + 1) t op cells n X (enumDofs1 cells nNodes bNodes)).Form
      (fun c k z y => A (meshPoint cells X c fun w => node ℝ t k w) z y) (fun c k z => β (meshPoint cells X c fun w => node ℝ t k w) z)
      (fun c k => rc (meshPoint cells X c fun w => node ℝ t k w)) := by
    intro c hc k hk u v gu gv
    refine (hop (size t * c + k) u v gu gv).trans ?_
    rw [hsa.reaction c hc k hk]
    simp only [dot]
    rw [Finset.sum_range, Finset.sum_range]
    simp only [Finset.sum_range, hsa.diffusion c hc k hk, hsa.transport c hc k hk]
    rfl
  have hOk : (meshProb N 1 (N + 1) t op cells n X (enumDofs1 cells nNodes bNodes)).Ok := ⟨h.nodes, hsy, hns⟩
  set V := (volume (domain (N + 1) n cells X)).toReal with hV
  have hV0 : 0 ≤ V := ENNReal.toReal_nonneg
  set l := bm ^ 2 / (2 * α) + γ with hld
  have hl00 : 0 ≤ l := by positivity
  have hgar : ∀ (v : Nat → ℝ) (Vg : Nat → Fin N → ℝ) (b : Nat → ℝ),
      (meshProb N 1 (N + 1) t op cells n X (enumDofs1 cells nNodes bNodes)).Affine (natX X) v Vg b →
      (∑ k ∈ Finset.range (size t), weight ℝ t k) * (α / 2 * (meshProb N 1 (N + 1) t op cells n X (enumDofs1 cells nNodes bNodes)).energySq (natX X) Vg) -
        l * (meshProb N 1 (N + 1) t op cells n X (enumDofs1 cells nNodes bNodes)).l2 v v ≤
          (meshProb N 1 (N + 1) t op cells n X (enumDofs1 cells nNodes bNodes)).bilin v v := fun v Vg b hv =>
    garding hO hform hα (fun c hc k hk => hco.elliptic _ (hpD c hc k hk)) (fun c hc k hk => hco.transport _ (hpD c hc k hk))
      (fun c hc k hk => (hco.reaction _ (hpD c hc k hk)).1) hv
  set P := meshProb N 1 (N + 1) t op cells n X (enumDofs1 cells nNodes bNodes) with hPdef
  have hcol : 0 < data.cols := by omega
  have hgc' : data.cols ≤ g.cols := by omega
  have hdef : ∀ v, P.Test v → P.l2 v v / (t1 - t0) + P.bilin v v = 0 → ∀ p < P.m, v p = 0 := by
    intro v _ hv p hp
    obtain ⟨Vg, bg, hA⟩ := affine_exists hO v
    have h1 := hgar v Vg bg hA
    have h2 := l2_nonneg P (fun c hc => measure_pos hO hc) (fun k hk => weight_pos hO hk) v
    have h3 : 0 ≤ (∑ k ∈ Finset.range (size t), weight ℝ t k) * (α / 2 * P.energySq (natX X) Vg) :=
      mul_nonneg (weights_pos hO).le (mul_nonneg (by positivity) (energySq_nonneg hO _))
    rw [← hdt] at hv
    have h4 : P.l2 v v = 0 := by
      by_contra hne
      have hpos := lt_of_le_of_ne h2 (Ne.symm hne)
      have h5 : P.l2 v v / dt ≤ l * P.l2 v v := by linarith
      rw [div_le_iff₀ hdt0] at h5
      have h6 : l * P.l2 v v * dt ≤ 1 / 2 * P.l2 v v := by
        have := mul_le_mul_of_nonneg_right hstep hpos.le
        linarith
      linarith
    obtain ⟨c, hc, w, hw, rfl⟩ := h.used p hp
    exact l2_zero hO h4 hc hw
  -- the exact steps
  obtain ⟨bb, sol', s2, s3, s4⟩ := C102_parabolic_partial P hOk hpar lu0 hlu0 data hr hcol g hg hgc' hm h0 junk (fun p => u t0 (X p)) t0 t1 ts
  rw [hc] at s2 s4
  have hsame := q1.symm.trans s2
  simp only [Res.ok.injEq, Prod.mk.injEq] at hsame
  obtain ⟨hbb, rfl⟩ := hsame
  have s4 := s4 hbb.symm
  -- the computed steps
  have hk : 0 < size t := by
    have hσ := weights_pos hO
    by_contra hk
    rw [show P.t = t from rfl, Nat.eq_zero_of_not_pos hk] at hσ
    simp at hσ
  have hμ : 0 ≤ μ := by
    have h1 := (hd.measure c0 hc0).nonneg
    exact nonneg_of_mul_nonneg_left h1 (measure_pos hO hc0)
  have hnb : 0 < N + 1 := by omega
  have hκ0 : 0 ≤ κ := (weak_err hS N (hd.psi 0 hnb 0 hk) (hd.psi 0 hnb 0 hk) (fun z hz => hd.grad c0 hc0 0 hnb 0 hk z hz)
    (fun z hz => hd.grad c0 hc0 0 hnb 0 hk z hz) (size t * c0 + 0) op).nonneg.trans (hκ c0 hc0 0 hk)
  obtain ⟨sol, As, Ms, bs, r1, r2, r3, r4, r5, r6⟩ := C152_residual_partial hS hO hOk hpar hform hsh hh0 hρ hC0 hFr hΛ hα
    (fun c hc k hk => hco.elliptic _ (hpD c hc k hk)) (fun c hc k hk => hco.diffusion _ (hpD c hc k hk)) (fun c hc k hk => hco.transport _ (hpD c hc k hk))
    (fun c hc k hk => (hco.reaction _ (hpD c hc k hk)).1) (fun c hc k hk => (hco.reaction _ (hpD c hc k hk)).2) ht hstep hdef hd hv hμ hκ0 hκ hsmall hε lu hlu hlc
    data hr hcol hFm0 (fun i hi c hc' k hk => by
      rw [show data.at' (size P.t * c + k) i = _ from hf i (by omega) c hc' k hk]
      exact hFm i (by omega) _ (hpD c hc' k hk)) g hg hgc' hm h0 junk (fun p => u t0 (X p)) ts
  rw [hc] at r1 r5 r6
  rw [← hdt] at r6 s4
  choose W b hW using fun i => affine_exists hO (sol i)
  refine ⟨sol, W, b, r1, fun Wm hWm hgm Qs hQs i hi => ⟨fun c hc v hv => ?_, ?_⟩⟩
  · refine (hW i c hc v hv).trans ?_
    congr 1
    exact Finset.sum_congr rfl fun z _ => by rw [← natX_fin X]; rfl
  have hWm0 : 0 ≤ Wm := (abs_nonneg _).trans (hWm 0 hcols 0 hm)
  have hrc : 0 ≤ rowConst N ρ Λ bm cm := by rw [rowConst]; positivity
  have hδ : 0 ≤ r.b ^ stepDepth P kd v - 1 := sub_nonneg.2 (one_le_pow₀ r.one_le_b)
  set Er := stepError N ρ Λ bm cm ε (r.b ^ stepDepth P kd v - 1) μ κ Wm Fm (t1 - t0) with hErd
  rw [← hdt] at hErd
  have hEr0 : 0 ≤ Er := by rw [hErd, stepError]; positivity
  have hQs0 : 0 ≤ Qs := by rw [hQs, stepGain]; positivity
  obtain ⟨s, v, n1, n2, n3, n4⟩ := near_steps_gen hO hOk hform hsh hh0 hρ hC0 hFr hΛ hbm hcm hγ hα
    (fun c hc k hk => hco.elliptic _ (hpD c hc k hk)) (fun c hc k hk => hco.diffusion _ (hpD c hc k hk)) (fun c hc k hk => hco.transport _ (hpD c hc k hk))
    (fun c hc k hk => (hco.reaction _ (hpD c hc k hk)).1) (fun c hc k hk => (hco.reaction _ (hpD c hc k hk)).2) (i + 1)
    (f := fun j c k => data.at' (size t * c + k) j) (w := w0) (w' := sol) (g := fun j p => g.at' p j) (Wm := Wm) (Er := Er) (ε := ε) (dt := dt) hdt0 hstep hε hWm0 hEr0
    (r2.trans s3.symm) (fun j hj => (s4 j (by omega)).2) (fun j hj => (s4 j (by omega)).1)
    (fun j hj p hp hb => by
      refine ((r6 j (by omega)).1 p hp hb).trans ?_
      have i1 := hWm (j + 1) (by omega) p hp
      have i2 := hgm (j + 1) (by omega) p hp hb
      rw [← hgb (j + 1) (by omega) p hp hb] at i2
      have := mul_le_mul_of_nonneg_left (add_le_add i1 i2) hε
      linarith)
    (fun j hj v hv => by
      have h1 := rows_tested hOk ((r6 j (by omega)).2 Wm (hWm (j + 1) (by omega)) (hWm j (by omega))) hv
      refine le_trans (le_of_eq ?_) h1
      congr 1
      have e : P.l2 (fun p => (sol (j + 1) p - sol j p) / dt) v = P.l2 (sol (j + 1)) v / dt - P.l2 (sol j) v / dt := by
        have := l2_left P hOk dt⁻¹ (-dt⁻¹) (sol (j + 1)) (sol j) v
        rw [show (fun p => dt⁻¹ * sol (j + 1) p + -dt⁻¹ * sol j p) = fun p => (sol (j + 1) p - sol j p) / dt by funext p; field_simp; ring] at this
        rw [this]
        field_simp
        ring
      rw [e, ← r3, ← r4, ← r4]
      have e2 := r5 (j + 1) (by omega) v
      change _ - P.load (fun c k => data.at' (size P.t * c + k) (j + 1)) v = _
      rw [← e2, Finset.sum_div, Finset.sum_div, ← Finset.sum_sub_distrib, ← Finset.sum_add_distrib, ← Finset.sum_sub_distrib]
      refine Finset.sum_congr rfl fun p _ => ?_
      rw [mul_sub, mul_add, Finset.mul_sum, Finset.mul_sum, Finset.sum_div, Finset.sum_div, ← Finset.sum_sub_distrib, ← Finset.sum_add_distrib]
      rw [← sub_sub, ← Finset.sum_sub_distrib]
      congr 1
      exact Finset.sum_congr rfl fun q _ => by ring)
  choose Sg sa hSg using fun j => affine_exists hO (s j)
  choose Vg vd hVg using fun j => affine_exists hO (v j)
  have hsq : ∀ j : Nat, Real.exp (2 * l * (j * dt)) * (j * dt * 0 + Real.sqrt (2 * (j * dt) * ((Qs * Real.sqrt V) ^ 2 / α))) =
      flowBound l α (j * dt) 0 Qs * Real.sqrt V := by
    intro j
    have hj : 0 ≤ (j : ℝ) * dt := by positivity
    have e1 : 2 * ((j : ℝ) * dt) * ((Qs * Real.sqrt V) ^ 2 / α) = 2 * (j * dt) / α * (Qs * Real.sqrt V) ^ 2 := by
      field_simp
    rw [e1, Real.sqrt_mul (by positivity), Real.sqrt_sq (by positivity), flowBound]
    ring
  rw [show stepGain P.N hh ρ (2 * ℓ) Λ bm cm (2 * ε * Wm) dt Er = Qs from hQs.symm] at n4
  have hnear := n4 Vg vd hVg (flowBound l α (i * dt) 0 Qs * Real.sqrt V) (fun j hj => by
    rw [show (∑ c ∈ Finset.range P.n, P.measure c) = V from hms]
    refine (le_of_eq (hsq j)).trans ?_
    refine mul_le_mul_of_nonneg_right (flowBound_mono hl00 hα le_rfl hQs0 (by positivity) ?_) (Real.sqrt_nonneg _)
    exact mul_le_mul_of_nonneg_right (by exact_mod_cast (by omega : j ≤ i)) hdt0.le)
  rw [show (∑ c ∈ Finset.range P.n, P.measure c) = V from hms] at hnear
  have hst : P.nrm (v i) ≤ flowBound l α (i * dt) 0 Qs * Real.sqrt V := (hnear.1 i (by omega)).trans (le_of_eq (hsq i))
  have hen : α / 8 * ∑ j ∈ Finset.range i, dt * P.energySq (natX X) (Vg (j + 1)) ≤
      i * dt * (l * (flowBound l α (i * dt) 0 Qs * Real.sqrt V) ^ 2 + 0 * (flowBound l α (i * dt) 0 Qs * Real.sqrt V) + (Qs * Real.sqrt V) ^ 2 / α) :=
    hnear.2 i (by omega)
  set R := flowBound l α (i * dt) 0 Qs with hR
  have hAf : ∀ j < cols, P.Affine (natX X) (w0 j) (W0 j) (b0 j) := fun j hj c hc v hv => by
    refine (q2 j hj c hc v hv).trans ?_
    congr 1
    exact Finset.sum_congr rfl fun z _ => by rw [← natX_fin X]; rfl
  have huc : ∀ j < cols, ∀ c < n, ContinuousOn (u (t0 + (j : ℝ) * dt)) (P.cell (natX X) c) := by
    intro j hj c hc
    rw [hce]
    obtain ⟨U, hU, hD, hC, -⟩ := (hu.space _ (hin j hj)).smooth
    exact hC.continuousOn.mono ((region_domain hc).trans hD)
  have hη : 0 ≤ 2 * ε * Wm := by positivity
  refine ⟨?_, ?_⟩
  · have m1 := near_value hO (huc i hi) (hAf i hi) (hW i) (hSg i) (hVg i) (fun c _ j _ => n1 i _) (n2 i (by omega))
    rw [show (∑ c ∈ Finset.range P.n, P.measure c) = V from hms] at m1
    have m2 : P.l2 (v i) (v i) ≤ R ^ 2 * V := by
      have := pow_le_pow_left₀ (Real.sqrt_nonneg _) hst 2
      rwa [Real.sq_sqrt (l2_nonneg P (fun c hc => measure_pos hO hc) (fun k hk => weight_pos hO hk) _), mul_pow, Real.sq_sqrt hV0] at this
    have m4 : valueError n cells X (u (t0 + (i : ℝ) * dt)) (W i) (b i) ≤ 2 * valueError n cells X (u (t0 + (i : ℝ) * dt)) (W0 i) (b0 i) +
        4 * ((2 * ε * Wm) ^ 2 * V) + 100 * P.l2 (v i) (v i) := by
      rw [hve _ (W0 i) (b0 i), show valueError n cells X (u (t0 + (i : ℝ) * dt)) (W i) (b i) = _ from hve _ (W i) (b i)]
      exact m1
    refine m4.trans ?_
    have e1 : 4 * ((2 * ε * Wm) ^ 2 * V) = 16 * (ε * Wm) ^ 2 * V := by ring
    rw [e1]
    linarith
  · have hgi : ∀ j ∈ Finset.range i, dt * gradError n cells X (u (t0 + (j + 1 : Nat) * dt)) (W (j + 1)) ≤
        2 * (dt * gradError n cells X (u (t0 + (j + 1 : Nat) * dt)) (W0 (j + 1))) + dt * (16 * ((N + 1) / ρ * (ε * Wm)) ^ 2 * V) +
          4 * (dt * P.energySq (natX X) (Vg (j + 1))) := by
      intro j hj
      have hj' : j + 1 < cols := by have := Finset.mem_range.1 hj; omega
      have h1 := near_grad hO hsh hρ (hsm (j + 1) hj').cont (hAf (j + 1) hj') (hW (j + 1)) (hSg (j + 1)) (hVg (j + 1)) (fun c _ k _ => n1 (j + 1) _) hη
        (n2 (j + 1) (by have := Finset.mem_range.1 hj; omega))
      rw [show (∑ c ∈ Finset.range P.n, P.measure c) = V from hms] at h1
      rw [hge (u (t0 + ((j + 1 : Nat) : ℝ) * dt)) (W (j + 1)), hge (u (t0 + ((j + 1 : Nat) : ℝ) * dt)) (W0 (j + 1))]
      have h2 := mul_le_mul_of_nonneg_left h1 hdt0.le
      refine h2.trans (le_of_eq ?_)
      show dt * (2 * _ + 4 * (((N + 1) / ρ * (2 * ε * Wm)) ^ 2 * V) + 4 * _) = _
      ring
    refine (Finset.sum_le_sum hgi).trans ?_
    rw [Finset.sum_add_distrib, Finset.sum_add_distrib, Finset.sum_const, Finset.card_range, nsmul_eq_mul,
      ← Finset.mul_sum (Finset.range i) (fun j => dt * gradError n cells X (u (t0 + (j + 1 : Nat) * dt)) (W0 (j + 1))),
      ← Finset.mul_sum (Finset.range i) (fun j => dt * P.energySq (natX X) (Vg (j + 1)))]
    set Sm := ∑ j ∈ Finset.range i, dt * P.energySq (natX X) (Vg (j + 1)) with hSm
    have h1 : α / 8 * Sm ≤ i * dt * (l * R ^ 2 + Qs ^ 2 / α) * V := by
      refine hen.trans (le_of_eq ?_)
      have e1 : (R * Real.sqrt V) ^ 2 = R ^ 2 * V := by rw [mul_pow, Real.sq_sqrt hV0]
      have e2 : (Qs * Real.sqrt V) ^ 2 = Qs ^ 2 * V := by rw [mul_pow, Real.sq_sqrt hV0]
      rw [e1, e2]
      ring
    have h2 : Sm ≤ 8 / α * (i * dt * (l * R ^ 2 + Qs ^ 2 / α) * V) := by
      have := mul_le_mul_of_nonneg_left h1 (show 0 ≤ 8 / α by positivity)
      refine le_trans (le_of_eq ?_) this
      field_simp
    set G0 := ∑ j ∈ Finset.range i, dt * gradError n cells X (u (t0 + (j + 1 : Nat) * dt)) (W0 (j + 1)) with hG0
    calc _ ≤ 2 * G0 + i * (dt * (16 * ((N + 1) / ρ * (ε * Wm)) ^ 2 * V)) + 4 * (8 / α * (i * dt * (l * R ^ 2 + Qs ^ 2 / α) * V)) :=
          add_le_add le_rfl (mul_le_mul_of_nonneg_left h2 (by norm_num))
      _ = _ := by ring

set_option maxHeartbeats 2000000 in
/-- **C152**: as C142, for an assembly, a time stepping and a linear solver that round: measures, basis and gradients of the cells computed by at most `kd`
roundings, every operation of the assembly and of the steps rounded, including the one that computes the time step from the instants, each linear system solved
with backward error `ε`.  If the error of the entries is small with respect to the ellipticity the solver succeeds, and the functions returned differ from the
solution `u` by the errors of C142 and by a multiple of the residual `stepError`: `ε` times the sizes of the terms of the equations plus `b ^ stepDepth - 1`, a
multiple of the unit of rounding, times the sizes of the terms that are added up.
Partial: dof 0 on the boundary, see `C62_bug_dof_zero`. -/
theorem C152_parabolic_partial (hN : N ∈ [1, 2, 3]) {n nNodes : Nat} {cells : Nat → Nat → Nat} {X : Nat → Fin N → ℝ} (bNodes : Nat → Bool)
    (h : GoodMesh (N + 1) n nNodes cells X) (hb : MarksBoundary (N + 1) n cells bNodes) {hh ρ : ℝ} (hs : MeshShape n cells X hh ρ) (hρ : 0 < ρ)
    {t0 t1 : ℝ} (ht : t0 < t1) (ts : List ℝ) (cols : Nat) (hcols : 0 < cols)
    {A : (Fin N → ℝ) → Fin N → Fin N → ℝ} {β : (Fin N → ℝ) → Fin N → ℝ} {rc : (Fin N → ℝ) → ℝ} {α Λ bm γ cm : ℝ}
    (hco : Bounded (domain (N + 1) n cells X) A β rc α Λ bm γ cm) (hα : 0 < α) (hΛ : 0 ≤ Λ) (hγ : 0 ≤ γ)
    {u u' : ℝ → (Fin N → ℝ) → ℝ} {M F B L K L' : ℝ} (hu : FlowOn n cells X A u u' t0 (t0 + (cols - 1 : Nat) * (t1 - t0)) M F B L K L')
    (hM : 0 ≤ M) (hF : 0 ≤ F) (hL : 0 ≤ L) (hK : 0 ≤ K) (hL' : 0 ≤ L')
    (z : Fin N) {a ℓ : ℝ} (hl : ∀ x ∈ domain (N + 1) n cells X, |x z - a| ≤ ℓ) (hstep : (bm ^ 2 / (2 * α) + γ) * (t1 - t0) ≤ 1 / 2)
    {op : Op ℝ} {Dr : Nat → Nat → Nat → ℝ} {br : Nat → Nat → ℝ} {cr : Nat → ℝ} (hop : StandsFor N op Dr br cr) (hpar : hasDT op = true)
    (hsy : FlagRight N op) (hns : NoScalar op) (hS : r.Summation S) (hv : Valence n (N + 1) cells v)
    {ε : ℝ} (hε : 0 ≤ ε) (lu : Solver ℝ) (hlu : BackwardLU nNodes ε lu) (hlc : CompleteLU nNodes lu) (hm : 0 < nNodes) (h0 : bNodes 0 = true)
    {Fm : ℝ} (hFm : ∀ j < cols, ∀ x ∈ domain (N + 1) n cells X, |parabolicForcing A β rc u u' (t0 + j * (t1 - t0)) x| ≤ Fm) :
    ∃ P, problem1 N op cells n nNodes X bNodes = .ok P ∧ (Sampled n cells X P.t A β rc Dr br cr →
      ∀ kd μ G ms ps gr, P.Computed r kd μ G ms ps gr →
      ∀ κ, (∀ c < n, ∀ k < size P.t, weakAbs N op (size P.t * c + k) 1 1 (fun _ => G) (fun _ => G) ≤ κ) →
      (r.b ^ stepDepth P kd v - 1) * (μ * (κ + 1 / (t1 - t0))) * ((N + 1) * (2 * ℓ + hh)) ^ 2 < α / 2 →
      ∀ (data : Dense ℝ), n * size P.t ≤ data.rows → data.cols = cols →
      (∀ j < cols, ∀ c < n, ∀ k < size P.t, data.at' (size P.t * c + k) j =
        parabolicForcing A β rc u u' (t0 + j * (t1 - t0)) (meshPoint cells X c fun w => node ℝ P.t k w)) →
      ∀ g : Dense ℝ, nNodes ≤ g.rows → cols ≤ g.cols → (∀ j < cols, ∀ p < nNodes, bNodes p = true → g.at' p j = u (t0 + j * (t1 - t0)) (X p)) →
      ∀ junk, ∃ (sol : Nat → Nat → ℝ) (W : Nat → Nat → Fin N → ℝ) (b : Nat → Nat → ℝ), 
          ((P.withData ms ps gr).initR r S data junk >>= pdeSolveParabolicR r S lu (t0 :: t1 :: ts) cols (fun p => u t0 (X p)) g) = .ok (true, sol) ∧
        ∀ Wm, (∀ j < cols, ∀ p < nNodes, |sol j p| ≤ Wm) → (∀ j < cols, ∀ p < nNodes, bNodes p = true → |u (t0 + j * (t1 - t0)) (X p)| ≤ Wm) →
        ∀ Q, Q = stepGain N hh ρ (2 * ℓ) Λ bm cm (2 * ε * Wm) (t1 - t0) (stepError N ρ Λ bm cm ε (r.b ^ stepDepth P kd v - 1) μ κ Wm Fm (t1 - t0)) →
        ∀ i < cols, PiecewiseAffine n cells X (sol i) (W i) (b i) ∧
          valueError n cells X (u (t0 + i * (t1 - t0))) (W i) (b i) ≤ (2 * (2 * (M / 2 * hh ^ 2) ^ 2 +
            50 * flowBound (bm ^ 2 / (2 * α) + γ) α (i * (t1 - t0)) (K * (t1 - t0) + L' * hh) (ellipticConst N hh ρ ℓ Λ bm cm M F B L) ^ 2) +
              (16 * (ε * Wm) ^ 2 + 100 * flowBound (bm ^ 2 / (2 * α) + γ) α (i * (t1 - t0)) 0 Q ^ 2)) *
              (volume (domain (N + 1) n cells X)).toReal ∧
          ∑ j ∈ Finset.range i, (t1 - t0) * gradError n cells X (u (t0 + (j + 1 : Nat) * (t1 - t0))) (W (j + 1)) ≤
            i * (t1 - t0) * (2 * (2 * ((N + 1) * M * hh ^ 2 / (2 * ρ)) ^ 2 + 16 / α * ((bm ^ 2 / (2 * α) + γ) *
              flowBound (bm ^ 2 / (2 * α) + γ) α (i * (t1 - t0)) (K * (t1 - t0) + L' * hh) (ellipticConst N hh ρ ℓ Λ bm cm M F B L) ^ 2 +
              (K * (t1 - t0) + L' * hh) * flowBound (bm ^ 2 / (2 * α) + γ) α (i * (t1 - t0)) (K * (t1 - t0) + L' * hh) (ellipticConst N hh ρ ℓ Λ bm cm M F B L) +
              ellipticConst N hh ρ ℓ Λ bm cm M F B L ^ 2 / α)) + (16 * ((N + 1) / ρ * (ε * Wm)) ^ 2 + 32 / α * ((bm ^ 2 / (2 * α) + γ) *
              flowBound (bm ^ 2 / (2 * α) + γ) α (i * (t1 - t0)) 0 Q ^ 2 +
              Q ^ 2 / α))) * (volume (domain (N + 1) n cells X)).toReal) := by
  obtain ⟨lu0, hlu0, hlc0⟩ := exists_exactLU (K := ℝ) nNodes
  obtain ⟨P0, eP0, hP0⟩ := C142_parabolic_partial hN bNodes h hb hs hρ ht ts cols hcols hco hα hΛ hγ hu hM hF hL hK hL' z hl hstep hop hpar hsy hns
    lu0 hlu0 hlc0 hm h0
  obtain ⟨P, eP, hP⟩ := C152_rounding_partial hN bNodes h hb hs hρ ht ts cols hcols hco hα hΛ hγ hu hM z hl hstep hop hpar hsy hns lu0 hlu0 hS hv hε lu hlu hlc hm h0 hFm
  obtain rfl := Res.ok.inj (eP0.symm.trans eP)
  refine ⟨P0, eP, fun hsa kd μ G ms ps gr hd κ hκ hsmall data hr hc hf g hg hgc hgb junk => ?_⟩
  obtain ⟨w0, W0, b0, q1, q2⟩ := hP0 hsa data hr hc hf g hg hgc hgb junk
  obtain ⟨sol, W, b, r1, r2⟩ := hP hsa kd μ G ms ps gr hd κ hκ hsmall data hr hc hf g hg hgc hgb junk w0 W0 b0 q1 fun i hi => (q2 i hi).1
  refine ⟨sol, W, b, r1, fun Wm hWm hgm Q hQ i hi => ?_⟩
  obtain ⟨k1, k2, k3⟩ := r2 Wm hWm hgm Q hQ i hi
  obtain ⟨-, m2, m3⟩ := q2 i hi
  refine ⟨k1, k2.trans ?_, k3.trans ?_⟩
  · refine (add_le_add (mul_le_mul_of_nonneg_left m2 two_pos.le) le_rfl).trans (le_of_eq ?_)
    ring
  · refine (add_le_add (mul_le_mul_of_nonneg_left m3 two_pos.le) le_rfl).trans (le_of_eq ?_)
    ring

end
end Fdapde.PDE
