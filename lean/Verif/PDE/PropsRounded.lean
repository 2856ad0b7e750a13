import Verif.PDE.LemmasRounded
import Verif.PDE.LemmasPerturbed
import Verif.PDE.PropsInexact
set_option linter.unusedSectionVars false
/-!
# C151: assembly and linear system in double precision
-/
namespace Fdapde.PDE
open Fdapde.Quadrature MeasureTheory Matrix Fdapde.Geometry Fdapde.FEM Fdapde.Fp
noncomputable section
variable {r : Rounding} {S : List ℝ → ℝ} {P : Prob ℝ} {kd v : Nat} {μ G : ℝ} {ms : Nat → ℝ} {ps : Nat → (Nat → ℝ) → ℝ}
  {gr : Nat → Nat → (Nat → ℝ) → Nat → ℝ}

/-- The entries that `init` computes in floating point arithmetic. -/
theorem assembly_err (hS : r.Summation S) (hP : P.Ok) (hd : P.Computed r kd μ G ms ps gr) (hv : Valence P.n P.nb P.dofs v) {κ : ℝ}
    (hκ : ∀ c < P.n, ∀ k < size P.t, weakAbs P.N P.op (size P.t * c + k) 1 1 (fun _ => G) (fun _ => G) ≤ κ)
    (data : Dense ℝ) (hr : P.n * size P.t ≤ data.rows) (hc : 0 < data.cols) {Fm : Nat → ℝ}
    (hF : ∀ i < data.cols, ∀ c < P.n, ∀ k < size P.t, |data.at' (size P.t * c + k) i| ≤ Fm i) (junk : Nat → ℝ) :
    ∃ s s', P.init data junk = .ok s ∧ (P.withData ms ps gr).initR r S data junk = .ok s' ∧
      s'.n = s.n ∧ s'.bd = s.bd ∧ s'.forceRows = s.forceRows ∧ s'.isInit = true ∧
      (∀ p q, r.Err (opDepth P.N P.op + 3 * kd + size P.t + 3 + v * P.nb)
        (fullSum P.n P.nb P.dofs (fun c _ _ => (∑ k ∈ Finset.range (size P.t), |weight ℝ P.t k|) * (μ * κ * P.measure c)) p q) (s.stiff p q) (s'.stiff p q)) ∧
      (∀ p q, r.Err (3 * kd + size P.t + 5 + v * P.nb)
        (fullSum P.n P.nb P.dofs (fun c _ _ => (∑ k ∈ Finset.range (size P.t), |weight ℝ P.t k|) * (μ * P.measure c)) p q) (s.mass p q) (s'.mass p q)) ∧
      ∀ i, i = 0 ∨ (hasDT P.op = true ∧ i < data.cols) → ∀ p < P.m,
        r.Err (2 * kd + size P.t + 4 + v) (∑ c ∈ Finset.range P.n, ∑ j ∈ Finset.range P.nb,
            if P.dofs c j = p then (∑ k ∈ Finset.range (size P.t), |weight ℝ P.t k|) * (μ * Fm i * P.measure c) else 0)
          (s.force (P.m * i + p)) (s'.force (P.m * i + p)) := by
  obtain ⟨A, A', a1, a2, a3⟩ := operator_cell_err hS (isSymmetric P.op) P.n P.nb P.m P.dofs hP.dofs hv
    (fun c hc i hi j hj => loc_err hS hd P.op hκ hc hi hj)
  have hκ1 : ∀ c < P.n, ∀ k < size P.t, weakAbs P.N (.react fun _ => 1 : Op ℝ) (size P.t * c + k) 1 1 (fun _ => G) (fun _ => G) ≤ 1 := fun c _ k _ => by
    simp [weakAbs]
  obtain ⟨M, M', m1, m2, m3⟩ := operator_cell_err hS (isSymmetric (.react fun _ => 1 : Op ℝ)) P.n P.nb P.m P.dofs hP.dofs hv
    (fun c hc i hi j hj => loc_err hS hd (.react fun _ => 1) hκ1 hc hi hj)
  obtain ⟨F, F', f1, f2, f3⟩ := force_pair P.m data.cols (hasDT P.op) (P.forceCol data) ((P.withData ms ps gr).forceColR r data) junk
    (fun i p x x' => r.Err (2 * kd + size P.t + 4 + v) (∑ c ∈ Finset.range P.n, ∑ j ∈ Finset.range P.nb,
            if P.dofs c j = p then (∑ k ∈ Finset.range (size P.t), |weight ℝ P.t k|) * (μ * Fm i * P.measure c) else 0) x x') hc (fun i hi => by
      obtain ⟨f, f', e1, e2, _, _, e5⟩ := forcing_err P.n P.nb P.m P.dofs hP.dofs hv
        (fun c hc j hj => frc_err hd (fun k => data.at' k i) (hF i hi) (i := j) hc hj)
      refine ⟨f, f', ?_, ?_, e5⟩
      · rw [Prob.forceCol, if_pos ⟨hi, hr⟩]; exact e1
      · rw [Prob.forceColR]; exact (if_pos ⟨hi, hr⟩).trans e2)
  refine ⟨⟨P.m, P.bd, A, M, F, P.m * data.cols, true⟩, ⟨P.m, P.bd, A', M', F', P.m * data.cols, true⟩, ?_, ?_, rfl, rfl, rfl, rfl,
    fun p q => a3 p q, fun p q => ?_, fun i hi p hp => f3 i hi p hp⟩
  · rw [Prob.init, a1, Res.ok_bind, show P.force data junk = .ok F from f1, Res.ok_bind, m1, Res.ok_bind]
  · rw [Prob.initR]
    erw [a2]
    rw [Res.ok_bind, show (P.withData ms ps gr).forceR r data junk = .ok F' from f2, Res.ok_bind]
    erw [m2]
    rfl
  · have := m3 p q
    simp only [mul_one] at this
    exact this.mono (by simp only [opDepth]; omega)

/-- **C151**, assembly: for every operator expression, `init` in floating point arithmetic, with measures, reference basis and gradients computed by at
most `kd` roundings, produces a matrix, a mass matrix and right hand sides that differ from the exact ones by `b ^ k - 1` times the sum of the sizes of the
terms that were added up, where `b = 1 / (1 - u)` and `k` counts the roundings on the way from the data to an entry: it depends on the operator, on the number
of nodes of the quadrature, and on the number of cells around a node, but not on the number of cells. -/
theorem C151_assembly (hS : r.Summation S) (hP : P.Ok) (hd : P.Computed r kd μ G ms ps gr) (hv : Valence P.n P.nb P.dofs v) {κ : ℝ}
    (hκ : ∀ c < P.n, ∀ k < size P.t, weakAbs P.N P.op (size P.t * c + k) 1 1 (fun _ => G) (fun _ => G) ≤ κ)
    (data : Dense ℝ) (hr : P.n * size P.t ≤ data.rows) (hc : 0 < data.cols) {Fm : Nat → ℝ}
    (hF : ∀ i < data.cols, ∀ c < P.n, ∀ k < size P.t, |data.at' (size P.t * c + k) i| ≤ Fm i) (junk : Nat → ℝ) :
    ∃ s s', P.init data junk = .ok s ∧ (P.withData ms ps gr).initR r S data junk = .ok s' ∧
      s'.n = s.n ∧ s'.bd = s.bd ∧ s'.forceRows = s.forceRows ∧ s'.isInit = true ∧
      (∀ p q, |s'.stiff p q - s.stiff p q| ≤ (r.b ^ (opDepth P.N P.op + 3 * kd + size P.t + 3 + v * P.nb) - 1) *
        fullSum P.n P.nb P.dofs (fun c _ _ => (∑ k ∈ Finset.range (size P.t), |weight ℝ P.t k|) * (μ * κ * P.measure c)) p q) ∧
      (∀ p q, |s'.mass p q - s.mass p q| ≤ (r.b ^ (3 * kd + size P.t + 5 + v * P.nb) - 1) *
        fullSum P.n P.nb P.dofs (fun c _ _ => (∑ k ∈ Finset.range (size P.t), |weight ℝ P.t k|) * (μ * P.measure c)) p q) ∧
      ∀ i, i = 0 ∨ (hasDT P.op = true ∧ i < data.cols) → ∀ p < P.m,
        |s'.force (P.m * i + p) - s.force (P.m * i + p)| ≤ (r.b ^ (2 * kd + size P.t + 4 + v) - 1) *
          ∑ c ∈ Finset.range P.n, ∑ j ∈ Finset.range P.nb,
            if P.dofs c j = p then (∑ k ∈ Finset.range (size P.t), |weight ℝ P.t k|) * (μ * Fm i * P.measure c) else 0 := by
  obtain ⟨s, s', h1, h2, h3, h4, h5, h6, h7, h8, h9⟩ := assembly_err hS hP hd hv hκ data hr hc hF junk
  exact ⟨s, s', h1, h2, h3, h4, h5, h6, fun p q => (h7 p q).2, fun p q => (h8 p q).2, fun i hi p hp => (h9 i hi p hp).2⟩

/-- Number of roundings on the way from the data to an entry of the system. -/
def sysDepth (P : Prob ℝ) (kd v : Nat) : Nat := opDepth P.N P.op + 3 * kd + size P.t + 4 + v * P.nb

/-- Bound of the residual of the computed solution in the exact equations, for each unit of measure of the cells around the node: the part of the linear
solver and the part of the assembly. -/
def rowError (N : Nat) (ρ Λ bm cm ε δ μ κ Wm Fm : ℝ) : ℝ :=
  ε * (rowConst N ρ Λ bm cm * Wm + Fm) + (1 + ε) * (δ * (μ * (κ * (N + 1) * Wm + Fm)))

section
variable {X : Nat → Nat → ℝ} {I : Nat → Nat → Nat → ℝ} {D : Nat → Nat → Fin P.N → Fin P.N → ℝ} {β : Nat → Nat → Fin P.N → ℝ} {rc : Nat → Nat → ℝ}
  {hh ρ Λ bm cm : ℝ}

theorem row_bound (h : P.OnNodes X I) (hP : P.Ok) (hop : P.Form D β rc) (hs : P.Shape X hh ρ) (hρ : 0 < ρ) (hΛ : 0 ≤ Λ)
    (hD : ∀ c < P.n, ∀ k < size P.t, ∀ ξ : Fin P.N → ℝ, len (fun z => ∑ y, D c k z y * ξ y) ≤ Λ * len ξ)
    (hβ : ∀ c < P.n, ∀ k < size P.t, len (β c k) ≤ bm) (hr : ∀ c < P.n, ∀ k < size P.t, |rc c k| ≤ cm)
    {f : Nat → Nat → ℝ} {Fm : ℝ} (hf : ∀ c < P.n, ∀ k < size P.t, |f c k| ≤ Fm)
    {A : Nat → Nat → ℝ} (hA : ∀ u v, ∑ p ∈ Finset.range P.m, ∑ q ∈ Finset.range P.m, v p * A p q * u q = P.bilin u v)
    {b : Nat → ℝ} (hb : ∀ v : Nat → ℝ, ∑ p ∈ Finset.range P.m, v p * b p = P.load f v)
    {w : Nat → ℝ} {Wm : ℝ} (hw : ∀ p < P.m, |w p| ≤ Wm) {p : Nat} (hp : p < P.m) :
    ∑ q ∈ Finset.range P.m, |A p q| * |w q| + |b p| ≤ (∑ k ∈ Finset.range (size P.t), weight ℝ P.t k) *
      ∑ c ∈ Finset.range P.n, P.measure c * ((rowConst P.N ρ Λ bm cm * Wm + Fm) * P.cellSum (hatAt p) c) := by
  set s : Nat → ℝ := fun q => if 0 ≤ A p q then |w q| else -|w q| with hsd
  have es : ∑ q ∈ Finset.range P.m, |A p q| * |w q| = P.bilin s (hatAt p) := by
    rw [← hA, hat_row P.m A s hp]
    refine Finset.sum_congr rfl fun q _ => ?_
    simp only [hsd]
    split_ifs with h0
    · rw [abs_of_nonneg h0]
    · rw [abs_of_neg (not_le.1 h0)]; ring
  have i1 := (le_abs_self _).trans (bilin_rows h hop hs hρ hΛ hD hβ hr (s := s) (Wm := Wm) (fun c hc i hi => by
    have := hw _ (hP.dofs c hc i hi)
    simp only [hsd]
    split_ifs
    · rwa [abs_abs]
    · rwa [abs_neg, abs_abs]) (hatAt p))
  have i2 := load_rows h hf (hatAt p)
  rw [← hb, hat_load P.m b hp] at i2
  rw [es]
  refine (add_le_add i1 i2).trans (le_of_eq ?_)
  rw [← mul_add, ← Finset.sum_add_distrib]
  congr 1
  exact Finset.sum_congr rfl fun c _ => by ring

theorem cellSum_hatAt (p c : Nat) : P.cellSum (hatAt p) c = ∑ i ∈ Finset.range P.nb, hatAt p (P.dofs c i) := by
  refine Finset.sum_congr rfl fun i _ => abs_of_nonneg ?_
  rw [hatAt]
  split_ifs <;> norm_num

/-- A row of a matrix of terms of the cells. -/
theorem fullSum_row (h : P.OnNodes X I) (hP : P.Ok) {M : Nat → ℝ} (hM : ∀ c < P.n, 0 ≤ M c) {w : Nat → ℝ} {Wm : ℝ} (hw : ∀ p < P.m, |w p| ≤ Wm) {p : Nat}
    (hp : p < P.m) : ∑ q ∈ Finset.range P.m, fullSum P.n P.nb P.dofs (fun c _ _ => M c) p q * |w q| ≤
      ∑ c ∈ Finset.range P.n, M c * (P.cellSum (hatAt p) c * ((P.N + 1) * Wm)) := by
  rw [← hat_row P.m (fullSum P.n P.nb P.dofs fun c _ _ => M c) (fun q => |w q|) hp, fullSum_form hP M (hatAt p) fun q => |w q|]
  refine Finset.sum_le_sum fun c hc => ?_
  have hc' := Finset.mem_range.1 hc
  rw [← cellSum_hatAt]
  exact mul_le_mul_of_nonneg_left (mul_le_mul_of_nonneg_left (cellSum_le h fun i hi => hw _ (hP.dofs c hc' i hi)) (cellSum_nonneg _ _)) (hM c hc')

theorem load_row (M : Nat → ℝ) (p : Nat) : ∑ c ∈ Finset.range P.n, ∑ j ∈ Finset.range P.nb, (if P.dofs c j = p then M c else 0) =
    ∑ c ∈ Finset.range P.n, M c * P.cellSum (hatAt p) c := by
  refine Finset.sum_congr rfl fun c _ => ?_
  rw [cellSum_hatAt, Finset.mul_sum]
  exact Finset.sum_congr rfl fun j _ => by simp [hatAt]

set_option maxHeartbeats 1000000 in
/-- **C151**, equations: `init` in floating point arithmetic followed by `solve`, with a linear solver of backward error `ε`, succeed if the error of the
assembly is small with respect to the ellipticity, and the result satisfies the exact discrete equations up to the error of the solver and the error of
the assembly.  Partial: dof 0 on the boundary, see `C62_bug_dof_zero`. -/
theorem C151_residual_partial (hS : r.Summation S) (h : P.OnNodes X I) (hP : P.Ok) (hop : P.Form D β rc) {C α γ : ℝ} (hs : P.Shape X hh ρ) (hh0 : 0 ≤ hh)
    (hρ : 0 < ρ) (hC : 0 ≤ C) (hFr : P.Friedrichs X C) (hΛ : 0 ≤ Λ) (hbm : 0 ≤ bm) (hγ : 0 ≤ γ)
    (hDα : ∀ c < P.n, ∀ k < size P.t, ∀ ξ : Fin P.N → ℝ, α * len ξ ^ 2 ≤ ∑ z, (∑ y, D c k z y * ξ y) * ξ z)
    (hD : ∀ c < P.n, ∀ k < size P.t, ∀ ξ : Fin P.N → ℝ, len (fun z => ∑ y, D c k z y * ξ y) ≤ Λ * len ξ)
    (hβ : ∀ c < P.n, ∀ k < size P.t, len (β c k) ≤ bm) (hrγ : ∀ c < P.n, ∀ k < size P.t, -γ ≤ rc c k) (hr : ∀ c < P.n, ∀ k < size P.t, |rc c k| ≤ cm)
    (hE : P.Definite) (hd : P.Computed r kd μ G ms ps gr) (hv : Valence P.n P.nb P.dofs v) {κ : ℝ} (hμ : 0 ≤ μ) (hκ0 : 0 ≤ κ)
    (hκ : ∀ c < P.n, ∀ k < size P.t, weakAbs P.N P.op (size P.t * c + k) 1 1 (fun _ => G) (fun _ => G) ≤ κ)
    (hsmall : (r.b ^ sysDepth P kd v - 1) * (μ * κ) * ((P.N + 1) * (C + hh)) ^ 2 < α - bm * (C + hh) - γ * (C + hh) ^ 2)
    {ε : ℝ} (hε : 0 ≤ ε) (lu : Solver ℝ) (hlu : BackwardLU P.m ε lu) (hlc : CompleteLU P.m lu)
    (data : Dense ℝ) (hrows : P.n * size P.t ≤ data.rows) (hc : data.cols = 1) {Fm : ℝ} (hFm0 : 0 ≤ Fm)
    (hFm : ∀ c < P.n, ∀ k < size P.t, |data.at' (size P.t * c + k) 0| ≤ Fm) (g : Dense ℝ) (hg : P.m ≤ g.rows) (hgc : 0 < g.cols)
    (hm : 0 < P.m) (h0 : P.bd 0 = true) (junk : Nat → ℝ) :
    ∃ (w : Nat → ℝ) (A : Nat → Nat → ℝ) (b : Nat → ℝ), ((P.withData ms ps gr).initR r S data junk >>= pdeSolveElliptic lu g) = .ok (true, some w) ∧
      (∀ u v, ∑ p ∈ Finset.range P.m, ∑ q ∈ Finset.range P.m, v p * A p q * u q = P.bilin u v) ∧
      (∀ v : Nat → ℝ, ∑ p ∈ Finset.range P.m, v p * b p = P.load (fun c k => data.at' (size P.t * c + k) 0) v) ∧
      (∀ p < P.m, P.bd p = true → |w p - g.at' p 0| ≤ ε * (|w p| + |g.at' p 0|)) ∧
      ∀ Wm, (∀ p < P.m, |w p| ≤ Wm) → ∀ p < P.m, P.bd p = false → |∑ q ∈ Finset.range P.m, A p q * w q - b p| ≤
        (∑ k ∈ Finset.range (size P.t), weight ℝ P.t k) * ∑ c ∈ Finset.range P.n, P.measure c *
          (rowError P.N ρ Λ bm cm ε (r.b ^ sysDepth P kd v - 1) μ κ Wm Fm * P.cellSum (hatAt p) c) := by
  have hσ : ∑ k ∈ Finset.range (size P.t), |weight ℝ P.t k| = ∑ k ∈ Finset.range (size P.t), weight ℝ P.t k :=
    Finset.sum_congr rfl fun k hk => abs_of_pos (weight_pos h (Finset.mem_range.1 hk))
  set δ := r.b ^ sysDepth P kd v - 1 with hδd
  have hδ : 0 ≤ δ := sub_nonneg.2 (one_le_pow₀ r.one_le_b)
  obtain ⟨s0, s, h1, e1, e2, e3, e4, e5, eA, -, eF⟩ := C151_assembly hS hP hd hv hκ data hrows (by omega) (Fm := fun _ => Fm)
    (fun i hi => by rw [show i = 0 by omega]; exact hFm) junk
  obtain ⟨s0', h1', h2, h3, h4, h5, h6, _, h8⟩ := C102_init P hP data hrows (by omega) junk
  have es := Res.ok.inj (h1.symm.trans h1')
  subst es
  have hload := h8 0 (Or.inl rfl)
  rw [hσ] at eA eF
  set σ := ∑ k ∈ Finset.range (size P.t), weight ℝ P.t k with hσd
  have hσ0 : 0 < σ := weights_pos h
  have hnb : 1 ≤ P.nb := by rw [nb_eq h]; omega
  have hvn : v ≤ v * P.nb := Nat.le_mul_of_pos_right v hnb
  have mono : ∀ j, j ≤ sysDepth P kd v → r.b ^ j - 1 ≤ δ := fun j hj => sub_le_sub_right (pow_le_pow_right₀ r.one_le_b hj) 1
  have fs0 : ∀ p q, 0 ≤ fullSum P.n P.nb P.dofs (fun c _ _ => σ * (μ * κ * P.measure c)) p q := fun p q =>
    Finset.sum_nonneg fun c hc => Finset.sum_nonneg fun i _ => Finset.sum_nonneg fun j _ => by
      have := measure_pos h (Finset.mem_range.1 hc)
      split_ifs <;> positivity
  have hA1 : ∀ p q, |s.stiff p q - s0.stiff p q| ≤ δ * fullSum P.n P.nb P.dofs (fun c _ _ => σ * (μ * κ * P.measure c)) p q := fun p q =>
    (eA p q).trans (mul_le_mul_of_nonneg_right (mono _ (by rw [sysDepth]; omega)) (fs0 p q))
  have hF1 : ∀ p < P.m, |s.force p - s0.force p| ≤ δ * ∑ c ∈ Finset.range P.n, σ * (μ * Fm * P.measure c) * P.cellSum (hatAt p) c := by
    intro p hp
    have := eF 0 (Or.inl rfl) p hp
    rw [Nat.mul_zero, Nat.zero_add, load_row] at this
    refine this.trans (mul_le_mul_of_nonneg_right (mono _ (by rw [sysDepth]; omega)) (Finset.sum_nonneg fun c hc => ?_))
    have := measure_pos h (Finset.mem_range.1 hc)
    have := cellSum_nonneg (P := P) (hatAt p) c
    positivity
  rw [hc, Nat.mul_one] at h5
  rw [h2] at e2
  rw [h3] at e3
  rw [h5] at e4
  obtain ⟨s', e, a1, a2, a3, a4, a5, a6, a7⟩ := C62_rows g s e5 (by rw [e2]; exact hg) hgc (by rw [e2, e4])
  rw [e2, e3] at a6 a7
  have hbd : ∀ p, P.bd p = true → p < P.m → p < P.m ∧ (p = 0 ∨ P.bd p = true) := fun p hb hp => ⟨hp, .inr hb⟩
  have hin : ∀ p, P.bd p = false → ¬ (p < P.m ∧ (p = 0 ∨ P.bd p = true)) := by
    rintro p hb ⟨_, rfl | h⟩
    · rw [h0] at hb; cases hb
    · rw [h] at hb; cases hb
  have hsome : (lu s'.stiff).isSome := by
    apply hlc
    refine perturbed_det h hP hop hs hh0 hC hFr hbm hγ hDα hβ hrγ hE h6 (A' := s.stiff) (δ := δ * (μ * κ)) (by positivity) (fun p q => ?_) (fun p hp q => ?_)
      hsmall
    · refine (hA1 p q).trans (le_of_eq ?_)
      rw [fullSum, fullSum, Finset.mul_sum]
      refine Finset.sum_congr rfl fun c _ => ?_
      rw [Finset.mul_sum]
      refine Finset.sum_congr rfl fun i _ => ?_
      rw [Finset.mul_sum]
      refine Finset.sum_congr rfl fun j _ => ?_
      rw [mul_ite, mul_zero]
      refine if_congr Iff.rfl ?_ rfl
      rw [hσd]
      ring
    · rw [a6]
      by_cases hbp : P.bd p = true
      · rw [if_pos (hbd p hbp hp), if_pos hbp]
      · rw [if_neg (hin p (by simpa using hbp)), if_neg hbp]
  obtain ⟨F, hF⟩ := Option.isSome_iff_exists.1 hsome
  have hload' : ∀ v : Nat → ℝ, ∑ p ∈ Finset.range P.m, v p * s0.force p = P.load (fun c k => data.at' (size P.t * c + k) 0) v := fun v => by
    have := hload v
    simp only [Nat.mul_zero, Nat.zero_add] at this
    exact this
  refine ⟨F s'.force, s0.stiff, s0.force, ?_, h6, hload', fun p hp hb => ?_, fun Wm hWm p hp hb => ?_⟩
  · rw [e1, Res.ok_bind, pdeSolveElliptic, if_neg (Nat.mul_pos (by omega) hgc).ne', e, Res.ok_bind]
    change solveElliptic lu s' = _
    rw [solveElliptic, if_neg (by simp [a5]), hF]
    dsimp only
    rw [if_pos (by rw [a4, a1, e4, e2])]
  · have := hlu _ _ hF s'.force p hp
    simp only [a6, a7, if_pos (hbd p hb hp), ite_mul, one_mul, zero_mul] at this
    rw [Finset.sum_ite_eq' (Finset.range P.m) p, if_pos (Finset.mem_range.2 hp)] at this
    refine this.trans (le_of_eq ?_)
    congr 2
    rw [Finset.sum_eq_single p]
    · simp
    · intro q _ hq; simp [hq]
    · intro hq; exact absurd (Finset.mem_range.2 hp) hq
  · have hl := hlu _ _ hF s'.force p hp
    simp only [a6, a7, if_neg (hin p hb)] at hl
    set w := F s'.force with hwd
    have rb := row_bound h hP hop hs hρ hΛ hD hβ hr hFm h6 hload' hWm hp
    have hrow : ∑ q ∈ Finset.range P.m, |s.stiff p q - s0.stiff p q| * |w q| ≤
        δ * ∑ c ∈ Finset.range P.n, σ * (μ * κ * P.measure c) * (P.cellSum (hatAt p) c * ((P.N + 1) * Wm)) := by
      refine le_trans ?_ (mul_le_mul_of_nonneg_left (fullSum_row h hP (M := fun c => σ * (μ * κ * P.measure c)) (fun c hc => by
        have := measure_pos h hc
        positivity) hWm hp) hδ)
      rw [Finset.mul_sum]
      refine Finset.sum_le_sum fun q _ => ?_
      rw [← mul_assoc]
      exact mul_le_mul_of_nonneg_right (hA1 p q) (abs_nonneg _)
    set T := ∑ c ∈ Finset.range P.n, P.measure c * P.cellSum (hatAt p) c with hT
    set dA := ∑ q ∈ Finset.range P.m, |s.stiff p q - s0.stiff p q| * |w q| with hdA
    have eA' : dA ≤ δ * (σ * (μ * (κ * (P.N + 1) * Wm) * T)) := by
      refine hrow.trans (le_of_eq ?_)
      rw [hT]
      simp only [Finset.mul_sum]
      exact Finset.sum_congr rfl fun c _ => by ring
    have eF' : |s.force p - s0.force p| ≤ δ * (σ * (μ * Fm * T)) := by
      refine (hF1 p hp).trans (le_of_eq ?_)
      rw [hT]
      simp only [Finset.mul_sum]
      exact Finset.sum_congr rfl fun c _ => by ring
    have eR : ∑ q ∈ Finset.range P.m, |s0.stiff p q| * |w q| + |s0.force p| ≤ σ * ((rowConst P.N ρ Λ bm cm * Wm + Fm) * T) := by
      rw [← hσd] at rb
      refine rb.trans (le_of_eq ?_)
      rw [hT]
      simp only [Finset.mul_sum]
      exact Finset.sum_congr rfl fun c _ => by ring
    have d1 : |∑ q ∈ Finset.range P.m, s0.stiff p q * w q - s0.force p| ≤
        |∑ q ∈ Finset.range P.m, s.stiff p q * w q - s.force p| + dA + |s.force p - s0.force p| := by
      have e0 : ∑ q ∈ Finset.range P.m, s0.stiff p q * w q - s0.force p = (∑ q ∈ Finset.range P.m, s.stiff p q * w q - s.force p) +
          -∑ q ∈ Finset.range P.m, (s.stiff p q - s0.stiff p q) * w q + (s.force p - s0.force p) := by
        simp only [sub_mul, Finset.sum_sub_distrib]
        ring
      rw [e0]
      refine (abs_add_three _ _ _).trans ?_
      rw [abs_neg]
      refine add_le_add (add_le_add le_rfl ((Finset.abs_sum_le_sum_abs _ _).trans (le_of_eq ?_))) le_rfl
      exact Finset.sum_congr rfl fun q _ => abs_mul _ _
    have d2 : ∑ q ∈ Finset.range P.m, |s.stiff p q| * |w q| + |s.force p| ≤
        ∑ q ∈ Finset.range P.m, |s0.stiff p q| * |w q| + |s0.force p| + (dA + |s.force p - s0.force p|) := by
      have i1 : ∑ q ∈ Finset.range P.m, |s.stiff p q| * |w q| ≤ ∑ q ∈ Finset.range P.m, |s0.stiff p q| * |w q| + dA := by
        rw [hdA, ← Finset.sum_add_distrib]
        refine Finset.sum_le_sum fun q _ => ?_
        rw [← add_mul]
        refine mul_le_mul_of_nonneg_right ?_ (abs_nonneg _)
        have := abs_add_le (s0.stiff p q) (s.stiff p q - s0.stiff p q)
        rwa [add_sub_cancel] at this
      have i2 : |s.force p| ≤ |s0.force p| + |s.force p - s0.force p| := by
        have := abs_add_le (s0.force p) (s.force p - s0.force p)
        rwa [add_sub_cancel] at this
      linarith
    have d3 := mul_le_mul_of_nonneg_left (d2.trans (add_le_add eR (add_le_add eA' eF'))) hε
    have fin : ∑ c ∈ Finset.range P.n, P.measure c * (rowError P.N ρ Λ bm cm ε δ μ κ Wm Fm * P.cellSum (hatAt p) c) =
        rowError P.N ρ Λ bm cm ε δ μ κ Wm Fm * T := by
      rw [hT, Finset.mul_sum]
      exact Finset.sum_congr rfl fun c _ => by ring
    rw [fin]
    calc _ ≤ _ := d1
      _ ≤ ε * (σ * ((rowConst P.N ρ Λ bm cm * Wm + Fm) * T) + (δ * (σ * (μ * (κ * (P.N + 1) * Wm) * T)) + δ * (σ * (μ * Fm * T)))) +
          δ * (σ * (μ * (κ * (P.N + 1) * Wm) * T)) + δ * (σ * (μ * Fm * T)) := add_le_add (add_le_add (hl.trans d3) eA') eF'
      _ = _ := by rw [rowError]; ring

end

/-- Bound of the gradient of the part of the error off the boundary, over the root of the volume: `η` is the error on the boundary, `κ` the one of the equations. -/
def innerError (N : Nat) (hh ρ C Λ bm cm α0 η κ : ℝ) : ℝ :=
  ((N + 1) * (C + hh) * κ + η * (Λ * ((N + 1) / ρ) + (bm * ((N + 1) / ρ) + cm) * (C + hh))) / α0

set_option maxHeartbeats 1600000 in
/-- **C151**: as C139, for an assembly and a linear solver that round: measures, basis and gradients of the cells computed by at most `kd` roundings, every
operation of the assembly rounded, the linear system solved with backward error `ε`.  If the error of the assembly is small with respect to the ellipticity the
solver succeeds, and the function returned differs from the exact solution `u` by the errors of C139 and by a multiple of the error of the equations, `rowError`:
`ε` times the sizes of the terms of the equations plus `b ^ sysDepth - 1`, a multiple of the unit of rounding, times the sizes of the terms that the assembly adds up.
Partial: dof 0 on the boundary, see `C62_bug_dof_zero`. -/
theorem C151_elliptic_partial {N : Nat} (hN : N ∈ [1, 2, 3]) {n nNodes : Nat} {cells : Nat → Nat → Nat} {X : Nat → Fin N → ℝ} (bNodes : Nat → Bool)
    (h : GoodMesh (N + 1) n nNodes cells X) (hb : MarksBoundary (N + 1) n cells bNodes) {hh ρ : ℝ} (hs : MeshShape n cells X hh ρ) (hρ : 0 < ρ)
    {A : (Fin N → ℝ) → Fin N → Fin N → ℝ} {β : (Fin N → ℝ) → Fin N → ℝ} {rc u : (Fin N → ℝ) → ℝ} {α Λ bm γ cm M F B L : ℝ}
    (hco : Bounded (domain (N + 1) n cells X) A β rc α Λ bm γ cm) (hu : FluxOn n cells X A u M F B L) (hM : 0 ≤ M) (hF : 0 ≤ F) (hL : 0 ≤ L)
    (hΛ : 0 ≤ Λ) (hγ : 0 ≤ γ) (z : Fin N) {a ℓ : ℝ} (hl : ∀ x ∈ domain (N + 1) n cells X, |x z - a| ≤ ℓ)
    (hα : 0 < α - bm * (2 * ℓ + hh) - γ * (2 * ℓ + hh) ^ 2)
    {op : Op ℝ} {Dr : Nat → Nat → Nat → ℝ} {br : Nat → Nat → ℝ} {cr : Nat → ℝ} (hop : StandsFor N op Dr br cr) (hsy : FlagRight N op) (hns : NoScalar op)
    (hS : r.Summation S) (hv : Valence n (N + 1) cells v)
    {ε : ℝ} (hε : 0 ≤ ε) (lu : Solver ℝ) (hlu : BackwardLU nNodes ε lu) (hlc : CompleteLU nNodes lu) (hm : 0 < nNodes) (h0 : bNodes 0 = true)
    {Fm : ℝ} (hFm : ∀ x ∈ domain (N + 1) n cells X, |ellipticForcing A β rc u x| ≤ Fm) :
    ∃ P, problem1 N op cells n nNodes X bNodes = .ok P ∧ (Sampled n cells X P.t A β rc Dr br cr →
      ∀ kd μ G ms ps gr, P.Computed r kd μ G ms ps gr →
      ∀ κ, (∀ c < n, ∀ k < size P.t, weakAbs N op (size P.t * c + k) 1 1 (fun _ => G) (fun _ => G) ≤ κ) →
      (r.b ^ sysDepth P kd v - 1) * (μ * κ) * ((N + 1) * (2 * ℓ + hh)) ^ 2 < α - bm * (2 * ℓ + hh) - γ * (2 * ℓ + hh) ^ 2 →
      ∀ (data : Dense ℝ), n * size P.t ≤ data.rows → data.cols = 1 →
      (∀ c < n, ∀ k < size P.t, data.at' (size P.t * c + k) 0 = ellipticForcing A β rc u (meshPoint cells X c fun w => node ℝ P.t k w)) →
      ∀ g : Dense ℝ, nNodes ≤ g.rows → 0 < g.cols → (∀ p < nNodes, bNodes p = true → g.at' p 0 = u (X p)) →
      ∀ junk, ∃ w W b, ((P.withData ms ps gr).initR r S data junk >>= pdeSolveElliptic lu g) = .ok (true, some w) ∧ PiecewiseAffine n cells X w W b ∧
        ∀ Wm, (∀ p < nNodes, |w p| ≤ Wm) → (∀ p < nNodes, bNodes p = true → |u (X p)| ≤ Wm) →
        ∀ ν, ν = innerError N hh ρ (2 * ℓ) Λ bm cm (α - bm * (2 * ℓ + hh) - γ * (2 * ℓ + hh) ^ 2) (2 * ε * Wm)
            (rowError N ρ Λ bm cm ε (r.b ^ sysDepth P kd v - 1) μ κ Wm Fm) →
        gradError n cells X u W ≤ (4 * (((N + 1) * M * hh ^ 2 / (2 * ρ)) ^ 2 +
          (ellipticConst N hh ρ ℓ Λ bm cm M F B L / (α - bm * (2 * ℓ + hh) - γ * (2 * ℓ + hh) ^ 2)) ^ 2) +
          2 * ((N + 1) / ρ * (2 * ε * Wm) + ν) ^ 2) * (volume (domain (N + 1) n cells X)).toReal ∧
        valueError n cells X u W b ≤ (2 * (2 * (M / 2 * hh ^ 2) ^ 2 + 16 * ℓ ^ 2 * (3 * ((N + 1) * M * hh ^ 2 / (2 * ρ)) ^ 2 +
          2 * (ellipticConst N hh ρ ℓ Λ bm cm M F B L / (α - bm * (2 * ℓ + hh) - γ * (2 * ℓ + hh) ^ 2)) ^ 2)) +
          2 * (2 * (2 * ε * Wm) ^ 2 + 2 * (2 * ℓ * ν) ^ 2)) * (volume (domain (N + 1) n cells X)).toReal) := by
  obtain ⟨lu0, hlu0, hlc0⟩ := exists_exactLU (K := ℝ) nNodes
  obtain ⟨P0, eP0, hP0⟩ := C139_elliptic_partial hN bNodes h hb hs hρ hco hu hM hF hL hΛ hγ z hl hα hop hsy hns lu0 hlu0 hlc0 hm h0
  have hd : Dims N N := by
    simp only [Dims, List.mem_cons, Prod.mk.injEq, List.not_mem_nil, or_false] at hN ⊢
    omega
  have hN0 : 0 < N := by
    simp only [List.mem_cons, List.not_mem_nil, or_false] at hN
    omega
  obtain ⟨t, ht⟩ := rule1 hN
  refine ⟨meshProb N 1 (N + 1) t op cells n X (enumDofs1 cells nNodes bNodes), by rw [problem1, ht]; rfl, fun hsa kd μ G ms ps gr hd κ hκ hsmall data hr hc hf g hg hgc hgb junk => ?_⟩
  change Sampled n cells X t A β rc Dr br cr at hsa
  have hO := mesh_onNodes (nNodes := nNodes) hN ht op h.proper bNodes
  have hcf := mesh_conforming (t := t) hN0 op h hb
  have hsm := flux_smooth (t := t) (nNodes := nNodes) op bNodes hM hu
  have hpo := flux_poisson hN ht op h hb hu
  have hre := flux_regular (t := t) (nNodes := nNodes) op bNodes hu
  have hsh := exact_shape (t := t) (nNodes := nNodes) op bNodes hρ hs
  have hpt := mesh_point (t := t) (n := n) (nNodes := nNodes) (cells := cells) (X := X) op bNodes
  have hce := mesh_cell (t := t) (n := n) (nNodes := nNodes) (cells := cells) (X := X) op bNodes
  have hPo : (meshProb N 1 (N + 1) t op cells n X (enumDofs1 cells nNodes bNodes)).Ok := ⟨h.nodes, hsy, hns⟩
  obtain ⟨c0, hc0, v0, hv0, -⟩ := h.used 0 hm
  have hx0 : X (cells c0 v0) ∈ domain (N + 1) n cells X := region_domain hc0 (subset_convexHull ℝ _ ⟨v0, hv0, rfl⟩)
  have hh0 : 0 ≤ hh := (len_nonneg _).trans (hs.diam c0 hc0 v0 hv0 v0 hv0)
  have hB : 0 ≤ B := (abs_nonneg _).trans (hu.bound _ hx0)
  have hl0 : 0 ≤ ℓ := (abs_nonneg _).trans (hl _ hx0)
  have hbm : 0 ≤ bm := (len_nonneg _).trans (hco.transport _ hx0)
  have hcm : 0 ≤ cm := (abs_nonneg _).trans (hco.reaction _ hx0).2
  have hvol : ∑ c ∈ Finset.range n, (volume ((meshProb N 1 (N + 1) t op cells n X (enumDofs1 cells nNodes bNodes)).cell (natX X) c)).toReal =
      (volume (domain (N + 1) n cells X)).toReal := by
    rw [← domain_volume h]
    exact Finset.sum_congr rfl fun c _ => congrArg (fun s : Set (Fin N → ℝ) => (volume s).toReal) (hce c)
  have hms : ∑ c ∈ Finset.range n, (meshProb N 1 (N + 1) t op cells n X (enumDofs1 cells nNodes bNodes)).measure c =
      (volume (domain (N + 1) n cells X)).toReal := by
    rw [← hvol]
    exact Finset.sum_congr rfl fun c hc => (cell_measure hO (Finset.mem_range.1 hc)).symm
  have hFr := friedrichs hO hcf h.nodes z (a := a) (ℓ := ℓ) fun c hc x hx => hl x (region_domain hc (by rw [hce] at hx; exact hx))
  have hC0 : 0 ≤ 2 * ℓ := mul_nonneg two_pos.le hl0
  have hpd : ∀ c < n, ∀ k < size t, (meshPoint cells X c fun w => node ℝ t k w) ∈ region (N + 1) cells X c := fun c hc k hk => by
    have := node_mem hO c hk
    rw [hce] at this
    rw [← hpt c k]
    exact this
  have hpD : ∀ c < n, ∀ k < size t, (meshPoint cells X c fun w => node ℝ t k w) ∈ domain (N + 1) n cells X := fun c hc k hk => region_domain hc (hpd c hc k hk)
  have hform : (meshProb N 1 (N + 1) t op cells n X (enumDofs1 cells nNodes bNodes)).Form
      (fun c k z y => A (meshPoint cells X c fun w => node ℝ t k w) z y) (fun c k z => β (meshPoint cells X c fun w => node ℝ t k w) z)
      (fun c k => rc (meshPoint cells X c fun w => node ℝ t k w)) := by
    intro c hc k hk u v gu gv
    refine (hop (size t * c + k) u v gu gv).trans ?_
    rw [hsa.reaction c hc k hk]
    simp only [dot]
    rw [Finset.sum_range, Finset.sum_range]
    simp only [Finset.sum_range, hsa.diffusion c hc k hk, hsa.transport c hc k hk]
    rfl
  have hdef := form_definite hO hform hsh hh0 hC0 hFr hbm hγ (fun c hc k hk => hco.elliptic _ (hpD c hc k hk)) (fun c hc k hk => hco.transport _ (hpD c hc k hk))
    (fun c hc k hk => (hco.reaction _ (hpD c hc k hk)).1) hα h.used
  have hk : 0 < size t := by
    have hσ := weights_pos hO
    by_contra hk
    rw [show (meshProb N 1 (N + 1) t op cells n X (enumDofs1 cells nNodes bNodes)).t = t from rfl, Nat.eq_zero_of_not_pos hk] at hσ
    simp at hσ
  have hFm0 : 0 ≤ Fm := (abs_nonneg _).trans (hFm _ (hpD c0 hc0 0 hk))
  have hFm' : ∀ c < n, ∀ k < size t, |data.at' (size t * c + k) 0| ≤ Fm := fun c hc k hk => by
    rw [show data.at' (size t * c + k) 0 = _ from hf c hc k hk]
    exact hFm _ (hpD c hc k hk)
  have hμ : 0 ≤ μ := by
    have h1 := (hd.measure c0 hc0).nonneg
    exact nonneg_of_mul_nonneg_left h1 (measure_pos hO hc0)
  have hnb : 0 < N + 1 := by omega
  have hκ0 : 0 ≤ κ := (weak_err hS N (hd.psi 0 hnb 0 hk) (hd.psi 0 hnb 0 hk) (fun z hz => hd.grad c0 hc0 0 hnb 0 hk z hz)
    (fun z hz => hd.grad c0 hc0 0 hnb 0 hk z hz) (size t * c0 + 0) op).nonneg.trans (hκ c0 hc0 0 hk)
  obtain ⟨w, As, bs, s1, s2, s3, s4, s5⟩ := C151_residual_partial hS hO hPo hform hsh hh0 hρ hC0 hFr hΛ hbm hγ
    (fun c hc k hk => hco.elliptic _ (hpD c hc k hk)) (fun c hc k hk => hco.diffusion _ (hpD c hc k hk)) (fun c hc k hk => hco.transport _ (hpD c hc k hk))
    (fun c hc k hk => (hco.reaction _ (hpD c hc k hk)).1) (fun c hc k hk => (hco.reaction _ (hpD c hc k hk)).2) hdef hd hv hμ hκ0 hκ hsmall hε lu hlu hlc
    data hr hc hFm0 hFm' g hg hgc hm h0 junk
  have eP : P0 = meshProb N 1 (N + 1) t op cells n X (enumDofs1 cells nNodes bNodes) := by
    rw [problem1, ht] at eP0
    exact (Res.ok.inj eP0).symm
  subst eP
  obtain ⟨w0, W0, b0, q1, q2, q3, q4⟩ := hP0 hsa data hr hc hf g hg hgc hgb junk
  obtain ⟨w1, k1, k2, -⟩ := C103_definite_partial (meshProb N 1 (N + 1) t op cells n X (enumDofs1 cells nNodes bNodes)) hPo hdef lu0 hlu0 hlc0 data hr hc g hg hgc hm h0 junk
  have e01 : w0 = w1 := by
    have := Res.ok.inj (q1.symm.trans k1)
    exact Option.some.inj (Prod.mk.inj this).2
  subst e01
  obtain ⟨W, b, hW⟩ := affine_exists hO w
  have hW0 : (meshProb N 1 (N + 1) t op cells n X (enumDofs1 cells nNodes bNodes)).Affine (natX X) w0 W0 b0 := fun c hc v hv => by
    refine (q2 c hc v hv).trans ?_
    congr 1
    exact Finset.sum_congr rfl fun z _ => by rw [← natX_fin X]; rfl
  have hgb' : ∀ p < nNodes, bNodes p = true → g.at' p 0 = u fun z : Fin N => natX X p z := fun p hp hb => by rw [natX_fin]; exact hgb p hp hb
  refine ⟨w, W, b, s1, fun c hc v hv => ?_, fun Wm hWm hgm ν hν => ?_⟩
  · refine (hW c hc v hv).trans ?_
    congr 1
    exact Finset.sum_congr rfl fun z _ => by rw [← natX_fin X]; rfl
  have hWm0 : 0 ≤ Wm := (abs_nonneg _).trans (hWm 0 hm)
  set κ' := rowError N ρ Λ bm cm ε (r.b ^ sysDepth (meshProb N 1 (N + 1) t op cells n X (enumDofs1 cells nNodes bNodes)) kd v - 1) μ κ Wm Fm with hκ'
  have hrc : 0 ≤ rowConst N ρ Λ bm cm := by rw [rowConst]; positivity
  have hδ : 0 ≤ r.b ^ sysDepth (meshProb N 1 (N + 1) t op cells n X (enumDofs1 cells nNodes bNodes)) kd v - 1 := sub_nonneg.2 (one_le_pow₀ r.one_le_b)
  have hκ'0 : 0 ≤ κ' := by rw [hκ', rowError]; positivity
  have hη0 : 0 ≤ 2 * ε * Wm := by positivity
  obtain ⟨s, v, n1, n2, n3, n4⟩ := near_rows hO hPo hform hsh hh0 hρ hC0 hFr hΛ hbm hcm hγ
    (fun c hc k hk => hco.elliptic _ (hpD c hc k hk)) (fun c hc k hk => hco.diffusion _ (hpD c hc k hk)) (fun c hc k hk => hco.transport _ (hpD c hc k hk))
    (fun c hc k hk => (hco.reaction _ (hpD c hc k hk)).1) (fun c hc k hk => (hco.reaction _ (hpD c hc k hk)).2) hα
    (f := fun c k => data.at' (size t * c + k) 0) s2 s3 k2 hη0 hκ'0 (fun p hp hb => by
        refine (s4 p hp hb).trans ?_
        have i1 := hWm p hp
        have i2 := hgm p hp hb
        rw [← hgb p hp hb] at i2
        have := mul_le_mul_of_nonneg_left (add_le_add i1 i2) hε
        linarith) (s5 Wm hWm)
  obtain ⟨Sg, sa, hSg⟩ := affine_exists hO s
  obtain ⟨V, vd, hV⟩ := affine_exists hO v
  have hν0 : 0 ≤ ν := by
    rw [hν, innerError]
    exact div_nonneg (by positivity) hα.le
  obtain ⟨m1, m2⟩ := near_errors hO hsh hρ hFr (q := fun x z => pderiv u z x) (u := u)
    (flux_smooth (t := t) (nNodes := nNodes) op bNodes hM hu).cont (fun c hc => by
      rw [hce]
      obtain ⟨U, hU, hD, hC, -⟩ := hu.smooth
      exact hC.continuousOn.mono ((region_domain hc).trans hD)) hW0 hW hSg hV (fun c hc i hi => n1 _ (hPo.dofs c hc i hi)) (η := 2 * ε * Wm)
    (ν := ν) hη0 hν0 n2 n3 (by rw [hν]; exact n4 V vd hV)
  rw [show (∑ c ∈ Finset.range (meshProb N 1 (N + 1) t op cells n X (enumDofs1 cells nNodes bNodes)).n, 
    (meshProb N 1 (N + 1) t op cells n X (enumDofs1 cells nNodes bNodes)).measure c) = _ from hms] at m1 m2
  have hge := mesh_gradError (t := t) (n := n) (nNodes := nNodes) (cells := cells) (X := X) op bNodes u
  have hve := mesh_valueError (t := t) (n := n) (nNodes := nNodes) (cells := cells) (X := X) op bNodes u
  rw [← hge W0] at m1
  have m2' : valueError n cells X u W b ≤ 2 * valueError n cells X u W0 b0 + 2 * ((2 * (2 * ε * Wm) ^ 2 + 2 * (2 * ℓ * ν) ^ 2) *
        (volume (domain (N + 1) n cells X)).toReal) := by
    rw [hve W0 b0, show valueError n cells X u W b = _ from hve W b]
    exact m2
  set Vo := (volume (domain (N + 1) n cells X)).toReal with hVo
  set α0 := α - bm * (2 * ℓ + hh) - γ * (2 * ℓ + hh) ^ 2 with hα0
  constructor
  · refine (le_of_eq (hge W)).trans (m1.trans ?_)
    show 2 * gradError n cells X u W0 + 2 * (((N + 1) / ρ * (2 * ε * Wm) + ν) ^ 2 * Vo) ≤ _
    linarith
  · refine m2'.trans ?_
    linarith

end
end Fdapde.PDE
