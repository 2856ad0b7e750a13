import Verif.PDE.PropsConvergence
set_option linter.unusedSectionVars false
/-!
# Discrete problems with diffusion, transport and reaction: coercivity on test functions and residual of the interpolant
-/
namespace Fdapde.PDE
open Fdapde.Quadrature MeasureTheory Fdapde.FEM
variable {P : Prob ℝ} {X : Nat → Nat → ℝ} {I : Nat → Nat → Nat → ℝ}

theorem dot_le_len {N : Nat} (x y : Fin N → ℝ) : |∑ z, x z * y z| ≤ len x * len y := by
  rw [len, len, ← Real.sqrt_mul (Finset.sum_nonneg fun z _ => sq_nonneg _)]
  exact Real.abs_le_sqrt (Finset.sum_mul_sq_le_sq_mul_sq _ _ _)

theorem len_add {N : Nat} (x y : Fin N → ℝ) : len (fun z => x z + y z) ≤ len x + len y := by
  refine Real.sqrt_le_iff.2 ⟨add_nonneg (len_nonneg x) (len_nonneg y), ?_⟩
  have h1 := (le_abs_self _).trans (dot_le_len x y)
  have e : ∑ z, (x z + y z) ^ 2 = ∑ z, x z ^ 2 + 2 * ∑ z, x z * y z + ∑ z, y z ^ 2 := by
    rw [Finset.mul_sum, ← Finset.sum_add_distrib, ← Finset.sum_add_distrib]
    exact Finset.sum_congr rfl fun z _ => by ring
  rw [e, ← len_sq, ← len_sq]
  nlinarith

/-- Node `k` of the quadrature on cell `c`. -/
noncomputable def Prob.point (P : Prob ℝ) (X : Nat → Nat → ℝ) (c k : Nat) : Fin P.N → ℝ := fun z => cellPoint P.N X (P.dofs c) (node ℝ P.t k) z

/-- At the nodes of the quadrature the operator is the sum of diffusion, transport and reaction. -/
def Prob.Form (P : Prob ℝ) (D : Nat → Nat → Fin P.N → Fin P.N → ℝ) (β : Nat → Nat → Fin P.N → ℝ) (r : Nat → Nat → ℝ) : Prop :=
  ∀ c < P.n, ∀ k < size P.t, ∀ (u v : ℝ) (gu gv : Nat → ℝ), form P.N P.op (size P.t * c + k) u v gu gv =
    (∑ z : Fin P.N, (∑ y : Fin P.N, D c k z y * gu y) * gv z) + (∑ z : Fin P.N, β c k z * gu z) * v + r c k * u * v

theorem bilin_form (h : P.OnNodes X I) {D : Nat → Nat → Fin P.N → Fin P.N → ℝ} {β : Nat → Nat → Fin P.N → ℝ} {r : Nat → Nat → ℝ}
    (hop : P.Form D β r) {u v : Nat → ℝ} {U V : Nat → Fin P.N → ℝ} {a b : Nat → ℝ} (hu : P.Affine X u U a) (hv : P.Affine X v V b) :
    P.bilin u v = ∑ c ∈ Finset.range P.n, ∑ k ∈ Finset.range (size P.t), weight ℝ P.t k * (P.measure c *
      ((∑ z, (∑ y, D c k z y * U c y) * V c z) + (∑ z, β c k z * U c z) * aff (V c) (b c) (P.point X c k) +
        r c k * aff (U c) (a c) (P.point X c k) * aff (V c) (b c) (P.point X c k))) := by
  rw [Prob.bilin]
  refine Finset.sum_congr rfl fun c hc => ?_
  have hc' := Finset.mem_range.1 hc
  rw [Finset.mul_sum]
  refine Finset.sum_congr rfl fun k hk => ?_
  have hk' := Finset.mem_range.1 hk
  have e1 : ∀ (w : Nat → ℝ) (W : Nat → Fin P.N → ℝ) (d : Nat → ℝ), P.Affine X w W d → ∀ z : Fin P.N,
      feGrad P.nb (P.dofs c) w (fun i => P.grad c i (node ℝ P.t k)) z = W c z := by
    intro w W d hW z
    rw [← slope_grad h (fun c hc => ⟨d c, hW c hc⟩) hc' z, feGrad]
    exact Finset.sum_congr rfl fun i hi => by rw [grad_node h hc' hk' (Finset.mem_range.1 hi)]
  rw [hop c hc' k hk', fe_node h hu hc' hk', fe_node h hv hc' hk']
  simp only [e1 u U a hu, e1 v V b hv, aff, Prob.point]
  ring

/-- Bound of the values of a discrete function on a cell: the norms of the function and of its gradient. -/
noncomputable def Prob.peak (P : Prob ℝ) (X : Nat → Nat → ℝ) (hh : ℝ) (V : Nat → Fin P.N → ℝ) (b : Nat → ℝ) (c : Nat) : ℝ :=
  Real.sqrt (∫ x in P.cell X c, aff (V c) (b c) x ^ 2) + hh * (Real.sqrt (P.measure c) * len (V c))

theorem peak_nonneg {hh : ℝ} (hh0 : 0 ≤ hh) (V : Nat → Fin P.N → ℝ) (b : Nat → ℝ) (c : Nat) : 0 ≤ P.peak X hh V b c :=
  add_nonneg (Real.sqrt_nonneg _) (mul_nonneg hh0 (mul_nonneg (Real.sqrt_nonneg _) (len_nonneg _)))

theorem value_peak (h : P.OnNodes X I) {hh ρ : ℝ} (hs : P.Shape X hh ρ) (hh0 : 0 ≤ hh) (V : Nat → Fin P.N → ℝ) (b : Nat → ℝ) {c : Nat} (hc : c < P.n)
    {y : Fin P.N → ℝ} (hy : y ∈ P.cell X c) : Real.sqrt (P.measure c) * |aff (V c) (b c) y| ≤ P.peak X hh V b c := by
  have hm := measure_pos h hc
  have hsm := Real.sqrt_pos.2 hm
  have h1 : ∀ x ∈ P.cell X c, |aff (V c) (b c) y| ≤ |aff (V c) (b c) x| + hh * len (V c) := by
    intro x hx
    have e : aff (V c) (b c) y = aff (V c) (b c) x + ∑ z, V c z * (y z - x z) := by
      simp only [aff, mul_sub, Finset.sum_sub_distrib]; ring
    have h2 : len (fun z => y z - x z) ≤ hh := by
      rw [len, ← Real.sqrt_sq hh0]
      exact Real.sqrt_le_sqrt (cell_diam h hs hc hx hy)
    rw [e]
    refine (abs_add_le _ _).trans (add_le_add le_rfl ((dot_le_len _ _).trans ?_))
    rw [mul_comm]
    exact mul_le_mul_of_nonneg_right h2 (len_nonneg _)
  have i1 : IntegrableOn (fun x => |aff (V c) (b c) x| + hh * len (V c)) (P.cell X c) :=
    ((aff_cont _ _).abs.add continuous_const).continuousOn.integrableOn_compact (cell_compact c)
  have i2 : IntegrableOn (fun x => |aff (V c) (b c) x|) (P.cell X c) := (aff_cont _ _).abs.continuousOn.integrableOn_compact (cell_compact c)
  have h2 := setIntegral_mono_on (int_const c _) i1 (cell_compact c).measurableSet h1
  rw [cell_const h hc, integral_add i2 (int_const c _), cell_const h hc] at h2
  have h3 := cell_abs h hc (aff_cont (V c) (b c))
  have h4 : Real.sqrt (P.measure c) * (Real.sqrt (P.measure c) * |aff (V c) (b c) y|) ≤ Real.sqrt (P.measure c) * P.peak X hh V b c := by
    rw [← mul_assoc, Real.mul_self_sqrt hm.le, Prob.peak, mul_add,
      show Real.sqrt (P.measure c) * (hh * (Real.sqrt (P.measure c) * len (V c))) = (Real.sqrt (P.measure c) * Real.sqrt (P.measure c)) * (hh * len (V c)) by ring,
      Real.mul_self_sqrt hm.le]
    exact h2.trans (add_le_add h3 le_rfl)
  exact le_of_mul_le_mul_left h4 hsm

theorem energy_len (h : P.OnNodes X I) (V : Nat → Fin P.N → ℝ) :
    P.energySq X V = ∑ c ∈ Finset.range P.n, (Real.sqrt (P.measure c) * len (V c)) ^ 2 := by
  rw [energySq_eq h]
  refine Finset.sum_congr rfl fun c hc => ?_
  rw [mul_pow, Real.sq_sqrt (measure_pos h (Finset.mem_range.1 hc)).le, len_sq]

theorem peak_sum (h : P.OnNodes X I) {hh C : ℝ} (hh0 : 0 ≤ hh) (hC : 0 ≤ C) (hF : P.Friedrichs X C) {v : Nat → ℝ} {V : Nat → Fin P.N → ℝ} {b : Nat → ℝ}
    (hT : P.Test v) (hv : P.Affine X v V b) : ∑ c ∈ Finset.range P.n, P.peak X hh V b c ^ 2 ≤ (C + hh) ^ 2 * P.energySq X V := by
  set s : Nat → ℝ := fun c => Real.sqrt (∫ x in P.cell X c, aff (V c) (b c) x ^ 2) with hs
  set t : Nat → ℝ := fun c => Real.sqrt (P.measure c) * len (V c) with ht
  have e1 : P.energySq X V = ∑ c ∈ Finset.range P.n, t c ^ 2 := energy_len h V
  have e2 : ∑ c ∈ Finset.range P.n, s c ^ 2 ≤ C ^ 2 * P.energySq X V := by
    refine le_trans (le_of_eq (Finset.sum_congr rfl fun c _ => ?_)) (hF v V b hT hv)
    exact Real.sq_sqrt (integral_nonneg fun x => sq_nonneg _)
  set E := P.energySq X V with hE
  have hE0 : 0 ≤ E := energySq_nonneg h V
  have e3 : ∑ c ∈ Finset.range P.n, s c * t c ≤ C * E := by
    refine le_of_sq_le_sq' ?_ (mul_nonneg hC hE0)
    refine (Finset.sum_mul_sq_le_sq_mul_sq _ _ _).trans ?_
    rw [← e1, mul_pow]
    calc _ ≤ C ^ 2 * E * E := mul_le_mul_of_nonneg_right e2 hE0
      _ = _ := by ring
  have e4 : ∑ c ∈ Finset.range P.n, P.peak X hh V b c ^ 2 = ∑ c ∈ Finset.range P.n, s c ^ 2 + 2 * hh * ∑ c ∈ Finset.range P.n, s c * t c +
      hh ^ 2 * ∑ c ∈ Finset.range P.n, t c ^ 2 := by
    rw [Finset.mul_sum, Finset.mul_sum, ← Finset.sum_add_distrib, ← Finset.sum_add_distrib]
    refine Finset.sum_congr rfl fun c _ => ?_
    show (s c + hh * t c) ^ 2 = _
    ring
  rw [e4, ← e1]
  have e5 := mul_le_mul_of_nonneg_left e3 (show 0 ≤ 2 * hh by positivity)
  calc _ ≤ C ^ 2 * E + 2 * hh * (C * E) + hh ^ 2 * E := add_le_add (add_le_add e2 e5) le_rfl
    _ = _ := by ring
where
  le_of_sq_le_sq' {a b : ℝ} (h : a ^ 2 ≤ b ^ 2) (hb : 0 ≤ b) : a ≤ b := le_of_abs_le (abs_le_of_sq_le_sq h hb)

theorem sum_mul_le (s : Finset Nat) (f g : Nat → ℝ) : ∑ i ∈ s, f i * g i ≤ Real.sqrt (∑ i ∈ s, f i ^ 2) * Real.sqrt (∑ i ∈ s, g i ^ 2) := by
  rw [← Real.sqrt_mul (Finset.sum_nonneg fun _ _ => sq_nonneg _)]
  exact Real.le_sqrt_of_sq_le (Finset.sum_mul_sq_le_sq_mul_sq _ _ _)

theorem peak_norm (h : P.OnNodes X I) {hh C : ℝ} (hh0 : 0 ≤ hh) (hC : 0 ≤ C) (hF : P.Friedrichs X C) {v : Nat → ℝ} {V : Nat → Fin P.N → ℝ} {b : Nat → ℝ}
    (hT : P.Test v) (hv : P.Affine X v V b) :
    Real.sqrt (∑ c ∈ Finset.range P.n, P.peak X hh V b c ^ 2) ≤ (C + hh) * Real.sqrt (P.energySq X V) := by
  refine (Real.sqrt_le_sqrt (peak_sum h hh0 hC hF hT hv)).trans (le_of_eq ?_)
  rw [Real.sqrt_mul (sq_nonneg _), Real.sqrt_sq (by positivity)]

/-- The form is coercive on the test functions when the diffusion dominates. -/
theorem form_coercive (h : P.OnNodes X I) {D : Nat → Nat → Fin P.N → Fin P.N → ℝ} {β : Nat → Nat → Fin P.N → ℝ} {r : Nat → Nat → ℝ}
    (hop : P.Form D β r) {hh ρ C α bm γ : ℝ} (hs : P.Shape X hh ρ) (hh0 : 0 ≤ hh) (hC : 0 ≤ C) (hF : P.Friedrichs X C) (hbm : 0 ≤ bm) (hγ : 0 ≤ γ)
    (hD : ∀ c < P.n, ∀ k < size P.t, ∀ ξ : Fin P.N → ℝ, α * len ξ ^ 2 ≤ ∑ z, (∑ y, D c k z y * ξ y) * ξ z)
    (hβ : ∀ c < P.n, ∀ k < size P.t, len (β c k) ≤ bm) (hr : ∀ c < P.n, ∀ k < size P.t, -γ ≤ r c k)
    {v : Nat → ℝ} {V : Nat → Fin P.N → ℝ} {b : Nat → ℝ} (hT : P.Test v) (hv : P.Affine X v V b) :
    (∑ k ∈ Finset.range (size P.t), weight ℝ P.t k) * ((α - bm * (C + hh) - γ * (C + hh) ^ 2) * P.energySq X V) ≤ P.bilin v v := by
  set σ := ∑ k ∈ Finset.range (size P.t), weight ℝ P.t k with hσ
  have hσ0 : 0 < σ := weights_pos h
  set p : Nat → ℝ := P.peak X hh V b with hp
  set t : Nat → ℝ := fun c => Real.sqrt (P.measure c) * len (V c) with ht
  set E := P.energySq X V with hE
  have hE0 : 0 ≤ E := energySq_nonneg h V
  have e1 : E = ∑ c ∈ Finset.range P.n, t c ^ 2 := energy_len h V
  have e2 : ∑ c ∈ Finset.range P.n, p c ^ 2 ≤ (C + hh) ^ 2 * E := peak_sum h hh0 hC hF hT hv
  have e3 : ∑ c ∈ Finset.range P.n, t c * p c ≤ (C + hh) * E := by
    refine (sum_mul_le _ _ _).trans ?_
    rw [← e1]
    refine (mul_le_mul_of_nonneg_left (peak_norm h hh0 hC hF hT hv) (Real.sqrt_nonneg _)).trans (le_of_eq ?_)
    rw [← hE, show Real.sqrt E * ((C + hh) * Real.sqrt E) = (C + hh) * (Real.sqrt E * Real.sqrt E) by ring, Real.mul_self_sqrt hE0]
  have e4 : σ * ∑ c ∈ Finset.range P.n, (α * t c ^ 2 - bm * (t c * p c) - γ * p c ^ 2) ≤ P.bilin v v := by
    rw [bilin_form h hop hv hv, Finset.mul_sum]
    refine Finset.sum_le_sum fun c hc => ?_
    have hc' := Finset.mem_range.1 hc
    rw [hσ, Finset.sum_mul]
    refine Finset.sum_le_sum fun k hk => ?_
    have hk' := Finset.mem_range.1 hk
    refine mul_le_mul_of_nonneg_left ?_ (weight_pos h hk').le
    have hm := measure_pos h hc'
    set y := aff (V c) (b c) (P.point X c k) with hy
    have hpk : Real.sqrt (P.measure c) * |y| ≤ p c := value_peak h hs hh0 V b hc' (node_mem h c hk')
    have a1 : α * t c ^ 2 ≤ P.measure c * ∑ z, (∑ y, D c k z y * V c y) * V c z := by
      have := mul_le_mul_of_nonneg_left (hD c hc' k hk' (V c)) hm.le
      refine le_trans (le_of_eq ?_) this
      rw [ht]; dsimp only; rw [mul_pow, Real.sq_sqrt hm.le]; ring
    have a2 : |P.measure c * ((∑ z, β c k z * V c z) * y)| ≤ bm * (t c * p c) := by
      rw [abs_mul, abs_mul, abs_of_pos hm]
      have b1 : |∑ z, β c k z * V c z| ≤ bm * len (V c) := (dot_le_len _ _).trans (mul_le_mul_of_nonneg_right (hβ c hc' k hk') (len_nonneg _))
      calc P.measure c * (|∑ z, β c k z * V c z| * |y|) ≤ P.measure c * (bm * len (V c) * |y|) :=
            mul_le_mul_of_nonneg_left (mul_le_mul_of_nonneg_right b1 (abs_nonneg _)) hm.le
        _ = (Real.sqrt (P.measure c) * Real.sqrt (P.measure c)) * (bm * len (V c) * |y|) := by rw [Real.mul_self_sqrt hm.le]
        _ = bm * (t c * (Real.sqrt (P.measure c) * |y|)) := by rw [ht]; ring
        _ ≤ _ := mul_le_mul_of_nonneg_left (mul_le_mul_of_nonneg_left hpk (mul_nonneg (Real.sqrt_nonneg _) (len_nonneg _))) hbm
    have a3 : P.measure c * y ^ 2 ≤ p c ^ 2 := by
      have := pow_le_pow_left₀ (mul_nonneg (Real.sqrt_nonneg _) (abs_nonneg _)) hpk 2
      rwa [mul_pow, Real.sq_sqrt hm.le, sq_abs] at this
    have a4 : -(γ * p c ^ 2) ≤ P.measure c * (r c k * y * y) := by
      have b1 : -γ * (P.measure c * y ^ 2) ≤ r c k * (P.measure c * y ^ 2) := mul_le_mul_of_nonneg_right (hr c hc' k hk') (mul_nonneg hm.le (sq_nonneg _))
      have b2 := mul_le_mul_of_nonneg_left a3 hγ
      calc -(γ * p c ^ 2) ≤ -(γ * (P.measure c * y ^ 2)) := neg_le_neg b2
        _ = -γ * (P.measure c * y ^ 2) := by ring
        _ ≤ _ := b1
        _ = _ := by ring
    have a5 := (abs_le.1 a2).1
    rw [mul_add, mul_add]
    linarith
  refine (mul_le_mul_of_nonneg_left ?_ hσ0.le).trans e4
  rw [Finset.sum_sub_distrib, Finset.sum_sub_distrib, ← Finset.mul_sum, ← Finset.mul_sum, ← Finset.mul_sum, ← e1]
  have a1 := mul_le_mul_of_nonneg_left e3 hbm
  have a2 := mul_le_mul_of_nonneg_left e2 hγ
  calc _ = α * E - bm * ((C + hh) * E) - γ * ((C + hh) ^ 2 * E) := by ring
    _ ≤ _ := by linarith

/-- The interpolant of the exact solution satisfies the discrete equation up to the errors of quadrature and interpolation. -/
theorem form_residual (h : P.OnNodes X I) {D : Nat → Nat → Fin P.N → Fin P.N → ℝ} {β : Nat → Nat → Fin P.N → ℝ} {r : Nat → Nat → ℝ}
    (hop : P.Form D β r) {hh ρ M C : ℝ} (hs : P.Shape X hh ρ) (hh0 : 0 ≤ hh) (hρ : 0 < ρ) (hC : 0 ≤ C) (hF : P.Friedrichs X C)
    {u : (Fin P.N → ℝ) → ℝ} {q φ : (Fin P.N → ℝ) → Fin P.N → ℝ} (hu : P.Smooth X u q M) (hM : 0 ≤ M) (hφ : ∀ c < P.n, ContinuousOn φ (P.cell X c))
    {Λ bm cm Lq δ : ℝ} (hΛ : 0 ≤ Λ) (hbm : 0 ≤ bm) (hcm : 0 ≤ cm)
    (hD : ∀ c < P.n, ∀ k < size P.t, ∀ ξ : Fin P.N → ℝ, len (fun z => ∑ y, D c k z y * ξ y) ≤ Λ * len ξ)
    (hβ : ∀ c < P.n, ∀ k < size P.t, len (β c k) ≤ bm) (hr : ∀ c < P.n, ∀ k < size P.t, |r c k| ≤ cm)
    (hflux : ∀ c < P.n, ∀ k < size P.t, ∀ x ∈ P.cell X c, len (fun z => φ x z - ∑ y, D c k z y * q (P.point X c k) y) ≤ Lq)
    (f0 f : Nat → Nat → ℝ) (hf0 : P.Consistent X f0 φ δ)
    (hf : ∀ c < P.n, ∀ k < size P.t, f c k = f0 c k + (∑ z, β c k z * q (P.point X c k) z) + r c k * u (P.point X c k))
    {v : Nat → ℝ} {V : Nat → Fin P.N → ℝ} {b : Nat → ℝ} (hT : P.Test v) (hv : P.Affine X v V b) :
    |P.load f v - P.bilin (fun p => u fun z => X p z) v| ≤ (∑ k ∈ Finset.range (size P.t), weight ℝ P.t k) *
      ((δ + (Lq + Λ * ((P.N + 1) * M * hh ^ 2 / (2 * ρ)) + (bm * ((P.N + 1) * M * hh ^ 2 / (2 * ρ)) + cm * (M / 2 * hh ^ 2)) * (C + hh)) *
        Real.sqrt (∑ c ∈ Finset.range P.n, P.measure c)) * Real.sqrt (P.energySq X V)) := by
  set σ := ∑ k ∈ Finset.range (size P.t), weight ℝ P.t k with hσ
  have hσ0 : 0 < σ := weights_pos h
  set A := (P.N + 1) * M * hh ^ 2 / (2 * ρ) with hA
  have hA0 : 0 ≤ A := by positivity
  set Bv := M / 2 * hh ^ 2 with hBv
  have hBv0 : 0 ≤ Bv := by positivity
  obtain ⟨Y, a, hY⟩ := affine_exists h fun p => u fun z => X p z
  have hYs : P.Slope X (fun p => u fun z => X p z) Y := fun c hc => ⟨a c, hY c hc⟩
  set R := Real.sqrt (∑ c ∈ Finset.range P.n, P.measure c) with hR
  set S := Real.sqrt (P.energySq X V) with hS
  set p : Nat → ℝ := P.peak X hh V b with hp
  set t : Nat → ℝ := fun c => Real.sqrt (P.measure c) * len (V c) with ht
  have hmn : ∀ c ∈ Finset.range P.n, 0 ≤ P.measure c := fun c hc => (measure_pos h (Finset.mem_range.1 hc)).le
  have eR : ∑ c ∈ Finset.range P.n, Real.sqrt (P.measure c) ^ 2 = ∑ c ∈ Finset.range P.n, P.measure c :=
    Finset.sum_congr rfl fun c hc => Real.sq_sqrt (hmn c hc)
  have hsp : ∑ c ∈ Finset.range P.n, Real.sqrt (P.measure c) * p c ≤ R * ((C + hh) * S) := by
    refine (sum_mul_le _ _ _).trans ?_
    rw [eR]
    exact mul_le_mul_of_nonneg_left (peak_norm h hh0 hC hF hT hv) (Real.sqrt_nonneg _)
  have hst : ∑ c ∈ Finset.range P.n, Real.sqrt (P.measure c) * t c ≤ R * S := by
    refine (sum_mul_le _ _ _).trans ?_
    rw [eR, hS, energy_len h V]
  have hgrad : ∀ c < P.n, ∀ k < size P.t, len (fun z => q (P.point X c k) z - Y c z) ≤ A := by
    intro c hc k hk
    rw [len, ← Real.sqrt_sq hA0]
    exact Real.sqrt_le_sqrt (C112_interpolation h hs hρ hu hM Y hYs hc (node_mem h c hk))
  have hval : ∀ c < P.n, ∀ k < size P.t, |u (P.point X c k) - aff (Y c) (a c) (P.point X c k)| ≤ Bv := fun c hc k hk =>
    abs_le_of_sq_le_sq (interpolation_value h hs hu hM hY hc (node_mem h c hk)) hBv0
  -- the part of the diffusion
  set J := ∑ c ∈ Finset.range P.n, ∫ x in P.cell X c, ∑ z, φ x z * V c z with hJ
  set dD : Nat → Nat → ℝ := fun c k => ∑ z, (∑ y, D c k z y * Y c y) * V c z with hdD
  set dT : Nat → Nat → ℝ := fun c k => ((∑ z, β c k z * (q (P.point X c k) z - Y c z)) + r c k * (u (P.point X c k) - aff (Y c) (a c) (P.point X c k))) *
    aff (V c) (b c) (P.point X c k) with hdT
  have h1 := hf0 v V hT fun c hc => ⟨b c, hv c hc⟩
  rw [← hσ, ← hJ, ← hS] at h1
  have h2 : |σ * J - ∑ c ∈ Finset.range P.n, ∑ k ∈ Finset.range (size P.t), weight ℝ P.t k * (P.measure c * dD c k)| ≤ σ * ((Lq + Λ * A) * (R * S)) := by
    have e : σ * J - ∑ c ∈ Finset.range P.n, ∑ k ∈ Finset.range (size P.t), weight ℝ P.t k * (P.measure c * dD c k) =
        ∑ c ∈ Finset.range P.n, ∑ k ∈ Finset.range (size P.t), weight ℝ P.t k * ((∫ x in P.cell X c, ∑ z, φ x z * V c z) - P.measure c * dD c k) := by
      rw [hJ, Finset.mul_sum, ← Finset.sum_sub_distrib]
      refine Finset.sum_congr rfl fun c _ => ?_
      rw [hσ, Finset.sum_mul, ← Finset.sum_sub_distrib]
      exact Finset.sum_congr rfl fun k _ => by ring
    rw [e]
    have hτ : ∀ c ∈ Finset.range P.n, |∑ k ∈ Finset.range (size P.t), weight ℝ P.t k * ((∫ x in P.cell X c, ∑ z, φ x z * V c z) - P.measure c * dD c k)| ≤
        σ * ((Lq + Λ * A) * (Real.sqrt (P.measure c) * t c)) := by
      intro c hc
      have hc' := Finset.mem_range.1 hc
      have hm := measure_pos h hc'
      rw [hσ, Finset.sum_mul]
      refine (Finset.abs_sum_le_sum_abs _ _).trans (Finset.sum_le_sum fun k hk => ?_)
      have hk' := Finset.mem_range.1 hk
      rw [abs_mul, abs_of_pos (weight_pos h hk')]
      refine mul_le_mul_of_nonneg_left ?_ (weight_pos h hk').le
      have i1 : IntegrableOn (fun x => ∑ z, φ x z * V c z) (P.cell X c) :=
        (continuousOn_finsetSum _ fun z _ => ((continuousOn_pi.1 (hφ c hc')) z).mul continuousOn_const).integrableOn_compact (cell_compact c)
      rw [← cell_const h hc', ← integral_sub i1 (int_const c _), ← Real.norm_eq_abs]
      refine (norm_setIntegral_le_of_norm_le_const (C := (Lq + Λ * A) * len (V c)) (cell_compact c).measure_lt_top fun x hx => ?_).trans (le_of_eq ?_)
      · have e2 : (∑ z, φ x z * V c z) - dD c k = ∑ z, ((φ x z - ∑ y, D c k z y * q (P.point X c k) y) +
            ∑ y, D c k z y * (q (P.point X c k) y - Y c y)) * V c z := by
          rw [hdD, ← Finset.sum_sub_distrib]
          refine Finset.sum_congr rfl fun z _ => ?_
          simp only [mul_sub, Finset.sum_sub_distrib]
          ring
        rw [e2, Real.norm_eq_abs]
        refine (dot_le_len _ _).trans (mul_le_mul_of_nonneg_right ?_ (len_nonneg _))
        refine (len_add _ _).trans (add_le_add (hflux c hc' k hk' x hx) ?_)
        exact (hD c hc' k hk' _).trans (mul_le_mul_of_nonneg_left (hgrad c hc' k hk') hΛ)
      · have : volume.real (P.cell X c) = P.measure c := cell_measure h hc'
        rw [this, ht]
        dsimp only
        rw [← mul_assoc (Real.sqrt _), Real.mul_self_sqrt hm.le]
        ring
    refine (Finset.abs_sum_le_sum_abs _ _).trans ((Finset.sum_le_sum hτ).trans ?_)
    rw [← Finset.mul_sum, ← Finset.mul_sum]
    refine mul_le_mul_of_nonneg_left ?_ hσ0.le
    by_cases hn : (Finset.range P.n).Nonempty
    · obtain ⟨c, hc⟩ := hn
      have hc' := Finset.mem_range.1 hc
      have hk : 0 < size P.t := by
        by_contra hk
        rw [hσ, Nat.eq_zero_of_not_pos hk] at hσ0
        simp at hσ0
      have : 0 ≤ Lq := (len_nonneg _).trans (hflux c hc' 0 hk _ (node_mem h c hk))
      exact mul_le_mul_of_nonneg_left hst (add_nonneg this (mul_nonneg hΛ hA0))
    · rw [Finset.not_nonempty_iff_eq_empty] at hn
      rw [hn, Finset.sum_empty, mul_zero, hR, hn, Finset.sum_empty, Real.sqrt_zero, zero_mul, mul_zero]
  have h3 : |∑ c ∈ Finset.range P.n, ∑ k ∈ Finset.range (size P.t), weight ℝ P.t k * (P.measure c * dT c k)| ≤
      σ * ((bm * A + cm * Bv) * (R * ((C + hh) * S))) := by
    have hτ : ∀ c ∈ Finset.range P.n, |∑ k ∈ Finset.range (size P.t), weight ℝ P.t k * (P.measure c * dT c k)| ≤
        σ * ((bm * A + cm * Bv) * (Real.sqrt (P.measure c) * p c)) := by
      intro c hc
      have hc' := Finset.mem_range.1 hc
      have hm := measure_pos h hc'
      rw [hσ, Finset.sum_mul]
      refine (Finset.abs_sum_le_sum_abs _ _).trans (Finset.sum_le_sum fun k hk => ?_)
      have hk' := Finset.mem_range.1 hk
      rw [abs_mul, abs_of_pos (weight_pos h hk')]
      refine mul_le_mul_of_nonneg_left ?_ (weight_pos h hk').le
      set y := aff (V c) (b c) (P.point X c k) with hy
      have hpk : Real.sqrt (P.measure c) * |y| ≤ p c := value_peak h hs hh0 V b hc' (node_mem h c hk')
      have b1 : |(∑ z, β c k z * (q (P.point X c k) z - Y c z)) + r c k * (u (P.point X c k) - aff (Y c) (a c) (P.point X c k))| ≤ bm * A + cm * Bv := by
        refine (abs_add_le _ _).trans (add_le_add ?_ ?_)
        · exact (dot_le_len _ _).trans (mul_le_mul (hβ c hc' k hk') (hgrad c hc' k hk') (len_nonneg _) hbm)
        · rw [abs_mul]
          exact mul_le_mul (hr c hc' k hk') (hval c hc' k hk') (abs_nonneg _) hcm
      rw [abs_mul, abs_of_pos hm, hdT]
      dsimp only
      rw [← hy, abs_mul]
      calc _ ≤ P.measure c * ((bm * A + cm * Bv) * |y|) := mul_le_mul_of_nonneg_left (mul_le_mul_of_nonneg_right b1 (abs_nonneg _)) hm.le
        _ = (Real.sqrt (P.measure c) * Real.sqrt (P.measure c)) * ((bm * A + cm * Bv) * |y|) := by rw [Real.mul_self_sqrt hm.le]
        _ = (bm * A + cm * Bv) * (Real.sqrt (P.measure c) * (Real.sqrt (P.measure c) * |y|)) := by ring
        _ ≤ _ := mul_le_mul_of_nonneg_left (mul_le_mul_of_nonneg_left hpk (Real.sqrt_nonneg _)) (by positivity)
    refine (Finset.abs_sum_le_sum_abs _ _).trans ((Finset.sum_le_sum hτ).trans ?_)
    rw [← Finset.mul_sum, ← Finset.mul_sum]
    exact mul_le_mul_of_nonneg_left (mul_le_mul_of_nonneg_left hsp (by positivity)) hσ0.le
  have e : P.load f v - P.bilin (fun p => u fun z => X p z) v = (P.load f0 v - σ * J) +
      (σ * J - ∑ c ∈ Finset.range P.n, ∑ k ∈ Finset.range (size P.t), weight ℝ P.t k * (P.measure c * dD c k)) +
      ∑ c ∈ Finset.range P.n, ∑ k ∈ Finset.range (size P.t), weight ℝ P.t k * (P.measure c * dT c k) := by
    rw [bilin_form h hop hY hv]
    have e1 : P.load f v = P.load f0 v + ∑ c ∈ Finset.range P.n, ∑ k ∈ Finset.range (size P.t), weight ℝ P.t k * (P.measure c *
        (((∑ z, β c k z * q (P.point X c k) z) + r c k * u (P.point X c k)) * aff (V c) (b c) (P.point X c k))) := by
      rw [Prob.load, Prob.load, ← Finset.sum_add_distrib]
      refine Finset.sum_congr rfl fun c hc => ?_
      rw [Finset.mul_sum, Finset.mul_sum, ← Finset.sum_add_distrib]
      refine Finset.sum_congr rfl fun k hk => ?_
      rw [hf c (Finset.mem_range.1 hc) k (Finset.mem_range.1 hk), fe_node h hv (Finset.mem_range.1 hc) (Finset.mem_range.1 hk)]
      simp only [aff, Prob.point]
      ring
    rw [e1]
    have e2 : ∑ c ∈ Finset.range P.n, ∑ k ∈ Finset.range (size P.t), weight ℝ P.t k * (P.measure c *
        (((∑ z, β c k z * q (P.point X c k) z) + r c k * u (P.point X c k)) * aff (V c) (b c) (P.point X c k))) -
        (∑ c ∈ Finset.range P.n, ∑ k ∈ Finset.range (size P.t), weight ℝ P.t k * (P.measure c *
          ((∑ z, (∑ y, D c k z y * Y c y) * V c z) + (∑ z, β c k z * Y c z) * aff (V c) (b c) (P.point X c k) +
            r c k * aff (Y c) (a c) (P.point X c k) * aff (V c) (b c) (P.point X c k)))) =
        ∑ c ∈ Finset.range P.n, ∑ k ∈ Finset.range (size P.t), weight ℝ P.t k * (P.measure c * dT c k) -
        ∑ c ∈ Finset.range P.n, ∑ k ∈ Finset.range (size P.t), weight ℝ P.t k * (P.measure c * dD c k) := by
      rw [← Finset.sum_sub_distrib, ← Finset.sum_sub_distrib]
      refine Finset.sum_congr rfl fun c _ => ?_
      rw [← Finset.sum_sub_distrib, ← Finset.sum_sub_distrib]
      refine Finset.sum_congr rfl fun k _ => ?_
      simp only [hdT, hdD, mul_sub (β c k _), Finset.sum_sub_distrib]
      ring
    linarith
  have h4 : |P.load f0 v - σ * J| ≤ σ * (δ * S) := by
    have : P.load f0 v - σ * J = σ * (P.load f0 v / σ - J) := by field_simp
    rw [this, abs_mul, abs_of_pos hσ0]
    exact mul_le_mul_of_nonneg_left h1 hσ0.le
  rw [e]
  refine (abs_add_le _ _).trans ((add_le_add ((abs_add_le _ _).trans (add_le_add h4 h2)) h3).trans (le_of_eq ?_))
  ring


/-! ### Consequences -/

/-- A coercive form is definite. -/
theorem form_definite (h : P.OnNodes X I) {D : Nat → Nat → Fin P.N → Fin P.N → ℝ} {β : Nat → Nat → Fin P.N → ℝ} {r : Nat → Nat → ℝ}
    (hop : P.Form D β r) {hh ρ C α bm γ : ℝ} (hs : P.Shape X hh ρ) (hh0 : 0 ≤ hh) (hC : 0 ≤ C) (hF : P.Friedrichs X C) (hbm : 0 ≤ bm) (hγ : 0 ≤ γ)
    (hD : ∀ c < P.n, ∀ k < size P.t, ∀ ξ : Fin P.N → ℝ, α * len ξ ^ 2 ≤ ∑ z, (∑ y, D c k z y * ξ y) * ξ z)
    (hβ : ∀ c < P.n, ∀ k < size P.t, len (β c k) ≤ bm) (hr : ∀ c < P.n, ∀ k < size P.t, -γ ≤ r c k)
    (hα : 0 < α - bm * (C + hh) - γ * (C + hh) ^ 2) (hused : ∀ p < P.m, ∃ c < P.n, ∃ i < P.nb, P.dofs c i = p) : P.Definite := by
  intro v hT h0 p hp
  obtain ⟨V, b, hv⟩ := affine_exists h v
  have h1 := form_coercive h hop hs hh0 hC hF hbm hγ hD hβ hr hT hv
  rw [h0] at h1
  have hE : P.energySq X V ≤ 0 := by
    by_contra hcon
    push Not at hcon
    have := mul_pos (weights_pos h) (mul_pos hα hcon)
    linarith
  have h2 := (peak_sum h hh0 hC hF hT hv).trans (mul_nonpos_of_nonneg_of_nonpos (sq_nonneg (C + hh)) hE)
  obtain ⟨c, hc, i, hi, rfl⟩ := hused p hp
  have h3 := (Finset.single_le_sum (fun c _ => sq_nonneg (P.peak X hh V b c)) (Finset.mem_range.2 hc)).trans h2
  have h4 : P.peak X hh V b c = 0 := pow_eq_zero_iff two_ne_zero |>.1 (le_antisymm h3 (sq_nonneg _))
  have h5 := value_peak h hs hh0 V b hc (cell_node h (c := c) hi)
  rw [h4] at h5
  have h6 := le_of_mul_le_mul_left (h5.trans (le_of_eq (mul_zero _).symm)) (Real.sqrt_pos.2 (measure_pos h hc))
  rw [hv c hc i hi]
  exact abs_nonpos_iff.1 h6

/-- Error of the discrete solution. -/
theorem form_error (h : P.OnNodes X I) (hP : P.Ok) {D : Nat → Nat → Fin P.N → Fin P.N → ℝ} {β : Nat → Nat → Fin P.N → ℝ} {r : Nat → Nat → ℝ}
    (hop : P.Form D β r) {hh ρ M C α γ : ℝ} (hs : P.Shape X hh ρ) (hh0 : 0 ≤ hh) (hρ : 0 < ρ) (hC : 0 ≤ C) (hF : P.Friedrichs X C)
    {u : (Fin P.N → ℝ) → ℝ} {q φ : (Fin P.N → ℝ) → Fin P.N → ℝ} (hu : P.Smooth X u q M) (hM : 0 ≤ M) (hφ : ∀ c < P.n, ContinuousOn φ (P.cell X c))
    {Λ bm cm Lq δ : ℝ} (hΛ : 0 ≤ Λ) (hbm : 0 ≤ bm) (hcm : 0 ≤ cm) (hγ : 0 ≤ γ)
    (hDα : ∀ c < P.n, ∀ k < size P.t, ∀ ξ : Fin P.N → ℝ, α * len ξ ^ 2 ≤ ∑ z, (∑ y, D c k z y * ξ y) * ξ z)
    (hD : ∀ c < P.n, ∀ k < size P.t, ∀ ξ : Fin P.N → ℝ, len (fun z => ∑ y, D c k z y * ξ y) ≤ Λ * len ξ)
    (hβ : ∀ c < P.n, ∀ k < size P.t, len (β c k) ≤ bm) (hrγ : ∀ c < P.n, ∀ k < size P.t, -γ ≤ r c k) (hr : ∀ c < P.n, ∀ k < size P.t, |r c k| ≤ cm)
    (hα : 0 < α - bm * (C + hh) - γ * (C + hh) ^ 2)
    (hflux : ∀ c < P.n, ∀ k < size P.t, ∀ x ∈ P.cell X c, len (fun z => φ x z - ∑ y, D c k z y * q (P.point X c k) y) ≤ Lq)
    (f0 f : Nat → Nat → ℝ) (hf0 : P.Consistent X f0 φ δ)
    (hf : ∀ c < P.n, ∀ k < size P.t, f c k = f0 c k + (∑ z, β c k z * q (P.point X c k) z) + r c k * u (P.point X c k))
    (g w : Nat → ℝ) (hg : ∀ p < P.m, P.bd p = true → g p = u fun z => X p z) (hw : P.Galerkin f g w)
    {W : Nat → Fin P.N → ℝ} {b : Nat → ℝ} (hW : P.Affine X w W b) :
    P.errorSq X q W ≤ 2 * (((P.N + 1) * M * hh ^ 2 / (2 * ρ)) ^ 2 * ∑ c ∈ Finset.range P.n, P.measure c) +
      2 * ((δ + (Lq + Λ * ((P.N + 1) * M * hh ^ 2 / (2 * ρ)) + (bm * ((P.N + 1) * M * hh ^ 2 / (2 * ρ)) + cm * (M / 2 * hh ^ 2)) * (C + hh)) *
        Real.sqrt (∑ c ∈ Finset.range P.n, P.measure c)) / (α - bm * (C + hh) - γ * (C + hh) ^ 2)) ^ 2 := by
  obtain ⟨Y, a, hY⟩ := affine_exists h fun p => u fun z => X p z
  have hYs : P.Slope X (fun p => u fun z => X p z) Y := fun c hc => ⟨a c, hY c hc⟩
  set e : Nat → ℝ := fun p => w p + -1 * u fun z => X p z with he
  have hT : P.Test e := fun p hp hb => by simp only [he]; rw [hw.1 p hp hb, hg p hp hb]; ring
  have hE : P.Affine X e (fun c z => W c z - Y c z) fun c => b c - a c := fun c hc i hi => by
    simp only [he, sub_mul, Finset.sum_sub_distrib]
    have hYi := hY c hc i hi
    dsimp only at hYi
    rw [hW c hc i hi, hYi]
    ring
  have h1 := form_coercive h hop hs hh0 hC hF hbm hγ hDα hβ hrγ hT hE
  have h2 := form_residual h hop hs hh0 hρ hC hF hu hM hφ hΛ hbm hcm hD hβ hr hflux f0 f hf0 hf hT hE
  set S2 := P.energySq X fun c z => W c z - Y c z with hS2
  have hS0 : 0 ≤ S2 := energySq_nonneg h _
  have h3 : P.bilin e e = P.load f e - P.bilin (fun p => u fun z => X p z) e := by
    conv_lhs => rw [he, bilin_left P hP]
    rw [hw.2 e hT]
    ring
  set A := (P.N + 1) * M * hh ^ 2 / (2 * ρ) with hA
  set κ := δ + (Lq + Λ * A + (bm * A + cm * (M / 2 * hh ^ 2)) * (C + hh)) * Real.sqrt (∑ c ∈ Finset.range P.n, P.measure c) with hκ
  set α0 := α - bm * (C + hh) - γ * (C + hh) ^ 2 with hα0
  rw [h3] at h1
  have h4 := le_of_mul_le_mul_left (h1.trans ((le_abs_self _).trans h2)) (weights_pos h)
  have h5 : S2 ≤ (κ / α0) ^ 2 := by
    have hr0 := Real.sqrt_nonneg S2
    have hrr := Real.mul_self_sqrt hS0
    rcases hr0.eq_or_lt with hz | hz
    · rw [← hrr, ← hz, mul_zero]; positivity
    · have : α0 * Real.sqrt S2 ≤ κ := by
        refine le_of_mul_le_mul_right ?_ hz
        rw [mul_assoc, hrr]
        exact h4
      rw [← hrr, ← sq]
      refine pow_le_pow_left₀ hr0 ?_ 2
      rw [le_div_iff₀ hα]
      linarith
  have h6 : P.errorSq X q W ≤ 2 * (A ^ 2 * ∑ c ∈ Finset.range P.n, P.measure c) + 2 * S2 := by
    rw [Prob.errorSq, hS2, energySq_eq h, Finset.mul_sum, Finset.mul_sum, Finset.mul_sum, ← Finset.sum_add_distrib]
    refine Finset.sum_le_sum fun c hc => ?_
    have hc' := Finset.mem_range.1 hc
    have hcont : ContinuousOn (fun x => ∑ z : Fin P.N, (q x z - W c z) ^ 2) (P.cell X c) :=
      continuousOn_finsetSum _ fun z _ => (((continuousOn_pi.1 (hu.cont c hc')) z).sub continuousOn_const).pow 2
    refine (setIntegral_mono_on (hcont.integrableOn_compact (cell_compact c)) (int_const c (2 * A ^ 2 + 2 * ∑ z, (W c z - Y c z) ^ 2)) (cell_compact c).measurableSet
      fun x hx => ?_).trans (le_of_eq ?_)
    · have i1 := C112_interpolation h hs hρ hu hM Y hYs hc' hx
      refine le_trans ?_ (add_le_add (mul_le_mul_of_nonneg_left i1 (by norm_num : (0:ℝ) ≤ 2)) le_rfl)
      rw [Finset.mul_sum, Finset.mul_sum, ← Finset.sum_add_distrib]
      exact Finset.sum_le_sum fun z _ => by nlinarith [sq_nonneg ((q x z - Y c z) + (W c z - Y c z))]
    · rw [cell_const h hc']; ring
  linarith

end Fdapde.PDE
