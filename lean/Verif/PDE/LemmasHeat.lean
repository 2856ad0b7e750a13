import Verif.PDE.PropsConvergence
import Verif.PDE.PropsEuler
set_option linter.unusedSectionVars false
/-!
Lemmas for the convergence of the time stepping on meshes: the quadrature of the square of a discrete function bounds its integral,
residual of the interpolant, recursion of the errors.
-/
namespace Fdapde.PDE
open Fdapde.Quadrature MeasureTheory Matrix Fdapde.FEM

/-! ### The nodes of the quadrature rules determine affine functions -/

theorem norm1 (a b : ℝ) : a ^ 2 + b ^ 2 ≤ 25 * ((1 / 2) * (a * (1 - 0.211324865405187) + b * 0.211324865405187) ^ 2 +
    (1 / 2) * (a * (1 - 0.788675134594812) + b * 0.788675134594812) ^ 2) := by
  nlinarith [sq_nonneg (a + b), sq_nonneg (a - b), sq_nonneg a, sq_nonneg b]

theorem norm2 (a b c : ℝ) : a ^ 2 + b ^ 2 + c ^ 2 ≤ 25 * (0.333333333333333 * (a * (1 - (0.166666666666667 + 0.166666666666667)) + b * 0.166666666666667 + c * 0.166666666666667) ^ 2 +
    0.333333333333333 * (a * (1 - (0.666666666666667 + 0.166666666666667)) + b * 0.666666666666667 + c * 0.166666666666667) ^ 2 +
    0.333333333333333 * (a * (1 - (0.166666666666667 + 0.666666666666667)) + b * 0.166666666666667 + c * 0.666666666666667) ^ 2) := by
  nlinarith [sq_nonneg (a + b + c), sq_nonneg (a - b), sq_nonneg (a - c), sq_nonneg (b - c), sq_nonneg a, sq_nonneg b, sq_nonneg c, sq_nonneg (a + b),
    sq_nonneg (a + c), sq_nonneg (b + c)]

theorem norm3 (a b c d : ℝ) : a ^ 2 + b ^ 2 + c ^ 2 + d ^ 2 ≤ 25 * (
    (1 / 4) * (a * (1 - (0.585410196624969 + 0.138196601125011 + 0.138196601125011)) + b * 0.585410196624969 + c * 0.138196601125011 + d * 0.138196601125011) ^ 2 +
    (1 / 4) * (a * (1 - (0.138196601125011 + 0.138196601125011 + 0.138196601125011)) + b * 0.138196601125011 + c * 0.138196601125011 + d * 0.138196601125011) ^ 2 +
    (1 / 4) * (a * (1 - (0.138196601125011 + 0.138196601125011 + 0.585410196624969)) + b * 0.138196601125011 + c * 0.138196601125011 + d * 0.585410196624969) ^ 2 +
    (1 / 4) * (a * (1 - (0.138196601125011 + 0.585410196624969 + 0.138196601125011)) + b * 0.138196601125011 + c * 0.585410196624969 + d * 0.138196601125011) ^ 2) := by
  nlinarith [sq_nonneg (a + b + c + d), sq_nonneg (a - b), sq_nonneg (a - c), sq_nonneg (b - c), sq_nonneg a, sq_nonneg b, sq_nonneg c, sq_nonneg d,
    sq_nonneg (a - d), sq_nonneg (b - d), sq_nonneg (c - d), sq_nonneg (a + b), sq_nonneg (a + c), sq_nonneg (a + d), sq_nonneg (b + c), sq_nonneg (b + d), sq_nonneg (c + d)]

theorem norm_rule : ∀ e ∈ [(1, 1, 2), (2, 1, 3), (3, 1, 4)], ∀ t, standardRule e.1 e.2.1 = some t → ∀ a : Nat → ℝ,
    ∑ i ∈ Finset.range (e.1 + 1), a i ^ 2 ≤ 25 * ∑ k ∈ Finset.range (size t), weight ℝ t k *
      (∑ i ∈ Finset.range (e.1 + 1), a i * (if i = 0 then 1 - ∑ w ∈ Finset.range e.1, node ℝ t k w else node ℝ t k (i - 1))) ^ 2 := by
  intro e he t ht a
  simp only [List.mem_cons, List.not_mem_nil, or_false] at he
  rcases he with rfl | rfl | rfl
  · have : t = rule1_2 := (Option.some.inj ht).symm
    subst this
    have hs : size rule1_2 = 2 := rfl
    have h1 := norm1 (a 0) (a 1)
    rw [hs]
    simp [Finset.sum_range_succ, weight, node, rule1_2] at h1 ⊢
    norm_num at h1 ⊢
    linarith
  · have : t = rule2_3 := (Option.some.inj ht).symm
    subst this
    have hs : size rule2_3 = 3 := rfl
    have h1 := norm2 (a 0) (a 1) (a 2)
    rw [hs]
    simp [Finset.sum_range_succ, weight, node, rule2_3] at h1 ⊢
    norm_num at h1 ⊢
    linarith
  · have : t = rule3_4 := (Option.some.inj ht).symm
    subst this
    have hs : size rule3_4 = 4 := rfl
    have h1 := norm3 (a 0) (a 1) (a 2) (a 3)
    rw [hs]
    simp [Finset.sum_range_succ, weight, node, rule3_4] at h1 ⊢
    norm_num at h1 ⊢
    linarith

theorem weights_rule : ∀ e ∈ [(1, 1, 2), (2, 1, 3), (3, 1, 4)], ∀ t, standardRule e.1 e.2.1 = some t → ∑ k ∈ Finset.range (size t), weight ℝ t k ≤ 1 := by
  intro e he t ht
  simp only [List.mem_cons, List.not_mem_nil, or_false] at he
  rcases he with rfl | rfl | rfl
  · have : t = rule1_2 := (Option.some.inj ht).symm
    subst this
    have hs : size rule1_2 = 2 := rfl
    rw [hs]
    simp [Finset.sum_range_succ, weight, rule1_2]
    try norm_num
  · have : t = rule2_3 := (Option.some.inj ht).symm
    subst this
    have hs : size rule2_3 = 3 := rfl
    rw [hs]
    simp [Finset.sum_range_succ, weight, rule2_3]
    try norm_num
  · have : t = rule3_4 := (Option.some.inj ht).symm
    subst this
    have hs : size rule3_4 = 4 := rfl
    rw [hs]
    simp [Finset.sum_range_succ, weight, rule3_4]
    try norm_num

variable {P : Prob ℝ} {X : Nat → Nat → ℝ} {I : Nat → Nat → Nat → ℝ}

theorem weights_le (h : P.OnNodes X I) : ∑ k ∈ Finset.range (size P.t), weight ℝ P.t k ≤ 1 :=
  weights_rule _ (first_mem h.lagrange.supported).1 _ h.lagrange.rule

theorem node_norm (h : P.OnNodes X I) (c : Nat) (v : Nat → ℝ) : ∑ i ∈ Finset.range P.nb, v (P.dofs c i) ^ 2 ≤
    25 * ∑ k ∈ Finset.range (size P.t), weight ℝ P.t k * feValue P.nb (P.dofs c) v (fun i => P.psi i (node ℝ P.t k)) ^ 2 := by
  have := norm_rule _ (first_mem h.lagrange.supported).1 _ h.lagrange.rule fun i => v (P.dofs c i)
  rw [nb_eq h]
  refine this.trans (le_of_eq ?_)
  congr 1
  refine Finset.sum_congr rfl fun k hk => ?_
  congr 2
  refine Finset.sum_congr rfl fun i hi => ?_
  simp only
  rw [psi_node h (Finset.mem_range.1 hk) (by rw [nb_eq h]; exact Finset.mem_range.1 hi)]

/-- The integral of the square of a discrete function is at most 25 times its quadrature. -/
theorem value_norm (h : P.OnNodes X I) {v : Nat → ℝ} {G : Nat → Fin P.N → ℝ} {b : Nat → ℝ} (hv : P.Affine X v G b) :
    ∑ c ∈ Finset.range P.n, ∫ x in P.cell X c, aff (G c) (b c) x ^ 2 ≤ 25 * P.l2 v v := by
  rw [Prob.l2, Finset.mul_sum]
  refine Finset.sum_le_sum fun c hc => ?_
  have hc' := Finset.mem_range.1 hc
  set S := ∑ i ∈ Finset.range P.nb, v (P.dofs c i) ^ 2 with hS
  have hS0 : 0 ≤ S := Finset.sum_nonneg fun i _ => sq_nonneg _
  have hsub : P.cell X c ⊆ {x | |aff (G c) (b c) x| ≤ Real.sqrt S} := by
    refine convexHull_min ?_ ?_
    · rintro _ ⟨j, rfl⟩
      have hj : (j : Nat) < P.nb := by rw [nb_eq h]; exact j.2
      rw [Set.mem_ofPred_eq]
      refine Real.abs_le_sqrt ?_
      have e : aff (G c) (b c) (fun z : Fin P.N => X (P.dofs c j) z) = v (P.dofs c j) := (hv c hc' j hj).symm
      rw [e]
      exact Finset.single_le_sum (f := fun i => v (P.dofs c i) ^ 2) (fun i _ => sq_nonneg _) (Finset.mem_range.2 hj)
    · intro x hx y hy α β hα hβ hαβ
      rw [Set.mem_ofPred_eq] at hx hy ⊢
      have e : aff (G c) (b c) (α • x + β • y) = α * aff (G c) (b c) x + β * aff (G c) (b c) y := by
        have hβ' : β = 1 - α := by linarith
        subst hβ'
        simp only [aff, Pi.add_apply, Pi.smul_apply, smul_eq_mul, mul_add, Finset.sum_add_distrib, Finset.mul_sum]
        have e1 : ∀ s : ℝ, ∀ w : Fin P.N → ℝ, ∑ z, G c z * (s * w z) = ∑ z, s * (G c z * w z) :=
          fun s w => Finset.sum_congr rfl fun z _ => by ring
        rw [e1, e1]
        ring
      rw [e]
      calc _ ≤ |α * aff (G c) (b c) x| + |β * aff (G c) (b c) y| := abs_add_le _ _
        _ = α * |aff (G c) (b c) x| + β * |aff (G c) (b c) y| := by rw [abs_mul, abs_mul, abs_of_nonneg hα, abs_of_nonneg hβ]
        _ ≤ α * Real.sqrt S + β * Real.sqrt S := add_le_add (mul_le_mul_of_nonneg_left hx hα) (mul_le_mul_of_nonneg_left hy hβ)
        _ = _ := by rw [← add_mul, hαβ, one_mul]
  have h1 : ∫ x in P.cell X c, aff (G c) (b c) x ^ 2 ≤ ∫ _ in P.cell X c, S := by
    refine setIntegral_mono_on ?_ (int_const c _) (cell_compact c).measurableSet fun x hx => ?_
    · exact ((aff_cont _ _).pow 2).continuousOn.integrableOn_compact (cell_compact c)
    · have := hsub hx
      rw [Set.mem_ofPred_eq] at this
      rw [← sq_abs, ← Real.sq_sqrt hS0]
      exact pow_le_pow_left₀ (abs_nonneg _) this 2
  rw [cell_const h hc'] at h1
  refine h1.trans ?_
  have h2 := mul_le_mul_of_nonneg_left (node_norm h c v) (measure_pos h hc').le
  refine h2.trans (le_of_eq ?_)
  rw [← mul_assoc, mul_comm (P.measure c) 25, mul_assoc]
  simp only [pow_two]

/-- A discrete function whose quadrature vanishes is zero at the nodes of the cells. -/
theorem l2_zero (h : P.OnNodes X I) {v : Nat → ℝ} (hv : P.l2 v v = 0) {c i : Nat} (hc : c < P.n) (hi : i < P.nb) : v (P.dofs c i) = 0 := by
  have h0 : ∀ c ∈ Finset.range P.n, 0 ≤ P.measure c * ∑ k ∈ Finset.range (size P.t), weight ℝ P.t k *
      (feValue P.nb (P.dofs c) v (fun i => P.psi i (node ℝ P.t k)) * feValue P.nb (P.dofs c) v fun i => P.psi i (node ℝ P.t k)) :=
    fun c hc => mul_nonneg (measure_pos h (Finset.mem_range.1 hc)).le
      (Finset.sum_nonneg fun k hk => mul_nonneg (weight_pos h (Finset.mem_range.1 hk)).le (mul_self_nonneg _))
  have h1 := (Finset.sum_eq_zero_iff_of_nonneg h0).1 hv c (Finset.mem_range.2 hc)
  have h2 := (mul_eq_zero.1 h1).resolve_left (measure_pos h hc).ne'
  have h3 := node_norm h c v
  simp only [pow_two] at h3
  rw [h2, mul_zero] at h3
  have h4 := Finset.single_le_sum (f := fun i => v (P.dofs c i) * v (P.dofs c i)) (fun i _ => mul_self_nonneg _) (Finset.mem_range.2 hi)
  exact mul_self_eq_zero.1 (le_antisymm (h4.trans h3) (mul_self_nonneg _))

/-! ### Residual of the interpolant -/

/-- The interpolant of the exact solution satisfies the discrete equation up to the errors of quadrature and interpolation. -/
theorem residual (h : P.OnNodes X I) (hop : Diffusive P.N P.op fun _ z y => if z = y then 1 else 0) {hh ρ M : ℝ} (hs : P.Shape X hh ρ)
    (hρ : 0 < ρ) {u : (Fin P.N → ℝ) → ℝ} {q : (Fin P.N → ℝ) → Fin P.N → ℝ} (hu : P.Smooth X u q M) (hM : 0 ≤ M) (hh0 : 0 ≤ hh)
    (f : Nat → Nat → ℝ) (δ : ℝ) (hf : P.Consistent X f q δ) {v : Nat → ℝ} (hT : P.Test v) {V : Nat → Fin P.N → ℝ} (hV : P.Slope X v V) :
    |P.load f v - P.bilin (fun p => u fun z => X p z) v| ≤ (∑ k ∈ Finset.range (size P.t), weight ℝ P.t k) *
      ((δ + (P.N + 1) * M * hh ^ 2 / (2 * ρ) * Real.sqrt (∑ c ∈ Finset.range P.n, P.measure c)) * Real.sqrt (P.energySq X V)) := by
  set σ := ∑ k ∈ Finset.range (size P.t), weight ℝ P.t k with hσ
  have hσ0 : 0 < σ := weights_pos h
  set A := (P.N + 1) * M * hh ^ 2 / (2 * ρ) with hA
  have hA0 : 0 ≤ A := by positivity
  have hY := slope_exists h fun p => u fun z => X p z
  set Y : Nat → Fin P.N → ℝ := fun c z => ∑ i ∈ Finset.range P.nb, (u fun z => X (P.dofs c i) z) * locGrad P.N I c i z with hYd
  have h1 := hf v V hT hV
  rw [← hσ] at h1
  have h2 := bilin_slope h hop hY hV
  rw [← hσ] at h2
  have h3 : |(∑ c ∈ Finset.range P.n, ∫ x in P.cell X c, ∑ z, q x z * V c z) - ∑ c ∈ Finset.range P.n, P.measure c * ∑ z, Y c z * V c z| ≤
      A * Real.sqrt (∑ c ∈ Finset.range P.n, P.measure c) * Real.sqrt (P.energySq X V) := by
    rw [← Finset.sum_sub_distrib]
    refine (Finset.abs_sum_le_sum_abs _ _).trans ?_
    have h4 : ∀ c ∈ Finset.range P.n, |(∫ x in P.cell X c, ∑ z, q x z * V c z) - P.measure c * ∑ z, Y c z * V c z| ≤
        A * (Real.sqrt (P.measure c) * Real.sqrt (P.measure c * ∑ z, V c z ^ 2)) := by
      intro c hc
      have hc' := Finset.mem_range.1 hc
      have hm := measure_pos h hc'
      have hqc := continuousOn_pi.1 (hu.cont c hc')
      have i1 : IntegrableOn (fun x => ∑ z, q x z * V c z) (P.cell X c) :=
        (continuousOn_finsetSum _ fun z _ => (hqc z).mul continuousOn_const).integrableOn_compact (cell_compact c)
      rw [← cell_const h hc', ← integral_sub i1 (int_const c _), ← Real.norm_eq_abs]
      refine (norm_setIntegral_le_of_norm_le_const (C := A * Real.sqrt (∑ z, V c z ^ 2)) (cell_compact c).measure_lt_top fun x hx => ?_).trans (le_of_eq ?_)
      · have h5 := C112_interpolation h hs hρ hu hM Y hY hc' hx
        rw [← Finset.sum_sub_distrib, Real.norm_eq_abs, ← Real.sqrt_sq hA0, ← Real.sqrt_mul (sq_nonneg A)]
        refine Real.abs_le_sqrt ?_
        have e : ∑ z, (q x z * V c z - Y c z * V c z) = ∑ z, (q x z - Y c z) * V c z := Finset.sum_congr rfl fun z _ => by ring
        rw [e]
        exact (Finset.sum_mul_sq_le_sq_mul_sq _ _ _).trans (mul_le_mul_of_nonneg_right h5 (Finset.sum_nonneg fun z _ => sq_nonneg _))
      · have : volume.real (P.cell X c) = P.measure c := cell_measure h hc'
        rw [this, Real.sqrt_mul hm.le, ← mul_assoc (Real.sqrt _), Real.mul_self_sqrt hm.le]
        ring
    refine (Finset.sum_le_sum h4).trans ?_
    rw [← Finset.mul_sum, energySq_eq h, mul_assoc]
    refine mul_le_mul_of_nonneg_left ?_ hA0
    exact sum_sqrt_le _ _ _ (fun c hc => (measure_pos h (Finset.mem_range.1 hc)).le)
      fun c hc => mul_nonneg (measure_pos h (Finset.mem_range.1 hc)).le (Finset.sum_nonneg fun z _ => sq_nonneg _)
  have h5 := (abs_add_le _ _).trans (add_le_add h1 h3)
  have e : P.load f v - P.bilin (fun p => u fun z => X p z) v = σ * ((P.load f v / σ - ∑ c ∈ Finset.range P.n, ∫ x in P.cell X c, ∑ z, q x z * V c z) +
      ((∑ c ∈ Finset.range P.n, ∫ x in P.cell X c, ∑ z, q x z * V c z) - ∑ c ∈ Finset.range P.n, P.measure c * ∑ z, Y c z * V c z)) := by
    rw [h2]
    field_simp
    ring
  rw [e, abs_mul, abs_of_pos hσ0]
  refine mul_le_mul_of_nonneg_left (h5.trans (le_of_eq ?_)) hσ0.le
  ring

/-- A field close to a discrete function at the nodes of the quadrature has almost the same products with the discrete functions. -/
theorem load_close (h : P.OnNodes X I) (f : Nat → Nat → ℝ) (d v : Nat → ℝ) {E : ℝ} (hE : 0 ≤ E)
    (hd : ∀ c < P.n, ∀ k < size P.t, |f c k - feValue P.nb (P.dofs c) d (fun i => P.psi i (node ℝ P.t k))| ≤ E) :
    |P.load f v - P.l2 d v| ≤ E * (Real.sqrt (∑ c ∈ Finset.range P.n, P.measure c) * P.nrm v) := by
  set s := Finset.range P.n ×ˢ Finset.range (size P.t) with hs
  set μ : Nat × Nat → ℝ := fun e => P.measure e.1 * weight ℝ P.t e.2 with hμ
  set φ : Nat × Nat → ℝ := fun e => feValue P.nb (P.dofs e.1) v (fun i => P.psi i (node ℝ P.t e.2)) with hφ
  set r : Nat × Nat → ℝ := fun e => f e.1 e.2 - feValue P.nb (P.dofs e.1) d (fun i => P.psi i (node ℝ P.t e.2)) with hr
  have hμ0 : ∀ e ∈ s, 0 ≤ μ e := fun e he => by
    obtain ⟨a, b⟩ := Finset.mem_product.1 he
    exact mul_nonneg (measure_pos h (Finset.mem_range.1 a)).le (weight_pos h (Finset.mem_range.1 b)).le
  have e1 : P.load f v - P.l2 d v = ∑ e ∈ s, μ e * (r e * φ e) := by
    rw [hs, Finset.sum_product, Prob.load, Prob.l2, ← Finset.sum_sub_distrib]
    refine Finset.sum_congr rfl fun c _ => ?_
    rw [← mul_sub, ← Finset.sum_sub_distrib, Finset.mul_sum]
    exact Finset.sum_congr rfl fun k _ => by simp only [hμ, hr, hφ]; ring
  have e2 : P.l2 v v = ∑ e ∈ s, μ e * φ e ^ 2 := by
    rw [hs, Finset.sum_product, Prob.l2]
    refine Finset.sum_congr rfl fun c _ => ?_
    rw [Finset.mul_sum]
    exact Finset.sum_congr rfl fun k _ => by simp only [hμ, hφ]; ring
  have e3 : ∑ e ∈ s, μ e ≤ ∑ c ∈ Finset.range P.n, P.measure c := by
    rw [hs, Finset.sum_product]
    refine Finset.sum_le_sum fun c hc => ?_
    simp only [hμ]
    rw [← Finset.mul_sum]
    exact mul_le_of_le_one_right (measure_pos h (Finset.mem_range.1 hc)).le (weights_le h)
  rw [e1]
  have h1 : |∑ e ∈ s, μ e * (r e * φ e)| ≤ E * ∑ e ∈ s, Real.sqrt (μ e) * (Real.sqrt (μ e) * |φ e|) := by
    rw [Finset.mul_sum]
    refine (Finset.abs_sum_le_sum_abs _ _).trans (Finset.sum_le_sum fun e he => ?_)
    obtain ⟨a, b⟩ := Finset.mem_product.1 he
    rw [abs_mul (μ e), abs_mul (r e), abs_of_nonneg (hμ0 e he), ← mul_assoc (Real.sqrt _), Real.mul_self_sqrt (hμ0 e he)]
    have := mul_le_mul_of_nonneg_right (hd e.1 (Finset.mem_range.1 a) e.2 (Finset.mem_range.1 b)) (mul_nonneg (hμ0 e he) (abs_nonneg (φ e)))
    calc _ = |r e| * (μ e * |φ e|) := by ring
      _ ≤ _ := this
  refine h1.trans (mul_le_mul_of_nonneg_left ?_ hE)
  have h2 : ∑ e ∈ s, Real.sqrt (μ e) * (Real.sqrt (μ e) * |φ e|) ≤ Real.sqrt ((∑ e ∈ s, μ e) * P.l2 v v) := by
    refine Real.le_sqrt_of_sq_le ((Finset.sum_mul_sq_le_sq_mul_sq _ _ _).trans (le_of_eq ?_))
    rw [e2]
    congr 1
    · exact Finset.sum_congr rfl fun e he => Real.sq_sqrt (hμ0 e he)
    · exact Finset.sum_congr rfl fun e he => by rw [mul_pow, Real.sq_sqrt (hμ0 e he), sq_abs]
  refine h2.trans ?_
  rw [Prob.nrm, ← Real.sqrt_mul (Finset.sum_nonneg fun c hc => (measure_pos h (Finset.mem_range.1 hc)).le)]
  refine Real.sqrt_le_sqrt (mul_le_mul_of_nonneg_right e3 ?_)
  exact l2_nonneg P (fun c hc => measure_pos h hc) (fun k hk => weight_pos h hk) v

/-! ### Recursion of the errors -/

theorem recursion {a a' p r D E s : ℝ} (ha : a ≤ p + r) (hp : 0 ≤ p) (hr : 0 ≤ r) (hD : 0 ≤ D) (hE : 0 ≤ E) (hs : 0 ≤ s)
    (h : a' * a' ≤ a * a' + D * E * a' + D * s) : a' ≤ p + D * E + Real.sqrt (r ^ 2 + 2 * D * s) := by
  set r' := Real.sqrt (r ^ 2 + 2 * D * s) with hr'
  have h0 : 0 ≤ r ^ 2 + 2 * D * s := by positivity
  have h1 : r' * r' = r ^ 2 + 2 * D * s := Real.mul_self_sqrt h0
  have h2 : 0 ≤ r' := Real.sqrt_nonneg _
  have h3 : r ≤ r' := Real.le_sqrt_of_sq_le (by nlinarith [mul_nonneg hD hs])
  have hDE := mul_nonneg hD hE
  by_contra hcon
  push Not at hcon
  have h4 : 0 < a' - (p + D * E + r') := by linarith
  have h5 : r' - r < a' - a - D * E := by linarith
  have h6 : r' ≤ a' := by linarith
  have h7 : r' * (r' - r) ≤ a' * (a' - a - D * E) := mul_le_mul h6 h5.le (by linarith) (by linarith)
  have h8 : a' * (a' - a - D * E) ≤ D * s := by linarith
  by_cases hz : 0 < r'
  · have h9 : r' * (r' - r) < r' * (a' - a - D * E) := mul_lt_mul_of_pos_left h5 hz
    have h10 : r' * (a' - a - D * E) ≤ a' * (a' - a - D * E) := mul_le_mul_of_nonneg_right h6 (by linarith)
    nlinarith [sq_nonneg (r' - r)]
  · have hz' : r' = 0 := le_antisymm (not_lt.1 hz) h2
    have : 0 < a' * (a' - a - D * E) := mul_pos (by linarith) (by linarith)
    rw [hz'] at h1
    nlinarith

/-- Errors of the steps, in the norm given by the quadrature. -/
theorem heat_steps (h : P.OnNodes X I) (hP : P.Ok) (hop : Diffusive P.N P.op fun _ z y => if z = y then 1 else 0) {hh ρ M : ℝ} (hs : P.Shape X hh ρ)
    (hρ : 0 < ρ) (hM : 0 ≤ M) (hh0 : 0 ≤ hh) (m : Nat) (u : Nat → (Fin P.N → ℝ) → ℝ) (q : Nat → (Fin P.N → ℝ) → Fin P.N → ℝ)
    (hu : ∀ i < m, P.Smooth X (u i) (q i) M) (fl ft : Nat → Nat → Nat → ℝ) (δ E dt : ℝ) (hδ : 0 ≤ δ) (hE : 0 ≤ E) (hdt : 0 < dt)
    (hcs : ∀ i < m, P.Consistent X (fl i) (q i) δ)
    (hcl : ∀ i, i + 1 < m → ∀ c < P.n, ∀ k < size P.t, |ft (i + 1) c k - feValue P.nb (P.dofs c)
      (fun p => (u (i + 1) (fun z => X p z) - u i fun z => X p z) / dt) (fun j => P.psi j (node ℝ P.t k))| ≤ E)
    (sol : Nat → Nat → ℝ) (h0 : ∀ p, sol 0 p = u 0 fun z => X p z)
    (hbd : ∀ i, i + 1 < m → ∀ p < P.m, P.bd p = true → sol (i + 1) p = u (i + 1) fun z => X p z)
    (hst : ∀ i, i + 1 < m → ∀ v, P.Test v → P.l2 (fun p => (sol (i + 1) p - sol i p) / dt) v + P.bilin (sol (i + 1)) v =
      P.load (fun c k => ft (i + 1) c k + fl (i + 1) c k) v) :
    ∀ i < m, P.nrm (fun p => sol i p - u i fun z => X p z) ≤ i * dt * (E * Real.sqrt (∑ c ∈ Finset.range P.n, P.measure c)) +
      Real.sqrt (2 * (i * dt) * ((δ + (P.N + 1) * M * hh ^ 2 / (2 * ρ) * Real.sqrt (∑ c ∈ Finset.range P.n, P.measure c)) ^ 2 / 4)) := by
  have hme : ∀ c < P.n, 0 < P.measure c := fun c hc => measure_pos h hc
  have hw : ∀ k < size P.t, 0 < weight ℝ P.t k := fun k hk => weight_pos h hk
  set V := Real.sqrt (∑ c ∈ Finset.range P.n, P.measure c) with hV
  have hV0 : 0 ≤ V := Real.sqrt_nonneg _
  set Q := δ + (P.N + 1) * M * hh ^ 2 / (2 * ρ) * V with hQ
  have hQ0 : 0 ≤ Q := by positivity
  intro i
  induction i with
  | zero =>
    intro _
    have : (fun p => sol 0 p - u 0 fun z => X p z) = fun p => 0 * (0 : Nat → ℝ) p + 0 * (0 : Nat → ℝ) p := by
      funext p; simp [h0]
    rw [this, Prob.nrm, l2_left P hP]
    simp
  | succ i ih =>
    intro hi
    have ih := ih (by omega)
    set e : Nat → ℝ := fun p => sol (i + 1) p - u (i + 1) fun z => X p z with he
    set e' : Nat → ℝ := fun p => sol i p - u i fun z => X p z with he'
    set U : Nat → ℝ := fun p => u (i + 1) fun z => X p z with hU
    set d : Nat → ℝ := fun p => (u (i + 1) (fun z => X p z) - u i fun z => X p z) / dt with hd
    have hTest : P.Test e := fun p hp hb => by
      rw [he]; simp only; rw [hbd i hi p hp hb, sub_self]
    have hG := slope_exists h e
    set G : Nat → Fin P.N → ℝ := fun c z => ∑ i ∈ Finset.range P.nb, e (P.dofs c i) * locGrad P.N I c i z with hGd
    set σ := ∑ k ∈ Finset.range (size P.t), weight ℝ P.t k with hσ
    have hσ0 : 0 < σ := weights_pos h
    have hσ1 : σ ≤ 1 := weights_le h
    set N := P.energySq X G with hN
    have hN0 : 0 ≤ N := energySq_nonneg h G
    have q1 := hst i hi e hTest
    have q2 : P.bilin e e = σ * N := by
      rw [bilin_slope h hop hG hG, hN, energySq_eq h]
      simp only [pow_two]
      rfl
    have q3 : P.bilin e e = P.bilin (sol (i + 1)) e - P.bilin U e := by
      have := bilin_left P hP (-1) (sol (i + 1)) U e
      rw [show (fun p => sol (i + 1) p + -1 * U p) = e by funext p; rw [he, hU]; ring] at this
      rw [this]; ring
    have q4 : P.l2 (fun p => (sol (i + 1) p - sol i p) / dt) e - P.l2 d e = dt⁻¹ * (P.l2 e e - P.l2 e' e) := by
      have a1 : (fun p => (sol (i + 1) p - sol i p) / dt) = fun p => dt⁻¹ * (fun p => 1 * e p + -1 * e' p) p + 1 * d p := by
        funext p
        simp only [he, he', hd]
        field_simp
        ring
      rw [a1, l2_left P hP, l2_left P hP]
      ring
    have q5 : P.load (fun c k => ft (i + 1) c k + fl (i + 1) c k) e = P.load (ft (i + 1)) e + P.load (fl (i + 1)) e := by
      simp only [Prob.load, add_mul, mul_add, Finset.sum_add_distrib]
    have q6 := (le_abs_self _).trans (load_close h (ft (i + 1)) d e hE (hcl i hi))
    have q7 := (le_abs_self _).trans (residual h hop hs hρ (hu (i + 1) hi) hM hh0 (fl (i + 1)) δ (hcs (i + 1) hi) hTest hG)
    rw [← hV, ← hQ, ← hσ, ← hN] at q7
    rw [← hV] at q6
    have q8 : σ * (Q * Real.sqrt N) - σ * N ≤ Q ^ 2 / 4 := by
      have : Q * Real.sqrt N - N ≤ Q ^ 2 / 4 := by
        nlinarith [sq_nonneg (Real.sqrt N - Q / 2), Real.mul_self_sqrt hN0]
      have h1 := mul_le_mul_of_nonneg_left this hσ0.le
      have h2 : σ * (Q ^ 2 / 4) ≤ Q ^ 2 / 4 := mul_le_of_le_one_left (by positivity) hσ1
      linarith
    have q9 : dt⁻¹ * (P.l2 e e - P.l2 e' e) ≤ E * (V * P.nrm e) + Q ^ 2 / 4 := by linarith
    have q10 := mul_le_mul_of_nonneg_left q9 hdt.le
    rw [← mul_assoc, mul_inv_cancel₀ hdt.ne', one_mul] at q10
    have c1 := (le_abs_self _).trans (l2_cauchy P hP hme hw e' e)
    have q11 : P.nrm e * P.nrm e = P.l2 e e := Real.mul_self_sqrt (l2_nonneg P hme hw e)
    have hi0 : 0 ≤ (i : ℝ) * dt := by positivity
    have q12 := recursion (a := P.nrm e') (a' := P.nrm e) (D := dt) (E := E * V) (s := Q ^ 2 / 4) ih (by positivity) (Real.sqrt_nonneg _) hdt.le
      (by positivity) (by positivity) (by linarith)
    rw [Real.sq_sqrt (by positivity)] at q12
    refine q12.trans (le_of_eq ?_)
    push_cast
    congr 1
    · ring
    · congr 1; ring

end Fdapde.PDE
