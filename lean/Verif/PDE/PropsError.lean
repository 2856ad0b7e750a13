import Verif.PDE.ErrorSpec
import Verif.PDE.PropsMaximum
import Verif.Geometry.PropsMeasure
import Mathlib.Analysis.Calculus.MeanValue
set_option linter.unusedSectionVars false
/-!
# C112: error of first-order elements
-/
namespace Fdapde.PDE
open Fdapde.Quadrature MeasureTheory Matrix
variable {P : Prob ℝ} {X : Nat → Nat → ℝ} {I : Nat → Nat → Nat → ℝ}

theorem cell_compact (c : Nat) : IsCompact (P.cell X c) := (Set.finite_range _).isCompact_convexHull (𝕜 := ℝ)

theorem cell_node (h : P.OnNodes X I) {c i : Nat} (hi : i < P.nb) : (fun z : Fin P.N => X (P.dofs c i) z) ∈ P.cell X c :=
  subset_convexHull ℝ _ ⟨⟨i, nb_eq h ▸ hi⟩, rfl⟩

theorem cell_measure (h : P.OnNodes X I) {c : Nat} (hc : c < P.n) : (volume (P.cell X c)).toReal = P.measure c := by
  rw [h.measure c hc]
  exact (Geometry.C108_measure (N := P.N) ⟨fun j z => X (P.dofs c j) z⟩).symm

theorem cell_const (h : P.OnNodes X I) {c : Nat} (hc : c < P.n) (a : ℝ) : ∫ _ in P.cell X c, a = P.measure c * a := by
  rw [setIntegral_const, smul_eq_mul, ← cell_measure h hc]
  rfl

/-- Extension of a vector by zero. -/
def ext (N : Nat) (a : Fin N → ℝ) (z : Nat) : ℝ := if h : z < N then a ⟨z, h⟩ else 0

theorem dot_ext {N : Nat} (a : Fin N → ℝ) (b : Nat → ℝ) : dot N (ext N a) b = ∑ z, a z * b z := by
  rw [dot, Finset.sum_range]
  exact Finset.sum_congr rfl fun z _ => by rw [ext, dif_pos z.2]

theorem affine_grad' (h : P.OnNodes X I) {c : Nat} (hc : c < P.n) (a : Fin P.N → ℝ) (b : ℝ) (z : Fin P.N) :
    ∑ i ∈ Finset.range P.nb, ((∑ y, a y * X (P.dofs c i) y) + b) * locGrad P.N I c i z = a z := by
  have := affine_grad h hc (ext P.N a) b z.2
  simp only [dot_ext] at this
  rw [this, ext, dif_pos z.2]

/-- The gradient of a discrete function in terms of its values. -/
theorem slope_grad (h : P.OnNodes X I) {w : Nat → ℝ} {G : Nat → Fin P.N → ℝ} (hw : P.Slope X w G) {c : Nat} (hc : c < P.n) (z : Fin P.N) :
    ∑ i ∈ Finset.range P.nb, w (P.dofs c i) * locGrad P.N I c i z = G c z := by
  obtain ⟨b, hb⟩ := hw c hc
  rw [← affine_grad' h hc (G c) b z]
  exact Finset.sum_congr rfl fun i hi => by rw [hb i (Finset.mem_range.1 hi)]

theorem slope_exists (h : P.OnNodes X I) (w : Nat → ℝ) :
    P.Slope X w fun c z => ∑ i ∈ Finset.range P.nb, w (P.dofs c i) * locGrad P.N I c i z := by
  intro c hc
  refine ⟨w (P.dofs c 0) - ∑ z : Fin P.N, (∑ i ∈ Finset.range P.nb, w (P.dofs c i) * locGrad P.N I c i z) * X (P.dofs c 0) z, fun j hj => ?_⟩
  have hn := nb_eq h
  have key : ∑ z : Fin P.N, (∑ i ∈ Finset.range P.nb, w (P.dofs c i) * locGrad P.N I c i z) * (X (P.dofs c j) z - X (P.dofs c 0) z) =
      w (P.dofs c j) - w (P.dofs c 0) := by
    simp only [Finset.sum_mul]
    rw [Finset.sum_comm, hn, Finset.sum_range]
    have e : ∀ i : Fin (P.N + 1), ∑ z : Fin P.N, w (P.dofs c i) * locGrad P.N I c i z * (X (P.dofs c j) z - X (P.dofs c 0) z) =
        w (P.dofs c i) * ((if i = ⟨j, hn ▸ hj⟩ then 1 else 0) - if i = 0 then 1 else 0) := by
      intro i
      rw [← dual h hc i ⟨j, hn ▸ hj⟩]
      simp only [dotProduct, Finset.mul_sum, mul_assoc]
      rfl
    rw [Finset.sum_congr rfl fun i _ => e i]
    simp [mul_sub, Finset.sum_sub_distrib]
  simp only [mul_sub, Finset.sum_sub_distrib] at key
  linarith

/-- The sum of the weights is positive. -/
theorem weights_pos (h : P.OnNodes X I) : 0 < ∑ k ∈ Finset.range (size P.t), weight ℝ P.t k := by
  refine Finset.sum_pos (fun k hk => weight_pos h (Finset.mem_range.1 hk)) ⟨0, Finset.mem_range.2 ?_⟩
  have hs : ∀ e ∈ [(1, 1, 2), (2, 1, 3), (3, 1, 4)], 0 < ruleSize e.1 e.2.1 := by decide +kernel
  rw [(FEM.rule_node (K := ℝ) h.lagrange.supported h.lagrange.rule).1]
  exact hs _ (first_mem h.lagrange.supported).1

/-- The form of the Laplacian on discrete functions. -/
theorem bilin_slope (h : P.OnNodes X I) (hop : Diffusive P.N P.op fun _ z y => if z = y then 1 else 0) {u v : Nat → ℝ}
    {U V : Nat → Fin P.N → ℝ} (hu : P.Slope X u U) (hv : P.Slope X v V) :
    P.bilin u v = (∑ k ∈ Finset.range (size P.t), weight ℝ P.t k) * ∑ c ∈ Finset.range P.n, P.measure c * ∑ z, U c z * V c z := by
  rw [Prob.bilin, Finset.mul_sum]
  refine Finset.sum_congr rfl fun c hc => ?_
  have hc' := Finset.mem_range.1 hc
  have e : ∀ k ∈ Finset.range (size P.t), weight ℝ P.t k * form P.N P.op (size P.t * c + k)
      (feValue P.nb (P.dofs c) u fun i => P.psi i (node ℝ P.t k)) (feValue P.nb (P.dofs c) v fun i => P.psi i (node ℝ P.t k))
      (feGrad P.nb (P.dofs c) u fun i => P.grad c i (node ℝ P.t k)) (feGrad P.nb (P.dofs c) v fun i => P.grad c i (node ℝ P.t k)) =
      weight ℝ P.t k * ∑ z, U c z * V c z := by
    intro k hk
    have hk' := Finset.mem_range.1 hk
    rw [hop, dot, Finset.sum_range]
    congr 1
    refine Finset.sum_congr rfl fun z _ => ?_
    have e1 : ∀ (w : Nat → ℝ) (W : Nat → Fin P.N → ℝ), P.Slope X w W →
        feGrad P.nb (P.dofs c) w (fun i => P.grad c i (node ℝ P.t k)) z = W c z := by
      intro w W hW
      rw [← slope_grad h hW hc' z, feGrad]
      exact Finset.sum_congr rfl fun i hi => by rw [grad_node h hc' hk' (Finset.mem_range.1 hi)]
    rw [e1 v V hv, dot, Finset.sum_congr rfl fun y _ => by rw [ite_mul, one_mul, zero_mul], Finset.sum_ite_eq,
      if_pos (Finset.mem_range.2 z.2), e1 u U hu]
  rw [Finset.sum_congr rfl e, ← Finset.sum_mul]
  ring

section
variable {q : (Fin P.N → ℝ) → Fin P.N → ℝ}

theorem int_comp {c : Nat} (hq : ContinuousOn q (P.cell X c)) (z : Fin P.N) : IntegrableOn (fun x => q x z) (P.cell X c) :=
  ((continuousOn_pi.1 hq) z).integrableOn_compact (cell_compact c)

theorem int_sq {c : Nat} (hq : ContinuousOn q (P.cell X c)) (z : Fin P.N) : IntegrableOn (fun x => q x z ^ 2) (P.cell X c) :=
  (((continuousOn_pi.1 hq) z).pow 2).integrableOn_compact (cell_compact c)

theorem int_const (c : Nat) (a : ℝ) : IntegrableOn (fun _ => a) (P.cell X c) :=
  continuousOn_const.integrableOn_compact (cell_compact c)

theorem cell_error (h : P.OnNodes X I) {c : Nat} (hc : c < P.n) (hq : ContinuousOn q (P.cell X c)) (G : Fin P.N → ℝ) :
    ∫ x in P.cell X c, ∑ z, (q x z - G z) ^ 2 =
      (∑ z, ∫ x in P.cell X c, q x z ^ 2) - 2 * (∑ z, G z * ∫ x in P.cell X c, q x z) + P.measure c * ∑ z, G z ^ 2 := by
  have e : ∀ x, ∑ z, (q x z - G z) ^ 2 = (∑ z, (q x z ^ 2 - 2 * G z * q x z)) + ∑ z, G z ^ 2 := by
    intro x
    rw [← Finset.sum_add_distrib]
    exact Finset.sum_congr rfl fun z _ => by ring
  have i1 : ∀ z : Fin P.N, IntegrableOn (fun x => q x z ^ 2 - 2 * G z * q x z) (P.cell X c) :=
    fun z => (int_sq hq z).sub ((int_comp hq z).const_mul _)
  simp only [e]
  rw [integral_add (integrable_finsetSum _ fun z _ => i1 z) (int_const c _), cell_const h hc,
    integral_finsetSum _ fun z _ => i1 z]
  congr 1
  rw [Finset.mul_sum, ← Finset.sum_sub_distrib]
  refine Finset.sum_congr rfl fun z _ => ?_
  rw [integral_sub (int_sq hq z) ((int_comp hq z).const_mul _), integral_const_mul]
  ring

theorem cell_pair {c : Nat} (hq : ContinuousOn q (P.cell X c)) (G : Fin P.N → ℝ) :
    ∫ x in P.cell X c, ∑ z, q x z * G z = ∑ z, G z * ∫ x in P.cell X c, q x z := by
  rw [integral_finsetSum _ fun z _ => (int_comp hq z).mul_const _]
  exact Finset.sum_congr rfl fun z _ => by rw [integral_mul_const, mul_comm]

theorem energySq_eq (h : P.OnNodes X I) (G : Nat → Fin P.N → ℝ) :
    P.energySq X G = ∑ c ∈ Finset.range P.n, P.measure c * ∑ z, G c z ^ 2 :=
  Finset.sum_congr rfl fun c hc => by rw [cell_const h (Finset.mem_range.1 hc)]

theorem energySq_nonneg (h : P.OnNodes X I) (G : Nat → Fin P.N → ℝ) : 0 ≤ P.energySq X G := by
  rw [energySq_eq h]
  exact Finset.sum_nonneg fun c hc => mul_nonneg (measure_pos h (Finset.mem_range.1 hc)).le (Finset.sum_nonneg fun z _ => sq_nonneg _)

/-- C112: the discrete solution of the Laplace equation is the best of the discrete functions with its values on the boundary, in the
norm of the energy of the error, up to the error of the quadrature. -/
theorem C112_best (h : P.OnNodes X I) (hop : Diffusive P.N P.op fun _ z y => if z = y then 1 else 0)
    (hq : ∀ c < P.n, ContinuousOn q (P.cell X c)) (f : Nat → Nat → ℝ) (δ : ℝ) (hf : P.Consistent X f q δ)
    (g w : Nat → ℝ) (hw : P.Galerkin f g w) (W : Nat → Fin P.N → ℝ) (hW : P.Slope X w W)
    (y : Nat → ℝ) (hy : ∀ p < P.m, P.bd p = true → y p = g p) (Y : Nat → Fin P.N → ℝ) (hY : P.Slope X y Y) :
    P.errorSq X q W ≤ P.errorSq X q Y + δ ^ 2 := by
  have hT : P.Test fun p => w p - y p := fun p hp hb => by simp only [hw.1 p hp hb, hy p hp hb, sub_self]
  have hE : P.Slope X (fun p => w p - y p) fun c z => W c z - Y c z := by
    intro c hc
    obtain ⟨b, hb⟩ := hW c hc
    obtain ⟨b', hb'⟩ := hY c hc
    refine ⟨b - b', fun i hi => ?_⟩
    simp only [hb i hi, hb' i hi, sub_mul, Finset.sum_sub_distrib]
    ring
  have h1 := hw.2 _ hT
  rw [bilin_slope h hop hW hE] at h1
  have h3 := hf _ _ hT hE
  have hσ := weights_pos h
  rw [← h1, mul_div_cancel_left₀ _ hσ.ne', Finset.sum_congr rfl fun c hc => cell_pair (hq c (Finset.mem_range.1 hc)) _] at h3
  have hs := Real.sq_sqrt (energySq_nonneg h fun c z => W c z - Y c z)
  have h4 : P.errorSq X q W = P.errorSq X q Y
      + 2 * ((∑ c ∈ Finset.range P.n, P.measure c * ∑ z, W c z * (W c z - Y c z)) -
          ∑ c ∈ Finset.range P.n, ∑ z, (W c z - Y c z) * ∫ x in P.cell X c, q x z)
      - P.energySq X fun c z => W c z - Y c z := by
    rw [energySq_eq h, Prob.errorSq, Prob.errorSq, ← Finset.sum_sub_distrib, Finset.mul_sum, ← Finset.sum_add_distrib, ← Finset.sum_sub_distrib]
    refine Finset.sum_congr rfl fun c hc => ?_
    have hc' := Finset.mem_range.1 hc
    rw [cell_error h hc' (hq c hc'), cell_error h hc' (hq c hc')]
    have e1 : ∑ z, W c z ^ 2 = (∑ z, Y c z ^ 2) + 2 * (∑ z, W c z * (W c z - Y c z)) - ∑ z, (W c z - Y c z) ^ 2 := by
      rw [Finset.mul_sum, ← Finset.sum_add_distrib, ← Finset.sum_sub_distrib]
      exact Finset.sum_congr rfl fun z _ => by ring
    have e2 : ∑ z, (W c z - Y c z) * ∫ x in P.cell X c, q x z =
        (∑ z, W c z * ∫ x in P.cell X c, q x z) - ∑ z, Y c z * ∫ x in P.cell X c, q x z := by
      rw [← Finset.sum_sub_distrib]
      exact Finset.sum_congr rfl fun z _ => by ring
    rw [e1, e2]
    ring
  have h5 := (abs_le.1 h3).2
  nlinarith [sq_nonneg (Real.sqrt (P.energySq X fun c z => W c z - Y c z) - δ)]

end

/-- Points of a cell are not farther from its nodes than the longest edge. -/
theorem cell_dist (h : P.OnNodes X I) {hh ρ : ℝ} (hs : P.Shape X hh ρ) {c i : Nat} (hc : c < P.n) (hi : i < P.nb) {x : Fin P.N → ℝ}
    (hx : x ∈ P.cell X c) : ∑ z : Fin P.N, (X (P.dofs c i) z - x z) ^ 2 ≤ hh ^ 2 := by
  have hsub : P.cell X c ⊆ {x | ∑ z : Fin P.N, (X (P.dofs c i) z - x z) ^ 2 ≤ hh ^ 2} := by
    refine convexHull_min ?_ ?_
    · rintro _ ⟨j, rfl⟩
      exact hs.diam c hc i hi j (by rw [nb_eq h]; exact j.2)
    · intro u hu v hv a b ha hb hab
      simp only [Set.mem_ofPred_eq] at hu hv ⊢
      have e : ∑ z : Fin P.N, (X (P.dofs c i) z - (a • u + b • v) z) ^ 2 ≤
          a * ∑ z : Fin P.N, (X (P.dofs c i) z - u z) ^ 2 + b * ∑ z : Fin P.N, (X (P.dofs c i) z - v z) ^ 2 := by
        rw [Finset.mul_sum, Finset.mul_sum, ← Finset.sum_add_distrib]
        refine Finset.sum_le_sum fun z _ => ?_
        have hb' : b = 1 - a := by linarith
        simp only [Pi.add_apply, Pi.smul_apply, smul_eq_mul]
        subst hb'
        nlinarith [mul_nonneg (mul_nonneg ha hb) (sq_nonneg (u z - v z))]
      calc _ ≤ _ := e
        _ ≤ a * hh ^ 2 + b * hh ^ 2 := add_le_add (mul_le_mul_of_nonneg_left hu ha) (mul_le_mul_of_nonneg_left hv hb)
        _ = hh ^ 2 := by rw [← add_mul, hab, one_mul]
  exact hsub hx

/-- Heights bound the gradients of the local functions. -/
theorem grad_height (h : P.OnNodes X I) {hh ρ : ℝ} (hs : P.Shape X hh ρ) (hρ : 0 < ρ) {c i : Nat} (hc : c < P.n) (hi : i < P.nb) :
    ∑ z : Fin P.N, locGrad P.N I c i z ^ 2 ≤ 1 / ρ ^ 2 := by
  set s := ∑ z : Fin P.N, locGrad P.N I c i z ^ 2 with hsdef
  have hs0 : 0 ≤ s := Finset.sum_nonneg fun z _ => sq_nonneg _
  rcases hs0.eq_or_lt with h0 | hpos
  · rw [← h0]; positivity
  set μ : Nat → ℝ := fun j => (if j = i then 1 else 0) - (∑ z : Fin P.N, locGrad P.N I c j z * locGrad P.N I c i z) / s with hμ
  have hsum : ∑ j ∈ Finset.range P.nb, μ j = 1 := by
    simp only [hμ, Finset.sum_sub_distrib]
    rw [Finset.sum_ite_eq', if_pos (Finset.mem_range.2 hi), ← Finset.sum_div, Finset.sum_comm]
    have : ∑ y : Fin P.N, ∑ j ∈ Finset.range P.nb, locGrad P.N I c j y * locGrad P.N I c i y = 0 :=
      Finset.sum_eq_zero fun y _ => by rw [← Finset.sum_mul, grads_sum c y h, zero_mul]
    rw [this, zero_div, sub_zero]
  have hzero : μ i = 0 := by
    simp only [hμ, if_true]
    have : ∑ z : Fin P.N, locGrad P.N I c i z * locGrad P.N I c i z = s := Finset.sum_congr rfl fun z _ => (sq _).symm
    rw [this, div_self hpos.ne', sub_self]
  have hpt : ∀ z : Fin P.N, ∑ j ∈ Finset.range P.nb, μ j * X (P.dofs c j) z = X (P.dofs c i) z - locGrad P.N I c i z / s := by
    intro z
    have e0 : ∀ y : Fin P.N, ∑ j ∈ Finset.range P.nb, X (P.dofs c j) z * locGrad P.N I c j y = if z = y then 1 else 0 := by
      intro y
      have := affine_grad' h hc (fun y => if y = z then 1 else 0) 0 y
      simp only [ite_mul, one_mul, zero_mul, Finset.sum_ite_eq', Finset.mem_univ, if_true, add_zero] at this
      rw [this]
      exact if_congr eq_comm rfl rfl
    have e1 : ∑ j ∈ Finset.range P.nb, (∑ y : Fin P.N, locGrad P.N I c j y * locGrad P.N I c i y) / s * X (P.dofs c j) z =
        locGrad P.N I c i z / s := by
      have : ∀ j ∈ Finset.range P.nb, (∑ y : Fin P.N, locGrad P.N I c j y * locGrad P.N I c i y) / s * X (P.dofs c j) z =
          (∑ y : Fin P.N, locGrad P.N I c i y * (X (P.dofs c j) z * locGrad P.N I c j y)) / s := by
        intro j _
        rw [div_mul_eq_mul_div, Finset.sum_mul]
        congr 1
        exact Finset.sum_congr rfl fun y _ => by ring
      rw [Finset.sum_congr rfl this, ← Finset.sum_div, Finset.sum_comm]
      congr 1
      rw [Finset.sum_congr rfl fun y _ => by rw [← Finset.mul_sum, e0 y]]
      simp
    simp only [hμ, sub_mul, Finset.sum_sub_distrib, ite_mul, one_mul, zero_mul]
    rw [e1, Finset.sum_ite_eq', if_pos (Finset.mem_range.2 hi)]
  have hh1 := hs.height c hc i hi μ hsum hzero
  have e2 : ∑ z : Fin P.N, (X (P.dofs c i) z - ∑ j ∈ Finset.range P.nb, μ j * X (P.dofs c j) z) ^ 2 = 1 / s := by
    rw [Finset.sum_congr rfl fun z _ => by rw [hpt z, sub_sub_cancel, div_pow], ← Finset.sum_div, ← hsdef]
    field_simp
  rw [e2] at hh1
  rw [le_div_iff₀ (by positivity)]
  rw [le_div_iff₀ hpos] at hh1
  linarith

/-- C112: the gradient of the interpolant at the nodes differs from the gradient of the function by a multiple of h²/ρ. -/
theorem C112_interpolation (h : P.OnNodes X I) {hh ρ M : ℝ} (hs : P.Shape X hh ρ) (hρ : 0 < ρ) {u : (Fin P.N → ℝ) → ℝ}
    {q : (Fin P.N → ℝ) → Fin P.N → ℝ} (hu : P.Smooth X u q M) (hM : 0 ≤ M) (Y : Nat → Fin P.N → ℝ)
    (hY : P.Slope X (fun p => u fun z => X p z) Y) {c : Nat} (hc : c < P.n) {x : Fin P.N → ℝ} (hx : x ∈ P.cell X c) :
    ∑ z, (q x z - Y c z) ^ 2 ≤ ((P.N + 1) * M * hh ^ 2 / (2 * ρ)) ^ 2 := by
  set R : Nat → ℝ := fun i => (u fun z => X (P.dofs c i) z) - u x - ∑ z, q x z * (X (P.dofs c i) z - x z) with hR
  have hRi : ∀ i ∈ Finset.range P.nb, R i ^ 2 ≤ (M / 2 * hh ^ 2) ^ 2 := by
    intro i hi
    have hi' := Finset.mem_range.1 hi
    refine sq_le_sq' ?_ ?_ <;>
    have h1 := hu.taylor c hc x hx _ (cell_node (c := c) h hi') <;>
    have h2 := mul_le_mul_of_nonneg_left (cell_dist h hs hc hi' hx) (div_nonneg hM two_pos.le) <;>
    have h3 := abs_le.1 (h1.trans h2)
    · exact h3.1
    · exact h3.2
  have hz : ∀ z, (q x z - Y c z) ^ 2 ≤ (∑ i ∈ Finset.range P.nb, R i ^ 2) * ∑ i ∈ Finset.range P.nb, locGrad P.N I c i z ^ 2 := by
    intro z
    refine le_trans (le_of_eq ?_) (Finset.sum_mul_sq_le_sq_mul_sq _ _ _)
    rw [← neg_sq]
    congr 1
    have e1 := slope_grad h hY hc z
    have e2 := affine_grad' h hc (q x) (u x - ∑ y, q x y * x y) z
    rw [neg_sub, ← e1, ← e2, ← Finset.sum_sub_distrib]
    refine Finset.sum_congr rfl fun i _ => ?_
    simp only [hR, mul_sub, Finset.sum_sub_distrib]
    ring
  have hn : ((Finset.range P.nb).card : ℝ) = P.N + 1 := by rw [Finset.card_range, nb_eq h]; push_cast; rfl
  have b1 : ∑ i ∈ Finset.range P.nb, R i ^ 2 ≤ (P.N + 1) * (M / 2 * hh ^ 2) ^ 2 := by
    refine (Finset.sum_le_card_nsmul _ _ _ hRi).trans (le_of_eq ?_)
    rw [nsmul_eq_mul, hn]
  have b2 : ∑ z : Fin P.N, ∑ i ∈ Finset.range P.nb, locGrad P.N I c i z ^ 2 ≤ (P.N + 1) * (1 / ρ ^ 2) := by
    rw [Finset.sum_comm]
    refine (Finset.sum_le_card_nsmul _ _ _ fun i hi => grad_height h hs hρ hc (Finset.mem_range.1 hi)).trans (le_of_eq ?_)
    rw [nsmul_eq_mul, hn]
  calc ∑ z, (q x z - Y c z) ^ 2 ≤ ∑ z : Fin P.N, (∑ i ∈ Finset.range P.nb, R i ^ 2) * ∑ i ∈ Finset.range P.nb, locGrad P.N I c i z ^ 2 :=
        Finset.sum_le_sum fun z _ => hz z
    _ = (∑ i ∈ Finset.range P.nb, R i ^ 2) * ∑ z : Fin P.N, ∑ i ∈ Finset.range P.nb, locGrad P.N I c i z ^ 2 := by rw [Finset.mul_sum]
    _ ≤ ((P.N + 1) * (M / 2 * hh ^ 2) ^ 2) * ((P.N + 1) * (1 / ρ ^ 2)) :=
        mul_le_mul b1 b2 (Finset.sum_nonneg fun z _ => Finset.sum_nonneg fun i _ => sq_nonneg _) (by positivity)
    _ = _ := by field_simp

/-- C112: order of convergence. On cells with edges up to `h` and heights from `ρ`, the error of the discrete solution in the norm of the
energy is at most (N+1) M h² / (2 ρ) times the root of the measure of the domain, up to the error of the quadrature. -/
theorem C112_order (h : P.OnNodes X I) (hop : Diffusive P.N P.op fun _ z y => if z = y then 1 else 0) {hh ρ M : ℝ} (hs : P.Shape X hh ρ)
    (hρ : 0 < ρ) {u : (Fin P.N → ℝ) → ℝ} {q : (Fin P.N → ℝ) → Fin P.N → ℝ} (hu : P.Smooth X u q M) (hM : 0 ≤ M)
    (f : Nat → Nat → ℝ) (δ : ℝ) (hf : P.Consistent X f q δ)
    (g w : Nat → ℝ) (hg : ∀ p < P.m, P.bd p = true → g p = u fun z => X p z) (hw : P.Galerkin f g w)
    (W : Nat → Fin P.N → ℝ) (hW : P.Slope X w W) :
    P.errorSq X q W ≤ ((P.N + 1) * M * hh ^ 2 / (2 * ρ)) ^ 2 * (∑ c ∈ Finset.range P.n, (volume (P.cell X c)).toReal) + δ ^ 2 := by
  have hY := slope_exists h fun p => u fun z => X p z
  refine (C112_best h hop hu.cont f δ hf g w hw W hW _ (fun p hp hb => (hg p hp hb).symm) _ hY).trans (add_le_add_left ?_ _)
  rw [Prob.errorSq, Finset.mul_sum]
  refine Finset.sum_le_sum fun c hc => ?_
  have hc' := Finset.mem_range.1 hc
  have hcont : ContinuousOn (fun x => ∑ z : Fin P.N, (q x z - ∑ i ∈ Finset.range P.nb, (u fun y => X (P.dofs c i) y) * locGrad P.N I c i z) ^ 2) (P.cell X c) :=
    continuousOn_finsetSum _ fun z _ => (((continuousOn_pi.1 (hu.cont c hc')) z).sub continuousOn_const).pow 2
  refine (setIntegral_mono_on (hcont.integrableOn_compact (cell_compact c)) (int_const c _) (cell_compact c).measurableSet
    fun x hx => C112_interpolation h hs hρ hu hM _ hY hc' hx).trans (le_of_eq ?_)
  rw [cell_const h hc', cell_measure h hc', mul_comm]

/-- A function with gradient `q` that is Lipschitz with constant `M` on the cells is smooth in the sense of the specification. -/
theorem C112_smooth {u : (Fin P.N → ℝ) → ℝ} {q : (Fin P.N → ℝ) → Fin P.N → ℝ} {M : ℝ} (hM : 0 ≤ M)
    (hd : ∀ c < P.n, ∀ x ∈ P.cell X c, HasFDerivWithinAt u (∑ z, q x z • ContinuousLinearMap.proj (R := ℝ) (φ := fun _ : Fin P.N => ℝ) z) (P.cell X c) x)
    (hq : ∀ c < P.n, ∀ x ∈ P.cell X c, ∀ y ∈ P.cell X c, ∑ z, (q y z - q x z) ^ 2 ≤ M ^ 2 * ∑ z, (y z - x z) ^ 2) :
    P.Smooth X u q M := by
  refine ⟨fun c hc => ?_, fun c hc x hx y hy => ?_⟩
  · refine continuousOn_pi.2 fun z => ?_
    rw [Metric.continuousOn_iff]
    intro x hx ε hε
    refine ⟨ε / (M * P.N + 1), by positivity, fun y hy hyx => ?_⟩
    have h1 := hq c hc x hx y hy
    have h2 : ∑ z, (y z - x z) ^ 2 ≤ P.N * (dist y x) ^ 2 := by
      refine (Finset.sum_le_card_nsmul _ _ ((dist y x) ^ 2) fun z _ => ?_).trans (le_of_eq (by simp))
      rw [← sq_abs]
      have := dist_le_pi_dist y x z
      rw [Real.dist_eq] at this
      exact pow_le_pow_left₀ (abs_nonneg _) this 2
    have h3 : (q y z - q x z) ^ 2 ≤ (M * P.N * dist y x) ^ 2 := by
      have hN : (P.N : ℝ) ≤ (P.N : ℝ) ^ 2 := by exact_mod_cast Nat.le_self_pow two_ne_zero P.N
      calc (q y z - q x z) ^ 2 ≤ ∑ z, (q y z - q x z) ^ 2 :=
            Finset.single_le_sum (f := fun z => (q y z - q x z) ^ 2) (fun z _ => sq_nonneg _) (Finset.mem_univ z)
        _ ≤ M ^ 2 * (P.N * (dist y x) ^ 2) := h1.trans (mul_le_mul_of_nonneg_left h2 (sq_nonneg _))
        _ ≤ M ^ 2 * ((P.N : ℝ) ^ 2 * (dist y x) ^ 2) :=
            mul_le_mul_of_nonneg_left (mul_le_mul_of_nonneg_right hN (sq_nonneg _)) (sq_nonneg _)
        _ = _ := by ring
    rw [Real.dist_eq]
    have h4 := abs_le_of_sq_le_sq h3 (by positivity)
    have h5 : (M * P.N + 1) * dist y x < ε := by
      rw [lt_div_iff₀ (by positivity)] at hyx
      linarith
    have h6 : M * P.N * dist y x ≤ (M * P.N + 1) * dist y x := mul_le_mul_of_nonneg_right (by linarith) dist_nonneg
    exact h4.trans_lt (h6.trans_lt h5)
  · set d : Fin P.N → ℝ := fun z => y z - x z with hdd
    set D := ∑ z, d z ^ 2 with hD
    have hD0 : 0 ≤ D := Finset.sum_nonneg fun z _ => sq_nonneg _
    have hγ : ∀ t ∈ Set.Icc (0 : ℝ) 1, x + t • d ∈ P.cell X c := by
      intro t ht
      have := (convex_convexHull ℝ _) hx hy (sub_nonneg.2 ht.2) ht.1 (by ring)
      have e : x + t • d = (1 - t) • x + t • y := by
        funext z
        show x z + t * (y z - x z) = (1 - t) * x z + t * y z
        ring
      rw [e]
      exact this
    have hder : ∀ t ∈ Set.Icc (0 : ℝ) 1, HasDerivWithinAt (fun t => u (x + t • d)) (∑ z, q (x + t • d) z * d z) (Set.Icc 0 1) t := by
      intro t ht
      have h1 : HasDerivWithinAt (fun t : ℝ => x + t • d) d (Set.Icc 0 1) t := by
        have := ((hasDerivAt_id t).smul_const d).const_add x
        simpa using this.hasDerivWithinAt
      have h2 := (hd c hc _ (hγ t ht)).comp_hasDerivWithinAt t h1 hγ
      refine h2.congr_deriv ?_
      rw [_root_.sum_apply]
      exact Finset.sum_congr rfl fun z _ => rfl
    have hf : ∀ t ∈ Set.Icc (0 : ℝ) 1, HasDerivWithinAt (fun t => u (x + t • d) - u x - t * ∑ z, q x z * d z)
        ((∑ z, q (x + t • d) z * d z) - ∑ z, q x z * d z) (Set.Icc 0 1) t := by
      intro t ht
      exact (((hder t ht).sub_const (u x)).sub (((hasDerivAt_id t).mul_const (∑ z, q x z * d z)).hasDerivWithinAt)).congr_deriv (by rw [one_mul])
    have key := image_norm_le_of_norm_deriv_right_le_deriv_boundary' (a := 0) (b := 1)
      (f := fun t => u (x + t • d) - u x - t * ∑ z, q x z * d z) (B := fun t => M / 2 * D * t ^ 2) (B' := fun t => M * D * t)
      (fun t ht => (hf t ht).continuousWithinAt)
      (fun t ht => (hf t ⟨ht.1, ht.2.le⟩).mono_of_mem_nhdsWithin (Icc_mem_nhdsGE_of_mem ht))
      (by simp) (by fun_prop)
      (fun t ht => by
        have := ((hasDerivAt_pow 2 t).const_mul (M / 2 * D)).hasDerivWithinAt (s := Set.Ici t)
        refine this.congr_deriv ?_
        push_cast
        ring)
      (fun t ht => by
        have h1 := hq c hc x hx _ (hγ t ⟨ht.1, ht.2.le⟩)
        have e1 : ∑ z, ((x + t • d) z - x z) ^ 2 = t ^ 2 * D := by
          rw [hD, Finset.mul_sum]
          exact Finset.sum_congr rfl fun z _ => by simp [mul_pow]
        rw [e1] at h1
        have h2 := Finset.sum_mul_sq_le_sq_mul_sq Finset.univ (fun z => q (x + t • d) z - q x z) d
        have h3 : (∑ z, (q (x + t • d) z - q x z) * d z) ^ 2 ≤ (M * D * t) ^ 2 := by
          calc _ ≤ _ := h2
            _ ≤ M ^ 2 * (t ^ 2 * D) * D := mul_le_mul_of_nonneg_right h1 hD0
            _ = _ := by ring
        rw [Real.norm_eq_abs, ← Finset.sum_sub_distrib]
        simp only [← sub_mul]
        exact abs_le_of_sq_le_sq h3 (mul_nonneg (mul_nonneg hM hD0) ht.1))
      (Set.right_mem_Icc.2 zero_le_one)
    have e : x + (1 : ℝ) • d = y := by funext z; simp [hdd]
    simp only [e, one_mul, one_pow, mul_one, Real.norm_eq_abs] at key
    exact key

/-- C112 (dof 0 on the boundary, see `C62_bug_dof_zero`): the same bound for what `solve` returns. -/
theorem C112_solve_partial (h : P.OnNodes X I) (hP : P.Ok) (hcon : ∀ p < P.m, ∀ q < P.m, Relation.ReflTransGen P.Linked p q)
    (hop : Diffusive P.N P.op fun _ z y => if z = y then 1 else 0) {hh ρ M : ℝ} (hs : P.Shape X hh ρ)
    (hρ : 0 < ρ) {u : (Fin P.N → ℝ) → ℝ} {q : (Fin P.N → ℝ) → Fin P.N → ℝ} (hu : P.Smooth X u q M) (hM : 0 ≤ M)
    (δ : ℝ) (lu : Solver ℝ) (hlu : ExactLU P.m lu) (hlc : CompleteLU P.m lu)
    (data : Dense ℝ) (hr : P.n * size P.t ≤ data.rows) (hc : data.cols = 1) (hf : P.Consistent X (fun c k => data.at' (size P.t * c + k) 0) q δ)
    (g : Dense ℝ) (hg : P.m ≤ g.rows) (hgc : 0 < g.cols) (hgb : ∀ p < P.m, P.bd p = true → g.at' p 0 = u fun z => X p z)
    (hm : 0 < P.m) (h0 : P.bd 0 = true) (junk : Nat → ℝ) :
    ∃ w W, (P.init data junk >>= pdeSolveElliptic lu g) = .ok (true, some w) ∧ P.Slope X w W ∧
      P.errorSq X q W ≤ ((P.N + 1) * M * hh ^ 2 / (2 * ρ)) ^ 2 * (∑ c ∈ Finset.range P.n, (volume (P.cell X c)).toReal) + δ ^ 2 := by
  have hell : ∀ c < P.n, ∀ k < size P.t, Elliptic P.N P.op (size P.t * c + k) := by
    intro c _ k _ a b
    have e : form P.N P.op (size P.t * c + k) a a b b = ∑ z ∈ Finset.range P.N, b z ^ 2 := by
      rw [hop, dot]
      refine Finset.sum_congr rfl fun z hz => ?_
      rw [dot, Finset.sum_congr rfl fun y _ => by rw [ite_mul, one_mul, zero_mul], Finset.sum_ite_eq, if_pos hz, sq]
    rw [e]
    refine ⟨Finset.sum_nonneg fun z _ => sq_nonneg _, fun h0 z hz => ?_⟩
    exact pow_eq_zero_iff two_ne_zero |>.1 ((Finset.sum_eq_zero_iff_of_nonneg fun z _ => sq_nonneg _).1 h0 z (Finset.mem_range.2 hz))
  have hE := C103_coercive P (C103_elements P h.lagrange (by simp) hell (fun c hc => measure_pos h hc) hcon)
  obtain ⟨w, e1, e2, _⟩ := C103_solve_partial P hP hE lu hlu hlc data hr hc g hg hgc hm h0 junk
  exact ⟨w, _, e1, slope_exists h w, C112_order h hop hs hρ hu hM _ δ hf _ w hgb e2 _ (slope_exists h w)⟩

/-- Two points of a cell are not farther than the longest edge. -/
theorem cell_diam (h : P.OnNodes X I) {hh ρ : ℝ} (hs : P.Shape X hh ρ) {c : Nat} (hc : c < P.n) {x y : Fin P.N → ℝ}
    (hx : x ∈ P.cell X c) (hy : y ∈ P.cell X c) : ∑ z : Fin P.N, (y z - x z) ^ 2 ≤ hh ^ 2 := by
  have hsub : P.cell X c ⊆ {y | ∑ z : Fin P.N, (y z - x z) ^ 2 ≤ hh ^ 2} := by
    refine convexHull_min ?_ ?_
    · rintro _ ⟨j, rfl⟩
      exact cell_dist h hs hc (by rw [nb_eq h]; exact j.2) hx
    · intro u hu v hv a b ha hb hab
      simp only [Set.mem_ofPred_eq] at hu hv ⊢
      have e : ∑ z : Fin P.N, ((a • u + b • v) z - x z) ^ 2 ≤
          a * ∑ z : Fin P.N, (u z - x z) ^ 2 + b * ∑ z : Fin P.N, (v z - x z) ^ 2 := by
        rw [Finset.mul_sum, Finset.mul_sum, ← Finset.sum_add_distrib]
        refine Finset.sum_le_sum fun z _ => ?_
        have hb' : b = 1 - a := by linarith
        simp only [Pi.add_apply, Pi.smul_apply, smul_eq_mul]
        subst hb'
        nlinarith [mul_nonneg (mul_nonneg ha hb) (sq_nonneg (u z - v z))]
      calc _ ≤ _ := e
        _ ≤ a * hh ^ 2 + b * hh ^ 2 := add_le_add (mul_le_mul_of_nonneg_left hu ha) (mul_le_mul_of_nonneg_left hv hb)
        _ = hh ^ 2 := by rw [← add_mul, hab, one_mul]
  exact hsub hy

/-- Quadrature nodes are in the cell. -/
theorem node_mem (h : P.OnNodes X I) (c : Nat) {k : Nat} (hk : k < size P.t) :
    (fun z : Fin P.N => cellPoint P.N X (P.dofs c) (node ℝ P.t k) z) ∈ P.cell X c := by
  have hn := nb_eq h
  have e : (fun z : Fin P.N => cellPoint P.N X (P.dofs c) (node ℝ P.t k) z) =
      ∑ j : Fin (P.N + 1), P.psi j (node ℝ P.t k) • fun z : Fin P.N => X (P.dofs c j) z := by
    funext z
    rw [Finset.sum_apply, Fin.sum_univ_succ]
    simp only [Pi.smul_apply, smul_eq_mul, Fin.val_zero, Fin.val_succ]
    rw [psi_node h hk (by omega), if_pos rfl, cellPoint]
    have e1 : ∀ w : Fin P.N, P.psi ((w : Nat) + 1) (node ℝ P.t k) = node ℝ P.t k w := fun w => by
      rw [psi_node h hk (by omega), if_neg (by omega)]; rfl
    simp only [e1]
    rw [Finset.sum_range, Finset.sum_range]
    simp only [sub_mul, Finset.sum_sub_distrib, one_mul, ← Finset.mul_sum]
    rw [Finset.sum_congr rfl fun (i : Fin P.N) _ => mul_comm (node ℝ P.t k i) (X (P.dofs c (i + 1)) z)]
    ring
  rw [e]
  refine (convex_convexHull ℝ _).sum_mem (fun j _ => psi_nonneg h hk (by omega)) ?_ fun j _ => subset_convexHull ℝ _ ⟨j, rfl⟩
  rw [Fin.sum_univ_succ]
  simp only [Fin.val_zero, Fin.val_succ]
  rw [psi_node h hk (by omega), if_pos rfl]
  have e1 : ∀ w : Fin P.N, P.psi ((w : Nat) + 1) (node ℝ P.t k) = node ℝ P.t k w := fun w => by
    rw [psi_node h hk (by omega), if_neg (by omega)]; rfl
  simp only [e1]
  rw [Finset.sum_range]
  ring

theorem fe_node (h : P.OnNodes X I) {v : Nat → ℝ} {G : Nat → Fin P.N → ℝ} {b : Nat → ℝ} (hv : P.Affine X v G b) {c : Nat} (hc : c < P.n)
    {k : Nat} (hk : k < size P.t) : feValue P.nb (P.dofs c) v (fun i => P.psi i (node ℝ P.t k)) =
      (∑ z, G c z * cellPoint P.N X (P.dofs c) (node ℝ P.t k) z) + b c := by
  have := affine_value h c (ext P.N (G c)) (b c) hk
  simp only [dot_ext] at this
  rw [← this, feValue, feValue]
  exact Finset.sum_congr rfl fun i hi => by rw [hv c hc i (Finset.mem_range.1 hi)]

/-- Error of the quadrature on a cell. -/
theorem cell_quad (h : P.OnNodes X I) {hh ρ : ℝ} (hs : P.Shape X hh ρ) (hh0 : 0 ≤ hh) {f : (Fin P.N → ℝ) → ℝ} {B L : ℝ} (hf : P.Regular X f B L)
    (hL : 0 ≤ L) {c : Nat} (hc : c < P.n) (hfc : ContinuousOn f (P.cell X c)) (g : Fin P.N → ℝ) (b : ℝ) :
    |P.measure c * (∑ k ∈ Finset.range (size P.t), weight ℝ P.t k * (f (fun z : Fin P.N => cellPoint P.N X (P.dofs c) (node ℝ P.t k) z) *
          ((∑ z, g z * cellPoint P.N X (P.dofs c) (node ℝ P.t k) z) + b))) / (∑ k ∈ Finset.range (size P.t), weight ℝ P.t k) -
        ∫ x in P.cell X c, f x * ((∑ z, g z * x z) + b)| ≤
      hh * (L * (∫ x in P.cell X c, |(∑ z, g z * x z) + b|) + B * (P.measure c * Real.sqrt (∑ z, g z ^ 2))) := by
  set σ := ∑ k ∈ Finset.range (size P.t), weight ℝ P.t k with hσ
  have hσ0 : 0 < σ := weights_pos h
  have hvc : Continuous fun x : Fin P.N → ℝ => (∑ z, g z * x z) + b := by fun_prop
  set v : (Fin P.N → ℝ) → ℝ := fun x => (∑ z, g z * x z) + b with hv
  set pt : Nat → Fin P.N → ℝ := fun k z => cellPoint P.N X (P.dofs c) (node ℝ P.t k) z with hpt
  have iφ : IntegrableOn (fun x => f x * v x) (P.cell X c) := (hfc.mul hvc.continuousOn).integrableOn_compact (cell_compact c)
  have iv : IntegrableOn (fun x => |v x|) (P.cell X c) := hvc.abs.continuousOn.integrableOn_compact (cell_compact c)
  have hcell : ∀ k ∈ Finset.range (size P.t), |∫ x in P.cell X c, (f (pt k) * v (pt k) - f x * v x)| ≤
      hh * (L * (∫ x in P.cell X c, |v x|) + B * (P.measure c * Real.sqrt (∑ z, g z ^ 2))) := by
    intro k hk
    have hm := node_mem h c (Finset.mem_range.1 hk)
    have hb : ∀ x ∈ P.cell X c, ‖f (pt k) * v (pt k) - f x * v x‖ ≤ hh * L * |v x| + hh * B * Real.sqrt (∑ z, g z ^ 2) := by
      intro x hx
      have d1 : Real.sqrt (∑ z, (pt k z - x z) ^ 2) ≤ hh := by
        rw [← Real.sqrt_sq hh0]
        exact Real.sqrt_le_sqrt (cell_diam h hs hc hx hm)
      have d2 : |f (pt k) - f x| ≤ L * hh := (hf.lipschitz c hc x hx _ hm).trans (mul_le_mul_of_nonneg_left d1 hL)
      have d3 : |v (pt k) - v x| ≤ Real.sqrt (∑ z, g z ^ 2) * hh := by
        have e : v (pt k) - v x = ∑ z, g z * (pt k z - x z) := by
          simp only [hv, mul_sub, Finset.sum_sub_distrib]
          ring
        rw [e]
        refine le_trans ?_ (mul_le_mul_of_nonneg_left d1 (Real.sqrt_nonneg _))
        rw [← Real.sqrt_mul (Finset.sum_nonneg fun z _ => sq_nonneg _), ← Real.sqrt_sq_eq_abs]
        exact Real.sqrt_le_sqrt (Finset.sum_mul_sq_le_sq_mul_sq _ _ _)
      have e : f (pt k) * v (pt k) - f x * v x = (f (pt k) - f x) * v x + f (pt k) * (v (pt k) - v x) := by ring
      rw [e, Real.norm_eq_abs]
      refine (abs_add_le _ _).trans ?_
      rw [abs_mul, abs_mul]
      have t1 := mul_le_mul_of_nonneg_right d2 (abs_nonneg (v x))
      have t2 := mul_le_mul (hf.bound c hc _ hm) d3 (abs_nonneg _) ((abs_nonneg _).trans (hf.bound c hc _ hm))
      linarith
    have hi : IntegrableOn (fun x => hh * L * |v x| + hh * B * Real.sqrt (∑ z, g z ^ 2)) (P.cell X c) := (iv.const_mul _).add (int_const c _)
    refine (norm_integral_le_of_norm_le hi ((ae_restrict_iff' (cell_compact c).measurableSet).2 (Filter.Eventually.of_forall hb))).trans (le_of_eq ?_)
    rw [integral_add (iv.const_mul _) (int_const c _), integral_const_mul, cell_const h hc]
    ring
  have e1 : P.measure c * (∑ k ∈ Finset.range (size P.t), weight ℝ P.t k * (f (pt k) * v (pt k))) / σ - ∫ x in P.cell X c, f x * v x =
      (∑ k ∈ Finset.range (size P.t), weight ℝ P.t k * ∫ x in P.cell X c, (f (pt k) * v (pt k) - f x * v x)) / σ := by
    have : ∀ k ∈ Finset.range (size P.t), weight ℝ P.t k * ∫ x in P.cell X c, (f (pt k) * v (pt k) - f x * v x) =
        P.measure c * (weight ℝ P.t k * (f (pt k) * v (pt k))) - weight ℝ P.t k * ∫ x in P.cell X c, f x * v x := by
      intro k _
      rw [integral_sub (int_const c _) iφ, cell_const h hc]
      ring
    rw [Finset.sum_congr rfl this, Finset.sum_sub_distrib, ← Finset.mul_sum, ← Finset.sum_mul, ← hσ]
    field_simp
  rw [show (fun x : Fin P.N → ℝ => f x * ((∑ z, g z * x z) + b)) = fun x => f x * v x from rfl]
  refine le_trans (le_of_eq (congrArg abs e1)) ?_
  rw [abs_div, abs_of_pos hσ0, div_le_iff₀ hσ0]
  refine (Finset.abs_sum_le_sum_abs _ _).trans ?_
  rw [hσ, Finset.mul_sum]
  refine Finset.sum_le_sum fun k hk => ?_
  have hw := weight_pos h (Finset.mem_range.1 hk)
  rw [abs_mul, abs_of_pos hw, mul_comm]
  exact mul_le_mul_of_nonneg_right (hcell k hk) hw.le

/-- Inequality of Cauchy and Schwarz for the integral of the absolute value. -/
theorem cell_abs (h : P.OnNodes X I) {c : Nat} (hc : c < P.n) {v : (Fin P.N → ℝ) → ℝ} (hv : Continuous v) :
    ∫ x in P.cell X c, |v x| ≤ Real.sqrt (P.measure c) * Real.sqrt (∫ x in P.cell X c, v x ^ 2) := by
  have hA := measure_pos h hc
  have iv : IntegrableOn (fun x => |v x|) (P.cell X c) := hv.abs.continuousOn.integrableOn_compact (cell_compact c)
  have iv2 : IntegrableOn (fun x => v x ^ 2) (P.cell X c) := (hv.pow 2).continuousOn.integrableOn_compact (cell_compact c)
  set T := ∫ x in P.cell X c, |v x| with hT
  have h1 : 0 ≤ ∫ x in P.cell X c, (|v x| - T / P.measure c) ^ 2 := integral_nonneg fun x => sq_nonneg _
  have e : ∀ x, (|v x| - T / P.measure c) ^ 2 = v x ^ 2 - 2 * (T / P.measure c) * |v x| + (T / P.measure c) ^ 2 := by
    intro x
    rw [← sq_abs (v x)]
    ring
  simp only [e] at h1
  have i1 : IntegrableOn (fun x => v x ^ 2 - 2 * (T / P.measure c) * |v x|) (P.cell X c) := iv2.sub (iv.const_mul _)
  rw [integral_add i1 (int_const c _), integral_sub iv2 (iv.const_mul _), integral_const_mul, cell_const h hc, ← hT] at h1
  have h2 : T ^ 2 ≤ P.measure c * ∫ x in P.cell X c, v x ^ 2 := by
    have h3 := mul_nonneg hA.le h1
    have e2 : P.measure c * ((∫ x in P.cell X c, v x ^ 2) - 2 * (T / P.measure c) * T + P.measure c * (T / P.measure c) ^ 2) =
        P.measure c * (∫ x in P.cell X c, v x ^ 2) - T ^ 2 := by
      field_simp
      ring
    rw [e2] at h3
    linarith
  rw [← Real.sqrt_mul hA.le]
  exact Real.le_sqrt_of_sq_le h2

theorem sum_sqrt_le (s : Finset Nat) (a b : Nat → ℝ) (ha : ∀ i ∈ s, 0 ≤ a i) (hb : ∀ i ∈ s, 0 ≤ b i) :
    ∑ i ∈ s, Real.sqrt (a i) * Real.sqrt (b i) ≤ Real.sqrt (∑ i ∈ s, a i) * Real.sqrt (∑ i ∈ s, b i) := by
  rw [← Real.sqrt_mul (Finset.sum_nonneg ha)]
  refine Real.le_sqrt_of_sq_le ((Finset.sum_mul_sq_le_sq_mul_sq _ _ _).trans (le_of_eq ?_))
  rw [Finset.sum_congr rfl fun i hi => Real.sq_sqrt (ha i hi), Finset.sum_congr rfl fun i hi => Real.sq_sqrt (hb i hi)]

/-- C112: the error of the quadrature of a forcing that is bounded by `B` and Lipschitz with constant `L` is at most
h (L C + B) times the root of the measure of the domain, `C` the constant of Friedrichs. -/
theorem C112_consistent (h : P.OnNodes X I) {hh ρ : ℝ} (hs : P.Shape X hh ρ) (hh0 : 0 ≤ hh) {f : (Fin P.N → ℝ) → ℝ} {B L C : ℝ}
    (hf : P.Regular X f B L) (hL : 0 ≤ L) (hB : 0 ≤ B) (hC : 0 ≤ C) (hF : P.Friedrichs X C) {q : (Fin P.N → ℝ) → Fin P.N → ℝ} (hq : P.Poisson X q f)
    (fk : Nat → Nat → ℝ) (hfk : ∀ c < P.n, ∀ k < size P.t, fk c k = f fun z => cellPoint P.N X (P.dofs c) (node ℝ P.t k) z) :
    P.Consistent X fk q (hh * (L * C + B) * Real.sqrt (∑ c ∈ Finset.range P.n, (volume (P.cell X c)).toReal)) := by
  intro v G hT hG
  choose! b hb using hG
  have hA : P.Affine X v G b := hb
  have hfc : ∀ c < P.n, ContinuousOn f (P.cell X c) := by
    intro c hc
    rw [Metric.continuousOn_iff]
    intro x hx ε hε
    refine ⟨ε / (L * P.N + 1), by positivity, fun y hy hyx => ?_⟩
    have h1 := hf.lipschitz c hc x hx y hy
    have h2 : ∑ z, (y z - x z) ^ 2 ≤ (P.N * dist y x) ^ 2 := by
      have hN : (P.N : ℝ) ≤ (P.N : ℝ) ^ 2 := by exact_mod_cast Nat.le_self_pow two_ne_zero P.N
      refine (Finset.sum_le_card_nsmul _ _ ((dist y x) ^ 2) fun z _ => ?_).trans ?_
      · rw [← sq_abs]
        have := dist_le_pi_dist y x z
        rw [Real.dist_eq] at this
        exact pow_le_pow_left₀ (abs_nonneg _) this 2
      · rw [Finset.card_univ, Fintype.card_fin, nsmul_eq_mul, mul_pow]
        exact mul_le_mul_of_nonneg_right hN (sq_nonneg _)
    have h3 : Real.sqrt (∑ z, (y z - x z) ^ 2) ≤ P.N * dist y x := by
      rw [← Real.sqrt_sq (show 0 ≤ P.N * dist y x by positivity)]
      exact Real.sqrt_le_sqrt h2
    rw [Real.dist_eq]
    have h5 : (L * P.N + 1) * dist y x < ε := by
      rw [lt_div_iff₀ (by positivity)] at hyx
      linarith
    have h6 := mul_le_mul_of_nonneg_left h3 hL
    have h7 : 0 ≤ dist y x := dist_nonneg
    linarith
  have hvc : ∀ c, Continuous fun x : Fin P.N → ℝ => (∑ z, G c z * x z) + b c := fun c => by fun_prop
  rw [hq v G b hT hA, Prob.load, Finset.sum_div, ← Finset.sum_sub_distrib]
  refine (Finset.abs_sum_le_sum_abs _ _).trans ?_
  have e1 : ∀ c ∈ Finset.range P.n, |P.measure c * (∑ k ∈ Finset.range (size P.t), weight ℝ P.t k *
        (fk c k * feValue P.nb (P.dofs c) v fun i => P.psi i (node ℝ P.t k))) / (∑ k ∈ Finset.range (size P.t), weight ℝ P.t k) -
        ∫ x in P.cell X c, f x * ((∑ z, G c z * x z) + b c)| ≤
      hh * (L * (Real.sqrt (P.measure c) * Real.sqrt (∫ x in P.cell X c, ((∑ z, G c z * x z) + b c) ^ 2)) +
        B * (Real.sqrt (P.measure c) * Real.sqrt (P.measure c * ∑ z, G c z ^ 2))) := by
    intro c hc
    have hc' := Finset.mem_range.1 hc
    have hA0 := (measure_pos h hc').le
    rw [Finset.sum_congr rfl fun k hk => by rw [hfk c hc' k (Finset.mem_range.1 hk), fe_node h hA hc' (Finset.mem_range.1 hk)]]
    refine (cell_quad h hs hh0 hf hL hc' (hfc c hc') (G c) (b c)).trans (mul_le_mul_of_nonneg_left (add_le_add ?_ (le_of_eq ?_)) hh0)
    · exact mul_le_mul_of_nonneg_left (cell_abs h hc' (hvc c)) hL
    · rw [Real.sqrt_mul hA0, ← mul_assoc (Real.sqrt (P.measure c)), Real.mul_self_sqrt hA0]
  refine (Finset.sum_le_sum e1).trans ?_
  rw [← Finset.mul_sum, Finset.sum_add_distrib, ← Finset.mul_sum, ← Finset.mul_sum]
  have hm : ∀ c ∈ Finset.range P.n, 0 ≤ P.measure c := fun c hc => (measure_pos h (Finset.mem_range.1 hc)).le
  have s1 := sum_sqrt_le (Finset.range P.n) P.measure (fun c => ∫ x in P.cell X c, ((∑ z, G c z * x z) + b c) ^ 2) hm
    fun c _ => integral_nonneg fun x => sq_nonneg _
  have s2 := sum_sqrt_le (Finset.range P.n) P.measure (fun c => P.measure c * ∑ z, G c z ^ 2) hm
    fun c hc => mul_nonneg (hm c hc) (Finset.sum_nonneg fun z _ => sq_nonneg _)
  rw [← energySq_eq h] at s2
  have s3 : Real.sqrt (∑ c ∈ Finset.range P.n, ∫ x in P.cell X c, ((∑ z, G c z * x z) + b c) ^ 2) ≤ C * Real.sqrt (P.energySq X G) := by
    refine (Real.sqrt_le_sqrt (hF v G b hT hA)).trans (le_of_eq ?_)
    rw [Real.sqrt_mul (sq_nonneg _), Real.sqrt_sq hC]
  rw [Finset.sum_congr rfl fun c hc => cell_measure h (Finset.mem_range.1 hc)]
  set R := Real.sqrt (∑ c ∈ Finset.range P.n, P.measure c) with hR
  have hR0 : 0 ≤ R := Real.sqrt_nonneg _
  calc _ ≤ hh * (L * (R * (C * Real.sqrt (P.energySq X G))) + B * (R * Real.sqrt (P.energySq X G))) := by
        refine mul_le_mul_of_nonneg_left (add_le_add (mul_le_mul_of_nonneg_left ?_ hL) (mul_le_mul_of_nonneg_left s2 hB)) hh0
        exact s1.trans (mul_le_mul_of_nonneg_left s3 hR0)
    _ = _ := by ring

/-- C112 (dof 0 on the boundary, see `C62_bug_dof_zero`): order of convergence of what `solve` returns for -Δu = f, with the forcing
evaluated at the quadrature nodes. -/
theorem C112_poisson_partial (h : P.OnNodes X I) (hP : P.Ok) (hcon : ∀ p < P.m, ∀ q < P.m, Relation.ReflTransGen P.Linked p q)
    (hop : P.op = .neg .lap) {hh ρ M : ℝ} (hs : P.Shape X hh ρ) (hh0 : 0 ≤ hh)
    (hρ : 0 < ρ) {u : (Fin P.N → ℝ) → ℝ} {q : (Fin P.N → ℝ) → Fin P.N → ℝ} (hu : P.Smooth X u q M) (hM : 0 ≤ M)
    {f : (Fin P.N → ℝ) → ℝ} {B L C : ℝ} (hf : P.Regular X f B L) (hL : 0 ≤ L) (hB : 0 ≤ B) (hC : 0 ≤ C) (hF : P.Friedrichs X C)
    (hq : P.Poisson X q f) (lu : Solver ℝ) (hlu : ExactLU P.m lu) (hlc : CompleteLU P.m lu)
    (data : Dense ℝ) (hr : P.n * size P.t ≤ data.rows) (hc : data.cols = 1)
    (hd : ∀ c < P.n, ∀ k < size P.t, data.at' (size P.t * c + k) 0 = f fun z => cellPoint P.N X (P.dofs c) (node ℝ P.t k) z)
    (g : Dense ℝ) (hg : P.m ≤ g.rows) (hgc : 0 < g.cols) (hgb : ∀ p < P.m, P.bd p = true → g.at' p 0 = u fun z => X p z)
    (hm : 0 < P.m) (h0 : P.bd 0 = true) (junk : Nat → ℝ) :
    ∃ w W, (P.init data junk >>= pdeSolveElliptic lu g) = .ok (true, some w) ∧ P.Slope X w W ∧
      P.errorSq X q W ≤ (((P.N + 1) * M * hh ^ 2 / (2 * ρ)) ^ 2 + (hh * (L * C + B)) ^ 2) *
        ∑ c ∈ Finset.range P.n, (volume (P.cell X c)).toReal := by
  have hcs := C112_consistent h hs hh0 hf hL hB hC hF hq (fun c k => data.at' (size P.t * c + k) 0) hd
  obtain ⟨w, W, e1, e2, e3⟩ := C112_solve_partial h hP hcon (hop ▸ lap_diffusive P.N) hs hρ hu hM _ lu hlu hlc data hr hc hcs g hg hgc hgb hm h0 junk
  refine ⟨w, W, e1, e2, e3.trans (le_of_eq ?_)⟩
  rw [mul_pow (hh * (L * C + B)), Real.sq_sqrt (Finset.sum_nonneg fun c _ => ENNReal.toReal_nonneg)]
  ring

/-! ### The hypotheses are met -/

/-- -u'' = 1 on the interval from 0 to 1 in two cells of length 1/2, zero at the ends. -/
noncomputable abbrev bar : Prob ℝ where
  t := rule1_2
  N := 1
  op := .neg .lap
  measure := fun _ => 1 / 2
  psi := fun i x => if h : i < 2 then FEM.refBasis ℝ 1 1 2 ⟨i, h⟩ x else 0
  grad := fun _ i x z => if h : i < 2 then ∑ w ∈ Finset.range 1, FEM.refGrad ℝ 1 1 2 ⟨i, h⟩ x w * (fun _ _ _ => (2 : ℝ)) 0 w z else 0
  n := 2
  nb := 2
  m := 3
  dofs := fun c i => c + i
  bd := fun p => p != 1

/-- Nodes of the interval. -/
noncomputable def barX (p _ : Nat) : ℝ := p / 2

theorem bar_onNodes : bar.OnNodes barX fun _ _ _ => 2 where
  lagrange :=
    { supported := by unfold FEM.Supported; show (1, 1, 2) ∈ _; decide
      rule := rfl
      psi := fun i x => dif_pos (c := (i : Nat) < 2) i.2
      grad := fun c _ i x z => dif_pos (c := (i : Nat) < 2) i.2
      inv := fun c hc w hw w' hw' => by
        have h1 : w = 0 := Nat.lt_one_iff.1 hw
        have h2 : w' = 0 := Nat.lt_one_iff.1 hw'
        subst h1 h2
        show ∑ z ∈ Finset.range 1, (2 : ℝ) * (((c + (0 + 1) : Nat) : ℝ) / 2 - ((c + 0 : Nat) : ℝ) / 2) = _
        rw [Finset.sum_range_one, if_pos rfl]
        push_cast
        ring }
  measure := fun c hc => by
    show (1 / 2 : ℝ) = |(of fun z w : Fin 1 => ((c + ((w : Nat) + 1) : Nat) : ℝ) / 2 - ((c + 0 : Nat) : ℝ) / 2).det| / ((1).factorial : ℝ)
    rw [det_fin_one]
    simp only [of_apply, Fin.val_zero]
    push_cast
    rw [show ((c : ℝ) + 1) / 2 - (c + 0) / 2 = 1 / 2 by ring, abs_of_pos (by norm_num)]
    norm_num

/-- Integrals over the cells of the interval. -/
theorem bar_integral (c : Nat) (f : (Fin 1 → ℝ) → ℝ) (hf : Continuous f) :
    ∫ x in bar.cell barX c, f x = 1 / 2 * ∫ t in (0 : ℝ)..1, f ![(c : ℝ) / 2 + t / 2] := by
  let S : Geometry.Simplex 1 1 := ⟨fun j z => barX (c + j) z⟩
  have hJ : S.J.det = 1 / 2 := by
    rw [det_fin_one]
    show ((c + 1 : Nat) : ℝ) / 2 - ((c + 0 : Nat) : ℝ) / 2 = _
    push_cast
    ring
  have hS : S.Nondeg := by
    by_contra h
    rw [Geometry.det_zero h] at hJ
    norm_num at hJ
  have h1 := Geometry.hull_integral hS f
  have hcell : bar.cell barX c = convexHull ℝ (Set.range S.coords) := rfl
  rw [hcell]
  refine h1.trans ?_
  rw [hJ, abs_of_pos (by norm_num)]
  have htc : ∀ t : Fin 1 → ℝ, S.toCell t = ![(c : ℝ) / 2 + t 0 / 2] := by
    intro t
    funext z
    have hz : z = 0 := Subsingleton.elim _ _
    subst hz
    simp only [Geometry.Simplex.toCell, Pi.add_apply, mulVec, dotProduct, Fin.sum_univ_one]
    show (((c + 1 : Nat) : ℝ) / 2 - ((c + 0 : Nat) : ℝ) / 2) * t 0 + ((c + 0 : Nat) : ℝ) / 2 = _
    push_cast
    simp
    ring
  simp only [htc]
  congr 1
  rw [← Geometry.refInt_eq.1 (fun t => f ![(c : ℝ) / 2 + t 0 / 2]) (hf.comp (by fun_prop))]
  rfl

theorem bar_shape : bar.Shape barX (1 / 2) (1 / 2) := by
  refine ⟨fun c hc i hi j hj => ?_, fun c hc i hi μ hs h0 => ?_⟩
  · show ∑ z : Fin 1, (((c + i : Nat) : ℝ) / 2 - ((c + j : Nat) : ℝ) / 2) ^ 2 ≤ _
    rw [Fin.sum_univ_one]
    have hi' : i = 0 ∨ i = 1 := by have : i < 2 := hi; omega
    have hj' : j = 0 ∨ j = 1 := by have : j < 2 := hj; omega
    rcases hi' with rfl | rfl <;> rcases hj' with rfl | rfl <;> push_cast <;> ring_nf <;> norm_num
  · change ∑ j ∈ Finset.range 2, μ j = 1 at hs
    show _ ≤ ∑ z : Fin 1, (((c + i : Nat) : ℝ) / 2 - ∑ j ∈ Finset.range 2, μ j * (((c + j : Nat) : ℝ) / 2)) ^ 2
    rw [Finset.sum_range_succ, Finset.sum_range_one] at hs
    rw [Fin.sum_univ_one, Finset.sum_range_succ, Finset.sum_range_one]
    have hi' : i = 0 ∨ i = 1 := by have : i < 2 := hi; omega
    rcases hi' with rfl | rfl
    · have h1 : μ 1 = 1 := by linarith
      rw [h0, h1]; push_cast; ring_nf; norm_num
    · have h1 : μ 0 = 1 := by linarith
      rw [h0, h1]; push_cast; ring_nf; norm_num

theorem bar_smooth : bar.Smooth barX (fun x : Fin 1 → ℝ => x 0 * (1 - x 0) / 2) (fun x _ => 1 / 2 - x 0) 1 := by
  refine ⟨fun c _ => ?_, fun c hc x hx y hy => le_of_eq ?_⟩
  · refine continuousOn_pi.2 fun z => ?_
    fun_prop
  · show |y 0 * (1 - y 0) / 2 - x 0 * (1 - x 0) / 2 - ∑ z : Fin 1, (1 / 2 - x 0) * (y z - x z)| = 1 / 2 * ∑ z : Fin 1, (y z - x z) ^ 2
    rw [Fin.sum_univ_one, Fin.sum_univ_one, show y 0 * (1 - y 0) / 2 - x 0 * (1 - x 0) / 2 - (1 / 2 - x 0) * (y 0 - x 0) = -(1 / 2 * (y 0 - x 0) ^ 2) by ring,
      abs_neg, abs_of_nonneg (by positivity)]

theorem bar_flux : ∀ v G, bar.Test v → bar.Slope barX v G →
    ∑ c ∈ Finset.range 2, ∫ x in bar.cell barX c, ∑ z : Fin 1, (1 / 2 - x 0) * G c z = v 1 / 2 := by
  intro v G hv hG
  have e : ∀ c ∈ Finset.range 2, ∫ x in bar.cell barX c, ∑ z : Fin 1, (1 / 2 - x 0) * G c z = 1 / 2 * G c 0 * (1 / 4 - c / 2) := by
    intro c _
    simp only [Fin.sum_univ_one]
    rw [bar_integral c _ (by fun_prop)]
    simp only [cons_val_zero]
    rw [intervalIntegral.integral_mul_const, intervalIntegral.integral_sub (by simp) (Continuous.intervalIntegrable (by fun_prop) _ _),
      intervalIntegral.integral_add (by simp) (Continuous.intervalIntegrable (by fun_prop) _ _)]
    simp only [intervalIntegral.integral_div, integral_id]
    simp
    ring
  rw [Finset.sum_congr rfl e, Finset.sum_range_succ, Finset.sum_range_one]
  have hv0 : v 0 = 0 := hv 0 (by decide) rfl
  have hv2 : v 2 = 0 := hv 2 (by decide) rfl
  obtain ⟨b, hb⟩ := hG 0 (by decide)
  obtain ⟨b', hb'⟩ := hG 1 (by decide)
  have g1 : v 0 = (∑ z : Fin 1, G 0 z * (((0 + 0 : Nat) : ℝ) / 2)) + b := hb 0 (by decide)
  have g2 : v 1 = (∑ z : Fin 1, G 0 z * (((0 + 1 : Nat) : ℝ) / 2)) + b := hb 1 (by decide)
  have g3 : v 1 = (∑ z : Fin 1, G 1 z * (((1 + 0 : Nat) : ℝ) / 2)) + b' := hb' 0 (by decide)
  have g4 : v 2 = (∑ z : Fin 1, G 1 z * (((1 + 1 : Nat) : ℝ) / 2)) + b' := hb' 1 (by decide)
  rw [Fin.sum_univ_one] at g1 g2 g3 g4
  push_cast at g1 g2 g3 g4 ⊢
  linarith

theorem bar_link : ∀ p < bar.m, ∀ q < bar.m, Relation.ReflTransGen bar.Linked p q := by
  have h : ∀ p < 3, ∃ c < 2, ∃ i < 2, ∃ j < 2, c + i = p ∧ c + j = 1 := by decide
  intro p hp q hq
  obtain ⟨c, h1, i, h2, j, h3, h4, h5⟩ := h p hp
  obtain ⟨d, k1, i', k2, j', k3, k4, k5⟩ := h q hq
  exact .tail (.single ⟨c, h1, i, h2, j, h3, h4, h5⟩) ⟨d, k1, j', k3, i', k2, k5, k4⟩

/-- The parabola x (1 - x) / 2 and the discrete solution of the problem. -/
example : ∃ w W, ((bar.init ⟨4, 1, fun _ _ => 1⟩ fun _ => 0) >>= pdeSolveElliptic (exists_exactLU (K := ℝ) 3).choose ⟨3, 1, fun _ _ => 0⟩) =
      .ok (true, some w) ∧ bar.Slope barX w W ∧ bar.errorSq barX (fun x _ => 1 / 2 - x 0) W ≤ 1 / 4 := by
  have hcs : bar.Consistent barX (fun c k => (⟨4, 1, fun _ _ => 1⟩ : Dense ℝ).at' (size bar.t * c + k) 0) (fun x _ => 1 / 2 - x 0) 0 := by
    intro v G hv hG
    have hv0 : v 0 = 0 := hv 0 (by decide) rfl
    have hv2 : v 2 = 0 := hv 2 (by decide) rfl
    have hw : ∑ k ∈ Finset.range (size bar.t), weight ℝ bar.t k = 1 := by
      show ∑ k ∈ Finset.range 2, weight ℝ rule1_2 k = 1
      rw [Finset.sum_range_succ, Finset.sum_range_one]
      norm_num [weight, rule1_2]
    have hl : bar.load (fun c k => (⟨4, 1, fun _ _ => 1⟩ : Dense ℝ).at' (size bar.t * c + k) 0) v = v 1 / 2 := by
      have key : ∀ ψ : Nat → (Nat → ℝ) → ℝ, (∀ k < 2, ∀ i < 2, ψ i (node ℝ rule1_2 k) = if i = 0 then 1 - node ℝ rule1_2 k 0 else node ℝ rule1_2 k (i - 1)) →
          ∑ c ∈ Finset.range 2, (1 / 2 : ℝ) * ∑ k ∈ Finset.range 2, weight ℝ rule1_2 k * (1 * ∑ i ∈ Finset.range 2, v (c + i) * ψ i (node ℝ rule1_2 k)) = v 1 / 2 := by
        intro ψ hp
        simp only [Finset.sum_range_succ, Finset.sum_range_zero, zero_add]
        rw [hp 0 (by decide) 0 (by decide), hp 0 (by decide) 1 (by decide), hp 1 (by decide) 0 (by decide), hp 1 (by decide) 1 (by decide)]
        norm_num [weight, node, rule1_2, hv0, hv2]
        ring
      refine key bar.psi fun k hk i hi => ?_
      refine (psi_node bar_onNodes hk hi).trans ?_
      show (if i = 0 then 1 - ∑ w ∈ Finset.range 1, node ℝ rule1_2 k w else node ℝ rule1_2 k (i - 1)) = _
      rw [Finset.sum_range_one]
    rw [hw, hl, div_one, zero_mul]
    refine le_of_eq (abs_eq_zero.2 (sub_eq_zero.2 ?_))
    exact (bar_flux v G hv hG).symm
  obtain ⟨h1, h2⟩ := (exists_exactLU (K := ℝ) 3).choose_spec
  obtain ⟨w, W, e1, e2, e3⟩ := C112_solve_partial bar_onNodes
    ⟨fun c hc i hi => by have h1 : c < 2 := hc; have h2 : i < 2 := hi; show c + i < 3; omega, fun _ => trivial, trivial⟩
    bar_link (lap_diffusive 1) bar_shape (by norm_num) bar_smooth zero_le_one 0 _ h1 h2
    ⟨4, 1, fun _ _ => 1⟩ (by decide) rfl hcs ⟨3, 1, fun _ _ => 0⟩ (by decide) (by decide)
    (fun p hp hb => by
      show (0 : ℝ) = (p : ℝ) / 2 * (1 - p / 2) / 2
      have hp' : p < 3 := hp
      have hb' : p ≠ 1 := by rintro rfl; cases hb
      have : p = 0 ∨ p = 2 := by omega
      rcases this with rfl | rfl <;> norm_num) (by decide) rfl fun _ => 0
  refine ⟨w, W, e1, e2, e3.trans (le_of_eq ?_)⟩
  have hv : ∑ c ∈ Finset.range bar.n, (volume (bar.cell barX c)).toReal = 1 := by
    rw [Finset.sum_congr rfl fun c hc => cell_measure bar_onNodes (Finset.mem_range.1 hc)]
    show ∑ c ∈ Finset.range 2, (1 / 2 : ℝ) = 1
    norm_num
  rw [hv]
  show (((1 : Nat) + 1 : ℝ) * 1 * (1 / 2) ^ 2 / (2 * (1 / 2))) ^ 2 * 1 + 0 ^ 2 = 1 / 4
  norm_num

theorem bar_affine {v : Nat → ℝ} {G : Nat → Fin 1 → ℝ} {b : Nat → ℝ} (hv : bar.Test v) (hA : bar.Affine barX v G b) :
    b 0 = 0 ∧ G 0 0 = 2 * v 1 ∧ G 1 0 = -2 * v 1 ∧ b 1 = 2 * v 1 := by
  have hv0 : v 0 = 0 := hv 0 (by decide) rfl
  have hv2 : v 2 = 0 := hv 2 (by decide) rfl
  have g1 : v 0 = (∑ z : Fin 1, G 0 z * (((0 + 0 : Nat) : ℝ) / 2)) + b 0 := hA 0 (by decide) 0 (by decide)
  have g2 : v 1 = (∑ z : Fin 1, G 0 z * (((0 + 1 : Nat) : ℝ) / 2)) + b 0 := hA 0 (by decide) 1 (by decide)
  have g3 : v 1 = (∑ z : Fin 1, G 1 z * (((1 + 0 : Nat) : ℝ) / 2)) + b 1 := hA 1 (by decide) 0 (by decide)
  have g4 : v 2 = (∑ z : Fin 1, G 1 z * (((1 + 1 : Nat) : ℝ) / 2)) + b 1 := hA 1 (by decide) 1 (by decide)
  rw [Fin.sum_univ_one] at g1 g2 g3 g4
  push_cast at g1 g2 g3 g4
  refine ⟨?_, ?_, ?_, ?_⟩ <;> linarith

/-- The same problem with the forcing given as a function. -/
example : ∃ w W, ((bar.init ⟨4, 1, fun _ _ => 1⟩ fun _ => 0) >>= pdeSolveElliptic (exists_exactLU (K := ℝ) 3).choose ⟨3, 1, fun _ _ => 0⟩) =
      .ok (true, some w) ∧ bar.Slope barX w W ∧ bar.errorSq barX (fun x _ => 1 / 2 - x 0) W ≤ 1 / 2 := by
  have hreg : bar.Regular barX (fun _ => 1) 1 0 := ⟨fun _ _ _ _ => by simp, fun _ _ _ _ _ _ => by simp⟩
  have hP : bar.Poisson barX (fun x _ => 1 / 2 - x 0) fun _ => 1 := by
    intro v G b hv hA
    refine (bar_flux v G hv fun c hc => ⟨b c, hA c hc⟩).trans ?_
    obtain ⟨e1, e2, e3, e4⟩ := bar_affine hv hA
    have e : ∀ c ∈ Finset.range 2, ∫ x in bar.cell barX c, 1 * ((∑ z : Fin 1, G c z * x z) + b c) = 1 / 2 * (G c 0 * (c / 2 + 1 / 4) + b c) := by
      intro c _
      simp only [Fin.sum_univ_one, one_mul]
      rw [bar_integral c _ (by fun_prop)]
      simp only [cons_val_zero]
      rw [intervalIntegral.integral_add (Continuous.intervalIntegrable (by fun_prop) _ _) (by simp), intervalIntegral.integral_const_mul,
        intervalIntegral.integral_add (by simp) (Continuous.intervalIntegrable (by fun_prop) _ _)]
      simp only [intervalIntegral.integral_div, integral_id]
      rw [intervalIntegral.integral_const, intervalIntegral.integral_const]
      norm_num
    show _ = ∑ c ∈ Finset.range 2, _
    rw [Finset.sum_congr rfl e, Finset.sum_range_succ, Finset.sum_range_one, e1, e2, e3, e4]
    push_cast
    ring
  have hFr : bar.Friedrichs barX 1 := by
    intro v G b hv hA
    obtain ⟨e1, e2, e3, e4⟩ := bar_affine hv hA
    rw [energySq_eq bar_onNodes]
    show ∑ c ∈ Finset.range 2, _ ≤ 1 ^ 2 * ∑ c ∈ Finset.range 2, 1 / 2 * ∑ z : Fin 1, G c z ^ 2
    have e : ∀ c ∈ Finset.range 2, ∫ x in bar.cell barX c, ((∑ z : Fin 1, G c z * x z) + b c) ^ 2 =
        1 / 2 * ((G c 0 * (c / 2) + b c) ^ 2 + (G c 0 * (c / 2) + b c) * (G c 0 / 2) + (G c 0 / 2) ^ 2 / 3) := by
      intro c _
      simp only [Fin.sum_univ_one]
      rw [bar_integral c _ (by fun_prop)]
      simp only [cons_val_zero]
      have : ∀ t : ℝ, (G c 0 * ((c : ℝ) / 2 + t / 2) + b c) ^ 2 =
          (G c 0 * (c / 2) + b c) ^ 2 + (2 * (G c 0 * (c / 2) + b c) * (G c 0 / 2)) * t + (G c 0 / 2) ^ 2 * t ^ 2 := fun t => by ring
      simp only [this]
      rw [intervalIntegral.integral_add (Continuous.intervalIntegrable (by fun_prop) _ _) (Continuous.intervalIntegrable (by fun_prop) _ _),
        intervalIntegral.integral_add (by simp) (Continuous.intervalIntegrable (by fun_prop) _ _),
        intervalIntegral.integral_const_mul, intervalIntegral.integral_const_mul, integral_id, integral_pow]
      simp
      ring
    rw [Finset.sum_congr rfl e]
    simp only [Finset.sum_range_succ, Finset.sum_range_zero, Fin.sum_univ_one, e1, e2, e3, e4]
    push_cast
    nlinarith [sq_nonneg (v 1)]
  obtain ⟨h1, h2⟩ := (exists_exactLU (K := ℝ) 3).choose_spec
  obtain ⟨w, W, e1, e2, e3⟩ := C112_poisson_partial bar_onNodes
    ⟨fun c hc i hi => by have h1 : c < 2 := hc; have h2 : i < 2 := hi; show c + i < 3; omega, fun _ => trivial, trivial⟩
    bar_link rfl bar_shape (by norm_num) (by norm_num) bar_smooth zero_le_one hreg le_rfl zero_le_one zero_le_one hFr hP _ h1 h2
    ⟨4, 1, fun _ _ => 1⟩ (by decide) rfl (fun _ _ _ _ => rfl) ⟨3, 1, fun _ _ => 0⟩ (by decide) (by decide)
    (fun p hp hb => by
      show (0 : ℝ) = (p : ℝ) / 2 * (1 - p / 2) / 2
      have hp' : p < 3 := hp
      have hb' : p ≠ 1 := by rintro rfl; cases hb
      have : p = 0 ∨ p = 2 := by omega
      rcases this with rfl | rfl <;> norm_num) (by decide) rfl fun _ => 0
  refine ⟨w, W, e1, e2, e3.trans (le_of_eq ?_)⟩
  have hv : ∑ c ∈ Finset.range bar.n, (volume (bar.cell barX c)).toReal = 1 := by
    rw [Finset.sum_congr rfl fun c hc => cell_measure bar_onNodes (Finset.mem_range.1 hc)]
    show ∑ c ∈ Finset.range 2, (1 / 2 : ℝ) = 1
    norm_num
  rw [hv]
  show ((((1 : Nat) + 1 : ℝ) * 1 * (1 / 2) ^ 2 / (2 * (1 / 2))) ^ 2 + (1 / 2 * (0 * 1 + 1)) ^ 2) * 1 = 1 / 2
  norm_num

end Fdapde.PDE
