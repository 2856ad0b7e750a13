import Verif.PDE.LemmasElliptic
import Verif.PDE.LemmasHeat
import Mathlib.Analysis.SpecialFunctions.Exp
set_option linter.unusedSectionVars false
/-!
# Time stepping with diffusion, transport and reaction: lower bound of the form, recursion of the errors
-/
namespace Fdapde.PDE
open Fdapde.Quadrature MeasureTheory Matrix Fdapde.FEM
variable {P : Prob ℝ} {X : Nat → Nat → ℝ} {I : Nat → Nat → Nat → ℝ}

theorem weights_half : ∀ e ∈ [(1, 1, 2), (2, 1, 3), (3, 1, 4)], ∀ t, standardRule e.1 e.2.1 = some t → 1 / 2 ≤ ∑ k ∈ Finset.range (size t), weight ℝ t k := by
  intro e he t ht
  simp only [List.mem_cons, List.not_mem_nil, or_false] at he
  rcases he with rfl | rfl | rfl
  · have : t = rule1_2 := (Option.some.inj ht).symm
    subst this
    have hs : size rule1_2 = 2 := rfl
    rw [hs]
    simp [Finset.sum_range_succ, weight, rule1_2]
    try norm_num
  · have : t = rule2_3 := (Option.some.inj ht).symm
    subst this
    have hs : size rule2_3 = 3 := rfl
    rw [hs]
    simp [Finset.sum_range_succ, weight, rule2_3]
    try norm_num
  · have : t = rule3_4 := (Option.some.inj ht).symm
    subst this
    have hs : size rule3_4 = 4 := rfl
    rw [hs]
    simp [Finset.sum_range_succ, weight, rule3_4]
    try norm_num

theorem weights_ge (h : P.OnNodes X I) : 1 / 2 ≤ ∑ k ∈ Finset.range (size P.t), weight ℝ P.t k :=
  weights_half _ (first_mem h.lagrange.supported).1 _ h.lagrange.rule

theorem garding_point {α bm γ s y T r D : ℝ} (hα : 0 < α) (hD : α * s ^ 2 ≤ D) (hT : |T| ≤ bm * s) (hr : -γ ≤ r) :
    α / 2 * s ^ 2 - (bm ^ 2 / (2 * α) + γ) * (y * y) ≤ D + T * y + r * y * y := by
  have h1 : -(bm * s * |y|) ≤ T * y := by
    have := neg_abs_le (T * y)
    rw [abs_mul] at this
    have h2 := mul_le_mul_of_nonneg_right hT (abs_nonneg y)
    linarith
  have h2 : -(γ * (y * y)) ≤ r * y * y := by
    have := mul_le_mul_of_nonneg_right hr (mul_self_nonneg y)
    linarith
  have h3 : bm * s * |y| ≤ α / 2 * s ^ 2 + bm ^ 2 / (2 * α) * (y * y) := by
    have e : α / 2 * s ^ 2 + bm ^ 2 / (2 * α) * (y * y) - bm * s * |y| = (α * s - bm * |y|) ^ 2 / (2 * α) := by
      rw [← abs_mul_abs_self y]
      field_simp
      ring
    have : 0 ≤ (α * s - bm * |y|) ^ 2 / (2 * α) := by positivity
    linarith
  linarith

/-- The form is bounded from below by the energy, up to a multiple of the square of the function. -/
theorem garding (h : P.OnNodes X I) {D : Nat → Nat → Fin P.N → Fin P.N → ℝ} {β : Nat → Nat → Fin P.N → ℝ} {r : Nat → Nat → ℝ}
    (hop : P.Form D β r) {α bm γ : ℝ} (hα : 0 < α)
    (hD : ∀ c < P.n, ∀ k < size P.t, ∀ ξ : Fin P.N → ℝ, α * len ξ ^ 2 ≤ ∑ z, (∑ y, D c k z y * ξ y) * ξ z)
    (hβ : ∀ c < P.n, ∀ k < size P.t, len (β c k) ≤ bm) (hr : ∀ c < P.n, ∀ k < size P.t, -γ ≤ r c k)
    {v : Nat → ℝ} {V : Nat → Fin P.N → ℝ} {b : Nat → ℝ} (hv : P.Affine X v V b) :
    (∑ k ∈ Finset.range (size P.t), weight ℝ P.t k) * (α / 2 * P.energySq X V) - (bm ^ 2 / (2 * α) + γ) * P.l2 v v ≤ P.bilin v v := by
  rw [bilin_form h hop hv hv, energySq_eq h, Prob.l2, Finset.mul_sum, Finset.mul_sum, Finset.mul_sum, ← Finset.sum_sub_distrib]
  refine Finset.sum_le_sum fun c hc => ?_
  have hc' := Finset.mem_range.1 hc
  have hm := measure_pos h hc'
  rw [← len_sq, Finset.sum_mul, Finset.mul_sum, Finset.mul_sum, ← Finset.sum_sub_distrib]
  refine Finset.sum_le_sum fun k hk => ?_
  have hk' := Finset.mem_range.1 hk
  rw [fe_node h hv hc' hk']
  have a1 := garding_point (y := aff (V c) (b c) (P.point X c k)) hα (hD c hc' k hk' (V c))
    ((dot_le_len (β c k) (V c)).trans (mul_le_mul_of_nonneg_right (hβ c hc' k hk') (len_nonneg _))) (hr c hc' k hk')
  have a2 := mul_le_mul_of_nonneg_left a1 (mul_nonneg (weight_pos h hk').le hm.le)
  refine le_trans (le_of_eq ?_) (a2.trans (le_of_eq ?_))
  · simp only [aff, Prob.point]
    ring
  · ring

/-! ### Recursion of the errors -/

/-- Bounds of a sequence of errors `a` and of their energies `e`. -/
theorem growth (a e : Nat → ℝ) (m : Nat) {l dt F s κ : ℝ} (ha0 : a 0 = 0) (ha : ∀ i, 0 ≤ a i) (he : ∀ i, 0 ≤ e i) (hdt : 0 < dt) (hl : 0 ≤ l) (hF : 0 ≤ F)
    (hs : 0 ≤ s) (hκ : 0 ≤ κ) (hld : l * dt ≤ 1 / 2)
    (h : ∀ i, i + 1 < m → (1 - l * dt) * (a (i + 1) * a (i + 1)) + dt * (κ * e (i + 1)) ≤ a i * a (i + 1) + dt * (F * a (i + 1)) + dt * s) :
    ∀ i < m, a i ≤ Real.exp (2 * l * (i * dt)) * (i * dt * F + Real.sqrt (2 * (i * dt) * s)) := by
  have hq : 0 < 1 - l * dt := by linarith
  have hq1 : 1 - l * dt ≤ 1 := by linarith [mul_nonneg hl hdt.le]
  -- the sequence without growth
  have key : ∀ i < m, (1 - l * dt) ^ i * a i ≤ i * dt * F + Real.sqrt (2 * (i * dt) * s) := by
    intro i
    induction i with
    | zero => intro _; simp [ha0]
    | succ i ih =>
      intro hi
      have ih := ih (by omega)
      set q := 1 - l * dt with hqd
      have hqi : 0 < q ^ i := pow_pos hq i
      have hqi1 : q ^ i ≤ 1 := pow_le_one₀ hq.le hq1
      have h1 := h i hi
      have h2 : 0 ≤ dt * (κ * e (i + 1)) := mul_nonneg hdt.le (mul_nonneg hκ (he _))
      have h3 : q * (a (i + 1) * a (i + 1)) ≤ a i * a (i + 1) + dt * (F * a (i + 1)) + dt * s := by linarith
      have hi0 : 0 ≤ (i : ℝ) * dt := by positivity
      have h4 := recursion (a := q ^ i * a i) (a' := q ^ (i + 1) * a (i + 1)) (p := i * dt * F) (r := Real.sqrt (2 * (i * dt) * s)) (D := dt) (E := F) (s := s) ih
        (by positivity) (Real.sqrt_nonneg _) hdt.le hF hs (by
          have w1 : 0 ≤ q ^ i * q ^ (i + 1) := by positivity
          have h5 := mul_le_mul_of_nonneg_left h3 w1
          have h6 : q ^ i * q ^ (i + 1) ≤ 1 := mul_le_one₀ hqi1 (by positivity) (pow_le_one₀ hq.le hq1)
          have h7 : q ^ i * q ^ (i + 1) * (dt * s) ≤ dt * s := mul_le_of_le_one_left (mul_nonneg hdt.le hs) h6
          have h8 : q ^ i * (dt * F * (q ^ (i + 1) * a (i + 1))) ≤ dt * F * (q ^ (i + 1) * a (i + 1)) :=
            mul_le_of_le_one_left (mul_nonneg (mul_nonneg hdt.le hF) (mul_nonneg (by positivity) (ha _))) hqi1
          have e1 : q ^ (i + 1) * a (i + 1) * (q ^ (i + 1) * a (i + 1)) = q ^ i * q ^ (i + 1) * (q * (a (i + 1) * a (i + 1))) := by ring
          rw [e1]
          refine h5.trans ?_
          have e2 : q ^ i * q ^ (i + 1) * (a i * a (i + 1) + dt * (F * a (i + 1)) + dt * s) =
              q ^ i * a i * (q ^ (i + 1) * a (i + 1)) + q ^ i * (dt * F * (q ^ (i + 1) * a (i + 1))) + q ^ i * q ^ (i + 1) * (dt * s) := by ring
          rw [e2]
          linarith)
      rw [Real.sq_sqrt (by positivity)] at h4
      refine h4.trans (le_of_eq ?_)
      push_cast
      congr 1
      · ring
      · congr 1; ring
  intro i hi
  have h1 := key i hi
  have hx : 0 ≤ l * dt := mul_nonneg hl hdt.le
  have h2 : 1 ≤ (1 - l * dt) * Real.exp (2 * (l * dt)) := by
    have := Real.add_one_le_exp (2 * (l * dt))
    have h3 := mul_le_mul_of_nonneg_left this hq.le
    nlinarith
  have h3 : 1 ≤ (1 - l * dt) ^ i * Real.exp (2 * l * (i * dt)) := by
    have := one_le_pow₀ h2 (n := i)
    rw [mul_pow, ← Real.exp_nat_mul] at this
    rw [show 2 * l * (i * dt) = i * (2 * (l * dt)) by ring]
    exact this
  have h4 : a i ≤ Real.exp (2 * l * (i * dt)) * ((1 - l * dt) ^ i * a i) := by
    have := mul_le_mul_of_nonneg_right h3 (ha i)
    linarith
  exact h4.trans (mul_le_mul_of_nonneg_left h1 (Real.exp_nonneg _))

/-- Sum of the energies, for errors bounded by `A`. -/
theorem energies (a e : Nat → ℝ) (m : Nat) {l dt F s κ A : ℝ} (ha0 : a 0 = 0) (ha : ∀ i, 0 ≤ a i) (hdt : 0 < dt) (hl : 0 ≤ l) (hF : 0 ≤ F)
    (hA : ∀ i < m, a i ≤ A)
    (h : ∀ i, i + 1 < m → (1 - l * dt) * (a (i + 1) * a (i + 1)) + dt * (κ * e (i + 1)) ≤ a i * a (i + 1) + dt * (F * a (i + 1)) + dt * s) :
    ∀ i < m, κ * ∑ j ∈ Finset.range i, dt * e (j + 1) ≤ i * dt * (l * A ^ 2 + F * A + s) := by
  have key : ∀ i < m, a i ^ 2 / 2 + κ * ∑ j ∈ Finset.range i, dt * e (j + 1) ≤ i * dt * (l * A ^ 2 + F * A + s) := by
    intro i
    induction i with
    | zero => intro _; simp [ha0]
    | succ i ih =>
      intro hi
      have ih := ih (by omega)
      have h1 := h i hi
      have h2 : a i * a (i + 1) ≤ a i ^ 2 / 2 + a (i + 1) ^ 2 / 2 := by nlinarith [sq_nonneg (a i - a (i + 1))]
      have h3 : a (i + 1) ^ 2 ≤ A ^ 2 := pow_le_pow_left₀ (ha _) (hA _ hi) 2
      have h4 := mul_le_mul_of_nonneg_left h3 (mul_nonneg hl hdt.le)
      have h5 := mul_le_mul_of_nonneg_left (hA _ hi) (mul_nonneg hdt.le hF)
      rw [Finset.sum_range_succ]
      push_cast
      nlinarith
  intro i hi
  have := key i hi
  have := sq_nonneg (a i)
  linarith

/-- Errors of the steps, in the norm given by the quadrature, and their energies. -/
theorem parabolic_steps (h : P.OnNodes X I) (hP : P.Ok) (m : Nat) (u : Nat → (Fin P.N → ℝ) → ℝ) (fl ft : Nat → Nat → Nat → ℝ) {κ l Q E dt : ℝ} (hκ : 0 < κ)
    (hl : 0 ≤ l) (hQ : 0 ≤ Q) (hE : 0 ≤ E) (hdt : 0 < dt) (hld : l * dt ≤ 1 / 2)
    (hco : ∀ (v : Nat → ℝ) (V : Nat → Fin P.N → ℝ) (b : Nat → ℝ), P.Affine X v V b →
      (∑ k ∈ Finset.range (size P.t), weight ℝ P.t k) * (κ * P.energySq X V) - l * P.l2 v v ≤ P.bilin v v)
    (hres : ∀ i < m, ∀ (v : Nat → ℝ) (V : Nat → Fin P.N → ℝ) (b : Nat → ℝ), P.Test v → P.Affine X v V b →
      |P.load (fl i) v - P.bilin (fun p => u i fun z => X p z) v| ≤ (∑ k ∈ Finset.range (size P.t), weight ℝ P.t k) * (Q * Real.sqrt (P.energySq X V)))
    (hcl : ∀ i, i + 1 < m → ∀ c < P.n, ∀ k < size P.t, |ft (i + 1) c k - feValue P.nb (P.dofs c)
      (fun p => (u (i + 1) (fun z => X p z) - u i fun z => X p z) / dt) (fun j => P.psi j (node ℝ P.t k))| ≤ E)
    (sol : Nat → Nat → ℝ) (h0 : ∀ p, sol 0 p = u 0 fun z => X p z)
    (hbd : ∀ i, i + 1 < m → ∀ p < P.m, P.bd p = true → sol (i + 1) p = u (i + 1) fun z => X p z)
    (hst : ∀ i, i + 1 < m → ∀ v, P.Test v → P.l2 (fun p => (sol (i + 1) p - sol i p) / dt) v + P.bilin (sol (i + 1)) v =
      P.load (fun c k => ft (i + 1) c k + fl (i + 1) c k) v)
    (G : Nat → Nat → Fin P.N → ℝ) (b : Nat → Nat → ℝ) (hG : ∀ i, P.Affine X (fun p => sol i p - u i fun z => X p z) (G i) (b i)) {A : ℝ}
    (hA : ∀ i < m, Real.exp (2 * l * (i * dt)) * (i * dt * (E * Real.sqrt (∑ c ∈ Finset.range P.n, P.measure c)) + Real.sqrt (2 * (i * dt) * (Q ^ 2 / (2 * κ)))) ≤ A) :
    (∀ i < m, P.nrm (fun p => sol i p - u i fun z => X p z) ≤
      Real.exp (2 * l * (i * dt)) * (i * dt * (E * Real.sqrt (∑ c ∈ Finset.range P.n, P.measure c)) + Real.sqrt (2 * (i * dt) * (Q ^ 2 / (2 * κ))))) ∧
    ∀ i < m, κ / 4 * ∑ j ∈ Finset.range i, dt * P.energySq X (G (j + 1)) ≤
      i * dt * (l * A ^ 2 + E * Real.sqrt (∑ c ∈ Finset.range P.n, P.measure c) * A + Q ^ 2 / (2 * κ)) := by
  have hme : ∀ c < P.n, 0 < P.measure c := fun c hc => measure_pos h hc
  have hw : ∀ k < size P.t, 0 < weight ℝ P.t k := fun k hk => weight_pos h hk
  set V := Real.sqrt (∑ c ∈ Finset.range P.n, P.measure c) with hV
  have hV0 : 0 ≤ V := Real.sqrt_nonneg _
  set a : Nat → ℝ := fun i => P.nrm (fun p => sol i p - u i fun z => X p z) with ha
  have ha0 : a 0 = 0 := by
    have : (fun p => sol 0 p - u 0 fun z => X p z) = fun p => 0 * (0 : Nat → ℝ) p + 0 * (0 : Nat → ℝ) p := by
      funext p; simp [h0]
    rw [ha]
    dsimp only
    rw [this, Prob.nrm, l2_left P hP]
    simp
  have hstep : ∀ i, i + 1 < m → (1 - l * dt) * (a (i + 1) * a (i + 1)) + dt * (κ / 4 * P.energySq X (G (i + 1))) ≤
      a i * a (i + 1) + dt * (E * V * a (i + 1)) + dt * (Q ^ 2 / (2 * κ)) := by
    intro i hi
    set e : Nat → ℝ := fun p => sol (i + 1) p - u (i + 1) fun z => X p z with he
    set e' : Nat → ℝ := fun p => sol i p - u i fun z => X p z with he'
    set U : Nat → ℝ := fun p => u (i + 1) fun z => X p z with hU
    set d : Nat → ℝ := fun p => (u (i + 1) (fun z => X p z) - u i fun z => X p z) / dt with hd
    have hTest : P.Test e := fun p hp hb => by
      rw [he]; simp only; rw [hbd i hi p hp hb, sub_self]
    set σ := ∑ k ∈ Finset.range (size P.t), weight ℝ P.t k with hσ
    have hσ0 : 0 < σ := weights_pos h
    have hσ1 : σ ≤ 1 := weights_le h
    have hσ2 : 1 / 2 ≤ σ := weights_ge h
    set N := P.energySq X (G (i + 1)) with hN
    have hN0 : 0 ≤ N := energySq_nonneg h _
    have q1 := hst i hi e hTest
    have q2 : σ * (κ * N) - l * P.l2 e e ≤ P.bilin e e := hco e (G (i + 1)) (b (i + 1)) (hG (i + 1))
    have q3 : P.bilin e e = P.bilin (sol (i + 1)) e - P.bilin U e := by
      have := bilin_left P hP (-1) (sol (i + 1)) U e
      rw [show (fun p => sol (i + 1) p + -1 * U p) = e by funext p; rw [he, hU]; ring] at this
      rw [this]; ring
    have q4 : P.l2 (fun p => (sol (i + 1) p - sol i p) / dt) e - P.l2 d e = dt⁻¹ * (P.l2 e e - P.l2 e' e) := by
      have a1 : (fun p => (sol (i + 1) p - sol i p) / dt) = fun p => dt⁻¹ * (fun p => 1 * e p + -1 * e' p) p + 1 * d p := by
        funext p
        simp only [he, he', hd]
        field_simp
        ring
      rw [a1, l2_left P hP, l2_left P hP]
      ring
    have q5 : P.load (fun c k => ft (i + 1) c k + fl (i + 1) c k) e = P.load (ft (i + 1)) e + P.load (fl (i + 1)) e := by
      simp only [Prob.load, add_mul, mul_add, Finset.sum_add_distrib]
    have q6 := (le_abs_self _).trans (load_close h (ft (i + 1)) d e hE (hcl i hi))
    have q7 := (le_abs_self _).trans (hres (i + 1) hi e (G (i + 1)) (b (i + 1)) hTest (hG (i + 1)))
    rw [← hN] at q7
    rw [← hV] at q6
    have q8 : σ * (Q * Real.sqrt N) - σ * (κ * N) ≤ Q ^ 2 / (2 * κ) - κ / 4 * N := by
      have h1 : Q * Real.sqrt N ≤ Q ^ 2 / (2 * κ) + κ / 2 * N := by
        have e1 : Q ^ 2 / (2 * κ) + κ / 2 * (Real.sqrt N * Real.sqrt N) - Q * Real.sqrt N = (κ * Real.sqrt N - Q) ^ 2 / (2 * κ) := by
          field_simp
          ring
        have : 0 ≤ (κ * Real.sqrt N - Q) ^ 2 / (2 * κ) := by positivity
        rw [Real.mul_self_sqrt hN0] at e1
        linarith
      have h2 := mul_le_mul_of_nonneg_left h1 hσ0.le
      have h3 : σ * (Q ^ 2 / (2 * κ)) ≤ Q ^ 2 / (2 * κ) := mul_le_of_le_one_left (by positivity) hσ1
      have h4 := mul_le_mul_of_nonneg_right hσ2 (mul_nonneg hκ.le hN0)
      linarith
    have q9 : dt⁻¹ * (P.l2 e e - P.l2 e' e) + κ / 4 * N ≤ E * (V * P.nrm e) + Q ^ 2 / (2 * κ) + l * P.l2 e e := by linarith
    have q10 := mul_le_mul_of_nonneg_left q9 hdt.le
    rw [mul_add, ← mul_assoc, mul_inv_cancel₀ hdt.ne', one_mul] at q10
    have c1 := (le_abs_self _).trans (l2_cauchy P hP hme hw e' e)
    have q11 : P.nrm e * P.nrm e = P.l2 e e := Real.mul_self_sqrt (l2_nonneg P hme hw e)
    show (1 - l * dt) * (P.nrm e * P.nrm e) + dt * (κ / 4 * N) ≤ P.nrm e' * P.nrm e + dt * (E * V * P.nrm e) + dt * (Q ^ 2 / (2 * κ))
    rw [q11]
    linarith
  have hgr := growth a (fun i => P.energySq X (G i)) m ha0 (fun i => Real.sqrt_nonneg _) (fun i => energySq_nonneg h _) hdt hl (mul_nonneg hE hV0) (by positivity)
    (by positivity) hld hstep
  exact ⟨hgr, energies a (fun i => P.energySq X (G i)) m ha0 (fun i => Real.sqrt_nonneg _) hdt hl (mul_nonneg hE hV0) (fun i hi => (hgr i hi).trans (hA i hi)) hstep⟩

/-- The error of the gradient: interpolation, and the distance from the interpolant. -/
theorem grad_split (h : P.OnNodes X I) {hh ρ M : ℝ} (hs : P.Shape X hh ρ) (hρ : 0 < ρ) {u : (Fin P.N → ℝ) → ℝ} {q : (Fin P.N → ℝ) → Fin P.N → ℝ}
    (hu : P.Smooth X u q M) (hM : 0 ≤ M) {Y W : Nat → Fin P.N → ℝ} (hYs : P.Slope X (fun p => u fun z => X p z) Y) :
    P.errorSq X q W ≤ 2 * (((P.N + 1) * M * hh ^ 2 / (2 * ρ)) ^ 2 * ∑ c ∈ Finset.range P.n, P.measure c) + 2 * P.energySq X fun c z => W c z - Y c z := by
  set A := (P.N + 1) * M * hh ^ 2 / (2 * ρ) with hA
  rw [Prob.errorSq, energySq_eq h, Finset.mul_sum, Finset.mul_sum, Finset.mul_sum, ← Finset.sum_add_distrib]
  refine Finset.sum_le_sum fun c hc => ?_
  have hc' := Finset.mem_range.1 hc
  have hcont : ContinuousOn (fun x => ∑ z : Fin P.N, (q x z - W c z) ^ 2) (P.cell X c) :=
    continuousOn_finsetSum _ fun z _ => (((continuousOn_pi.1 (hu.cont c hc')) z).sub continuousOn_const).pow 2
  refine (setIntegral_mono_on (hcont.integrableOn_compact (cell_compact c)) (int_const c (2 * A ^ 2 + 2 * ∑ z, (W c z - Y c z) ^ 2)) (cell_compact c).measurableSet
    fun x hx => ?_).trans (le_of_eq ?_)
  · have i1 := C112_interpolation h hs hρ hu hM Y hYs hc' hx
    refine le_trans ?_ (add_le_add (mul_le_mul_of_nonneg_left i1 (by norm_num : (0:ℝ) ≤ 2)) le_rfl)
    rw [Finset.mul_sum, Finset.mul_sum, ← Finset.sum_add_distrib]
    exact Finset.sum_le_sum fun z _ => by nlinarith [sq_nonneg ((q x z - Y c z) + (W c z - Y c z))]
  · rw [cell_const h hc']; ring

end Fdapde.PDE
