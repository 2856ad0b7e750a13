import Verif.PDE.LemmasQuadError
set_option linter.unusedSectionVars false
/-
Second order elements on triangles of the plane: the error on the mesh.
-/
namespace Fdapde.PDE
open Fdapde.Quadrature MeasureTheory Matrix Fdapde.Geometry Fdapde.FEM

variable {n nNodes : Nat} {cells : Nat → Nat → Nat} {X : Nat → Vec 2} {dofs : (Nat → Nat → Option Nat) × (Nat → Bool) × Nat}

/-- Form and load on a cell. -/
noncomputable def aC (S : Simplex 2 2) (u v : Fin 6 → ℝ) : ℝ := S.measure * ∑ k ∈ Finset.range 6, qwt k * ∑ z, g2 S u (qpt S k) z * g2 S v (qpt S k) z
noncomputable def lC (S : Simplex 2 2) (f : Vec 2 → ℝ) (v : Fin 6 → ℝ) : ℝ := S.measure * ∑ k ∈ Finset.range 6, qwt k * (f (qpt S k) * q2 S v (qpt S k))

theorem bilin2 (hp : Proper 3 n cells X) (u v : Nat → ℝ) : (prob2 (.neg .lap) cells n X dofs).bilin u v =
    ∑ c ∈ Finset.range n, aC (cellOf 2 cells X c) (loc (prob2 (.neg .lap) cells n X dofs).dofs u c) (loc (prob2 (.neg .lap) cells n X dofs).dofs v c) := by
  refine Finset.sum_congr rfl fun c hc => ?_
  have hS := proper_nondeg hp (Finset.mem_range.1 hc)
  rw [aC]
  refine congrArg₂ (· * ·) (cellMeasure_full (cellOf 2 cells X c)) ?_
  refine Finset.sum_congr rfl fun k hk => ?_
  have hk' : k < 6 := Finset.mem_range.1 hk
  refine congrArg₂ (· * ·) rfl ?_
  show - -dot 2 _ _ = _
  rw [neg_neg, dot, Finset.sum_range]
  refine Finset.sum_congr rfl fun z _ => ?_
  exact congrArg₂ (· * ·) (grad_g2 hS u hk' z) (grad_g2 hS v hk' z)

theorem load2 (hp : Proper 3 n cells X) (F : Nat → Nat → ℝ) (f : Vec 2 → ℝ) (hF : ∀ c < n, ∀ k < 6, F c k = f (qpt (cellOf 2 cells X c) k)) (v : Nat → ℝ) :
    (prob2 (.neg .lap) cells n X dofs).load F v = ∑ c ∈ Finset.range n, lC (cellOf 2 cells X c) f (loc (prob2 (.neg .lap) cells n X dofs).dofs v c) := by
  refine Finset.sum_congr rfl fun c hc => ?_
  have hS := proper_nondeg hp (Finset.mem_range.1 hc)
  rw [lC]
  refine congrArg₂ (· * ·) (cellMeasure_full (cellOf 2 cells X c)) ?_
  refine Finset.sum_congr rfl fun k hk => ?_
  refine congrArg₂ (· * ·) rfl (congrArg₂ (· * ·) (hF c (Finset.mem_range.1 hc) k (Finset.mem_range.1 hk)) ?_)
  exact value_q2 hS v k

theorem aC_sub (S : Simplex 2 2) (u u' v : Fin 6 → ℝ) : aC S (fun i => u i - u' i) v = aC S u v - aC S u' v := by
  rw [aC, aC, aC, ← mul_sub, ← Finset.sum_sub_distrib]
  congr 1
  refine Finset.sum_congr rfl fun k _ => ?_
  rw [← mul_sub, ← Finset.sum_sub_distrib]
  congr 1
  exact Finset.sum_congr rfl fun z _ => by rw [g2_sub]; ring

theorem quad_measure (h : GoodMesh 3 n nNodes cells X) : ∑ c ∈ Finset.range n, (cellOf 2 cells X c).measure = (volume (domain 3 n cells X)).toReal := by
  rw [← domain_volume (N := 2) h]
  refine Finset.sum_congr rfl fun c _ => ?_
  have := tri_const (S := cellOf 2 cells X c) 1
  rw [mul_one, setIntegral_const, smul_eq_mul, mul_one, tri_region] at this
  exact this.symm

variable {u : Vec 2 → ℝ} {G M B L hh ρ : ℝ} {fs : List (List Nat)} {D : Nat → Nat → Nat}

theorem mul_pk {S : Simplex 2 2} (hm : 0 < S.measure) (w : Fin 6 → ℝ) :
    S.measure * pk S hh w = Real.sqrt S.measure * Real.sqrt (2 * en0 S w + 24 * hh ^ 2 * en1 S w) := by
  rw [pk, Real.sqrt_div' _ hm.le, mul_div_assoc', div_eq_iff (Real.sqrt_pos.2 hm).ne']
  linear_combination -Real.sqrt (2 * en0 S w + 24 * hh ^ 2 * en1 S w) * Real.mul_self_sqrt hm.le

theorem mul_gsq {S : Simplex 2 2} (hS : S.Nondeg) (hm : 0 < S.measure) (w : Fin 6 → ℝ) :
    S.measure * Real.sqrt (gsq S w) ≤ Real.sqrt S.measure * Real.sqrt (12 * en1 S w) := by
  have : S.measure * Real.sqrt (gsq S w) = Real.sqrt S.measure * Real.sqrt (S.measure * gsq S w) := by
    rw [Real.sqrt_mul hm.le, ← mul_assoc, Real.mul_self_sqrt hm.le]
  rw [this]
  exact mul_le_mul_of_nonneg_left (Real.sqrt_le_sqrt (gsq_en1 hS _)) (Real.sqrt_nonneg _)

theorem alg_cell {m l I1 a I2 T p T' q P Q : ℝ} (hT' : 0 ≤ T') (h2 : l - I1 ≤ m * (T * p)) (h1 : -(m * (T' * q)) ≤ a - I2) (hp : m * p = P) (hq : m * q ≤ Q) :
    l - a ≤ (I1 - I2) + (T * P + T' * Q) := by
  have := mul_le_mul_of_nonneg_left hq hT'
  subst hp
  nlinarith

theorem alg_energy {E V T T' k A C : ℝ} (hE : 0 ≤ E) (hV : 0 ≤ V) (hT : 0 ≤ T) (hT' : 0 ≤ T') (hk : 0 ≤ k)
    (hA : A ≤ Real.sqrt V * Real.sqrt (k * E)) (hC : C ≤ Real.sqrt V * Real.sqrt (12 * E)) (h : 1 / 2 * E ≤ T * A + T' * C) :
    E ≤ 8 * (T ^ 2 * k + 12 * T' ^ 2) * V := by
  rw [Real.sqrt_mul hk] at hA
  rw [Real.sqrt_mul (by norm_num)] at hC
  have a1 := Real.sq_sqrt hV
  have a2 := Real.sq_sqrt hE
  have a3 := Real.sq_sqrt hk
  have a4 := Real.sq_sqrt (show (0 : ℝ) ≤ 12 by norm_num)
  have b1 := Real.sqrt_nonneg V
  have b2 := Real.sqrt_nonneg E
  have b3 := Real.sqrt_nonneg k
  have b4 := Real.sqrt_nonneg 12
  have c1 := mul_le_mul_of_nonneg_left hA hT
  have c2 := mul_le_mul_of_nonneg_left hC hT'
  generalize Real.sqrt V = v at *
  generalize Real.sqrt E = s at *
  generalize Real.sqrt k = p at *
  generalize Real.sqrt 12 = q at *
  have h1 : s * s ≤ s * (2 * v * (T * p + T' * q)) := by nlinarith
  have h2 : s ≤ 2 * v * (T * p + T' * q) := by
    rcases b2.eq_or_lt with e | e
    · rw [← e]; positivity
    · exact le_of_mul_le_mul_left h1 e
  have h3 := pow_le_pow_left₀ b2 h2 2
  have h4 : (2 * v * (T * p + T' * q)) ^ 2 = 4 * V * (T * p + T' * q) ^ 2 := by rw [mul_pow, mul_pow, a1]; ring
  have h5 : (T * p + T' * q) ^ 2 ≤ 2 * (T ^ 2 * k + 12 * T' ^ 2) := by
    have : 0 ≤ (T * p - T' * q) ^ 2 := sq_nonneg _
    have e1 : (T * p) ^ 2 = T ^ 2 * k := by rw [mul_pow, a3]
    have e2 : (T' * q) ^ 2 = 12 * T' ^ 2 := by rw [mul_pow, a4]; ring
    nlinarith
  have h6 := mul_le_mul_of_nonneg_left h5 (by positivity : 0 ≤ 4 * V)
  nlinarith

/-- The energy of the difference between the discrete solution and the interpolant. -/
theorem quad_energy (h : GoodMesh 3 n nNodes cells X) (hs : MeshShape n cells X hh ρ) (hρ : 0 < ρ) (h0 : 0 ≤ hh) (hu : SmoothOn3 n cells X u G M B L)
    (hM : 0 ≤ M) (hL : 0 ≤ L) (hG : 0 ≤ G) (hB : 0 ≤ B) (hD : Numbered cells n nNodes fs D) {e : Nat → ℝ} (hv : Vanish cells n D e)
    (he : ∑ c ∈ Finset.range n, aC (cellOf 2 cells X c) (loc D e c) (loc D e c) =
      ∑ c ∈ Finset.range n, (lC (cellOf 2 cells X c) (fun x => -laplacian u x) (loc D e c) -
        aC (cellOf 2 cells X c) (fun i => u (nodes6 (cellOf 2 cells X c) i)) (loc D e c)))
    (z : Fin 2) {a ℓ : ℝ} (hl : ∀ x ∈ domain 3 n cells X, |x z - a| ≤ ℓ) :
    ∑ c ∈ Finset.range n, en1 (cellOf 2 cells X c) (loc D e c) ≤
      8 * ((3 * (L * hh ^ 2) + 275 / 10 ^ 14 * B) ^ 2 * (8 * ℓ ^ 2 + 24 * hh ^ 2) +
        12 * (2 * (42 * M * hh ^ 3 / ρ) + 50 / 10 ^ 14 * (G + 42 * M * hh ^ 3 / ρ)) ^ 2) * (volume (domain 3 n cells X)).toReal := by
  set T := 3 * (L * hh ^ 2) + 275 / 10 ^ 14 * B with hT
  set R := 42 * M * hh ^ 3 / ρ with hR
  set T' := 2 * R + 50 / 10 ^ 14 * (G + R) with hT'
  have hR0 : 0 ≤ R := by positivity
  have hT0 : 0 ≤ T := by positivity
  have hT0' : 0 ≤ T' := by positivity
  set E := ∑ c ∈ Finset.range n, en1 (cellOf 2 cells X c) (loc D e c) with hE
  set V := (volume (domain 3 n cells X)).toReal with hV
  have hV0 : 0 ≤ V := ENNReal.toReal_nonneg
  have hE0 : 0 ≤ E := Finset.sum_nonneg fun c _ => en1_nonneg _
  obtain ⟨U, hU, hDo, hC⟩ := hu.smooth
  have hw := weak2 h hD hv ⟨U, hU, hDo, hC.of_le (by norm_num)⟩
  have hmp : ∀ c < n, 0 < (cellOf 2 cells X c).measure := fun c hc => by
    have := cellMeasure_pos (d := 2) (N := 2) (by unfold Dims; decide) (proper_nondeg h.proper hc)
    rwa [cellMeasure_full] at this
  -- the inequality on a cell
  have hcell : ∀ c ∈ Finset.range n, lC (cellOf 2 cells X c) (fun x => -laplacian u x) (loc D e c) -
        aC (cellOf 2 cells X c) (fun i => u (nodes6 (cellOf 2 cells X c) i)) (loc D e c) ≤
      ((∫ x in region 3 cells X c, -laplacian u x * q2 (cellOf 2 cells X c) (loc D e c) x) -
        ∫ x in region 3 cells X c, ∑ z, pderiv u z x * g2 (cellOf 2 cells X c) (loc D e c) x z) +
      (T * (Real.sqrt (cellOf 2 cells X c).measure * Real.sqrt (2 * en0 (cellOf 2 cells X c) (loc D e c) + 24 * hh ^ 2 * en1 (cellOf 2 cells X c) (loc D e c))) +
        T' * (Real.sqrt (cellOf 2 cells X c).measure * Real.sqrt (12 * en1 (cellOf 2 cells X c) (loc D e c)))) := by
    intro c hc
    have hc' := Finset.mem_range.1 hc
    have hN := proper_nondeg h.proper hc'
    obtain ⟨-, hdm⟩ := quad_shape h hs hρ hc'
    have hsub : region 3 cells X c ⊆ U := (region_domain (N := 2) hc').trans hDo
    have c1 : ∀ z, ContinuousOn (fun x => pderiv u z x) (tri (cellOf 2 cells X c)) := fun z => by
      rw [tri_region]
      exact ((hC.fderiv_of_isOpen hU (m := 2) (by norm_num)).clm_apply contDiffOn_const).continuousOn.mono hsub
    have c2 : ContinuousOn (fun x => -laplacian u x) (tri (cellOf 2 cells X c)) := by
      rw [tri_region]
      exact (ContinuousOn.neg fun x hx => (smooth_deriv hu hc' hx).2.2.continuousAt.continuousWithinAt)
    have k1 := cell_consistent hN (loc D e c) (fun i => u (nodes6 (cellOf 2 cells X c) i)) (q := fun x z => pderiv u z x) c1 (G := G) (R := R)
      (fun x hx z => hu.first x (region_domain (N := 2) hc' (by rwa [← tri_region])) z)
      fun x hx z => (quad_interp h hs hρ h0 hu hM hc' (by rwa [← tri_region])).2 z
    have k2 := cell_load hN (hmp c hc') (loc D e c) hdm c2 (fun v => -laplacian u ((cellOf 2 cells X c).coords v)) (A := B) (ε := L * hh ^ 2)
      (fun v => by
        rw [abs_neg]
        exact hu.bound _ (region_domain (N := 2) hc' (by rw [← tri_region]; exact vertex_mem v)))
      fun x hx => quad_source h hs hρ h0 hu hL hc' (by rwa [← tri_region])
    rw [tri_region] at k1 k2
    have k1' := (abs_le.1 k1).1
    have k2' := (abs_le.1 k2).2
    exact alg_cell hT0' k2' k1' (mul_pk (hmp c hc') _) (mul_gsq hN (hmp c hc') _)
  have hco : 1 / 2 * E ≤ ∑ c ∈ Finset.range n, aC (cellOf 2 cells X c) (loc D e c) (loc D e c) := by
    rw [hE, Finset.mul_sum]
    exact Finset.sum_le_sum fun c hc => cell_coercive (proper_nondeg h.proper (Finset.mem_range.1 hc)) _
  have hsum := hco.trans (he.le.trans (Finset.sum_le_sum hcell))
  rw [Finset.sum_add_distrib, Finset.sum_sub_distrib, hw, sub_self, zero_add, Finset.sum_add_distrib, ← Finset.mul_sum, ← Finset.mul_sum] at hsum
  have hk0 : 0 ≤ 8 * ℓ ^ 2 + 24 * hh ^ 2 := by positivity
  have hmn : ∀ c, 0 ≤ (cellOf 2 cells X c).measure := fun c => by
    rw [Simplex.measure]; positivity
  have hfr := friedrichs2 h hD hv z (a := a) (ℓ := ℓ) fun c hc x hx => hl x (region_domain (N := 2) hc hx)
  refine alg_energy hE0 hV0 hT0 hT0' hk0 ?_ ?_ hsum
  · refine (Real.sum_sqrt_mul_sqrt_le _ hmn fun c => ?_).trans ?_
    · have := en0_nonneg (S := cellOf 2 cells X c) (loc D e c)
      have := en1_nonneg (S := cellOf 2 cells X c) (loc D e c)
      positivity
    · rw [quad_measure h]
      refine mul_le_mul_of_nonneg_left (Real.sqrt_le_sqrt ?_) (Real.sqrt_nonneg _)
      rw [Finset.sum_add_distrib, ← Finset.mul_sum, ← Finset.mul_sum]
      nlinarith
  · refine (Real.sum_sqrt_mul_sqrt_le _ hmn fun c => ?_).trans ?_
    · have := en1_nonneg (S := cellOf 2 cells X c) (loc D e c)
      positivity
    · rw [quad_measure h, ← Finset.mul_sum]

/-! ### Polynomials -/

/-- The barycentric coordinates as polynomials. -/
noncomputable def bp (S : Simplex 2 2) (v : Fin 3) : MvPolynomial (Fin 2) ℝ :=
  .C (S.bary 0 v) + (.C (dLam S v 0) * .X 0 + .C (dLam S v 1) * .X 1)

/-- The function of second order as a polynomial. -/
noncomputable def qp (S : Simplex 2 2) (w : Fin 6 → ℝ) : MvPolynomial (Fin 2) ℝ :=
  .C (w 0) * (bp S 0 * (.C 2 * bp S 0 - .C 1)) + .C (w 1) * (bp S 1 * (.C 2 * bp S 1 - .C 1)) + .C (w 2) * (bp S 2 * (.C 2 * bp S 2 - .C 1)) +
    .C (w 3 * 4) * (bp S 0 * bp S 1) + .C (w 4 * 4) * (bp S 0 * bp S 2) + .C (w 5 * 4) * (bp S 1 * bp S 2)

theorem bp_eval (S : Simplex 2 2) (v : Fin 3) (x : Vec 2) : MvPolynomial.eval x (bp S v) = S.bary x v := by
  have h := bary_diff (S := S) x 0 v
  rw [Fin.sum_univ_two] at h
  simp only [bp, map_add, map_mul, MvPolynomial.eval_C, MvPolynomial.eval_X]
  simp only [Pi.zero_apply, sub_zero] at h
  linarith

theorem bp_pderiv (S : Simplex 2 2) (v : Fin 3) (z : Fin 2) : MvPolynomial.pderiv z (bp S v) = .C (dLam S v z) := by
  fin_cases z <;> simp [bp, MvPolynomial.pderiv_C, MvPolynomial.pderiv_C_mul, MvPolynomial.pderiv_X]

theorem bp_degree (S : Simplex 2 2) (v : Fin 3) : (bp S v).totalDegree ≤ 1 := by
  have h : ∀ a z, (MvPolynomial.C a * MvPolynomial.X z : MvPolynomial (Fin 2) ℝ).totalDegree ≤ 1 := fun a z =>
    (MvPolynomial.totalDegree_mul _ _).trans (by rw [MvPolynomial.totalDegree_C, MvPolynomial.totalDegree_X])
  refine (MvPolynomial.totalDegree_add _ _).trans (max_le (by rw [MvPolynomial.totalDegree_C]; omega) ?_)
  exact (MvPolynomial.totalDegree_add _ _).trans (max_le (h _ _) (h _ _))

theorem qp_eval (S : Simplex 2 2) (w : Fin 6 → ℝ) (x : Vec 2) : MvPolynomial.eval x (qp S w) = q2 S w x := by
  simp only [qp, map_add, map_mul, map_sub, MvPolynomial.eval_C, bp_eval, q2]
  ring

theorem qp_pderiv (S : Simplex 2 2) (w : Fin 6 → ℝ) (x : Vec 2) (z : Fin 2) : MvPolynomial.eval x (MvPolynomial.pderiv z (qp S w)) = g2 S w x z := by
  simp only [qp, map_add, map_sub, Derivation.leibniz, bp_pderiv, MvPolynomial.pderiv_C, smul_eq_mul, map_mul, MvPolynomial.eval_C, bp_eval, map_zero, g2]
  ring

theorem qp_degree (S : Simplex 2 2) (w : Fin 6 → ℝ) : (qp S w).totalDegree ≤ 2 := by
  have hm : ∀ a (p q : MvPolynomial (Fin 2) ℝ), p.totalDegree ≤ 1 → q.totalDegree ≤ 1 → (MvPolynomial.C a * (p * q)).totalDegree ≤ 2 := by
    intro a p q hp hq
    refine (MvPolynomial.totalDegree_mul _ _).trans ?_
    rw [MvPolynomial.totalDegree_C]
    have := MvPolynomial.totalDegree_mul p q
    omega
  have hb := bp_degree S
  have hb' : ∀ v, (MvPolynomial.C 2 * bp S v - MvPolynomial.C 1 : MvPolynomial (Fin 2) ℝ).totalDegree ≤ 1 := by
    intro v
    refine (MvPolynomial.totalDegree_sub _ _).trans (max_le ?_ (by rw [MvPolynomial.totalDegree_C]; omega))
    refine (MvPolynomial.totalDegree_mul _ _).trans ?_
    rw [MvPolynomial.totalDegree_C]
    have := hb v
    omega
  have ha : ∀ p q : MvPolynomial (Fin 2) ℝ, p.totalDegree ≤ 2 → q.totalDegree ≤ 2 → (p + q).totalDegree ≤ 2 := fun p q hp hq =>
    (MvPolynomial.totalDegree_add _ _).trans (max_le hp hq)
  exact ha _ _ (ha _ _ (ha _ _ (ha _ _ (ha _ _ (hm _ _ _ (hb 0) (hb' 0)) (hm _ _ _ (hb 1) (hb' 1))) (hm _ _ _ (hb 2) (hb' 2)))
    (hm _ _ _ (hb 0) (hb 1))) (hm _ _ _ (hb 0) (hb 2))) (hm _ _ _ (hb 1) (hb 2))

/-! ### Errors -/

/-- Square of the error of a sum. -/
theorem sq_int {S : Simplex 2 2} {f g e : Vec 2 → ℝ} (hf : ContinuousOn f (tri S)) (hg : Continuous g) (he : Continuous e) {ε : ℝ}
    (h : ∀ x ∈ tri S, |f x - g x| ≤ ε) :
    ∫ x in tri S, (f x - (e x + g x)) ^ 2 ≤ 2 * ε ^ 2 * S.measure + 2 * ∫ x in tri S, e x ^ 2 := by
  have i1 : IntegrableOn (fun x => (f x - (e x + g x)) ^ 2) (tri S) := tri_int ((hf.sub (he.add hg).continuousOn).pow 2)
  have i2 : IntegrableOn (fun x => 2 * e x ^ 2) (tri S) := tri_int (continuous_const.mul (he.pow 2)).continuousOn
  have i3 : IntegrableOn (fun _ : Vec 2 => 2 * ε ^ 2) (tri S) := tri_int continuousOn_const
  have : ∫ x in tri S, (f x - (e x + g x)) ^ 2 ≤ ∫ x in tri S, (2 * ε ^ 2 + 2 * e x ^ 2) := by
    refine setIntegral_mono_on i1 (i3.add i2) tri_compact.measurableSet fun x hx => ?_
    have h1 := sq_le_sq' (by linarith [neg_abs_le (f x - g x), h x hx]) ((le_abs_self _).trans (h x hx))
    nlinarith [sq_nonneg (f x - g x + e x)]
  rw [integral_add i3 i2, tri_const, integral_const_mul] at this
  linarith

theorem quad_errors (h : GoodMesh 3 n nNodes cells X) (hs : MeshShape n cells X hh ρ) (hρ : 0 < ρ) (h0 : 0 ≤ hh) (hu : SmoothOn3 n cells X u G M B L)
    (hM : 0 ≤ M) (D : Nat → Nat → Nat) (w e : Nat → ℝ) (he : ∀ c < n, ∀ i : Fin 6, w (D c i) = e (D c i) + u (nodes6 (cellOf 2 cells X c) i)) :
    gradError2 n cells X u (fun c => qp (cellOf 2 cells X c) (loc D w c)) ≤
        4 * (42 * M * hh ^ 3 / ρ) ^ 2 * (volume (domain 3 n cells X)).toReal + 2 * ∑ c ∈ Finset.range n, en1 (cellOf 2 cells X c) (loc D e c) ∧
      valueError2 n cells X u (fun c => qp (cellOf 2 cells X c) (loc D w c)) ≤
        2 * (12 * M * hh ^ 3) ^ 2 * (volume (domain 3 n cells X)).toReal + 2 * ∑ c ∈ Finset.range n, en0 (cellOf 2 cells X c) (loc D e c) := by
  obtain ⟨U, hU, hDo, hC⟩ := hu.smooth
  have hloc : ∀ c < n, loc D e c = fun i => loc D w c i - u (nodes6 (cellOf 2 cells X c) i) := fun c hc => by
    funext i
    have : w (D c i) = _ := he c hc i
    show e (D c i) = w (D c i) - _
    rw [this]; ring
  rw [← quad_measure h]
  constructor
  · rw [gradError2, Finset.mul_sum, Finset.mul_sum, ← Finset.sum_add_distrib]
    refine Finset.sum_le_sum fun c hc => ?_
    have hc' := Finset.mem_range.1 hc
    have hsub : region 3 cells X c ⊆ U := (region_domain (N := 2) hc').trans hDo
    set S := cellOf 2 cells X c with hS
    have c1 : ∀ z, ContinuousOn (fun x => pderiv u z x) (tri S) := fun z => by
      rw [tri_region]
      exact ((hC.fderiv_of_isOpen hU (m := 2) (by norm_num)).clm_apply contDiffOn_const).continuousOn.mono hsub
    have key : ∀ z, ∫ x in tri S, (pderiv u z x - g2 S (loc D w c) x z) ^ 2 ≤
        2 * (42 * M * hh ^ 3 / ρ) ^ 2 * S.measure + 2 * ∫ x in tri S, g2 S (loc D e c) x z ^ 2 := by
      intro z
      have := sq_int (S := S) (c1 z) (g2_cont (S := S) (fun i => u (nodes6 S i)) z) (g2_cont (S := S) (loc D e c) z) (ε := 42 * M * hh ^ 3 / ρ)
        fun x hx => (quad_interp h hs hρ h0 hu hM hc' (by rwa [← tri_region])).2 z
      refine (le_of_eq ?_).trans this
      refine integral_congr_ae (Filter.Eventually.of_forall fun x => ?_)
      show (_ - _) ^ 2 = (_ - (g2 S (loc D e c) x z + g2 S (fun i => u (nodes6 S i)) x z)) ^ 2
      rw [hloc c hc', g2_sub]
      ring
    have e1 : en1 S (loc D e c) = ∑ z, ∫ x in tri S, g2 S (loc D e c) x z ^ 2 := by
      rw [en1, integral_finsetSum]
      exact fun z _ => tri_int ((g2_cont _ z).pow 2).continuousOn
    have e2 : ∫ x in region 3 cells X c, ∑ z, (pderiv u z x - MvPolynomial.eval x (MvPolynomial.pderiv z (qp S (loc D w c)))) ^ 2 =
        ∑ z, ∫ x in tri S, (pderiv u z x - g2 S (loc D w c) x z) ^ 2 := by
      simp only [qp_pderiv]
      rw [← tri_region, integral_finsetSum]
      exact fun z _ => tri_int (((c1 z).sub (g2_cont _ z).continuousOn).pow 2)
    rw [e2, e1, Fin.sum_univ_two, Fin.sum_univ_two]
    have k0 := key 0
    have k1 := key 1
    linarith
  · rw [valueError2, Finset.mul_sum, Finset.mul_sum, ← Finset.sum_add_distrib]
    refine Finset.sum_le_sum fun c hc => ?_
    have hc' := Finset.mem_range.1 hc
    have hsub : region 3 cells X c ⊆ U := (region_domain (N := 2) hc').trans hDo
    set S := cellOf 2 cells X c with hS
    have c1 : ContinuousOn u (tri S) := by
      rw [tri_region]
      exact hC.continuousOn.mono hsub
    have := sq_int (S := S) c1 (q2_cont (S := S) (fun i => u (nodes6 S i))) (q2_cont (S := S) (loc D e c)) (ε := 12 * M * hh ^ 3)
        fun x hx => (quad_interp h hs hρ h0 hu hM hc' (by rwa [← tri_region])).1
    refine (le_of_eq ?_).trans this
    simp only [qp_eval]
    rw [← tri_region]
    refine integral_congr_ae (Filter.Eventually.of_forall fun x => ?_)
    show (_ - _) ^ 2 = (_ - (q2 S (loc D e c) x + q2 S (fun i => u (nodes6 S i)) x)) ^ 2
    rw [hloc c hc', q2_sub]
    ring

end Fdapde.PDE
