import Verif.PDE.LemmasQuadRule
set_option linter.unusedSectionVars false
/-
Second order elements on a triangle: inverse inequalities and the errors of the rule.
-/
namespace Fdapde.PDE
open Fdapde.Quadrature MeasureTheory Matrix Fdapde.Geometry Fdapde.FEM

variable {S : Simplex 2 2}

/-- Squares of the gradient at the vertices. -/
noncomputable def gsq (S : Simplex 2 2) (w : Fin 6 → ℝ) : ℝ := ∑ z, ∑ v : Fin 3, g2 S w (S.coords v) z ^ 2
/-- Squares of the norms of the gradient and of the values. -/
noncomputable def en1 (S : Simplex 2 2) (w : Fin 6 → ℝ) : ℝ := ∫ x in tri S, ∑ z, g2 S w x z ^ 2
noncomputable def en0 (S : Simplex 2 2) (w : Fin 6 → ℝ) : ℝ := ∫ x in tri S, q2 S w x ^ 2

theorem gsq_nonneg (w : Fin 6 → ℝ) : 0 ≤ gsq S w := Finset.sum_nonneg fun _ _ => Finset.sum_nonneg fun _ _ => sq_nonneg _
theorem en1_nonneg (w : Fin 6 → ℝ) : 0 ≤ en1 S w := integral_nonneg fun _ => Finset.sum_nonneg fun _ _ => sq_nonneg _
theorem en0_nonneg (w : Fin 6 → ℝ) : 0 ≤ en0 S w := integral_nonneg fun _ => sq_nonneg _

theorem tri_int {f : Vec 2 → ℝ} (hf : ContinuousOn f (tri S)) : IntegrableOn f (tri S) := hf.integrableOn_compact tri_compact

theorem tri_const (a : ℝ) : ∫ _ in tri S, a = S.measure * a := by
  rw [setIntegral_const, smul_eq_mul, C108_measure]
  rfl

theorem g2_a1 (hS : S.Nondeg) (w : Fin 6 → ℝ) (z : Fin 2) : ∃ F : Fin 3 → ℝ, (∀ v, F v = g2 S w (S.coords v) z) ∧ ∀ x, g2 S w x z = a1 S F x :=
  ⟨fun v => g2 S w (S.coords v) z, fun _ => rfl, fun x => g2_affine w hS x z⟩

theorem gsq_en1 (hS : S.Nondeg) (w : Fin 6 → ℝ) : S.measure * gsq S w ≤ 12 * en1 S w := by
  have h := fun z => affine_sq hS fun v => g2 S w (S.coords v) z
  have e : en1 S w = ∑ z, ∫ x in tri S, g2 S w x z ^ 2 := by
    rw [en1, integral_finsetSum]
    exact fun z _ => tri_int ((g2_cont w z).pow 2).continuousOn
  rw [e, gsq]
  simp only [Fin.sum_univ_two, Fin.sum_univ_three]
  have h0 := h 0
  have h1 := h 1
  simp only [← g2_affine w hS] at h0 h1
  linarith

theorem g2_le_gsq (hS : S.Nondeg) (w : Fin 6 → ℝ) {x : Vec 2} (hx : x ∈ tri S) : ∑ z, g2 S w x z ^ 2 ≤ gsq S w := by
  refine Finset.sum_le_sum fun z _ => ?_
  rw [g2_affine w hS x z, Fin.sum_univ_three]
  have hs := bary_sum3 (S := S) x
  have h0 := bary_nonneg hS hx 0
  have h1 := bary_nonneg hS hx 1
  have h2 := bary_nonneg hS hx 2
  have l0 := bary_le_one hS hx 0
  have l1 := bary_le_one hS hx 1
  have l2 := bary_le_one hS hx 2
  generalize S.bary x 0 = a at *
  generalize S.bary x 1 = b at *
  generalize S.bary x 2 = c at *
  generalize g2 S w (S.coords 0) z = p
  generalize g2 S w (S.coords 1) z = q
  generalize g2 S w (S.coords 2) z = r
  have k : (a * p + b * q + c * r) ^ 2 ≤ a * p ^ 2 + b * q ^ 2 + c * r ^ 2 := by
    have : a * p ^ 2 + b * q ^ 2 + c * r ^ 2 - (a * p + b * q + c * r) ^ 2 = a * b * (p - q) ^ 2 + a * c * (p - r) ^ 2 + b * c * (q - r) ^ 2 := by
      have : c = 1 - a - b := by linarith
      subst this; ring
    have := mul_nonneg (mul_nonneg h0 h1) (sq_nonneg (p - q))
    have := mul_nonneg (mul_nonneg h0 h2) (sq_nonneg (p - r))
    have := mul_nonneg (mul_nonneg h1 h2) (sq_nonneg (q - r))
    linarith
  have := mul_le_mul_of_nonneg_right l0 (sq_nonneg p)
  have := mul_le_mul_of_nonneg_right l1 (sq_nonneg q)
  have := mul_le_mul_of_nonneg_right l2 (sq_nonneg r)
  linarith

theorem g2_abs_le (hS : S.Nondeg) (w : Fin 6 → ℝ) {x : Vec 2} (hx : x ∈ tri S) (z : Fin 2) : |g2 S w x z| ≤ Real.sqrt (gsq S w) := by
  rw [← Real.sqrt_sq_eq_abs]
  refine Real.sqrt_le_sqrt (le_trans ?_ (g2_le_gsq hS w hx))
  exact Finset.single_le_sum (f := fun z => g2 S w x z ^ 2) (fun _ _ => sq_nonneg _) (Finset.mem_univ z)

theorem vertex_mem (v : Fin 3) : S.coords v ∈ tri S := subset_convexHull ℝ _ ⟨v, rfl⟩

theorem half_mem {x y : Vec 2} (hx : x ∈ tri S) (hy : y ∈ tri S) : (1 / 2 : ℝ) • (x + y) ∈ tri S := by
  rw [smul_add]
  exact convex_convexHull ℝ _ hx hy (by norm_num) (by norm_num) (by norm_num)

theorem nodes6_mem (i : Fin 6) : nodes6 S i ∈ tri S := by
  fin_cases i
  · exact vertex_mem 0
  · exact vertex_mem 1
  · exact vertex_mem 2
  · exact half_mem (vertex_mem 0) (vertex_mem 1)
  · exact half_mem (vertex_mem 0) (vertex_mem 2)
  · exact half_mem (vertex_mem 1) (vertex_mem 2)

theorem q2_node (hS : S.Nondeg) (w : Fin 6 → ℝ) (i : Fin 6) : q2 S w (nodes6 S i) = w i := by
  fin_cases i
  · show q2 S w (S.coords 0) = w 0
    simp [q2, C42_vertex hS]; ring
  · show q2 S w (S.coords 1) = w 1
    simp [q2, C42_vertex hS]; ring
  · show q2 S w (S.coords 2) = w 2
    simp [q2, C42_vertex hS]; ring
  · show q2 S w ((1 / 2 : ℝ) • (S.coords 0 + S.coords 1)) = w 3
    simp only [q2, bary_half, C42_vertex hS]; simp; ring
  · show q2 S w ((1 / 2 : ℝ) • (S.coords 0 + S.coords 2)) = w 4
    simp only [q2, bary_half, C42_vertex hS]; simp; ring
  · show q2 S w ((1 / 2 : ℝ) • (S.coords 1 + S.coords 2)) = w 5
    simp only [q2, bary_half, C42_vertex hS]; simp; ring

/-- A quadratic function is bounded on the triangle by its norms. -/
theorem q2_peak (hS : S.Nondeg) (w : Fin 6 → ℝ) {h : ℝ} (hh : ∀ x ∈ tri S, ∀ y ∈ tri S, ∑ z, (x z - y z) ^ 2 ≤ h ^ 2) {x : Vec 2} (hx : x ∈ tri S) :
    S.measure * q2 S w x ^ 2 ≤ 2 * en0 S w + 24 * h ^ 2 * en1 S w := by
  have hp : ∀ y ∈ tri S, q2 S w x ^ 2 ≤ 2 * q2 S w y ^ 2 + 2 * h ^ 2 * gsq S w := by
    intro y hy
    have h1 : (q2 S w x - q2 S w y) ^ 2 ≤ gsq S w * h ^ 2 := by
      rw [q2_diff]
      refine (Finset.sum_mul_sq_le_sq_mul_sq _ _ _).trans ?_
      exact mul_le_mul (g2_le_gsq hS w (half_mem hx hy)) (hh x hx y hy) (Finset.sum_nonneg fun _ _ => sq_nonneg _) (gsq_nonneg w)
    nlinarith [sq_nonneg (q2 S w x - 2 * q2 S w y)]
  have h1 : ∫ y in tri S, q2 S w x ^ 2 ≤ ∫ y in tri S, (2 * q2 S w y ^ 2 + 2 * h ^ 2 * gsq S w) :=
    setIntegral_mono_on (tri_int continuousOn_const) (tri_int (((q2_cont w).pow 2).const_mul 2 |>.add_const _).continuousOn) tri_compact.measurableSet hp
  have e1 : ∫ y in tri S, (2 * q2 S w y ^ 2 + 2 * h ^ 2 * gsq S w) = 2 * (∫ y in tri S, q2 S w y ^ 2) + S.measure * (2 * h ^ 2 * gsq S w) := by
    have i1 : IntegrableOn (fun y => 2 * q2 S w y ^ 2) (tri S) := tri_int (((q2_cont w).pow 2).const_mul 2).continuousOn
    have i2 : IntegrableOn (fun _ : Vec 2 => 2 * h ^ 2 * gsq S w) (tri S) := tri_int continuousOn_const
    rw [← tri_const, ← integral_const_mul]
    exact integral_add i1 i2
  rw [tri_const, e1] at h1
  have h2 := gsq_en1 hS w
  have h3 := mul_le_mul_of_nonneg_left h2 (by positivity : 0 ≤ 2 * h ^ 2)
  rw [show (∫ a in tri S, q2 S w a ^ 2) = en0 S w from rfl] at h1
  linarith

/-- Bound of a quadratic function on the triangle. -/
noncomputable def pk (S : Simplex 2 2) (h : ℝ) (w : Fin 6 → ℝ) : ℝ := Real.sqrt ((2 * en0 S w + 24 * h ^ 2 * en1 S w) / S.measure)

theorem q2_abs_le (hS : S.Nondeg) (hm : 0 < S.measure) (w : Fin 6 → ℝ) {h : ℝ} (hh : ∀ x ∈ tri S, ∀ y ∈ tri S, ∑ z, (x z - y z) ^ 2 ≤ h ^ 2) {x : Vec 2}
    (hx : x ∈ tri S) : |q2 S w x| ≤ pk S h w := by
  rw [← Real.sqrt_sq_eq_abs]
  refine Real.sqrt_le_sqrt ?_
  rw [le_div_iff₀ hm, mul_comm]
  exact q2_peak hS w hh hx

theorem val_abs_le (hS : S.Nondeg) (hm : 0 < S.measure) (w : Fin 6 → ℝ) {h : ℝ} (hh : ∀ x ∈ tri S, ∀ y ∈ tri S, ∑ z, (x z - y z) ^ 2 ≤ h ^ 2)
    (i : Fin 6) : |w i| ≤ pk S h w := by
  have := q2_abs_le hS hm w hh (nodes6_mem i)
  rwa [q2_node hS] at this

/-! ### The errors of the rule -/

/-- Gradients: the rule for the form. -/
theorem cell_coercive (hS : S.Nondeg) (w : Fin 6 → ℝ) :
    1 / 2 * en1 S w ≤ S.measure * ∑ k ∈ Finset.range 6, qwt k * ∑ z, g2 S w (qpt S k) z * g2 S w (qpt S k) z := by
  have hd : ∀ z, |S.measure * ∑ k ∈ Finset.range 6, qwt k * (g2 S w (qpt S k) z * g2 S w (qpt S k) z) - ∫ x in tri S, g2 S w x z * g2 S w x z| ≤
      S.measure * (25 / 10 ^ 14 * (Real.sqrt (gsq S w) * Real.sqrt (gsq S w))) := by
    intro z
    obtain ⟨F, hF, hg⟩ := g2_a1 hS w z
    have hb : ∀ v, |F v| ≤ Real.sqrt (gsq S w) := fun v => by rw [hF]; exact g2_abs_le hS w (vertex_mem v) z
    simp only [hg]
    exact defect_a1 hS hb hb
  have e : en1 S w = ∑ z, ∫ x in tri S, g2 S w x z * g2 S w x z := by
    rw [en1, integral_finsetSum]
    · simp only [pow_two]
    · exact fun z _ => tri_int ((g2_cont w z).pow 2).continuousOn
  have h0 := abs_le.1 (hd 0)
  have h1 := abs_le.1 (hd 1)
  rw [Real.mul_self_sqrt (gsq_nonneg w)] at h0 h1
  have h2 := gsq_en1 hS w
  have h3 := en1_nonneg (S := S) w
  have e2 : S.measure * ∑ k ∈ Finset.range 6, qwt k * ∑ z, g2 S w (qpt S k) z * g2 S w (qpt S k) z =
      S.measure * ∑ k ∈ Finset.range 6, qwt k * (g2 S w (qpt S k) 0 * g2 S w (qpt S k) 0) +
      S.measure * ∑ k ∈ Finset.range 6, qwt k * (g2 S w (qpt S k) 1 * g2 S w (qpt S k) 1) := by
    rw [← mul_add, ← Finset.sum_add_distrib]
    simp only [Fin.sum_univ_two, mul_add]
  rw [Fin.sum_univ_two] at e
  rw [e2]
  linarith [h0.1, h1.1]

/-- Gradients: consistency of the form at the interpolant. -/
theorem cell_consistent (hS : S.Nondeg) (w wI : Fin 6 → ℝ) {q : Vec 2 → Fin 2 → ℝ} (hq : ∀ z, ContinuousOn (fun x => q x z) (tri S)) {G R : ℝ}
    (hG : ∀ x ∈ tri S, ∀ z, |q x z| ≤ G) (hR : ∀ x ∈ tri S, ∀ z, |q x z - g2 S wI x z| ≤ R) :
    |S.measure * ∑ k ∈ Finset.range 6, qwt k * ∑ z, g2 S wI (qpt S k) z * g2 S w (qpt S k) z - ∫ x in tri S, ∑ z, q x z * g2 S w x z| ≤
      S.measure * ((2 * R + 50 / 10 ^ 14 * (G + R)) * Real.sqrt (gsq S w)) := by
  have hd : ∀ z, |S.measure * ∑ k ∈ Finset.range 6, qwt k * (g2 S wI (qpt S k) z * g2 S w (qpt S k) z) - ∫ x in tri S, q x z * g2 S w x z| ≤
      S.measure * (25 / 10 ^ 14 * ((G + R) * Real.sqrt (gsq S w))) + S.measure * (R * Real.sqrt (gsq S w)) := by
    intro z
    have h1 : |S.measure * ∑ k ∈ Finset.range 6, qwt k * (g2 S wI (qpt S k) z * g2 S w (qpt S k) z) - ∫ x in tri S, g2 S wI x z * g2 S w x z| ≤
        S.measure * (25 / 10 ^ 14 * ((G + R) * Real.sqrt (gsq S w))) := by
      obtain ⟨F, hF, hg⟩ := g2_a1 hS w z
      obtain ⟨F', hF', hg'⟩ := g2_a1 hS wI z
      have hb : ∀ v, |F v| ≤ Real.sqrt (gsq S w) := fun v => by rw [hF]; exact g2_abs_le hS w (vertex_mem v) z
      simp only [hg, hg']
      refine defect_a1 hS (fun v => ?_) hb
      rw [hF' v]
      have a := hG _ (vertex_mem (S := S) v) z
      have b := hR _ (vertex_mem (S := S) v) z
      have c := abs_sub_abs_le_abs_sub (g2 S wI (S.coords v) z) (q (S.coords v) z)
      rw [abs_sub_comm] at b
      linarith
    have i1 : IntegrableOn (fun x => q x z * g2 S w x z) (tri S) := tri_int ((hq z).mul (g2_cont w z).continuousOn)
    have i2 : IntegrableOn (fun x => g2 S wI x z * g2 S w x z) (tri S) := tri_int ((g2_cont wI z).mul (g2_cont w z)).continuousOn
    have h2 : |(∫ x in tri S, g2 S wI x z * g2 S w x z) - ∫ x in tri S, q x z * g2 S w x z| ≤ S.measure * (R * Real.sqrt (gsq S w)) := by
      rw [← integral_sub i2 i1]
      have := norm_setIntegral_le_of_norm_le_const (μ := volume) (s := tri S) (f := fun x => g2 S wI x z * g2 S w x z - q x z * g2 S w x z)
        (C := R * Real.sqrt (gsq S w)) (tri_compact.measure_lt_top) fun x hx => by
          rw [Real.norm_eq_abs, ← sub_mul]
          refine mul_bound ?_ (g2_abs_le hS w hx z)
          rw [abs_sub_comm]; exact hR x hx z
      rw [Real.norm_eq_abs] at this
      refine this.trans (le_of_eq ?_)
      rw [mul_comm, C108_measure]
      rfl
    have := abs_sub_le (S.measure * ∑ k ∈ Finset.range 6, qwt k * (g2 S wI (qpt S k) z * g2 S w (qpt S k) z)) (∫ x in tri S, g2 S wI x z * g2 S w x z)
      (∫ x in tri S, q x z * g2 S w x z)
    linarith
  have e : ∫ x in tri S, ∑ z, q x z * g2 S w x z = ∑ z, ∫ x in tri S, q x z * g2 S w x z :=
    integral_finsetSum _ fun z _ => tri_int ((hq z).mul (g2_cont w z).continuousOn)
  have e2 : S.measure * ∑ k ∈ Finset.range 6, qwt k * ∑ z, g2 S wI (qpt S k) z * g2 S w (qpt S k) z =
      S.measure * ∑ k ∈ Finset.range 6, qwt k * (g2 S wI (qpt S k) 0 * g2 S w (qpt S k) 0) +
      S.measure * ∑ k ∈ Finset.range 6, qwt k * (g2 S wI (qpt S k) 1 * g2 S w (qpt S k) 1) := by
    rw [← mul_add, ← Finset.sum_add_distrib]
    simp only [Fin.sum_univ_two, mul_add]
  have h0 := abs_le.1 (hd 0)
  have h1 := abs_le.1 (hd 1)
  rw [e, e2, Fin.sum_univ_two, abs_le]
  constructor <;> linarith [h0.1, h1.1, h0.2, h1.2]

/-- Values: consistency of the right-hand side. -/
theorem cell_load (hS : S.Nondeg) (hm : 0 < S.measure) (w : Fin 6 → ℝ) {h : ℝ} (hh : ∀ x ∈ tri S, ∀ y ∈ tri S, ∑ z, (x z - y z) ^ 2 ≤ h ^ 2)
    {f : Vec 2 → ℝ} (hf : ContinuousOn f (tri S)) (φ : Fin 3 → ℝ) {A ε : ℝ} (hφ : ∀ v, |φ v| ≤ A) (hε : ∀ x ∈ tri S, |f x - a1 S φ x| ≤ ε) :
    |S.measure * ∑ k ∈ Finset.range 6, qwt k * (f (qpt S k) * q2 S w (qpt S k)) - ∫ x in tri S, f x * q2 S w x| ≤
      S.measure * ((3 * ε + 275 / 10 ^ 14 * A) * pk S h w) := by
  have ha : Continuous (a1 S φ) := by
    have := fun v => bary_cont (S := S) v
    unfold a1
    fun_prop
  have hp0 : 0 ≤ pk S h w := Real.sqrt_nonneg _
  have h1 := defect_q2 hS hφ (val_abs_le hS hm w hh)
  have h2 : |S.measure * ∑ k ∈ Finset.range 6, qwt k * (f (qpt S k) * q2 S w (qpt S k)) -
      S.measure * ∑ k ∈ Finset.range 6, qwt k * (a1 S φ (qpt S k) * q2 S w (qpt S k))| ≤ S.measure * (2 * (ε * pk S h w)) := by
    rw [← mul_sub, ← Finset.sum_sub_distrib, abs_mul, abs_of_pos hm]
    refine mul_le_mul_of_nonneg_left ?_ hm.le
    have hε0 : 0 ≤ ε := (abs_nonneg _).trans (hε _ (vertex_mem 0))
    have ht := mul_le_mul_of_nonneg_right qwt_total (mul_nonneg hε0 hp0)
    rw [Finset.sum_mul] at ht
    refine (Finset.abs_sum_le_sum_abs _ _).trans ((Finset.sum_le_sum fun k hk => ?_).trans ht)
    · rw [← mul_sub, ← sub_mul, abs_mul, abs_of_nonneg (qwt_nonneg (Finset.mem_range.1 hk))]
      refine mul_le_mul_of_nonneg_left ?_ (qwt_nonneg (Finset.mem_range.1 hk))
      exact mul_bound (hε _ (qpt_mem hS (Finset.mem_range.1 hk))) (q2_abs_le hS hm w hh (qpt_mem hS (Finset.mem_range.1 hk)))
  have i1 : IntegrableOn (fun x => f x * q2 S w x) (tri S) := tri_int (hf.mul (q2_cont w).continuousOn)
  have i2 : IntegrableOn (fun x => a1 S φ x * q2 S w x) (tri S) := tri_int (ha.mul (q2_cont w)).continuousOn
  have h3 : |(∫ x in tri S, a1 S φ x * q2 S w x) - ∫ x in tri S, f x * q2 S w x| ≤ S.measure * (ε * pk S h w) := by
    rw [← integral_sub i2 i1]
    have := norm_setIntegral_le_of_norm_le_const (μ := volume) (s := tri S) (f := fun x => a1 S φ x * q2 S w x - f x * q2 S w x)
      (C := ε * pk S h w) (tri_compact.measure_lt_top) fun x hx => by
        rw [Real.norm_eq_abs, ← sub_mul]
        refine mul_bound ?_ (q2_abs_le hS hm w hh hx)
        rw [abs_sub_comm]; exact hε x hx
    rw [Real.norm_eq_abs] at this
    refine this.trans (le_of_eq ?_)
    rw [mul_comm, C108_measure]
    rfl
  have t1 := abs_le.1 h1
  have t2 := abs_le.1 h2
  have t3 := abs_le.1 h3
  rw [abs_le]
  constructor <;> linarith [t1.1, t1.2, t2.1, t2.2, t3.1, t3.2]

end Fdapde.PDE
