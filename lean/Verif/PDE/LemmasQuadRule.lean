import Verif.PDE.LemmasQuad
set_option linter.unusedSectionVars false
/-
Quadratic functions on a triangle: bounds, integrals and the rule with six nodes.
-/
namespace Fdapde.PDE
open Fdapde.Quadrature MeasureTheory Matrix Fdapde.Geometry Fdapde.FEM

variable {S : Simplex 2 2}

/-- Region of the triangle. -/
def tri (S : Simplex 2 2) : Set (Vec 2) := convexHull ℝ (Set.range S.coords)

theorem tri_compact : IsCompact (tri S) := (Set.finite_range _).isCompact_convexHull (𝕜 := ℝ)

theorem bary_nonneg (hS : S.Nondeg) {x : Vec 2} (hx : x ∈ tri S) (v : Fin 3) : 0 ≤ S.bary x v :=
  (bary_nonneg_iff hS x (convexHull_subset_affineSpan _ hx)).2 hx v

theorem bary_le_one (hS : S.Nondeg) {x : Vec 2} (hx : x ∈ tri S) (v : Fin 3) : S.bary x v ≤ 1 := by
  have h := bary_sum3 (S := S) x
  have h0 := bary_nonneg hS hx 0
  have h1 := bary_nonneg hS hx 1
  have h2 := bary_nonneg hS hx 2
  fin_cases v <;> simp <;> linarith

theorem abs_six {a b c d e f A B C D E F : ℝ} (ha : |a| ≤ A) (hb : |b| ≤ B) (hc : |c| ≤ C) (hd : |d| ≤ D) (he : |e| ≤ E) (hf : |f| ≤ F) :
    |a + b + c + d + e + f| ≤ A + B + C + D + E + F := by
  have := abs_add_le (a + b + c + d + e) f
  have := abs_add_le (a + b + c + d) e
  have := abs_add_le (a + b + c) d
  have := abs_add_le (a + b) c
  have := abs_add_le a b
  linarith

theorem mul_bound {a b A B : ℝ} (ha : |a| ≤ A) (hb : |b| ≤ B) : |a * b| ≤ A * B := by
  rw [abs_mul]
  exact mul_le_mul ha hb (abs_nonneg _) ((abs_nonneg _).trans ha)

theorem q2_bound (hS : S.Nondeg) {r : Fin 6 → ℝ} {ε : ℝ} (hr : ∀ i, |r i| ≤ ε) {x : Vec 2} (hx : x ∈ tri S) : |q2 S r x| ≤ 6 * ε := by
  have hv : ∀ v, |S.bary x v * (2 * S.bary x v - 1)| ≤ 1 := fun v => by
    have h0 := bary_nonneg hS hx v
    have h1 := bary_le_one hS hx v
    rw [abs_le]; constructor <;> nlinarith
  have he : ∀ a b, S.bary x a + S.bary x b ≤ 1 → |4 * (S.bary x a * S.bary x b)| ≤ 1 := fun a b hab => by
    have h0 := bary_nonneg hS hx a
    have h1 := bary_nonneg hS hx b
    rw [abs_le]; constructor <;> nlinarith [mul_nonneg h0 h1, sq_nonneg (S.bary x a - S.bary x b)]
  have hs := bary_sum3 (S := S) x
  have h0 := bary_nonneg hS hx 0
  have h1 := bary_nonneg hS hx 1
  have h2 := bary_nonneg hS hx 2
  have := abs_six (mul_bound (hr 0) (hv 0)) (mul_bound (hr 1) (hv 1)) (mul_bound (hr 2) (hv 2)) (mul_bound (hr 3) (he 0 1 (by linarith)))
    (mul_bound (hr 4) (he 0 2 (by linarith))) (mul_bound (hr 5) (he 1 2 (by linarith)))
  refine this.trans (le_of_eq (by ring))

theorem g2_bound (hS : S.Nondeg) {d : ℝ} {z : Fin 2} (hd : ∀ v, |dLam S v z| ≤ d) {r : Fin 6 → ℝ} {ε : ℝ} (hr : ∀ i, |r i| ≤ ε)
    {x : Vec 2} (hx : x ∈ tri S) : |g2 S r x z| ≤ 21 * d * ε := by
  have hd0 : 0 ≤ d := (abs_nonneg _).trans (hd 0)
  have hv : ∀ v, |(4 * S.bary x v - 1) * dLam S v z| ≤ 3 * d := fun v => by
    have h0 := bary_nonneg hS hx v
    have h1 := bary_le_one hS hx v
    exact mul_bound (by rw [abs_le]; constructor <;> linarith) (hd v)
  have he : ∀ a b, S.bary x a + S.bary x b ≤ 1 → |4 * (S.bary x a * dLam S b z + S.bary x b * dLam S a z)| ≤ 4 * d := fun a b hab => by
    have h0 := bary_nonneg hS hx a
    have h1 := bary_nonneg hS hx b
    have e1 : |S.bary x a * dLam S b z| ≤ S.bary x a * d := mul_bound (le_of_eq (abs_of_nonneg h0)) (hd b)
    have e2 : |S.bary x b * dLam S a z| ≤ S.bary x b * d := mul_bound (le_of_eq (abs_of_nonneg h1)) (hd a)
    have e3 := abs_add_le (S.bary x a * dLam S b z) (S.bary x b * dLam S a z)
    rw [abs_mul, abs_of_pos (by norm_num : (0 : ℝ) < 4)]
    have := mul_le_mul_of_nonneg_right hab hd0
    linarith
  have hs := bary_sum3 (S := S) x
  have h0 := bary_nonneg hS hx 0
  have h1 := bary_nonneg hS hx 1
  have h2 := bary_nonneg hS hx 2
  have := abs_six (mul_bound (hr 0) (hv 0)) (mul_bound (hr 1) (hv 1)) (mul_bound (hr 2) (hv 2)) (mul_bound (hr 3) (he 0 1 (by linarith)))
    (mul_bound (hr 4) (he 0 2 (by linarith))) (mul_bound (hr 5) (he 1 2 (by linarith)))
  refine this.trans (le_of_eq (by ring))

/-- The error of interpolation at a point, from the errors of the Taylor polynomial at the nodes. -/
theorem interp2 (hS : S.Nondeg) {d : ℝ} (hd : ∀ v z, |dLam S v z| ≤ d) (u : Vec 2 → ℝ) {x : Vec 2} (hx : x ∈ tri S) (β : Fin 2 → ℝ)
    (H : Fin 2 → Fin 2 → ℝ) {ε : ℝ} (he : ∀ i, |u (nodes6 S i) - tay x (u x) β H (nodes6 S i)| ≤ ε) :
    |u x - q2 S (fun i => u (nodes6 S i)) x| ≤ 6 * ε ∧ ∀ z, |β z - g2 S (fun i => u (nodes6 S i)) x z| ≤ 21 * d * ε := by
  constructor
  · have h1 := q2_bound hS he hx
    rw [q2_sub, q2_tay hS] at h1
    rwa [abs_sub_comm]
  · intro z
    have h1 := g2_bound hS (fun v => hd v z) he hx
    rw [g2_sub, g2_tay hS] at h1
    rwa [abs_sub_comm]

/-! ### Integrals -/

theorem bary_toCell (hS : S.Nondeg) (y : Fin 2 → ℝ) (v : Fin 3) : S.bary (S.toCell y) v = ![1 - (y 0 + y 1), y 0, y 1] v := by
  rw [← lam_bary, ← lam_two]
  congr 2
  funext z
  exact refPoint_of hS y z

theorem tri_integral (hS : S.Nondeg) (f : Vec 2 → ℝ) : ∫ x in tri S, f x = S.measure * (2 * ∫ x in stdTri 2 1, f (S.toCell x)) := by
  have h := hull_integral hS f
  rw [tri, h, Simplex.measure]
  norm_num [Nat.factorial]
  ring

theorem measure_nonneg : 0 ≤ S.measure := div_nonneg (abs_nonneg _) (Nat.cast_nonneg _)

theorem int_affine_sq (a b c : ℝ) : ∫ x in stdTri 2 1, (a * (1 - (x 0 + x 1)) + b * x 0 + c * x 1) ^ 2 = (a ^ 2 + b ^ 2 + c ^ 2 + a * b + a * c + b * c) / 12 := by
  rw [stdTri_two 1 zero_le_one _ (by fun_prop)]
  have inner : ∀ t : ℝ, ∫ y in (0 : ℝ)..(1 - t), (a * (1 - ((![t, y] : Fin 2 → ℝ) 0 + (![t, y] : Fin 2 → ℝ) 1)) + b * (![t, y] : Fin 2 → ℝ) 0 + c * (![t, y] : Fin 2 → ℝ) 1) ^ 2 =
      b ^ 2 * (1 - t) + (2 * b * (a - b) + b * (c - a)) * (1 - t) ^ 2 + ((a - b) ^ 2 + (a - b) * (c - a) + (c - a) ^ 2 / 3) * (1 - t) ^ 3 := by
    intro t
    have hd : ∀ y ∈ Set.uIcc 0 (1 - t), HasDerivAt (fun y : ℝ => (a * (1 - t) + b * t) ^ 2 * y + (a * (1 - t) + b * t) * (c - a) * y ^ 2 + (c - a) ^ 2 / 3 * y ^ 3)
        ((a * (1 - ((![t, y] : Fin 2 → ℝ) 0 + (![t, y] : Fin 2 → ℝ) 1)) + b * (![t, y] : Fin 2 → ℝ) 0 + c * (![t, y] : Fin 2 → ℝ) 1) ^ 2) y := by
      intro y _
      have h1 := ((hasDerivAt_id y).const_mul ((a * (1 - t) + b * t) ^ 2)).add (((hasDerivAt_pow 2 y).const_mul ((a * (1 - t) + b * t) * (c - a)))) |>.add
        ((hasDerivAt_pow 3 y).const_mul ((c - a) ^ 2 / 3))
      refine HasDerivAt.congr_deriv (f := fun y : ℝ => (a * (1 - t) + b * t) ^ 2 * y + (a * (1 - t) + b * t) * (c - a) * y ^ 2 + (c - a) ^ 2 / 3 * y ^ 3) h1 ?_
      simp only [cons_val_zero, cons_val_one, Nat.cast_ofNat, mul_one]
      norm_num
      ring
    rw [intervalIntegral.integral_eq_sub_of_hasDerivAt hd (Continuous.intervalIntegrable (by fun_prop) _ _)]
    ring
  simp only [inner]
  have hd : ∀ t ∈ Set.uIcc (0 : ℝ) 1, HasDerivAt (fun t : ℝ => -(b ^ 2 / 2 * (1 - t) ^ 2 + (2 * b * (a - b) + b * (c - a)) / 3 * (1 - t) ^ 3 +
      ((a - b) ^ 2 + (a - b) * (c - a) + (c - a) ^ 2 / 3) / 4 * (1 - t) ^ 4))
      (b ^ 2 * (1 - t) + (2 * b * (a - b) + b * (c - a)) * (1 - t) ^ 2 + ((a - b) ^ 2 + (a - b) * (c - a) + (c - a) ^ 2 / 3) * (1 - t) ^ 3) t := by
    intro t _
    have hs : HasDerivAt (fun t : ℝ => 1 - t) (-1) t := by simpa using (hasDerivAt_id t).const_sub 1
    have h1 := ((((hs.pow 2).const_mul (b ^ 2 / 2)).add ((hs.pow 3).const_mul ((2 * b * (a - b) + b * (c - a)) / 3))).add
      ((hs.pow 4).const_mul (((a - b) ^ 2 + (a - b) * (c - a) + (c - a) ^ 2 / 3) / 4))).neg
    refine HasDerivAt.congr_deriv (f := fun t : ℝ => -(b ^ 2 / 2 * (1 - t) ^ 2 + (2 * b * (a - b) + b * (c - a)) / 3 * (1 - t) ^ 3 +
      ((a - b) ^ 2 + (a - b) * (c - a) + (c - a) ^ 2 / 3) / 4 * (1 - t) ^ 4)) h1 ?_
    norm_num
    ring
  rw [intervalIntegral.integral_eq_sub_of_hasDerivAt hd (Continuous.intervalIntegrable (by fun_prop) _ _)]
  ring

/-- The values at the vertices of an affine function are bounded by its norm. -/
theorem affine_sq (hS : S.Nondeg) (f : Fin 3 → ℝ) : S.measure / 12 * (f 0 ^ 2 + f 1 ^ 2 + f 2 ^ 2) ≤
    ∫ x in tri S, (S.bary x 0 * f 0 + S.bary x 1 * f 1 + S.bary x 2 * f 2) ^ 2 := by
  rw [tri_integral hS]
  have e : (fun x : Fin 2 → ℝ => (S.bary (S.toCell x) 0 * f 0 + S.bary (S.toCell x) 1 * f 1 + S.bary (S.toCell x) 2 * f 2) ^ 2) =
      fun x => (f 0 * (1 - (x 0 + x 1)) + f 1 * x 0 + f 2 * x 1) ^ 2 := by
    funext x
    simp only [bary_toCell hS]
    simp
    ring
  rw [show (∫ x in stdTri 2 1, (S.bary (S.toCell x) 0 * f 0 + S.bary (S.toCell x) 1 * f 1 + S.bary (S.toCell x) 2 * f 2) ^ 2) = _ from
    congrArg (fun F : (Fin 2 → ℝ) → ℝ => ∫ x in stdTri 2 1, F x) e, int_affine_sq]
  have hm := measure_nonneg (S := S)
  have : 0 ≤ S.measure * (f 0 + f 1 + f 2) ^ 2 := mul_nonneg hm (sq_nonneg _)
  nlinarith

/-! ### Sums of the coefficients of polynomials -/

theorem coeffSum_of {p : MvPolynomial (Fin 2) ℝ} {s : Finset (Fin 2 →₀ ℕ)} (h : p.support ⊆ s) : coeffSum p = ∑ m ∈ s, |p.coeff m| := by
  refine Finset.sum_subset h fun m _ hm => ?_
  rw [MvPolynomial.notMem_support_iff.1 hm, abs_zero]

theorem coeffSum_nonneg (p : MvPolynomial (Fin 2) ℝ) : 0 ≤ coeffSum p := Finset.sum_nonneg fun _ _ => abs_nonneg _

theorem coeffSum_add (p q : MvPolynomial (Fin 2) ℝ) : coeffSum (p + q) ≤ coeffSum p + coeffSum q := by
  classical
  rw [coeffSum_of (MvPolynomial.support_add (p := p) (q := q)), coeffSum_of (Finset.subset_union_left (s₁ := p.support) (s₂ := q.support)),
    coeffSum_of (Finset.subset_union_right (s₁ := p.support) (s₂ := q.support)), ← Finset.sum_add_distrib]
  exact Finset.sum_le_sum fun m _ => by rw [MvPolynomial.coeff_add]; exact abs_add_le _ _

theorem coeffSum_sum {ι : Type} (s : Finset ι) (p : ι → MvPolynomial (Fin 2) ℝ) : coeffSum (∑ i ∈ s, p i) ≤ ∑ i ∈ s, coeffSum (p i) := by
  classical
  induction s using Finset.induction_on with
  | empty => simp [coeffSum]
  | insert a s ha ih =>
    rw [Finset.sum_insert ha, Finset.sum_insert ha]
    exact (coeffSum_add _ _).trans (by linarith)

theorem coeffSum_monomial (m : Fin 2 →₀ ℕ) (a : ℝ) : coeffSum (MvPolynomial.monomial m a) ≤ |a| := by
  classical
  rw [coeffSum_of (MvPolynomial.support_monomial_subset (s := m) (a := a))]
  simp

theorem coeffSum_mul (p q : MvPolynomial (Fin 2) ℝ) : coeffSum (p * q) ≤ coeffSum p * coeffSum q := by
  have e : p * q = ∑ m ∈ p.support, ∑ m' ∈ q.support, MvPolynomial.monomial (m + m') (p.coeff m * q.coeff m') := by
    conv_lhs => rw [p.as_sum, q.as_sum, Finset.sum_mul_sum]
    simp only [MvPolynomial.monomial_mul]
  rw [e]
  refine (coeffSum_sum _ _).trans ?_
  rw [coeffSum, coeffSum, Finset.sum_mul_sum]
  refine Finset.sum_le_sum fun m _ => (coeffSum_sum _ _).trans (Finset.sum_le_sum fun m' _ => ?_)
  exact (coeffSum_monomial _ _).trans (le_of_eq (abs_mul _ _))

theorem coeffSum_C (a : ℝ) : coeffSum (MvPolynomial.C a : MvPolynomial (Fin 2) ℝ) ≤ |a| := coeffSum_monomial 0 a
theorem coeffSum_X (z : Fin 2) : coeffSum (MvPolynomial.X z : MvPolynomial (Fin 2) ℝ) ≤ 1 := (coeffSum_monomial _ _).trans (le_of_eq abs_one)

theorem coeffSum_neg (p : MvPolynomial (Fin 2) ℝ) : coeffSum (-p) ≤ coeffSum p := by
  rw [coeffSum, coeffSum, MvPolynomial.support_neg]
  exact Finset.sum_le_sum fun m _ => by rw [MvPolynomial.coeff_neg, abs_neg]

theorem coeffSum_lam (v : Fin 3) : coeffSum (lam 2 v) ≤ ![3, 1, 1] v := by
  have h0 : coeffSum (lam 2 0) ≤ 3 := by
    have e : lam 2 0 = MvPolynomial.C 1 + (-MvPolynomial.X 0 + -MvPolynomial.X 1) := by
      simp [lam, Fin.sum_univ_two]; ring
    rw [e]
    have := coeffSum_add (MvPolynomial.C 1) (-MvPolynomial.X 0 + -MvPolynomial.X 1 : MvPolynomial (Fin 2) ℝ)
    have := coeffSum_add (-MvPolynomial.X 0 : MvPolynomial (Fin 2) ℝ) (-MvPolynomial.X 1)
    have := coeffSum_C 1
    have := (coeffSum_neg (MvPolynomial.X 0)).trans (coeffSum_X 0)
    have := (coeffSum_neg (MvPolynomial.X 1)).trans (coeffSum_X 1)
    rw [abs_one] at *
    linarith
  refine Fin.cases h0 (fun z => ?_) v
  refine (coeffSum_X z).trans (le_of_eq ?_)
  fin_cases z <;> rfl

theorem coeffSum_mul_le {p q : MvPolynomial (Fin 2) ℝ} {A B : ℝ} (hp : coeffSum p ≤ A) (hq : coeffSum q ≤ B) : coeffSum (p * q) ≤ A * B :=
  (coeffSum_mul p q).trans (mul_le_mul hp hq (coeffSum_nonneg _) ((coeffSum_nonneg _).trans hp))

theorem coeffSum_quad (i : Fin 6) : coeffSum (quad i) ≤ ![21, 3, 3, 12, 12, 4] i := by
  have hv : ∀ (v : Fin 3) (A : ℝ), coeffSum (lam 2 v) ≤ A → coeffSum (lam 2 v * (2 * lam 2 v - 1)) ≤ A * (2 * A + 1) := by
    intro v A h
    refine coeffSum_mul_le h ?_
    have e : (2 * lam 2 v - 1 : MvPolynomial (Fin 2) ℝ) = MvPolynomial.C 2 * lam 2 v + -MvPolynomial.C 1 := by
      rw [show (MvPolynomial.C 2 : MvPolynomial (Fin 2) ℝ) = 2 from rfl, map_one]; ring
    rw [e]
    have h1 := coeffSum_add (MvPolynomial.C 2 * lam 2 v) (-MvPolynomial.C 1)
    have h2 := coeffSum_mul_le (coeffSum_C 2) h
    have h3 := (coeffSum_neg _).trans (coeffSum_C 1)
    rw [abs_one] at h3
    rw [abs_of_pos (by norm_num : (0 : ℝ) < 2)] at h2
    linarith
  have he : ∀ (a b : Fin 3) (A B : ℝ), coeffSum (lam 2 a) ≤ A → coeffSum (lam 2 b) ≤ B → coeffSum (4 * lam 2 a * lam 2 b) ≤ 4 * A * B := by
    intro a b A B ha hb
    have h4 := coeffSum_C 4
    rw [abs_of_pos (by norm_num : (0 : ℝ) < 4)] at h4
    exact coeffSum_mul_le (coeffSum_mul_le (p := 4) h4 ha) hb
  have l0 : coeffSum (lam 2 0) ≤ 3 := coeffSum_lam 0
  have l1 : coeffSum (lam 2 1) ≤ 1 := coeffSum_lam 1
  have l2 : coeffSum (lam 2 2) ≤ 1 := coeffSum_lam 2
  fin_cases i
  · exact (hv 0 3 l0).trans (by norm_num)
  · exact (hv 1 1 l1).trans (by norm_num)
  · exact (hv 2 1 l2).trans (by norm_num)
  · exact (he 0 1 3 1 l0 l1).trans (by norm_num)
  · exact (he 0 2 3 1 l0 l2).trans (by norm_num)
  · exact (he 1 2 1 1 l1 l2).trans (by norm_num)

/-! ### The rule -/

/-- The nodes of the rule on the triangle. -/
noncomputable def qpt (S : Simplex 2 2) (k : Nat) : Vec 2 := S.toCell fun z => node ℝ rule2_6 k z

/-- Weights of the rule. -/
noncomputable def qwt (k : Nat) : ℝ := weight ℝ rule2_6 k

theorem rule_exact : ExactTo rule2_6 2 4 := by
  obtain ⟨t, h1, _, _, h2⟩ := C59_simplex (2, 6, 4) (by simp)
  have : t = rule2_6 := (Option.some.inj (h1.symm.trans rfl))
  rwa [← this]

theorem accum_sum (t : Table) (g : Nat → ℝ) : accum t g = ∑ k ∈ Finset.range (size t), weight ℝ t k * g k := by
  rw [accum_eq]
  exact Finset.sum_congr rfl fun k _ => mul_comm _ _

/-- The rule integrates products of polynomials of total degree four, up to the rounding of its table. -/
theorem rule_defect (hS : S.Nondeg) {F G : Vec 2 → ℝ} {p q : MvPolynomial (Fin 2) ℝ} (hd : p.totalDegree + q.totalDegree ≤ 4)
    (hF : ∀ y, F (S.toCell y) = MvPolynomial.eval y p) (hG : ∀ y, G (S.toCell y) = MvPolynomial.eval y q) :
    |S.measure * ∑ k ∈ Finset.range 6, qwt k * (F (qpt S k) * G (qpt S k)) - ∫ x in tri S, F x * G x| ≤
      S.measure * (1 / 10 ^ 14 * (coeffSum p * coeffSum q)) := by
  have h := rule_exact (p * q) ((MvPolynomial.totalDegree_mul _ _).trans hd)
  rw [refMean_eq 2 (by simp) _ (MvPolynomial.continuous_eval _), applyRule, accum_sum] at h
  rw [tri_integral hS, ← mul_sub, abs_mul, abs_of_nonneg measure_nonneg]
  refine mul_le_mul_of_nonneg_left ?_ measure_nonneg
  refine le_trans (le_of_eq ?_) (h.trans (mul_le_mul_of_nonneg_left (coeffSum_mul p q) (by positivity)))
  congr 2
  · refine Finset.sum_congr rfl fun k _ => ?_
    rw [qpt, hF, hG, map_mul]
    rfl
  · simp only [hF, hG, map_mul]
    norm_num [Nat.factorial]

/-- Affine function by its values at the vertices. -/
noncomputable def a1 (S : Simplex 2 2) (f : Fin 3 → ℝ) (x : Vec 2) : ℝ := S.bary x 0 * f 0 + S.bary x 1 * f 1 + S.bary x 2 * f 2

theorem a1_poly (hS : S.Nondeg) {f : Fin 3 → ℝ} {A : ℝ} (hf : ∀ v, |f v| ≤ A) : ∃ p : MvPolynomial (Fin 2) ℝ, p.totalDegree ≤ 1 ∧
    (∀ y, a1 S f (S.toCell y) = MvPolynomial.eval y p) ∧ coeffSum p ≤ 5 * A := by
  refine ⟨∑ v : Fin 3, lam 2 v * MvPolynomial.C (f v), ?_, fun y => ?_, ?_⟩
  · refine MvPolynomial.totalDegree_finsetSum_le fun v _ => (MvPolynomial.totalDegree_mul _ _).trans ?_
    rw [MvPolynomial.totalDegree_C, add_zero]
    exact lam_degree 2 v
  · simp only [a1, bary_toCell hS, map_sum, map_mul, MvPolynomial.eval_C, lam_two]
    rw [Fin.sum_univ_three]
  · refine (coeffSum_sum _ _).trans ?_
    rw [Fin.sum_univ_three]
    have h := fun v => coeffSum_mul_le (coeffSum_lam v) ((coeffSum_C (f v)).trans (hf v))
    have h0 : _ ≤ 3 * A := h 0
    have h1 : _ ≤ 1 * A := h 1
    have h2 : _ ≤ 1 * A := h 2
    linarith

theorem q2_poly (hS : S.Nondeg) {w : Fin 6 → ℝ} {A : ℝ} (hw : ∀ i, |w i| ≤ A) : ∃ p : MvPolynomial (Fin 2) ℝ, p.totalDegree ≤ 2 ∧
    (∀ y, q2 S w (S.toCell y) = MvPolynomial.eval y p) ∧ coeffSum p ≤ 55 * A := by
  refine ⟨∑ i : Fin 6, quad i * MvPolynomial.C (w i), ?_, fun y => ?_, ?_⟩
  · refine MvPolynomial.totalDegree_finsetSum_le fun v _ => (MvPolynomial.totalDegree_mul _ _).trans ?_
    rw [MvPolynomial.totalDegree_C, add_zero]
    exact quad_degree v
  · simp only [q2, bary_toCell hS, map_sum, map_mul, MvPolynomial.eval_C]
    rw [Fin.sum_univ_six]
    have e0 : MvPolynomial.eval y (quad 0) = _ := congrArg (MvPolynomial.eval y) (show quad 0 = lam 2 0 * (2 * lam 2 0 - 1) from rfl)
    have e1 : MvPolynomial.eval y (quad 1) = _ := congrArg (MvPolynomial.eval y) (show quad 1 = lam 2 1 * (2 * lam 2 1 - 1) from rfl)
    have e2 : MvPolynomial.eval y (quad 2) = _ := congrArg (MvPolynomial.eval y) (show quad 2 = lam 2 2 * (2 * lam 2 2 - 1) from rfl)
    have e3 : MvPolynomial.eval y (quad 3) = _ := congrArg (MvPolynomial.eval y) (show quad 3 = 4 * lam 2 0 * lam 2 1 from rfl)
    have e4 : MvPolynomial.eval y (quad 4) = _ := congrArg (MvPolynomial.eval y) (show quad 4 = 4 * lam 2 0 * lam 2 2 from rfl)
    have e5 : MvPolynomial.eval y (quad 5) = _ := congrArg (MvPolynomial.eval y) (show quad 5 = 4 * lam 2 1 * lam 2 2 from rfl)
    rw [e0, e1, e2, e3, e4, e5]
    simp only [map_mul, map_sub, map_ofNat, map_one, lam_two]
    ring
  · refine (coeffSum_sum _ _).trans ?_
    rw [Fin.sum_univ_six]
    have h := fun v => coeffSum_mul_le (coeffSum_quad v) ((coeffSum_C (w v)).trans (hw v))
    have h0 : _ ≤ 21 * A := h 0
    have h1 : _ ≤ 3 * A := h 1
    have h2 : _ ≤ 3 * A := h 2
    have h3 : _ ≤ 12 * A := h 3
    have h4 : _ ≤ 12 * A := h 4
    have h5 : _ ≤ 4 * A := h 5
    linarith

theorem defect_a1 (hS : S.Nondeg) {f f' : Fin 3 → ℝ} {A A' : ℝ} (hf : ∀ v, |f v| ≤ A) (hf' : ∀ v, |f' v| ≤ A') :
    |S.measure * ∑ k ∈ Finset.range 6, qwt k * (a1 S f (qpt S k) * a1 S f' (qpt S k)) - ∫ x in tri S, a1 S f x * a1 S f' x| ≤
      S.measure * (25 / 10 ^ 14 * (A * A')) := by
  obtain ⟨p, p1, p2, p3⟩ := a1_poly hS hf
  obtain ⟨q, q1, q2, q3⟩ := a1_poly hS hf'
  refine (rule_defect hS (by omega) p2 q2).trans (mul_le_mul_of_nonneg_left ?_ measure_nonneg)
  have := mul_le_mul p3 q3 (coeffSum_nonneg _) ((coeffSum_nonneg _).trans p3)
  linarith

theorem defect_q2 (hS : S.Nondeg) {f : Fin 3 → ℝ} {w : Fin 6 → ℝ} {A A' : ℝ} (hf : ∀ v, |f v| ≤ A) (hw : ∀ i, |w i| ≤ A') :
    |S.measure * ∑ k ∈ Finset.range 6, qwt k * (a1 S f (qpt S k) * q2 S w (qpt S k)) - ∫ x in tri S, a1 S f x * q2 S w x| ≤
      S.measure * (275 / 10 ^ 14 * (A * A')) := by
  obtain ⟨p, p1, p2, p3⟩ := a1_poly hS hf
  obtain ⟨q, q1, q2, q3⟩ := q2_poly hS hw
  refine (rule_defect hS (by omega) p2 q2).trans (mul_le_mul_of_nonneg_left ?_ measure_nonneg)
  have := mul_le_mul p3 q3 (coeffSum_nonneg _) ((coeffSum_nonneg _).trans p3)
  linarith

theorem rule_facts : ∀ k < 6, 0 ≤ rule2_6.weights.getD k 0 ∧ 0 ≤ (rule2_6.nodes.getD k []).getD 0 0 ∧ 0 ≤ (rule2_6.nodes.getD k []).getD 1 0 ∧
    (rule2_6.nodes.getD k []).getD 0 0 + (rule2_6.nodes.getD k []).getD 1 0 ≤ 1 := by decide +kernel

theorem rule_total : (List.range 6).foldl (fun v k => v + rule2_6.weights.getD k 0) 0 ≤ 2 := by decide +kernel

theorem qwt_nonneg {k : Nat} (hk : k < 6) : 0 ≤ qwt k := by
  have := (rule_facts k hk).1
  rw [qwt, weight]
  exact_mod_cast this

theorem qwt_total : ∑ k ∈ Finset.range 6, qwt k ≤ 2 := by
  have := rule_total
  have h : ((List.range 6).foldl (fun v k => v + rule2_6.weights.getD k 0) 0 : ℚ) = ∑ k ∈ Finset.range 6, rule2_6.weights.getD k 0 := by
    simp [List.range_succ, Finset.sum_range_succ]
  rw [h] at this
  have : ((∑ k ∈ Finset.range 6, rule2_6.weights.getD k 0 : ℚ) : ℝ) ≤ ((2 : ℚ) : ℝ) := by exact_mod_cast this
  push_cast at this
  exact this

theorem qpt_mem (hS : S.Nondeg) {k : Nat} (hk : k < 6) : qpt S k ∈ tri S := by
  obtain ⟨_, h1, h2, h3⟩ := rule_facts k hk
  rw [tri, hull_image hS]
  refine ⟨_, ⟨fun z => ?_, ?_⟩, rfl⟩
  · fin_cases z
    · show 0 ≤ node ℝ rule2_6 k 0
      rw [node]; exact_mod_cast h1
    · show 0 ≤ node ℝ rule2_6 k 1
      rw [node]; exact_mod_cast h2
  · rw [Fin.sum_univ_two]
    show node ℝ rule2_6 k 0 + node ℝ rule2_6 k 1 ≤ 1
    rw [node, node]
    exact_mod_cast h3

end Fdapde.PDE
