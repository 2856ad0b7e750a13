import Verif.Quadrature.Spec
import Verif.Fields.LemmasAccuracy
import Mathlib.Analysis.Calculus.ContDiff.FTaylorSeries
import Mathlib.Analysis.Normed.Module.Multilinear.Basic
/-
Taylor polynomials of functions of several variables, as polynomials in the coordinates of a reference simplex.
-/
namespace Fdapde.Quadrature
open Set Fdapde.Fields

variable {M : Nat}

/-! ### Sums of the absolute values of the coefficients -/

theorem coeffSum_of' {p : MvPolynomial (Fin M) ℝ} {s : Finset (Fin M →₀ ℕ)} (h : p.support ⊆ s) : coeffSum p = ∑ m ∈ s, |p.coeff m| := by
  refine Finset.sum_subset h fun m _ hm => ?_
  rw [MvPolynomial.notMem_support_iff.1 hm, abs_zero]

theorem coeffSum_add' (p q : MvPolynomial (Fin M) ℝ) : coeffSum (p + q) ≤ coeffSum p + coeffSum q := by
  classical
  rw [coeffSum_of' (MvPolynomial.support_add (p := p) (q := q)), coeffSum_of' (Finset.subset_union_left (s₁ := p.support) (s₂ := q.support)),
    coeffSum_of' (Finset.subset_union_right (s₁ := p.support) (s₂ := q.support)), ← Finset.sum_add_distrib]
  exact Finset.sum_le_sum fun m _ => by rw [MvPolynomial.coeff_add]; exact abs_add_le _ _

theorem coeffSum_sum' {ι : Type} (s : Finset ι) (p : ι → MvPolynomial (Fin M) ℝ) : coeffSum (∑ i ∈ s, p i) ≤ ∑ i ∈ s, coeffSum (p i) := by
  classical
  induction s using Finset.induction_on with
  | empty => simp [coeffSum]
  | insert a s ha ih =>
    rw [Finset.sum_insert ha, Finset.sum_insert ha]
    exact (coeffSum_add' _ _).trans (add_le_add_right ih _)

theorem coeffSum_monomial' (m : Fin M →₀ ℕ) (a : ℝ) : coeffSum (MvPolynomial.monomial m a) ≤ |a| := by
  rw [coeffSum_of' (MvPolynomial.support_monomial_subset (s := m) (a := a)), Finset.sum_singleton, MvPolynomial.coeff_monomial, if_pos rfl]

/-- A product of coordinates. -/
theorem monomial_word {k : Nat} (w : Fin k → Fin M) (a : ℝ) :
    ∃ m : Fin M →₀ ℕ, (MvPolynomial.C a * ∏ i, MvPolynomial.X (w i) : MvPolynomial (Fin M) ℝ) = MvPolynomial.monomial m a := by
  classical
  refine ⟨∑ i, Finsupp.single (w i) 1, ?_⟩
  have : (∏ i, MvPolynomial.X (w i) : MvPolynomial (Fin M) ℝ) = MvPolynomial.monomial (∑ i, Finsupp.single (w i) 1) 1 := by
    rw [MvPolynomial.monomial_sum_one]
    rfl
  rw [this, MvPolynomial.C_mul_monomial, mul_one]

/-- A symmetric or general form of degree `k` on combinations of vectors is a polynomial of degree `k` in the coefficients. -/
theorem form_poly {E : Type} [NormedAddCommGroup E] [NormedSpace ℝ E] {k : Nat} (m : ContinuousMultilinearMap ℝ (fun _ : Fin k => E) ℝ) (v : Fin M → E) {D : ℝ}
    (hD : ∀ j, ‖v j‖ ≤ D) :
    ∃ p : MvPolynomial (Fin M) ℝ, p.totalDegree ≤ k ∧ (∀ x, MvPolynomial.eval x p = m fun _ => ∑ j, x j • v j) ∧ coeffSum p ≤ ‖m‖ * (M * D) ^ k := by
  refine ⟨∑ w : Fin k → Fin M, MvPolynomial.C (m fun i => v (w i)) * ∏ i, MvPolynomial.X (w i), ?_, ?_, ?_⟩
  · refine MvPolynomial.totalDegree_finsetSum_le fun w _ => (MvPolynomial.totalDegree_mul _ _).trans ?_
    rw [MvPolynomial.totalDegree_C, zero_add]
    refine (MvPolynomial.totalDegree_finsetProd _ _).trans ?_
    simp
  · intro x
    rw [map_sum, ContinuousMultilinearMap.map_sum]
    refine Finset.sum_congr rfl fun w _ => ?_
    rw [ContinuousMultilinearMap.map_smul_univ, map_mul, map_prod, MvPolynomial.eval_C, smul_eq_mul, mul_comm]
    simp
  · refine (coeffSum_sum' _ _).trans ?_
    calc _ ≤ ∑ _w : Fin k → Fin M, ‖m‖ * D ^ k := Finset.sum_le_sum fun w _ => by
          obtain ⟨e, he⟩ := monomial_word w (m fun i => v (w i))
          rw [he]
          refine (coeffSum_monomial' _ _).trans ?_
          refine (m.le_opNorm _).trans (mul_le_mul_of_nonneg_left ?_ (norm_nonneg _))
          calc ∏ i, ‖v (w i)‖ ≤ ∏ _i : Fin k, D := Finset.prod_le_prod (fun _ _ => norm_nonneg _) fun i _ => hD _
            _ = D ^ k := by simp
      _ = ‖m‖ * (M * D) ^ k := by
          rw [Finset.sum_const, Finset.card_univ, Fintype.card_fun, Fintype.card_fin, Fintype.card_fin, nsmul_eq_mul, mul_pow]
          push_cast
          ring

/-! ### Taylor's formula -/

/-- On an interval from 0, from bounds on the derivative of order `d + 1`. -/
theorem taylor1 : ∀ (d : Nat) {G : Nat → ℝ → ℝ} {h B : ℝ}, (∀ k ≤ d, ∀ s ∈ Icc 0 h, HasDerivAt (G k) (G (k + 1) s) s) → (∀ s ∈ Icc 0 h, |G (d + 1) s| ≤ B) →
    ∀ s ∈ Icc 0 h, |G 0 s - ∑ k ∈ Finset.range (d + 1), G k 0 * s ^ k / k.factorial| ≤ B / (d + 1).factorial * s ^ (d + 1)
  | 0, G, h, B, hG, hB, s, hs => by
    have := grow (p := fun s => G 0 s - G 0 0) (p' := G 1) (h := h) (C := B) 0 (fun s hs => (hG 0 le_rfl s hs).sub_const _) (by simp)
      (fun s hs => by simpa using hB s hs) s hs
    simpa using this
  | d + 1, G, h, B, hG, hB, s, hs => by
    have ih := taylor1 d (G := fun k => G (k + 1)) (h := h) (B := B) (fun k hk => hG (k + 1) (by omega)) hB
    have hd : ∀ s ∈ Icc 0 h, HasDerivAt (fun s => G 0 s - ∑ k ∈ Finset.range (d + 1 + 1), G k 0 * s ^ k / k.factorial)
        (G 1 s - ∑ k ∈ Finset.range (d + 1), G (k + 1) 0 * s ^ k / k.factorial) s := fun s hs => by
      refine (hG 0 (Nat.zero_le _) s hs).sub ?_
      have : (fun s : ℝ => ∑ k ∈ Finset.range (d + 1 + 1), G k 0 * s ^ k / k.factorial) =
          fun s => (∑ k ∈ Finset.range (d + 1), G (k + 1) 0 * s ^ (k + 1) / (k + 1).factorial) + G 0 0 := by
        funext s
        rw [Finset.sum_range_succ']
        simp
      rw [this]
      refine HasDerivAt.add_const _ ?_
      refine HasDerivAt.fun_sum fun k _ => ?_
      have := ((hasDerivAt_pow (k + 1) s).const_mul (G (k + 1) 0)).div_const ((k + 1).factorial : ℝ)
      refine this.congr_deriv ?_
      have h1 : ((k.factorial : ℕ) : ℝ) ≠ 0 := Nat.cast_ne_zero.2 (Nat.factorial_ne_zero _)
      have h2 : ((k : ℝ) + 1) ≠ 0 := by positivity
      rw [Nat.factorial_succ]
      push_cast
      field_simp
    have := grow (p := fun s => G 0 s - ∑ k ∈ Finset.range (d + 1 + 1), G k 0 * s ^ k / k.factorial) (h := h) (C := B / (d + 1).factorial) (d + 1) hd
      (by rw [Finset.sum_range_succ']; simp) (fun s hs => ih s hs) s hs
    refine this.trans (le_of_eq ?_)
    have h1 : (((d + 1).factorial : ℕ) : ℝ) ≠ 0 := Nat.cast_ne_zero.2 (Nat.factorial_ne_zero _)
    have h2 : ((d : ℝ) + 1 + 1) ≠ 0 := by positivity
    rw [Nat.factorial_succ (d + 1)]
    push_cast
    field_simp

/-- The derivatives of a function along a segment. -/
theorem along_deriv {E : Type} [NormedAddCommGroup E] [NormedSpace ℝ E] {f : E → ℝ} {d : Nat} (hf : ContDiff ℝ (d + 1 : ℕ) f) (a v : E) (k : Nat) (hk : k ≤ d) (s : ℝ) :
    HasDerivAt (fun s : ℝ => iteratedFDeriv ℝ k f (a + s • v) fun _ => v) (iteratedFDeriv ℝ (k + 1) f (a + s • v) fun _ => v) s := by
  have h1 : HasFDerivAt (iteratedFDeriv ℝ k f) (fderiv ℝ (iteratedFDeriv ℝ k f) (a + s • v)) (a + s • v) :=
    (hf.differentiable_iteratedFDeriv (m := k) (by exact_mod_cast Nat.lt_succ_of_le hk) _).hasFDerivAt
  have h2 : HasDerivAt (fun s : ℝ => a + s • v) v s := by
    have := ((hasDerivAt_id s).smul_const v).const_add a
    exact this.congr_deriv (by simp)
  have h3 := h1.comp_hasDerivAt s h2
  have h4 := ((ContinuousMultilinearMap.apply ℝ (fun _ : Fin k => E) ℝ fun _ => v).hasFDerivAt (x := iteratedFDeriv ℝ k f (a + s • v))).comp_hasDerivAt s h3
  refine h4.congr_deriv ?_
  rw [iteratedFDeriv_succ_apply_left]
  rfl

/-- A function with `d + 1` derivatives, on the points reached from `a` by combinations of vectors, is a polynomial of degree `d` in the coefficients up to its
derivative of order `d + 1`. -/
theorem taylor_poly {E : Type} [NormedAddCommGroup E] [NormedSpace ℝ E] {f : E → ℝ} {d : Nat} (hf : ContDiff ℝ (d + 1 : ℕ) f) (a : E) (v : Fin M → E) {D A B : ℝ}
    (hD : ∀ j, ‖v j‖ ≤ D) (hA : ∀ k ≤ d, ‖iteratedFDeriv ℝ k f a‖ ≤ A) :
    ∃ p : MvPolynomial (Fin M) ℝ, p.totalDegree ≤ d ∧ coeffSum p ≤ ∑ k ∈ Finset.range (d + 1), A * (M * D) ^ k / k.factorial ∧
      ∀ x : Fin M → ℝ, ‖∑ j, x j • v j‖ ≤ D → (∀ s ∈ Icc (0 : ℝ) 1, ‖iteratedFDeriv ℝ (d + 1) f (a + s • ∑ j, x j • v j)‖ ≤ B) →
        |f (a + ∑ j, x j • v j) - MvPolynomial.eval x p| ≤ B * D ^ (d + 1) / (d + 1).factorial := by
  choose p hp1 hp2 hp3 using fun k => form_poly (iteratedFDeriv ℝ k f a) v hD
  have hc : ∀ k, coeffSum (MvPolynomial.C ((1 : ℝ) / k.factorial) * p k) ≤ coeffSum (p k) / k.factorial := fun k => by
    rw [coeffSum_of' (s := (p k).support) (fun m hm => by
      rw [MvPolynomial.mem_support_iff, MvPolynomial.coeff_C_mul] at hm
      exact MvPolynomial.mem_support_iff.2 (right_ne_zero_of_mul hm)), coeffSum, Finset.sum_div]
    refine Finset.sum_le_sum fun m _ => ?_
    rw [MvPolynomial.coeff_C_mul, abs_mul, abs_of_nonneg (by positivity)]
    exact le_of_eq (by ring)
  refine ⟨∑ k ∈ Finset.range (d + 1), MvPolynomial.C ((1 : ℝ) / k.factorial) * p k, ?_, ?_, ?_⟩
  · refine MvPolynomial.totalDegree_finsetSum_le fun k hk => (MvPolynomial.totalDegree_mul _ _).trans ?_
    rw [MvPolynomial.totalDegree_C, zero_add]
    exact (hp1 k).trans (Nat.lt_succ_iff.1 (Finset.mem_range.1 hk))
  · refine (coeffSum_sum' _ _).trans (Finset.sum_le_sum fun k hk => (hc k).trans ?_)
    refine div_le_div_of_nonneg_right ?_ (Nat.cast_nonneg _)
    rcases Nat.eq_zero_or_pos M with h0 | h0
    · subst h0
      refine (hp3 k).trans ?_
      rcases Nat.eq_zero_or_pos k with hk0 | hk0
      · subst hk0
        simpa using hA 0 (Nat.zero_le _)
      · simp [hk0.ne']
    · have hD0 : 0 ≤ D := (norm_nonneg _).trans (hD ⟨0, h0⟩)
      exact (hp3 k).trans (mul_le_mul_of_nonneg_right (hA k (Nat.lt_succ_iff.1 (Finset.mem_range.1 hk))) (by positivity))
  · intro x hx hB
    have key := taylor1 d (G := fun k s => iteratedFDeriv ℝ k f (a + s • ∑ j, x j • v j) fun _ => ∑ j, x j • v j) (h := 1) (B := B * D ^ (d + 1))
      (fun k hk s _ => along_deriv hf a _ k hk s)
      (fun s hs => by
        refine ((iteratedFDeriv ℝ (d + 1) f (a + s • ∑ j, x j • v j)).le_opNorm _).trans ?_
        rw [Finset.prod_const, Finset.card_univ, Fintype.card_fin]
        exact mul_le_mul (hB s hs) (pow_le_pow_left₀ (norm_nonneg _) hx _) (by positivity) ((norm_nonneg _).trans (hB s hs))) 1 ⟨zero_le_one, le_rfl⟩
    rw [map_sum]
    simp only [map_mul, MvPolynomial.eval_C, hp2]
    simp only [one_smul, iteratedFDeriv_zero_apply, one_pow, mul_one, zero_smul, add_zero] at key
    convert key using 3
    refine Finset.sum_congr rfl fun k _ => ?_
    ring

end Fdapde.Quadrature
