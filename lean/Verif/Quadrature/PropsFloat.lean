import Verif.Quadrature.FloatModel
import Verif.Quadrature.PropsIntegrator
import Verif.Float.Error
/- C136 : integration in floating point arithmetic. -/
namespace Fdapde.Quadrature
open Fdapde.Fp
variable {P : Type}

/-- A loop of additions. -/
theorem foldl_err (r : Rounding) {k : Nat} (f f' m : Nat → ℝ) (h : ∀ i, r.Err k (m i) (f i) (f' i)) (n : Nat) :
    r.Err (k + n) (∑ i ∈ Finset.range n, m i) (∑ i ∈ Finset.range n, f i) ((List.range n).foldl (fun v i => r.ops.add v (f' i)) 0) := by
  induction n with
  | zero => simp [Rounding.Err]
  | succ n ih =>
    rw [List.range_succ, List.foldl_append, Finset.sum_range_succ, Finset.sum_range_succ]
    exact (ih.add ((h n).mono (Nat.le_add_right k n))).rnd

theorem foldl_rel (r : Rounding) {k : Nat} (f f' : Nat → ℝ) (n : Nat) (h : ∀ i < n, r.Rel k (f i) (f' i)) :
    r.Rel (k + n) (∑ i ∈ Finset.range n, f i) ((List.range n).foldl (fun v i => r.ops.add v (f' i)) 0) := by
  induction n with
  | zero => exact (Rounding.Rel.refl le_rfl).mono (Nat.zero_le _)
  | succ n ih =>
    rw [List.range_succ, List.foldl_append, Finset.sum_range_succ]
    exact ((ih fun i hi => h i (by omega)).add ((h n (by omega)).mono (Nat.le_add_right k n))).rnd

theorem weight_err (r : Rounding) (w : ℝ) : r.Err 1 |w| w (r.rnd w) := (Rounding.Err.exact w).rnd

theorem accumR_err (r : Rounding) (t : Table) (g : Nat → ℝ) :
    r.Err (2 + size t) (∑ iq ∈ Finset.range (size t), |g iq| * |weight ℝ t iq|) (∑ iq ∈ Finset.range (size t), g iq * weight ℝ t iq)
      (accumR r t g) :=
  foldl_err r _ _ _ (fun iq => ((Rounding.Err.exact (g iq)).mul (weight_err r (weight ℝ t iq))).rnd.mono (by omega)) (size t)

theorem gamma_bound (r : Rounding) (n : Nat) {e m : ℝ} (hm : 0 ≤ m) (he : |e| ≤ (r.b ^ n - 1) * m) :
    (1 - n * r.u) * |e| ≤ n * r.u * m := by
  have gm := r.gamma n
  rcases le_or_gt (1 - n * r.u) 0 with hn | hn
  · have h2 : 0 ≤ (n : ℝ) * r.u := by have := r.u_pos; positivity
    exact (mul_nonpos_of_nonpos_of_nonneg hn (abs_nonneg e)).trans (mul_nonneg h2 hm)
  · calc _ ≤ (1 - n * r.u) * ((r.b ^ n - 1) * m) := mul_le_mul_of_nonneg_left he hn.le
      _ = ((r.b ^ n - 1) * (1 - n * r.u)) * m := by ring
      _ ≤ _ := mul_le_mul_of_nonneg_right gm hm

/-- **C136**, meshes: with values `g` of the integrand and measures `μ`, the integral over a mesh of `n` cells is the quadrature sum up
to `γ Σ μ Σ |g w|`, where `γ = k u / (1 - k u)` and `k` is the number of cells plus that of the nodes of the rule plus three. -/
theorem C136_mesh (r : Rounding) (t : Table) (n : Nat) (μ : Nat → ℝ) (g : Nat → Nat → ℝ) :
    (1 - ((n + size t + 3 : Nat) : ℝ) * r.u) * |integrateMeshR r n (fun id => integrateCellR r t (μ id) (g id)) -
        ∑ id ∈ Finset.range n, (∑ iq ∈ Finset.range (size t), g id iq * weight ℝ t iq) * μ id| ≤
      ((n + size t + 3 : Nat) : ℝ) * r.u * ∑ id ∈ Finset.range n, (∑ iq ∈ Finset.range (size t), |g id iq| * |weight ℝ t iq|) * |μ id| := by
  have h := foldl_err r _ _ _ (fun id => ((accumR_err r t (g id)).mul (Rounding.Err.exact (μ id))).rnd) n
  exact gamma_bound r _ h.nonneg (h.mono (by omega)).2

/-- **C136**, functions which are not negative, with a rule whose weights are not negative: the relative error is at most `γ`, without
dependence on the shape of the mesh; the result is not negative, and positive if the quadrature sum is. -/
theorem C136_relative (r : Rounding) (t : Table) (n : Nat) (μ : Nat → ℝ) (hμ : ∀ id < n, 0 ≤ μ id) (hw : ∀ iq < size t, 0 ≤ weight ℝ t iq)
    (g : Nat → Nat → ℝ) (hg : ∀ id < n, ∀ iq < size t, 0 ≤ g id iq) :
    let I := ∑ id ∈ Finset.range n, (∑ iq ∈ Finset.range (size t), g id iq * weight ℝ t iq) * μ id
    let I' := integrateMeshR r n (fun id => integrateCellR r t (μ id) (g id))
    0 ≤ I' ∧ (I' = 0 ↔ I = 0) ∧ (1 - ((n + size t + 3 : Nat) : ℝ) * r.u) * |I' - I| ≤ ((n + size t + 3 : Nat) : ℝ) * r.u * I := by
  intro I I'
  have h : r.Rel (2 + size t + 0 + 1 + n) I I' := by
    refine foldl_rel r _ _ n fun id hid => ?_
    have ha : r.Rel (2 + size t) (∑ iq ∈ Finset.range (size t), g id iq * weight ℝ t iq) (accumR r t (g id)) := by
      refine foldl_rel r _ _ (size t) fun iq hiq => ?_
      exact (((Rounding.Rel.refl (hg id hid iq hiq)).mul (Rounding.Rel.rnd0 (hw iq hiq))).rnd).mono (by omega)
    exact (ha.mul (Rounding.Rel.refl (hμ id hid))).rnd
  refine ⟨h.2.1, h.eq_zero, ?_⟩
  exact gamma_bound r _ h.1 ((Rounding.Err.of_rel h).mono (by omega)).2

/-- **C136**, cells: what the code obtains for the integral of a function which is a polynomial of degree at most that of the rule,
when the values of the function at the nodes have errors of at most `η` and the stored measure is `μ`. -/
theorem C136_cell (r : Rounding) (t : Table) (M d : Nat) (ht : ExactTo t M d) (phi : (Nat → ℝ) → P) (μ : ℝ) (hμ : 0 ≤ μ) (f : P → ℝ)
    (p : MvPolynomial (Fin M) ℝ) (hp : p.totalDegree ≤ d) (hf : ∀ x : Nat → ℝ, f (phi x) = MvPolynomial.eval (fun z : Fin M => x z) p)
    (g : Nat → ℝ) (η B : ℝ) (hη : ∀ iq < size t, |g iq - f (phi (node ℝ t iq))| ≤ η) (hB : ∀ iq < size t, |g iq| ≤ B) :
    |integrateCellR r t μ g - μ * refMean M (fun x => MvPolynomial.eval x p)| ≤
      μ * (((r.b ^ (size t + 3) - 1) * B + η) * ∑ iq ∈ Finset.range (size t), |weight ℝ t iq| + 1 / 10 ^ 14 * coeffSum p) := by
  have h1 := (((accumR_err r t g).mul (Rounding.Err.exact μ)).rnd.mono (show 2 + size t + 0 + 1 ≤ size t + 3 by omega)).2
  have h2 := C87_cell t M d ht phi μ hμ f p hp hf
  set W := ∑ iq ∈ Finset.range (size t), |weight ℝ t iq|
  have h3 : |(∑ iq ∈ Finset.range (size t), g iq * weight ℝ t iq) * μ - integrateCell t phi μ f| ≤ μ * (η * W) := by
    unfold integrateCell accum
    rw [foldl_add_sum, ← sub_mul, ← Finset.sum_sub_distrib, abs_mul, abs_of_nonneg hμ, mul_comm μ]
    refine mul_le_mul_of_nonneg_right ?_ hμ
    rw [Finset.mul_sum]
    refine (Finset.abs_sum_le_sum_abs _ _).trans (Finset.sum_le_sum fun iq hiq => ?_)
    rw [← sub_mul, abs_mul]
    exact mul_le_mul_of_nonneg_right (hη iq (Finset.mem_range.1 hiq)) (abs_nonneg _)
  have h4 : (∑ iq ∈ Finset.range (size t), |g iq| * |weight ℝ t iq|) ≤ B * W := by
    rw [Finset.mul_sum]
    exact Finset.sum_le_sum fun iq hiq => mul_le_mul_of_nonneg_right (hB iq (Finset.mem_range.1 hiq)) (abs_nonneg _)
  have hb : 0 ≤ r.b ^ (size t + 3) - 1 := by linarith [one_le_pow₀ r.one_le_b (n := size t + 3)]
  have h5 : (r.b ^ (size t + 3) - 1) * ((∑ iq ∈ Finset.range (size t), |g iq| * |weight ℝ t iq|) * |μ|) ≤
      (r.b ^ (size t + 3) - 1) * (B * W * μ) := by
    rw [abs_of_nonneg hμ]
    exact mul_le_mul_of_nonneg_left (mul_le_mul_of_nonneg_right h4 hμ) hb
  have h6 := h1.trans h5
  have h7 := (abs_sub_le _ _ _).trans (add_le_add ((abs_sub_le _ _ _).trans (add_le_add h6 h3)) h2)
  refine h7.trans (le_of_eq ?_)
  ring

/-- **C136**, intervals: the integrator of the splines. -/
theorem C136_interval (r : Rounding) (t : Table) (a b : ℝ) (g : Nat → ℝ) :
    (1 - ((size t + 5 : Nat) : ℝ) * r.u) * |integrateIntervalR r t a b g - (b - a) / 2 * ∑ iq ∈ Finset.range (size t), g iq * weight ℝ t iq| ≤
      ((size t + 5 : Nat) : ℝ) * r.u * (|b - a| / 2 * ∑ iq ∈ Finset.range (size t), |g iq| * |weight ℝ t iq|) := by
  have h0 : r.Err 2 (|b - a| * |(2 : ℝ)⁻¹|) ((b - a) * 2⁻¹) (r.ops.div (r.ops.sub b a) 2) :=
    ((Rounding.Err.exact (b - a)).rnd.mul (Rounding.Err.exact (2 : ℝ)⁻¹)).rnd
  have h := (h0.mul (accumR_err r t g)).rnd.mono (show 2 + (2 + size t) + 1 ≤ size t + 5 by omega)
  have e : |(2 : ℝ)⁻¹| = 2⁻¹ := abs_of_pos (by norm_num)
  rw [e, ← div_eq_mul_inv, ← div_eq_mul_inv] at h
  exact gamma_bound r _ h.nonneg h.2

/-- The rules on triangles with 1, 3, 6 and 7 nodes have positive weights: a mesh of two cells and a positive function. -/
example : ∀ t ∈ [rule2_1, rule2_3, rule2_6, rule2_7], ∀ iq < size t, 0 ≤ weight ℝ t iq := by
  intro t ht iq hiq
  unfold weight
  have : ∀ t ∈ [rule2_1, rule2_3, rule2_6, rule2_7], ∀ iq < size t, (0 : ℚ) ≤ t.weights.getD iq 0 := by decide +kernel
  exact_mod_cast this t ht iq hiq

end Fdapde.Quadrature
