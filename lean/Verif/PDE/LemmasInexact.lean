import Verif.PDE.InexactSpec
import Verif.PDE.PropsElliptic
set_option linter.unusedSectionVars false
/-!
# Discrete problems whose linear system is solved up to a residual
-/
namespace Fdapde.PDE
open Fdapde.Quadrature MeasureTheory Fdapde.FEM
variable {P : Prob ℝ} {X : Nat → Nat → ℝ} {I : Nat → Nat → Nat → ℝ}

theorem len_scale_abs {N : Nat} (a : ℝ) (x : Fin N → ℝ) : len (fun z => a * x z) = |a| * len x := by
  rw [len, len, ← Real.sqrt_sq_eq_abs, ← Real.sqrt_mul (sq_nonneg a), Finset.mul_sum]
  congr 1
  exact Finset.sum_congr rfl fun z _ => by ring

theorem len_sum {N : Nat} (s : Finset Nat) (f : Nat → Fin N → ℝ) : len (fun z => ∑ i ∈ s, f i z) ≤ ∑ i ∈ s, len (f i) := by
  induction s using Finset.induction_on with
  | empty => simp [len]
  | insert a s ha ih =>
    rw [Finset.sum_insert ha]
    simp only [Finset.sum_insert ha]
    exact (len_add _ _).trans (add_le_add le_rfl ih)

/-- Sum of the absolute values of a discrete function at the nodes of a cell. -/
noncomputable def Prob.cellSum (P : Prob ℝ) (v : Nat → ℝ) (c : Nat) : ℝ := ∑ i ∈ Finset.range P.nb, |v (P.dofs c i)|

theorem cellSum_nonneg (v : Nat → ℝ) (c : Nat) : 0 ≤ P.cellSum v c := Finset.sum_nonneg fun _ _ => abs_nonneg _

theorem cellSum_le (h : P.OnNodes X I) {v : Nat → ℝ} {c : Nat} {S : ℝ} (hv : ∀ i < P.nb, |v (P.dofs c i)| ≤ S) : P.cellSum v c ≤ (P.N + 1) * S := by
  refine (Finset.sum_le_sum fun i hi => hv i (Finset.mem_range.1 hi)).trans (le_of_eq ?_)
  rw [Finset.sum_const, Finset.card_range, nb_eq h, nsmul_eq_mul]
  push_cast
  ring

theorem node_len (h : P.OnNodes X I) {hh ρ : ℝ} (hs : P.Shape X hh ρ) (hρ : 0 < ρ) {v : Nat → ℝ} {V : Nat → Fin P.N → ℝ} {b : Nat → ℝ}
    (hv : P.Affine X v V b) {c : Nat} (hc : c < P.n) : len (V c) ≤ P.cellSum v c / ρ := by
  have e : V c = fun z : Fin P.N => ∑ i ∈ Finset.range P.nb, v (P.dofs c i) * locGrad P.N I c i z :=
    funext fun z => (slope_grad h (fun c hc => ⟨b c, hv c hc⟩) hc z).symm
  rw [e, Prob.cellSum, Finset.sum_div]
  refine (len_sum _ fun i (z : Fin P.N) => v (P.dofs c i) * locGrad P.N I c i z).trans (Finset.sum_le_sum fun i hi => ?_)
  rw [len_scale_abs (v (P.dofs c i)) fun z : Fin P.N => locGrad P.N I c i z, div_eq_mul_inv]
  refine mul_le_mul_of_nonneg_left ?_ (abs_nonneg _)
  have := Real.sqrt_le_sqrt (grad_height h hs hρ hc (Finset.mem_range.1 hi))
  rwa [one_div, Real.sqrt_inv, Real.sqrt_sq hρ.le] at this

theorem node_value (h : P.OnNodes X I) {v : Nat → ℝ} {V : Nat → Fin P.N → ℝ} {b : Nat → ℝ} (hv : P.Affine X v V b) {c : Nat} (hc : c < P.n)
    {S : ℝ} (hS : ∀ i < P.nb, |v (P.dofs c i)| ≤ S) {x : Fin P.N → ℝ} (hx : x ∈ P.cell X c) : |aff (V c) (b c) x| ≤ S := by
  have hsub : P.cell X c ⊆ {x | |aff (V c) (b c) x| ≤ S} := by
    refine convexHull_min ?_ ?_
    · rintro _ ⟨j, rfl⟩
      have hj : (j : Nat) < P.nb := by rw [nb_eq h]; exact j.2
      have := hS j hj
      rwa [hv c hc j hj] at this
    · intro x hx y hy s t hs ht hst
      have e : aff (V c) (b c) (s • x + t • y) = s * aff (V c) (b c) x + t * aff (V c) (b c) y := by
        simp only [aff, Pi.add_apply, Pi.smul_apply, smul_eq_mul, mul_add, Finset.sum_add_distrib, Finset.mul_sum]
        have : b c = s * b c + t * b c := by rw [← add_mul, hst, one_mul]
        conv_lhs => rw [this]
        have e1 : ∀ z, V c z * (s * x z) = s * (V c z * x z) := fun z => by ring
        have e2 : ∀ z, V c z * (t * y z) = t * (V c z * y z) := fun z => by ring
        simp only [e1, e2]
        ring
      show |aff (V c) (b c) (s • x + t • y)| ≤ S
      rw [e]
      refine (abs_add_le _ _).trans ?_
      rw [abs_mul, abs_mul, abs_of_nonneg hs, abs_of_nonneg ht]
      have i1 := mul_le_mul_of_nonneg_left hx hs
      have i2 := mul_le_mul_of_nonneg_left hy ht
      calc _ ≤ s * S + t * S := add_le_add i1 i2
        _ = S := by rw [← add_mul, hst, one_mul]
  exact hsub hx

theorem node_value_sum (h : P.OnNodes X I) {v : Nat → ℝ} {V : Nat → Fin P.N → ℝ} {b : Nat → ℝ} (hv : P.Affine X v V b) {c : Nat} (hc : c < P.n)
    {x : Fin P.N → ℝ} (hx : x ∈ P.cell X c) : |aff (V c) (b c) x| ≤ P.cellSum v c :=
  node_value h hv hc (fun _ hi => Finset.single_le_sum (f := fun i => |v (P.dofs c i)|) (fun _ _ => abs_nonneg _) (Finset.mem_range.2 hi)) hx

section
variable {D : Nat → Nat → Fin P.N → Fin P.N → ℝ} {β : Nat → Nat → Fin P.N → ℝ} {r : Nat → Nat → ℝ} {hh ρ Λ bm cm : ℝ}

/-- The terms of the form at a node of the quadrature. -/
theorem term_bound {c k : Nat} (hΛ : 0 ≤ Λ)
    (hD : ∀ ξ : Fin P.N → ℝ, len (fun z => ∑ y, D c k z y * ξ y) ≤ Λ * len ξ) (hβ : len (β c k) ≤ bm) (hr : |r c k| ≤ cm)
    (U V : Fin P.N → ℝ) (a b : ℝ) {lU lV la lb : ℝ} (h1 : len U ≤ lU) (h2 : len V ≤ lV) (h3 : |a| ≤ la) (h4 : |b| ≤ lb) :
    |(∑ z, (∑ y, D c k z y * U y) * V z) + (∑ z, β c k z * U z) * b + r c k * a * b| ≤ Λ * lU * lV + (bm * lU + cm * la) * lb := by
  have hlU := (len_nonneg _).trans h1
  have hla := (abs_nonneg _).trans h3
  have hbm := (len_nonneg _).trans hβ
  have hcm := (abs_nonneg _).trans hr
  have i1 : |∑ z, (∑ y, D c k z y * U y) * V z| ≤ Λ * lU * lV :=
    (dot_le_len _ _).trans (mul_le_mul ((hD U).trans (mul_le_mul_of_nonneg_left h1 hΛ)) h2 (len_nonneg _) (mul_nonneg hΛ hlU))
  have i2 : |(∑ z, β c k z * U z) * b| ≤ bm * lU * lb := by
    rw [abs_mul]
    exact mul_le_mul ((dot_le_len _ _).trans (mul_le_mul hβ h1 (len_nonneg _) hbm)) h4 (abs_nonneg _) (mul_nonneg hbm hlU)
  have i3 : |r c k * a * b| ≤ cm * la * lb := by
    rw [abs_mul, abs_mul]
    exact mul_le_mul (mul_le_mul hr h3 (abs_nonneg _) hcm) h4 (abs_nonneg _) (mul_nonneg hcm hla)
  calc _ ≤ |∑ z, (∑ y, D c k z y * U y) * V z| + |(∑ z, β c k z * U z) * b| + |r c k * a * b| := abs_add_three _ _ _
    _ ≤ Λ * lU * lV + bm * lU * lb + cm * la * lb := add_le_add (add_le_add i1 i2) i3
    _ = _ := by ring

/-- Weighted sums over cells and nodes of the quadrature. -/
theorem quad_bound (h : P.OnNodes X I) (T : Nat → Nat → ℝ) (S : Nat → ℝ) (hT : ∀ c < P.n, ∀ k < size P.t, |T c k| ≤ S c) :
    |∑ c ∈ Finset.range P.n, ∑ k ∈ Finset.range (size P.t), weight ℝ P.t k * (P.measure c * T c k)| ≤
      (∑ k ∈ Finset.range (size P.t), weight ℝ P.t k) * ∑ c ∈ Finset.range P.n, P.measure c * S c := by
  rw [Finset.mul_sum]
  refine (Finset.abs_sum_le_sum_abs _ _).trans (Finset.sum_le_sum fun c hc => ?_)
  rw [Finset.sum_mul]
  refine (Finset.abs_sum_le_sum_abs _ _).trans (Finset.sum_le_sum fun k hk => ?_)
  have hk' := Finset.mem_range.1 hk
  have hc' := Finset.mem_range.1 hc
  rw [abs_mul, abs_mul, abs_of_pos (weight_pos h hk'), abs_of_pos (measure_pos h hc')]
  exact mul_le_mul_of_nonneg_left (mul_le_mul_of_nonneg_left (hT c hc' k hk') (measure_pos h hc').le) (weight_pos h hk').le

/-- Bound of the sum of the absolute values in a row, for each unit of the values of the function. -/
noncomputable def rowConst (N : Nat) (ρ Λ bm cm : ℝ) : ℝ := Λ * ((N + 1) / ρ) / ρ + bm * ((N + 1) / ρ) + cm

theorem bilin_rows (h : P.OnNodes X I) (hop : P.Form D β r) (hs : P.Shape X hh ρ) (hρ : 0 < ρ) (hΛ : 0 ≤ Λ)
    (hD : ∀ c < P.n, ∀ k < size P.t, ∀ ξ : Fin P.N → ℝ, len (fun z => ∑ y, D c k z y * ξ y) ≤ Λ * len ξ)
    (hβ : ∀ c < P.n, ∀ k < size P.t, len (β c k) ≤ bm) (hr : ∀ c < P.n, ∀ k < size P.t, |r c k| ≤ cm)
    {s : Nat → ℝ} {Wm : ℝ} (hw : ∀ c < P.n, ∀ i < P.nb, |s (P.dofs c i)| ≤ Wm) (v : Nat → ℝ) :
    |P.bilin s v| ≤ (∑ k ∈ Finset.range (size P.t), weight ℝ P.t k) *
      ∑ c ∈ Finset.range P.n, P.measure c * (rowConst P.N ρ Λ bm cm * Wm * P.cellSum v c) := by
  obtain ⟨U, a, hU⟩ := affine_exists h s
  obtain ⟨V, b, hV⟩ := affine_exists h v
  rw [bilin_form h hop hU hV]
  refine quad_bound h _ _ fun c hc k hk => ?_
  have hn := node_mem h c hk
  have h1 : len (U c) ≤ (P.N + 1) * Wm / ρ := (node_len h hs hρ hU hc).trans (div_le_div_of_nonneg_right (cellSum_le h (hw c hc)) hρ.le)
  refine (term_bound hΛ (hD c hc k hk) (hβ c hc k hk) (hr c hc k hk) (U c) (V c) _ _ h1 (node_len h hs hρ hV hc) (node_value h hU hc (hw c hc) hn)
    (node_value_sum h hV hc hn)).trans (le_of_eq ?_)
  rw [rowConst]
  ring

theorem load_rows (h : P.OnNodes X I) {f : Nat → Nat → ℝ} {Fm : ℝ} (hf : ∀ c < P.n, ∀ k < size P.t, |f c k| ≤ Fm) (v : Nat → ℝ) :
    |P.load f v| ≤ (∑ k ∈ Finset.range (size P.t), weight ℝ P.t k) * ∑ c ∈ Finset.range P.n, P.measure c * (Fm * P.cellSum v c) := by
  obtain ⟨V, b, hV⟩ := affine_exists h v
  have e : P.load f v = ∑ c ∈ Finset.range P.n, ∑ k ∈ Finset.range (size P.t), weight ℝ P.t k * (P.measure c * (f c k * aff (V c) (b c) (P.point X c k))) := by
    rw [Prob.load]
    refine Finset.sum_congr rfl fun c hc => ?_
    rw [Finset.mul_sum]
    refine Finset.sum_congr rfl fun k hk => ?_
    rw [fe_node h hV (Finset.mem_range.1 hc) (Finset.mem_range.1 hk)]
    simp only [aff, Prob.point]
    ring
  rw [e]
  refine quad_bound h _ _ fun c hc k hk => ?_
  rw [abs_mul]
  exact mul_le_mul (hf c hc k hk) (node_value_sum h hV hc (node_mem h c hk)) (abs_nonneg _) ((abs_nonneg _).trans (hf c hc k hk))

/-- The discrete function that is one at a node. -/
def hatAt (p : Nat) : Nat → ℝ := fun q => if q = p then 1 else 0

theorem hat_row (m : Nat) (A : Nat → Nat → ℝ) (u : Nat → ℝ) {p : Nat} (hp : p < m) :
    ∑ p' ∈ Finset.range m, ∑ q ∈ Finset.range m, hatAt p p' * A p' q * u q = ∑ q ∈ Finset.range m, A p q * u q := by
  rw [Finset.sum_eq_single p]
  · simp [hatAt]
  · intro p' _ hne
    simp [hatAt, hne]
  · intro hne; exact absurd (Finset.mem_range.2 hp) hne

theorem hat_load (m : Nat) (b : Nat → ℝ) {p : Nat} (hp : p < m) : ∑ p' ∈ Finset.range m, hatAt p p' * b p' = b p := by
  rw [Finset.sum_eq_single p]
  · simp [hatAt]
  · intro p' _ hne
    simp [hatAt, hne]
  · intro hne; exact absurd (Finset.mem_range.2 hp) hne

theorem cellSum_hat (hP : P.Ok) (v : Nat → ℝ) {c : Nat} (hc : c < P.n) :
    ∑ p ∈ Finset.range P.m, |v p| * P.cellSum (hatAt p) c = P.cellSum v c := by
  simp only [Prob.cellSum, Finset.mul_sum]
  rw [Finset.sum_comm]
  refine Finset.sum_congr rfl fun i hi => ?_
  have hd := hP.dofs c hc i (Finset.mem_range.1 hi)
  rw [Finset.sum_eq_single (P.dofs c i)]
  · simp [hatAt]
  · intro p _ hne
    simp [hatAt, Ne.symm hne]
  · intro hne; exact absurd (Finset.mem_range.2 hd) hne

/-- The residual of a vector whose equations hold up to a backward error. -/
theorem residual_test (h : P.OnNodes X I) (hP : P.Ok) (hop : P.Form D β r) (hs : P.Shape X hh ρ) (hρ : 0 < ρ) (hΛ : 0 ≤ Λ)
    (hD : ∀ c < P.n, ∀ k < size P.t, ∀ ξ : Fin P.N → ℝ, len (fun z => ∑ y, D c k z y * ξ y) ≤ Λ * len ξ)
    (hβ : ∀ c < P.n, ∀ k < size P.t, len (β c k) ≤ bm) (hr : ∀ c < P.n, ∀ k < size P.t, |r c k| ≤ cm)
    {f : Nat → Nat → ℝ} {Fm : ℝ} (hf : ∀ c < P.n, ∀ k < size P.t, |f c k| ≤ Fm)
    {A : Nat → Nat → ℝ} (hA : ∀ u v, ∑ p ∈ Finset.range P.m, ∑ q ∈ Finset.range P.m, v p * A p q * u q = P.bilin u v)
    {b : Nat → ℝ} (hb : ∀ v : Nat → ℝ, ∑ p ∈ Finset.range P.m, v p * b p = P.load f v)
    {w : Nat → ℝ} {Wm ε : ℝ} (hw : ∀ p < P.m, |w p| ≤ Wm) (hε : 0 ≤ ε)
    (hres : ∀ p < P.m, P.bd p = false →
      |∑ q ∈ Finset.range P.m, A p q * w q - b p| ≤ ε * (∑ q ∈ Finset.range P.m, |A p q| * |w q| + |b p|)) {v : Nat → ℝ} (hT : P.Test v) :
    |P.bilin w v - P.load f v| ≤ (∑ k ∈ Finset.range (size P.t), weight ℝ P.t k) *
      (ε * ((rowConst P.N ρ Λ bm cm * Wm + Fm) * ∑ c ∈ Finset.range P.n, P.measure c * P.cellSum v c)) := by
  set σ := ∑ k ∈ Finset.range (size P.t), weight ℝ P.t k with hσ
  have e1 : P.bilin w v - P.load f v = ∑ p ∈ Finset.range P.m, v p * (∑ q ∈ Finset.range P.m, A p q * w q - b p) := by
    rw [← hA, ← hb, ← Finset.sum_sub_distrib]
    refine Finset.sum_congr rfl fun p _ => ?_
    rw [mul_sub, Finset.mul_sum]
    congr 1
    exact Finset.sum_congr rfl fun q _ => by ring
  have row : ∀ p < P.m, ∑ q ∈ Finset.range P.m, |A p q| * |w q| + |b p| ≤
      σ * ∑ c ∈ Finset.range P.n, P.measure c * ((rowConst P.N ρ Λ bm cm * Wm + Fm) * P.cellSum (hatAt p) c) := by
    intro p hp
    set s : Nat → ℝ := fun q => if 0 ≤ A p q then |w q| else -|w q| with hsd
    have es : ∑ q ∈ Finset.range P.m, |A p q| * |w q| = P.bilin s (hatAt p) := by
      rw [← hA, hat_row P.m A s hp]
      refine Finset.sum_congr rfl fun q _ => ?_
      simp only [hsd]
      split_ifs with h0
      · rw [abs_of_nonneg h0]
      · rw [abs_of_neg (not_le.1 h0)]; ring
    have i1 := (le_abs_self _).trans (bilin_rows h hop hs hρ hΛ hD hβ hr (s := s) (Wm := Wm) (fun c hc i hi => by
      have := hw _ (hP.dofs c hc i hi)
      simp only [hsd]
      split_ifs
      · rwa [abs_abs]
      · rwa [abs_neg, abs_abs]) (hatAt p))
    have i2 := load_rows h hf (hatAt p)
    rw [← hb, hat_load P.m b hp] at i2
    rw [es]
    refine (add_le_add i1 i2).trans (le_of_eq ?_)
    rw [← mul_add, ← Finset.sum_add_distrib]
    congr 1
    exact Finset.sum_congr rfl fun c _ => by ring
  rw [e1]
  refine (Finset.abs_sum_le_sum_abs _ _).trans ?_
  calc ∑ p ∈ Finset.range P.m, |v p * (∑ q ∈ Finset.range P.m, A p q * w q - b p)|
      ≤ ∑ p ∈ Finset.range P.m, |v p| * (ε * (σ * ∑ c ∈ Finset.range P.n, P.measure c * ((rowConst P.N ρ Λ bm cm * Wm + Fm) * P.cellSum (hatAt p) c))) := by
        refine Finset.sum_le_sum fun p hp => ?_
        have hp' := Finset.mem_range.1 hp
        rw [abs_mul]
        cases hbd : P.bd p with
        | true => rw [hT p hp' hbd]; simp
        | false =>
          exact mul_le_mul_of_nonneg_left ((hres p hp' hbd).trans (mul_le_mul_of_nonneg_left (row p hp') hε)) (abs_nonneg _)
    _ = σ * (ε * ((rowConst P.N ρ Λ bm cm * Wm + Fm) * ∑ c ∈ Finset.range P.n, P.measure c * ∑ p ∈ Finset.range P.m, |v p| * P.cellSum (hatAt p) c)) := by
        simp only [Finset.mul_sum]
        rw [Finset.sum_comm]
        exact Finset.sum_congr rfl fun c _ => Finset.sum_congr rfl fun p _ => by ring
    _ = _ := by
        congr 3
        exact Finset.sum_congr rfl fun c hc => by rw [cellSum_hat hP v (Finset.mem_range.1 hc)]

theorem cellSum_test (h : P.OnNodes X I) (hs : P.Shape X hh ρ) (hh0 : 0 ≤ hh) {C : ℝ} (hC : 0 ≤ C) (hF : P.Friedrichs X C)
    {v : Nat → ℝ} {V : Nat → Fin P.N → ℝ} {b : Nat → ℝ} (hT : P.Test v) (hv : P.Affine X v V b) :
    ∑ c ∈ Finset.range P.n, P.measure c * P.cellSum v c ≤
      (P.N + 1) * (C + hh) * Real.sqrt (∑ c ∈ Finset.range P.n, P.measure c) * Real.sqrt (P.energySq X V) := by
  have i1 : ∀ c ∈ Finset.range P.n, P.measure c * P.cellSum v c ≤ (P.N + 1) * (Real.sqrt (P.measure c) * P.peak X hh V b c) := by
    intro c hc
    have hc' := Finset.mem_range.1 hc
    have hm := measure_pos h hc'
    have : P.cellSum (fun p => Real.sqrt (P.measure c) * v p) c ≤ (P.N + 1) * P.peak X hh V b c := by
      refine cellSum_le h fun i hi => ?_
      rw [abs_mul, abs_of_nonneg (Real.sqrt_nonneg _), hv c hc' i hi]
      exact value_peak h hs hh0 V b hc' (cell_node h hi)
    have e : P.cellSum (fun p => Real.sqrt (P.measure c) * v p) c = Real.sqrt (P.measure c) * P.cellSum v c := by
      rw [Prob.cellSum, Prob.cellSum, Finset.mul_sum]
      exact Finset.sum_congr rfl fun i _ => by rw [abs_mul, abs_of_nonneg (Real.sqrt_nonneg _)]
    rw [e] at this
    calc P.measure c * P.cellSum v c = Real.sqrt (P.measure c) * (Real.sqrt (P.measure c) * P.cellSum v c) := by
          rw [← mul_assoc, Real.mul_self_sqrt hm.le]
      _ ≤ Real.sqrt (P.measure c) * ((P.N + 1) * P.peak X hh V b c) := mul_le_mul_of_nonneg_left this (Real.sqrt_nonneg _)
      _ = _ := by ring
  refine (Finset.sum_le_sum i1).trans ?_
  rw [← Finset.mul_sum]
  have i2 := (sum_mul_le (Finset.range P.n) (fun c => Real.sqrt (P.measure c)) (P.peak X hh V b)).trans
    (mul_le_mul_of_nonneg_left (peak_norm h hh0 hC hF hT hv) (Real.sqrt_nonneg _))
  rw [Finset.sum_congr rfl fun c hc => Real.sq_sqrt (measure_pos h (Finset.mem_range.1 hc)).le] at i2
  refine (mul_le_mul_of_nonneg_left i2 (by positivity)).trans (le_of_eq ?_)
  ring

/-- The form of a function with small values and a test function. -/
theorem lift_form (h : P.OnNodes X I) (hop : P.Form D β r) (hs : P.Shape X hh ρ) (hh0 : 0 ≤ hh) (hρ : 0 < ρ) (hΛ : 0 ≤ Λ) (hbm : 0 ≤ bm) (hcm : 0 ≤ cm)
    (hD : ∀ c < P.n, ∀ k < size P.t, ∀ ξ : Fin P.N → ℝ, len (fun z => ∑ y, D c k z y * ξ y) ≤ Λ * len ξ)
    (hβ : ∀ c < P.n, ∀ k < size P.t, len (β c k) ≤ bm) (hr : ∀ c < P.n, ∀ k < size P.t, |r c k| ≤ cm)
    {C : ℝ} (hC : 0 ≤ C) (hF : P.Friedrichs X C) {s : Nat → ℝ} {η : ℝ} (hη : 0 ≤ η) (hw : ∀ c < P.n, ∀ i < P.nb, |s (P.dofs c i)| ≤ η)
    {v : Nat → ℝ} {V : Nat → Fin P.N → ℝ} {b : Nat → ℝ} (hT : P.Test v) (hv : P.Affine X v V b) :
    |P.bilin s v| ≤ (∑ k ∈ Finset.range (size P.t), weight ℝ P.t k) * (η * (Λ * ((P.N + 1) / ρ) + (bm * ((P.N + 1) / ρ) + cm) * (C + hh)) *
      Real.sqrt (∑ c ∈ Finset.range P.n, P.measure c) * Real.sqrt (P.energySq X V)) := by
  obtain ⟨U, a, hU⟩ := affine_exists h s
  set τ := (P.N + 1 : ℝ) / ρ with hτ
  have hτ0 : 0 ≤ τ := by positivity
  rw [bilin_form h hop hU hv]
  refine (quad_bound h _ (fun c => Λ * (τ * η) * len (V c) + (bm * (τ * η) + cm * η) * (P.peak X hh V b c / Real.sqrt (P.measure c))) fun c hc k hk => ?_).trans ?_
  · have hn := node_mem h c hk
    have h1 : len (U c) ≤ τ * η := ((node_len h hs hρ hU hc).trans (div_le_div_of_nonneg_right (cellSum_le h (hw c hc)) hρ.le)).trans (le_of_eq (by rw [hτ]; ring))
    refine term_bound hΛ (hD c hc k hk) (hβ c hc k hk) (hr c hc k hk) (U c) (V c) _ _ h1 le_rfl (node_value h hU hc (hw c hc) hn) ?_
    rw [le_div_iff₀ (Real.sqrt_pos.2 (measure_pos h hc)), mul_comm]
    exact value_peak h hs hh0 V b hc hn
  refine mul_le_mul_of_nonneg_left ?_ (weights_pos h).le
  have e : ∀ c ∈ Finset.range P.n, P.measure c * (Λ * (τ * η) * len (V c) + (bm * (τ * η) + cm * η) * (P.peak X hh V b c / Real.sqrt (P.measure c))) =
      Λ * (τ * η) * (Real.sqrt (P.measure c) * (Real.sqrt (P.measure c) * len (V c))) + (bm * (τ * η) + cm * η) * (Real.sqrt (P.measure c) * P.peak X hh V b c) := by
    intro c hc
    have hm := measure_pos h (Finset.mem_range.1 hc)
    have hq := Real.sqrt_pos.2 hm
    have hqq := Real.mul_self_sqrt hm.le
    set q := Real.sqrt (P.measure c) with hqd
    rw [← hqq]
    field_simp
  rw [Finset.sum_congr rfl e, Finset.sum_add_distrib, ← Finset.mul_sum, ← Finset.mul_sum]
  have eR := Finset.sum_congr rfl fun c (hc : c ∈ Finset.range P.n) => Real.sq_sqrt (measure_pos h (Finset.mem_range.1 hc)).le
  have i1 := sum_mul_le (Finset.range P.n) (fun c => Real.sqrt (P.measure c)) fun c => Real.sqrt (P.measure c) * len (V c)
  rw [eR, ← energy_len h V] at i1
  have i2 := (sum_mul_le (Finset.range P.n) (fun c => Real.sqrt (P.measure c)) (P.peak X hh V b)).trans
    (mul_le_mul_of_nonneg_left (peak_norm h hh0 hC hF hT hv) (Real.sqrt_nonneg _))
  rw [eR] at i2
  refine (add_le_add (mul_le_mul_of_nonneg_left i1 (by positivity)) (mul_le_mul_of_nonneg_left i2 (by positivity))).trans (le_of_eq ?_)
  ring

/-- Energy of a function with small values. -/
theorem lift_energy (h : P.OnNodes X I) (hs : P.Shape X hh ρ) (hρ : 0 < ρ) {s : Nat → ℝ} {η : ℝ} (hη : 0 ≤ η)
    (hw : ∀ c < P.n, ∀ i < P.nb, |s (P.dofs c i)| ≤ η) {U : Nat → Fin P.N → ℝ} {a : Nat → ℝ} (hU : P.Affine X s U a) :
    Real.sqrt (P.energySq X U) ≤ (P.N + 1) / ρ * η * Real.sqrt (∑ c ∈ Finset.range P.n, P.measure c) := by
  rw [energySq_eq h, ← Real.sqrt_sq (show 0 ≤ (P.N + 1 : ℝ) / ρ * η by positivity), ← Real.sqrt_mul (sq_nonneg _), Finset.mul_sum]
  refine Real.sqrt_le_sqrt (Finset.sum_le_sum fun c hc => ?_)
  have hc' := Finset.mem_range.1 hc
  have h1 : len (U c) ≤ (P.N + 1) / ρ * η :=
    ((node_len h hs hρ hU hc').trans (div_le_div_of_nonneg_right (cellSum_le h (hw c hc')) hρ.le)).trans (le_of_eq (by ring))
  have h2 := pow_le_pow_left₀ (len_nonneg _) h1 2
  rw [len_sq] at h2
  rw [mul_comm]
  exact mul_le_mul_of_nonneg_right h2 (measure_pos h hc').le

/-- Norm of the gradient of the sum of two functions. -/
theorem energy_triangle (h : P.OnNodes X I) (U V : Nat → Fin P.N → ℝ) :
    Real.sqrt (P.energySq X fun c z => U c z + V c z) ≤ Real.sqrt (P.energySq X U) + Real.sqrt (P.energySq X V) := by
  refine Real.sqrt_le_iff.2 ⟨by positivity, ?_⟩
  have e1 := energy_len h U
  have e2 := energy_len h V
  have e3 := energy_len h fun c z => U c z + V c z
  have i := sum_mul_le (Finset.range P.n) (fun c => Real.sqrt (P.measure c) * len (U c)) fun c => Real.sqrt (P.measure c) * len (V c)
  rw [← e1, ← e2] at i
  have j : P.energySq X (fun c z => U c z + V c z) ≤ P.energySq X U + 2 * ∑ c ∈ Finset.range P.n,
      (Real.sqrt (P.measure c) * len (U c)) * (Real.sqrt (P.measure c) * len (V c)) + P.energySq X V := by
    rw [e3, e1, e2, Finset.mul_sum, ← Finset.sum_add_distrib, ← Finset.sum_add_distrib]
    refine Finset.sum_le_sum fun c _ => ?_
    have : Real.sqrt (P.measure c) * len (fun z => U c z + V c z) ≤ Real.sqrt (P.measure c) * len (U c) + Real.sqrt (P.measure c) * len (V c) := by
      rw [← mul_add]
      exact mul_le_mul_of_nonneg_left (len_add _ _) (Real.sqrt_nonneg _)
    refine (pow_le_pow_left₀ (mul_nonneg (Real.sqrt_nonneg _) (len_nonneg _)) this 2).trans (le_of_eq ?_)
    ring
  have s1 := Real.sq_sqrt (energySq_nonneg h U)
  have s2 := Real.sq_sqrt (energySq_nonneg h V)
  calc _ ≤ _ := j
    _ ≤ P.energySq X U + 2 * (Real.sqrt (P.energySq X U) * Real.sqrt (P.energySq X V)) + P.energySq X V := by linarith
    _ = _ := by rw [add_sq, s1, s2]; ring

/-- Amplification of the backward error on the part of the solution off the boundary, over the ellipticity and the root of the volume. -/
noncomputable def innerConst (N : Nat) (hh ρ C Λ bm cm Wm Fm : ℝ) : ℝ :=
  (N + 1) * (C + hh) * (rowConst N ρ Λ bm cm * Wm + Fm) + 2 * Wm * (Λ * ((N + 1) / ρ) + (bm * ((N + 1) / ρ) + cm) * (C + hh))

/-- The difference of two discrete solutions, one of them exact, the other with a backward error: a function with small values and a test function
with small gradient. -/
theorem near_split (h : P.OnNodes X I) (hP : P.Ok) (hop : P.Form D β r) {C α γ : ℝ} (hs : P.Shape X hh ρ) (hh0 : 0 ≤ hh) (hρ : 0 < ρ) (hC : 0 ≤ C)
    (hF : P.Friedrichs X C) (hΛ : 0 ≤ Λ) (hbm : 0 ≤ bm) (hcm : 0 ≤ cm) (hγ : 0 ≤ γ)
    (hDα : ∀ c < P.n, ∀ k < size P.t, ∀ ξ : Fin P.N → ℝ, α * len ξ ^ 2 ≤ ∑ z, (∑ y, D c k z y * ξ y) * ξ z)
    (hD : ∀ c < P.n, ∀ k < size P.t, ∀ ξ : Fin P.N → ℝ, len (fun z => ∑ y, D c k z y * ξ y) ≤ Λ * len ξ)
    (hβ : ∀ c < P.n, ∀ k < size P.t, len (β c k) ≤ bm) (hrγ : ∀ c < P.n, ∀ k < size P.t, -γ ≤ r c k) (hr : ∀ c < P.n, ∀ k < size P.t, |r c k| ≤ cm)
    (hα : 0 < α - bm * (C + hh) - γ * (C + hh) ^ 2) {f : Nat → Nat → ℝ} {Fm : ℝ} (hf : ∀ c < P.n, ∀ k < size P.t, |f c k| ≤ Fm)
    {A : Nat → Nat → ℝ} (hA : ∀ u v, ∑ p ∈ Finset.range P.m, ∑ q ∈ Finset.range P.m, v p * A p q * u q = P.bilin u v)
    {b : Nat → ℝ} (hb : ∀ v : Nat → ℝ, ∑ p ∈ Finset.range P.m, v p * b p = P.load f v)
    {g w w' : Nat → ℝ} (hw : P.Galerkin f g w) {Wm ε : ℝ} (hε : 0 ≤ ε) (hW : ∀ p < P.m, |w' p| ≤ Wm) (hW0 : 0 ≤ Wm)
    (hg : ∀ p < P.m, P.bd p = true → |w' p - g p| ≤ 2 * ε * Wm)
    (hres : ∀ p < P.m, P.bd p = false →
      |∑ q ∈ Finset.range P.m, A p q * w' q - b p| ≤ ε * (∑ q ∈ Finset.range P.m, |A p q| * |w' q| + |b p|)) :
    ∃ (s v : Nat → ℝ), (∀ p < P.m, w' p = w p + (s p + v p)) ∧ (∀ p, |s p| ≤ 2 * ε * Wm) ∧ P.Test v ∧ ∀ V d, P.Affine X v V d →
      Real.sqrt (P.energySq X V) ≤ ε * (innerConst P.N hh ρ C Λ bm cm Wm Fm / (α - bm * (C + hh) - γ * (C + hh) ^ 2)) *
        Real.sqrt (∑ c ∈ Finset.range P.n, P.measure c) := by
  set s : Nat → ℝ := fun p => if p < P.m ∧ P.bd p = true then w' p - w p else 0 with hsd
  set v : Nat → ℝ := fun p => (w' p + -1 * w p) + -1 * s p with hvd
  have hη : 0 ≤ 2 * ε * Wm := by positivity
  have hs1 : ∀ p, |s p| ≤ 2 * ε * Wm := by
    intro p
    simp only [hsd]
    split_ifs with hp
    · rw [hw.1 p hp.1 hp.2]; exact hg p hp.1 hp.2
    · rwa [abs_zero]
  have hT : P.Test v := fun p hp hbp => by
    simp only [hvd, hsd, if_pos (And.intro hp hbp)]
    ring
  refine ⟨s, v, fun p _ => by simp only [hvd]; ring, hs1, hT, fun V d hV => ?_⟩
  have h1 := form_coercive h hop hs hh0 hC hF hbm hγ hDα hβ hrγ hT hV
  have h2 := residual_test h hP hop hs hρ hΛ hD hβ hr hf hA hb hW hε hres hT
  have h3 := lift_form h hop hs hh0 hρ hΛ hbm hcm hD hβ hr hC hF hη (fun c _ i _ => hs1 (P.dofs c i)) hT hV
  have h4 := cellSum_test h hs hh0 hC hF hT hV
  have e : P.bilin v v = (P.bilin w' v - P.load f v) + -1 * P.bilin s v := by
    conv_lhs => rw [hvd, bilin_left P hP, bilin_left P hP]
    rw [hw.2 v hT]
    ring
  set σ := ∑ k ∈ Finset.range (size P.t), weight ℝ P.t k with hσ
  have hσ0 : 0 < σ := weights_pos h
  set R := Real.sqrt (∑ c ∈ Finset.range P.n, P.measure c) with hR
  have hR0 : 0 ≤ R := Real.sqrt_nonneg _
  set α0 := α - bm * (C + hh) - γ * (C + hh) ^ 2 with hα0
  have hE0 := energySq_nonneg h V
  set S := Real.sqrt (P.energySq X V) with hS
  have hS0 : 0 ≤ S := Real.sqrt_nonneg _
  have hSS : S * S = P.energySq X V := Real.mul_self_sqrt hE0
  rcases Nat.eq_zero_or_pos P.n with hn | hn
  · have : P.energySq X V = 0 := by rw [Prob.energySq, hn, Finset.sum_range_zero]
    rw [hS, this, Real.sqrt_zero, hR, hn, Finset.sum_range_zero, Real.sqrt_zero, mul_zero]
  have hk : 0 < size P.t := by
    by_contra hk
    rw [hσ, Nat.eq_zero_of_not_pos hk] at hσ0
    simp at hσ0
  have hFm : 0 ≤ Fm := (abs_nonneg _).trans (hf 0 hn 0 hk)
  have hrc : 0 ≤ rowConst P.N ρ Λ bm cm := by rw [rowConst]; positivity
  have h5 : σ * (α0 * (S * S)) ≤ σ * (ε * innerConst P.N hh ρ C Λ bm cm Wm Fm * R * S) := by
    rw [hSS]
    refine h1.trans ?_
    rw [e]
    have i1 := (le_abs_self _).trans h2
    have i2 := (neg_le_abs _).trans h3
    have i3 : σ * (ε * ((rowConst P.N ρ Λ bm cm * Wm + Fm) * ∑ c ∈ Finset.range P.n, P.measure c * P.cellSum v c)) ≤
        σ * (ε * ((rowConst P.N ρ Λ bm cm * Wm + Fm) * ((P.N + 1) * (C + hh) * R * S))) :=
      mul_le_mul_of_nonneg_left (mul_le_mul_of_nonneg_left (mul_le_mul_of_nonneg_left h4 (by positivity)) hε) hσ0.le
    calc _ = (P.bilin w' v - P.load f v) + -P.bilin s v := by ring
      _ ≤ σ * (ε * ((rowConst P.N ρ Λ bm cm * Wm + Fm) * ((P.N + 1) * (C + hh) * R * S))) +
          σ * (2 * ε * Wm * (Λ * ((P.N + 1) / ρ) + (bm * ((P.N + 1) / ρ) + cm) * (C + hh)) * R * S) := add_le_add (i1.trans i3) i2
      _ = _ := by rw [innerConst]; ring
  have h6 := le_of_mul_le_mul_left h5 hσ0
  have hI0 : 0 ≤ innerConst P.N hh ρ C Λ bm cm Wm Fm := by rw [innerConst]; positivity
  rcases hS0.eq_or_lt with hz | hz
  · rw [← hz]
    positivity
  · have : α0 * S ≤ ε * innerConst P.N hh ρ C Λ bm cm Wm Fm * R := by
      refine le_of_mul_le_mul_right ?_ hz
      rw [mul_assoc]
      exact h6
    rw [show ε * (innerConst P.N hh ρ C Λ bm cm Wm Fm / α0) * R = ε * innerConst P.N hh ρ C Λ bm cm Wm Fm * R / α0 by ring, le_div_iff₀ hα]
    linarith

end
end Fdapde.PDE
