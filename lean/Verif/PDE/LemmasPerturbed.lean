import Verif.PDE.LemmasInexact
set_option linter.unusedSectionVars false
/-!
# Discrete problems with a perturbed linear system
-/
namespace Fdapde.PDE
open Fdapde.Quadrature MeasureTheory Fdapde.FEM
variable {P : Prob ℝ} {X : Nat → Nat → ℝ} {I : Nat → Nat → Nat → ℝ}

/-- The residual of a vector whose equations hold up to errors proportional to the measure of the cells around the nodes. -/
theorem residual_rows (h : P.OnNodes X I) (hP : P.Ok) {f : Nat → Nat → ℝ}
    {A : Nat → Nat → ℝ} (hA : ∀ u v, ∑ p ∈ Finset.range P.m, ∑ q ∈ Finset.range P.m, v p * A p q * u q = P.bilin u v)
    {b : Nat → ℝ} (hb : ∀ v : Nat → ℝ, ∑ p ∈ Finset.range P.m, v p * b p = P.load f v) {w : Nat → ℝ} {κ : ℝ}
    (hres : ∀ p < P.m, P.bd p = false → |∑ q ∈ Finset.range P.m, A p q * w q - b p| ≤
      (∑ k ∈ Finset.range (size P.t), weight ℝ P.t k) * ∑ c ∈ Finset.range P.n, P.measure c * (κ * P.cellSum (hatAt p) c)) {v : Nat → ℝ} (hT : P.Test v) :
    |P.bilin w v - P.load f v| ≤ (∑ k ∈ Finset.range (size P.t), weight ℝ P.t k) * (κ * ∑ c ∈ Finset.range P.n, P.measure c * P.cellSum v c) := by
  set σ := ∑ k ∈ Finset.range (size P.t), weight ℝ P.t k with hσ
  have e1 : P.bilin w v - P.load f v = ∑ p ∈ Finset.range P.m, v p * (∑ q ∈ Finset.range P.m, A p q * w q - b p) := by
    rw [← hA, ← hb, ← Finset.sum_sub_distrib]
    refine Finset.sum_congr rfl fun p _ => ?_
    rw [mul_sub, Finset.mul_sum]
    congr 1
    exact Finset.sum_congr rfl fun q _ => by ring
  rw [e1]
  refine (Finset.abs_sum_le_sum_abs _ _).trans ?_
  calc ∑ p ∈ Finset.range P.m, |v p * (∑ q ∈ Finset.range P.m, A p q * w q - b p)|
      ≤ ∑ p ∈ Finset.range P.m, |v p| * (σ * ∑ c ∈ Finset.range P.n, P.measure c * (κ * P.cellSum (hatAt p) c)) := by
        refine Finset.sum_le_sum fun p hp => ?_
        have hp' := Finset.mem_range.1 hp
        rw [abs_mul]
        cases hbd : P.bd p with
        | true => rw [hT p hp' hbd]; simp
        | false => exact mul_le_mul_of_nonneg_left (hres p hp' hbd) (abs_nonneg _)
    _ = σ * (κ * ∑ c ∈ Finset.range P.n, P.measure c * ∑ p ∈ Finset.range P.m, |v p| * P.cellSum (hatAt p) c) := by
        simp only [Finset.mul_sum]
        rw [Finset.sum_comm]
        exact Finset.sum_congr rfl fun c _ => Finset.sum_congr rfl fun p _ => by ring
    _ = _ := by
        congr 2
        exact Finset.sum_congr rfl fun c hc => by rw [cellSum_hat hP v (Finset.mem_range.1 hc)]

/-- A quadratic form with a matrix of terms of the cells. -/
theorem fullSum_form (hP : P.Ok) (M : Nat → ℝ) (x y : Nat → ℝ) :
    ∑ p ∈ Finset.range P.m, ∑ q ∈ Finset.range P.m, x p * fullSum P.n P.nb P.dofs (fun c _ _ => M c) p q * y q =
      ∑ c ∈ Finset.range P.n, M c * ((∑ i ∈ Finset.range P.nb, x (P.dofs c i)) * ∑ j ∈ Finset.range P.nb, y (P.dofs c j)) := by
  have e : ∀ p q, x p * fullSum P.n P.nb P.dofs (fun c _ _ => M c) p q * y q = ∑ c ∈ Finset.range P.n, ∑ i ∈ Finset.range P.nb, ∑ j ∈ Finset.range P.nb,
      (if P.dofs c i = p then (if P.dofs c j = q then x p * M c * y q else 0) else 0) := by
    intro p q
    rw [fullSum, Finset.mul_sum, Finset.sum_mul]
    refine Finset.sum_congr rfl fun c _ => ?_
    rw [Finset.mul_sum, Finset.sum_mul]
    refine Finset.sum_congr rfl fun i _ => ?_
    rw [Finset.mul_sum, Finset.sum_mul]
    refine Finset.sum_congr rfl fun j _ => ?_
    by_cases h1 : P.dofs c i = p <;> by_cases h2 : P.dofs c j = q <;> simp [h1, h2]
  simp only [e]
  rw [Finset.sum_congr rfl fun p _ => Finset.sum_comm, Finset.sum_comm]
  refine Finset.sum_congr rfl fun c hc => ?_
  rw [Finset.sum_mul_sum, Finset.mul_sum]
  rw [Finset.sum_congr rfl fun p _ => Finset.sum_comm, Finset.sum_comm]
  refine Finset.sum_congr rfl fun i hi => ?_
  rw [Finset.mul_sum]
  rw [Finset.sum_congr rfl fun p _ => Finset.sum_comm, Finset.sum_comm]
  refine Finset.sum_congr rfl fun j hj => ?_
  have h1 := hP.dofs c (Finset.mem_range.1 hc) i (Finset.mem_range.1 hi)
  have h2 := hP.dofs c (Finset.mem_range.1 hc) j (Finset.mem_range.1 hj)
  rw [Finset.sum_eq_single (P.dofs c i)]
  · rw [Finset.sum_eq_single (P.dofs c j)]
    · simp; ring
    · intro q _ hq; simp [Ne.symm hq]
    · intro hq; exact absurd (Finset.mem_range.2 h2) hq
  · intro p _ hp; simp [Ne.symm hp]
  · intro hq; exact absurd (Finset.mem_range.2 h1) hq

section
variable {D : Nat → Nat → Fin P.N → Fin P.N → ℝ} {β : Nat → Nat → Fin P.N → ℝ} {r : Nat → Nat → ℝ} {hh ρ Λ bm cm : ℝ}

/-- As `near_split`, for equations that hold up to errors proportional to the measure of the cells. -/
theorem near_rows (h : P.OnNodes X I) (hP : P.Ok) (hop : P.Form D β r) {C α γ : ℝ} (hs : P.Shape X hh ρ) (hh0 : 0 ≤ hh) (hρ : 0 < ρ) (hC : 0 ≤ C)
    (hF : P.Friedrichs X C) (hΛ : 0 ≤ Λ) (hbm : 0 ≤ bm) (hcm : 0 ≤ cm) (hγ : 0 ≤ γ)
    (hDα : ∀ c < P.n, ∀ k < size P.t, ∀ ξ : Fin P.N → ℝ, α * len ξ ^ 2 ≤ ∑ z, (∑ y, D c k z y * ξ y) * ξ z)
    (hD : ∀ c < P.n, ∀ k < size P.t, ∀ ξ : Fin P.N → ℝ, len (fun z => ∑ y, D c k z y * ξ y) ≤ Λ * len ξ)
    (hβ : ∀ c < P.n, ∀ k < size P.t, len (β c k) ≤ bm) (hrγ : ∀ c < P.n, ∀ k < size P.t, -γ ≤ r c k) (hr : ∀ c < P.n, ∀ k < size P.t, |r c k| ≤ cm)
    (hα : 0 < α - bm * (C + hh) - γ * (C + hh) ^ 2) {f : Nat → Nat → ℝ}
    {A : Nat → Nat → ℝ} (hA : ∀ u v, ∑ p ∈ Finset.range P.m, ∑ q ∈ Finset.range P.m, v p * A p q * u q = P.bilin u v)
    {b : Nat → ℝ} (hb : ∀ v : Nat → ℝ, ∑ p ∈ Finset.range P.m, v p * b p = P.load f v)
    {g w w' : Nat → ℝ} (hw : P.Galerkin f g w) {η κ : ℝ} (hη : 0 ≤ η) (hκ : 0 ≤ κ)
    (hg : ∀ p < P.m, P.bd p = true → |w' p - g p| ≤ η)
    (hres : ∀ p < P.m, P.bd p = false → |∑ q ∈ Finset.range P.m, A p q * w' q - b p| ≤
      (∑ k ∈ Finset.range (size P.t), weight ℝ P.t k) * ∑ c ∈ Finset.range P.n, P.measure c * (κ * P.cellSum (hatAt p) c)) :
    ∃ (s v : Nat → ℝ), (∀ p < P.m, w' p = w p + (s p + v p)) ∧ (∀ p, |s p| ≤ η) ∧ P.Test v ∧ ∀ V d, P.Affine X v V d →
      Real.sqrt (P.energySq X V) ≤ (((P.N + 1) * (C + hh) * κ + η * (Λ * ((P.N + 1) / ρ) + (bm * ((P.N + 1) / ρ) + cm) * (C + hh))) /
        (α - bm * (C + hh) - γ * (C + hh) ^ 2)) * Real.sqrt (∑ c ∈ Finset.range P.n, P.measure c) := by
  set s : Nat → ℝ := fun p => if p < P.m ∧ P.bd p = true then w' p - w p else 0 with hsd
  set v : Nat → ℝ := fun p => (w' p + -1 * w p) + -1 * s p with hvd
  have hs1 : ∀ p, |s p| ≤ η := by
    intro p
    simp only [hsd]
    split_ifs with hp
    · rw [hw.1 p hp.1 hp.2]; exact hg p hp.1 hp.2
    · rwa [abs_zero]
  have hT : P.Test v := fun p hp hbp => by
    simp only [hvd, hsd, if_pos (And.intro hp hbp)]
    ring
  refine ⟨s, v, fun p _ => by simp only [hvd]; ring, hs1, hT, fun V d hV => ?_⟩
  have h1 := form_coercive h hop hs hh0 hC hF hbm hγ hDα hβ hrγ hT hV
  have h2 := residual_rows h hP hA hb hres hT
  have h3 := lift_form h hop hs hh0 hρ hΛ hbm hcm hD hβ hr hC hF hη (fun c _ i _ => hs1 (P.dofs c i)) hT hV
  have h4 := cellSum_test h hs hh0 hC hF hT hV
  have e : P.bilin v v = (P.bilin w' v - P.load f v) + -1 * P.bilin s v := by
    conv_lhs => rw [hvd, bilin_left P hP, bilin_left P hP]
    rw [hw.2 v hT]
    ring
  set σ := ∑ k ∈ Finset.range (size P.t), weight ℝ P.t k with hσ
  have hσ0 : 0 < σ := weights_pos h
  set R := Real.sqrt (∑ c ∈ Finset.range P.n, P.measure c) with hR
  have hR0 : 0 ≤ R := Real.sqrt_nonneg _
  set α0 := α - bm * (C + hh) - γ * (C + hh) ^ 2 with hα0
  have hE0 := energySq_nonneg h V
  set T := Real.sqrt (P.energySq X V) with hTd
  have hT0 : 0 ≤ T := Real.sqrt_nonneg _
  have hTT : T * T = P.energySq X V := Real.mul_self_sqrt hE0
  set Z := (P.N + 1) * (C + hh) * κ + η * (Λ * ((P.N + 1) / ρ) + (bm * ((P.N + 1) / ρ) + cm) * (C + hh)) with hZ
  have hZ0 : 0 ≤ Z := by positivity
  have h5 : σ * (α0 * (T * T)) ≤ σ * (Z * R * T) := by
    rw [hTT]
    refine h1.trans ?_
    rw [e]
    have i1 := (le_abs_self _).trans h2
    have i2 := (neg_le_abs _).trans h3
    have i3 : σ * (κ * ∑ c ∈ Finset.range P.n, P.measure c * P.cellSum v c) ≤ σ * (κ * ((P.N + 1) * (C + hh) * R * T)) :=
      mul_le_mul_of_nonneg_left (mul_le_mul_of_nonneg_left h4 hκ) hσ0.le
    calc _ = (P.bilin w' v - P.load f v) + -P.bilin s v := by ring
      _ ≤ σ * (κ * ((P.N + 1) * (C + hh) * R * T)) +
          σ * (η * (Λ * ((P.N + 1) / ρ) + (bm * ((P.N + 1) / ρ) + cm) * (C + hh)) * R * T) := add_le_add (i1.trans i3) i2
      _ = _ := by rw [hZ]; ring
  have h6 := le_of_mul_le_mul_left h5 hσ0
  rcases hT0.eq_or_lt with hz | hz
  · rw [← hz]
    positivity
  · have : α0 * T ≤ Z * R := by
      refine le_of_mul_le_mul_right ?_ hz
      rw [mul_assoc]
      exact h6
    rw [show Z / α0 * R = Z * R / α0 by ring, le_div_iff₀ hα]
    linarith

theorem cellSum_sq (h : P.OnNodes X I) (hs : P.Shape X hh ρ) (hh0 : 0 ≤ hh) {C : ℝ} (hC : 0 ≤ C) (hF : P.Friedrichs X C)
    {v : Nat → ℝ} {V : Nat → Fin P.N → ℝ} {b : Nat → ℝ} (hT : P.Test v) (hv : P.Affine X v V b) :
    ∑ c ∈ Finset.range P.n, P.measure c * P.cellSum v c ^ 2 ≤ ((P.N + 1) * (C + hh)) ^ 2 * P.energySq X V := by
  have i1 : ∀ c ∈ Finset.range P.n, P.measure c * P.cellSum v c ^ 2 ≤ (P.N + 1) ^ 2 * P.peak X hh V b c ^ 2 := by
    intro c hc
    have hc' := Finset.mem_range.1 hc
    have hm := measure_pos h hc'
    have : P.cellSum (fun p => Real.sqrt (P.measure c) * v p) c ≤ (P.N + 1) * P.peak X hh V b c := by
      refine cellSum_le h fun i hi => ?_
      rw [abs_mul, abs_of_nonneg (Real.sqrt_nonneg _), hv c hc' i hi]
      exact value_peak h hs hh0 V b hc' (cell_node h hi)
    have e : P.cellSum (fun p => Real.sqrt (P.measure c) * v p) c = Real.sqrt (P.measure c) * P.cellSum v c := by
      rw [Prob.cellSum, Prob.cellSum, Finset.mul_sum]
      exact Finset.sum_congr rfl fun i _ => by rw [abs_mul, abs_of_nonneg (Real.sqrt_nonneg _)]
    rw [e] at this
    have h2 := pow_le_pow_left₀ (mul_nonneg (Real.sqrt_nonneg _) (cellSum_nonneg v c)) this 2
    rwa [mul_pow, mul_pow, Real.sq_sqrt hm.le] at h2
  refine (Finset.sum_le_sum i1).trans ?_
  rw [← Finset.mul_sum, mul_pow, mul_assoc]
  exact mul_le_mul_of_nonneg_left (peak_sum h hh0 hC hF hT hv) (sq_nonneg _)

/-- A matrix near to the one of a coercive form is not singular. -/
theorem perturbed_det (h : P.OnNodes X I) (hP : P.Ok) (hop : P.Form D β r) {C α γ : ℝ} (hs : P.Shape X hh ρ) (hh0 : 0 ≤ hh) (hC : 0 ≤ C)
    (hF : P.Friedrichs X C) (hbm : 0 ≤ bm) (hγ : 0 ≤ γ)
    (hDα : ∀ c < P.n, ∀ k < size P.t, ∀ ξ : Fin P.N → ℝ, α * len ξ ^ 2 ≤ ∑ z, (∑ y, D c k z y * ξ y) * ξ z)
    (hβ : ∀ c < P.n, ∀ k < size P.t, len (β c k) ≤ bm) (hrγ : ∀ c < P.n, ∀ k < size P.t, -γ ≤ r c k) (hE : P.Definite)
    {A A' B : Nat → Nat → ℝ} (hA : ∀ u v, ∑ p ∈ Finset.range P.m, ∑ q ∈ Finset.range P.m, v p * A p q * u q = P.bilin u v)
    {δ : ℝ} (hδ : 0 ≤ δ) (hAA : ∀ p q, |A' p q - A p q| ≤ fullSum P.n P.nb P.dofs (fun c _ _ => (∑ k ∈ Finset.range (size P.t), weight ℝ P.t k) *
      (δ * P.measure c)) p q) (hB : ∀ p < P.m, ∀ q, B p q = if P.bd p = true then (if q = p then 1 else 0) else A' p q)
    (hsmall : δ * ((P.N + 1) * (C + hh)) ^ 2 < α - bm * (C + hh) - γ * (C + hh) ^ 2) :
    (Matrix.of fun i j : Fin P.m => B i j).det ≠ 0 := by
  intro hd
  obtain ⟨v, hv, hv0⟩ := Matrix.exists_mulVec_eq_zero_iff.2 hd
  set y : Nat → ℝ := fun p => if h : p < P.m then v ⟨p, h⟩ else 0 with hy
  have hyv : ∀ i : Fin P.m, y i = v i := fun i => by simp [hy, i.2]
  have hrow : ∀ p < P.m, ∑ q ∈ Finset.range P.m, B p q * y q = 0 := by
    intro p hp
    have := congrFun hv0 ⟨p, hp⟩
    simp only [Matrix.mulVec, dotProduct, Matrix.of_apply, Pi.zero_apply] at this
    rw [Finset.sum_range]
    simp only [hyv]
    exact this
  have hT : P.Test y := by
    intro p hp hb
    have := hrow p hp
    simp only [hB p hp, if_pos hb, ite_mul, one_mul, zero_mul] at this
    rwa [Finset.sum_ite_eq' (Finset.range P.m) p, if_pos (Finset.mem_range.2 hp)] at this
  obtain ⟨V, b, hV⟩ := affine_exists h y
  have h1 := form_coercive h hop hs hh0 hC hF hbm hγ hDα hβ hrγ hT hV
  have h2 := cellSum_sq h hs hh0 hC hF hT hV
  set σ := ∑ k ∈ Finset.range (size P.t), weight ℝ P.t k with hσ
  have hσ0 : 0 < σ := weights_pos h
  have hE0 := energySq_nonneg h V
  have h3 : P.bilin y y ≤ σ * (δ * ∑ c ∈ Finset.range P.n, P.measure c * P.cellSum y c ^ 2) := by
    have e : P.bilin y y = ∑ p ∈ Finset.range P.m, ∑ q ∈ Finset.range P.m, y p * (A p q - A' p q) * y q := by
      rw [← hA]
      refine Finset.sum_congr rfl fun p hp => ?_
      have hp' := Finset.mem_range.1 hp
      by_cases hb : P.bd p = true
      · rw [hT p hp' hb]; simp
      · have := hrow p hp'
        simp only [hB p hp', if_neg hb] at this
        have e2 : ∑ q ∈ Finset.range P.m, y p * A' p q * y q = 0 := by
          rw [← mul_zero (y p), ← this, Finset.mul_sum]
          exact Finset.sum_congr rfl fun q _ => by ring
        rw [← sub_zero (∑ q ∈ Finset.range P.m, y p * A p q * y q), ← e2, ← Finset.sum_sub_distrib]
        exact Finset.sum_congr rfl fun q _ => by ring
    rw [e]
    calc _ ≤ ∑ p ∈ Finset.range P.m, ∑ q ∈ Finset.range P.m, |y p| * fullSum P.n P.nb P.dofs (fun c _ _ => σ * (δ * P.measure c)) p q * |y q| := by
          refine Finset.sum_le_sum fun p _ => Finset.sum_le_sum fun q _ => (le_abs_self _).trans ?_
          rw [abs_mul, abs_mul, abs_sub_comm]
          exact mul_le_mul_of_nonneg_right (mul_le_mul_of_nonneg_left (hAA p q) (abs_nonneg _)) (abs_nonneg _)
      _ = _ := by
          rw [fullSum_form hP (fun c => σ * (δ * P.measure c)) (fun p => |y p|) (fun p => |y p|), Finset.mul_sum, Finset.mul_sum]
          refine Finset.sum_congr rfl fun c _ => ?_
          rw [Prob.cellSum]
          ring
  have h4 : σ * (δ * ∑ c ∈ Finset.range P.n, P.measure c * P.cellSum y c ^ 2) ≤ σ * (δ * (((P.N + 1) * (C + hh)) ^ 2 * P.energySq X V)) :=
    mul_le_mul_of_nonneg_left (mul_le_mul_of_nonneg_left h2 hδ) hσ0.le
  have h5 := le_of_mul_le_mul_left (h1.trans (h3.trans h4)) hσ0
  have hEz : P.energySq X V = 0 := by
    rcases hE0.eq_or_lt with e | hlt
    · exact e.symm
    · have := mul_lt_mul_of_pos_right hsmall hlt
      linarith
  have hz := hE y hT (by
    refine le_antisymm ?_ ?_
    · refine (h3.trans h4).trans (le_of_eq ?_)
      rw [hEz]; ring
    · rw [hEz] at h1
      simpa using h1)
  exact hv (funext fun i => by rw [← hyv i, hz i i.2]; rfl)

end
end Fdapde.PDE
