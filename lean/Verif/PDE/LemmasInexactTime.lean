import Verif.PDE.PropsInexact
import Verif.PDE.PropsParabolic
set_option linter.unusedSectionVars false
/-!
# Time steps whose linear systems are solved up to a residual
-/
namespace Fdapde.PDE
open Fdapde.Quadrature MeasureTheory Fdapde.FEM Finset
variable {P : Prob ℝ} {X : Nat → Nat → ℝ} {I : Nat → Nat → Nat → ℝ}

/-- The recursion of the parabolic solver when the linear solver has a backward error. -/
theorem inexact_recursion {ε : ℝ} (lu : Solver ℝ) (t0 t1 : ℝ) (ts : List ℝ) (m : Nat) (ic : Nat → ℝ) (g : Dense ℝ) (s : Sys ℝ)
    (hlu : BackwardLU s.n ε lu) (hi : s.isInit = true) (hr : s.n ≤ g.rows) (hc : m ≤ g.cols) (hm : 0 < m) (hf : s.forceRows = s.n * m)
    (hs : (lu (fun p q => if p < s.n ∧ (p = 0 ∨ s.bd p = true) then (if q = p then 1 else 0) else s.mass p q / (t1 - t0) + s.stiff p q)).isSome) :
    ∃ sol, solveParabolic lu (t0 :: t1 :: ts) m ic g s = .ok (true, sol) ∧ sol 0 = ic ∧
    ∀ i, i + 1 < m → ∀ p < s.n,
      ((p = 0 ∨ s.bd p = true) → |sol (i + 1) p - g.at' p (i + 1)| ≤ ε * (|sol (i + 1) p| + |g.at' p (i + 1)|)) ∧
      (¬ (p = 0 ∨ s.bd p = true) → |∑ q ∈ range s.n, (s.mass p q / (t1 - t0) + s.stiff p q) * sol (i + 1) q -
          ((∑ q ∈ range s.n, s.mass p q / (t1 - t0) * sol i q) + s.force (s.n * (i + 1) + p))| ≤
        ε * (∑ q ∈ range s.n, |s.mass p q / (t1 - t0) + s.stiff p q| * |sol (i + 1) q| +
          |(∑ q ∈ range s.n, s.mass p q / (t1 - t0) * sol i q) + s.force (s.n * (i + 1) + p)|)) := by
  have hA : (boundaryLoop s.bd s.n).foldl unitRow (fun p q => s.mass p q / (t1 - t0) + s.stiff p q) =
      fun p q => if p < s.n ∧ (p = 0 ∨ s.bd p = true) then (if q = p then 1 else 0) else s.mass p q / (t1 - t0) + s.stiff p q := by
    funext p q
    rw [unitRows_spec]
    simp only [mem_boundaryLoop]
  obtain ⟨f, hl⟩ := Option.isSome_iff_exists.1 hs
  simp only [solveParabolic, if_neg (show ¬ s.isInit = false by simp [hi]), if_neg (show ¬ m = 0 by omega), hA]
  rw [hl]
  have key : ∀ k, k ≤ m - 1 → ∃ sol, foldRes (fun (sol : Nat → Nat → ℝ) i => do
      let rhs ← stepRhs s (t1 - t0) g (sol i) i
      Res.ok (fun c => if c = i + 1 then f rhs else sol c)) (fun _ => ic) (List.range k) = .ok sol ∧ sol 0 = ic ∧
      ∀ i < k, ∀ p < s.n,
      ((p = 0 ∨ s.bd p = true) → |sol (i + 1) p - g.at' p (i + 1)| ≤ ε * (|sol (i + 1) p| + |g.at' p (i + 1)|)) ∧
      (¬ (p = 0 ∨ s.bd p = true) → |∑ q ∈ range s.n, (s.mass p q / (t1 - t0) + s.stiff p q) * sol (i + 1) q -
          ((∑ q ∈ range s.n, s.mass p q / (t1 - t0) * sol i q) + s.force (s.n * (i + 1) + p))| ≤
        ε * (∑ q ∈ range s.n, |s.mass p q / (t1 - t0) + s.stiff p q| * |sol (i + 1) q| +
          |(∑ q ∈ range s.n, s.mass p q / (t1 - t0) * sol i q) + s.force (s.n * (i + 1) + p)|)) := by
    intro k
    induction k with
    | zero => exact fun _ => ⟨_, rfl, rfl, fun i hi => absurd hi (by omega)⟩
    | succ k ih =>
      intro hk
      obtain ⟨sol, h1, h2, h3⟩ := ih (by omega)
      have hfk : s.n * (k + 1) + s.n ≤ s.forceRows := by
        rw [hf, ← Nat.mul_succ]
        exact Nat.mul_le_mul_left _ (by omega)
      obtain ⟨rhs, h4, h5⟩ := stepRhs_spec s (t1 - t0) g (sol k) k hr (by omega) hfk
      refine ⟨fun c => if c = k + 1 then f rhs else sol c, ?_, by simpa using h2, fun i hik p hp => ?_⟩
      · rw [List.range_succ, foldRes_append, h1, Res.ok_bind, foldRes_cons, h4]
        rfl
      · by_cases hik' : i = k
        · subst hik'
          have hs := hlu _ _ hl rhs p hp
          rw [h5] at hs
          simp only [if_true, if_neg (show ¬ i = i + 1 by omega)]
          refine ⟨fun hb => ?_, fun hb => ?_⟩
          · simp only [if_pos (show p < s.n ∧ (p = 0 ∨ s.bd p = true) from ⟨hp, hb⟩), ite_mul, one_mul, zero_mul] at hs
            rw [Finset.sum_ite_eq' (range s.n) p, if_pos (Finset.mem_range.2 hp)] at hs
            refine hs.trans (le_of_eq ?_)
            congr 2
            rw [Finset.sum_eq_single p]
            · simp
            · intro q _ hq; simp [hq]
            · intro hq; exact absurd (Finset.mem_range.2 hp) hq
          · simp only [if_neg (show ¬ (p < s.n ∧ (p = 0 ∨ s.bd p = true)) from fun h => hb h.2)] at hs
            exact hs
        · simp only [if_neg (show ¬ i + 1 = k + 1 by omega), if_neg (show ¬ i = k + 1 by omega)]
          exact h3 i (by omega) p hp
  obtain ⟨sol, h1, h2, h3⟩ := key (m - 1) le_rfl
  exact ⟨sol, by simp only [h1, Res.ok_bind], h2, fun i him => h3 i (by omega)⟩

/-- Residual of a linear form and a load with a backward error, given bounds of their rows. -/
theorem residual_abs (hP : P.Ok) (a : (Nat → ℝ) → (Nat → ℝ) → ℝ) {A : Nat → Nat → ℝ}
    (hA : ∀ u v, ∑ p ∈ Finset.range P.m, ∑ q ∈ Finset.range P.m, v p * A p q * u q = a u v) {b : Nat → ℝ} {w : Nat → ℝ} {Wm ε σ κ Fm : ℝ}
    (ha : ∀ s v, (∀ p < P.m, |s p| ≤ Wm) → |a s v| ≤ σ * ∑ c ∈ Finset.range P.n, P.measure c * (κ * P.cellSum v c))
    (hb : ∀ p < P.m, |b p| ≤ σ * ∑ c ∈ Finset.range P.n, P.measure c * (Fm * P.cellSum (hatAt p) c))
    (hw : ∀ p < P.m, |w p| ≤ Wm) (hε : 0 ≤ ε)
    (hres : ∀ p < P.m, P.bd p = false →
      |∑ q ∈ Finset.range P.m, A p q * w q - b p| ≤ ε * (∑ q ∈ Finset.range P.m, |A p q| * |w q| + |b p|)) {v : Nat → ℝ} (hT : P.Test v) :
    |a w v - ∑ p ∈ Finset.range P.m, v p * b p| ≤ σ * (ε * ((κ + Fm) * ∑ c ∈ Finset.range P.n, P.measure c * P.cellSum v c)) := by
  have e1 : a w v - ∑ p ∈ Finset.range P.m, v p * b p = ∑ p ∈ Finset.range P.m, v p * (∑ q ∈ Finset.range P.m, A p q * w q - b p) := by
    rw [← hA, ← Finset.sum_sub_distrib]
    refine Finset.sum_congr rfl fun p _ => ?_
    rw [mul_sub, Finset.mul_sum]
    congr 1
    exact Finset.sum_congr rfl fun q _ => by ring
  have row : ∀ p < P.m, ∑ q ∈ Finset.range P.m, |A p q| * |w q| + |b p| ≤
      σ * ∑ c ∈ Finset.range P.n, P.measure c * ((κ + Fm) * P.cellSum (hatAt p) c) := by
    intro p hp
    set s : Nat → ℝ := fun q => if 0 ≤ A p q then |w q| else -|w q| with hsd
    have es : ∑ q ∈ Finset.range P.m, |A p q| * |w q| = a s (hatAt p) := by
      rw [← hA, hat_row P.m A s hp]
      refine Finset.sum_congr rfl fun q _ => ?_
      simp only [hsd]
      split_ifs with h0
      · rw [abs_of_nonneg h0]
      · rw [abs_of_neg (not_le.1 h0)]; ring
    have i1 := (le_abs_self _).trans (ha s (hatAt p) fun q hq => by
      have := hw q hq
      simp only [hsd]
      split_ifs
      · rwa [abs_abs]
      · rwa [abs_neg, abs_abs])
    rw [es]
    refine (add_le_add i1 (hb p hp)).trans (le_of_eq ?_)
    rw [← mul_add, ← Finset.sum_add_distrib]
    congr 1
    exact Finset.sum_congr rfl fun c _ => by ring
  rw [e1]
  refine (Finset.abs_sum_le_sum_abs _ _).trans ?_
  calc ∑ p ∈ Finset.range P.m, |v p * (∑ q ∈ Finset.range P.m, A p q * w q - b p)|
      ≤ ∑ p ∈ Finset.range P.m, |v p| * (ε * (σ * ∑ c ∈ Finset.range P.n, P.measure c * ((κ + Fm) * P.cellSum (hatAt p) c))) := by
        refine Finset.sum_le_sum fun p hp => ?_
        have hp' := Finset.mem_range.1 hp
        rw [abs_mul]
        cases hbd : P.bd p with
        | true => rw [hT p hp' hbd]; simp
        | false =>
          exact mul_le_mul_of_nonneg_left ((hres p hp' hbd).trans (mul_le_mul_of_nonneg_left (row p hp') hε)) (abs_nonneg _)
    _ = σ * (ε * ((κ + Fm) * ∑ c ∈ Finset.range P.n, P.measure c * ∑ p ∈ Finset.range P.m, |v p| * P.cellSum (hatAt p) c)) := by
        simp only [Finset.mul_sum]
        rw [Finset.sum_comm]
        exact Finset.sum_congr rfl fun c _ => Finset.sum_congr rfl fun p _ => by ring
    _ = _ := by
        congr 3
        exact Finset.sum_congr rfl fun c hc => by rw [cellSum_hat hP v (Finset.mem_range.1 hc)]

/-- Rows of the mass matrix. -/
theorem l2_rows (h : P.OnNodes X I) {s : Nat → ℝ} {Wm : ℝ} (hw : ∀ c < P.n, ∀ i < P.nb, |s (P.dofs c i)| ≤ Wm) (v : Nat → ℝ) :
    |P.l2 s v| ≤ (∑ k ∈ Finset.range (size P.t), weight ℝ P.t k) * ∑ c ∈ Finset.range P.n, P.measure c * (Wm * P.cellSum v c) := by
  obtain ⟨U, a, hU⟩ := affine_exists h s
  refine load_rows h (f := fun c k => feValue P.nb (P.dofs c) s fun i => P.psi i (node ℝ P.t k)) (fun c hc k hk => ?_) v
  rw [fe_node h hU hc hk]
  exact node_value h hU hc (hw c hc) (node_mem h c hk)

section
variable {D : Nat → Nat → Fin P.N → Fin P.N → ℝ} {β : Nat → Nat → Fin P.N → ℝ} {r : Nat → Nat → ℝ} {hh ρ Λ bm cm : ℝ}

/-- The residual of a time step whose equations hold up to a backward error. -/
theorem residual_time (h : P.OnNodes X I) (hP : P.Ok) (hop : P.Form D β r) (hs : P.Shape X hh ρ) (hρ : 0 < ρ) (hΛ : 0 ≤ Λ)
    (hD : ∀ c < P.n, ∀ k < size P.t, ∀ ξ : Fin P.N → ℝ, len (fun z => ∑ y, D c k z y * ξ y) ≤ Λ * len ξ)
    (hβ : ∀ c < P.n, ∀ k < size P.t, len (β c k) ≤ bm) (hr : ∀ c < P.n, ∀ k < size P.t, |r c k| ≤ cm)
    {f : Nat → Nat → ℝ} {Fm : ℝ} (hf : ∀ c < P.n, ∀ k < size P.t, |f c k| ≤ Fm)
    {A Ma : Nat → Nat → ℝ} (hA : ∀ u v, ∑ p ∈ Finset.range P.m, ∑ q ∈ Finset.range P.m, v p * A p q * u q = P.bilin u v)
    (hMa : ∀ u v, ∑ p ∈ Finset.range P.m, ∑ q ∈ Finset.range P.m, v p * Ma p q * u q = P.l2 u v)
    {b : Nat → ℝ} (hb : ∀ v : Nat → ℝ, ∑ p ∈ Finset.range P.m, v p * b p = P.load f v)
    {w w0 : Nat → ℝ} {Wm ε dt : ℝ} (hdt : 0 < dt) (hw : ∀ p < P.m, |w p| ≤ Wm) (hw0 : ∀ p < P.m, |w0 p| ≤ Wm) (hε : 0 ≤ ε)
    (hres : ∀ p < P.m, P.bd p = false → |∑ q ∈ Finset.range P.m, (Ma p q / dt + A p q) * w q - ((∑ q ∈ Finset.range P.m, Ma p q / dt * w0 q) + b p)| ≤
      ε * (∑ q ∈ Finset.range P.m, |Ma p q / dt + A p q| * |w q| + |(∑ q ∈ Finset.range P.m, Ma p q / dt * w0 q) + b p|)) {v : Nat → ℝ} (hT : P.Test v) :
    |P.l2 (fun p => (w p - w0 p) / dt) v + P.bilin w v - P.load f v| ≤ (∑ k ∈ Finset.range (size P.t), weight ℝ P.t k) *
      (ε * ((rowConst P.N ρ Λ bm cm * Wm + 2 * Wm / dt + Fm) * ∑ c ∈ Finset.range P.n, P.measure c * P.cellSum v c)) := by
  set σ := ∑ k ∈ Finset.range (size P.t), weight ℝ P.t k with hσ
  have hrhs : ∀ v : Nat → ℝ, ∑ p ∈ Finset.range P.m, v p * ((∑ q ∈ Finset.range P.m, Ma p q / dt * w0 q) + b p) = P.l2 w0 v / dt + P.load f v := by
    intro v
    rw [← hMa, ← hb, Finset.sum_div, ← Finset.sum_add_distrib]
    refine Finset.sum_congr rfl fun p _ => ?_
    rw [mul_add, Finset.mul_sum, Finset.sum_div]
    congr 1
    exact Finset.sum_congr rfl fun q _ => by ring
  have key := residual_abs (P := P) hP (fun u v => P.l2 u v / dt + P.bilin u v) (A := fun p q => Ma p q / dt + A p q) (fun u v => by
      show _ = P.l2 u v / dt + P.bilin u v
      rw [← hA, ← hMa, Finset.sum_div, ← Finset.sum_add_distrib]
      refine Finset.sum_congr rfl fun p _ => ?_
      rw [Finset.sum_div, ← Finset.sum_add_distrib]
      exact Finset.sum_congr rfl fun q _ => by ring) (b := fun p => (∑ q ∈ Finset.range P.m, Ma p q / dt * w0 q) + b p) (w := w) (Wm := Wm) (ε := ε) (σ := σ)
    (κ := rowConst P.N ρ Λ bm cm * Wm + Wm / dt) (Fm := Wm / dt + Fm) (fun s v hsw => by
      have i1 := bilin_rows h hop hs hρ hΛ hD hβ hr (s := s) (fun c hc i hi => hsw _ (hP.dofs c hc i hi)) v
      have i2 := l2_rows h (s := s) (fun c hc i hi => hsw _ (hP.dofs c hc i hi)) v
      have i3 := div_le_div_of_nonneg_right i2 hdt.le
      refine (abs_add_le _ _).trans ?_
      rw [abs_div, abs_of_pos hdt]
      refine (add_le_add i3 i1).trans (le_of_eq ?_)
      rw [mul_div_assoc, ← mul_add, Finset.sum_div, ← Finset.sum_add_distrib]
      congr 1
      exact Finset.sum_congr rfl fun c _ => by ring) (fun p hp => by
      have e := hrhs (hatAt p)
      rw [hat_load P.m _ hp] at e
      rw [e]
      have i1 := load_rows h hf (hatAt p)
      have i2 := l2_rows h (s := w0) (fun c hc i hi => hw0 _ (hP.dofs c hc i hi)) (hatAt p)
      have i3 := div_le_div_of_nonneg_right i2 hdt.le
      refine (abs_add_le _ _).trans ?_
      rw [abs_div, abs_of_pos hdt]
      refine (add_le_add i3 i1).trans (le_of_eq ?_)
      rw [mul_div_assoc, ← mul_add, Finset.sum_div, ← Finset.sum_add_distrib]
      congr 1
      exact Finset.sum_congr rfl fun c _ => by ring) hw hε hres hT
  rw [hrhs] at key
  have e : P.l2 (fun p => (w p - w0 p) / dt) v = P.l2 w v / dt - P.l2 w0 v / dt := by
    have := l2_left P hP dt⁻¹ (-dt⁻¹) w w0 v
    rw [show (fun p => dt⁻¹ * w p + -dt⁻¹ * w0 p) = fun p => (w p - w0 p) / dt by funext p; field_simp; ring] at this
    rw [this]
    field_simp
    ring
  rw [e]
  refine le_trans (le_of_eq ?_) (key.trans (le_of_eq ?_))
  · congr 1; ring
  · ring

/-- Amplification of the backward error in a time step, over the root of the volume. -/
noncomputable def stepConst (N : Nat) (hh ρ C Λ bm cm Wm Fm dt : ℝ) : ℝ :=
  (N + 1) * (C + hh) * (rowConst N ρ Λ bm cm * Wm + 6 * Wm / dt + Fm) + 2 * Wm * (Λ * ((N + 1) / ρ) + (bm * ((N + 1) / ρ) + cm) * (C + hh))

/-- The effect of errors `η` on the boundary and `Er` in the equations of a time step, over the root of the volume. -/
noncomputable def stepGain (N : Nat) (hh ρ C Λ bm cm η dt Er : ℝ) : ℝ :=
  (N + 1) * (C + hh) * (Er + 2 * η / dt) + η * (Λ * ((N + 1) / ρ) + (bm * ((N + 1) / ρ) + cm) * (C + hh))

/-- The difference between the steps of the exact recursion and of one whose equations have a residual: functions with small values and test functions. -/
theorem near_steps_gen (h : P.OnNodes X I) (hP : P.Ok) (hop : P.Form D β r) {C α γ : ℝ} (hs : P.Shape X hh ρ) (hh0 : 0 ≤ hh) (hρ : 0 < ρ) (hC : 0 ≤ C)
    (hF : P.Friedrichs X C) (hΛ : 0 ≤ Λ) (hbm : 0 ≤ bm) (hcm : 0 ≤ cm) (hγ : 0 ≤ γ) (hα : 0 < α)
    (hDα : ∀ c < P.n, ∀ k < size P.t, ∀ ξ : Fin P.N → ℝ, α * len ξ ^ 2 ≤ ∑ z, (∑ y, D c k z y * ξ y) * ξ z)
    (hD : ∀ c < P.n, ∀ k < size P.t, ∀ ξ : Fin P.N → ℝ, len (fun z => ∑ y, D c k z y * ξ y) ≤ Λ * len ξ)
    (hβ : ∀ c < P.n, ∀ k < size P.t, len (β c k) ≤ bm) (hrγ : ∀ c < P.n, ∀ k < size P.t, -γ ≤ r c k) (hr : ∀ c < P.n, ∀ k < size P.t, |r c k| ≤ cm)
    (m : Nat) {f : Nat → Nat → Nat → ℝ} {w w' g : Nat → Nat → ℝ} {Wm Er ε dt : ℝ} (hdt : 0 < dt) (hld : (bm ^ 2 / (2 * α) + γ) * dt ≤ 1 / 2) (hε : 0 ≤ ε)
    (hWm : 0 ≤ Wm) (hEr : 0 ≤ Er) (h00 : w' 0 = w 0)
    (hw : ∀ i, i + 1 < m → ∀ v, P.Test v → P.l2 (fun p => (w (i + 1) p - w i p) / dt) v + P.bilin (w (i + 1)) v = P.load (f (i + 1)) v)
    (hwb : ∀ i, i + 1 < m → ∀ p < P.m, P.bd p = true → w (i + 1) p = g (i + 1) p)
    (hwb' : ∀ i, i + 1 < m → ∀ p < P.m, P.bd p = true → |w' (i + 1) p - g (i + 1) p| ≤ 2 * ε * Wm)
    (hres : ∀ i, i + 1 < m → ∀ v, P.Test v → |P.l2 (fun p => (w' (i + 1) p - w' i p) / dt) v + P.bilin (w' (i + 1)) v - P.load (f (i + 1)) v| ≤
      (∑ k ∈ Finset.range (size P.t), weight ℝ P.t k) *
      (Er * ∑ c ∈ Finset.range P.n, P.measure c * P.cellSum v c)) :
    ∃ (s v : Nat → Nat → ℝ), (∀ i p, w' i p = w i p + (s i p + v i p)) ∧ (∀ i < m, ∀ p, |s i p| ≤ 2 * ε * Wm) ∧ (∀ i < m, P.Test (v i)) ∧
      ∀ (V : Nat → Nat → Fin P.N → ℝ) (d : Nat → Nat → ℝ), (∀ i, P.Affine X (v i) (V i) (d i)) → ∀ A : ℝ,
      (∀ i < m, Real.exp (2 * (bm ^ 2 / (2 * α) + γ) * (i * dt)) * (i * dt * 0 + Real.sqrt (2 * (i * dt) *
        ((stepGain P.N hh ρ C Λ bm cm (2 * ε * Wm) dt Er * Real.sqrt (∑ c ∈ Finset.range P.n, P.measure c)) ^ 2 / α))) ≤ A) →
      (∀ i < m, P.nrm (v i) ≤ Real.exp (2 * (bm ^ 2 / (2 * α) + γ) * (i * dt)) * (i * dt * 0 + Real.sqrt (2 * (i * dt) *
        ((stepGain P.N hh ρ C Λ bm cm (2 * ε * Wm) dt Er * Real.sqrt (∑ c ∈ Finset.range P.n, P.measure c)) ^ 2 / α)))) ∧
      ∀ i < m, α / 8 * ∑ j ∈ Finset.range i, dt * P.energySq X (V (j + 1)) ≤ i * dt * ((bm ^ 2 / (2 * α) + γ) * A ^ 2 + 0 * A +
        (stepGain P.N hh ρ C Λ bm cm (2 * ε * Wm) dt Er * Real.sqrt (∑ c ∈ Finset.range P.n, P.measure c)) ^ 2 / α) := by
  set s : Nat → Nat → ℝ := fun i p => if p < P.m ∧ P.bd p = true then w' i p - w i p else 0 with hsd
  set v : Nat → Nat → ℝ := fun i p => (w' i p + -1 * w i p) + -1 * s i p with hvd
  have hη : 0 ≤ 2 * ε * Wm := by positivity
  have hs1 : ∀ i < m, ∀ p, |s i p| ≤ 2 * ε * Wm := by
    intro i hi p
    simp only [hsd]
    split_ifs with hp
    · cases i with
      | zero => rw [h00, sub_self, abs_zero]; exact hη
      | succ i => rw [hwb i hi p hp.1 hp.2]; exact hwb' i hi p hp.1 hp.2
    · rwa [abs_zero]
  have hT : ∀ i < m, P.Test (v i) := fun i hi p hp hbp => by
    simp only [hvd, hsd, if_pos (And.intro hp hbp)]
    ring
  refine ⟨s, v, fun i p => by simp only [hvd]; ring, hs1, hT, fun V d hV A hA => ?_⟩
  have hme : ∀ c < P.n, 0 < P.measure c := fun c hc => measure_pos h hc
  have hwt : ∀ k < size P.t, 0 < weight ℝ P.t k := fun k hk => weight_pos h hk
  set R := Real.sqrt (∑ c ∈ Finset.range P.n, P.measure c) with hR
  have hR0 : 0 ≤ R := Real.sqrt_nonneg _
  set l := bm ^ 2 / (2 * α) + γ with hl
  have hl0 : 0 ≤ l := by positivity
  set σ := ∑ k ∈ Finset.range (size P.t), weight ℝ P.t k with hσ
  have hσ0 : 0 < σ := weights_pos h
  have hσ1 : σ ≤ 1 := weights_le h
  have hσ2 : 1 / 2 ≤ σ := weights_ge h
  set Q := stepGain P.N hh ρ C Λ bm cm (2 * ε * Wm) dt Er * R with hQ
  have hQ0 : 0 ≤ Q := by rw [hQ, stepGain]; positivity
  set a : Nat → ℝ := fun i => P.nrm (v i) with ha
  have ha0 : a 0 = 0 := by
    have : v 0 = fun p => 0 * (0 : Nat → ℝ) p + 0 * (0 : Nat → ℝ) p := by
      funext p
      simp only [hvd, hsd, h00]
      split_ifs <;> simp
    rw [ha]
    dsimp only
    rw [this, Prob.nrm, l2_left P hP]
    simp
  have hstep : ∀ i, i + 1 < m → (1 - l * dt) * (a (i + 1) * a (i + 1)) + dt * (α / 8 * P.energySq X (V (i + 1))) ≤
      a i * a (i + 1) + dt * (0 * a (i + 1)) + dt * (Q ^ 2 / α) := by
    intro i hi
    have hTv := hT (i + 1) hi
    set φ := v (i + 1) with hφ
    set E := P.energySq X (V (i + 1)) with hE
    have hE0 : 0 ≤ E := energySq_nonneg h _
    have h1 := garding h hop hα hDα hβ hrγ (hV (i + 1))
    have h2 := hres i hi φ hTv
    have h3 := lift_form h hop hs hh0 hρ hΛ hbm hcm hD hβ hr hC hF hη (fun c _ j _ => hs1 (i + 1) hi (P.dofs c j)) hTv (hV (i + 1))
    have h4 := cellSum_test h hs hh0 hC hF hTv (hV (i + 1))
    have h5 := l2_rows h (s := fun p => s (i + 1) p - s i p) (Wm := 4 * ε * Wm) (fun c hc j hj => by
      refine (abs_sub _ _).trans ?_
      have i1 := hs1 (i + 1) hi (P.dofs c j)
      have i2 := hs1 i (by omega) (P.dofs c j)
      linarith) φ
    have e1 : P.bilin φ φ = P.bilin (w' (i + 1)) φ - P.bilin (w (i + 1)) φ - P.bilin (s (i + 1)) φ := by
      have : φ = fun p => (w' (i + 1) p + -1 * w (i + 1) p) + -1 * s (i + 1) p := rfl
      conv_lhs => rw [this, bilin_left P hP, bilin_left P hP]
      ring
    have e2 : ∀ x y : Nat → ℝ, P.l2 (fun p => (x p - y p) / dt) φ = dt⁻¹ * (P.l2 x φ - P.l2 y φ) := by
      intro x y
      have := l2_left P hP dt⁻¹ (-dt⁻¹) x y φ
      rw [show (fun p => dt⁻¹ * x p + -dt⁻¹ * y p) = fun p => (x p - y p) / dt by funext p; field_simp; ring] at this
      rw [this]
      ring
    have e3 : ∀ j, P.l2 (v j) φ = P.l2 (w' j) φ - P.l2 (w j) φ - P.l2 (s j) φ := by
      intro j
      have a1 := l2_left P hP 1 (-1) (fun p => 1 * w' j p + -1 * w j p) (s j) φ
      rw [show (fun p => 1 * (1 * w' j p + -1 * w j p) + -1 * s j p) = v j by funext p; simp only [hvd]; ring] at a1
      rw [a1, l2_left P hP]
      ring
    have e4 : P.l2 (fun p => s (i + 1) p - s i p) φ = P.l2 (s (i + 1)) φ - P.l2 (s i) φ := by
      have a1 := l2_left P hP 1 (-1) (s (i + 1)) (s i) φ
      rw [show (fun p => 1 * s (i + 1) p + -1 * s i p) = fun p => s (i + 1) p - s i p by funext p; ring] at a1
      rw [a1]
      ring
    have h6 := hw i hi φ hTv
    rw [e2] at h2 h6
    rw [e4] at h5
    have e5 : dt⁻¹ * (P.l2 φ φ - P.l2 (v i) φ) + P.bilin φ φ =
        (dt⁻¹ * (P.l2 (w' (i + 1)) φ - P.l2 (w' i) φ) + P.bilin (w' (i + 1)) φ - P.load (f (i + 1)) φ) -
          dt⁻¹ * (P.l2 (s (i + 1)) φ - P.l2 (s i) φ) - P.bilin (s (i + 1)) φ := by
      have := e3 (i + 1)
      rw [← hφ] at this
      rw [this, e3 i, e1]
      linear_combination (-1) * h6
    set Sg := ∑ c ∈ Finset.range P.n, P.measure c * P.cellSum φ c with hSg
    have e6 : ∑ c ∈ Finset.range P.n, P.measure c * (4 * ε * Wm * P.cellSum φ c) = 4 * ε * Wm * Sg := by
      rw [hSg, Finset.mul_sum]
      exact Finset.sum_congr rfl fun c _ => by ring
    rw [e6] at h5
    have hdi : 0 < dt⁻¹ := inv_pos.2 hdt
    have b1 := (le_abs_self _).trans h2
    have b2 := (neg_abs_le _).trans' (neg_le_neg h5)
    have b3 := (neg_abs_le _).trans' (neg_le_neg h3)
    have b4 := mul_le_mul_of_nonneg_left b2 hdi.le
    set x := Real.sqrt E with hx
    have hx0 : 0 ≤ x := Real.sqrt_nonneg _
    have hxx : x * x = E := Real.mul_self_sqrt hE0
    -- the residual and the part on the boundary
    have k1 : dt⁻¹ * (P.l2 φ φ - P.l2 (v i) φ) + P.bilin φ φ ≤ σ * (Q * x) := by
      have i1 : σ * (Er * Sg) + dt⁻¹ * (σ * (4 * ε * Wm * Sg)) = σ * ((Er + 2 * (2 * ε * Wm) / dt) * Sg) := by
        field_simp
        ring
      have i2 : (Er + 2 * (2 * ε * Wm) / dt) * Sg ≤ (Er + 2 * (2 * ε * Wm) / dt) * ((P.N + 1) * (C + hh) * R * x) :=
        mul_le_mul_of_nonneg_left h4 (by positivity)
      have i3 := mul_le_mul_of_nonneg_left i2 hσ0.le
      have i4 : σ * ((Er + 2 * (2 * ε * Wm) / dt) * ((P.N + 1) * (C + hh) * R * x)) +
          σ * (2 * ε * Wm * (Λ * ((P.N + 1) / ρ) + (bm * ((P.N + 1) / ρ) + cm) * (C + hh)) * R * x) = σ * (Q * x) := by
        rw [hQ, stepGain]; ring
      linarith
    have k2 : Q * x ≤ Q ^ 2 / α + α / 4 * E := by
      have e : Q ^ 2 / α + α / 4 * (x * x) - Q * x = (α * x / 2 - Q) ^ 2 / α := by
        field_simp
        ring
      have : 0 ≤ (α * x / 2 - Q) ^ 2 / α := by positivity
      rw [hxx] at e
      linarith
    have k3 := mul_le_mul_of_nonneg_left k2 hσ0.le
    have k4 : σ * (Q ^ 2 / α) ≤ Q ^ 2 / α := mul_le_of_le_one_left (by positivity) hσ1
    have k5 := mul_le_mul_of_nonneg_right hσ2 (mul_nonneg (show 0 ≤ α / 4 by positivity) hE0)
    have k6 : dt⁻¹ * (P.l2 φ φ - P.l2 (v i) φ) + α / 8 * E ≤ Q ^ 2 / α + l * P.l2 φ φ := by
      have : σ * (α / 2 * E) - l * P.l2 φ φ ≤ P.bilin φ φ := h1
      linarith
    have k7 := mul_le_mul_of_nonneg_left k6 hdt.le
    rw [mul_add, ← mul_assoc, mul_inv_cancel₀ hdt.ne', one_mul] at k7
    have c1 := (le_abs_self _).trans (l2_cauchy P hP hme hwt (v i) φ)
    have c2 : P.nrm φ * P.nrm φ = P.l2 φ φ := Real.mul_self_sqrt (l2_nonneg P hme hwt φ)
    show (1 - l * dt) * (P.nrm φ * P.nrm φ) + dt * (α / 8 * E) ≤ P.nrm (v i) * P.nrm φ + dt * (0 * P.nrm φ) + dt * (Q ^ 2 / α)
    rw [c2]
    linarith
  have hgr := growth a (fun i => P.energySq X (V i)) m ha0 (fun i => Real.sqrt_nonneg _) (fun i => energySq_nonneg h _) hdt hl0 le_rfl (by positivity)
    (by positivity) hld hstep
  exact ⟨hgr, energies a (fun i => P.energySq X (V i)) m ha0 (fun i => Real.sqrt_nonneg _) hdt hl0 le_rfl (fun i hi => (hgr i hi).trans (hA i hi)) hstep⟩

/-- The difference between the steps of the exact recursion and of the one with backward errors: functions with small values and test functions. -/
theorem near_steps (h : P.OnNodes X I) (hP : P.Ok) (hop : P.Form D β r) {C α γ : ℝ} (hs : P.Shape X hh ρ) (hh0 : 0 ≤ hh) (hρ : 0 < ρ) (hC : 0 ≤ C)
    (hF : P.Friedrichs X C) (hΛ : 0 ≤ Λ) (hbm : 0 ≤ bm) (hcm : 0 ≤ cm) (hγ : 0 ≤ γ) (hα : 0 < α)
    (hDα : ∀ c < P.n, ∀ k < size P.t, ∀ ξ : Fin P.N → ℝ, α * len ξ ^ 2 ≤ ∑ z, (∑ y, D c k z y * ξ y) * ξ z)
    (hD : ∀ c < P.n, ∀ k < size P.t, ∀ ξ : Fin P.N → ℝ, len (fun z => ∑ y, D c k z y * ξ y) ≤ Λ * len ξ)
    (hβ : ∀ c < P.n, ∀ k < size P.t, len (β c k) ≤ bm) (hrγ : ∀ c < P.n, ∀ k < size P.t, -γ ≤ r c k) (hr : ∀ c < P.n, ∀ k < size P.t, |r c k| ≤ cm)
    (m : Nat) {f : Nat → Nat → Nat → ℝ} {w w' g : Nat → Nat → ℝ} {Wm Fm ε dt : ℝ} (hdt : 0 < dt) (hld : (bm ^ 2 / (2 * α) + γ) * dt ≤ 1 / 2) (hε : 0 ≤ ε)
    (hWm : 0 ≤ Wm) (hFm : 0 ≤ Fm) (h00 : w' 0 = w 0)
    (hw : ∀ i, i + 1 < m → ∀ v, P.Test v → P.l2 (fun p => (w (i + 1) p - w i p) / dt) v + P.bilin (w (i + 1)) v = P.load (f (i + 1)) v)
    (hwb : ∀ i, i + 1 < m → ∀ p < P.m, P.bd p = true → w (i + 1) p = g (i + 1) p)
    (hwb' : ∀ i, i + 1 < m → ∀ p < P.m, P.bd p = true → |w' (i + 1) p - g (i + 1) p| ≤ 2 * ε * Wm)
    (hres : ∀ i, i + 1 < m → ∀ v, P.Test v → |P.l2 (fun p => (w' (i + 1) p - w' i p) / dt) v + P.bilin (w' (i + 1)) v - P.load (f (i + 1)) v| ≤
      (∑ k ∈ Finset.range (size P.t), weight ℝ P.t k) *
      (ε * ((rowConst P.N ρ Λ bm cm * Wm + 2 * Wm / dt + Fm) * ∑ c ∈ Finset.range P.n, P.measure c * P.cellSum v c))) :
    ∃ (s v : Nat → Nat → ℝ), (∀ i p, w' i p = w i p + (s i p + v i p)) ∧ (∀ i < m, ∀ p, |s i p| ≤ 2 * ε * Wm) ∧ (∀ i < m, P.Test (v i)) ∧
      ∀ (V : Nat → Nat → Fin P.N → ℝ) (d : Nat → Nat → ℝ), (∀ i, P.Affine X (v i) (V i) (d i)) → ∀ A : ℝ,
      (∀ i < m, Real.exp (2 * (bm ^ 2 / (2 * α) + γ) * (i * dt)) * (i * dt * 0 + Real.sqrt (2 * (i * dt) *
        ((ε * stepConst P.N hh ρ C Λ bm cm Wm Fm dt * Real.sqrt (∑ c ∈ Finset.range P.n, P.measure c)) ^ 2 / α))) ≤ A) →
      (∀ i < m, P.nrm (v i) ≤ Real.exp (2 * (bm ^ 2 / (2 * α) + γ) * (i * dt)) * (i * dt * 0 + Real.sqrt (2 * (i * dt) *
        ((ε * stepConst P.N hh ρ C Λ bm cm Wm Fm dt * Real.sqrt (∑ c ∈ Finset.range P.n, P.measure c)) ^ 2 / α)))) ∧
      ∀ i < m, α / 8 * ∑ j ∈ Finset.range i, dt * P.energySq X (V (j + 1)) ≤ i * dt * ((bm ^ 2 / (2 * α) + γ) * A ^ 2 + 0 * A +
        (ε * stepConst P.N hh ρ C Λ bm cm Wm Fm dt * Real.sqrt (∑ c ∈ Finset.range P.n, P.measure c)) ^ 2 / α) := by
  have hrc : 0 ≤ rowConst P.N ρ Λ bm cm := by rw [rowConst]; positivity
  have e : ε * stepConst P.N hh ρ C Λ bm cm Wm Fm dt =
      stepGain P.N hh ρ C Λ bm cm (2 * ε * Wm) dt (ε * (rowConst P.N ρ Λ bm cm * Wm + 2 * Wm / dt + Fm)) := by
    rw [stepConst, stepGain]; ring
  rw [e]
  exact near_steps_gen h hP hop hs hh0 hρ hC hF hΛ hbm hcm hγ hα hDα hD hβ hrγ hr m hdt hld hε hWm (by positivity) h00 hw hwb hwb'
    fun i hi v hv => (hres i hi v hv).trans (le_of_eq (by ring))

end

end Fdapde.PDE
