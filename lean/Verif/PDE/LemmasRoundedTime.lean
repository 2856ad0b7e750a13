import Verif.PDE.FloatStep
import Verif.PDE.PropsRounded
import Verif.PDE.PropsInexactTime
set_option linter.unusedSectionVars false
/-!
# Time steps in floating point arithmetic
-/
namespace Fdapde.PDE
open Fdapde.Quadrature MeasureTheory Fdapde.FEM Fdapde.Fp
noncomputable section
variable {r : Rounding} {S : List ℝ → ℝ} {P : Prob ℝ} {X : Nat → Nat → ℝ} {I : Nat → Nat → Nat → ℝ}

theorem stepRhsR_spec (r : Rounding) (S : List ℝ → ℝ) (s : Sys ℝ) (dt : ℝ) (g : Dense ℝ) (u : Nat → ℝ) (i : Nat) (hr : s.n ≤ g.rows) (hc : i + 1 < g.cols)
    (hf : s.n * (i + 1) + s.n ≤ s.forceRows) : ∃ rhs, stepRhsR r S s dt g u i = .ok rhs ∧
    ∀ p, rhs p = if p < s.n ∧ (p = 0 ∨ s.bd p = true) then g.at' p (i + 1) else rhsRowR r S s dt u i p := by
  have key : ∀ (l : List Nat), (∀ d ∈ l, d < s.n) → ∀ f : Nat → ℝ, ∃ f', foldRes (fun (rhs : Nat → ℝ) d => do
      let v ← g.read d (i + 1)
      Res.ok (fun p => if p = d then v else rhs p)) f l = .ok f' ∧ ∀ p, f' p = if p ∈ l then g.at' p (i + 1) else f p := by
    intro l
    induction l with
    | nil => exact fun _ r => ⟨r, rfl, fun _ => by simp⟩
    | cons d l ih =>
      intro hl r
      obtain ⟨r', h1, h2⟩ := ih (fun e he => hl e (by simp [he])) (fun p => if p = d then g.at' d (i + 1) else r p)
      refine ⟨r', ?_, fun p => ?_⟩
      · rw [foldRes_cons, ← h1]
        have := hl d (by simp)
        simp only [Dense.read, if_pos (show d < g.rows ∧ i + 1 < g.cols from ⟨by omega, hc⟩), Res.ok_bind]
      · rw [h2]
        by_cases h : p ∈ l
        · simp [h]
        · by_cases h3 : p = d
          · subst h3; simp [h]
          · simp [h, h3]
  obtain ⟨r', h1, h2⟩ := key (boundaryLoop s.bd s.n) (fun d hd => ((mem_boundaryLoop _ _ _).1 hd).1) (rhsRowR r S s dt u i)
  refine ⟨r', by rw [stepRhsR, if_pos hf, h1], fun p => ?_⟩
  rw [h2]
  simp only [mem_boundaryLoop]

/-- The entries of the matrix of the time steps. -/
def stepEntryR (r : Rounding) (s : Sys ℝ) (dt : ℝ) (p q : Nat) : ℝ := r.rnd (r.rnd (s.mass p q / dt) + s.stiff p q)

/-- The recursion of the parabolic solver in floating point arithmetic. -/
theorem rounded_recursion {ε : ℝ} (lu : Solver ℝ) (t0 t1 : ℝ) (ts : List ℝ) (m : Nat) (ic : Nat → ℝ) (g : Dense ℝ) (s : Sys ℝ)
    (hlu : BackwardLU s.n ε lu) (hi : s.isInit = true) (hr : s.n ≤ g.rows) (hc : m ≤ g.cols) (hm : 0 < m) (hf : s.forceRows = s.n * m)
    (hs : (lu (fun p q => if p < s.n ∧ (p = 0 ∨ s.bd p = true) then (if q = p then 1 else 0) else stepEntryR r s (r.rnd (t1 - t0)) p q)).isSome) :
    ∃ sol, solveParabolicR r S lu (t0 :: t1 :: ts) m ic g s = .ok (true, sol) ∧ sol 0 = ic ∧
    ∀ i, i + 1 < m → ∀ p < s.n,
      ((p = 0 ∨ s.bd p = true) → |sol (i + 1) p - g.at' p (i + 1)| ≤ ε * (|sol (i + 1) p| + |g.at' p (i + 1)|)) ∧
      (¬ (p = 0 ∨ s.bd p = true) → |∑ q ∈ Finset.range s.n, stepEntryR r s (r.rnd (t1 - t0)) p q * sol (i + 1) q - rhsRowR r S s (r.rnd (t1 - t0)) (sol i) i p| ≤
        ε * (∑ q ∈ Finset.range s.n, |stepEntryR r s (r.rnd (t1 - t0)) p q| * |sol (i + 1) q| + |rhsRowR r S s (r.rnd (t1 - t0)) (sol i) i p|)) := by
  have hA : (boundaryLoop s.bd s.n).foldl unitRow (fun p q => r.rnd (r.rnd (s.mass p q / r.rnd (t1 - t0)) + s.stiff p q)) =
      fun p q => if p < s.n ∧ (p = 0 ∨ s.bd p = true) then (if q = p then 1 else 0) else stepEntryR r s (r.rnd (t1 - t0)) p q := by
    funext p q
    rw [unitRows_spec]
    simp only [mem_boundaryLoop, stepEntryR]
  obtain ⟨f, hl⟩ := Option.isSome_iff_exists.1 hs
  simp only [solveParabolicR, if_neg (show ¬ s.isInit = false by simp [hi]), if_neg (show ¬ m = 0 by omega), hA]
  rw [hl]
  have key : ∀ k, k ≤ m - 1 → ∃ sol, foldRes (fun (sol : Nat → Nat → ℝ) i => do
      let rhs ← stepRhsR r S s (r.rnd (t1 - t0)) g (sol i) i
      Res.ok (fun c => if c = i + 1 then f rhs else sol c)) (fun _ => ic) (List.range k) = .ok sol ∧ sol 0 = ic ∧
      ∀ i < k, ∀ p < s.n,
      ((p = 0 ∨ s.bd p = true) → |sol (i + 1) p - g.at' p (i + 1)| ≤ ε * (|sol (i + 1) p| + |g.at' p (i + 1)|)) ∧
      (¬ (p = 0 ∨ s.bd p = true) → |∑ q ∈ Finset.range s.n, stepEntryR r s (r.rnd (t1 - t0)) p q * sol (i + 1) q - rhsRowR r S s (r.rnd (t1 - t0)) (sol i) i p| ≤
        ε * (∑ q ∈ Finset.range s.n, |stepEntryR r s (r.rnd (t1 - t0)) p q| * |sol (i + 1) q| + |rhsRowR r S s (r.rnd (t1 - t0)) (sol i) i p|)) := by
    intro k
    induction k with
    | zero => exact fun _ => ⟨_, rfl, rfl, fun i hi => absurd hi (by omega)⟩
    | succ k ih =>
      intro hk
      obtain ⟨sol, h1, h2, h3⟩ := ih (by omega)
      have hfk : s.n * (k + 1) + s.n ≤ s.forceRows := by
        rw [hf, ← Nat.mul_succ]
        exact Nat.mul_le_mul_left _ (by omega)
      obtain ⟨rhs, h4, h5⟩ := stepRhsR_spec r S s (r.rnd (t1 - t0)) g (sol k) k hr (by omega) hfk
      refine ⟨fun c => if c = k + 1 then f rhs else sol c, ?_, by simpa using h2, fun i hik p hp => ?_⟩
      · rw [List.range_succ, foldRes_append, h1, Res.ok_bind, foldRes_cons, h4]
        rfl
      · by_cases hik' : i = k
        · subst hik'
          have hs := hlu _ _ hl rhs p hp
          rw [h5] at hs
          simp only [if_true, if_neg (show ¬ i = i + 1 by omega)]
          refine ⟨fun hb => ?_, fun hb => ?_⟩
          · simp only [if_pos (show p < s.n ∧ (p = 0 ∨ s.bd p = true) from ⟨hp, hb⟩), ite_mul, one_mul, zero_mul] at hs
            rw [Finset.sum_ite_eq' (Finset.range s.n) p, if_pos (Finset.mem_range.2 hp)] at hs
            refine hs.trans (le_of_eq ?_)
            congr 2
            rw [Finset.sum_eq_single p]
            · simp
            · intro q _ hq; simp [hq]
            · intro hq; exact absurd (Finset.mem_range.2 hp) hq
          · simp only [if_neg (show ¬ (p < s.n ∧ (p = 0 ∨ s.bd p = true)) from fun h => hb h.2)] at hs
            exact hs
        · simp only [if_neg (show ¬ i + 1 = k + 1 by omega), if_neg (show ¬ i = k + 1 by omega)]
          exact h3 i (by omega) p hp
  obtain ⟨sol, h1, h2, h3⟩ := key (m - 1) le_rfl
  exact ⟨sol, by simp only [h1, Res.ok_bind], h2, fun i him => h3 i (by omega)⟩

/-- Division by a rounded time step. -/
theorem div_err {dt : ℝ} (hdt : 0 < dt) {k : Nat} {m x x' : ℝ} (h : r.Err k m x x') : r.Err (k + 2) (m / dt) (x / dt) (r.rnd (x' / r.rnd dt)) := by
  have h1 : r.Err 1 (1 / dt) (1 / dt) (1 / r.rnd dt) := .of_rel (Rounding.Rel.rnd0 hdt.le).inv
  have := (h.mul h1).rnd
  simp only [mul_one_div] at this
  exact this

theorem stepEntry_err {dt : ℝ} (hdt : 0 < dt) {s : Sys ℝ} {p q kM kA : Nat} {mM mA M A : ℝ} (hM : r.Err kM mM M (s.mass p q)) (hA : r.Err kA mA A (s.stiff p q)) :
    r.Err (max (kM + 2) kA + 1) (mM / dt + mA) (M / dt + A) (stepEntryR r s (r.rnd dt) p q) :=
  (((div_err hdt hM).mono (Nat.le_max_left _ _)).add (hA.mono (Nat.le_max_right _ _))).rnd

theorem fullSum_ne {n nb : Nat} {dofs : Nat → Nat → Nat} {m : Nat → ℝ} {p q : Nat} (h : fullSum n nb dofs (fun c _ _ => m c) p q ≠ 0) :
    ∃ c < n, ∃ i < nb, ∃ j < nb, dofs c i = p ∧ dofs c j = q := by
  by_contra hn
  push Not at hn
  refine h (Finset.sum_eq_zero fun c hc => Finset.sum_eq_zero fun i hi => Finset.sum_eq_zero fun j hj => if_neg fun he => ?_)
  exact hn c (Finset.mem_range.1 hc) i (Finset.mem_range.1 hi) j (Finset.mem_range.1 hj) he.1 he.2

open Classical in
/-- The number of entries of a row. -/
theorem row_count {n nb N : Nat} {dofs : Nat → Nat → Nat} {v : Nat} (hv : Valence n nb dofs v) {M' : Nat → ℝ} {m : Nat → ℝ} {p : Nat}
    (hM : ∀ q, M' q ≠ 0 → fullSum n nb dofs (fun c _ _ => m c) p q ≠ 0) : ((List.range N).filter fun q => M' q ≠ 0).length ≤ v * nb := by
  have hn : ((List.range N).filter fun q => M' q ≠ 0).Nodup := List.nodup_range.filter _
  rw [← List.toFinset_card_of_nodup hn]
  have hsub : ((List.range N).filter fun q => M' q ≠ 0).toFinset ⊆
      ((((Finset.range n ×ˢ Finset.range nb).filter fun x => dofs x.1 x.2 = p) ×ˢ Finset.range nb).image fun x => dofs x.1.1 x.2) := by
    intro q hq
    simp only [List.mem_toFinset, List.mem_filter, decide_eq_true_eq] at hq
    obtain ⟨c, hc, i, hi, j, hj, h1, h2⟩ := fullSum_ne (hM q hq.2)
    refine Finset.mem_image.2 ⟨((c, i), j), ?_, h2⟩
    simp [hc, hi, hj, h1]
  refine (Finset.card_le_card hsub).trans (Finset.card_image_le.trans ?_)
  rw [Finset.card_product, Finset.card_range]
  exact Nat.mul_le_mul_right _ (hv p)

open Classical in
/-- A row of the right hand side of a time step. -/
theorem rhsRow_err (hS : r.Summation S) {n nb : Nat} {dofs : Nat → Nat → Nat} {v : Nat} (hv : Valence n nb dofs v) {s : Sys ℝ} {dt : ℝ} (hdt : 0 < dt)
    {i p kM kF : Nat} {m : Nat → ℝ} {Ma : Nat → ℝ} {mF F : ℝ} (hM : ∀ q, r.Err kM (fullSum n nb dofs (fun c _ _ => m c) p q) (Ma q) (s.mass p q))
    (hF : r.Err kF mF F (s.force (s.n * (i + 1) + p))) (u : Nat → ℝ) :
    r.Err (max (kM + 3) kF + (v * nb + 1)) ((∑ q ∈ Finset.range s.n, fullSum n nb dofs (fun c _ _ => m c) p q / dt * |u q|) + mF)
      ((∑ q ∈ Finset.range s.n, Ma q / dt * u q) + F) (rhsRowR r S s (r.rnd dt) u i p) := by
  set B := fun q => fullSum n nb dofs (fun c _ _ => m c) p q with hB
  set L := (List.range s.n).filter fun q => s.mass p q ≠ 0 with hL
  have hlen : L.length ≤ v * nb := row_count hv (M' := s.mass p) (m := m) (p := p) fun q hq h0 => hq (by
    obtain ⟨h1, h2⟩ := hM q
    rw [h0] at h1 h2
    have e1 : Ma q = 0 := abs_nonpos_iff.1 h1
    rw [e1, mul_zero, sub_zero] at h2
    exact abs_nonpos_iff.1 h2)
  have hterm : ∀ q, r.Err (kM + 3) (B q / dt * |u q|) (Ma q / dt * u q) (r.rnd (r.rnd (s.mass p q / r.rnd dt) * u q)) := fun q => by
    have := ((div_err hdt (hM q)).mul (Rounding.Err.exact (r := r) (u q))).rnd
    exact this.mono (by omega)
  have h1 := hS (((L.map fun q => r.rnd (r.rnd (s.mass p q / r.rnd dt) * u q))) ++ [s.force (s.n * (i + 1) + p)])
  have e0 : (L.map fun q => r.rnd (r.rnd (s.mass p q / r.rnd dt) * u q)) ++ [s.force (s.n * (i + 1) + p)] =
      (L.map some ++ [none]).map fun o : Option Nat => o.elim (s.force (s.n * (i + 1) + p)) fun q => r.rnd (r.rnd (s.mass p q / r.rnd dt) * u q) := by
    simp [Function.comp_def]
  rw [e0] at h1
  have h2 := h1.sum (m := fun o => o.elim mF fun q => B q / dt * |u q|) (x := fun o => o.elim F fun q => Ma q / dt * u q) (k := max (kM + 3) kF) (by
    rintro (_ | q) _
    · exact hF.mono (Nat.le_max_right _ _)
    · exact (hterm q).mono (Nat.le_max_left _ _))
  rw [← e0] at h2
  simp only [List.map_append, List.map_map, List.map_cons, List.map_nil, Option.elim_none, List.sum_append, List.sum_cons, List.sum_nil, add_zero,
    List.length_append, List.length_map, List.length_cons, List.length_nil, zero_add, Function.comp_def, Option.elim_some] at h2
  have h3 : rhsRowR r S s (r.rnd dt) u i p = S ((L.map fun q => r.rnd (r.rnd (s.mass p q / r.rnd dt) * u q)) ++ [s.force (s.n * (i + 1) + p)]) := rfl
  rw [h3]
  have hsum : ∀ f : Nat → ℝ, (L.map f).sum = ∑ q ∈ (Finset.range s.n).filter (fun q => s.mass p q ≠ 0), f q := fun f => by
    have hn : L.Nodup := List.nodup_range.filter _
    rw [← List.sum_toFinset _ hn]
    refine Finset.sum_congr ?_ fun _ _ => rfl
    ext q
    simp [hL]
  rw [hsum, hsum] at h2
  set k := max (kM + 3) kF with hk
  have h4 := h2.mono (k := k + (v * nb + 1)) (by omega)
  have hBn : ∀ q, 0 ≤ B q / dt * |u q| := fun q => mul_nonneg (div_nonneg (hM q).nonneg hdt.le) (abs_nonneg _)
  have hmF := hF.nonneg
  have hb1 : r.b ^ (kM + 3) ≤ r.b ^ (k + (v * nb + 1)) := pow_le_pow_right₀ r.one_le_b (by omega)
  have hb2 : 1 ≤ r.b ^ (k + (v * nb + 1)) := one_le_pow₀ r.one_le_b
  have split : ∀ f : Nat → ℝ, ∑ q ∈ Finset.range s.n, f q = (∑ q ∈ (Finset.range s.n).filter (fun q => s.mass p q ≠ 0), f q) +
      ∑ q ∈ (Finset.range s.n).filter (fun q => ¬ s.mass p q ≠ 0), f q := fun f => (Finset.sum_filter_add_sum_filter_not _ _ _).symm
  have hzero : ∀ q, ¬ s.mass p q ≠ 0 → |Ma q / dt * u q| ≤ (r.b ^ (k + (v * nb + 1)) - 1) * (B q / dt * |u q|) := fun q hq => by
    have h5 := (hterm q).2
    rw [not_not.1 hq, zero_div, r.zero, zero_mul, r.zero, zero_sub, abs_neg] at h5
    exact h5.trans (mul_le_mul_of_nonneg_right (by linarith) (hBn q))
  refine ⟨(abs_add_le _ _).trans (add_le_add ((Finset.abs_sum_le_sum_abs _ _).trans (Finset.sum_le_sum fun q _ => (hterm q).1)) hF.1), ?_⟩
  rw [split fun q => Ma q / dt * u q, split fun q => B q / dt * |u q|]
  set x1 := ∑ q ∈ (Finset.range s.n).filter (fun q => s.mass p q ≠ 0), Ma q / dt * u q
  set x2 := ∑ q ∈ (Finset.range s.n).filter (fun q => ¬ s.mass p q ≠ 0), Ma q / dt * u q with hx2
  set y1 := ∑ q ∈ (Finset.range s.n).filter (fun q => s.mass p q ≠ 0), B q / dt * |u q|
  set y2 := ∑ q ∈ (Finset.range s.n).filter (fun q => ¬ s.mass p q ≠ 0), B q / dt * |u q| with hy2
  have h6 : |x2| ≤ (r.b ^ (k + (v * nb + 1)) - 1) * y2 := by
    rw [hy2, Finset.mul_sum]
    exact (Finset.abs_sum_le_sum_abs _ _).trans (Finset.sum_le_sum fun q hq => hzero q (Finset.mem_filter.1 hq).2)
  set z := S ((L.map fun q => r.rnd (r.rnd (s.mass p q / r.rnd dt) * u q)) ++ [s.force (s.n * (i + 1) + p)])
  have h7 := h4.2
  have e1 : z - (x1 + x2 + F) = (z - (x1 + F)) + -x2 := by ring
  rw [e1]
  refine (abs_add_le _ _).trans ?_
  rw [abs_neg]
  refine (add_le_add h7 h6).trans (le_of_eq ?_)
  ring

/-- A residual given by rows and tested. -/
theorem rows_tested (hP : P.Ok) {σ κ : ℝ} {x : Nat → ℝ}
    (hres : ∀ p < P.m, P.bd p = false → |x p| ≤ σ * ∑ c ∈ Finset.range P.n, P.measure c * (κ * P.cellSum (hatAt p) c)) {v : Nat → ℝ} (hT : P.Test v) :
    |∑ p ∈ Finset.range P.m, v p * x p| ≤ σ * (κ * ∑ c ∈ Finset.range P.n, P.measure c * P.cellSum v c) := by
  refine (Finset.abs_sum_le_sum_abs _ _).trans ?_
  calc ∑ p ∈ Finset.range P.m, |v p * x p|
      ≤ ∑ p ∈ Finset.range P.m, |v p| * (σ * ∑ c ∈ Finset.range P.n, P.measure c * (κ * P.cellSum (hatAt p) c)) := by
        refine Finset.sum_le_sum fun p hp => ?_
        have hp' := Finset.mem_range.1 hp
        rw [abs_mul]
        cases hbd : P.bd p with
        | true => rw [hT p hp' hbd]; simp
        | false => exact mul_le_mul_of_nonneg_left (hres p hp' hbd) (abs_nonneg _)
    _ = σ * (κ * ∑ c ∈ Finset.range P.n, P.measure c * ∑ p ∈ Finset.range P.m, |v p| * P.cellSum (hatAt p) c) := by
        simp only [Finset.mul_sum]
        rw [Finset.sum_comm]
        exact Finset.sum_congr rfl fun c _ => Finset.sum_congr rfl fun p _ => by ring
    _ = _ := by
        congr 2
        exact Finset.sum_congr rfl fun c hc => by rw [cellSum_hat hP v (Finset.mem_range.1 hc)]

/-- A matrix close to the one of a coercive form, with unit rows on the boundary. -/
theorem perturbed_form_det (h : P.OnNodes X I) (hP : P.Ok) {C hh ρ α0 : ℝ} (hs : P.Shape X hh ρ) (hh0 : 0 ≤ hh) (hC : 0 ≤ C)
    (hF : P.Friedrichs X C) {a : (Nat → ℝ) → (Nat → ℝ) → ℝ}
    (hco : ∀ (v : Nat → ℝ) (V : Nat → Fin P.N → ℝ) (b : Nat → ℝ), P.Test v → P.Affine X v V b →
      (∑ k ∈ Finset.range (size P.t), weight ℝ P.t k) * (α0 * P.energySq X V) ≤ a v v)
    (hE : ∀ v, P.Test v → a v v = 0 → ∀ p < P.m, v p = 0)
    {A A' B : Nat → Nat → ℝ} (hA : ∀ u v, ∑ p ∈ Finset.range P.m, ∑ q ∈ Finset.range P.m, v p * A p q * u q = a u v)
    {δ : ℝ} (hδ : 0 ≤ δ) (hAA : ∀ p q, |A' p q - A p q| ≤ fullSum P.n P.nb P.dofs (fun c _ _ => (∑ k ∈ Finset.range (size P.t), weight ℝ P.t k) *
      (δ * P.measure c)) p q) (hB : ∀ p < P.m, ∀ q, B p q = if P.bd p = true then (if q = p then 1 else 0) else A' p q)
    (hsmall : δ * ((P.N + 1) * (C + hh)) ^ 2 < α0) :
    (Matrix.of fun i j : Fin P.m => B i j).det ≠ 0 := by
  intro hd
  obtain ⟨v, hv, hv0⟩ := Matrix.exists_mulVec_eq_zero_iff.2 hd
  set y : Nat → ℝ := fun p => if h : p < P.m then v ⟨p, h⟩ else 0 with hy
  have hyv : ∀ i : Fin P.m, y i = v i := fun i => by simp [hy, i.2]
  have hrow : ∀ p < P.m, ∑ q ∈ Finset.range P.m, B p q * y q = 0 := by
    intro p hp
    have := congrFun hv0 ⟨p, hp⟩
    simp only [Matrix.mulVec, dotProduct, Matrix.of_apply, Pi.zero_apply] at this
    rw [Finset.sum_range]
    simp only [hyv]
    exact this
  have hT : P.Test y := by
    intro p hp hb
    have := hrow p hp
    simp only [hB p hp, if_pos hb, ite_mul, one_mul, zero_mul] at this
    rwa [Finset.sum_ite_eq' (Finset.range P.m) p, if_pos (Finset.mem_range.2 hp)] at this
  obtain ⟨V, b, hV⟩ := affine_exists h y
  have h1 := hco y V b hT hV
  have h2 := cellSum_sq h hs hh0 hC hF hT hV
  set σ := ∑ k ∈ Finset.range (size P.t), weight ℝ P.t k with hσ
  have hσ0 : 0 < σ := weights_pos h
  have hE0 := energySq_nonneg h V
  have h3 : a y y ≤ σ * (δ * ∑ c ∈ Finset.range P.n, P.measure c * P.cellSum y c ^ 2) := by
    have e : a y y = ∑ p ∈ Finset.range P.m, ∑ q ∈ Finset.range P.m, y p * (A p q - A' p q) * y q := by
      rw [← hA]
      refine Finset.sum_congr rfl fun p hp => ?_
      have hp' := Finset.mem_range.1 hp
      by_cases hb : P.bd p = true
      · rw [hT p hp' hb]; simp
      · have := hrow p hp'
        simp only [hB p hp', if_neg hb] at this
        have e2 : ∑ q ∈ Finset.range P.m, y p * A' p q * y q = 0 := by
          rw [← mul_zero (y p), ← this, Finset.mul_sum]
          exact Finset.sum_congr rfl fun q _ => by ring
        rw [← sub_zero (∑ q ∈ Finset.range P.m, y p * A p q * y q), ← e2, ← Finset.sum_sub_distrib]
        exact Finset.sum_congr rfl fun q _ => by ring
    rw [e]
    calc _ ≤ ∑ p ∈ Finset.range P.m, ∑ q ∈ Finset.range P.m, |y p| * fullSum P.n P.nb P.dofs (fun c _ _ => σ * (δ * P.measure c)) p q * |y q| := by
          refine Finset.sum_le_sum fun p _ => Finset.sum_le_sum fun q _ => (le_abs_self _).trans ?_
          rw [abs_mul, abs_mul, abs_sub_comm]
          exact mul_le_mul_of_nonneg_right (mul_le_mul_of_nonneg_left (hAA p q) (abs_nonneg _)) (abs_nonneg _)
      _ = _ := by
          rw [fullSum_form hP (fun c => σ * (δ * P.measure c)) (fun p => |y p|) (fun p => |y p|), Finset.mul_sum, Finset.mul_sum]
          refine Finset.sum_congr rfl fun c _ => ?_
          rw [Prob.cellSum]
          ring
  have h4 : σ * (δ * ∑ c ∈ Finset.range P.n, P.measure c * P.cellSum y c ^ 2) ≤ σ * (δ * (((P.N + 1) * (C + hh)) ^ 2 * P.energySq X V)) :=
    mul_le_mul_of_nonneg_left (mul_le_mul_of_nonneg_left h2 hδ) hσ0.le
  have h5 := le_of_mul_le_mul_left (h1.trans (h3.trans h4)) hσ0
  have hEz : P.energySq X V = 0 := by
    rcases hE0.eq_or_lt with e | hlt
    · exact e.symm
    · have := mul_lt_mul_of_pos_right hsmall hlt
      linarith
  have hz := hE y hT (by
    refine le_antisymm ?_ ?_
    · refine (h3.trans h4).trans (le_of_eq ?_)
      rw [hEz]; ring
    · rw [hEz] at h1
      simpa using h1)
  exact hv (funext fun i => by rw [← hyv i, hz i i.2]; rfl)

end
end Fdapde.PDE
