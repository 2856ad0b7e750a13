import Verif.PDE.FloatCells3
import Verif.PDE.PropsRoundedCells
set_option linter.unusedSectionVars false
/-!
# C151: data of the cells in double precision, intervals and tetrahedra
-/
namespace Fdapde.PDE
open Fdapde.Quadrature MeasureTheory Matrix Fdapde.Geometry Fdapde.FEM Fdapde.Fp Fdapde.Triang
noncomputable section
variable {r : Rounding} {S : List ℝ → ℝ}

/-- Measures and inverses of the cells computed with `kc` roundings are data as the bounds of the assembly and of the solve ask. -/
theorem cells_computed {N n nNodes : Nat} (hN : N ∈ [1, 2, 3]) {cells : Nat → Nat → Nat} {X : Nat → Fin N → ℝ} (op : Op ℝ) (bNodes : Nat → Bool)
    (hp : Proper (N + 1) n cells X) (hS : r.Summation S) {kb kc : Nat} {μ Gi : ℝ} {ms : Nat → ℝ} {iv : Nat → Nat → Nat → ℝ}
    {ps : Nat → (Nat → ℝ) → ℝ} {dps : Nat → (Nat → ℝ) → Nat → ℝ} {t : Table} (ht : standardRule N 1 = some t)
    (hm : ∀ c < n, r.Err kc (μ * (meshProb N 1 (N + 1) t op cells n X (enumDofs1 cells nNodes bNodes)).measure c)
      ((meshProb N 1 (N + 1) t op cells n X (enumDofs1 cells nNodes bNodes)).measure c) (ms c))
    (hi : ∀ c < n, ∀ w < N, ∀ z < N, r.Err kc Gi (invAt (cellOf N cells X c) w z) (iv c w z))
    (hps : ∀ i : Fin (N + 1), ∀ k < size t, |ps i (node ℝ t k) - refBasis ℝ N 1 (N + 1) i (node ℝ t k)| ≤ r.b ^ kb - 1)
    (hdp : ∀ i : Fin (N + 1), ∀ k < size t, ∀ w < N, |dps i (node ℝ t k) w - refGrad ℝ N 1 (N + 1) i (node ℝ t k) w| ≤ r.b ^ kb - 1) :
    (meshProb N 1 (N + 1) t op cells n X (enumDofs1 cells nNodes bNodes)).Computed r (kb + kc + 1 + N) μ (N * Gi) ms ps fun c i => gradOfR r S N (iv c) dps i := by
  refine ⟨fun c hc => ?_, fun i hi k hk => ?_, fun c hc i hi' k hk z hz => ?_⟩
  · exact (hm c hc).mono (by omega)
  · have hO := mesh_onNodes (nNodes := nNodes) hN ht op hp bNodes
    have e : (meshProb N 1 (N + 1) t op cells n X (enumDofs1 cells nNodes bNodes)).psi i (node ℝ t k) = refBasis ℝ N 1 (N + 1) ⟨i, hi⟩ (node ℝ t k) :=
      hO.lagrange.psi ⟨i, hi⟩ _
    have h0 : r.Err kb 1 ((meshProb N 1 (N + 1) t op cells n X (enumDofs1 cells nNodes bNodes)).psi i (node ℝ t k)) (ps i (node ℝ t k)) := by
      constructor
      · have h1 : 0 ≤ (meshProb N 1 (N + 1) t op cells n X (enumDofs1 cells nNodes bNodes)).psi i (node ℝ t k) := psi_nonneg hO hk hi
        rw [abs_of_nonneg h1]
        refine le_trans ?_ (le_of_eq (psi_sum hO hk))
        exact Finset.single_le_sum (f := fun i => (meshProb N 1 (N + 1) t op cells n X (enumDofs1 cells nNodes bNodes)).psi i (node ℝ t k))
          (fun j hj => psi_nonneg hO hk (Finset.mem_range.1 hj)) (Finset.mem_range.2 hi)
      · rw [e, mul_one]; exact hps ⟨i, hi⟩ k hk
    exact h0.mono (by omega)
  · have hsu : Supported N 1 (N + 1) := supported1 hN
    have hd : ∀ w < N, r.Err kb 1 (refGrad ℝ N 1 (N + 1) ⟨i, hi'⟩ (node ℝ t k) w) (dps i (node ℝ t k) w) := by
      intro w hw
      constructor
      · rw [refGrad_node hsu ht k hk w hw, first_gra _ (first_mem hsu).1 k ((rule_node (K := ℝ) hsu ht).1 ▸ hk) w hw i hi']
        split_ifs <;> norm_num
      · rw [mul_one]; exact hdp ⟨i, hi'⟩ k hk w hw
    have h1 := (hS ((List.range N).map fun w => r.rnd (dps i (node ℝ t k) w * iv c w z))).sum_range
      (m := fun _ => 1 * Gi) (x := fun w => refGrad ℝ N 1 (N + 1) ⟨i, hi'⟩ (node ℝ t k) w * invAt (cellOf N cells X c) w z) (k := kb + kc + 1)
      fun w hw => ((hd w hw).mul (hi c hc w hw z hz)).rnd
    have e : (meshProb N 1 (N + 1) t op cells n X (enumDofs1 cells nNodes bNodes)).grad c i (node ℝ t k) z =
      ∑ w ∈ Finset.range N, refGrad ℝ N 1 (N + 1) ⟨i, hi'⟩ (node ℝ t k) w * invAt (cellOf N cells X c) w z := dif_pos hi'
    change r.Err _ _ ((meshProb N 1 (N + 1) t op cells n X (enumDofs1 cells nNodes bNodes)).grad c i (node ℝ t k) z) _
    rw [e]
    refine err_size h1 (le_of_eq ?_)
    rw [Finset.sum_const, Finset.card_range, nsmul_eq_mul, one_mul]

/-- Hadamard's inequality for three vectors of space. -/
theorem det3_sq (G : Matrix (Fin 3) (Fin 3) ℝ) : G.det ^ 2 ≤ (∑ z, G 0 z ^ 2) * (∑ z, G 1 z ^ 2) * (∑ z, G 2 z ^ 2) := by
  rw [Matrix.det_fin_three]
  simp only [Fin.sum_univ_three]
  generalize G 0 0 = a0; generalize G 0 1 = a1; generalize G 0 2 = a2
  generalize G 1 0 = b0; generalize G 1 1 = b1; generalize G 1 2 = b2
  generalize G 2 0 = c0; generalize G 2 1 = c1; generalize G 2 2 = c2
  have h1 : (a0 * (b1 * c2 - b2 * c1) + a1 * (b2 * c0 - b0 * c2) + a2 * (b0 * c1 - b1 * c0)) ^ 2 ≤
      (a0 ^ 2 + a1 ^ 2 + a2 ^ 2) * ((b1 * c2 - b2 * c1) ^ 2 + (b2 * c0 - b0 * c2) ^ 2 + (b0 * c1 - b1 * c0) ^ 2) := by
    generalize b1 * c2 - b2 * c1 = x; generalize b2 * c0 - b0 * c2 = y; generalize b0 * c1 - b1 * c0 = z
    have := sq_nonneg (a0 * y - a1 * x)
    have := sq_nonneg (a0 * z - a2 * x)
    have := sq_nonneg (a1 * z - a2 * y)
    linarith
  have h2 : (b1 * c2 - b2 * c1) ^ 2 + (b2 * c0 - b0 * c2) ^ 2 + (b0 * c1 - b1 * c0) ^ 2 ≤ (b0 ^ 2 + b1 ^ 2 + b2 ^ 2) * (c0 ^ 2 + c1 ^ 2 + c2 ^ 2) := by
    have := sq_nonneg (b0 * c0 + b1 * c1 + b2 * c2)
    linarith
  calc _ = (a0 * (b1 * c2 - b2 * c1) + a1 * (b2 * c0 - b0 * c2) + a2 * (b0 * c1 - b1 * c0)) ^ 2 := by ring
    _ ≤ _ := h1
    _ ≤ (a0 ^ 2 + a1 ^ 2 + a2 ^ 2) * ((b0 ^ 2 + b1 ^ 2 + b2 ^ 2) * (c0 ^ 2 + c1 ^ 2 + c2 ^ 2)) := mul_le_mul_of_nonneg_left h2 (by positivity)
    _ = _ := by ring

/-- The cofactors in cyclic order are the entries of the adjugate. -/
theorem adjugate_cof (M : Matrix (Fin 3) (Fin 3) ℝ) (w z : Fin 3) :
    M.adjugate w z = M (z + 1) (w + 1) * M (z + 2) (w + 2) - M (z + 1) (w + 2) * M (z + 2) (w + 1) := by
  rw [Matrix.adjugate_fin_three]
  fin_cases w <;> fin_cases z <;> simp <;> ring

theorem tet_shape {M G : Matrix (Fin 3) (Fin 3) ℝ} {hh ρ : ℝ} (hρ : 0 < ρ) (hG : G * M = 1) (g : ∀ w, ∑ z, G w z ^ 2 ≤ 1 / ρ ^ 2)
    (e : ∀ w, ∑ z, M z w ^ 2 ≤ hh ^ 2) (hh0 : 0 ≤ hh) :
    M.det ≠ 0 ∧ ρ ^ 3 ≤ |M.det| ∧ 1 ≤ hh / ρ ∧ ∀ w z, G w z = M.adjugate w z / M.det := by
  have hd : G.det * M.det = 1 := by rw [← Matrix.det_mul, hG, Matrix.det_one]
  have hD : M.det ≠ 0 := fun h => by rw [h, mul_zero] at hd; exact zero_ne_one hd
  have hp : 0 < |M.det| := abs_pos.2 hD
  have g0 : ∀ w, 0 ≤ ∑ z, G w z ^ 2 := fun w => Finset.sum_nonneg fun z _ => sq_nonneg _
  have h1 : G.det ^ 2 ≤ (1 / ρ ^ 3) ^ 2 := by
    refine (det3_sq G).trans ?_
    calc _ ≤ 1 / ρ ^ 2 * (1 / ρ ^ 2) * (1 / ρ ^ 2) := mul_le_mul (mul_le_mul (g 0) (g 1) (g0 1) (by positivity)) (g 2) (g0 2) (by positivity)
      _ = _ := by ring
  have h2 : |G.det| ≤ 1 / ρ ^ 3 := abs_le_of_sq_le_sq h1 (by positivity)
  have h3 : ρ ^ 3 ≤ |M.det| := by
    have h4 : |G.det| * |M.det| = 1 := by rw [← abs_mul, hd, abs_one]
    have h5 : 1 ≤ 1 / ρ ^ 3 * |M.det| := (le_of_eq h4.symm).trans (mul_le_mul_of_nonneg_right h2 hp.le)
    rwa [one_div, le_inv_mul_iff₀ (by positivity), mul_one] at h5
  refine ⟨hD, h3, ?_, fun w z => ?_⟩
  · have e0 : ∀ w, 0 ≤ ∑ z, Mᵀ w z ^ 2 := fun w => Finset.sum_nonneg fun z _ => sq_nonneg _
    have h4 : M.det ^ 2 ≤ (hh ^ 3) ^ 2 := by
      rw [← Matrix.det_transpose]
      refine (det3_sq _).trans ?_
      calc _ ≤ hh ^ 2 * hh ^ 2 * hh ^ 2 := mul_le_mul (mul_le_mul (e 0) (e 1) (e0 1) (by positivity)) (e 2) (e0 2) (by positivity)
        _ = _ := by ring
    have h5 : |M.det| ≤ hh ^ 3 := abs_le_of_sq_le_sq h4 (by positivity)
    rw [one_le_div₀ hρ]
    exact le_of_pow_le_pow_left₀ (by decide) hh0 (h3.trans h5)
  · have h4 : M.det • G = M.adjugate := by
      have := congrArg (fun A => G * A) (Matrix.mul_adjugate M)
      simp only [← Matrix.mul_assoc, hG, Matrix.one_mul, Matrix.mul_smul, Matrix.mul_one] at this
      exact this.symm
    rw [← h4, Matrix.smul_apply, smul_eq_mul, mul_div_cancel_left₀ _ hD]

/-- Sizes of the terms of a cofactor. -/
theorem cof_size {a b c d h : ℝ} (h1 : a ^ 2 + c ^ 2 ≤ h ^ 2) (h2 : b ^ 2 + d ^ 2 ≤ h ^ 2) : |a| * |d| + |b| * |c| ≤ h ^ 2 := by
  rw [← sq_abs a, ← sq_abs c] at h1
  rw [← sq_abs b, ← sq_abs d] at h2
  nlinarith [sq_nonneg (|a| - |d|), sq_nonneg (|b| - |c|)]

theorem tet_data {M M' : Matrix (Fin 3) (Fin 3) ℝ} {hh ρ : ℝ} (hρ : 0 < ρ) (hh0 : 0 ≤ hh) (hM : ∀ z w, r.Err 1 |M z w| (M z w) (M' z w)) (hD : M.det ≠ 0)
    (hd : ρ ^ 3 ≤ |M.det|) (hr : 1 ≤ hh / ρ) (e : ∀ w, ∑ z, M z w ^ 2 ≤ hh ^ 2) (hs : (r.b ^ 9 - 1) * (2 * (hh / ρ) ^ 3) ≤ 1 / 2) (hS : r.Summation S) :
    r.Err 10 (3 * (hh / ρ) ^ 3 * (|M.det| / 6)) (|M.det| / 6)
        (r.rnd (|r.rnd (r.rnd (det3TermR r M' 0 1 2 - det3TermR r M' 1 0 2) + det3TermR r M' 2 0 1)| / 6)) ∧
      ∀ w z, r.Err 15 (4 * hh ^ 5 / ρ ^ 6) (M.adjugate w z / M.det) (inv3R r S M' w z) := by
  have hp : 0 < |M.det| := abs_pos.2 hD
  have hτ : 1 ≤ 2 * (hh / ρ) ^ 3 := by
    have := one_le_pow₀ hr (n := 3)
    linarith
  have two : ∀ z z' w, z ≠ z' → M z w ^ 2 + M z' w ^ 2 ≤ hh ^ 2 := fun z z' w hz => by
    refine le_trans ?_ (e w)
    rw [← Finset.sum_pair (f := fun z => M z w ^ 2) hz]
    exact Finset.sum_le_sum_of_subset_of_nonneg (Finset.subset_univ _) fun _ _ _ => sq_nonneg _
  have minor : ∀ z z' w w', z ≠ z' → r.Err 4 (hh ^ 2) (M z w * M z' w' - M z w' * M z' w) (r.rnd (r.rnd (M' z w * M' z' w') - r.rnd (M' z w' * M' z' w))) :=
    fun z z' w w' hz => by
    have hx : r.Err 3 (|M z w| * |M z' w'|) (M z w * M z' w') (r.rnd (M' z w * M' z' w')) := ((hM z w).mul (hM z' w')).rnd
    have hy : r.Err 3 (|M z w'| * |M z' w|) (M z w' * M z' w) (r.rnd (M' z w' * M' z' w)) := ((hM z w').mul (hM z' w)).rnd
    refine err_size (hx.sub hy).rnd ?_
    exact cof_size (two z z' w hz) (two z z' w' hz)
  have col : ∀ w, |M 0 w| + |M 1 w| + |M 2 w| ≤ 2 * hh := fun w => by
    have h1 := e w
    rw [Fin.sum_univ_three, ← sq_abs (M 0 w), ← sq_abs (M 1 w), ← sq_abs (M 2 w)] at h1
    refine abs_le_of_sq_le_sq' ?_ (by positivity) |>.2
    nlinarith [sq_nonneg (|M 0 w| - |M 1 w|), sq_nonneg (|M 1 w| - |M 2 w|), sq_nonneg (|M 0 w| - |M 2 w|)]
  have hcube : 2 * hh * hh ^ 2 ≤ 2 * (hh / ρ) ^ 3 * |M.det| := by
    rw [div_pow]
    calc 2 * hh * hh ^ 2 = 2 * (hh ^ 3 / ρ ^ 3) * ρ ^ 3 := by field_simp
      _ ≤ _ := mul_le_mul_of_nonneg_left hd (by positivity)
  have cof : ∀ z w, r.Err 4 (hh ^ 2) (M.adjugate w z) (cof3R r M' z w) := fun z w => by
    rw [adjugate_cof]
    exact minor (z + 1) (z + 2) (w + 1) (w + 2) (by fin_cases z <;> decide)
  have one : ∀ z w, |M z w| ≤ hh := fun z w => by
    refine abs_le_of_sq_le_sq (le_trans ?_ (e w)) hh0
    exact Finset.single_le_sum (f := fun z => M z w ^ 2) (fun _ _ => sq_nonneg _) (Finset.mem_univ z)
  constructor
  · have term : ∀ a b c, r.Err 6 (hh * hh ^ 2) (M 0 a * (M 1 b * M 2 c - M 1 c * M 2 b)) (det3TermR r M' a b c) := fun a b c =>
      err_size ((hM 0 a).mul (minor 1 2 b c (by decide))).rnd (mul_le_mul_of_nonneg_right (one 0 a) (by positivity))
    have h1 := ((((term 0 1 2).sub (term 1 0 2)).rnd).add ((term 2 0 1).mono (by decide : 6 ≤ 7))).rnd
    have eD : M 0 0 * (M 1 1 * M 2 2 - M 1 2 * M 2 1) - M 0 1 * (M 1 0 * M 2 2 - M 1 2 * M 2 0) + M 0 2 * (M 1 0 * M 2 1 - M 1 1 * M 2 0) = M.det := by
      rw [Matrix.det_fin_three]; ring
    rw [eD] at h1
    have h3 : hh * hh ^ 2 + hh * hh ^ 2 + hh * hh ^ 2 ≤ 3 * (hh / ρ) ^ 3 * |M.det| := by linarith
    have kD := err_size h1 h3
    have h4 : r.Err 8 (3 * (hh / ρ) ^ 3 * (|M.det| / 6)) (|M.det| / 6)
        (|r.rnd (r.rnd (det3TermR r M' 0 1 2 - det3TermR r M' 1 0 2) + det3TermR r M' 2 0 1)| / 6) := by
      have h5 := (abs_abs_sub_abs_le_abs_sub (r.rnd (r.rnd (det3TermR r M' 0 1 2 - det3TermR r M' 1 0 2) + det3TermR r M' 2 0 1)) M.det).trans kD.2
      have h6 := kD.1
      constructor
      · rw [abs_div, abs_abs, show |(6 : ℝ)| = 6 by norm_num]; linarith
      · rw [← sub_div, abs_div, show |(6 : ℝ)| = 6 by norm_num]; linarith
    exact h4.rnd.mono (by decide)
  · intro w z
    have kD : r.Err 9 (2 * (hh / ρ) ^ 3 * |M.det|) M.det (S ((List.finRange 3).map fun i => r.rnd (cof3R r M' i 0 * M' i 0))) := by
      have h1 := (hS ((List.finRange 3).map fun i => r.rnd (cof3R r M' i 0 * M' i 0))).sum (m := fun i => hh ^ 2 * |M i 0|)
        (x := fun i => M.adjugate 0 i * M i 0) (k := 6) fun i _ => ((cof i 0).mul (hM i 0)).rnd
      rw [List.finRange_succ] at h1
      simp only [List.finRange_succ, List.finRange_zero, List.map_cons, List.map_nil, List.sum_cons, List.sum_nil, List.length_cons, List.length_nil, add_zero] at h1 ⊢
      have eD : M.adjugate 0 0 * M 0 0 + (M.adjugate 0 (Fin.succ 0) * M (Fin.succ 0) 0 + M.adjugate 0 (Fin.succ (Fin.succ 0)) * M (Fin.succ (Fin.succ 0)) 0) = M.det := by
        have h2 := congrFun (congrFun (Matrix.adjugate_mul M) 0) 0
        rw [Matrix.mul_apply, Fin.sum_univ_three, Matrix.smul_apply, Matrix.one_apply_eq, smul_eq_mul, mul_one] at h2
        rw [← h2]
        simp only [Fin.succ_zero_eq_one, Fin.succ_one_eq_two]
        ring
      rw [eD] at h1
      refine err_size h1 (le_trans ?_ hcube)
      have h3 := mul_le_mul_of_nonneg_right (col 0) (sq_nonneg hh)
      simp only [Fin.succ_zero_eq_one, Fin.succ_one_eq_two]
      linarith
    have kq := (recip_err hD hτ kD.2 hs).rnd
    have h2 := ((cof z w).mul kq).rnd
    rw [mul_one_div] at h2
    refine err_size h2 ?_
    calc hh ^ 2 * (2 * (2 * (hh / ρ) ^ 3) / |M.det|) ≤ hh ^ 2 * (2 * (2 * (hh / ρ) ^ 3) / ρ ^ 3) :=
          mul_le_mul_of_nonneg_left (div_le_div_of_nonneg_left (by positivity) (by positivity) hd) (by positivity)
      _ = _ := by field_simp; ring

theorem tet_cell {n nNodes : Nat} {cells : Nat → Nat → Nat} {X : Nat → Fin 3 → ℝ} {t : Table} (ht : standardRule 3 1 = some t) (op : Op ℝ) (bNodes : Nat → Bool)
    (hp : Proper 4 n cells X) {hh ρ : ℝ} (hs : MeshShape n cells X hh ρ) (hρ : 0 < ρ) (hsm : (r.b ^ 9 - 1) * (2 * (hh / ρ) ^ 3) ≤ 1 / 2) (hS : r.Summation S)
    {c : Nat} (hc : c < n) :
    r.Err 15 (3 * (hh / ρ) ^ 3 * (meshProb 3 1 4 t op cells n X (enumDofs1 cells nNodes bNodes)).measure c)
        ((meshProb 3 1 4 t op cells n X (enumDofs1 cells nNodes bNodes)).measure c) (measure3R r (cellOf 3 cells X c)) ∧
      ∀ w < 3, ∀ z < 3, r.Err 15 (4 * hh ^ 5 / ρ ^ 6) (invAt (cellOf 3 cells X c) w z) (inv3AtR r S (cellOf 3 cells X c) w z) := by
  have hO := mesh_onNodes (nNodes := nNodes) (N := 3) (by decide) ht op hp bNodes
  have hsh := exact_shape (t := t) (nNodes := nNodes) op bNodes hρ hs
  have inv := fun w hw w' hw' => hO.lagrange.inv c hc w hw w' hw'
  have hg := fun i hi => grad_height hO hsh hρ (c := c) (i := i) hc hi
  have hh0 : 0 ≤ hh := (len_nonneg _).trans (hs.diam c hc 0 (by decide) 0 (by decide))
  have hme := hO.measure c hc
  have nz : ∀ p (z : Fin 3), natX X p z = X p z := fun p z => dif_pos z.2
  set M : Matrix (Fin 3) (Fin 3) ℝ := Matrix.of fun z w => X (cells c (w + 1)) z - X (cells c 0) z with hM
  set G : Matrix (Fin 3) (Fin 3) ℝ := Matrix.of fun w z => invAt (cellOf 3 cells X c) w z with hG
  have hGM : G * M = 1 := by
    ext w w'
    rw [Matrix.mul_apply, Matrix.one_apply]
    have h1 : ∑ z ∈ Finset.range 3, invAt (cellOf 3 cells X c) w z * (natX X (cells c (w' + 1)) z - natX X (cells c 0) z) = if (w : Nat) = w' then 1 else 0 :=
      inv w w.2 w' w'.2
    rw [← Fin.sum_univ_eq_sum_range (fun z => invAt (cellOf 3 cells X c) w z * (natX X (cells c (w' + 1)) z - natX X (cells c 0) z))] at h1
    simp only [nz, Fin.val_inj] at h1
    exact h1
  have hg' : ∀ w, ∑ z, G w z ^ 2 ≤ 1 / ρ ^ 2 := by
    intro w
    have h1 : ∑ z : Fin 3, locGrad 3 (fun c => invAt (cellOf 3 cells X c)) c (w + 1) z ^ 2 ≤ 1 / ρ ^ 2 := hg (w + 1) (show w.1 + 1 < 4 by omega)
    rw [Fin.sum_univ_three] at h1 ⊢
    fin_cases w <;> simpa [locGrad, Finset.sum_range_succ, hG] using h1
  have he : ∀ w, ∑ z, M z w ^ 2 ≤ hh ^ 2 := by
    intro w
    have h1 : ∑ z : Fin 3, (natX X (cells c (w + 1)) z - natX X (cells c 0) z) ^ 2 ≤ hh ^ 2 :=
      hsh.diam c hc (w + 1) (show w.1 + 1 < 4 by omega) 0 (show 0 < 4 by decide)
    simp only [nz] at h1
    exact h1
  obtain ⟨hD, hd, hr, ei⟩ := tet_shape hρ hGM hg' he hh0
  obtain ⟨d1, d2⟩ := tet_data (r := r) (S := S) (M := M) (M' := (cellOf 3 cells X c).JR r) hρ hh0 (fun z w => (Rounding.Err.exact _).rnd) hD hd hr he hsm hS
  refine ⟨?_, fun w hw z hz => ?_⟩
  · have hm : (meshProb 3 1 4 t op cells n X (enumDofs1 cells nNodes bNodes)).measure c = |M.det| / 6 := by
      rw [hme]
      have h1 : (Matrix.of fun z w : Fin 3 => natX X (cells c (w + 1)) z - natX X (cells c 0) z) = M := by
        ext z w; simp only [hM, Matrix.of_apply, nz]
      rw [← h1]
      norm_num [Nat.factorial]
      rfl
    rw [hm]
    exact d1.mono (by decide)
  · have := d2 ⟨w, hw⟩ ⟨z, hz⟩
    rw [← ei] at this
    rw [show inv3AtR r S (cellOf 3 cells X c) w z = inv3R r S ((cellOf 3 cells X c).JR r) ⟨w, hw⟩ ⟨z, hz⟩ from dif_pos ⟨hw, hz⟩]
    exact this

/-- C151 : on a mesh of tetrahedra with edges not longer than `hh` and heights not shorter than `ρ`, the measures and the gradients that the program computes from
the coordinates, with the values that it has of the reference basis, satisfy what the error bounds of the assembly and of the solves ask. -/
theorem C151_tetrahedra {n nNodes : Nat} {cells : Nat → Nat → Nat} {X : Nat → Fin 3 → ℝ} (op : Op ℝ) (bNodes : Nat → Bool)
    (hp : Proper 4 n cells X) {hh ρ : ℝ} (hs : MeshShape n cells X hh ρ) (hρ : 0 < ρ) (hsm : (r.b ^ 9 - 1) * (2 * (hh / ρ) ^ 3) ≤ 1 / 2) (hS : r.Summation S)
    {kb : Nat} {ps : Nat → (Nat → ℝ) → ℝ} {dps : Nat → (Nat → ℝ) → Nat → ℝ} :
    ∃ P, problem1 3 op cells n nNodes X bNodes = .ok P ∧
      ((∀ i : Fin 4, ∀ k < size P.t, |ps i (node ℝ P.t k) - refBasis ℝ 3 1 4 i (node ℝ P.t k)| ≤ r.b ^ kb - 1) →
      (∀ i : Fin 4, ∀ k < size P.t, ∀ w < 3, |dps i (node ℝ P.t k) w - refGrad ℝ 3 1 4 i (node ℝ P.t k) w| ≤ r.b ^ kb - 1) →
      P.Computed r (kb + 19) (3 * (hh / ρ) ^ 3) (12 * hh ^ 5 / ρ ^ 6) (fun c => measure3R r (cellOf 3 cells X c)) ps
        fun c i => gradOfR r S 3 (inv3AtR r S (cellOf 3 cells X c)) dps i) := by
  obtain ⟨t, ht⟩ := rule1 (d := 3) (by decide)
  refine ⟨meshProb 3 1 4 t op cells n X (enumDofs1 cells nNodes bNodes), by rw [problem1, ht]; rfl, fun hps hdp => ?_⟩
  have h1 := cells_computed (N := 3) (nNodes := nNodes) (by decide) op bNodes hp hS ht (fun c hc => (tet_cell (nNodes := nNodes) ht op bNodes hp hs hρ hsm hS hc).1)
    (fun c hc w hw z hz => (tet_cell (nNodes := nNodes) ht op bNodes hp hs hρ hsm hS hc).2 w hw z hz) hps hdp
  rw [show ((3 : Nat) : ℝ) * (4 * hh ^ 5 / ρ ^ 6) = 12 * hh ^ 5 / ρ ^ 6 by push_cast; ring] at h1
  exact h1

theorem int_cell {n nNodes : Nat} {cells : Nat → Nat → Nat} {X : Nat → Fin 1 → ℝ} {t : Table} (ht : standardRule 1 1 = some t) (op : Op ℝ) (bNodes : Nat → Bool)
    (hp : Proper 2 n cells X) {hh ρ : ℝ} (hs : MeshShape n cells X hh ρ) (hρ : 0 < ρ) (hsm : r.b - 1 ≤ 1 / 2) {c : Nat} (hc : c < n) :
    r.Err 2 (1 * (meshProb 1 1 2 t op cells n X (enumDofs1 cells nNodes bNodes)).measure c)
        ((meshProb 1 1 2 t op cells n X (enumDofs1 cells nNodes bNodes)).measure c) (measure1R r (cellOf 1 cells X c)) ∧
      ∀ w < 1, ∀ z < 1, r.Err 2 (2 / ρ) (invAt (cellOf 1 cells X c) w z) (inv1AtR r (cellOf 1 cells X c) w z) := by
  have hO := mesh_onNodes (nNodes := nNodes) (N := 1) (by decide) ht op hp bNodes
  have hsh := exact_shape (t := t) (nNodes := nNodes) op bNodes hρ hs
  have inv := hO.lagrange.inv c hc 0 (show 0 < 1 by decide) 0 (show 0 < 1 by decide)
  have hg := grad_height hO hsh hρ (c := c) (i := 1) hc (show 1 < 2 by decide)
  have hme := hO.measure c hc
  have nz : ∀ p, natX X p 0 = X p 0 := fun p => dif_pos (by decide)
  set a := X (cells c 1) 0 - X (cells c 0) 0 with ha
  have h1 : invAt (cellOf 1 cells X c) 0 0 * a = 1 := by
    have h2 : ∑ z ∈ Finset.range 1, invAt (cellOf 1 cells X c) 0 z * (natX X (cells c (0 + 1)) z - natX X (cells c 0) z) = if 0 = 0 then 1 else 0 := inv
    rw [Finset.sum_range_one, nz, nz] at h2
    simpa using h2
  have h0 : a ≠ 0 := right_ne_zero_of_mul_eq_one h1
  have hp0 : 0 < |a| := abs_pos.2 h0
  have e1 : invAt (cellOf 1 cells X c) 0 0 = 1 / a := eq_one_div_of_mul_eq_one_left h1
  have hρa : ρ ≤ |a| := by
    have h2 : ∑ z : Fin 1, locGrad 1 (fun c => invAt (cellOf 1 cells X c)) c 1 z ^ 2 ≤ 1 / ρ ^ 2 := hg
    have h3 : invAt (cellOf 1 cells X c) 0 0 ^ 2 ≤ 1 / ρ ^ 2 := by simpa [locGrad] using h2
    rw [e1, div_pow, one_pow, one_div_le_one_div (by positivity) (by positivity)] at h3
    have h4 := sq_le_sq.1 h3
    rwa [abs_of_pos hρ] at h4
  have hJ : r.Err 1 |a| a ((cellOf 1 cells X c).JR r 0 0) := (Rounding.Err.exact _).rnd
  refine ⟨?_, fun w hw z hz => ?_⟩
  · have hm : (meshProb 1 1 2 t op cells n X (enumDofs1 cells nNodes bNodes)).measure c = |a| := by
      rw [hme]
      have h1 : (Matrix.of fun z w : Fin 1 => natX X (cells c (w + 1)) z - natX X (cells c 0) z).det = a := by
        rw [Matrix.det_fin_one]; simp only [Matrix.of_apply, Fin.val_zero, nz]; rfl
      show |(Matrix.of fun z w : Fin 1 => natX X (cells c (w + 1)) z - natX X (cells c 0) z).det| / ((Nat.factorial 1 : Nat) : ℝ) = |a|
      rw [h1, Nat.factorial_one, Nat.cast_one, div_one]
    rw [hm, one_mul]
    have h2 : r.Err 1 |a| |a| (|(cellOf 1 cells X c).JR r 0 0| / 1) := by
      rw [div_one]
      exact ⟨by rw [abs_abs], (abs_abs_sub_abs_le_abs_sub _ _).trans hJ.2⟩
    exact h2.rnd
  · obtain rfl : w = 0 := by omega
    obtain rfl : z = 0 := by omega
    rw [e1]
    have h2 := (recip_err (r := r) (k := 1) (τ := 1) h0 le_rfl (by rw [one_mul]; exact hJ.2) (by rw [pow_one, mul_one]; exact hsm)).rnd
    rw [mul_one] at h2
    rw [show inv1AtR r (cellOf 1 cells X c) 0 0 = r.rnd (1 / (cellOf 1 cells X c).JR r 0 0) from if_pos ⟨by decide, by decide⟩]
    exact err_size h2 (div_le_div_of_nonneg_left (by norm_num) hρ hρa)

/-- C151 : the same for a mesh of intervals of the line. -/
theorem C151_intervals {n nNodes : Nat} {cells : Nat → Nat → Nat} {X : Nat → Fin 1 → ℝ} (op : Op ℝ) (bNodes : Nat → Bool)
    (hp : Proper 2 n cells X) {hh ρ : ℝ} (hs : MeshShape n cells X hh ρ) (hρ : 0 < ρ) (hsm : r.b - 1 ≤ 1 / 2) (hS : r.Summation S)
    {kb : Nat} {ps : Nat → (Nat → ℝ) → ℝ} {dps : Nat → (Nat → ℝ) → Nat → ℝ} :
    ∃ P, problem1 1 op cells n nNodes X bNodes = .ok P ∧
      ((∀ i : Fin 2, ∀ k < size P.t, |ps i (node ℝ P.t k) - refBasis ℝ 1 1 2 i (node ℝ P.t k)| ≤ r.b ^ kb - 1) →
      (∀ i : Fin 2, ∀ k < size P.t, ∀ w < 1, |dps i (node ℝ P.t k) w - refGrad ℝ 1 1 2 i (node ℝ P.t k) w| ≤ r.b ^ kb - 1) →
      P.Computed r (kb + 4) 1 (2 / ρ) (fun c => measure1R r (cellOf 1 cells X c)) ps fun c i => gradOfR r S 1 (inv1AtR r (cellOf 1 cells X c)) dps i) := by
  obtain ⟨t, ht⟩ := rule1 (d := 1) (by decide)
  refine ⟨meshProb 1 1 2 t op cells n X (enumDofs1 cells nNodes bNodes), by rw [problem1, ht]; rfl, fun hps hdp => ?_⟩
  have h1 := cells_computed (N := 1) (nNodes := nNodes) (by decide) op bNodes hp hS ht (fun c hc => (int_cell (nNodes := nNodes) ht op bNodes hp hs hρ hsm hc).1)
    (fun c hc w hw z hz => (int_cell (nNodes := nNodes) ht op bNodes hp hs hρ hsm hc).2 w hw z hz) hps hdp
  rw [show ((1 : Nat) : ℝ) * (2 / ρ) = 2 / ρ by push_cast; ring] at h1
  exact h1

end
end Fdapde.PDE
