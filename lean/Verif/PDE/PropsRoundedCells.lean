import Verif.PDE.PropsRounded
import Verif.PDE.FloatCells
import Verif.PDE.PropsHeat
import Verif.PDE.PropsQuadratic
set_option linter.unusedSectionVars false
/-!
# C151: data of the cells in double precision, triangles in the plane
-/
namespace Fdapde.PDE
open Fdapde.Quadrature MeasureTheory Matrix Fdapde.Geometry Fdapde.FEM Fdapde.Fp Fdapde.Triang
noncomputable section
variable {r : Rounding} {S : List ℝ → ℝ}

/-- The reciprocal of a determinant. -/
theorem recip_err {D D' τ : ℝ} {k : Nat} (hD : D ≠ 0) (hτ : 1 ≤ τ) (h : |D' - D| ≤ (r.b ^ k - 1) * (τ * |D|)) (hs : (r.b ^ k - 1) * τ ≤ 1 / 2) :
    r.Err k (2 * τ / |D|) (1 / D) (1 / D') := by
  have hp : 0 < |D| := abs_pos.2 hD
  have h1 : |D| / 2 ≤ |D'| := by
    have i1 := abs_sub_abs_le_abs_sub D D'
    rw [abs_sub_comm] at i1
    have i2 := mul_le_mul_of_nonneg_right hs hp.le
    have i3 : (r.b ^ k - 1) * (τ * |D|) = (r.b ^ k - 1) * τ * |D| := by ring
    linarith
  have hp' : 0 < |D'| := by linarith
  have hD' : D' ≠ 0 := abs_pos.1 hp'
  constructor
  · rw [abs_div, abs_one]
    exact div_le_div_of_nonneg_right (by linarith) hp.le
  · have e : 1 / D' - 1 / D = (D - D') / (D * D') := by field_simp
    rw [e, abs_div, abs_mul, abs_sub_comm, div_le_iff₀ (mul_pos hp hp')]
    have hb : 0 ≤ r.b ^ k - 1 := sub_nonneg.2 (one_le_pow₀ r.one_le_b)
    calc |D' - D| ≤ (r.b ^ k - 1) * (τ * |D|) := h
      _ = (r.b ^ k - 1) * (2 * τ * (|D| / 2)) := by ring
      _ ≤ (r.b ^ k - 1) * (2 * τ * |D'|) := mul_le_mul_of_nonneg_left (mul_le_mul_of_nonneg_left h1 (by linarith)) hb
      _ = _ := by field_simp

/-- Determinant, measure and inverse of a triangle with sides `(a, b)` and `(c, d)`. -/
theorem tri_data {a b c d a' b' c' d' D' q τ s : ℝ} (ha : r.Err 1 |a| a a') (hb : r.Err 1 |b| b b') (hc : r.Err 1 |c| c c') (hd : r.Err 1 |d| d d')
    (eD : D' = r.rnd (r.rnd (a' * d') - r.rnd (b' * c'))) (eq : q = r.rnd (1 / D')) (hD : a * d - b * c ≠ 0) (hτ : 1 ≤ τ)
    (hΘ : |a| * |d| + |b| * |c| ≤ τ * |a * d - b * c|) (hs : (r.b ^ 4 - 1) * τ ≤ 1 / 2) (sa : |a| ≤ s * |a * d - b * c|) (sb : |b| ≤ s * |a * d - b * c|)
    (sc : |c| ≤ s * |a * d - b * c|) (sd : |d| ≤ s * |a * d - b * c|) :
    r.Err 5 (τ * (|a * d - b * c| / 2)) (|a * d - b * c| / 2) (r.rnd (|D'| / 2)) ∧
      r.Err 7 (2 * τ * s) (d / (a * d - b * c)) (r.rnd (d' * q)) ∧ r.Err 7 (2 * τ * s) (-c / (a * d - b * c)) (r.rnd (-c' * q)) ∧
      r.Err 7 (2 * τ * s) (-b / (a * d - b * c)) (r.rnd (-b' * q)) ∧ r.Err 7 (2 * τ * s) (a / (a * d - b * c)) (r.rnd (a' * q)) := by
  set D := a * d - b * c with hDd
  have hp : 0 < |D| := abs_pos.2 hD
  have kD : r.Err 4 (τ * |D|) D D' := by
    rw [eD]
    have hx : r.Err 3 (|a| * |d|) (a * d) (r.rnd (a' * d')) := (ha.mul hd).rnd
    have hy : r.Err 3 (|b| * |c|) (b * c) (r.rnd (b' * c')) := (hb.mul hc).rnd
    exact err_size (hx.sub hy).rnd hΘ
  have kq : r.Err 5 (2 * τ / |D|) (1 / D) q := by rw [eq]; exact (recip_err hD hτ kD.2 hs).rnd
  have key : ∀ {m x x' : ℝ}, r.Err 1 m x x' → m ≤ s * |D| → r.Err 7 (2 * τ * s) (x / D) (r.rnd (x' * q)) := by
    intro m x x' hx hxs
    have h1 := (hx.mul kq).rnd
    rw [mul_one_div] at h1
    refine err_size h1 ?_
    calc m * (2 * τ / |D|) ≤ s * |D| * (2 * τ / |D|) := mul_le_mul_of_nonneg_right hxs (by positivity)
      _ = _ := by field_simp
  refine ⟨?_, key hd sd, ?_, ?_, key ha sa⟩
  · have h1 : r.Err 4 (τ * |D|) |D| |D'| := ⟨by rw [abs_abs]; exact kD.1, (abs_abs_sub_abs_le_abs_sub _ _).trans kD.2⟩
    have h2 : r.Err 4 (τ * (|D| / 2)) (|D| / 2) (|D'| / 2) := by
      constructor
      · rw [abs_div, abs_two]; have := h1.1; linarith
      · rw [← sub_div, abs_div, abs_two]; have := h1.2; linarith
    exact h2.rnd
  · exact key hc.neg sc
  · exact key hb.neg sb

theorem tri_shape {a b c d i00 i01 i10 i11 hh ρ : ℝ} (hρ : 0 < ρ) (e1 : i00 * a + i01 * b = 1) (e2 : i00 * c + i01 * d = 0) (e3 : i10 * a + i11 * b = 0)
    (e4 : i10 * c + i11 * d = 1) (g1 : i00 ^ 2 + i01 ^ 2 ≤ 1 / ρ ^ 2) (g2 : i10 ^ 2 + i11 ^ 2 ≤ 1 / ρ ^ 2) (hs : a ^ 2 + b ^ 2 ≤ hh ^ 2) (hh0 : 0 ≤ hh) :
    a * d - b * c ≠ 0 ∧ i00 = d / (a * d - b * c) ∧ i01 = -c / (a * d - b * c) ∧ i10 = -b / (a * d - b * c) ∧ i11 = a / (a * d - b * c) ∧ 1 ≤ hh / ρ ∧
      |a| * |d| + |b| * |c| ≤ hh / ρ * |a * d - b * c| ∧ |a| ≤ 1 / ρ * |a * d - b * c| ∧ |b| ≤ 1 / ρ * |a * d - b * c| ∧
      |c| ≤ 1 / ρ * |a * d - b * c| ∧ |d| ≤ 1 / ρ * |a * d - b * c| := by
  set D := a * d - b * c with hDd
  have hdet : (i00 * i11 - i01 * i10) * D = 1 := by
    have : (i00 * a + i01 * b) * (i10 * c + i11 * d) - (i00 * c + i01 * d) * (i10 * a + i11 * b) = (i00 * i11 - i01 * i10) * D := by rw [hDd]; ring
    rw [← this, e1, e2, e3, e4]; ring
  have hD : D ≠ 0 := fun h => by rw [h, mul_zero] at hdet; exact zero_ne_one hdet
  have hp : 0 < |D| := abs_pos.2 hD
  have m00 : i00 * D = d := by rw [hDd]; linear_combination d * e1 - b * e2
  have m01 : i01 * D = -c := by rw [hDd]; linear_combination -c * e1 + a * e2
  have m10 : i10 * D = -b := by rw [hDd]; linear_combination d * e3 - b * e4
  have m11 : i11 * D = a := by rw [hDd]; linear_combination -c * e3 + a * e4
  have small : ∀ x y : ℝ, x ^ 2 + y ^ 2 ≤ 1 / ρ ^ 2 → |x| ≤ 1 / ρ := fun x y h => by
    refine abs_le_of_sq_le_sq ?_ (by positivity)
    rw [div_pow, one_pow]; have := sq_nonneg y; linarith
  have lift : ∀ i x : ℝ, |i * D| = |x| → |i| ≤ 1 / ρ → |x| ≤ 1 / ρ * |D| := fun i x h hi => by
    rw [← h, abs_mul]; exact mul_le_mul_of_nonneg_right hi hp.le
  have sa := lift i11 a (by rw [m11]) (small i11 i10 (by linarith))
  have sb := lift i10 b (by rw [m10, abs_neg]) (small i10 i11 g2)
  have sc := lift i01 c (by rw [m01, abs_neg]) (small i01 i00 (by linarith))
  have sd := lift i00 d (by rw [m00]) (small i00 i01 g1)
  have hΘ : |a| * |d| + |b| * |c| ≤ hh / ρ * |D| := by
    refine abs_le_of_sq_le_sq' ?_ (by positivity) |>.2
    have h1 : (|a| * |d| + |b| * |c|) ^ 2 ≤ (a ^ 2 + b ^ 2) * (c ^ 2 + d ^ 2) := by
      have : (a ^ 2 + b ^ 2) * (c ^ 2 + d ^ 2) - (|a| * |d| + |b| * |c|) ^ 2 = (|a| * |c| - |b| * |d|) ^ 2 := by
        rw [← sq_abs a, ← sq_abs b, ← sq_abs c, ← sq_abs d]; ring
      have := sq_nonneg (|a| * |c| - |b| * |d|)
      linarith
    have h2 : c ^ 2 + d ^ 2 ≤ 1 / ρ ^ 2 * D ^ 2 := by
      have : c ^ 2 + d ^ 2 = (i00 ^ 2 + i01 ^ 2) * D ^ 2 := by
        rw [show c ^ 2 = (i01 * D) ^ 2 by rw [m01]; ring, ← m00]; ring
      rw [this]; exact mul_le_mul_of_nonneg_right g1 (sq_nonneg _)
    calc _ ≤ (a ^ 2 + b ^ 2) * (c ^ 2 + d ^ 2) := h1
      _ ≤ hh ^ 2 * (1 / ρ ^ 2 * D ^ 2) := mul_le_mul hs h2 (by positivity) (by positivity)
      _ = _ := by rw [mul_pow, sq_abs, div_pow]; ring
  have hτ : 1 ≤ hh / ρ := by
    have h1 : |D| ≤ |a| * |d| + |b| * |c| := by
      rw [hDd]; refine (abs_sub _ _).trans ?_
      rw [abs_mul, abs_mul]
    have h2 : 1 * |D| ≤ hh / ρ * |D| := by rw [one_mul]; exact h1.trans hΘ
    exact le_of_mul_le_mul_right h2 hp
  exact ⟨hD, eq_div_of_mul_eq hD m00, eq_div_of_mul_eq hD m01, eq_div_of_mul_eq hD m10, eq_div_of_mul_eq hD m11, hτ, hΘ, sa, sb, sc, sd⟩

theorem tri_cell {n nNodes : Nat} {cells : Nat → Nat → Nat} {X : Nat → Fin 2 → ℝ} {t : Table} (ht : standardRule 2 1 = some t) (op : Op ℝ) (bNodes : Nat → Bool)
    (hp : Proper 3 n cells X) {hh ρ : ℝ} (hs : MeshShape n cells X hh ρ) (hρ : 0 < ρ) (hsm : (r.b ^ 4 - 1) * (hh / ρ) ≤ 1 / 2) {c : Nat} (hc : c < n) :
    r.Err 5 (hh / ρ * (meshProb 2 1 3 t op cells n X (enumDofs1 cells nNodes bNodes)).measure c)
        ((meshProb 2 1 3 t op cells n X (enumDofs1 cells nNodes bNodes)).measure c) (measureR r (cellOf 2 cells X c)) ∧
      ∀ w < 2, ∀ z < 2, r.Err 7 (2 * (hh / ρ) * (1 / ρ)) (invAt (cellOf 2 cells X c) w z) (invAtR r (cellOf 2 cells X c) w z) := by
  have hO := mesh_onNodes (nNodes := nNodes) (N := 2) (by decide) ht op hp bNodes
  have hsh := exact_shape (t := t) (nNodes := nNodes) op bNodes hρ hs
  have inv := fun w hw w' hw' => hO.lagrange.inv c hc w hw w' hw'
  have hg := fun i hi => grad_height hO hsh hρ (c := c) (i := i) hc hi
  have hd := hsh.diam c hc 1 (show 1 < 3 by decide) 0 (show 0 < 3 by decide)
  have hh0 : 0 ≤ hh := (len_nonneg _).trans (hs.diam c hc 0 (by decide) 0 (by decide))
  have hme := hO.measure c hc
  have n0 : ∀ p, natX X p 0 = X p 0 := fun p => dif_pos (by decide)
  have n1 : ∀ p, natX X p 1 = X p 1 := fun p => dif_pos (by decide)
  have key : ∀ w < 2, ∀ w' < 2, invAt (cellOf 2 cells X c) w 0 * (X (cells c (w' + 1)) 0 - X (cells c 0) 0) +
      invAt (cellOf 2 cells X c) w 1 * (X (cells c (w' + 1)) 1 - X (cells c 0) 1) = if w = w' then 1 else 0 := by
    intro w hw w' hw'
    have h1 : ∑ z ∈ Finset.range 2, invAt (cellOf 2 cells X c) w z * (natX X (cells c (w' + 1)) z - natX X (cells c 0) z) = if w = w' then 1 else 0 :=
      inv w hw w' hw'
    rw [Finset.sum_range_succ, Finset.sum_range_one, n0, n0, n1, n1] at h1
    exact h1
  have grad : ∀ w < 2, invAt (cellOf 2 cells X c) w 0 ^ 2 + invAt (cellOf 2 cells X c) w 1 ^ 2 ≤ 1 / ρ ^ 2 := by
    intro w hw
    have h1 : ∑ z : Fin 2, locGrad 2 (fun c => invAt (cellOf 2 cells X c)) c (w + 1) z ^ 2 ≤ 1 / ρ ^ 2 := hg (w + 1) (show w + 1 < 3 by omega)
    rw [Fin.sum_univ_two] at h1
    interval_cases w <;> simpa [locGrad, Finset.sum_range_succ] using h1
  have hd' : (X (cells c 1) 0 - X (cells c 0) 0) ^ 2 + (X (cells c 1) 1 - X (cells c 0) 1) ^ 2 ≤ hh ^ 2 := by
    have h1 : ∑ z : Fin 2, (natX X (cells c 1) z - natX X (cells c 0) z) ^ 2 ≤ hh ^ 2 := hd
    rw [Fin.sum_univ_two] at h1
    simpa only [Fin.val_zero, Fin.val_one, n0, n1] using h1
  obtain ⟨hD, q00, q01, q10, q11, hτ, hΘ, sa, sb, sc, sd⟩ := tri_shape hρ (key 0 (by decide) 0 (by decide)) (key 0 (by decide) 1 (by decide))
    (key 1 (by decide) 0 (by decide)) (key 1 (by decide) 1 (by decide)) (grad 0 (by decide)) (grad 1 (by decide)) hd' hh0
  obtain ⟨d0, d1, d2, d3, d4⟩ := tri_data (r := r) (Rounding.Err.exact _).rnd (Rounding.Err.exact _).rnd (Rounding.Err.exact _).rnd (Rounding.Err.exact _).rnd
    rfl rfl hD hτ hΘ hsm sa sb sc sd
  have hm : (meshProb 2 1 3 t op cells n X (enumDofs1 cells nNodes bNodes)).measure c =
      |(X (cells c 1) 0 - X (cells c 0) 0) * (X (cells c 2) 1 - X (cells c 0) 1) - (X (cells c 1) 1 - X (cells c 0) 1) * (X (cells c 2) 0 - X (cells c 0) 0)| / 2 := by
    rw [hme]
    have h1 : (Matrix.of fun z w : Fin 2 => natX X (cells c (w + 1)) z - natX X (cells c 0) z).det =
        (X (cells c 1) 0 - X (cells c 0) 0) * (X (cells c 2) 1 - X (cells c 0) 1) - (X (cells c 1) 1 - X (cells c 0) 1) * (X (cells c 2) 0 - X (cells c 0) 0) := by
      rw [Matrix.det_fin_two]
      simp only [Matrix.of_apply, Fin.val_zero, Fin.val_one, n0, n1]
      ring_nf
    rw [← h1]
    norm_num
    rfl
  refine ⟨?_, ?_⟩
  · rw [hm]; exact d0
  · intro w hw z hz
    rw [show invAtR r (cellOf 2 cells X c) w z = inv2R r ((cellOf 2 cells X c).JR r) ⟨w, hw⟩ ⟨z, hz⟩ from dif_pos ⟨hw, hz⟩]
    interval_cases w <;> interval_cases z
    · rw [q00]; exact d1
    · rw [q01]; exact d2
    · rw [q10]; exact d3
    · rw [q11]; exact d4

/-- C151 : on a mesh of triangles in the plane with edges not longer than `hh` and heights not shorter than `ρ`, the measures and the gradients that the program
computes from the coordinates, with the values that it has of the reference basis, satisfy what the error bounds of the assembly and of the solve ask. -/
theorem C151_triangles {n nNodes : Nat} {cells : Nat → Nat → Nat} {X : Nat → Fin 2 → ℝ} (op : Op ℝ) (bNodes : Nat → Bool)
    (hp : Proper 3 n cells X) {hh ρ : ℝ} (hs : MeshShape n cells X hh ρ) (hρ : 0 < ρ) (hsm : (r.b ^ 4 - 1) * (hh / ρ) ≤ 1 / 2) (hS : r.Summation S)
    {kb : Nat} {ps : Nat → (Nat → ℝ) → ℝ} {dps : Nat → (Nat → ℝ) → Nat → ℝ} :
    ∃ P, problem1 2 op cells n nNodes X bNodes = .ok P ∧
      ((∀ i : Fin 3, ∀ k < size P.t, |ps i (node ℝ P.t k) - refBasis ℝ 2 1 3 i (node ℝ P.t k)| ≤ r.b ^ kb - 1) →
      (∀ i : Fin 3, ∀ k < size P.t, ∀ w < 2, |dps i (node ℝ P.t k) w - refGrad ℝ 2 1 3 i (node ℝ P.t k) w| ≤ r.b ^ kb - 1) →
      P.Computed r (kb + 10) (hh / ρ) (4 * hh / ρ ^ 2) (fun c => measureR r (cellOf 2 cells X c)) ps fun c i => gradAtR r S (cellOf 2 cells X c) dps i) := by
  obtain ⟨t, ht⟩ := rule1 (d := 2) (by decide)
  refine ⟨meshProb 2 1 3 t op cells n X (enumDofs1 cells nNodes bNodes), by rw [problem1, ht]; rfl, fun hps hdp => ⟨fun c hc => ?_, fun i hi k hk => ?_, fun c hc i hi k hk z hz => ?_⟩⟩
  · exact (tri_cell ht op bNodes hp hs hρ hsm hc).1.mono (by omega)
  · have hO := mesh_onNodes (nNodes := nNodes) (N := 2) (by decide) ht op hp bNodes
    have e : (meshProb 2 1 3 t op cells n X (enumDofs1 cells nNodes bNodes)).psi i (node ℝ t k) = refBasis ℝ 2 1 3 ⟨i, hi⟩ (node ℝ t k) :=
      hO.lagrange.psi ⟨i, hi⟩ _
    have h0 : r.Err kb 1 ((meshProb 2 1 3 t op cells n X (enumDofs1 cells nNodes bNodes)).psi i (node ℝ t k)) (ps i (node ℝ t k)) := by
      constructor
      · have h1 : 0 ≤ (meshProb 2 1 3 t op cells n X (enumDofs1 cells nNodes bNodes)).psi i (node ℝ t k) := psi_nonneg hO hk hi
        rw [abs_of_nonneg h1]
        refine le_trans ?_ (le_of_eq (psi_sum hO hk))
        exact Finset.single_le_sum (f := fun i => (meshProb 2 1 3 t op cells n X (enumDofs1 cells nNodes bNodes)).psi i (node ℝ t k))
          (fun j hj => psi_nonneg hO hk (Finset.mem_range.1 hj)) (Finset.mem_range.2 hi)
      · rw [e, mul_one]; exact hps ⟨i, hi⟩ k hk
    exact h0.mono (by omega)
  · have hsu : Supported 2 1 3 := supported1 (by decide)
    have hd : ∀ w < 2, r.Err kb 1 (refGrad ℝ 2 1 3 ⟨i, hi⟩ (node ℝ t k) w) (dps i (node ℝ t k) w) := by
      intro w hw
      constructor
      · rw [refGrad_node hsu ht k hk w hw, first_gra _ (first_mem hsu).1 k ((rule_node (K := ℝ) hsu ht).1 ▸ hk) w hw i hi]
        split_ifs <;> norm_num
      · rw [mul_one]; exact hdp ⟨i, hi⟩ k hk w hw
    have hv := (tri_cell (nNodes := nNodes) (r := r) ht op bNodes hp hs hρ hsm hc).2
    have h1 := (hS ((List.range 2).map fun w => r.rnd (dps i (node ℝ t k) w * invAtR r (cellOf 2 cells X c) w z))).sum_range
      (m := fun _ => 1 * (2 * (hh / ρ) * (1 / ρ))) (x := fun w => refGrad ℝ 2 1 3 ⟨i, hi⟩ (node ℝ t k) w * invAt (cellOf 2 cells X c) w z) (k := kb + 8)
      fun w hw => ((hd w hw).mul (hv w hw z hz)).rnd
    have e : (meshProb 2 1 3 t op cells n X (enumDofs1 cells nNodes bNodes)).grad c i (node ℝ t k) z =
      ∑ w ∈ Finset.range 2, refGrad ℝ 2 1 3 ⟨i, hi⟩ (node ℝ t k) w * invAt (cellOf 2 cells X c) w z := dif_pos hi
    change r.Err _ _ ((meshProb 2 1 3 t op cells n X (enumDofs1 cells nNodes bNodes)).grad c i (node ℝ t k) z) _
    rw [e]
    refine err_size h1 (le_of_eq ?_)
    rw [Finset.sum_const, Finset.card_range]
    simp only [nsmul_eq_mul]
    push_cast
    field_simp
    ring

/-- C151 : the elliptic solve on a mesh of triangles in the plane, in double precision from the coordinates of the nodes to the solution: Jacobians, inverses,
measures, gradients, quadrature, accumulation of the entries and the linear solver all round. -/
theorem C151_elliptic_triangles_partial {n nNodes : Nat} {cells : Nat → Nat → Nat} {X : Nat → Fin 2 → ℝ} (bNodes : Nat → Bool)
    (h : GoodMesh 3 n nNodes cells X) (hb : MarksBoundary 3 n cells bNodes) {hh ρ : ℝ} (hs : MeshShape n cells X hh ρ) (hρ : 0 < ρ)
    {A : (Fin 2 → ℝ) → Fin 2 → Fin 2 → ℝ} {β : (Fin 2 → ℝ) → Fin 2 → ℝ} {rc u : (Fin 2 → ℝ) → ℝ} {α Λ bm γ cm M F B L : ℝ}
    (hco : Bounded (domain 3 n cells X) A β rc α Λ bm γ cm) (hu : FluxOn n cells X A u M F B L) (hM : 0 ≤ M) (hF : 0 ≤ F) (hL : 0 ≤ L)
    (hΛ : 0 ≤ Λ) (hγ : 0 ≤ γ) (z : Fin 2) {a ℓ : ℝ} (hl : ∀ x ∈ domain 3 n cells X, |x z - a| ≤ ℓ)
    (hα : 0 < α - bm * (2 * ℓ + hh) - γ * (2 * ℓ + hh) ^ 2)
    {op : Op ℝ} {Dr : Nat → Nat → Nat → ℝ} {br : Nat → Nat → ℝ} {cr : Nat → ℝ} (hop : StandsFor 2 op Dr br cr) (hsy : FlagRight 2 op) (hns : NoScalar op)
    (hS : r.Summation S) {v : Nat} (hv : Valence n 3 cells v)
    {ε : ℝ} (hε : 0 ≤ ε) (lu : Solver ℝ) (hlu : BackwardLU nNodes ε lu) (hlc : CompleteLU nNodes lu) (hm : 0 < nNodes) (h0 : bNodes 0 = true)
    {Fm : ℝ} (hFm : ∀ x ∈ domain 3 n cells X, |ellipticForcing A β rc u x| ≤ Fm) (hsm : (r.b ^ 4 - 1) * (hh / ρ) ≤ 1 / 2)
    {kb : Nat} {ps : Nat → (Nat → ℝ) → ℝ} {dps : Nat → (Nat → ℝ) → Nat → ℝ} :
    ∃ P, problem1 2 op cells n nNodes X bNodes = .ok P ∧ (Sampled n cells X P.t A β rc Dr br cr →
      (∀ i : Fin 3, ∀ k < size P.t, |ps i (node ℝ P.t k) - refBasis ℝ 2 1 3 i (node ℝ P.t k)| ≤ r.b ^ kb - 1) →
      (∀ i : Fin 3, ∀ k < size P.t, ∀ w < 2, |dps i (node ℝ P.t k) w - refGrad ℝ 2 1 3 i (node ℝ P.t k) w| ≤ r.b ^ kb - 1) →
      ∀ κ, (∀ c < n, ∀ k < size P.t, weakAbs 2 op (size P.t * c + k) 1 1 (fun _ => 4 * hh / ρ ^ 2) (fun _ => 4 * hh / ρ ^ 2) ≤ κ) →
      (r.b ^ sysDepth P (kb + 10) v - 1) * (hh / ρ * κ) * (3 * (2 * ℓ + hh)) ^ 2 < α - bm * (2 * ℓ + hh) - γ * (2 * ℓ + hh) ^ 2 →
      ∀ (data : Dense ℝ), n * size P.t ≤ data.rows → data.cols = 1 →
      (∀ c < n, ∀ k < size P.t, data.at' (size P.t * c + k) 0 = ellipticForcing A β rc u (meshPoint cells X c fun w => node ℝ P.t k w)) →
      ∀ g : Dense ℝ, nNodes ≤ g.rows → 0 < g.cols → (∀ p < nNodes, bNodes p = true → g.at' p 0 = u (X p)) →
      ∀ junk, ∃ w W b, ((P.withData (fun c => measureR r (cellOf 2 cells X c)) ps fun c i => gradAtR r S (cellOf 2 cells X c) dps i).initR r S data junk >>=
          pdeSolveElliptic lu g) = .ok (true, some w) ∧ PiecewiseAffine n cells X w W b ∧
        ∀ Wm, (∀ p < nNodes, |w p| ≤ Wm) → (∀ p < nNodes, bNodes p = true → |u (X p)| ≤ Wm) →
        ∀ ν, ν = innerError 2 hh ρ (2 * ℓ) Λ bm cm (α - bm * (2 * ℓ + hh) - γ * (2 * ℓ + hh) ^ 2) (2 * ε * Wm)
            (rowError 2 ρ Λ bm cm ε (r.b ^ sysDepth P (kb + 10) v - 1) (hh / ρ) κ Wm Fm) →
        gradError n cells X u W ≤ (4 * ((3 * M * hh ^ 2 / (2 * ρ)) ^ 2 +
          (ellipticConst 2 hh ρ ℓ Λ bm cm M F B L / (α - bm * (2 * ℓ + hh) - γ * (2 * ℓ + hh) ^ 2)) ^ 2) +
          2 * (3 / ρ * (2 * ε * Wm) + ν) ^ 2) * (volume (domain 3 n cells X)).toReal ∧
        valueError n cells X u W b ≤ (2 * (2 * (M / 2 * hh ^ 2) ^ 2 + 16 * ℓ ^ 2 * (3 * (3 * M * hh ^ 2 / (2 * ρ)) ^ 2 +
          2 * (ellipticConst 2 hh ρ ℓ Λ bm cm M F B L / (α - bm * (2 * ℓ + hh) - γ * (2 * ℓ + hh) ^ 2)) ^ 2)) +
          2 * (2 * (2 * ε * Wm) ^ 2 + 2 * (2 * ℓ * ν) ^ 2)) * (volume (domain 3 n cells X)).toReal) := by
  obtain ⟨P, e, hP⟩ := C151_elliptic_partial (N := 2) (by decide) bNodes h hb hs hρ hco hu hM hF hL hΛ hγ z hl hα hop hsy hns hS hv hε lu hlu hlc hm h0 hFm
  obtain ⟨P', e', hP'⟩ := C151_triangles (r := r) (S := S) (nNodes := nNodes) op bNodes h.proper hs hρ hsm hS (kb := kb) (ps := ps) (dps := dps)
  obtain rfl : P = P' := Res.ok.inj (e.symm.trans e')
  refine ⟨P, e, fun hsa h1 h2 κ hκ hsmall data hr hc hf g hg hgc hgb junk => ?_⟩
  have n3 : ((2 : Nat) : ℝ) + 1 = 3 := by norm_num
  obtain ⟨w, W, b, r1, r2, r3⟩ := hP hsa _ _ _ _ _ _ (hP' h1 h2) κ hκ (by rw [n3]; exact hsmall) data hr hc hf g hg hgc hgb junk
  refine ⟨w, W, b, r1, r2, fun Wm hW hg ν hν => ?_⟩
  have := r3 Wm hW hg ν hν
  rw [n3] at this
  exact this

/-! ### Example: two triangles, binary64, sums from left to right -/

theorem square2_first (z : Fin 2) : pderiv (fun x : Vec 2 => x 0 ^ 2) z = fun x => if z = 0 then 2 * x 0 else 0 := by
  funext x
  have h : HasFDerivAt (fun x : Vec 2 => x 0 ^ 2) ((2 * x 0 ^ (2 - 1)) • ContinuousLinearMap.proj (R := ℝ) (φ := fun _ : Fin 2 => ℝ) 0) x := by
    have := (ContinuousLinearMap.proj (R := ℝ) (φ := fun _ : Fin 2 => ℝ) 0).hasFDerivAt (x := x)
    simpa using this.pow 2
  rw [pderiv, h.fderiv]
  fin_cases z <;> simp

theorem square2_flux (z : Fin 2) : flux (fun _ z y => if z = y then (1 : ℝ) else 0) (fun x : Vec 2 => x 0 ^ 2) z = fun x => if z = 0 then 2 * x 0 else 0 := by
  funext x
  simp only [flux, ite_mul, one_mul, zero_mul, Finset.sum_ite_eq, Finset.mem_univ, if_true, square2_first]

theorem square2_div (x : Vec 2) : divFlux (fun _ z y => if z = y then (1 : ℝ) else 0) (fun x : Vec 2 => x 0 ^ 2) x = 2 := by
  rw [divFlux, Fin.sum_univ_two, square2_flux, square2_flux]
  have h : HasFDerivAt (fun x : Vec 2 => 2 * x 0) ((2 : ℝ) • ContinuousLinearMap.proj (R := ℝ) (φ := fun _ : Fin 2 => ℝ) 0) x :=
    ((ContinuousLinearMap.proj (R := ℝ) (φ := fun _ : Fin 2 => ℝ) 0).hasFDerivAt (x := x)).const_mul 2
  simp only [if_true, Fin.isValue, one_ne_zero, if_false]
  rw [pderiv, h.fderiv, pderiv]
  simp

theorem square2_gap (x y : Vec 2) : len (fun z : Fin 2 => (if z = 0 then 2 * y 0 else 0) - if z = 0 then 2 * x 0 else 0) ≤ 2 * len (y - x) := by
  rw [show (2 : ℝ) * len (y - x) = len ((2 : ℝ) • (y - x)) by rw [len_smul, abs_of_pos (by norm_num)]]
  refine Real.sqrt_le_sqrt ?_
  rw [Fin.sum_univ_two, Fin.sum_univ_two]
  simp only [if_true, Fin.isValue, one_ne_zero, if_false, sub_zero, Pi.smul_apply, Pi.sub_apply, smul_eq_mul]
  nlinarith [sq_nonneg (y 1 - x 1)]

theorem square2_smooth : FluxOn 2 demo2 FEM.squareX (fun _ z y => if z = y then 1 else 0) (fun x : Vec 2 => x 0 ^ 2) 2 2 2 0 where
  smooth := ⟨Set.univ, isOpen_univ, Set.subset_univ _, ContDiff.contDiffOn (by fun_prop), fun z => by
    rw [square2_flux]
    by_cases hz : z = 0
    · simp only [hz, if_true]; exact ContDiff.contDiffOn (by fun_prop)
    · simp only [hz, if_false]; exact contDiffOn_const⟩
  gradient := fun c _ x _ y _ => by simp only [square2_first]; exact square2_gap x y
  flux := fun c _ x _ y _ => by simp only [square2_flux]; exact square2_gap x y
  bound := fun x _ => by rw [square2_div, abs_of_pos two_pos]
  lipschitz := fun c _ x _ y _ => by rw [square2_div, square2_div]; simp

theorem square2_bounded (T : Set (Vec 2)) : Bounded T (fun _ z y => if z = y then 1 else 0) (fun _ _ => 0) (fun _ => 0) 1 1 0 0 0 where
  elliptic := fun x _ ξ => by
    simp only [ite_mul, one_mul, zero_mul, Finset.sum_ite_eq, Finset.mem_univ, if_true]
    rw [len_sq]
    exact le_of_eq (Finset.sum_congr rfl fun z _ => sq _)
  diffusion := fun x _ ξ => by
    simp only [ite_mul, one_mul, zero_mul, Finset.sum_ite_eq, Finset.mem_univ, if_true]
    exact le_rfl
  transport := fun x _ => by simp [len]
  reaction := fun x _ => by simp

/-- -Δu = -2 on the square with the Laplacian of the library, in binary64 with sums from left to right, and a linear solver with relative error `ε`. -/
example (ε : ℝ) (hε : 0 ≤ ε) : ∃ (lu0 lu : Solver ℝ) (P : Prob ℝ) (w : Nat → ℝ) (W : Nat → Fin 2 → ℝ) (b : Nat → ℝ),
    ExactLU 4 lu0 ∧ (∀ A, lu A = (lu0 A).map fun f b q => (1 + ε) * f b q) ∧ problem1 2 (.neg .lap) demo2 2 4 FEM.squareX (fun _ => true) = .ok P ∧
    ((P.withData (fun c => measureR binary64 (cellOf 2 demo2 FEM.squareX c)) P.psi fun c i => gradAtR binary64 binary64.sumLeft (cellOf 2 demo2 FEM.squareX c)
      (fun i x w => if h : i < 3 then refGrad ℝ 2 1 3 ⟨i, h⟩ x w else 0) i).initR binary64 binary64.sumLeft ⟨2 * size P.t, 1, fun _ _ => -2⟩ (fun _ => 0) >>=
        pdeSolveElliptic lu ⟨4, 1, fun p _ => (FEM.squareX p) 0 ^ 2⟩) = .ok (true, some w) ∧ PiecewiseAffine 2 demo2 FEM.squareX w W b := by
  obtain ⟨lu0, lu, h0, h1, h2, h3⟩ := exists_backwardLU 4 hε
  have hb : binary64.b = 9007199254740992 / 9007199254740991 := by
    show (1 - 2⁻¹ ^ 53)⁻¹ = (9007199254740992 / 9007199254740991 : ℝ)
    norm_num
  have hop : StandsFor 2 (.neg .lap) (fun _ z y => if z = y then 1 else 0) (fun _ _ => 0) (fun _ => 0) := by
    intro row u v gu gv
    simp only [form, dot, Finset.sum_range_succ, Finset.sum_range_zero]
    simp
  have hv : Valence 2 3 demo2 2 := by
    intro p
    by_cases hp : p < 4
    · interval_cases p <;> decide
    · have h4 : ∀ x ∈ Finset.range 2 ×ˢ Finset.range 3, demo2 x.1 x.2 < 4 := by decide
      have h5 : (Finset.range 2 ×ˢ Finset.range 3).filter (fun x => demo2 x.1 x.2 = p) = ∅ :=
        Finset.filter_eq_empty_iff.2 fun x hx e => hp (e ▸ h4 x hx)
      rw [h5, Finset.card_empty]
      exact Nat.zero_le _
  obtain ⟨P, e, h⟩ := C151_elliptic_triangles_partial (r := binary64) (S := binary64.sumLeft) (fun _ => true) square_good (fun _ _ _ _ _ _ _ _ => rfl) square_shape
    (by norm_num) (square2_bounded _) square2_smooth (by norm_num) (by norm_num) le_rfl (by norm_num) le_rfl 0 (a := 0) (ℓ := 1)
    (fun x hx => by rw [sub_zero, abs_of_nonneg (square_box hx).1]; exact (square_box hx).2) (by norm_num) hop (fun _ => trivial) trivial
    (fun l => binary64.sumLeft_adds l) hv hε lu h1 h2 (by norm_num) rfl (Fm := 2)
    (fun x _ => by rw [ellipticForcing, square2_div]; simp) (by rw [hb]; norm_num) (kb := 0)
    (ps := basisAt 2 1 3) (dps := fun i x w => if h : i < 3 then refGrad ℝ 2 1 3 ⟨i, h⟩ x w else 0)
  have eP : meshProb 2 1 3 rule2_3 (.neg .lap) demo2 2 FEM.squareX (enumDofs1 demo2 4 fun _ => true) = P := Res.ok.inj (show Res.ok _ = Res.ok P from e)
  have hps : P.psi = basisAt 2 1 3 := by rw [← eP]; rfl
  have hsd : sysDepth P 10 2 = 46 := by rw [← eP]; rfl
  obtain ⟨w, W, b, r1, r2, -⟩ := h ⟨fun _ _ _ _ _ _ => by simp [Fin.ext_iff], fun _ _ _ _ _ => rfl, fun _ _ _ _ => rfl⟩
    (fun i k _ => by rw [basisAt, dif_pos i.2]; simp) (fun i k _ w _ => by simp) 2048
    (fun c _ k _ => by simp only [weakAbs, Finset.sum_const, Finset.card_range]; norm_num)
    (by rw [hsd, hb]; norm_num) ⟨2 * size P.t, 1, fun _ _ => -2⟩ le_rfl rfl
    (fun c _ k _ => by rw [ellipticForcing, square2_div]; simp) ⟨4, 1, fun p _ => (FEM.squareX p) 0 ^ 2⟩ le_rfl one_pos (fun _ _ _ => rfl) (fun _ => 0)
  rw [← hps] at r1
  exact ⟨lu0, lu, P, w, W, b, h0, h3, e, r1, r2⟩

end
end Fdapde.PDE
