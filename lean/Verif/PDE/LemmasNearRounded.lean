import Verif.PDE.LemmasNear
import Verif.PDE.SemiRoundedSpec
import Verif.LinAlg.PropsFp
/- Propagation of roundings through the formula of Sherman, Morrison and Woodbury. -/
namespace Fdapde.PDE
open Finset FEM LinAlg Fdapde.Fp

variable {n q : Nat} {r : Rounding} {S : List ℝ → ℝ}

theorem Near.add {ι : Type} {C D ε W : ℝ} {v v' w w' : ι → ℝ} (h : Near C ε W v v') (k : Near D ε W w w') :
    Near (C + D) ε W (fun i => v i + w i) fun i => v' i + w' i := by
  refine ⟨fun i => ?_, fun i => ?_⟩
  · rw [add_mul]
    exact (abs_add_le _ _).trans (add_le_add (h.size i) (k.size i))
  · rw [add_mul, add_mul, show v' i + w' i - (v i + w i) = v' i - v i + (w' i - w i) by ring]
    exact (abs_add_le _ _).trans (add_le_add (h.diff i) (k.diff i))

theorem Near.nonneg {ι : Type} {C ε W : ℝ} {v v' : ι → ℝ} (h : Near C ε W v v') (i : ι) : 0 ≤ C * W := (abs_nonneg _).trans (h.size i)

theorem Near.size' {ι : Type} {C ε W : ℝ} {v v' : ι → ℝ} (h : Near C ε W v v') (hε : ε ≤ 1) (i : ι) : |v' i| ≤ 2 * (C * W) := by
  have h1 := h.size i
  have h2 := h.diff i
  have h3 : |v' i| ≤ |v' i - v i| + |v i| := by
    have := abs_add_le (v' i - v i) (v i)
    rwa [sub_add_cancel] at this
  have h4 := mul_le_mul_of_nonneg_right hε (h.nonneg i)
  linarith

theorem Near.rnd {ι : Type} {C ε W : ℝ} {v v' : ι → ℝ} (h : Near C ε W v v') (hu : r.u ≤ ε) (hε : ε ≤ 1) :
    Near (3 * C) ε W v fun i => r.rnd (v' i) := by
  have ε0 : 0 ≤ ε := r.u_pos.trans hu
  refine ⟨fun i => ?_, fun i => ?_⟩
  · have := h.size i
    have := h.nonneg i
    linarith
  · have h1 := r.err (v' i)
    have h2 := mul_le_mul hu (h.size' hε i) (abs_nonneg _) ε0
    have h3 := abs_add_le (r.rnd (v' i) - v' i) (v' i - v i)
    rw [sub_add_sub_cancel] at h3
    have := h.diff i
    linarith

/-- A rounded product of a perturbed matrix and a perturbed vector. -/
theorem Near.dot {ι : Type} (hS : r.Summation S) {C m ε W : ℝ} {v v' : Fin n → ℝ} (h : Near C ε W v v') {M M' : ι → Fin n → ℝ} (hC : 0 ≤ C) (hm : 0 ≤ m)
    (hW : 0 ≤ W) (hb : r.b ^ (n + 1) - 1 ≤ ε) (hε : ε ≤ 1) (h1 : ∀ i j, |M i j| ≤ m) (h2 : ∀ i j, |M' i j - M i j| ≤ m * ε) :
    Near (8 * n * m * C) ε W (fun i => ∑ j, M i j * v j) fun i => dotR r S (M' i) v' := by
  have hb0 : 0 ≤ r.b ^ (n + 1) - 1 := sub_nonneg.2 (one_le_pow₀ r.one_le_b)
  have ε0 : 0 ≤ ε := hb0.trans hb
  have hn : (0 : ℝ) ≤ n := Nat.cast_nonneg n
  have cw := mul_nonneg hC hW
  have k0 : 0 ≤ n * (m * (C * W)) := by positivity
  refine ⟨fun i => ?_, fun i => ?_⟩
  · have : |∑ j, M i j * v j| ≤ ∑ _j : Fin n, m * (C * W) := (abs_sum_le_sum_abs _ _).trans (sum_le_sum fun j _ => by
      rw [abs_mul]; exact mul_le_mul (h1 i j) (h.size j) (abs_nonneg _) hm)
    rw [sum_const, card_univ, Fintype.card_fin, nsmul_eq_mul] at this
    linarith
  · have hM' : ∀ j, |M' i j| ≤ 2 * m := fun j => by
      have := abs_add_le (M' i j - M i j) (M i j)
      rw [sub_add_cancel] at this
      have := h1 i j
      have := h2 i j
      have := mul_le_of_le_one_right hm hε
      linarith
    have e1 := ((hS ((List.finRange n).map fun j => r.rnd (M' i j * v' j))).sum (l := List.finRange n) (m := fun j => |M' i j * v' j|)
      (x := fun j => M' i j * v' j) (k := 1) (fun j _ => (Rounding.Err.exact (r := r) (M' i j * v' j)).rnd)).2
    rw [List.length_finRange, sum_finRange, sum_finRange, Nat.add_comm] at e1
    have e2 : ∑ j, |M' i j * v' j| ≤ n * (2 * m * (2 * (C * W))) := by
      refine (sum_le_sum fun j _ => ?_).trans (le_of_eq (by rw [sum_const, card_univ, Fintype.card_fin, nsmul_eq_mul]))
      rw [abs_mul]
      exact mul_le_mul (hM' j) (h.size' hε j) (abs_nonneg _) (by positivity)
    have e3 : |∑ j, M' i j * v' j - ∑ j, M i j * v j| ≤ n * (3 * (m * (C * (ε * W)))) := by
      rw [← sum_sub_distrib]
      refine (abs_sum_le_sum_abs _ _).trans ((sum_le_sum fun j _ => ?_).trans (le_of_eq (by rw [sum_const, card_univ, Fintype.card_fin, nsmul_eq_mul])))
      rw [show M' i j * v' j - M i j * v j = (M' i j - M i j) * v' j + M i j * (v' j - v j) by ring]
      refine (abs_add_le _ _).trans ?_
      rw [abs_mul, abs_mul]
      have a1 := mul_le_mul (h2 i j) (h.size' hε j) (abs_nonneg _) (by positivity)
      have a2 := mul_le_mul (h1 i j) (h.diff j) (abs_nonneg _) hm
      calc _ ≤ m * ε * (2 * (C * W)) + m * (C * ε * W) := add_le_add a1 a2
        _ = _ := by ring
    have e4 := mul_le_mul hb e2 (sum_nonneg fun _ _ => abs_nonneg _) ε0
    have e5 := abs_add_le (dotR r S (M' i) v' - ∑ j, M' i j * v' j) (∑ j, M' i j * v' j - ∑ j, M i j * v j)
    rw [sub_add_sub_cancel] at e5
    have e6 : |dotR r S (M' i) v' - ∑ j, M' i j * v' j| ≤ ε * (n * (2 * m * (2 * (C * W)))) := e1.trans e4
    have k1 : 0 ≤ n * (m * (C * (ε * W))) := by positivity
    calc _ ≤ ε * (n * (2 * m * (2 * (C * W)))) + n * (3 * (m * (C * (ε * W)))) := e5.trans (add_le_add e6 e3)
      _ = 7 * (n * (m * (C * (ε * W)))) := by ring
      _ ≤ 8 * (n * (m * (C * (ε * W)))) := by linarith
      _ = _ := by ring

theorem u_le_pow {K : Nat} (hK : K ≠ 0) : r.u ≤ r.b ^ K - 1 := by
  have h1 : r.b ≤ r.b ^ K := le_self_pow₀ r.one_le_b hK
  have h2 : 1 + r.u ≤ r.b := by
    rw [Rounding.b, ← one_div, le_div_iff₀ r.a_pos]
    nlinarith [r.u_pos, sq_nonneg r.u]
  linarith

/-- The formula of Sherman, Morrison and Woodbury in floating point. -/
theorem smw_nearR (B : Matrix (Fin n) (Fin n) ℝ) (hB : B.det ≠ 0) (U : Matrix (Fin n) (Fin q) ℝ) (G0 : Matrix (Fin q) (Fin q) ℝ)
    (hG : ∀ Y : Matrix (Fin n) (Fin q) ℝ, B * Y = U → (G0 + U.transpose * Y).det ≠ 0) {C0 C1 mU mG : ℝ} (h0 : 0 ≤ C0) (h1 : 0 ≤ C1) (hU0 : 0 ≤ mU) (hG0 : 0 ≤ mG)
    (hU : ∀ i a, |U i a| ≤ mU) (hGm : ∀ a c, |G0 a c| ≤ mG) :
    ∃ C : ℝ, 0 ≤ C ∧ ∀ (r : Rounding) (S : List ℝ → ℝ) (ε W : ℝ) (B' : Matrix (Fin n) (Fin n) ℝ) (U' : Matrix (Fin n) (Fin q) ℝ) (G0' : Matrix (Fin q) (Fin q) ℝ)
      (F F' : (Nat → ℝ) → Nat → ℝ) (d d' : DenseSolver ℝ q) (b b' : Matrix (Fin n) (Fin 1) ℝ), r.Summation S → r.b ^ (n + q + 1) - 1 ≤ ε → 0 ≤ W → C * ε ≤ 1 →
      (∀ i j, |B' i j - B i j| ≤ C1 * ε) → (∀ i a, |U' i a - U i a| ≤ mU * ε) → (∀ a c, |G0' a c - G0 a c| ≤ mG * ε) →
      (∀ (r : Fin n → ℝ) i, ∑ j, B i j * F (ext0 r) j = r i) → (∀ r : Fin n → ℝ, Backward ε B' r fun j => F' (ext0 r) j) →
      ExactDense d → BackwardDense ε d' → Near C0 ε W (fun i => b i 0) (fun i => b' i 0) →
      Near C ε W (fun i => smwSolve (byColumns n F) (byColumns n F) d U G0 U.transpose b i 0)
        fun i => smwSolveFp r S (byColumns n F') (byColumns n F') d' U' G0' U'.transpose b' i 0 := by
  obtain ⟨Y0, hY0⟩ : ∃ Y0 : Matrix (Fin n) (Fin q) ℝ, B * Y0 = U := ⟨B⁻¹ * U, by
    rw [← Matrix.mul_assoc, Matrix.mul_nonsing_inv _ (isUnit_iff_ne_zero.2 hB), Matrix.one_mul]⟩
  have uniq : ∀ Y, B * Y = U → Y = Y0 := fun Y hY => by
    have := congrArg (fun Z => B⁻¹ * Z) (hY.trans hY0.symm)
    simpa only [← Matrix.mul_assoc, Matrix.nonsing_inv_mul _ (isUnit_iff_ne_zero.2 hB), Matrix.one_mul] using this
  have hn : (0 : ℝ) ≤ n := Nat.cast_nonneg n
  have hq : (0 : ℝ) ≤ q := Nat.cast_nonneg q
  obtain ⟨Cy, cy0, hy⟩ := solve_near B hB h1 h0
  obtain ⟨CY, cY0, hY⟩ := solve_near B hB h1 hU0
  have k1 : 0 ≤ 3 * (mG + 8 * n * mU * CY) := by positivity
  have k2 : 0 ≤ 8 * n * mU * Cy := by positivity
  obtain ⟨Ct, ct0, ht⟩ := solve_near (G0 + U.transpose * Y0) (hG Y0 hY0) k1 k2
  have k3 : 0 ≤ 8 * q * mU * Ct := by positivity
  obtain ⟨Cv, cv0, hv⟩ := solve_near B hB h1 k3
  refine ⟨1 + CY + Ct + 3 * (Cy + Cv), by positivity, fun r S ε W B' U' G0' F F' d d' b b' hS hbε hW hC hBB hUU hGG hF hF' hd hd' hb => ?_⟩
  have hb0 : 0 ≤ r.b ^ (n + q + 1) - 1 := sub_nonneg.2 (one_le_pow₀ r.one_le_b)
  have hε : 0 ≤ ε := hb0.trans hbε
  have z1 := mul_nonneg cy0 hε
  have z2 := mul_nonneg cY0 hε
  have z3 := mul_nonneg ct0 hε
  have z4 := mul_nonneg cv0 hε
  have hε1 : ε ≤ 1 := by linarith
  have hbn : r.b ^ (n + 1) - 1 ≤ ε := (sub_le_sub_right (pow_le_pow_right₀ r.one_le_b (by omega)) 1).trans hbε
  have hbq : r.b ^ (q + 1) - 1 ≤ ε := (sub_le_sub_right (pow_le_pow_right₀ r.one_le_b (by omega)) 1).trans hbε
  have hu : r.u ≤ ε := (u_le_pow (by omega)).trans hbε
  have ny := (hy ε W B' _ _ (fun j => F (ext0 fun i => b i 0) j) (fun j => F' (ext0 fun i => b' i 0) j) hε hW (by linarith) hBB hb (hF _) fun _ => hF' _).2
  have nY : ∀ a, Near CY ε 1 (fun j : Fin n => F (ext0 fun i => U i a) j) fun j => F' (ext0 fun i => U' i a) j := fun a =>
    (hY ε 1 B' (fun i => U i a) (fun i => U' i a) _ _ hε zero_le_one (by linarith) hBB
      ⟨fun i => by rw [mul_one]; exact hU i a, fun i => by rw [mul_one]; exact hUU i a⟩ (hF _) fun _ => hF' _).2
  have eY : byColumns n F U = Y0 := uniq _ (by
    ext i a
    rw [Matrix.mul_apply]
    exact hF (fun p => U p a) i)
  set G' := (G0' + mulFp r S U'.transpose (byColumns n F' U')).map r.rnd with hG'
  have nG : ∀ a c, |G' a c - (G0 + U.transpose * Y0) a c| ≤ 3 * (mG + 8 * n * mU * CY) * ε := by
    intro a c
    have p1 := (nY c).dot (ι := Fin q) hS (M := U.transpose) (M' := U'.transpose) cY0 hU0 zero_le_one hbn hε1 (fun i j => hU j i) fun i j => hUU j i
    have p2 : Near mG ε 1 (fun a => G0 a c) fun a => G0' a c := ⟨fun a => by rw [mul_one]; exact hGm a c, fun a => by rw [mul_one]; exact hGG a c⟩
    have p3 := ((p2.add p1).rnd hu hε1).diff a
    rw [mul_one] at p3
    rw [← eY]
    exact p3
  set t0 : Matrix (Fin q) (Fin 1) ℝ := U.transpose * byColumns n F b with ht0
  set t0' : Matrix (Fin q) (Fin 1) ℝ := mulFp r S U'.transpose (byColumns n F' b') with ht0'
  have nr : Near (8 * n * mU * Cy) ε W (fun a => t0 a 0) fun a => t0' a 0 :=
    ny.dot hS (M := U.transpose) (M' := U'.transpose) cy0 hU0 hW hbn hε1 (fun i j => hU j i) fun i j => hUU j i
  have nt := (ht ε W G' _ _ (fun a => d (G0 + U.transpose * Y0) t0 a 0) (fun a => d' G' t0' a 0) hε hW (by linarith) nG nr
    (fun a => by
      have := congrFun (congrFun (hd _ t0 (hG Y0 hY0)) a) 0
      rwa [Matrix.mul_apply] at this)
    fun hdet => hd' G' t0' hdet).2
  have nw : Near (8 * q * mU * Ct) ε W (fun i => (U * d (G0 + U.transpose * Y0) t0) i 0) fun i => mulFp r S U' (d' G' t0') i 0 :=
    nt.dot hS (M := U) (M' := U') ct0 hU0 hW hbq hε1 hU hUU
  have nv := (hv ε W B' _ _ (fun j => F (ext0 fun i => (U * d (G0 + U.transpose * Y0) t0) i 0) j) (fun j => F' (ext0 fun i => mulFp r S U' (d' G' t0') i 0) j) hε hW
    (by linarith) hBB nw (hF _) fun _ => hF' _).2
  have fin := ((ny.sub nv).rnd hu hε1).mono (C' := 1 + CY + Ct + 3 * (Cy + Cv)) (by linarith) hε hW
  have e1 : ∀ i, smwSolve (byColumns n F) (byColumns n F) d U G0 U.transpose b i 0 =
      F (ext0 fun i => b i 0) i - F (ext0 fun i => (U * d (G0 + U.transpose * Y0) t0) i 0) i := fun i => by
    rw [ht0, ← eY]; rfl
  simp only [e1]
  exact fin

/-- Linear regression on the covariates in floating point. -/
theorem regress_nearR {L : Nat} {X : Nat → Nat → ℝ} (hd : (gram q L X).det ≠ 0) {C0 : ℝ} (h0 : 0 ≤ C0) :
    ∃ C : ℝ, 0 ≤ C ∧ ∀ (r : Rounding) (S : List ℝ → ℝ) (ε W : ℝ) (d d' : DenseSolver ℝ q) (y y' : Nat → ℝ), r.Summation S → r.b ^ (L + 1) - 1 ≤ ε → 0 ≤ W → C * ε ≤ 1 →
      ExactDense d → BackwardDense ε d' → Near C0 ε W (fun j : Fin L => y j) (fun j : Fin L => y' j) →
      Near C ε W (regress L d X y) (regressR r S L d' X y') := by
  set XT : Fin q → Fin L → ℝ := fun a j => X j a with hXT
  set m := mass1 XT with hm
  have m0 : 0 ≤ m := mass1_nonneg _
  have hL : (0 : ℝ) ≤ L := Nat.cast_nonneg L
  obtain ⟨C, c0, hC⟩ := solve_near (gram q L X) hd (C1 := 8 * L * m * m) (C2 := 8 * L * m * C0) (by positivity) (by positivity)
  refine ⟨1 + C, by positivity, fun r S ε W d d' y y' hS hb hW hCε hE hB hr => ?_⟩
  have hb0 : 0 ≤ r.b ^ (L + 1) - 1 := sub_nonneg.2 (one_le_pow₀ r.one_le_b)
  have hε : 0 ≤ ε := hb0.trans hb
  have z1 := mul_nonneg c0 hε
  have hε1 : ε ≤ 1 := by linarith
  have es : ∀ (r : Nat → ℝ) (a : Fin q), ∑ j ∈ range L, X j a * r j = ∑ j, XT a j * r j := fun r a => sum_range _
  have x1 : ∀ i j, |XT i j| ≤ m := entry_le XT
  have x2 : ∀ i j, |XT i j - XT i j| ≤ m * ε := fun i j => by rw [sub_self, abs_zero]; positivity
  have nb := hr.dot hS (M := XT) (M' := XT) h0 m0 hW hb hε1 x1 x2
  have nG : ∀ a c, |gramR r S q L X a c - gram q L X a c| ≤ 8 * L * m * m * ε := fun a c => by
    have p0 : Near m ε 1 (fun j : Fin L => X j c) fun j => X j c :=
      ⟨fun j => by rw [mul_one]; exact x1 c j, fun j => by rw [mul_one]; exact x2 c j⟩
    have p1 := (p0.dot hS (M := XT) (M' := XT) m0 m0 zero_le_one hb hε1 x1 x2).diff a
    rw [mul_one] at p1
    rw [gram, Matrix.of_apply, es fun j => X j c]
    exact p1
  refine ((hC ε W (gramR r S q L X) _ _ _ _ hε hW (by linarith) nG nb (fun a => ?_) fun hdet a => ?_).2).mono (by linarith) hε hW
  · have := congrFun (congrFun (hE (gram q L X) (Matrix.of fun a _ => ∑ j ∈ range L, X j a * y j) hd) a) 0
    rw [Matrix.mul_apply, Matrix.of_apply, es] at this
    exact this
  · exact hB (gramR r S q L X) (Matrix.of fun a _ => dotR r S (fun j : Fin L => X j a) fun j => y' j) hdet a

end Fdapde.PDE
