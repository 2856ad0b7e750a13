import Verif.PDE.PropsSemi
import Verif.PDE.PropsFitInexact
/- Propagation of the residuals of inexact solvers through the formula of Sherman, Morrison and Woodbury. -/
namespace Fdapde.PDE
open Finset FEM LinAlg

variable {n q : Nat}

/-- `v` is at most `C W`, and `v'` differs from it by at most `C ε W`. -/
structure Near {ι : Type} (C ε W : ℝ) (v v' : ι → ℝ) : Prop where
  size : ∀ i, |v i| ≤ C * W
  diff : ∀ i, |v' i - v i| ≤ C * ε * W

theorem Near.mono {ι : Type} {C C' ε W : ℝ} {v v' : ι → ℝ} (h : Near C ε W v v') (hC : C ≤ C') (hε : 0 ≤ ε) (hW : 0 ≤ W) : Near C' ε W v v' :=
  ⟨fun i => (h.size i).trans (mul_le_mul_of_nonneg_right hC hW),
   fun i => (h.diff i).trans (mul_le_mul_of_nonneg_right (mul_le_mul_of_nonneg_right hC hε) hW)⟩

theorem Near.sub {ι : Type} {C D ε W : ℝ} {v v' w w' : ι → ℝ} (h : Near C ε W v v') (k : Near D ε W w w') :
    Near (C + D) ε W (fun i => v i - w i) fun i => v' i - w' i := by
  refine ⟨fun i => ?_, fun i => ?_⟩
  · rw [add_mul]
    exact (abs_sub _ _).trans (add_le_add (h.size i) (k.size i))
  · rw [add_mul, add_mul, show v' i - w' i - (v i - w i) = v' i - v i - (w' i - w i) by ring]
    exact (abs_sub _ _).trans (add_le_add (h.diff i) (k.diff i))

/-- Sum of the absolute values of the entries. -/
noncomputable def mass1 {ι κ : Type} [Fintype ι] [Fintype κ] (M : ι → κ → ℝ) : ℝ := ∑ i, ∑ j, |M i j|

section
variable {ι κ : Type} [Fintype ι] [Fintype κ]

theorem mass1_nonneg (M : ι → κ → ℝ) : 0 ≤ mass1 M := sum_nonneg fun _ _ => sum_nonneg fun _ _ => abs_nonneg _

theorem row_le (M : ι → κ → ℝ) (i : ι) : ∑ j, |M i j| ≤ mass1 M :=
  single_le_sum (f := fun i => ∑ j, |M i j|) (fun _ _ => sum_nonneg fun _ _ => abs_nonneg _) (mem_univ i)

theorem entry_le (M : ι → κ → ℝ) (i : ι) (j : κ) : |M i j| ≤ mass1 M :=
  (single_le_sum (f := fun j => |M i j|) (fun _ _ => abs_nonneg _) (mem_univ j)).trans (row_le M i)

theorem lin_le (M : ι → κ → ℝ) {v : κ → ℝ} {D : ℝ} (hD : 0 ≤ D) (h : ∀ j, |v j| ≤ D) (i : ι) : |∑ j, M i j * v j| ≤ mass1 M * D := by
  refine (abs_sum_le_sum_abs _ _).trans ((sum_le_sum fun j _ => ?_).trans ((sum_mul _ _ _).symm.le.trans (mul_le_mul_of_nonneg_right (row_le M i) hD)))
  rw [abs_mul]
  exact mul_le_mul_of_nonneg_left (h j) (abs_nonneg _)

theorem Near.lin {C ε W : ℝ} {v v' : κ → ℝ} (h : Near C ε W v v') (hC : 0 ≤ C) (hε : 0 ≤ ε) (hW : 0 ≤ W) (M : ι → κ → ℝ) :
    Near (mass1 M * C) ε W (fun i => ∑ j, M i j * v j) fun i => ∑ j, M i j * v' j := by
  refine ⟨fun i => (lin_le M (mul_nonneg hC hW) h.size i).trans (le_of_eq (by ring)), fun i => ?_⟩
  rw [← sum_sub_distrib, sum_congr rfl fun j _ => (mul_sub (M i j) (v' j) (v j)).symm]
  exact (lin_le M (mul_nonneg (mul_nonneg hC hε) hW) h.diff i).trans (le_of_eq (by ring))
end

/-- `x` solves the system up to a relative residual. -/
def Backward (ε : ℝ) (A : Matrix (Fin n) (Fin n) ℝ) (b x : Fin n → ℝ) : Prop :=
  ∀ i, |∑ j, A i j * x j - b i| ≤ ε * (∑ j, |A i j| * |x j| + |b i|)

/-- A system with perturbed matrix and right-hand side, solved up to a relative residual. -/
theorem solve_near (A : Matrix (Fin n) (Fin n) ℝ) (hA : A.det ≠ 0) {C1 C2 : ℝ} (h1 : 0 ≤ C1) (h2 : 0 ≤ C2) :
    ∃ C : ℝ, 0 ≤ C ∧ ∀ (ε W : ℝ) (A' : Matrix (Fin n) (Fin n) ℝ) (b b' x x' : Fin n → ℝ), 0 ≤ ε → 0 ≤ W → C * ε ≤ 1 →
      (∀ i j, |A' i j - A i j| ≤ C1 * ε) → Near C2 ε W b b' → (∀ i, ∑ j, A i j * x j = b i) → (A'.det ≠ 0 → Backward ε A' b' x') →
      A'.det ≠ 0 ∧ Near C ε W x x' := by
  obtain ⟨Ai, hAi⟩ : ∃ Ai : Matrix (Fin n) (Fin n) ℝ, Ai * A = 1 := ⟨A⁻¹, Matrix.nonsing_inv_mul A (isUnit_iff_ne_zero.2 hA)⟩
  set κ := mass1 Ai with hκ
  set α := mass1 A with hα
  have hκ0 : 0 ≤ κ := mass1_nonneg _
  have hα0 : 0 ≤ α := mass1_nonneg _
  have hn0 : (0 : ℝ) ≤ n := Nat.cast_nonneg n
  set E := α + 2 * (n * C1) with hE
  have hE0 : 0 ≤ E := by positivity
  refine ⟨1 + κ * C2 + 2 * (κ * (n * C1)) + 2 * (κ * E) + 2 * (κ * (E * (κ * C2) + 3 * C2)), by positivity,
    fun ε W A' b b' x x' hε hW hC hAA hb hx hx' => ?_⟩
  have p1 : 0 ≤ κ * C2 := by positivity
  have p2 : 0 ≤ κ * (n * C1) := by positivity
  have p3 : 0 ≤ κ * E := by positivity
  have p4 : 0 ≤ κ * (E * (κ * C2) + 3 * C2) := by positivity
  have q1 := mul_nonneg p1 hε
  have q2 := mul_nonneg p2 hε
  have q3 := mul_nonneg p3 hε
  have q4 := mul_nonneg p4 hε
  have ε1 : ε ≤ 1 := by linarith
  have c2 : 2 * (κ * (n * C1)) * ε ≤ 1 - ε := by linarith
  have c3 : κ * E * ε ≤ 1 / 2 := by linarith
  have hinv : ∀ (v : Fin n → ℝ) i, v i = ∑ j, Ai i j * ∑ k, A j k * v k := fun v i => by
    have e := congrFun (congrArg (fun M => M.mulVec v) hAi) i
    simp only [← Matrix.mulVec_mulVec, Matrix.one_mulVec] at e
    exact e.symm
  have hpert : ∀ (v : Fin n → ℝ) (D : ℝ), (∀ j, |v j| ≤ D) → ∀ i, |∑ j, (A i j - A' i j) * v j| ≤ n * C1 * ε * D := by
    intro v D hD i
    refine (abs_sum_le_sum_abs _ _).trans ((sum_le_sum (g := fun _ => C1 * ε * D) fun j _ => ?_).trans (le_of_eq ?_))
    · rw [abs_mul, abs_sub_comm]
      exact mul_le_mul (hAA i j) (hD j) (abs_nonneg _) (mul_nonneg h1 hε)
    · simp only [sum_const, card_univ, Fintype.card_fin, nsmul_eq_mul]; ring
  have hd : A'.det ≠ 0 := by
    intro h0
    obtain ⟨w, hw, hw0⟩ := Matrix.exists_mulVec_eq_zero_iff.2 h0
    have hne : Nonempty (Fin n) := by
      by_contra hn
      rw [not_nonempty_iff] at hn
      exact hw (funext fun i => (hn.false i).elim)
    obtain ⟨i0, hi0⟩ := Finite.exists_max fun i => |w i|
    have hAw : ∀ i, |∑ j, A i j * w j| ≤ n * C1 * ε * |w i0| := fun i => by
      have e : ∑ j, A i j * w j = ∑ j, (A i j - A' i j) * w j := by
        have := congrFun hw0 i
        simp only [Matrix.mulVec, dotProduct, Pi.zero_apply] at this
        simp only [sub_mul, sum_sub_distrib, this, sub_zero]
      rw [e]; exact hpert w _ hi0 i
    have := lin_le Ai (mul_nonneg (mul_nonneg (mul_nonneg hn0 h1) hε) (abs_nonneg (w i0))) hAw i0
    rw [← hinv w i0, ← hκ] at this
    have a0 := abs_nonneg (w i0)
    have a1 := mul_le_mul_of_nonneg_right c2 a0
    have a2 := mul_nonneg hε a0
    have hz : |w i0| = 0 := by linarith
    refine hw (funext fun i => ?_)
    have := hi0 i
    rw [hz] at this
    exact abs_eq_zero.1 (le_antisymm this (abs_nonneg _))
  refine ⟨hd, ?_⟩
  have hxs : ∀ i, |x i| ≤ κ * C2 * W := fun i => by
    rw [hinv x i]
    have hbs : ∀ j, |∑ k, A j k * x k| ≤ C2 * W := fun j => by rw [hx j]; exact hb.size j
    exact (lin_le Ai (mul_nonneg h2 hW) hbs i).trans (le_of_eq (by ring))
  have hdiff : ∀ i, |x' i - x i| ≤ 2 * (κ * (E * (κ * C2) + 3 * C2)) * ε * W := by
    intro i
    haveI : Nonempty (Fin n) := ⟨i⟩
    obtain ⟨i0, hi0⟩ := Finite.exists_max fun i => |x' i - x i|
    set D := |x' i0 - x i0| with hD
    have hD0 : 0 ≤ D := abs_nonneg _
    have hP0 : 0 ≤ κ * C2 * W + D := add_nonneg (mul_nonneg p1 hW) hD0
    have hxs' : ∀ j, |x' j| ≤ κ * C2 * W + D := fun j => by
      rw [show x' j = x j + (x' j - x j) by ring]
      exact (abs_add_le _ _).trans (add_le_add (hxs j) (hi0 j))
    have hres : ∀ j, |∑ k, A j k * (x' k - x k)| ≤ ε * (E * (κ * C2 * W + D) + 3 * C2 * W) := by
      intro j
      have e : ∑ k, A j k * (x' k - x k) = (∑ k, A' j k * x' k - b' j) + ∑ k, (A j k - A' j k) * x' k + (b' j - b j) := by
        simp only [mul_sub, sub_mul, sum_sub_distrib, hx j]; ring
      have r1 := hx' hd j
      have r2 := hpert x' _ hxs' j
      have r3 := hb.diff j
      have r4 : |b' j| ≤ 2 * C2 * W := by
        have := hb.size j
        rw [show b' j = b j + (b' j - b j) by ring]
        refine (abs_add_le _ _).trans ?_
        have : C2 * ε * W ≤ C2 * W := by
          have := mul_le_mul_of_nonneg_right ε1 (mul_nonneg h2 hW)
          linarith
        linarith [hb.diff j]
      have r5 : ∑ k, |A' j k| * |x' k| ≤ (α + n * C1) * (κ * C2 * W + D) := by
        have : ∑ k, |A' j k| ≤ α + n * C1 := by
          calc ∑ k, |A' j k| ≤ ∑ k, (|A j k| + C1) := sum_le_sum fun k _ => by
                rw [show A' j k = A j k + (A' j k - A j k) by ring]
                refine (abs_add_le _ _).trans (add_le_add le_rfl ((hAA j k).trans ?_))
                exact mul_le_of_le_one_right h1 ε1
            _ = ∑ k, |A j k| + n * C1 := by simp [sum_add_distrib]
            _ ≤ _ := by have := row_le A j; rw [hα]; linarith
        calc _ ≤ ∑ k, |A' j k| * (κ * C2 * W + D) := sum_le_sum fun k _ => mul_le_mul_of_nonneg_left (hxs' k) (abs_nonneg _)
          _ ≤ _ := by rw [← sum_mul]; exact mul_le_mul_of_nonneg_right this hP0
      rw [e]
      refine (abs_add_le _ _).trans ((add_le_add (abs_add_le _ _) le_rfl).trans ?_)
      have r6 : ε * (∑ k, |A' j k| * |x' k| + |b' j|) ≤ ε * ((α + n * C1) * (κ * C2 * W + D) + 2 * C2 * W) :=
        mul_le_mul_of_nonneg_left (add_le_add r5 r4) hε
      rw [hE]
      linarith
    have hDb : D ≤ κ * (ε * (E * (κ * C2 * W + D) + 3 * C2 * W)) := by
      have := lin_le Ai (by positivity) hres i0
      rwa [← hinv (fun k => x' k - x k) i0] at this
    have : D ≤ 2 * (κ * (E * (κ * C2) + 3 * C2)) * ε * W := by
      have := mul_le_mul_of_nonneg_right c3 hD0
      linarith
    exact (hi0 i).trans this
  refine ⟨fun i => (hxs i).trans (mul_le_mul_of_nonneg_right (by linarith) hW), fun i => (hdiff i).trans ?_⟩
  exact mul_le_mul_of_nonneg_right (mul_le_mul_of_nonneg_right (by linarith) hε) hW

/-- Extension of a vector by zeros. -/
def ext0 (r : Fin n → ℝ) (p : Nat) : ℝ := if h : p < n then r ⟨p, h⟩ else 0

theorem byColumns_ext {k : Nat} (F : (Nat → ℝ) → Nat → ℝ) (B : Matrix (Fin n) (Fin k) ℝ) (i : Fin n) (a : Fin k) :
    byColumns n F B i a = F (ext0 fun p => B p a) i := rfl

/-- The formula of Sherman, Morrison and Woodbury with inexact solvers. -/
theorem smw_near (B : Matrix (Fin n) (Fin n) ℝ) (hB : B.det ≠ 0) (U : Matrix (Fin n) (Fin q) ℝ) (G0 : Matrix (Fin q) (Fin q) ℝ)
    (hG : ∀ Y : Matrix (Fin n) (Fin q) ℝ, B * Y = U → (G0 + U.transpose * Y).det ≠ 0) {C0 : ℝ} (h0 : 0 ≤ C0) :
    ∃ C : ℝ, 0 ≤ C ∧ ∀ (ε W : ℝ) (F F' : (Nat → ℝ) → Nat → ℝ) (d d' : DenseSolver ℝ q) (b b' : Matrix (Fin n) (Fin 1) ℝ), 0 ≤ ε → 0 ≤ W → C * ε ≤ 1 →
      (∀ (r : Fin n → ℝ) i, ∑ j, B i j * F (ext0 r) j = r i) → (∀ r : Fin n → ℝ, Backward ε B r fun j => F' (ext0 r) j) →
      ExactDense d → BackwardDense ε d' → Near C0 ε W (fun i => b i 0) (fun i => b' i 0) →
      Near C ε W (fun i => smwSolve (byColumns n F) (byColumns n F) d U G0 U.transpose b i 0)
        fun i => smwSolve (byColumns n F') (byColumns n F') d' U G0 U.transpose b' i 0 := by
  obtain ⟨Y0, hY0⟩ : ∃ Y0 : Matrix (Fin n) (Fin q) ℝ, B * Y0 = U := ⟨B⁻¹ * U, by
    rw [← Matrix.mul_assoc, Matrix.mul_nonsing_inv _ (isUnit_iff_ne_zero.2 hB), Matrix.one_mul]⟩
  have uniq : ∀ Y, B * Y = U → Y = Y0 := fun Y hY => by
    have := congrArg (fun Z => B⁻¹ * Z) (hY.trans hY0.symm)
    simpa only [← Matrix.mul_assoc, Matrix.nonsing_inv_mul _ (isUnit_iff_ne_zero.2 hB), Matrix.one_mul] using this
  set K := mass1 U with hK
  have hK0 : 0 ≤ K := mass1_nonneg _
  set K' := mass1 U.transpose with hK'
  have hK0' : 0 ≤ K' := mass1_nonneg _
  obtain ⟨Cy, cy0, hy⟩ := solve_near B hB le_rfl h0
  obtain ⟨CY, cY0, hY⟩ := solve_near B hB le_rfl hK0
  obtain ⟨Ct, ct0, ht⟩ := solve_near (G0 + U.transpose * Y0) (hG Y0 hY0) (mul_nonneg hK0' cY0) (mul_nonneg hK0' cy0)
  obtain ⟨Cv, cv0, hv⟩ := solve_near B hB le_rfl (mul_nonneg hK0 ct0)
  refine ⟨Cy + CY + Ct + Cv, by positivity, fun ε W F F' d d' b b' hε hW hC hF hF' hd hd' hb => ?_⟩
  have zB : ∀ i j, |B i j - B i j| ≤ 0 * ε := fun i j => by simp
  have z1 := mul_nonneg cy0 hε
  have z2 := mul_nonneg cY0 hε
  have z3 := mul_nonneg ct0 hε
  have z4 := mul_nonneg cv0 hε
  have ny := (hy ε W B _ _ (fun j => F (ext0 fun i => b i 0) j) (fun j => F' (ext0 fun i => b' i 0) j) hε hW (by linarith) zB hb (hF _) fun _ => hF' _).2
  have nY : ∀ a, Near CY ε 1 (fun j : Fin n => F (ext0 fun i => U i a) j) fun j => F' (ext0 fun i => U i a) j := fun a =>
    (hY ε 1 B (fun i => U i a) (fun i => U i a) _ _ hε zero_le_one (by linarith) zB
      ⟨fun i => by rw [mul_one]; exact entry_le U i a, fun i => by rw [sub_self, abs_zero, mul_one]; exact mul_nonneg hK0 hε⟩ (hF _) fun _ => hF' _).2
  have eY : byColumns n F U = Y0 := uniq _ (by
    ext i a
    rw [Matrix.mul_apply]
    exact hF (fun p => U p a) i)
  set G' := G0 + U.transpose * byColumns n F' U with hG'
  have nG : ∀ a c, |G' a c - (G0 + U.transpose * Y0) a c| ≤ K' * CY * ε := by
    intro a c
    have e : G' a c - (G0 + U.transpose * Y0) a c = ∑ j, U.transpose a j * (F' (ext0 fun i => U i c) j - F (ext0 fun i => U i c) j) := by
      rw [hG', ← eY, Matrix.add_apply, Matrix.add_apply, Matrix.mul_apply, Matrix.mul_apply, add_sub_add_left_eq_sub, ← sum_sub_distrib]
      exact sum_congr rfl fun j _ => by rw [byColumns_ext, byColumns_ext, mul_sub]
    rw [e]
    refine (lin_le U.transpose (mul_nonneg cY0 hε) (fun j => ?_) a).trans (le_of_eq (by ring))
    have := (nY c).diff j
    rwa [mul_one] at this
  set r : Matrix (Fin q) (Fin 1) ℝ := U.transpose * byColumns n F b with hr
  set r' : Matrix (Fin q) (Fin 1) ℝ := U.transpose * byColumns n F' b' with hr'
  have nr : Near (K' * Cy) ε W (fun a => r a 0) fun a => r' a 0 := ny.lin cy0 hε hW U.transpose
  have nt := (ht ε W G' _ _ (fun a => d (G0 + U.transpose * Y0) r a 0) (fun a => d' G' r' a 0) hε hW (by linarith) nG nr
    (fun a => by
      have := congrFun (congrFun (hd _ r (hG Y0 hY0)) a) 0
      rwa [Matrix.mul_apply] at this)
    fun hdet => hd' G' r' hdet).2
  have nw : Near (K * Ct) ε W (fun i => (U * d (G0 + U.transpose * Y0) r) i 0) fun i => (U * d' G' r') i 0 := nt.lin ct0 hε hW U
  have nv := (hv ε W B _ _ (fun j => F (ext0 fun i => (U * d (G0 + U.transpose * Y0) r) i 0) j) (fun j => F' (ext0 fun i => (U * d' G' r') i 0) j) hε hW
    (by linarith) zB nw (hF _) fun _ => hF' _).2
  have fin := (ny.sub nv).mono (C' := Cy + CY + Ct + Cv) (by linarith) hε hW
  have e1 : ∀ i, smwSolve (byColumns n F) (byColumns n F) d U G0 U.transpose b i 0 =
      F (ext0 fun i => b i 0) i - F (ext0 fun i => (U * d (G0 + U.transpose * Y0) r) i 0) i := fun i => by
    rw [hr, ← eY]; rfl
  simp only [e1]
  exact fin

/-- Linear regression on the covariates with an inexact solver. -/
theorem regress_near {L : Nat} {X : Nat → Nat → ℝ} (hd : (gram q L X).det ≠ 0) {C0 : ℝ} (h0 : 0 ≤ C0) :
    ∃ C : ℝ, 0 ≤ C ∧ ∀ (ε W : ℝ) (d d' : DenseSolver ℝ q) (r r' : Nat → ℝ), 0 ≤ ε → 0 ≤ W → C * ε ≤ 1 → ExactDense d → BackwardDense ε d' →
      Near C0 ε W (fun j : Fin L => r j) (fun j : Fin L => r' j) → Near C ε W (regress L d X r) (regress L d' X r') := by
  set XT : Fin q → Fin L → ℝ := fun a j => X j a with hXT
  obtain ⟨C, c0, hC⟩ := solve_near (gram q L X) hd le_rfl (mul_nonneg (mass1_nonneg XT) h0)
  refine ⟨C, c0, fun ε W d d' r r' hε hW hCε hE hB hr => ?_⟩
  have nb := hr.lin h0 hε hW XT
  have es : ∀ (r : Nat → ℝ) (a : Fin q), ∑ j ∈ range L, X j a * r j = ∑ j, XT a j * r j := fun r a => sum_range _
  refine (hC ε W (gram q L X) _ _ _ _ hε hW hCε (fun i j => by simp) nb (fun a => ?_) fun _ a => ?_).2
  · have := congrFun (congrFun (hE (gram q L X) (Matrix.of fun a _ => ∑ j ∈ range L, X j a * r j) hd) a) 0
    rw [Matrix.mul_apply, Matrix.of_apply, es] at this
    exact this
  · have := hB (gram q L X) (Matrix.of fun a _ => ∑ j ∈ range L, X j a * r' j) hd a
    rw [Matrix.of_apply, es] at this
    exact this

end Fdapde.PDE
