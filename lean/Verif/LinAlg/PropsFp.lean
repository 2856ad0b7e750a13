import Verif.LinAlg.FpModel
import Verif.LinAlg.PropsMisc
import Verif.LinAlg.PropsKron
import Mathlib.Analysis.Matrix.Normed
import Mathlib.Analysis.Normed.Group.Basic
/- C167: Kronecker products, lumping and the Sherman-Morrison-Woodbury solver in floating point. -/
namespace Fdapde.LinAlg
open Fdapde.Fp
variable (r : Rounding) (S : List ℝ → ℝ)

/-! ### Kronecker -/

/-- Every coefficient of a Kronecker product has the relative error of one rounding, and is zero exactly when the exact one is. -/
theorem C167_kronecker (A B : Mat ℝ) (i j : Nat) (hi : i < kronRows A B) (hj : j < kronCols A B) :
    ∃ x x', kronCoeff A B i j = .ok x ∧ kronCoeffFp r A B i j = .ok x' ∧ |x' - x| ≤ r.u * |x| ∧ (x' = 0 ↔ x = 0) := by
  have h := kronCoeff_total A B i j hi hj
  refine ⟨_, r.rnd (A.coeff (i / B.rows) (j / B.cols) * B.coeff (i % B.rows) (j % B.cols)), h, ?_, r.err _, r.eq_zero⟩
  have hr : ¬ (B.rows = 0 ∨ B.cols = 0) := by
    rintro (h0 | h0)
    · rw [kronRows, h0] at hi; simp at hi
    · rw [kronCols, h0] at hj; simp at hj
  unfold kronRows at hi
  unfold kronCols at hj
  have hr' : 0 < B.rows := Nat.pos_of_ne_zero fun h => hr (.inl h)
  have hc' : 0 < B.cols := Nat.pos_of_ne_zero fun h => hr (.inr h)
  have h1 := (Nat.div_lt_iff_lt_mul hr').2 hi
  have h2 := (Nat.div_lt_iff_lt_mul hc').2 hj
  have h3 := Nat.mod_lt i hr'
  have h4 := Nat.mod_lt j hc'
  simp only [kronCoeffFp, hr, if_false, Mat.get, h1, h2, h3, h4, and_self, if_true, Res.ok_bind]

/-! ### Lumping -/

theorem rel_of_nonneg {l : List ℝ} {s : ℝ} (h : r.Adds l s) (hl : ∀ x ∈ l, 0 ≤ x) : r.Rel l.length l.sum s := by
  induction h with
  | nil => simpa using Rounding.Rel.refl (r := r) (le_refl (0 : ℝ))
  | one x => simpa using (Rounding.Rel.refl (r := r) (hl x (by simp))).mono (Nat.zero_le 1)
  | start x => simpa using Rounding.Rel.rnd0 (r := r) (hl x (by simp))
  | @add l l' a b h0 h0' _ _ ih ih' =>
    have h1 : 0 < l.length := List.length_pos_iff.2 h0
    have h2 : 0 < l'.length := List.length_pos_iff.2 h0'
    rw [List.sum_append, List.length_append]
    have := (((ih fun x hx => hl x (by simp [hx])).mono (k := l.length + l'.length - 1) (by omega)).add
      ((ih' fun x hx => hl x (by simp [hx])).mono (by omega))).rnd
    exact this.mono (by omega)
  | @perm l l' a hp _ ih =>
    rw [← hp.length_eq, ← hp.sum_eq]
    exact ih fun x hx => hl x (hp.subset hx)

theorem sum_map_range (f : Nat → ℝ) (n : Nat) : ((List.range n).map f).sum = ∑ j ∈ Finset.range n, f j := by
  induction n with
  | zero => simp
  | succ n ih => rw [List.range_succ, List.map_append, List.sum_append, ih, Finset.sum_range_succ]; simp

/-- The lumped matrix of a dense matrix, whatever the order in which Eigen adds up the rows: it is diagonal, its diagonal is the row sums up to the
number of coefficients of a row times a rounding of the sum of the absolute values of the row, and is accurate to the same number of relative
roundings (hence positive when the row sum is) on the rows of non-negative coefficients.  Matrices which are not square throw. -/
theorem C167_lump_dense (hS : r.Summation S) (A : Mat ℝ) :
    (A.rows ≠ A.cols → lumpDenseFp S A = .throws) ∧
    (A.rows = A.cols → ∃ L, lumpDenseFp S A = .ok L ∧ L.rows = A.rows ∧ L.cols = A.rows ∧ (∀ i j, i ≠ j → L.coeff i j = 0) ∧
      ∀ i, r.Err A.cols (∑ j ∈ Finset.range A.cols, |A.coeff i j|) (∑ j ∈ Finset.range A.cols, A.coeff i j) (L.coeff i i) ∧
        ((∀ j < A.cols, 0 ≤ A.coeff i j) →
          r.Rel A.cols (∑ j ∈ Finset.range A.cols, A.coeff i j) (L.coeff i i) ∧
          (0 < ∑ j ∈ Finset.range A.cols, A.coeff i j → 0 < L.coeff i i))) := by
  refine ⟨fun h => by simp [lumpDenseFp, h], fun h => ?_⟩
  refine ⟨⟨A.rows, A.rows, fun i j => if i = j then S ((List.range A.cols).map (A.coeff i)) else 0⟩, by rw [lumpDenseFp, if_pos h], rfl, rfl,
    fun i j hij => by simp [hij], fun i => ?_⟩
  simp only [if_true]
  have hA := hS ((List.range A.cols).map (A.coeff i))
  refine ⟨?_, fun h0 => ?_⟩
  · have := hA.err
    simpa [List.map_map, Function.comp_def, sum_map_range] using this
  · have h1 := rel_of_nonneg r hA (by simpa using h0)
    rw [List.length_map, List.length_range, sum_map_range] at h1
    refine ⟨h1, fun hp => lt_of_le_of_ne h1.2.1 fun e => ?_⟩
    exact hp.ne' (h1.eq_zero.1 e.symm)

theorem rowVals_sum (l : List (Nat × Nat × ℝ)) (i : Nat) : (rowVals l i).sum = rowSum l i := by
  rw [rowSum, fold_acc (fun t : Nat × Nat × ℝ => t.1 = i), zero_add]; rfl

/-- The same for a sparse matrix, where only the entries stored in a row count: `c` entries give `c` roundings. -/
theorem C167_lump_sparse (hS : r.Summation S) (rows cols : Nat) (l : List (Nat × Nat × ℝ)) (hl : ∀ t ∈ l, t.1 < rows ∧ t.2.1 < cols) :
    (rows ≠ cols → lumpSparseFp S rows cols l = .throws) ∧
    (rows = cols → ∃ d, lumpSparseFp S rows cols l = .ok d ∧ d.map (fun t => (t.1, t.2.1)) = (List.range rows).map (fun i => (i, i)) ∧
      ∀ t ∈ d, r.Err (rowVals l t.1).length ((rowVals l t.1).map fun x => |x|).sum (∑ j ∈ Finset.range cols, tripletCoeff l t.1 j) t.2.2 ∧
        ((∀ e ∈ l, e.1 = t.1 → 0 ≤ e.2.2) →
          r.Rel (rowVals l t.1).length (∑ j ∈ Finset.range cols, tripletCoeff l t.1 j) t.2.2 ∧
          (0 < ∑ j ∈ Finset.range cols, tripletCoeff l t.1 j → 0 < t.2.2))) := by
  refine ⟨fun h => by simp [lumpSparseFp, h], fun h => ?_⟩
  refine ⟨_, by simp only [lumpSparseFp, h, if_true]; rfl, by simp [h, Function.comp_def], fun t ht => ?_⟩
  obtain ⟨i, -, rfl⟩ := List.mem_map.1 ht
  simp only
  rw [← rowSum_eq cols l (fun t ht => (hl t ht).2) i, ← rowVals_sum]
  have hA := hS (rowVals l i)
  refine ⟨hA.err, fun h0 => ?_⟩
  have h1 := rel_of_nonneg r hA (fun x hx => by
    obtain ⟨e, he, rfl⟩ := List.mem_map.1 hx
    have := List.mem_filter.1 he
    exact h0 e this.1 (by simpa using this.2))
  exact ⟨h1, fun hp => lt_of_le_of_ne h1.2.1 fun e => hp.ne' (h1.eq_zero.1 e.symm)⟩

/-- Sums from the first to the last meet the hypothesis, and the rows of this matrix are non-negative with a positive sum. -/
example : r.Summation r.sumLeft ∧ ∃ A : Mat ℝ, A.rows = 3 ∧ A.cols = 3 ∧ (∀ i, ∀ j < A.cols, 0 ≤ A.coeff i j) ∧
    0 < ∑ j ∈ Finset.range A.cols, A.coeff 1 j :=
  ⟨r.sumLeft_adds, ⟨3, 3, fun i j => if i = j then 2 else 1⟩, rfl, rfl, fun i j _ => by dsimp only; split <;> norm_num,
    by norm_num [Finset.sum_range_succ]⟩

/-! ### Sherman-Morrison-Woodbury -/

open scoped Matrix.Norms.Operator
section Norms
variable {m p l : Nat}

theorem norm_le_of_abs {E F : Matrix (Fin m) (Fin p) ℝ} (h : ∀ i j, |E i j| ≤ F i j) : ‖E‖ ≤ ‖F‖ := by
  rw [Matrix.linfty_opNorm_def, Matrix.linfty_opNorm_def, NNReal.coe_le_coe]
  refine Finset.sup_mono_fun fun i _ => Finset.sum_le_sum fun j _ => ?_
  rw [← NNReal.coe_le_coe, coe_nnnorm, coe_nnnorm, Real.norm_eq_abs, Real.norm_eq_abs]
  exact (h i j).trans (le_abs_self _)

theorem norm_map_abs (X : Matrix (Fin m) (Fin p) ℝ) : ‖X.map fun x => |x|‖ = ‖X‖ := by
  rw [Matrix.linfty_opNorm_def, Matrix.linfty_opNorm_def]
  simp

/-- An error bounded by a multiple of the product of the absolute values. -/
theorem norm_le_mul {E : Matrix (Fin m) (Fin l) ℝ} {X : Matrix (Fin m) (Fin p) ℝ} {Y : Matrix (Fin p) (Fin l) ℝ} {c : ℝ} (hc : 0 ≤ c)
    (h : ∀ i j, |E i j| ≤ c * ∑ k, |X i k| * |Y k j|) : ‖E‖ ≤ c * (‖X‖ * ‖Y‖) := by
  have h1 : ‖E‖ ≤ ‖c • ((X.map fun x => |x|) * (Y.map fun x => |x|))‖ := norm_le_of_abs fun i j => by
    simpa [Matrix.mul_apply] using h i j
  refine h1.trans ?_
  rw [norm_smul, Real.norm_eq_abs, abs_of_nonneg hc]
  refine mul_le_mul_of_nonneg_left ?_ hc
  rw [← norm_map_abs X, ← norm_map_abs Y]
  exact Matrix.linfty_opNorm_mul _ _

theorem sum_finRange (f : Fin p → ℝ) : ((List.finRange p).map f).sum = ∑ k, f k := by
  rw [← List.ofFn_eq_map, List.sum_ofFn]

/-- The rounded product of two matrices with inner dimension `p` is accurate to `p + 1` roundings of the product of the norms. -/
theorem mulFp_err (hS : r.Summation S) (X : Matrix (Fin m) (Fin p) ℝ) (Y : Matrix (Fin p) (Fin l) ℝ) :
    ‖mulFp r S X Y - X * Y‖ ≤ (r.b ^ (p + 1) - 1) * (‖X‖ * ‖Y‖) := by
  refine norm_le_mul (sub_nonneg.2 (one_le_pow₀ r.one_le_b)) fun i j => ?_
  have h := (hS ((List.finRange p).map fun h => r.rnd (X i h * Y h j))).sum (l := List.finRange p) (m := fun h => |X i h| * |Y h j|)
    (x := fun h => X i h * Y h j) (k := 1) (fun h _ => by
      have := (Rounding.Err.exact (r := r) (X i h * Y h j)).rnd
      rwa [abs_mul] at this)
  rw [List.length_finRange, sum_finRange, sum_finRange, Nat.add_comm] at h
  have := h.2
  rwa [Matrix.sub_apply, Matrix.mul_apply]

/-- A rounded sum or difference of matrices. -/
theorem rnd_norm_err (X : Matrix (Fin m) (Fin p) ℝ) : ‖X.map r.rnd - X‖ ≤ r.u * ‖X‖ := by
  have h1 : ‖X.map r.rnd - X‖ ≤ ‖r.u • (X.map fun x => |x|)‖ := norm_le_of_abs fun i j => by
    simpa using r.err (X i j)
  rwa [norm_smul, Real.norm_eq_abs, abs_of_nonneg r.u_pos, norm_map_abs] at h1

end Norms

/-- What the residuals of the steps contribute to the residual of the result. -/
theorem smw_residual {n q k : Nat} {A B : Matrix (Fin n) (Fin n) ℝ} {U Y R2 : Matrix (Fin n) (Fin q) ℝ} {C invC G E : Matrix (Fin q) (Fin q) ℝ}
    {V : Matrix (Fin q) (Fin n) ℝ} {b y v x r1 e4 r5 : Matrix (Fin n) (Fin k) ℝ} {t e3 : Matrix (Fin q) (Fin k) ℝ}
    (hB : B * A = 1) (hC : C * invC = 1) (hy : A * y = b + r1) (hY : A * Y = U + R2) (hG : G = invC + V * Y + E)
    (ht : G * t = V * y + e3) (hv : A * v = U * t + e4) (hx : x = y - v + r5) :
    (A + U * C * V) * x - b = r1 - e4 + U * C * (E * t - e3 + V * B * (R2 * t - e4)) + (A + U * C * V) * r5 := by
  have h1 : Y * t - v = B * (R2 * t - e4) := by
    have : A * (Y * t - v) = R2 * t - e4 := by
      rw [Matrix.mul_sub, ← Matrix.mul_assoc, hY, hv, Matrix.add_mul]; abel
    rw [← this, ← Matrix.mul_assoc, hB, Matrix.one_mul]
  have h2 : V * y = invC * t + V * (Y * t) + E * t - e3 := by
    have : V * y = G * t - e3 := by rw [ht]; abel
    rw [this, hG, Matrix.add_mul, Matrix.add_mul, Matrix.mul_assoc V]
  have h3 : U * C * (invC * t) = U * t := by
    rw [Matrix.mul_assoc U, ← Matrix.mul_assoc C, hC, Matrix.one_mul]
  have h4 : V * (y - v) = invC * t + (E * t - e3 + V * B * (R2 * t - e4)) := by
    rw [Matrix.mul_assoc V B, ← h1, Matrix.mul_sub, Matrix.mul_sub, h2]; abel
  rw [hx, Matrix.mul_add, Matrix.add_mul A, Matrix.mul_assoc (U * C) V, h4, Matrix.mul_add (U * C) (invC * t), h3, Matrix.mul_sub, hy, hv]
  abel

/-- A number computed from the intermediate results of the solver: `y = A⁻¹ b`, `Y = A⁻¹ U`, `G = C⁻¹ + V Y`, `t = G⁻¹ V y`, `v = A⁻¹ U t`, and from
`B = A⁻¹`. -/
noncomputable def smwAmp {n q k : Nat} (A B : Matrix (Fin n) (Fin n) ℝ) (U : Matrix (Fin n) (Fin q) ℝ) (C invC : Matrix (Fin q) (Fin q) ℝ)
    (V : Matrix (Fin q) (Fin n) ℝ) (y v : Matrix (Fin n) (Fin k) ℝ) (Y : Matrix (Fin n) (Fin q) ℝ) (G : Matrix (Fin q) (Fin q) ℝ)
    (t : Matrix (Fin q) (Fin k) ℝ) : ℝ :=
  ‖A‖ * ‖y‖ + (‖U‖ * ‖t‖ + ‖A‖ * ‖v‖) +
    ‖U * C‖ * ((‖invC‖ + 3 * (‖V‖ * ‖Y‖) + ‖G‖) * ‖t‖ + ‖V‖ * ‖y‖ + ‖V * B‖ * (‖A‖ * ‖Y‖ * ‖t‖ + (‖U‖ * ‖t‖ + ‖A‖ * ‖v‖))) +
    ‖A + U * C * V‖ * (‖y‖ + ‖v‖)

theorem smw_bound (hS : r.Summation S) {n q k : Nat} {η : ℝ} (hη : η ≤ 1) (hu : r.u ≤ η) (hn : r.b ^ (n + 1) - 1 ≤ η) (hq : r.b ^ (q + 1) - 1 ≤ η)
    (A B : Matrix (Fin n) (Fin n) ℝ) (U : Matrix (Fin n) (Fin q) ℝ) (C invC : Matrix (Fin q) (Fin q) ℝ) (V : Matrix (Fin q) (Fin n) ℝ)
    (b : Matrix (Fin n) (Fin k) ℝ) (hB : B * A = 1) (hC : C * invC = 1)
    (solveAk : Matrix (Fin n) (Fin k) ℝ → Matrix (Fin n) (Fin k) ℝ) (solveAq : Matrix (Fin n) (Fin q) ℝ → Matrix (Fin n) (Fin q) ℝ)
    (solveG : Matrix (Fin q) (Fin q) ℝ → Matrix (Fin q) (Fin k) ℝ → Matrix (Fin q) (Fin k) ℝ)
    (hAk : ∀ x, ‖A * solveAk x - x‖ ≤ η * (‖A‖ * ‖solveAk x‖)) (hAq : ∀ x, ‖A * solveAq x - x‖ ≤ η * (‖A‖ * ‖solveAq x‖))
    (y v : Matrix (Fin n) (Fin k) ℝ) (Y : Matrix (Fin n) (Fin q) ℝ) (G : Matrix (Fin q) (Fin q) ℝ) (t : Matrix (Fin q) (Fin k) ℝ)
    (hy : y = solveAk b) (hY : Y = solveAq U) (hG : G = (invC + mulFp r S V Y).map r.rnd) (ht : t = solveG G (mulFp r S V y))
    (hv : v = solveAk (mulFp r S U t)) (hGs : ∀ x, ‖G * solveG G x - x‖ ≤ η * (‖G‖ * ‖solveG G x‖)) :
    ‖(A + U * C * V) * smwSolveFp r S solveAk solveAq solveG U invC V b - b‖ ≤
      η * smwAmp A B U C invC V y v Y G t := by
  unfold smwAmp
  have hη0 : 0 ≤ η := r.u_pos.trans hu
  have hx : smwSolveFp r S solveAk solveAq solveG U invC V b = (y - v).map r.rnd := by
    rw [hv, ht, hG, hY, hy]; rfl
  rw [hx]
  -- the steps
  have e1 : ‖A * y - b‖ ≤ η * (‖A‖ * ‖y‖) := by rw [hy]; exact hAk b
  have e2 : ‖A * Y - U‖ ≤ η * (‖A‖ * ‖Y‖) := by rw [hY]; exact hAq U
  have m1 := mulFp_err r S hS V Y
  have m2 := mulFp_err r S hS V y
  have m3 := mulFp_err r S hS U t
  have e5 : ‖(y - v).map r.rnd - (y - v)‖ ≤ η * (‖y‖ + ‖v‖) :=
    (rnd_norm_err r (y - v)).trans (mul_le_mul hu (norm_sub_le _ _) (norm_nonneg _) hη0)
  have hVY : ‖mulFp r S V Y - V * Y‖ ≤ η * (‖V‖ * ‖Y‖) := m1.trans (mul_le_mul_of_nonneg_right hn (by positivity))
  have hE : ‖G - (invC + V * Y)‖ ≤ η * (‖invC‖ + 3 * (‖V‖ * ‖Y‖)) := by
    have a1 : ‖mulFp r S V Y‖ ≤ 2 * (‖V‖ * ‖Y‖) := by
      have h1 : ‖mulFp r S V Y‖ ≤ ‖mulFp r S V Y - V * Y‖ + ‖V * Y‖ := by
        simpa using norm_add_le (mulFp r S V Y - V * Y) (V * Y)
      have h2 := Matrix.linfty_opNorm_mul V Y
      have h3 : η * (‖V‖ * ‖Y‖) ≤ 1 * (‖V‖ * ‖Y‖) := mul_le_mul_of_nonneg_right hη (by positivity)
      linarith
    have a2 := rnd_norm_err r (invC + mulFp r S V Y)
    have a3 : ‖invC + mulFp r S V Y‖ ≤ ‖invC‖ + 2 * (‖V‖ * ‖Y‖) := (norm_add_le _ _).trans (by linarith)
    have a4 : r.u * ‖invC + mulFp r S V Y‖ ≤ η * (‖invC‖ + 2 * (‖V‖ * ‖Y‖)) := mul_le_mul hu a3 (norm_nonneg _) hη0
    have a5 : G - (invC + V * Y) = ((invC + mulFp r S V Y).map r.rnd - (invC + mulFp r S V Y)) + (mulFp r S V Y - V * Y) := by
      rw [hG]; abel
    rw [a5]
    refine (norm_add_le _ _).trans ?_
    linarith
  have e3 : ‖G * t - V * y‖ ≤ η * (‖G‖ * ‖t‖ + ‖V‖ * ‖y‖) := by
    have h1 := hGs (mulFp r S V y)
    rw [← ht] at h1
    have h2 : G * t - V * y = (G * t - mulFp r S V y) + (mulFp r S V y - V * y) := by abel
    rw [h2]
    have h3 := m2.trans (mul_le_mul_of_nonneg_right hn (by positivity))
    refine (norm_add_le _ _).trans ?_
    linarith
  have e4 : ‖A * v - U * t‖ ≤ η * (‖U‖ * ‖t‖ + ‖A‖ * ‖v‖) := by
    have h1 := hAk (mulFp r S U t)
    rw [← hv] at h1
    have h2 : A * v - U * t = (A * v - mulFp r S U t) + (mulFp r S U t - U * t) := by abel
    rw [h2]
    have h3 := m3.trans (mul_le_mul_of_nonneg_right hq (by positivity))
    refine (norm_add_le _ _).trans ?_
    linarith
  -- together
  rw [smw_residual (r1 := A * y - b) (R2 := A * Y - U) (E := G - (invC + V * Y)) (e3 := G * t - V * y) (e4 := A * v - U * t)
    (r5 := (y - v).map r.rnd - (y - v)) hB hC (add_sub_cancel _ _).symm (add_sub_cancel _ _).symm
    (add_sub_cancel _ _).symm (add_sub_cancel _ _).symm (add_sub_cancel _ _).symm (add_sub_cancel _ _).symm]
  generalize A * y - b = r1 at *
  generalize A * Y - U = R2 at *
  generalize G - (invC + V * Y) = E at *
  generalize G * t - V * y = f3 at *
  generalize A * v - U * t = f4 at *
  generalize (y - v).map r.rnd - (y - v) = r5 at *
  have c1 : ‖E * t‖ ≤ η * (‖invC‖ + 3 * (‖V‖ * ‖Y‖)) * ‖t‖ :=
    (Matrix.linfty_opNorm_mul _ _).trans (mul_le_mul_of_nonneg_right hE (norm_nonneg _))
  have c2 : ‖R2 * t‖ ≤ η * (‖A‖ * ‖Y‖) * ‖t‖ :=
    (Matrix.linfty_opNorm_mul _ _).trans (mul_le_mul_of_nonneg_right e2 (norm_nonneg _))
  have c3 : ‖V * B * (R2 * t - f4)‖ ≤ ‖V * B‖ * (η * (‖A‖ * ‖Y‖) * ‖t‖ + η * (‖U‖ * ‖t‖ + ‖A‖ * ‖v‖)) :=
    (Matrix.linfty_opNorm_mul _ _).trans (mul_le_mul_of_nonneg_left ((norm_sub_le _ _).trans (add_le_add c2 e4)) (norm_nonneg _))
  have c4 : ‖U * C * (E * t - f3 + V * B * (R2 * t - f4))‖ ≤ ‖U * C‖ * (η * (‖invC‖ + 3 * (‖V‖ * ‖Y‖)) * ‖t‖ +
      η * (‖G‖ * ‖t‖ + ‖V‖ * ‖y‖) + ‖V * B‖ * (η * (‖A‖ * ‖Y‖) * ‖t‖ + η * (‖U‖ * ‖t‖ + ‖A‖ * ‖v‖))) :=
    (Matrix.linfty_opNorm_mul _ _).trans (mul_le_mul_of_nonneg_left
      ((norm_add_le _ _).trans (add_le_add ((norm_sub_le _ _).trans (add_le_add c1 e3)) c3)) (norm_nonneg _))
  have c5 : ‖(A + U * C * V) * r5‖ ≤ ‖A + U * C * V‖ * (η * (‖y‖ + ‖v‖)) :=
    (Matrix.linfty_opNorm_mul _ _).trans (mul_le_mul_of_nonneg_left e5 (norm_nonneg _))
  refine (norm_add_le _ _).trans ((add_le_add ((norm_add_le _ _).trans (add_le_add ((norm_sub_le _ _).trans (add_le_add e1 e4)) c4)) c5).trans
    (le_of_eq ?_))
  ring

theorem norm_error_le {n k : Nat} (M Minv : Matrix (Fin n) (Fin n) ℝ) (hM : Minv * M = 1) (b x xe : Matrix (Fin n) (Fin k) ℝ) (hxe : M * xe = b)
    {ρ : ℝ} (hρ : ‖M * x - b‖ ≤ ρ) : ‖x - xe‖ ≤ ‖Minv‖ * ρ := by
  have : x - xe = Minv * (M * x - b) := by
    rw [← hxe, ← Matrix.mul_sub, ← Matrix.mul_assoc, hM, Matrix.one_mul]
  rw [this]
  exact (Matrix.linfty_opNorm_mul _ _).trans (mul_le_mul_of_nonneg_left hρ (norm_nonneg _))

/-- The Sherman-Morrison-Woodbury solver in floating point, with linear solvers which round: if the two solvers have relative backward error `η`, and
so do products of matrices with inner dimensions `n` and `q`, the result of `solve` satisfies the system `(A + U C V) x = b` up to `η` times the
number `smwAmp` computed from the intermediate results, and is as far from the exact solution as that times the norm of the inverse.  `‖·‖` is the
greatest sum of absolute values of a row. -/
theorem C167_smw (hS : r.Summation S) {n q k : Nat} {η : ℝ} (hη : η ≤ 1) (hu : r.u ≤ η) (hn : r.b ^ (n + 1) - 1 ≤ η) (hq : r.b ^ (q + 1) - 1 ≤ η)
    (A B : Matrix (Fin n) (Fin n) ℝ) (U : Matrix (Fin n) (Fin q) ℝ) (C invC : Matrix (Fin q) (Fin q) ℝ) (V : Matrix (Fin q) (Fin n) ℝ)
    (b : Matrix (Fin n) (Fin k) ℝ) (hB : B * A = 1) (hC : C * invC = 1)
    (solveAk : Matrix (Fin n) (Fin k) ℝ → Matrix (Fin n) (Fin k) ℝ) (solveAq : Matrix (Fin n) (Fin q) ℝ → Matrix (Fin n) (Fin q) ℝ)
    (solveG : Matrix (Fin q) (Fin q) ℝ → Matrix (Fin q) (Fin k) ℝ → Matrix (Fin q) (Fin k) ℝ)
    (hAk : ∀ x, ‖A * solveAk x - x‖ ≤ η * (‖A‖ * ‖solveAk x‖)) (hAq : ∀ x, ‖A * solveAq x - x‖ ≤ η * (‖A‖ * ‖solveAq x‖))
    (y v : Matrix (Fin n) (Fin k) ℝ) (Y : Matrix (Fin n) (Fin q) ℝ) (G : Matrix (Fin q) (Fin q) ℝ) (t : Matrix (Fin q) (Fin k) ℝ)
    (hy : y = solveAk b) (hY : Y = solveAq U) (hG : G = (invC + mulFp r S V Y).map r.rnd) (ht : t = solveG G (mulFp r S V y))
    (hv : v = solveAk (mulFp r S U t)) (hGs : ∀ x, ‖G * solveG G x - x‖ ≤ η * (‖G‖ * ‖solveG G x‖)) :
    ‖(A + U * C * V) * smwSolveFp r S solveAk solveAq solveG U invC V b - b‖ ≤ η * smwAmp A B U C invC V y v Y G t ∧
    ∀ (Minv : Matrix (Fin n) (Fin n) ℝ) (xe : Matrix (Fin n) (Fin k) ℝ), Minv * (A + U * C * V) = 1 → (A + U * C * V) * xe = b →
      ‖smwSolveFp r S solveAk solveAq solveG U invC V b - xe‖ ≤ ‖Minv‖ * (η * smwAmp A B U C invC V y v Y G t) := by
  have h := smw_bound r S hS hη hu hn hq A B U C invC V b hB hC solveAk solveAq solveG hAk hAq y v Y G t hy hY hG ht hv hGs
  exact ⟨h, fun Minv xe h1 h2 => norm_error_le _ Minv h1 b _ xe h2 h⟩

/-- The 1 x 1 matrix with coefficient `a`. -/
abbrev one1 (a : ℝ) : Matrix (Fin 1) (Fin 1) ℝ := fun _ _ => a

theorem norm_one1 (X : Matrix (Fin 1) (Fin 1) ℝ) : ‖X‖ = |X 0 0| := by
  rw [Matrix.linfty_opNorm_def]; simp

/-- Every 1 x 1 system of a coefficient different from zero meets the hypotheses on the solvers, with the rounded division as solver. -/
theorem one1_solver {a : ℝ} (ha : a ≠ 0) {η : ℝ} (hη : r.b ^ 2 - 1 ≤ η) (x : Matrix (Fin 1) (Fin 1) ℝ) :
    ‖one1 a * (one1 (r.rnd (x 0 0 / a))) - x‖ ≤ η * (‖one1 a‖ * ‖one1 (r.rnd (x 0 0 / a))‖) := by
  rw [norm_one1, norm_one1, norm_one1]
  simp only [Matrix.sub_apply, Matrix.mul_apply, Fin.sum_univ_one]
  have h1 := r.err (x 0 0 / a)
  have h2 : a * r.rnd (x 0 0 / a) - x 0 0 = a * (r.rnd (x 0 0 / a) - x 0 0 / a) := by field_simp
  have h3 : |x 0 0 / a| ≤ r.b * |r.rnd (x 0 0 / a)| := by
    have h4 : |x 0 0 / a| ≤ |r.rnd (x 0 0 / a)| + r.u * |x 0 0 / a| := by
      have := abs_sub_abs_le_abs_sub (x 0 0 / a) (r.rnd (x 0 0 / a))
      rw [abs_sub_comm] at this
      linarith
    have h5 : (1 - r.u) * |x 0 0 / a| ≤ |r.rnd (x 0 0 / a)| := by linarith
    have h6 := mul_le_mul_of_nonneg_left h5 r.b_pos.le
    rwa [← mul_assoc, mul_comm r.b, r.ab, one_mul] at h6
  have h7 : r.u * r.b ≤ η := by
    have h8 : r.b - 1 = r.u * r.b := by linarith [r.ab]
    have h9 := r.one_le_b
    nlinarith
  rw [h2, abs_mul]
  have h10 : r.u * |x 0 0 / a| ≤ η * |r.rnd (x 0 0 / a)| :=
    (mul_le_mul_of_nonneg_left h3 r.u_pos).trans (by rw [← mul_assoc]; exact mul_le_mul_of_nonneg_right h7 (abs_nonneg _))
  have := mul_le_mul_of_nonneg_left (h1.trans h10) (abs_nonneg a)
  linarith

/-- The hypotheses of `C167_smw` hold for `2 x + 3 · 1/4 · 5 x = 7` with rounded divisions as solvers, whatever the rounding of relative error less
than a quarter and the order of the sums. -/
example (hS : r.Summation S) (hu : r.u ≤ 1 / 4) :
    ∃ (η : ℝ) (sA : Matrix (Fin 1) (Fin 1) ℝ → Matrix (Fin 1) (Fin 1) ℝ) (sG : Matrix (Fin 1) (Fin 1) ℝ → Matrix (Fin 1) (Fin 1) ℝ → Matrix (Fin 1) (Fin 1) ℝ)
      (v G t : Matrix (Fin 1) (Fin 1) ℝ),
      η ≤ 1 ∧ ‖(one1 2 + one1 3 * one1 (1 / 4) * one1 5) * smwSolveFp r S sA sA sG (one1 3) (one1 4) (one1 5) (one1 7) - one1 7‖ ≤
        η * smwAmp (one1 2) (one1 (1 / 2)) (one1 3) (one1 (1 / 4)) (one1 4) (one1 5) (sA (one1 7)) v (sA (one1 3)) G t := by
  have hG : (one1 4 + mulFp r S (one1 5) (one1 (r.rnd (3 / 2)))).map r.rnd 0 0 ≠ 0 := by
    simp only [Matrix.map_apply, Matrix.add_apply, ne_eq, r.eq_zero]
    have h0 : 0 ≤ mulFp r S (one1 5) (one1 (r.rnd (3 / 2))) 0 0 := by
      refine (rel_of_nonneg r (hS _) fun x hx => ?_).2.1
      obtain ⟨i, -, rfl⟩ := List.mem_map.1 hx
      exact r.nonneg (mul_nonneg (by norm_num) (r.nonneg (by norm_num)))
    positivity
  have hη : r.b ^ 2 - 1 ≤ 1 := by
    have h1 : r.b ≤ 4 / 3 := by
      have := r.ab
      have := r.b_pos
      nlinarith
    have := r.one_le_b
    nlinarith
  refine ⟨r.b ^ 2 - 1, fun x => one1 (r.rnd (x 0 0 / 2)), fun M x => one1 (r.rnd (x 0 0 / M 0 0)), _, _, _, hη,
    (C167_smw r S hS hη ?_ le_rfl le_rfl (one1 2) (one1 (1 / 2)) (one1 3) (one1 (1 / 4)) (one1 4) (one1 5) (one1 7) ?_ ?_ _ _ _
    (one1_solver r two_ne_zero le_rfl) (one1_solver r two_ne_zero le_rfl) _ _ _ _ _ rfl rfl rfl rfl rfl ?_).1⟩
  · have h1 := r.one_le_b
    have h2 : r.b - 1 = r.u * r.b := by linarith [r.ab]
    nlinarith [r.u_pos]
  · ext i j; fin_cases i; fin_cases j; simp [Matrix.mul_apply]
  · ext i j; fin_cases i; fin_cases j; simp [Matrix.mul_apply]
  · intro x
    have h := one1_solver r hG le_rfl x
    have e : one1 ((one1 4 + mulFp r S (one1 5) (one1 (r.rnd (3 / 2)))).map r.rnd 0 0) =
        (one1 4 + mulFp r S (one1 5) (one1 (r.rnd (3 / 2)))).map r.rnd := by
      ext i j; fin_cases i; fin_cases j; rfl
    rw [e] at h
    exact h

/-- No rounding. -/
noncomputable def exactR : Rounding := ⟨id, 0, le_rfl, by norm_num, by simp, monotone_id, by simp⟩

theorem exactR_sum : exactR.Summation List.sum := by
  intro l
  have h := exactR.sumLeft_adds l
  have : exactR.sumLeft l = l.sum := by
    simp only [Rounding.sumLeft, exactR, id, List.sum_eq_foldl]
  rwa [this] at h

/-- A limit of the method: the well-posedness of `(A + U C V) x = b` is not enough.  For every relative error `η` of the dense solver and every bound
`K` there is a system with `A + U C V = 1`, solved exactly but for the dense solver, whose result has residual and error at least `K`. -/
theorem C167_smw_limit {η K : ℝ} (hη : 0 < η) (hK : 0 ≤ K) :
    ∃ (A U C invC V b : Matrix (Fin 1) (Fin 1) ℝ) (sA : Matrix (Fin 1) (Fin 1) ℝ → Matrix (Fin 1) (Fin 1) ℝ)
      (sG : Matrix (Fin 1) (Fin 1) ℝ → Matrix (Fin 1) (Fin 1) ℝ → Matrix (Fin 1) (Fin 1) ℝ),
      A + U * C * V = 1 ∧ C * invC = 1 ∧ ‖b‖ = 1 ∧ (∀ x, A * sA x = x) ∧ (∀ G x, G 0 0 ≠ 0 → ‖G * sG G x - x‖ ≤ η * (‖G‖ * ‖sG G x‖)) ∧
      K ≤ ‖smwSolveFp exactR List.sum sA sA sG U invC V b - b‖ := by
  set δ : ℝ := (K / η + 1)⁻¹ with hδ
  have hp : 0 < K / η + 1 := by positivity
  have hδ0 : δ ≠ 0 := (inv_pos.2 hp).ne'
  have hinv : 1 / δ = K / η + 1 := by rw [hδ, one_div, inv_inv]
  refine ⟨one1 δ, one1 1, one1 1, one1 1, one1 (1 - δ), one1 1, fun x => one1 (x 0 0 / δ), fun G x => one1 ((1 + η) * (x 0 0 / G 0 0)), ?_, ?_, ?_,
    ?_, ?_, ?_⟩
  · ext i j; fin_cases i; fin_cases j; simp [Matrix.mul_apply]
  · ext i j; fin_cases i; fin_cases j; simp [Matrix.mul_apply]
  · rw [norm_one1]; simp
  · intro x; ext i j; fin_cases i; fin_cases j; simp [Matrix.mul_apply]; field_simp
  · intro G x hG
    rw [norm_one1, norm_one1, norm_one1]
    simp only [Matrix.sub_apply, Matrix.mul_apply, Fin.sum_univ_one]
    have h1 : G 0 0 * ((1 + η) * (x 0 0 / G 0 0)) - x 0 0 = η * x 0 0 := by field_simp; ring
    have h2 : |G 0 0| * |(1 + η) * (x 0 0 / G 0 0)| = (1 + η) * |x 0 0| := by
      rw [← abs_mul]
      have : G 0 0 * ((1 + η) * (x 0 0 / G 0 0)) = (1 + η) * x 0 0 := by field_simp
      rw [this, abs_mul, abs_of_pos (by linarith)]
    rw [h1, h2, abs_mul, abs_of_pos hη]
    nlinarith [abs_nonneg (x 0 0), mul_nonneg (mul_nonneg hη.le hη.le) (abs_nonneg (x 0 0))]
  · rw [norm_one1]
    have hx : (smwSolveFp exactR List.sum (fun x => one1 (x 0 0 / δ)) (fun x => one1 (x 0 0 / δ))
        (fun G x => one1 ((1 + η) * (x 0 0 / G 0 0))) (one1 1) (one1 1) (one1 (1 - δ)) (one1 1) - one1 1) 0 0 = -K := by
      simp only [smwSolveFp, mulFp, exactR, id, Matrix.sub_apply, Matrix.map_apply, Matrix.add_apply, List.finRange_succ, List.finRange_zero,
        List.map_cons, List.map_nil, List.sum_cons, List.sum_nil, add_zero, one_mul]
      have h3 : 1 + (1 - δ) * (1 / δ) = 1 / δ := by field_simp; ring
      rw [h3]
      have h4 : (1 + η) * ((1 - δ) * (1 / δ) / (1 / δ)) = (1 + η) * (1 - δ) := by field_simp
      rw [h4]
      have h5 : 1 / δ - (1 + η) * (1 - δ) / δ - 1 = -(η * (1 / δ - 1)) := by field_simp; ring
      rw [h5, hinv]; field_simp; ring
    rw [hx, abs_neg, abs_of_nonneg hK]

end Fdapde.LinAlg
