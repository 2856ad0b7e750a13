import Verif.Splines.FloatModel
import Verif.Splines.Lemmas
import Verif.Splines.PropsSpline
import Verif.Float.Error
/- C134 : splines in floating point arithmetic. -/
namespace Fdapde.Splines
open Fdapde.Fp
set_option linter.unusedSectionVars false

/-- The constant of the recursion, rounded. -/
noncomputable def caF (r : Rounding) (t : Nat → ℝ) (R i : Nat) : ℝ :=
  if r.rnd (t (i + R) - t i) ≠ 0 then r.rnd (1 / r.rnd (t (i + R) - t i)) else 0

/-- The recursion, rounded. -/
noncomputable def cdbF (r : Rounding) (t z : Nat → ℝ) (x : ℝ) : Nat → Nat → ℝ
  | 0, i => z i
  | R + 1, i => r.rnd (r.rnd (r.rnd (caF r t (R + 1) i * r.rnd (x - t i)) * cdbF r t z x R i) +
      r.rnd (r.rnd (caF r t (R + 1) (i + 1) * r.rnd (t (i + 1 + (R + 1)) - x)) * cdbF r t z x R (i + 1)))

noncomputable def cdbDF (r : Rounding) (t z : Nat → ℝ) (x : ℝ) : Nat → Nat → Nat → ℝ
  | 0, R, i => cdbF r t z x R i
  | _ + 1, 0, _ => 0
  | k + 1, R + 1, i => r.rnd (r.rnd (r.rnd (((R + 1 : Nat) : ℝ) * caF r t (R + 1) i) * cdbDF r t z x k R i) -
      r.rnd (r.rnd (((R + 1 : Nat) : ℝ) * caF r t (R + 1) (i + 1)) * cdbDF r t z x k R (i + 1)))

noncomputable def z0F (r : Rounding) (tol : ℝ) (M m : Nat) (τ : Nat → ℝ) (x : ℝ) (i : Nat) : ℝ :=
  if (τ i ≤ x ∧ x < τ (i + 1)) ∨ (|r.rnd (x - τ (m - 1))| < tol ∧ i + M + 2 = m) then 1 else 0

theorem constsF_eq (r : Rounding) {m : Nat} {τ : Nat → ℝ} {R i : Nat} (h : i + R + 1 < m) :
    constsF r.ops (tab m τ) R i = .ok (caF r τ R i, caF r τ R (i + 1)) := by
  have e : i + 1 + R = i + R + 1 := by omega
  simp only [constsF, rd_tab (τ := τ) (show i < m by omega), rd_tab (τ := τ) (show i + 1 < m by omega),
    rd_tab (τ := τ) (show i + R < m by omega), rd_tab (τ := τ) h, Res.ok_bind, caF, e, Rounding.ops]
  congr!

theorem evalF_eq (r : Rounding) (tol : ℝ) (M m : Nat) (τ : Nat → ℝ) (x : ℝ) :
    ∀ R i, i + R + 1 < m → evalF r.ops tol M (tab m τ) R i x = .ok (cdbF r τ (z0F r tol M m τ x) x R i)
  | 0, i, h => by
    simp only [evalF, eval0F, tab_length, rd_tab (τ := τ) (show i < m by omega), rd_tab (τ := τ) (show i + 1 < m by omega),
      rd_tab (τ := τ) (show m - 1 < m by omega), Res.ok_bind, cdbF, z0F, Rounding.ops]
  | R + 1, i, h => by
    have e : i + 1 + (R + 1) = i + (R + 1) + 1 := by omega
    simp only [evalF, constsF_eq r (τ := τ) h, rd_tab (τ := τ) (show i < m by omega), rd_tab (τ := τ) h, Res.ok_bind,
      evalF_eq r tol M m τ x R i (by omega), evalF_eq r tol M m τ x R (i + 1) (by omega), cdbF, e]
    rfl

theorem deriveF_eq (r : Rounding) (tol : ℝ) (M m : Nat) (τ : Nat → ℝ) (x : ℝ) :
    ∀ k R i, i + R + 1 < m → deriveF r.ops tol M (tab m τ) k R i x = .ok (cdbDF r τ (z0F r tol M m τ x) x k R i)
  | 0, R, i, h => by rw [deriveF, cdbDF]; exact evalF_eq r tol M m τ x R i h
  | k + 1, 0, i, h => rfl
  | k + 1, R + 1, i, h => by
    simp only [deriveF, constsF_eq r (τ := τ) h, Res.ok_bind, deriveF_eq r tol M m τ x k R i (by omega),
      deriveF_eq r tol M m τ x k R (i + 1) (by omega), cdbDF]
    rfl

/-- Rounding does not change which spans are active. -/
theorem z0F_eq (r : Rounding) {tol : ℝ} (ht : r.rnd tol = tol) {R : Nat} {knots : List ℝ} (g : Good tol knots) {x : ℝ}
    (hx : x ≤ knots.getD (knots.length - 1) 0 ∨ knots.getD (knots.length - 1) 0 + tol ≤ x) :
    z0F r tol R (knots.length + 2 * R) (padFn R knots) x = z0 tol R (knots.length + 2 * R) (padFn R knots) x := by
  obtain ⟨two, incr, pos, wide⟩ := g
  funext i
  unfold z0F z0
  rw [padFn_end]
  set l := knots.getD (knots.length - 1) 0
  refine if_congr ?_ rfl rfl
  have hge : tol ≤ |x - l| → tol ≤ |r.rnd (x - l)| := by
    intro h
    rcases le_abs.1 h with h | h
    · have := r.mono h
      rw [ht] at this
      exact this.trans (le_abs_self _)
    · have := r.mono h
      rw [ht, r.odd] at this
      exact this.trans (neg_le_abs _)
  constructor
  · rintro (h | ⟨h, e⟩)
    · exact Or.inl h
    · refine Or.inr ⟨?_, e⟩
      by_contra h2
      exact absurd (hge (not_lt.1 h2)) (not_le.2 h)
  · rintro (h | ⟨h, e⟩)
    · exact Or.inl h
    · rcases hx with hx | hx
      · rcases hx.eq_or_lt with hx | hx
        · right
          rw [hx, sub_self, r.zero, abs_zero]
          exact ⟨pos, e⟩
        · left
          have e1 := padFn_knot R knots (knots.length - 2) (by omega)
          have e2 := padFn_knot R knots (knots.length - 1) (by omega)
          rw [show knots.length - 2 + R = i by omega] at e1
          rw [show knots.length - 1 + R = i + 1 by omega] at e2
          rw [e1, e2]
          have := (abs_lt.1 h).1
          exact ⟨by linarith, hx⟩
      · have := (abs_lt.1 h).2
        linarith

theorem caF_rel (r : Rounding) {t : Nat → ℝ} (ht : Monotone t) (R i : Nat) : r.Rel 2 (ca t R i) (caF r t R i) := by
  unfold ca caF
  have h0 : 0 ≤ t (i + R) - t i := by have := ht (show i ≤ i + R by omega); linarith
  by_cases h : t (i + R) - t i = 0
  · rw [if_neg (by rw [not_not, h]), if_neg (by rw [not_not, h, r.zero])]
    exact (Rounding.Rel.refl le_rfl).mono (Nat.zero_le _)
  · rw [if_pos h, if_pos (by rw [ne_eq, r.eq_zero]; exact h)]
    exact (Rounding.Rel.rnd0 h0).inv.rnd

/-- Splines of order `R` are computed with `6 R` roundings, without cancellation. -/
theorem cdbF_rel (r : Rounding) {t z : Nat → ℝ} (ht : Monotone t) {x : ℝ} {μ : Nat} (h : InSpan t z x μ) :
    ∀ R i, r.Rel (6 * R) (cdb t z x R i) (cdbF r t z x R i)
  | 0, i => by
    rw [cdb, cdbF]
    refine Rounding.Rel.refl ?_
    by_cases e : i = μ
    · rw [e, h.z1]; norm_num
    · rw [h.z0 i e]
  | R + 1, i => by
    have h0 := cdbF_rel r ht h R i
    have h1 := cdbF_rel r ht h R (i + 1)
    -- a factor may be negative only where the spline vanishes
    have k0 : r.Rel (6 * R + 5) (ca t (R + 1) i * (x - t i) * cdb t z x R i)
        (r.rnd (r.rnd (caF r t (R + 1) i * r.rnd (x - t i)) * cdbF r t z x R i)) := by
      by_cases hi : i ≤ μ
      · have hx : 0 ≤ x - t i := by have := ht hi; linarith [h.lo]
        have := (((caF_rel r ht (R + 1) i).mul (Rounding.Rel.rnd0 hx)).rnd.mul h0).rnd
        exact this.mono (by omega)
      · have e := cdb_support h R i (by omega)
        have e' := h0.eq_zero.2 e
        rw [e, e', mul_zero, mul_zero, r.zero]
        exact (Rounding.Rel.refl le_rfl).mono (Nat.zero_le _)
    have k1 : r.Rel (6 * R + 5) (ca t (R + 1) (i + 1) * (t (i + 1 + (R + 1)) - x) * cdb t z x R (i + 1))
        (r.rnd (r.rnd (caF r t (R + 1) (i + 1) * r.rnd (t (i + 1 + (R + 1)) - x)) * cdbF r t z x R (i + 1))) := by
      by_cases hi : μ ≤ i + 1 + R
      · have hx : 0 ≤ t (i + 1 + (R + 1)) - x := by
          have := ht (show μ + 1 ≤ i + 1 + (R + 1) by omega); linarith [h.hi]
        have := (((caF_rel r ht (R + 1) (i + 1)).mul (Rounding.Rel.rnd0 hx)).rnd.mul h1).rnd
        exact this.mono (by omega)
      · have e := cdb_support h R (i + 1) (by omega)
        have e' := h1.eq_zero.2 e
        rw [e, e', mul_zero, mul_zero, r.zero]
        exact (Rounding.Rel.refl le_rfl).mono (Nat.zero_le _)
    rw [cdb, cdbF]
    exact (k0.add k1).rnd.mono (by omega)

/-- From `b ^ n - 1` to `n u / (1 - n u)`. -/
theorem gamma_bound (r : Rounding) (n : Nat) {e m : ℝ} (hm : 0 ≤ m) (he : |e| ≤ (r.b ^ n - 1) * m) :
    (1 - n * r.u) * |e| ≤ n * r.u * m := by
  have gm := r.gamma n
  rcases le_or_gt (1 - n * r.u) 0 with hn | hn
  · have h2 : 0 ≤ (n : ℝ) * r.u := by have := r.u_pos; positivity
    exact (mul_nonpos_of_nonpos_of_nonneg hn (abs_nonneg e)).trans (mul_nonneg h2 hm)
  · calc _ ≤ (1 - n * r.u) * ((r.b ^ n - 1) * m) := mul_le_mul_of_nonneg_left he hn.le
      _ = ((r.b ^ n - 1) * (1 - n * r.u)) * m := by ring
      _ ≤ _ := mul_le_mul_of_nonneg_right gm hm

theorem cdbF_zero (r : Rounding) (t z : Nat → ℝ) (x : ℝ) (hz : ∀ j, z j = 0) : ∀ R i, cdbF r t z x R i = 0
  | 0, i => hz i
  | R + 1, i => by
    rw [cdbF, cdbF_zero r t z x hz R i, cdbF_zero r t z x hz R (i + 1), mul_zero, mul_zero, r.zero, add_zero, r.zero]

theorem basisF_value (r : Rounding) {tol : ℝ} {R : Nat} {knots : List ℝ} {i : Nat} (h : 0 < knots.length) (hi : i < knots.length + R - 1) (x : ℝ) :
    basisEvalF r.ops tol R (tab (knots.length + 2 * R) (padFn R knots)) i x =
      .ok (cdbF r (padFn R knots) (z0F r tol R (knots.length + 2 * R) (padFn R knots) x) x R i) := by
  unfold basisEvalF size
  rw [if_pos (by rw [tab_length]; omega)]
  exact evalF_eq _ _ _ _ _ _ _ _ (by omega)

/-- **C134** (partial: the last span must not be shorter than the tolerance, as in C49, and no operation overflows or
underflows).  At every point between the first and the last knot every basis function is computed, in rounded arithmetic,
with a relative error of at most `γ = 6 R u / (1 - 6 R u)`: it is not negative, and it is zero exactly where the function
is.  The bound does not depend on the knots or on their number. -/
theorem C134_relative_error_partial (r : Rounding) (tol : ℝ) (ht : r.rnd tol = tol) (R : Nat) (knots : List ℝ) (g : Good tol knots) (x : ℝ)
    (h0 : knots.getD 0 0 ≤ x) (h1 : x ≤ knots.getD (knots.length - 1) 0) :
    ∃ t, pad R knots = .ok t ∧ ∀ i < size R t, ∃ v v' : ℝ, basisEval tol R t i x = .ok v ∧ basisEvalF r.ops tol R t i x = .ok v' ∧
      0 ≤ v' ∧ (v' = 0 ↔ v = 0) ∧ (1 - 6 * R * r.u) * |v' - v| ≤ 6 * R * r.u * v := by
  have two := g.two
  have hs : size R (tab (knots.length + 2 * R) (padFn R knots)) = knots.length + R - 1 := by
    unfold size; rw [tab_length]; omega
  refine ⟨_, pad_eq R knots (by omega), fun i hi => ?_⟩
  rw [hs] at hi
  obtain ⟨j, hj, hlo, hhi⟩ := exists_span two h0 h1
  have sp := inSpan_of (R := R) g hj hlo hhi
  have hm := padFn_mono R g.incr (by omega)
  have rel := cdbF_rel r hm sp R i
  refine ⟨_, _, basis_value (by omega) hi x, basisF_value r (by omega) hi x, ?_⟩
  rw [z0F_eq r ht g (Or.inl h1)]
  refine ⟨rel.2.1, rel.eq_zero, ?_⟩
  have := gamma_bound r (6 * R) rel.1 (Rounding.Err.of_rel rel).2
  push_cast at this
  exact this

/-- Outside the knots the computed functions are zero. -/
theorem C134_outside (r : Rounding) (tol : ℝ) (ht : r.rnd tol = tol) (R : Nat) (knots : List ℝ) (g : Good tol knots) (x : ℝ)
    (hx : x < knots.getD 0 0 ∨ knots.getD (knots.length - 1) 0 + tol ≤ x) :
    ∃ t, pad R knots = .ok t ∧ ∀ i < size R t, basisEvalF r.ops tol R t i x = .ok 0 := by
  have two := g.two
  have hs : size R (tab (knots.length + 2 * R) (padFn R knots)) = knots.length + R - 1 := by
    unfold size; rw [tab_length]; omega
  refine ⟨_, pad_eq R knots (by omega), fun i hi => ?_⟩
  rw [hs] at hi
  have hx' : x ≤ knots.getD (knots.length - 1) 0 ∨ knots.getD (knots.length - 1) 0 + tol ≤ x := by
    rcases hx with h | h
    · exact Or.inl (h.le.trans (getD_le g.incr (by omega) (by omega)))
    · exact Or.inr h
  rw [basisF_value r (by omega) hi, z0F_eq r ht g hx', cdbF_zero r _ _ _ (z0_outside g hx)]

/-- The computed functions sum to one up to the same relative error: the sum is the exact one of the computed values. -/
theorem C134_partition_partial (r : Rounding) (tol : ℝ) (ht : r.rnd tol = tol) (R : Nat) (knots : List ℝ) (g : Good tol knots) (x : ℝ)
    (h0 : knots.getD 0 0 ≤ x) (h1 : x ≤ knots.getD (knots.length - 1) 0) :
    ∃ t, pad R knots = .ok t ∧ ∃ v' : Nat → ℝ, (∀ i < size R t, basisEvalF r.ops tol R t i x = .ok (v' i)) ∧
      (1 - 6 * R * r.u) * |∑ i ∈ Finset.range (size R t), v' i - 1| ≤ 6 * R * r.u := by
  have two := g.two
  have hs : size R (tab (knots.length + 2 * R) (padFn R knots)) = knots.length + R - 1 := by
    unfold size; rw [tab_length]; omega
  refine ⟨_, pad_eq R knots (by omega), fun i => cdbF r (padFn R knots) (z0F r tol R (knots.length + 2 * R) (padFn R knots) x) x R i, ?_, ?_⟩
  · intro i hi
    exact basisF_value r (by omega) (by omega) x
  obtain ⟨j, hj, hlo, hhi⟩ := exists_span two h0 h1
  have sp := inSpan_of (R := R) g hj hlo hhi
  have hm := padFn_mono R g.incr (by omega)
  have hsum := cdb_sum hm sp _ (show j + R < knots.length + R - 1 by omega) R (show R ≤ j + R by omega)
  rw [z0F_eq r ht g (Or.inl h1), hs]
  have key : r.Rel (6 * R) (∑ i ∈ Finset.range (knots.length + R - 1), cdb (padFn R knots) (z0 tol R (knots.length + 2 * R) (padFn R knots) x) x R i)
      (∑ i ∈ Finset.range (knots.length + R - 1), cdbF r (padFn R knots) (z0 tol R (knots.length + 2 * R) (padFn R knots) x) x R i) := by
    generalize knots.length + R - 1 = n
    induction n with
    | zero => exact (Rounding.Rel.refl le_rfl).mono (Nat.zero_le _)
    | succ n ih =>
      rw [Finset.sum_range_succ, Finset.sum_range_succ]
      exact ih.add (cdbF_rel r hm sp R n)
  have := gamma_bound r (6 * R) key.1 (Rounding.Err.of_rel key).2
  rw [hsum] at this
  push_cast at this
  simpa using this

/-- **C134** for expansions: at a point between the first and the last knot, the expansion with coefficients `c` is computed
with an error of at most `γ Σ |c_i| N_i(x)`, `γ = n u / (1 - n u)` with `n` the number of functions plus `6 R + 1`; the sum is at
most the largest coefficient. -/
theorem C134_expansion_partial (r : Rounding) (tol : ℝ) (ht : r.rnd tol = tol) (R : Nat) (knots : List ℝ) (g : Good tol knots) (x : ℝ)
    (h0 : knots.getD 0 0 ≤ x) (h1 : x ≤ knots.getD (knots.length - 1) 0) (c : List ℝ) (hc : c.length = knots.length + R - 1)
    {C : ℝ} (hC : ∀ y ∈ c, |y| ≤ C) :
    ∃ t v v', pad R knots = .ok t ∧ expansion tol R t c x = .ok v ∧ expansionF r.ops tol R t c x = .ok v' ∧
      (1 - ((c.length + 6 * R + 1 : Nat) : ℝ) * r.u) * |v' - v| ≤ ((c.length + 6 * R + 1 : Nat) : ℝ) * r.u * C := by
  have two := g.two
  have hs : size R (tab (knots.length + 2 * R) (padFn R knots)) = knots.length + R - 1 := by
    unfold size; rw [tab_length]; omega
  obtain ⟨j, hj, hlo, hhi⟩ := exists_span two h0 h1
  have sp := inSpan_of (R := R) g hj hlo hhi
  have hm := padFn_mono R g.incr (by omega)
  have hsum := cdb_sum hm sp _ (show j + R < knots.length + R - 1 by omega) R (show R ≤ j + R by omega)
  set z := z0 tol R (knots.length + 2 * R) (padFn R knots) x
  have hz := z0F_eq (R := R) r ht g (Or.inl h1)
  have key : ∀ N ≤ knots.length + R - 1, ∃ v v',
      foldRes (fun acc h => do
        let v ← basisEval tol R (tab (knots.length + 2 * R) (padFn R knots)) h x
        let ch ← rd c h
        .ok (acc + ch * v)) 0 (List.range N) = .ok v ∧
      foldRes (fun acc h => do
        let v ← basisEvalF r.ops tol R (tab (knots.length + 2 * R) (padFn R knots)) h x
        let ch ← rd c h
        .ok (r.ops.add acc (r.ops.mul ch v))) 0 (List.range N) = .ok v' ∧
      r.Err (N + 6 * R + 1) (∑ i ∈ Finset.range N, |c.getD i 0| * cdb (padFn R knots) z x R i) v v' := by
    intro N
    induction N with
    | zero => intro _; exact ⟨0, 0, rfl, rfl, by simp [Rounding.Err]⟩
    | succ N ih =>
      intro hN
      obtain ⟨v, v', e1, e2, er⟩ := ih (by omega)
      refine ⟨v + c.getD N 0 * cdb (padFn R knots) z x R N,
        r.rnd (v' + r.rnd (c.getD N 0 * cdbF r (padFn R knots) z x R N)), ?_, ?_, ?_⟩
      · rw [List.range_succ, foldRes_append, e1, Res.ok_bind, foldRes_cons, basis_value (by omega) (by omega),
          rd_eq (show N < c.length by omega)]
        rfl
      · rw [List.range_succ, foldRes_append, e2, Res.ok_bind, foldRes_cons, basisF_value r (by omega) (by omega),
          rd_eq (show N < c.length by omega), hz]
        rfl
      · rw [Finset.sum_range_succ]
        have t1 := ((Rounding.Err.exact (r := r) (c.getD N 0)).mul (Rounding.Err.of_rel (cdbF_rel r hm sp R N))).rnd
        have := (er.add (t1.mono (show 0 + 6 * R + 1 ≤ N + 6 * R + 1 by omega))).rnd
        exact this.mono (by omega)
  obtain ⟨v, v', e1, e2, er⟩ := key (knots.length + R - 1) le_rfl
  refine ⟨_, v, v', pad_eq R knots (by omega), ?_, ?_, ?_⟩
  · rw [expansion, if_pos (by rw [hs, hc]), hs]; exact e1
  · rw [expansionF, if_pos (by rw [hs, hc]), hs]; exact e2
  · rw [hc]
    have hle : ∑ i ∈ Finset.range (knots.length + R - 1), |c.getD i 0| * cdb (padFn R knots) z x R i ≤ C := by
      calc _ ≤ ∑ i ∈ Finset.range (knots.length + R - 1), C * cdb (padFn R knots) z x R i := by
            refine Finset.sum_le_sum fun i hi => mul_le_mul_of_nonneg_right ?_ (cdb_nonneg hm sp R i)
            rw [Finset.mem_range] at hi
            rw [List.getD_eq_getElem?_getD, List.getElem?_eq_getElem (show i < c.length by omega), Option.getD_some]
            exact hC _ (List.getElem_mem _)
        _ = C := by rw [← Finset.mul_sum, hsum, mul_one]
    have hu := r.u_pos
    exact (gamma_bound r _ er.nonneg er.2).trans (mul_le_mul_of_nonneg_left hle (by positivity))

/-- The derivative recursion with all terms added instead of subtracted: the size of the terms. -/
noncomputable def deriveSize (tol : ℝ) (M : Nat) (t : List ℝ) : Nat → Nat → Nat → ℝ → Res ℝ
  | 0, R, i, x => eval tol M t R i x
  | _ + 1, 0, _, _ => .ok 0
  | k + 1, R + 1, i, x => do
    let (a, b) ← consts t (R + 1) i
    let v0 ← deriveSize tol M t k R i x
    let v1 ← deriveSize tol M t k R (i + 1) x
    .ok (((R + 1 : Nat) : ℝ) * a * v0 + ((R + 1 : Nat) : ℝ) * b * v1)

noncomputable def cdbS (t z : Nat → ℝ) (x : ℝ) : Nat → Nat → Nat → ℝ
  | 0, R, i => cdb t z x R i
  | _ + 1, 0, _ => 0
  | k + 1, R + 1, i => ((R + 1 : Nat) : ℝ) * ca t (R + 1) i * cdbS t z x k R i + ((R + 1 : Nat) : ℝ) * ca t (R + 1) (i + 1) * cdbS t z x k R (i + 1)

theorem deriveSize_eq (tol : ℝ) (M m : Nat) (τ : Nat → ℝ) (x : ℝ) :
    ∀ k R i, i + R + 1 < m → deriveSize tol M (tab m τ) k R i x = .ok (cdbS τ (z0 tol M m τ x) x k R i)
  | 0, R, i, h => by rw [deriveSize, cdbS]; exact eval_eq tol M m τ x R i h
  | k + 1, 0, i, h => rfl
  | k + 1, R + 1, i, h => by
    simp only [deriveSize, consts_eq (τ := τ) h, Res.ok_bind, deriveSize_eq tol M m τ x k R i (by omega),
      deriveSize_eq tol M m τ x k R (i + 1) (by omega), cdbS]

theorem cdbDF_err (r : Rounding) {t z : Nat → ℝ} (ht : Monotone t) {x : ℝ} {μ : Nat} (h : InSpan t z x μ) :
    ∀ k R i, r.Err (6 * R) (cdbS t z x k R i) (cdbD t z x k R i) (cdbDF r t z x k R i)
  | 0, R, i => Rounding.Err.of_rel (cdbF_rel r ht h R i)
  | k + 1, 0, i => by simp [Rounding.Err, cdbS, cdbD, cdbDF]
  | k + 1, R + 1, i => by
    have h0 := cdbDF_err r ht h k R i
    have h1 := cdbDF_err r ht h k R (i + 1)
    have n0 : r.Rel 0 ((R + 1 : Nat) : ℝ) ((R + 1 : Nat) : ℝ) := Rounding.Rel.refl (Nat.cast_nonneg _)
    have k0 := ((Rounding.Err.of_rel (n0.mul (caF_rel r ht (R + 1) i)).rnd).mul h0).rnd
    have k1 := ((Rounding.Err.of_rel (n0.mul (caF_rel r ht (R + 1) (i + 1))).rnd).mul h1).rnd
    rw [cdbS, cdbD, cdbDF]
    exact (k0.sub k1).rnd.mono (by omega)

/-- **C134** for derivatives: `derive<k>` of every basis function is computed with an error of at most `γ` times the sum of the
sizes of its terms. -/
theorem C134_derivative_partial (r : Rounding) (tol : ℝ) (ht : r.rnd tol = tol) (R : Nat) (knots : List ℝ) (g : Good tol knots) (x : ℝ)
    (h0 : knots.getD 0 0 ≤ x) (h1 : x ≤ knots.getD (knots.length - 1) 0) (k : Nat) :
    ∃ t, pad R knots = .ok t ∧ ∀ i < size R t, ∃ d d' s : ℝ, derive tol R t k R i x = .ok d ∧ deriveF r.ops tol R t k R i x = .ok d' ∧
      deriveSize tol R t k R i x = .ok s ∧ |d| ≤ s ∧ (1 - 6 * R * r.u) * |d' - d| ≤ 6 * R * r.u * s := by
  have two := g.two
  have hs : size R (tab (knots.length + 2 * R) (padFn R knots)) = knots.length + R - 1 := by
    unfold size; rw [tab_length]; omega
  refine ⟨_, pad_eq R knots (by omega), fun i hi => ?_⟩
  rw [hs] at hi
  obtain ⟨j, hj, hlo, hhi⟩ := exists_span two h0 h1
  have sp := inSpan_of (R := R) g hj hlo hhi
  have hm := padFn_mono R g.incr (by omega)
  have er := cdbDF_err r hm sp k R i
  refine ⟨_, _, _, derive_eq _ _ _ _ _ _ _ _ (by omega), deriveF_eq r _ _ _ _ _ _ _ _ (by omega), deriveSize_eq _ _ _ _ _ _ _ _ (by omega), er.1, ?_⟩
  rw [z0F_eq r ht g (Or.inl h1)]
  have := gamma_bound r (6 * R) er.nonneg er.2
  push_cast at this
  exact this

/-- With the doubles of the processor and the tolerance of the code, a function of order up to 1000 is computed with a relative error
below `7 R 2^-53`. -/
theorem C134_binary64_partial (R : Nat) (hR : R ≤ 1000) (knots : List ℝ) (g : Good (50 * 2⁻¹ ^ 52 : ℝ) knots) (x : ℝ)
    (h0 : knots.getD 0 0 ≤ x) (h1 : x ≤ knots.getD (knots.length - 1) 0) :
    ∃ t, pad R knots = .ok t ∧ ∀ i < size R t, ∃ v v' : ℝ, basisEval (50 * 2⁻¹ ^ 52) R t i x = .ok v ∧
      basisEvalF binary64.ops (50 * 2⁻¹ ^ 52) R t i x = .ok v' ∧ |v' - v| ≤ 7 * R * 2⁻¹ ^ 53 * v := by
  have ht : binary64.rnd (50 * 2⁻¹ ^ 52) = 50 * 2⁻¹ ^ 52 := by
    refine rnd64_double ⟨50, -52, by norm_num, ?_⟩
    norm_num
  obtain ⟨t, hp, h⟩ := C134_relative_error_partial binary64 (50 * 2⁻¹ ^ 52) ht R knots g x h0 h1
  refine ⟨t, hp, fun i hi => ?_⟩
  obtain ⟨v, v', e1, e2, p, z, e⟩ := h i hi
  refine ⟨v, v', e1, e2, ?_⟩
  have hR' : (R : ℝ) ≤ 1000 := by exact_mod_cast hR
  have hR0 : (0 : ℝ) ≤ R := Nat.cast_nonneg _
  have hu : binary64.u = 2⁻¹ ^ 53 := rfl
  rw [hu] at e
  have hv : 0 ≤ (R : ℝ) * v := by
    rcases hR0.eq_or_lt with h | h
    · rw [← h, zero_mul]
    · have : 0 ≤ 6 * (R : ℝ) * 2⁻¹ ^ 53 * v := le_trans (mul_nonneg (by norm_num; linarith) (abs_nonneg _)) e
      have h3 : 0 ≤ v := by
        by_contra h4
        push Not at h4
        have : 6 * (R : ℝ) * 2⁻¹ ^ 53 * v < 0 := mul_neg_of_pos_of_neg (by positivity) h4
        linarith
      exact mul_nonneg hR0 h3
  have h7 : (6 / 7 : ℝ) ≤ 1 - 6 * R * 2⁻¹ ^ 53 := by norm_num; linarith
  have h8 : 6 / 7 * |v' - v| ≤ 6 * R * 2⁻¹ ^ 53 * v := (mul_le_mul_of_nonneg_right h7 (abs_nonneg _)).trans e
  have h9 : 7 * (R : ℝ) * 2⁻¹ ^ 53 * v = 7 / 6 * (6 * R * 2⁻¹ ^ 53 * v) := by ring
  rw [h9]
  linarith

/-- Knots and tolerance of the code. -/
example : Good (50 * 2⁻¹ ^ 52 : ℝ) [0, 1 / 2, 1, 3] := ⟨by simp, by norm_num, by norm_num, by norm_num⟩

/-- With exact operations the model of the rounded code is the one of the other properties. -/
example (tol : ℝ) (R : Nat) (t c : List ℝ) (x : ℝ) : expansionF (Ops.exact ℝ) tol R t c x = expansion tol R t c x :=
  expansionF_exact tol R t c x

end Fdapde.Splines
