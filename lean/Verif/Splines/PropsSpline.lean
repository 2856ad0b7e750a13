import Verif.Splines.Lemmas
import Mathlib.Analysis.Calculus.Deriv.Mul
import Mathlib.Analysis.Calculus.Deriv.Add
import Mathlib.Tactic.NormNum
/- C49, C50, C51 : values, support and derivatives of B-splines. -/
namespace Fdapde.Splines
set_option linter.unusedSectionVars false
variable {K : Type} [Field K] [LinearOrder K] [IsStrictOrderedRing K]

/-- The knots are strictly increasing, and the last span is not shorter than the tolerance used to detect the right
end. -/
example : Good (1 / 100 : ℚ) [0, 1 / 2, 1, 3] := ⟨by simp, by norm_num, by norm_num, by norm_num⟩

theorem basis_value {tol : K} {R : Nat} {knots : List K} (h : 0 < knots.length) {i : Nat} (hi : i < knots.length + R - 1) (x : K) :
    basisEval tol R (tab (knots.length + 2 * R) (padFn R knots)) i x =
      .ok (cdb (padFn R knots) (z0 tol R (knots.length + 2 * R) (padFn R knots) x) x R i) := by
  unfold basisEval size
  rw [if_pos (by rw [tab_length]; omega)]
  exact eval_eq _ _ _ _ _ _ _ (by omega)

/-- **C49** (partial: the last span must not be shorter than the tolerance).  At every point between the first and the
last knot the basis functions are non-negative and sum to one.  Basis construction and evaluation read no knot out of
range. -/
theorem C49_partition_of_unity_partial (tol : K) (R : Nat) (knots : List K) (g : Good tol knots) (x : K)
    (h0 : knots.getD 0 0 ≤ x) (h1 : x ≤ knots.getD (knots.length - 1) 0) :
    ∃ t, pad R knots = .ok t ∧ size R t = knots.length + R - 1 ∧ ∃ v : Nat → K,
      (∀ i < size R t, basisEval tol R t i x = .ok (v i) ∧ 0 ≤ v i) ∧ ∑ i ∈ Finset.range (size R t), v i = 1 := by
  have two := g.two
  have hs : size R (tab (knots.length + 2 * R) (padFn R knots)) = knots.length + R - 1 := by
    unfold size; rw [tab_length]; omega
  refine ⟨_, pad_eq R knots (by omega), hs, ?_⟩
  rw [hs]
  obtain ⟨j, hj, hlo, hhi⟩ := exists_span two h0 h1
  have sp := inSpan_of (R := R) g hj hlo hhi
  have hm := padFn_mono R g.incr (by omega)
  exact ⟨_, fun i hi => ⟨basis_value (by omega) hi x, cdb_nonneg hm sp R i⟩, cdb_sum hm sp _ (by omega) R (by omega)⟩

/-- If the last span is shorter than the tolerance (50 machine epsilons) the functions of the last two spans are both
active near its left end: with knots 0, 1, 1 + tol / 2 the order 0 basis sums to 2 at 1 - tol / 4. -/
theorem C49_bug_short_last_span (tol : K) (h : 0 < tol) (h1 : tol < 1) :
    ∃ (knots : List K) (x : K) (t : List K), knots.Pairwise (· < ·) ∧ knots.getD 0 0 ≤ x ∧ x ≤ knots.getD 2 0 ∧
      pad 0 knots = .ok t ∧ size 0 t = 2 ∧ basisEval tol 0 t 0 x = .ok 1 ∧ basisEval tol 0 t 1 x = .ok 1 := by
  refine ⟨[0, 1, 1 + tol / 2], 1 - tol / 4, [0, 1, 1 + tol / 2], ?_, ?_, ?_, ?_, ?_, ?_, ?_⟩
  · simp; refine ⟨by linarith, by linarith⟩
  · simp; linarith
  · simp; linarith
  · simp [pad, List.range_succ, foldRes, rd]
  · simp [size]
  · simp only [basisEval, size, eval, eval0, rd]; simp
    exact ⟨by linarith, h⟩
  · simp only [basisEval, size, eval, eval0, rd]; simp
    intro _
    rw [abs_lt]; constructor <;> linarith

/-- The spans on which the i-th function may be active. -/
theorem cdb_local {tol : K} {R : Nat} {knots : List K} (g : Good tol knots) {x : K}
    (hx : x ≤ knots.getD (knots.length - 1) 0 ∨ knots.getD (knots.length - 1) 0 + tol ≤ x) :
    (∀ i, z0 tol R (knots.length + 2 * R) (padFn R knots) x i = 0) ∨
    ∃ μ, InSpan (padFn R knots) (z0 tol R (knots.length + 2 * R) (padFn R knots) x) x μ := by
  rcases hx with hx | hx
  · rcases lt_or_ge x (knots.getD 0 0) with h | h
    · exact Or.inl (z0_outside g (Or.inl h))
    · obtain ⟨j, hj, hlo, hhi⟩ := exists_span g.two h hx
      exact Or.inr ⟨_, inSpan_of (R := R) g hj hlo hhi⟩
  · exact Or.inl (z0_outside g (Or.inr hx))

theorem cdbD_support {tol : K} {R : Nat} {knots : List K} (g : Good tol knots) {x : K}
    (hx : x ≤ knots.getD (knots.length - 1) 0 ∨ knots.getD (knots.length - 1) 0 + tol ≤ x) (k i : Nat)
    (hout : x < padFn R knots i ∨ padFn R knots (i + R + 1) < x) :
    cdbD (padFn R knots) (z0 tol R (knots.length + 2 * R) (padFn R knots) x) x k R i = 0 := by
  have hm := padFn_mono R g.incr (by have := g.two; omega)
  rcases cdb_local (R := R) g hx with h | ⟨μ, h⟩
  · exact cdbD_zero _ _ _ _ _ _ (fun j _ _ => h j)
  · refine cdbD_zero _ _ _ _ _ _ (fun j h1 h2 => h.z0 j ?_)
    rintro rfl
    have a := hm h1
    have b := hm (show j + 1 ≤ i + R + 1 by omega)
    rcases hout with hc | hc
    · exact absurd (lt_of_lt_of_le hc (a.trans h.lo)) (lt_irrefl _)
    · exact absurd (lt_of_lt_of_le hc (h.hi.trans b)) (lt_irrefl _)

/-- **C50** (partial: points past the last knot by less than the tolerance excluded).  The i-th basis function is zero
outside the closed interval between knots i and i + R + 1 of the padded knot vector; at most R + 1 consecutive functions
are non-zero at any point. -/
theorem C50_local_support_partial (tol : K) (R : Nat) (knots : List K) (g : Good tol knots) (x : K)
    (hx : x ≤ knots.getD (knots.length - 1) 0 ∨ knots.getD (knots.length - 1) 0 + tol ≤ x) :
    ∃ t, pad R knots = .ok t ∧
      (∀ i < size R t, ∀ a b, t[i]? = some a → t[i + R + 1]? = some b → (x < a ∨ b < x) → basisEval tol R t i x = .ok 0) ∧
      ∃ s, ∀ i < size R t, ¬ (s ≤ i ∧ i ≤ s + R) → basisEval tol R t i x = .ok 0 := by
  have two := g.two
  have hs : size R (tab (knots.length + 2 * R) (padFn R knots)) = knots.length + R - 1 := by
    unfold size; rw [tab_length]; omega
  refine ⟨_, pad_eq R knots (by omega), ?_, ?_⟩
  · intro i hi a b ha hb hout
    rw [hs] at hi
    rw [basis_value (by omega) hi]
    have ha' : padFn R knots i = a := by
      have := rd_tab (τ := padFn R knots) (show i < knots.length + 2 * R by omega)
      rw [rd, ha] at this; simpa using this.symm
    have hb' : padFn R knots (i + R + 1) = b := by
      have := rd_tab (τ := padFn R knots) (show i + R + 1 < knots.length + 2 * R by omega)
      rw [rd, hb] at this; simpa using this.symm
    subst ha' hb'
    exact congrArg Res.ok (cdbD_support g hx 0 i hout)
  · rw [hs]
    rcases cdb_local (R := R) g hx with h | ⟨μ, h⟩
    · exact ⟨0, fun i hi _ => by rw [basis_value (by omega) hi, cdb_zero _ _ _ _ _ (fun j _ _ => h j)]⟩
    · by_cases hR : R ≤ μ
      · exact ⟨μ - R, fun i hi hn => by rw [basis_value (by omega) hi, cdb_support h R i (by omega)]⟩
      · exact ⟨0, fun i hi hn => by rw [basis_value (by omega) hi, cdb_support h R i (by omega)]⟩

/-- Just past the last knot the last function of order 0 is still one: it is non-zero outside of its support (and higher
order functions extrapolate). -/
theorem C50_bug_past_the_end (tol : K) (h : 0 < tol) :
    basisEval tol 0 [0, 1] 0 (1 + tol / 2) = .ok 1 ∧ (1 : K) < 1 + tol / 2 := by
  refine ⟨?_, by linarith⟩
  simp only [basisEval, size, eval, eval0, rd]; simp
  intro _
  rw [abs_lt]; constructor <;> linarith

/-! ### Derivatives -/

/-- Identity behind the derivative formula. -/
theorem cdb_deriv_identity {t : Nat → K} (ht : Monotone t) (z : Nat → K) (x : K) (R i : Nat) :
    ca t (R + 1) i * (x - t i) * cdbD t z x 1 R i + ca t (R + 1) (i + 1) * (t (i + 1 + (R + 1)) - x) * cdbD t z x 1 R (i + 1) =
      (R : K) * (ca t (R + 1) i * cdb t z x R i - ca t (R + 1) (i + 1) * cdb t z x R (i + 1)) := by
  cases R with
  | zero => simp [cdbD]
  | succ R =>
    have key : ca t (R + 1) (i + 1) * (ca t (R + 2) i * (t (i + (R + 2)) - t i)) =
        ca t (R + 1) (i + 1) * (ca t (R + 2) (i + 1) * (t (i + 1 + (R + 2)) - t (i + 1))) := by
      have m0 := ht (show i ≤ i + 1 by omega)
      have m1 := ht (show i + 1 ≤ i + 1 + (R + 1) by omega)
      have m2 := ht (show i + 1 + (R + 1) ≤ i + 1 + (R + 2) by omega)
      have e : i + (R + 2) = i + 1 + (R + 1) := by omega
      rw [e]
      by_cases hz : t (i + 1 + (R + 1)) - t (i + 1) = 0
      · have : ca t (R + 1) (i + 1) = 0 := by unfold ca; rw [if_neg (by simpa using hz)]
        rw [this]; ring
      · have h1 : t (i + 1 + (R + 1)) - t (i + 1) > 0 := lt_of_le_of_ne (by linarith) (Ne.symm hz)
        have n1 : t (i + 1 + (R + 1)) - t i ≠ 0 := by intro h; linarith
        have n2 : t (i + 1 + (R + 2)) - t (i + 1) ≠ 0 := by intro h; linarith
        have c1 : ca t (R + 2) i * (t (i + 1 + (R + 1)) - t i) = 1 := by
          unfold ca; rw [e, if_pos n1]; field_simp
        have c2 : ca t (R + 2) (i + 1) * (t (i + 1 + (R + 2)) - t (i + 1)) = 1 := by
          unfold ca; rw [if_pos n2]; field_simp
        rw [c1, c2]
    simp only [cdbD, cdb]
    have e : t (i + (R + 2)) = t (i + 1 + (R + 1)) := by congr 1; omega
    have e2 : t (i + 1 + (R + 2)) = t (i + 1 + 1 + (R + 1)) := by congr 1; omega
    rw [e, e2] at key
    have hcast : ((R + 1 : Nat) : K) = (R : K) + 1 := by push_cast; ring
    rw [show R + 1 + 1 = R + 2 from rfl, e2, hcast]
    linear_combination (-((R : K) + 1) * cdb t z x R (i + 1)) * key

theorem cdb_hasDerivAt {t : Nat → ℝ} (ht : Monotone t) (z : Nat → ℝ) (x : ℝ) :
    ∀ R i, HasDerivAt (fun y => cdb t z y R i) (cdbD t z x 1 R i) x
  | 0, i => by simpa [cdb, cdbD] using hasDerivAt_const x (z i)
  | R + 1, i => by
    have h0 := cdb_hasDerivAt ht z x R i
    have h1 := cdb_hasDerivAt ht z x R (i + 1)
    have l0 : HasDerivAt (fun y => ca t (R + 1) i * (y - t i)) (ca t (R + 1) i) x := by
      simpa using ((hasDerivAt_id x).sub_const (t i)).const_mul (ca t (R + 1) i)
    have l1 : HasDerivAt (fun y => ca t (R + 1) (i + 1) * (t (i + 1 + (R + 1)) - y)) (-ca t (R + 1) (i + 1)) x := by
      simpa using ((hasDerivAt_id x).const_sub (t (i + 1 + (R + 1)))).const_mul (ca t (R + 1) (i + 1))
    have h := (l0.mul h0).add (l1.mul h1)
    have hid := cdb_deriv_identity ht z x R i
    refine (h.congr_deriv ?_)
    simp only [cdbD]
    push_cast
    linear_combination hid

theorem cdbD_hasDerivAt {t : Nat → ℝ} (ht : Monotone t) (z : Nat → ℝ) (x : ℝ) :
    ∀ k R i, HasDerivAt (fun y => cdbD t z y k R i) (cdbD t z x (k + 1) R i) x
  | 0, R, i => by simpa only [cdbD] using cdb_hasDerivAt ht z x R i
  | k + 1, 0, i => by simpa [cdbD] using hasDerivAt_const x (0 : ℝ)
  | k + 1, R + 1, i => by
    have h0 := (cdbD_hasDerivAt ht z x k R i).const_mul (((R + 1 : Nat) : ℝ) * ca t (R + 1) i)
    have h1 := (cdbD_hasDerivAt ht z x k R (i + 1)).const_mul (((R + 1 : Nat) : ℝ) * ca t (R + 1) (i + 1))
    rw [cdbD]
    exact h0.sub h1

/-- **C51.**  Strictly between two consecutive knots `derive<k + 1>()` is the derivative of `derive<k>()`, for every
basis function; with k = 0, of the function itself.  (`derive<k>` exists for k ≤ R.)  The last span must not be shorter
than the tolerance. -/
theorem C51_derivative_partial (tol : ℝ) (R : Nat) (knots : List ℝ) (g : Good tol knots) (k : Nat) (_hk : k + 1 ≤ R) :
    ∃ t, pad R knots = .ok t ∧ ∀ i < size R t, ∃ f f' : ℝ → ℝ,
      (∀ y, derive tol R t k R i y = .ok (f y)) ∧ (∀ y, derive tol R t (k + 1) R i y = .ok (f' y)) ∧
      ∀ j x, j + 1 < knots.length → knots.getD j 0 < x → x < knots.getD (j + 1) 0 → HasDerivAt f (f' x) x := by
  have two := g.two
  refine ⟨_, pad_eq R knots (by omega), ?_⟩
  intro i hi
  unfold size at hi
  rw [tab_length] at hi
  refine ⟨_, _, fun y => derive_eq tol R _ _ y k R i (by omega), fun y => derive_eq tol R _ _ y (k + 1) R i (by omega), ?_⟩
  intro j x hj hlo hhi
  have zc : ∀ y, knots.getD j 0 < y → y < knots.getD (j + 1) 0 →
      z0 tol R (knots.length + 2 * R) (padFn R knots) y = fun m => if m = j + R then 1 else 0 := by
    intro y h1 h2
    have sp := inSpan_of (R := R) g hj h1.le (Or.inl h2)
    funext m
    split_ifs with hm
    · rw [hm]; exact sp.z1
    · exact sp.z0 m hm
  have hD := cdbD_hasDerivAt (padFn_mono R g.incr (by omega)) (fun m => if m = j + R then 1 else 0) x k R i
  rw [zc x hlo hhi]
  refine hD.congr_of_eventuallyEq ?_
  filter_upwards [Ioo_mem_nhds hlo hhi] with y hy
  rw [zc y hy.1 hy.2]

/-- The hypothesis on the last span is needed.  With the knots 0, 2, 2 + tol / 2 the second function of order 1 jumps at the point
2 - tol / 2, which lies strictly between the first two knots: from there on the function of the last span is added to it.  So it has no
derivative there, whatever `derive<1>()` answers. -/
theorem C51_bug_short_last_span (tol : ℝ) (h : 0 < tol) (h1 : tol < 1) :
    ∃ (knots t : List ℝ) (f : ℝ → ℝ) (x : ℝ), knots.Pairwise (· < ·) ∧ pad 1 knots = .ok t ∧
      (∀ y, basisEval tol 1 t 1 y = .ok (f y)) ∧ knots.getD 0 0 < x ∧ x < knots.getD 1 0 ∧ ¬ DifferentiableAt ℝ f x := by
  refine ⟨[0, 2, 2 + tol / 2], _, _, 2 - tol / 2, ?_, pad_eq 1 _ (by simp), fun y => basis_value (by simp) (by simp) y, ?_, ?_, ?_⟩
  · simp [h]; linarith
  · simp; linarith
  · simp [h]
  intro hd
  have hc := hd.continuousAt
  have h0 : cdb (padFn 1 [0, 2, 2 + tol / 2]) (z0 tol 1 5 (padFn 1 [0, 2, 2 + tol / 2]) (2 - tol / 2)) (2 - tol / 2) 1 1 =
      (2 - tol / 2) / 2 := by
    have e : |2 - tol / 2 - (2 + tol / 2)| = tol := by
      rw [show 2 - tol / 2 - (2 + tol / 2) = -tol by ring, abs_neg, abs_of_pos h]
    simp [cdb, ca, z0, padFn, e, h, h.le]
    rw [if_pos (show tol / 2 ≤ 2 by linarith), if_neg (fun hh => absurd hh.1 (by linarith))]; ring
  have hy : ∀ y, 2 - tol / 2 < y → y < 2 →
      1 ≤ cdb (padFn 1 [0, 2, 2 + tol / 2]) (z0 tol 1 5 (padFn 1 [0, 2, 2 + tol / 2]) y) y 1 1 - y / 2 := by
    intro y ha hb
    have e : |y - (2 + tol / 2)| < tol := by rw [abs_lt]; constructor <;> linarith
    have h2 : ¬ (2 ≤ y) := not_le.mpr hb
    have h3 : (0 : ℝ) ≤ y := by linarith
    simp [cdb, ca, z0, padFn, e, hb, h2, h3, h.ne']
    rw [inv_eq_one_div]
    have e2 : 2 / tol * (2 + tol / 2 - y) = 2 * (2 - y) / tol + 1 := by field_simp; ring
    have : 0 ≤ 2 * (2 - y) / tol := by apply div_nonneg <;> linarith
    linarith
  have hlim : Filter.Tendsto (fun y => cdb (padFn 1 [0, 2, 2 + tol / 2]) (z0 tol 1 5 (padFn 1 [0, 2, 2 + tol / 2]) y) y 1 1 - y / 2)
      (nhdsWithin (2 - tol / 2) (Set.Ioi (2 - tol / 2))) (nhds 0) := by
    have := (hc.sub (continuousAt_id.div_const 2)).tendsto.mono_left
      (nhdsWithin_le_nhds (s := Set.Ioi (2 - tol / 2)))
    refine Filter.Tendsto.congr (fun _ => rfl) (this.trans ?_)
    refine le_of_eq (congrArg nhds ?_)
    exact sub_eq_zero.mpr h0
  have hev : ∀ᶠ y in nhdsWithin (2 - tol / 2) (Set.Ioi (2 - tol / 2)),
      1 ≤ cdb (padFn 1 [0, 2, 2 + tol / 2]) (z0 tol 1 5 (padFn 1 [0, 2, 2 + tol / 2]) y) y 1 1 - y / 2 := by
    filter_upwards [Ioo_mem_nhdsGT (show 2 - tol / 2 < 2 by linarith)] with y hyy
    exact hy y hyy.1 hyy.2
  have := ge_of_tendsto hlim hev
  norm_num at this

/-- `derive<0>` in the statement above is the function itself. -/
theorem C51_derive_zero (tol : ℝ) (R : Nat) (t : List ℝ) (i : Nat) (y : ℝ) (h : i < size R t) :
    derive tol R t 0 R i y = basisEval tol R t i y := by
  unfold basisEval; rw [if_pos h, derive]

/-- **C50** for expansions: the expansion is the sum of the coefficients times the basis functions, it throws for a
coefficient vector of the wrong size. -/
theorem C50_expansion (tol : K) (R : Nat) (knots : List K) (h : 0 < knots.length) (c : List K) (x : K) :
    ∃ t, pad R knots = .ok t ∧ (c.length ≠ size R t → expansion tol R t c x = .throws) ∧
      (c.length = size R t → ∃ v : Nat → K, (∀ i < size R t, basisEval tol R t i x = .ok (v i)) ∧
        expansion tol R t c x = .ok (∑ i ∈ Finset.range (size R t), c.getD i 0 * v i)) := by
  have hs : size R (tab (knots.length + 2 * R) (padFn R knots)) = knots.length + R - 1 := by
    unfold size; rw [tab_length]; omega
  refine ⟨_, pad_eq R knots h, fun hc => by rw [expansion, if_neg hc], fun hc => ?_⟩
  refine ⟨fun i => cdb (padFn R knots) (z0 tol R (knots.length + 2 * R) (padFn R knots) x) x R i, fun i hi => basis_value h (by omega) x, ?_⟩
  rw [expansion, if_pos hc]
  have key : ∀ N ≤ size R (tab (knots.length + 2 * R) (padFn R knots)),
      foldRes (fun acc h => do
      let v ← basisEval tol R (tab (knots.length + 2 * R) (padFn R knots)) h x
      let ch ← rd c h
      .ok (acc + ch * v)) 0 (List.range N) = .ok (∑ i ∈ Finset.range N, c.getD i 0 *
        cdb (padFn R knots) (z0 tol R (knots.length + 2 * R) (padFn R knots) x) x R i) := by
    intro N
    induction N with
    | zero => intro _; simp
    | succ N ih =>
      intro hN
      rw [List.range_succ, foldRes_append, ih (by omega), Res.ok_bind, foldRes_cons, basis_value h (by omega),
        rd_eq (show N < c.length by omega), Finset.sum_range_succ]
      rfl
  exact key _ le_rfl

end Fdapde.Splines
