import Verif.Splines.PropsReproduce
import Mathlib.Analysis.Calculus.ContDiff.Deriv
import Mathlib.Analysis.Calculus.ContDiff.Operations
import Mathlib.Analysis.Calculus.IteratedDeriv.Defs
import Mathlib.Analysis.Calculus.IteratedDeriv.Lemmas
/- C128: splines are smooth across their knots. -/
namespace Fdapde.Splines
set_option linter.unusedSectionVars false
variable {K : Type} [Field K] [LinearOrder K] [IsStrictOrderedRing K]

/-- At a simple knot the values computed from the left span and from the right one agree, for functions of order at least one. -/
theorem cdb_match {t : Nat → K} {μ : Nat} (hl : t μ < t (μ + 1)) (hr : t (μ + 1) < t (μ + 2)) :
    ∀ R i, cdb t (fun j => if j = μ then 1 else 0) (t (μ + 1)) (R + 1) i = cdb t (fun j => if j = μ + 1 then 1 else 0) (t (μ + 1)) (R + 1) i
  | 0, i => by
    have n1 : t (μ + 1) - t μ ≠ 0 := by intro h; linarith
    have n2 : t (μ + 2) - t (μ + 1) ≠ 0 := by intro h; linarith
    simp only [cdb, ca]
    rcases Nat.lt_trichotomy i μ with h | rfl | h
    · rcases Nat.lt_or_ge (i + 1) μ with h2 | h2
      · simp [show i ≠ μ by omega, show i + 1 ≠ μ by omega, show i ≠ μ + 1 by omega]
      · obtain rfl : μ = i + 1 := by omega
        simp [show i + 1 + 1 = i + 2 by omega]
    · have e : i + 1 + (0 + 1) = i + 2 := by omega
      simp only [e, if_true, if_pos n1, if_pos n2, show i + 1 ≠ i by omega, show i ≠ i + 1 by omega, if_false, mul_zero, mul_one,
        add_zero, zero_add]
      rw [one_div_mul_cancel n1, one_div_mul_cancel n2]
    · rcases Nat.lt_or_ge (μ + 1) i with h2 | h2
      · simp [show i ≠ μ by omega, show i + 1 ≠ μ by omega, show i ≠ μ + 1 by omega]
      · obtain rfl : i = μ + 1 := by omega
        simp [show μ + 1 + 1 ≠ μ by omega]
  | R + 1, i => by
    rw [cdb, cdb_match hl hr R i, cdb_match hl hr R (i + 1)]
    rfl

theorem cdbD_match {t : Nat → K} {μ : Nat} (hl : t μ < t (μ + 1)) (hr : t (μ + 1) < t (μ + 2)) :
    ∀ k R i, k < R → cdbD t (fun j => if j = μ then 1 else 0) (t (μ + 1)) k R i = cdbD t (fun j => if j = μ + 1 then 1 else 0) (t (μ + 1)) k R i
  | 0, R + 1, i, _ => cdb_match hl hr R i
  | k + 1, R + 1, i, h => by
    rw [cdbD, cdbD_match hl hr k R i (by omega), cdbD_match hl hr k R (i + 1) (by omega)]
    rfl

/-- The derivative of order `k` of the `i`-th function of the code. -/
def fD (tol : K) (R : Nat) (knots : List K) (k i : Nat) (y : K) : K :=
  cdbD (padFn R knots) (z0 tol R (knots.length + 2 * R) (padFn R knots) y) y k R i

/-- On each closed span the derivatives of order less than `R` are given by the polynomials of the span. -/
theorem fD_closed {tol : K} {R : Nat} {knots : List K} (g : Good tol knots) {j : Nat} (hj : j + 1 < knots.length) {k : Nat} (hk : k < R) (i : Nat)
    {y : K} (h1 : knots.getD j 0 ≤ y) (h2 : y ≤ knots.getD (j + 1) 0) :
    fD tol R knots k i y = cdbD (padFn R knots) (fun m => if m = j + R then 1 else 0) y k R i := by
  unfold fD
  rcases lt_or_eq_of_le h2 with h | h
  · rw [z0_span g hj h1 h]
  · by_cases he : j + 2 = knots.length
    · have sp := inSpan_of (R := R) g hj h1 (Or.inr ⟨he, h⟩)
      congr 1
      funext m
      split_ifs with hm
      · rw [hm]; exact sp.z1
      · exact sp.z0 m hm
    · have hj2 : j + 1 + 1 < knots.length := by omega
      have e0 := padFn_knot R knots j (by omega)
      have e1 : padFn R knots (j + R + 1) = knots.getD (j + 1) 0 := by
        rw [show j + R + 1 = j + 1 + R by omega]; exact padFn_knot R knots (j + 1) hj
      have e2 : padFn R knots (j + R + 2) = knots.getD (j + 1 + 1) 0 := by
        rw [show j + R + 2 = j + 1 + 1 + R by omega]; exact padFn_knot R knots (j + 1 + 1) hj2
      rw [z0_span g hj2 h.ge (by rw [h]; exact getD_lt g.incr (by omega) hj2), h, ← e1, show j + 1 + R = j + R + 1 by omega]
      refine (cdbD_match ?_ ?_ k R i hk).symm
      · rw [e0, e1]; exact getD_lt g.incr (by omega) hj
      · rw [e1, e2]; exact getD_lt g.incr (by omega) hj2

/-- A property of sets which holds for the spans and passes to unions holds for the interval. -/
theorem span_union {knots : List ℝ} (h2 : 2 ≤ knots.length) (hk : knots.Pairwise (· < ·)) (P : Set ℝ → Prop)
    (hu : ∀ s t, P s → P t → P (s ∪ t)) (hs : ∀ j, j + 1 < knots.length → P (Set.Icc (knots.getD j 0) (knots.getD (j + 1) 0))) :
    P (Set.Icc (knots.getD 0 0) (knots.getD (knots.length - 1) 0)) := by
  have key : ∀ n, n + 1 < knots.length → P (Set.Icc (knots.getD 0 0) (knots.getD (n + 1) 0)) := by
    intro n
    induction n with
    | zero => exact hs 0
    | succ n ih =>
        intro hn
        rw [← Set.Icc_union_Icc_eq_Icc (getD_le hk (Nat.zero_le (n + 1)) (by omega)) (getD_le hk (show n + 1 ≤ n + 1 + 1 by omega) hn)]
        exact hu _ _ (ih (by omega)) (hs (n + 1) hn)
  have := key (knots.length - 2) (by omega)
  rwa [show knots.length - 2 + 1 = knots.length - 1 by omega] at this

theorem fD_hasDeriv {tol : ℝ} {R : Nat} {knots : List ℝ} (g : Good tol knots) {k : Nat} (hk : k + 1 < R) (i : Nat) (x : ℝ) :
    HasDerivWithinAt (fD tol R knots k i) (fD tol R knots (k + 1) i x) (Set.Icc (knots.getD 0 0) (knots.getD (knots.length - 1) 0)) x := by
  have two := g.two
  refine span_union two g.incr (fun s => HasDerivWithinAt (fD tol R knots k i) (fD tol R knots (k + 1) i x) s x)
    (fun s t hs ht => hs.union ht) fun j hj => ?_
  by_cases hx : x ∈ Set.Icc (knots.getD j 0) (knots.getD (j + 1) 0)
  · rw [fD_closed g hj hk i hx.1 hx.2]
    refine (cdbD_hasDerivAt (padFn_mono R g.incr (by omega)) (fun m => if m = j + R then 1 else 0) x k R i).hasDerivWithinAt.congr_of_mem
      (fun y hy => ?_) hx
    exact fD_closed g hj (by omega) i hy.1 hy.2
  · exact HasFDerivWithinAt.of_notMem_closure (by rwa [isClosed_Icc.closure_eq])

theorem fD_continuous {tol : ℝ} {R : Nat} {knots : List ℝ} (g : Good tol knots) {k : Nat} (hk : k < R) (i : Nat) :
    ContinuousOn (fD tol R knots k i) (Set.Icc (knots.getD 0 0) (knots.getD (knots.length - 1) 0)) := by
  have two := g.two
  intro x _
  refine span_union two g.incr (fun s => ContinuousWithinAt (fD tol R knots k i) s x) (fun s t hs ht => hs.union ht) fun j hj => ?_
  by_cases hx : x ∈ Set.Icc (knots.getD j 0) (knots.getD (j + 1) 0)
  · refine (cdbD_hasDerivAt (padFn_mono R g.incr (by omega)) (fun m => if m = j + R then 1 else 0) x k R i).continuousAt.continuousWithinAt.congr_of_mem
      (fun y hy => ?_) hx
    exact fD_closed g hj hk i hy.1 hy.2
  · have : nhdsWithin x (Set.Icc (knots.getD j 0) (knots.getD (j + 1) 0)) = ⊥ := by
      rw [← mem_closure_iff_nhdsWithin_neBot.not.trans Filter.not_neBot, isClosed_Icc.closure_eq]
      exact hx
    rw [ContinuousWithinAt, this]
    exact Filter.tendsto_bot

theorem fD_contDiff {tol : ℝ} {R : Nat} {knots : List ℝ} (g : Good tol knots) (i : Nat) : ∀ n k : Nat, n + k < R →
    ContDiffOn ℝ n (fD tol R knots k i) (Set.Icc (knots.getD 0 0) (knots.getD (knots.length - 1) 0)) ∧
    ∀ x ∈ Set.Icc (knots.getD 0 0) (knots.getD (knots.length - 1) 0),
      iteratedDerivWithin n (fD tol R knots k i) (Set.Icc (knots.getD 0 0) (knots.getD (knots.length - 1) 0)) x = fD tol R knots (k + n) i x := by
  have two := g.two
  have hab := getD_lt g.incr (show 0 < knots.length - 1 by omega) (by omega)
  have hu := uniqueDiffOn_Icc hab
  intro n
  induction n with
  | zero =>
      intro k hk
      refine ⟨?_, fun x _ => by rw [iteratedDerivWithin_zero]; rfl⟩
      rw [Nat.cast_zero, contDiffOn_zero]
      exact fD_continuous g (by omega) i
  | succ n ih =>
      intro k hk
      have hd : ∀ x ∈ Set.Icc (knots.getD 0 0) (knots.getD (knots.length - 1) 0),
          derivWithin (fD tol R knots k i) (Set.Icc (knots.getD 0 0) (knots.getD (knots.length - 1) 0)) x = fD tol R knots (k + 1) i x :=
        fun x hx => (fD_hasDeriv g (by omega) i x).derivWithin (hu x hx)
      obtain ⟨h1, h2⟩ := ih (k + 1) (by omega)
      constructor
      · rw [Nat.cast_succ, contDiffOn_succ_iff_derivWithin hu]
        exact ⟨fun x hx => (fD_hasDeriv g (by omega) i x).differentiableWithinAt, by simp, h1.congr hd⟩
      · intro x hx
        rw [iteratedDerivWithin_succ', show k + (n + 1) = k + 1 + n by omega, ← h2 x hx]
        exact iteratedDerivWithin_congr hd hx

/-- **C128** (partial: the last span must not be shorter than the tolerance).  Every basis function of order `R` has `R - 1` continuous
derivatives between the first and the last knot, the inner knots included, and `derive<k>()` is the derivative of order `k` at every
point of the interval, for `k < R`. -/
theorem C128_smooth_partial (tol : ℝ) (R : Nat) (hR : 0 < R) (knots : List ℝ) (g : Good tol knots) :
    ∃ t, pad R knots = .ok t ∧ ∀ i < size R t, ∃ f : ℝ → ℝ, (∀ y, basisEval tol R t i y = .ok (f y)) ∧
      ContDiffOn ℝ (R - 1 : Nat) f (Set.Icc (knots.getD 0 0) (knots.getD (knots.length - 1) 0)) ∧
      ∀ k < R, ∀ x ∈ Set.Icc (knots.getD 0 0) (knots.getD (knots.length - 1) 0),
        derive tol R t k R i x = .ok (iteratedDerivWithin k f (Set.Icc (knots.getD 0 0) (knots.getD (knots.length - 1) 0)) x) := by
  have two := g.two
  have hs : size R (tab (knots.length + 2 * R) (padFn R knots)) = knots.length + R - 1 := by
    unfold size; rw [tab_length]; omega
  refine ⟨_, pad_eq R knots (by omega), fun i hi => ⟨fD tol R knots 0 i, fun y => basis_value (by omega) (by omega) y,
    (fD_contDiff g i (R - 1) 0 (by omega)).1, fun k hk x hx => ?_⟩⟩
  rw [derive_eq tol R _ _ x k R i (by omega), (fD_contDiff g i k 0 (by omega)).2 x hx, Nat.zero_add]
  rfl

/-- **C128**: at every point before the last knot, inner knots included, `derive<k + 1>()` is the right derivative of `derive<k>()`, up to
the order of the splines. -/
theorem C128_right_derivative_partial (tol : ℝ) (R : Nat) (knots : List ℝ) (g : Good tol knots) (k : Nat) (_hk : k + 1 ≤ R) :
    ∃ t, pad R knots = .ok t ∧ ∀ i < size R t, ∃ f f' : ℝ → ℝ,
      (∀ y, derive tol R t k R i y = .ok (f y)) ∧ (∀ y, derive tol R t (k + 1) R i y = .ok (f' y)) ∧
      ∀ x, knots.getD 0 0 ≤ x → x < knots.getD (knots.length - 1) 0 → HasDerivWithinAt f (f' x) (Set.Ici x) x := by
  have two := g.two
  have hs : size R (tab (knots.length + 2 * R) (padFn R knots)) = knots.length + R - 1 := by
    unfold size; rw [tab_length]; omega
  refine ⟨_, pad_eq R knots (by omega), fun i hi => ⟨fD tol R knots k i, fD tol R knots (k + 1) i,
    fun y => derive_eq tol R _ _ y k R i (by omega), fun y => derive_eq tol R _ _ y (k + 1) R i (by omega), fun x h0 h1 => ?_⟩⟩
  obtain ⟨j, hj, hlo, hhi⟩ := exists_span two h0 h1.le
  have hhi : x < knots.getD (j + 1) 0 := by
    rcases hhi with h | ⟨h, h'⟩
    · exact h
    · rw [h', show j + 1 = knots.length - 1 by omega] at h1; exact absurd h1 (lt_irrefl _)
  have hD := cdbD_hasDerivAt (padFn_mono R g.incr (by omega)) (fun m => if m = j + R then 1 else 0) x k R i
  unfold fD
  rw [z0_span g hj hlo hhi]
  refine hD.hasDerivWithinAt.congr_of_eventuallyEq_of_mem ?_ Set.self_mem_Ici
  filter_upwards [Ico_mem_nhdsGE hhi] with y hy
  rw [z0_span g hj (hlo.trans hy.1) hy.2]

/-- **C128** for expansions: a spline of order `R` has `R - 1` continuous derivatives. -/
theorem C128_expansion_partial (tol : ℝ) (R : Nat) (hR : 0 < R) (knots : List ℝ) (g : Good tol knots) (c : List ℝ) :
    ∃ t, pad R knots = .ok t ∧ (c.length = size R t → ∃ f : ℝ → ℝ, (∀ y, expansion tol R t c y = .ok (f y)) ∧
      ContDiffOn ℝ (R - 1 : Nat) f (Set.Icc (knots.getD 0 0) (knots.getD (knots.length - 1) 0))) := by
  have two := g.two
  have hs : size R (tab (knots.length + 2 * R) (padFn R knots)) = knots.length + R - 1 := by
    unfold size; rw [tab_length]; omega
  refine ⟨_, pad_eq R knots (by omega), fun hl => ⟨_, fun y => expansion_values g (by rw [hl, hs]) y, ?_⟩⟩
  refine ContDiffOn.sum fun i _ => contDiffOn_const.mul ?_
  exact (fD_contDiff g i (R - 1) 0 (by omega)).1

/-- The number of derivatives is sharp: with the knots 0, 1, 2 the second function of order 1 is a hat, and it has no derivative at 1. -/
theorem C128_sharp : ∃ (tol : ℝ) (f : ℝ → ℝ), Good tol [(0 : ℝ), 1, 2] ∧
    (∀ y, basisEval tol 1 (tab 5 (padFn 1 [(0 : ℝ), 1, 2])) 1 y = .ok (f y)) ∧ ¬ DifferentiableAt ℝ f 1 := by
  have g : Good (1 / 10 : ℝ) [(0 : ℝ), 1, 2] := ⟨by simp, by simp [List.pairwise_cons], by norm_num, by norm_num [List.getD]⟩
  refine ⟨1 / 10, fD (1 / 10) 1 [(0 : ℝ), 1, 2] 0 1, g, fun y => basis_value (knots := [(0 : ℝ), 1, 2]) (by simp) (by simp) y, fun hd => ?_⟩
  have hL : ∀ y, 0 ≤ y → y ≤ 1 → fD (1 / 10) 1 [(0 : ℝ), 1, 2] 0 1 y = y := by
    intro y h0 h1
    rw [fD_closed g (j := 0) (by simp) (by omega) 1 (by simpa using h0) (by simpa using h1)]
    simp [cdbD, cdb, ca, padFn]
  have hR : ∀ y, 1 ≤ y → y ≤ 2 → fD (1 / 10) 1 [(0 : ℝ), 1, 2] 0 1 y = 2 - y := by
    intro y h0 h1
    rw [fD_closed g (j := 1) (by simp) (by omega) 1 (by simpa using h0) (by simpa using h1)]
    simp [cdbD, cdb, ca, padFn]
    norm_num
  have d := hd.hasDerivAt
  have dL : HasDerivWithinAt (fD (1 / 10) 1 [(0 : ℝ), 1, 2] 0 1) 1 (Set.Icc 0 1) 1 :=
    (hasDerivAt_id (1 : ℝ)).hasDerivWithinAt.congr_of_mem (fun y hy => by rw [hL y hy.1 hy.2]; rfl) (by simp)
  have dR : HasDerivWithinAt (fD (1 / 10) 1 [(0 : ℝ), 1, 2] 0 1) (-1) (Set.Icc 1 2) 1 :=
    ((hasDerivAt_id (1 : ℝ)).const_sub 2).hasDerivWithinAt.congr_of_mem (fun y hy => by rw [hR y hy.1 hy.2]; rfl) (by norm_num)
  have u1 := (uniqueDiffOn_Icc (show (0 : ℝ) < 1 by norm_num) 1 (by simp)).eq_deriv _ d.hasDerivWithinAt dL
  have u2 := (uniqueDiffOn_Icc (show (1 : ℝ) < 2 by norm_num) 1 (by norm_num)).eq_deriv _ d.hasDerivWithinAt dR
  rw [u1] at u2
  norm_num at u2

example : Good (1 / 10) [(0 : ℝ), 1, 3] ∧ (0 : Nat) < 3 :=
  ⟨⟨by simp, by simp [List.pairwise_cons], by norm_num, by norm_num [List.getD]⟩, by omega⟩

end Fdapde.Splines
