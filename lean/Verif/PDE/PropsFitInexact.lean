import Verif.PDE.PropsSpaceTime
import Verif.PDE.InexactSpec
/- C168 : regressions solved with a factorization in floating point. -/
set_option linter.unusedSectionVars false
namespace Fdapde.PDE
open Finset FEM LinAlg

/-! ### Systems with a small residual -/

/-- A vector that solves a non-singular system up to a relative residual is near to the solution. -/
theorem inexact_bound (n : Nat) (A : Nat → Nat → ℝ) (hA : (Matrix.of fun i j : Fin n => A i j).det ≠ 0) :
    ∃ C : ℝ, 0 ≤ C ∧ ∀ (ε : ℝ) (x x' b : Nat → ℝ), 0 ≤ ε → C * ε ≤ 1 → (∀ p < n, ∑ q ∈ range n, A p q * x q = b p) →
      (∀ p < n, |∑ q ∈ range n, A p q * x' q - b p| ≤ ε * (∑ q ∈ range n, |A p q| * |x' q| + |b p|)) →
      ∀ X, (∀ p < n, |x p| ≤ X) → ∀ p < n, |x' p - x p| ≤ C * ε * X := by
  classical
  set Am : Matrix (Fin n) (Fin n) ℝ := Matrix.of fun i j : Fin n => A i j with hAm
  set κ : ℝ := ∑ i, ∑ j, |Am⁻¹ i j| * ∑ k, |Am j k| with hκ
  have hκ0 : 0 ≤ κ := sum_nonneg fun i _ => sum_nonneg fun j _ => mul_nonneg (abs_nonneg _) (sum_nonneg fun k _ => abs_nonneg _)
  have hrow : ∀ i, ∑ j, |Am⁻¹ i j| * ∑ k, |Am j k| ≤ κ := fun i =>
    single_le_sum (f := fun i => ∑ j, |Am⁻¹ i j| * ∑ k, |Am j k|)
      (fun i _ => sum_nonneg fun j _ => mul_nonneg (abs_nonneg _) (sum_nonneg fun k _ => abs_nonneg _)) (mem_univ i)
  refine ⟨4 * κ, by linarith, fun ε x x' b hε hC hx hx' X hX p hp => ?_⟩
  set δ : Fin n → ℝ := fun i => x' i - x i with hδ
  have hinv : ∀ i, δ i = ∑ j, Am⁻¹ i j * ∑ k, Am j k * δ k := fun i => by
    have e := congrFun (congrArg (fun M => M.mulVec δ) (Matrix.nonsing_inv_mul Am (isUnit_iff_ne_zero.2 hA))) i
    simp only [← Matrix.mulVec_mulVec, Matrix.one_mulVec] at e
    exact e.symm
  obtain ⟨i0, hi0⟩ : ∃ i0, ∀ i, |δ i| ≤ |δ i0| := by
    haveI : Nonempty (Fin n) := ⟨⟨p, hp⟩⟩
    exact Finite.exists_max fun i => |δ i|
  set D := |δ i0| with hD
  have hX0 : 0 ≤ X := le_trans (abs_nonneg _) (hX p hp)
  have hres : ∀ j : Fin n, |∑ k, Am j k * δ k| ≤ ε * ((∑ k, |Am j k|) * (2 * X + D)) := by
    intro j
    have e1 : ∑ k, Am j k * δ k = ∑ q ∈ range n, A j q * x' q - b j := by
      rw [← hx j j.2, ← sum_sub_distrib, sum_range]
      exact sum_congr rfl fun k _ => by rw [hAm, hδ]; simp only [Matrix.of_apply]; ring
    rw [e1]
    refine (hx' j j.2).trans (mul_le_mul_of_nonneg_left ?_ hε)
    have b1 : |b j| ≤ (∑ k, |Am j k|) * X := by
      rw [← hx j j.2, sum_mul, sum_range]
      refine (abs_sum_le_sum_abs _ _).trans (sum_le_sum fun k _ => ?_)
      rw [abs_mul]
      exact mul_le_mul_of_nonneg_left (hX k k.2) (abs_nonneg _)
    have b2 : ∑ q ∈ range n, |A j q| * |x' q| ≤ (∑ k, |Am j k|) * (X + D) := by
      rw [sum_mul, sum_range]
      refine sum_le_sum fun k _ => mul_le_mul_of_nonneg_left ?_ (abs_nonneg _)
      have h1 := hX k k.2
      have h2 := hi0 k
      have h3 : x' k = x k + δ k := by rw [hδ]; ring
      rw [h3]
      exact (abs_add_le _ _).trans (add_le_add h1 h2)
    calc _ ≤ (∑ k, |Am j k|) * (X + D) + (∑ k, |Am j k|) * X := add_le_add b2 b1
      _ = _ := by ring
  have hDb : D ≤ ε * κ * (2 * X + D) := by
    have hp2 : 0 ≤ 2 * X + D := by have := abs_nonneg (δ i0); linarith
    calc D = |∑ j, Am⁻¹ i0 j * ∑ k, Am j k * δ k| := by rw [hD, hinv i0]
      _ ≤ ∑ j, |Am⁻¹ i0 j| * (ε * ((∑ k, |Am j k|) * (2 * X + D))) := by
          refine (abs_sum_le_sum_abs _ _).trans (sum_le_sum fun j _ => ?_)
          rw [abs_mul]
          exact mul_le_mul_of_nonneg_left (hres j) (abs_nonneg _)
      _ = ε * (∑ j, |Am⁻¹ i0 j| * ∑ k, |Am j k|) * (2 * X + D) := by
          rw [mul_sum, sum_mul]; exact sum_congr rfl fun j _ => by ring
      _ ≤ ε * κ * (2 * X + D) := mul_le_mul_of_nonneg_right (mul_le_mul_of_nonneg_left (hrow i0) hε) hp2
  have hp' := hi0 ⟨p, hp⟩
  have hD0 : 0 ≤ D := abs_nonneg _
  have h4 : ε * κ * D ≤ D / 4 := by nlinarith
  have h5 : 0 ≤ ε * κ * X := mul_nonneg (mul_nonneg hε hκ0) hX0
  have : D ≤ 4 * κ * ε * X := by nlinarith
  exact hp'.trans this

/-- A solver that fails on singular matrices. -/
theorem exists_refusingLU (n : Nat) : ∃ lu : Solver ℝ, ExactLU n lu ∧ CompleteLU n lu ∧ ∀ A, (lu A).isSome → (Matrix.of fun i j : Fin n => A i j).det ≠ 0 := by
  classical
  obtain ⟨lu, h1, h2⟩ := exists_exactLU (K := ℝ) n
  refine ⟨fun A => if (Matrix.of fun i j : Fin n => A i j).det ≠ 0 then lu A else none, fun A f hf => ?_, fun A hA => ?_, fun A hA => ?_⟩
  · dsimp only at hf
    split_ifs at hf with h
    exact h1 A f hf
  · dsimp only; rw [if_pos hA]; exact h2 A hA
  · dsimp only at hA
    split_ifs at hA with h
    · exact h
    · simp at hA

/-- Solvers with a relative error exist, which are not exact. -/
theorem exists_inflatedLU (n : Nat) {ε : ℝ} (hε : 0 ≤ ε) : ∃ lu : Solver ℝ, BackwardLU n ε lu ∧ CompleteLU n lu ∧
    ∀ A f, lu A = some f → ∀ (b : Nat → ℝ), ∀ p < n, ∑ q ∈ range n, A p q * f b q = (1 + ε) * b p := by
  obtain ⟨lu, h1, h2⟩ := exists_exactLU (K := ℝ) n
  have key : ∀ A f, (lu A).map (fun F b q => (1 + ε) * F b q) = some f → ∀ (b : Nat → ℝ), ∀ p < n, ∑ q ∈ range n, A p q * f b q = (1 + ε) * b p := by
    intro A f hf b p hp
    obtain ⟨F, hF, rfl⟩ := Option.map_eq_some_iff.1 hf
    rw [← h1 A F hF b p hp, mul_sum]
    exact sum_congr rfl fun q _ => by ring
  refine ⟨fun A => (lu A).map fun F b q => (1 + ε) * F b q, fun A f hf b p hp => ?_, fun A hA => ?_, key⟩
  · rw [key A f hf b p hp, show (1 + ε) * b p - b p = ε * b p by ring, abs_mul, abs_of_nonneg hε]
    exact mul_le_mul_of_nonneg_left (le_add_of_nonneg_left (sum_nonneg fun q _ => mul_nonneg (abs_nonneg _) (abs_nonneg _))) hε
  · have := h2 A hA
    dsimp only
    rw [Option.isSome_map]
    exact this

/-! ### Splines -/

/-- **C168** for smoothing splines (partial: the matrices are exact).  For every smoothing problem and parameter there is a number C such that, for all
observations, the coefficients obtained with any solver of relative residual ε (C ε ≤ 1) differ from those of the minimizer by at most C ε times the
largest of the latter, and so do the values of the splines at every point between the first and the last knot. -/
theorem C168_smoothing_partial {tol : ℝ} {R : Nat} {knots qn qw locs : List ℝ} (h : Splines.SmoothData tol R knots qn qw locs) (lam : ℝ) (hl : 0 < lam) :
    ∃ C : ℝ, 0 ≤ C ∧ ∀ (y : Nat → ℝ) (ε : ℝ) (lu lu' : Solver ℝ), 0 ≤ ε → C * ε ≤ 1 →
      BackwardLU (knots.length + R - 1) ε lu → CompleteLU (knots.length + R - 1) lu →
      ExactLU (knots.length + R - 1) lu' → CompleteLU (knots.length + R - 1) lu' →
      ∃ t S c c', Splines.smooth tol R knots qn qw lu locs lam y = .ok (some (t, S, c)) ∧
        Splines.smooth tol R knots qn qw lu' locs lam y = .ok (some (t, S, c')) ∧
        c.length = knots.length + R - 1 ∧ c'.length = knots.length + R - 1 ∧
        ∀ X, (∀ p < knots.length + R - 1, |c'.getD p 0| ≤ X) →
          (∀ p < knots.length + R - 1, |c.getD p 0 - c'.getD p 0| ≤ C * ε * X) ∧
          ∀ x, knots.getD 0 0 ≤ x → x ≤ knots.getD (knots.length - 1) 0 → ∃ v v', Splines.expansion tol R t c x = .ok v ∧
            Splines.expansion tol R t c' x = .ok v' ∧ |v - v'| ≤ C * ε * X := by
  have two := h.good.two
  obtain ⟨s, s', h1, h2, h3, hb, -⟩ := Splines.solver_forms tol R knots h.good qn qw h.inside (.neg .bilap)
  obtain ⟨x1, m1, -⟩ := h.two
  obtain ⟨t, ht, l, el, -⟩ := Splines.C85_evaluation_matrix tol R knots (by omega) locs (List.ne_nil_of_mem m1)
  rw [Splines.pad_eq R knots (by omega)] at ht
  obtain rfl := Res.ok.inj ht
  set A := Splines.normalMatrix locs.length (Splines.entry l) s'.stiff lam with hA
  have run : ∀ (lu : Solver ℝ) f y, lu A = some f → Splines.smooth tol R knots qn qw lu locs lam y =
      .ok (some (Splines.tab (knots.length + 2 * R) (Splines.padFn R knots), s'.stiff,
        (List.range (knots.length + R - 1)).map (f (Splines.normalRhs locs.length (Splines.entry l) y)))) := fun lu f y hf => by
    rw [Splines.smooth, h1, Res.ok_bind, h2, Res.ok_bind, hb, el, Res.ok_bind, ← hA, hf, h3]
  have hdet : (Matrix.of fun i j : Fin (knots.length + R - 1) => A i j).det ≠ 0 := by
    obtain ⟨lu, a1, a2, a3⟩ := exists_refusingLU (knots.length + R - 1)
    obtain ⟨l', S', -, -, hh⟩ := Splines.smooth_core h a1 a2
    obtain ⟨c, -, e, -⟩ := (hh lam hl).2 fun _ => 0
    refine a3 A ?_
    cases hlu : lu A with
    | some f => rfl
    | none => rw [Splines.smooth, h1, Res.ok_bind, h2, Res.ok_bind, hb, el, Res.ok_bind, ← hA, hlu] at e; simp at e
  obtain ⟨C, hC0, hC⟩ := inexact_bound _ A hdet
  refine ⟨C, hC0, fun y ε lu lu' hε hCε b1 b2 e1 e2 => ?_⟩
  obtain ⟨f, hf⟩ := Option.isSome_iff_exists.1 (b2 A hdet)
  obtain ⟨f', hf'⟩ := Option.isSome_iff_exists.1 (e2 A hdet)
  set b := Splines.normalRhs locs.length (Splines.entry l) y with hbb
  refine ⟨_, _, _, _, run lu f y hf, run lu' f' y hf', by simp, by simp, fun X hX => ?_⟩
  have hg : ∀ (F : (Nat → ℝ) → Nat → ℝ), ∀ p < knots.length + R - 1, ((List.range (knots.length + R - 1)).map (F b)).getD p 0 = F b p :=
    fun F p hp => Splines.getD_map_range _ _ _ hp
  have hco : ∀ p < knots.length + R - 1, |((List.range (knots.length + R - 1)).map (f b)).getD p 0 -
      ((List.range (knots.length + R - 1)).map (f' b)).getD p 0| ≤ C * ε * X := by
    intro p hp
    rw [hg f p hp, hg f' p hp]
    exact hC ε (f' b) (f b) b hε hCε (e1 A f' hf' b) (b1 A f hf b) X (fun q hq => by rw [← hg f' q hq]; exact hX q hq) p hp
  refine ⟨hco, fun x hx0 hx1 => ?_⟩
  refine ⟨_, _, Splines.expansion_values h.good (by simp) x, Splines.expansion_values h.good (by simp) x, ?_⟩
  obtain ⟨j, hj, hlo, hhi⟩ := Splines.exists_span two hx0 hx1
  have sp := Splines.inSpan_of (R := R) h.good hj hlo hhi
  have hm := Splines.padFn_mono R h.good.incr (by omega)
  have hsum := Splines.cdb_sum hm sp (knots.length + R - 1) (by omega) R (by omega)
  rw [← sum_sub_distrib]
  calc _ ≤ ∑ i ∈ range (knots.length + R - 1), C * ε * X *
        Splines.cdb (Splines.padFn R knots) (Splines.z0 tol R (knots.length + 2 * R) (Splines.padFn R knots) x) x R i := by
          refine (abs_sum_le_sum_abs _ _).trans (sum_le_sum fun i hi => ?_)
          have n0 := Splines.cdb_nonneg hm sp R i
          rw [← sub_mul, abs_mul, abs_of_nonneg n0]
          exact mul_le_mul_of_nonneg_right (hco i (mem_range.1 hi)) n0
    _ = C * ε * X := by rw [← mul_sum, hsum, mul_one]

/-! ### Regression in space -/

variable {P : Prob ℝ} {data : Dense ℝ} {ids : List Int} {psi : Nat → Nat → Nat → ℝ} {l : List (Trip ℝ)}

/-- Unit vectors. -/
def basisVec (i p : Nat) : ℝ := if p = i then 1 else 0

theorem entry_of_form {m : Nat} (S : Nat → Nat → ℝ) {p q : Nat} (hp : p < m) (hq : q < m) :
    Splines.pform m S (basisVec q) (basisVec p) = S p q := by
  unfold Splines.pform basisVec
  rw [sum_eq_single p (fun r _ hr => sum_eq_zero fun s _ => by simp [hr]) (fun hn => absurd (mem_range.2 hp) hn),
    sum_eq_single q (fun s _ hs => by simp [hs]) (fun hn => absurd (mem_range.2 hq) hn)]
  simp

/-- **C168** for regression in space (partial: the matrices are exact).  For every problem, locations and parameter there is a number C such that, for all
forcings and observations, whatever the memory held, what the program obtains with any solver of relative residual ε (C ε ≤ 1) differs at no node from the
minimizer, and from the function by which that fails to solve the problem, by more than C ε times the largest value of the two at the nodes. -/
theorem C168_spatial_partial (h : FitData P data ids psi l) (lam : ℝ) (hl : 0 < lam) :
    ∃ C : ℝ, 0 ≤ C ∧ ∀ (data' : Dense ℝ), P.n * Quadrature.size P.t ≤ data'.rows → 0 < data'.cols →
      ∀ (junk y : Nat → ℝ) (ε : ℝ) (lu lu' : Solver ℝ), 0 ≤ ε → C * ε ≤ 1 → BackwardLU (P.m + P.m) ε lu → CompleteLU (P.m + P.m) lu →
      ExactLU (P.m + P.m) lu' → CompleteLU (P.m + P.m) lu' →
      ∃ f g f' g', spatialFit lu P data' junk ids psi lam y = .ok (some (f, g)) ∧ spatialFit lu' P data' junk ids psi lam y = .ok (some (f', g')) ∧
        ∀ X, (∀ p < P.m, |f' p| ≤ X ∧ |g' p| ≤ X) → ∀ p < P.m, |f p - f' p| ≤ C * ε * X ∧ |g p - g' p| ≤ C * ε * X := by
  set S : Nat → Nat → ℝ := fun p q => P.bilin (basisVec q) (basisVec p) with hS
  set M : Nat → Nat → ℝ := fun p q => P.l2 (basisVec q) (basisVec p) with hM
  set Q := quadEntry P.m (fun p q => -∑ j ∈ range ids.length, entry l j p * entry l j q) (fun p q => lam * S q p) (fun p q => lam * S p q)
    (fun p q => lam * M p q) with hQ
  have same : ∀ data' : Dense ℝ, P.n * Quadrature.size P.t ≤ data'.rows → 0 < data'.cols → ∀ junk, ∃ s A b0, P.init data' junk = .ok s ∧ s.n = P.m ∧
      SB.make 2 2 [⟨P.m, P.m, fun p q => -∑ j ∈ range ids.length, entry l j p * entry l j q⟩, ⟨P.m, P.m, fun p q => lam * s.stiff q p⟩,
        ⟨P.m, P.m, fun p q => lam * s.stiff p q⟩, ⟨P.m, P.m, fun p q => lam * s.mass p q⟩] = .ok A ∧ s.force = b0 ∧
      ∀ p < P.m + P.m, ∀ q < P.m + P.m, readAll A p q = Q p q := by
    intro data' hr hc junk
    obtain ⟨s, e1, e2, _, _, _, hS', hM', -⟩ := C102_init P h.ok data' hr hc junk
    obtain ⟨A, eA, hA⟩ := make_read P.m (fun p q => -∑ j ∈ range ids.length, entry l j p * entry l j q) (fun p q => lam * s.stiff q p)
      (fun p q => lam * s.stiff p q) (fun p q => lam * s.mass p q)
    have es : ∀ p < P.m, ∀ q < P.m, s.stiff p q = S p q := fun p hp q hq => by
      rw [← entry_of_form s.stiff hp hq]; exact hS' _ _
    have em : ∀ p < P.m, ∀ q < P.m, s.mass p q = M p q := fun p hp q hq => by
      rw [← entry_of_form s.mass hp hq]; exact hM' _ _
    refine ⟨s, A, _, e1, e2, eA, rfl, fun p hp q hq => ?_⟩
    rw [hA p hp q hq, hQ]
    exact quadEntry_congr (fun _ _ _ _ => rfl) (fun p hp q hq => by rw [es q hq p hp]) (fun p hp q hq => by rw [es p hp q hq])
      (fun p hp q hq => by rw [em p hp q hq]) p hp q hq
  have hdetOf : ∀ B : Nat → Nat → ℝ, (∀ p < P.m + P.m, ∀ q < P.m + P.m, B p q = Q p q) →
      (Matrix.of fun i j : Fin (P.m + P.m) => B i j) = Matrix.of fun i j : Fin (P.m + P.m) => Q i j := fun B hB => by
    ext i j; exact hB i i.2 j j.2
  have hdet : (Matrix.of fun i j : Fin (P.m + P.m) => Q i j).det ≠ 0 := by
    obtain ⟨lu, a1, a2, a3⟩ := exists_refusingLU (P.m + P.m)
    obtain ⟨f, g, e, -⟩ := C162_fit_partial h a1 a2 (fun _ => 0) lam hl fun _ => 0
    obtain ⟨s, A, b0, e1, e2, eA, -, hA⟩ := same data h.rows h.cols fun _ => 0
    rw [← hdetOf _ hA]
    refine a3 (readAll A) ?_
    cases hlu : lu (readAll A) with
    | some f => rfl
    | none =>
      rw [spatialFit, e1, Res.ok_bind, h.eval, Res.ok_bind] at e
      simp only [e2] at e
      rw [eA, Res.ok_bind, hlu] at e
      simp at e
  obtain ⟨C, hC0, hC⟩ := inexact_bound _ Q hdet
  refine ⟨C, hC0, fun data' hr hc junk y ε lu lu' hε hCε b1 b2 x1 x2 => ?_⟩
  obtain ⟨s, A, b0, e1, e2, eA, -, hA⟩ := same data' hr hc junk
  have hd : (Matrix.of fun i j : Fin (P.m + P.m) => readAll A i j).det ≠ 0 := by rw [hdetOf _ hA]; exact hdet
  obtain ⟨F, hF⟩ := Option.isSome_iff_exists.1 (b2 _ hd)
  obtain ⟨F', hF'⟩ := Option.isSome_iff_exists.1 (x2 _ hd)
  set b : Nat → ℝ := fun p => if p < P.m then -∑ j ∈ range ids.length, entry l j p * y j else lam * s.force (p - P.m) with hb
  have run : ∀ (lu : Solver ℝ) G, lu (readAll A) = some G → spatialFit lu P data' junk ids psi lam y = .ok (some (G b, fun p => G b (P.m + p))) := by
    intro lu G hG
    rw [spatialFit, e1, Res.ok_bind, h.eval, Res.ok_bind]
    simp only [e2]
    rw [eA, Res.ok_bind, hG]
  refine ⟨_, _, _, _, run lu F hF, run lu' F' hF', fun X hX => ?_⟩
  have key := hC ε (F' b) (F b) b hε hCε
    (fun p hp => by rw [← x1 _ F' hF' b p hp]; exact sum_congr rfl fun q hq => by rw [hA p hp q (mem_range.1 hq)])
    (fun p hp => by
      have := b1 _ F hF b p hp
      rw [sum_congr rfl fun q hq => by rw [hA p hp q (mem_range.1 hq)], sum_congr (s₁ := range (P.m + P.m)) (f := fun q => |readAll A p q| * |F b q|) rfl
        fun q hq => by rw [hA p hp q (mem_range.1 hq)]] at this
      exact this) X (fun p hp => by
      by_cases hpm : p < P.m
      · exact (hX p hpm).1
      · have := (hX (p - P.m) (by omega)).2
        rwa [Nat.add_sub_cancel' (by omega)] at this)
  exact fun p hp => ⟨key p (by omega), key (P.m + p) (by omega)⟩

/-! ### Regression in space and time -/

/-- **C168** for regression in space and time (partial: the matrices are exact): as in space, for all observations. -/
theorem C168_space_time_partial {tol : ℝ} {R : Nat} {knots qn qw times : List ℝ} (ht : TimeData tol R knots qn qw times) (h : FitData P data ids psi l)
    (junk : Nat → ℝ) (lamT lamD : ℝ) (hT : 0 < lamT) (hD : 0 < lamD) :
    ∃ C : ℝ, 0 ≤ C ∧ ∀ (y : Nat → ℝ) (ε : ℝ) (lu lu' : Solver ℝ), 0 ≤ ε → C * ε ≤ 1 →
      BackwardLU ((knots.length + R - 1) * P.m + (knots.length + R - 1) * P.m) ε lu →
      CompleteLU ((knots.length + R - 1) * P.m + (knots.length + R - 1) * P.m) lu →
      ExactLU ((knots.length + R - 1) * P.m + (knots.length + R - 1) * P.m) lu' →
      CompleteLU ((knots.length + R - 1) * P.m + (knots.length + R - 1) * P.m) lu' →
      ∃ f g f' g', spaceTimeFit tol R knots qn qw times lu P data junk ids psi lamT lamD y = .ok (some (f, g)) ∧
        spaceTimeFit tol R knots qn qw times lu' P data junk ids psi lamT lamD y = .ok (some (f', g')) ∧
        ∀ X, (∀ p < (knots.length + R - 1) * P.m, |f' p| ≤ X ∧ |g' p| ≤ X) →
          ∀ p < (knots.length + R - 1) * P.m, |f p - f' p| ≤ C * ε * X ∧ |g p - g' p| ≤ C * ε * X := by
  obtain ⟨s0, t, lt, c1, c2, c3, c4, -⟩ := time_core ht
  obtain ⟨s, e1, e2, -⟩ := C102_init P h.ok data h.rows h.cols junk
  have run : ∃ (A : Nat → Nat → ℝ) (b : (Nat → ℝ) → Nat → ℝ), ∀ (lu : Solver ℝ) y, spaceTimeFit tol R knots qn qw times lu P data junk ids psi lamT lamD y =
      match lu A with
      | none => .ok none
      | some F => .ok (some (F (b y), fun p => F (b y) ((knots.length + R - 1) * P.m + p))) := by
    obtain ⟨A, eA, -⟩ := make_read ((knots.length + R - 1) * P.m)
      (fun p q => -∑ j ∈ range (kronMat ⟨times.length, knots.length + R - 1, Splines.entry lt⟩ ⟨ids.length, P.m, entry l⟩).rows,
        (kronMat ⟨times.length, knots.length + R - 1, Splines.entry lt⟩ ⟨ids.length, P.m, entry l⟩).coeff j p *
        (kronMat ⟨times.length, knots.length + R - 1, Splines.entry lt⟩ ⟨ids.length, P.m, entry l⟩).coeff j q -
        lamT * (kronMat ⟨knots.length + R - 1, knots.length + R - 1, t.stiff⟩ ⟨P.m, P.m, s.mass⟩).coeff p q)
      (fun p q => lamD * (kronMat ⟨knots.length + R - 1, knots.length + R - 1, t.mass⟩ ⟨P.m, P.m, s.stiff⟩).coeff q p)
      (fun p q => lamD * (kronMat ⟨knots.length + R - 1, knots.length + R - 1, t.mass⟩ ⟨P.m, P.m, s.stiff⟩).coeff p q)
      (fun p q => lamD * (kronMat ⟨knots.length + R - 1, knots.length + R - 1, t.mass⟩ ⟨P.m, P.m, s.mass⟩).coeff p q)
    refine ⟨readAll A, fun y p => if p < (knots.length + R - 1) * P.m then
      -∑ j ∈ range (kronMat ⟨times.length, knots.length + R - 1, Splines.entry lt⟩ ⟨ids.length, P.m, entry l⟩).rows,
        (kronMat ⟨times.length, knots.length + R - 1, Splines.entry lt⟩ ⟨ids.length, P.m, entry l⟩).coeff j p * y j else 0, fun lu y => ?_⟩
    rw [spaceTimeFit, c1, Res.ok_bind, c2, Res.ok_bind, c4, Res.ok_bind, e1, Res.ok_bind, h.eval, Res.ok_bind]
    simp only [e2, c3]
    rw [eA, Res.ok_bind]
    cases lu (readAll A) <;> rfl
  obtain ⟨A, b, run⟩ := run
  have hdet : (Matrix.of fun i j : Fin ((knots.length + R - 1) * P.m + (knots.length + R - 1) * P.m) => A i j).det ≠ 0 := by
    obtain ⟨lu, a1, a2, a3⟩ := exists_refusingLU ((knots.length + R - 1) * P.m + (knots.length + R - 1) * P.m)
    obtain ⟨f, g, e, -⟩ := st_fit ht h a1 a2 junk lamT lamD hT hD fun _ => 0
    refine a3 A ?_
    rw [run] at e
    cases hlu : lu A with
    | some f => rfl
    | none => rw [hlu] at e; simp at e
  obtain ⟨C, hC0, hC⟩ := inexact_bound _ A hdet
  refine ⟨C, hC0, fun y ε lu lu' hε hCε b1 b2 x1 x2 => ?_⟩
  obtain ⟨F, hF⟩ := Option.isSome_iff_exists.1 (b2 _ hdet)
  obtain ⟨F', hF'⟩ := Option.isSome_iff_exists.1 (x2 _ hdet)
  refine ⟨F (b y), _, F' (b y), _, by rw [run, hF], by rw [run, hF'], fun X hX => ?_⟩
  have key := hC ε (F' (b y)) (F (b y)) (b y) hε hCε (x1 _ F' hF' (b y)) (b1 _ F hF (b y)) X (fun p hp => by
    by_cases hpm : p < (knots.length + R - 1) * P.m
    · exact (hX p hpm).1
    · have := (hX (p - (knots.length + R - 1) * P.m) (by omega)).2
      rwa [Nat.add_sub_cancel' (by omega)] at this)
  exact fun p hp => ⟨key p (by omega), key ((knots.length + R - 1) * P.m + p) (by omega)⟩

/-! ### On meshes -/

/-- Polynomials of degree at most one are affine. -/
theorem eval_convex {N : Nat} (q : MvPolynomial (Fin N) ℝ) (hq : q.totalDegree ≤ 1) (x y : Fin N → ℝ) (a b : ℝ) (hab : a + b = 1) :
    MvPolynomial.eval (a • x + b • y) q = a * MvPolynomial.eval x q + b * MvPolynomial.eval y q := by
  rw [MvPolynomial.eval_eq', MvPolynomial.eval_eq', MvPolynomial.eval_eq', mul_sum, mul_sum, ← sum_add_distrib]
  refine sum_congr rfl fun s hs => ?_
  have h1 : (s.sum fun _ e => e) ≤ 1 := (MvPolynomial.le_totalDegree hs).trans hq
  rcases Nat.le_one_iff_eq_zero_or_eq_one.1 h1 with h0 | h0
  · have : ∀ i, s i = 0 := fun i => by
      by_contra hi
      have := single_le_sum (f := fun i => s i) (fun _ _ => Nat.zero_le _) (Finsupp.mem_support_iff.2 hi)
      rw [Finsupp.sum] at h0
      omega
    simp only [this, pow_zero, prod_const_one]
    rw [← add_mul, hab, one_mul]
  · obtain ⟨i, rfl⟩ := (Finsupp.sum_eq_one_iff _).1 h0
    have : ∀ z : Fin N → ℝ, ∏ j, z j ^ (Finsupp.single i 1 : Fin N →₀ Nat) j = z i := fun z => by
      rw [prod_eq_single i (fun j _ hj => by rw [Finsupp.single_eq_of_ne hj, pow_zero]) (fun hn => absurd (mem_univ i) hn)]
      simp
    rw [this, this, this]
    simp only [Pi.add_apply, Pi.smul_apply, smul_eq_mul]
    ring

/-- Two piecewise affine functions differ most at a node. -/
theorem p1_gap {nn N n nNodes : Nat} {cells : Nat → Nat → Nat} {X : Nat → Fin N → ℝ} (hn : ∀ c < n, ∀ v < nn, cells c v < nNodes)
    {u u' : Nat → ℝ} {F F' : (Fin N → ℝ) → ℝ} (hF : IsP1 nn n nNodes cells X u F) (hF' : IsP1 nn n nNodes cells X u' F') {B : ℝ}
    (hB : ∀ p < nNodes, |u p - u' p| ≤ B) {x : Fin N → ℝ} (hx : x ∈ domain nn n cells X) : |F x - F' x| ≤ B := by
  obtain ⟨c, hc, hxc⟩ : ∃ c, c < n ∧ x ∈ region nn cells X c := by simpa [domain] using hx
  obtain ⟨q, hq, e⟩ := hF.1 c hc
  obtain ⟨q', hq', e'⟩ := hF'.1 c hc
  have hconv : Convex ℝ {z : Fin N → ℝ | |MvPolynomial.eval z q - MvPolynomial.eval z q'| ≤ B} := by
    intro y hy z hz a b ha hb hab
    have hy' := abs_le.1 (show |MvPolynomial.eval y q - MvPolynomial.eval y q'| ≤ B from hy)
    have hz' := abs_le.1 (show |MvPolynomial.eval z q - MvPolynomial.eval z q'| ≤ B from hz)
    show |MvPolynomial.eval (a • y + b • z) q - MvPolynomial.eval (a • y + b • z) q'| ≤ B
    rw [eval_convex q hq y z a b hab, eval_convex q' hq' y z a b hab, abs_le]
    have hBB : B = a * B + b * B := by rw [← add_mul, hab, one_mul]
    constructor
    · nlinarith [mul_le_mul_of_nonneg_left hy'.1 ha, mul_le_mul_of_nonneg_left hz'.1 hb]
    · nlinarith [mul_le_mul_of_nonneg_left hy'.2 ha, mul_le_mul_of_nonneg_left hz'.2 hb]
  have hsub : region nn cells X c ⊆ {z : Fin N → ℝ | |MvPolynomial.eval z q - MvPolynomial.eval z q'| ≤ B} := by
    refine convexHull_min ?_ hconv
    rintro z ⟨v, hv, rfl⟩
    have hm : X (cells c v) ∈ region nn cells X c := subset_convexHull ℝ _ ⟨v, hv, rfl⟩
    show |MvPolynomial.eval (X (cells c v)) q - MvPolynomial.eval (X (cells c v)) q'| ≤ B
    rw [← e _ hm, ← e' _ hm, hF.2 _ (hn c hc v hv), hF'.2 _ (hn c hc v hv)]
    exact hB _ (hn c hc v hv)
  rw [e x hxc, e' x hxc]
  exact hsub hxc

/-- **C168** on a mesh (partial: the matrices are exact).  For every mesh, elliptic operator, locations and parameter there is a number C such that, for all
forcings and observations, the piecewise affine function obtained with any solver of relative residual ε (C ε ≤ 1) differs at no point of the domain from
the one that minimizes the penalized sum of squares by more than C ε times the largest nodal value of the latter and of its misfit. -/
theorem C168_mesh_partial {d N n nNodes : Nat} {cells : Nat → Nat → Nat} {Y : Nat → Fin N → ℝ} (hd : Dims d N) {op : Op ℝ} (hs : FlagRight N op)
    (hns : NoScalar op) (bNodes : Nat → Bool) (h : GoodMesh (d + 1) n nNodes cells Y) (hell : ∀ r, Elliptic N op r) {ids : List Int}
    {locs : Nat → Fin N → ℝ} (hL : Located (d + 1) n cells Y ids locs) (lam : ℝ) (hl : 0 < lam) :
    ∃ P C, problem1 d op cells n nNodes Y bNodes = .ok P ∧ 0 ≤ C ∧
      ∀ (data : Dense ℝ), n * Quadrature.size P.t ≤ data.rows → 0 < data.cols → ∀ (junk y : Nat → ℝ) (ε : ℝ) (lu lu' : Solver ℝ), 0 ≤ ε → C * ε ≤ 1 →
        BackwardLU (nNodes + nNodes) ε lu → CompleteLU (nNodes + nNodes) lu → ExactLU (nNodes + nNodes) lu' → CompleteLU (nNodes + nNodes) lu' →
        ∃ f g f' g' F F', spatialFit lu P data junk ids (psiAt d 1 (d + 1) cells Y locs) lam y = .ok (some (f, g)) ∧
          spatialFit lu' P data junk ids (psiAt d 1 (d + 1) cells Y locs) lam y = .ok (some (f', g')) ∧
          ContinuousOn F (domain (d + 1) n cells Y) ∧ IsP1 (d + 1) n nNodes cells Y f F ∧
          ContinuousOn F' (domain (d + 1) n cells Y) ∧ IsP1 (d + 1) n nNodes cells Y f' F' ∧
          ∀ X, (∀ p < nNodes, |f' p| ≤ X ∧ |g' p| ≤ X) → ∀ x ∈ domain (d + 1) n cells Y, |F x - F' x| ≤ C * ε * X := by
  obtain ⟨P, I, J, l, e, em, -, -, hD, -, hP1⟩ := mesh_fit hd hs hns bNodes h hell hL
  obtain ⟨C, hC0, hC⟩ := C168_spatial_partial (hD ⟨n * Quadrature.size P.t, 1, fun _ _ => 0⟩ le_rfl (by norm_num)) lam hl
  have en : P.n = n := by
    obtain ⟨P', _, _, e', _, _, _, e3, _⟩ := C131_first_order hd op bNodes h
    rw [e] at e'
    rw [Res.ok.inj e']
    exact e3
  refine ⟨P, C, e, hC0, fun data hr hc junk y ε lu lu' hε hCε b1 b2 x1 x2 => ?_⟩
  rw [← em] at b1 b2 x1 x2
  obtain ⟨f, g, f', g', r1, r2, hb⟩ := hC data (by rw [en]; exact hr) hc junk y ε lu lu' hε hCε b1 b2 x1 x2
  obtain ⟨F, hF1, hF2⟩ := hP1 f
  obtain ⟨F', hF1', hF2'⟩ := hP1 f'
  refine ⟨f, g, f', g', F, F', r1, r2, hF1, hF2, hF1', hF2', fun X hX x hx => ?_⟩
  exact p1_gap h.nodes hF2 hF2' (fun p hp => (hb X (by rw [em]; exact hX) p (by rw [em]; exact hp)).1) hx

/-! ### The hypotheses are met -/

/-- The rod from 0 to `n`, locations 1/2 and 1/3 in the first cell and one outside of the rod; a solver that is not exact. -/
example (n : Nat) (hn : 0 < n) (y : Nat → ℝ) : ∃ (ε : ℝ) (lu lu' : Solver ℝ) (P : Prob ℝ) (C : ℝ) (f g f' g' : Nat → ℝ) (F F' : (Fin 1 → ℝ) → ℝ), 0 < ε ∧
    problem1 1 (.neg .lap) lineCells n (n + 1) lineX (fun p => p == 0 || p == n) = .ok P ∧
    spatialFit lu P ⟨n * Quadrature.size P.t, 1, fun r _ => r⟩ (fun _ => 0) [0, -1, 0] (psiAt 1 1 2 lineCells lineX fun i _ => if i = 0 then 1 / 2 else
      if i = 1 then -5 else 1 / 3) 7 y = .ok (some (f, g)) ∧
    spatialFit lu' P ⟨n * Quadrature.size P.t, 1, fun r _ => r⟩ (fun _ => 0) [0, -1, 0] (psiAt 1 1 2 lineCells lineX fun i _ => if i = 0 then 1 / 2 else
      if i = 1 then -5 else 1 / 3) 7 y = .ok (some (f', g')) ∧
    ∀ X, (∀ p < n + 1, |f' p| ≤ X ∧ |g' p| ≤ X) → ∀ x ∈ domain 2 n lineCells lineX, |F x - F' x| ≤ C * ε * X := by
  obtain ⟨P, C, e, hC0, hC⟩ := C168_mesh_partial (d := 1) (by unfold Dims; decide) (op := .neg .lap) (fun _ => trivial) trivial
    (fun p => p == 0 || p == n) (line_good n hn) (fun r => C103_laplacian 1 r) (demo_located n hn) 7 (by norm_num)
  have hp : 0 < 1 / (C + 1) := by positivity
  obtain ⟨lu, b1, b2, -⟩ := exists_inflatedLU (n + 1 + (n + 1)) hp.le
  obtain ⟨lu', x1, x2⟩ := exists_exactLU (K := ℝ) (n + 1 + (n + 1))
  obtain ⟨f, g, f', g', F, F', r1, r2, -, -, -, -, hb⟩ := hC ⟨n * Quadrature.size P.t, 1, fun r _ => r⟩ le_rfl (by norm_num) (fun _ => 0) y _ lu lu' hp.le
    (by rw [mul_one_div, div_le_one (by linarith)]; linarith) b1 b2 x1 x2
  exact ⟨_, lu, lu', P, C, f, g, f', g', F, F', hp, e, r1, r2, hb⟩

/-- Cubic splines on the knots 0, 1 and 3. -/
example (y : Nat → ℝ) : ∃ (ε : ℝ) (lu lu' : Solver ℝ) (C : ℝ), 0 < ε ∧ ∃ t S c c',
    Splines.smooth (1 / 10) 3 [0, 1, 3] (Splines.splineNodes ℝ) (Splines.splineWeights ℝ) lu [1 / 2, 2, 3] 7 y = .ok (some (t, S, c)) ∧
    Splines.smooth (1 / 10) 3 [0, 1, 3] (Splines.splineNodes ℝ) (Splines.splineWeights ℝ) lu' [1 / 2, 2, 3] 7 y = .ok (some (t, S, c')) ∧
    ∀ X, (∀ p < 5, |c'.getD p 0| ≤ X) → ∀ p < 5, |c.getD p 0 - c'.getD p 0| ≤ C * ε * X := by
  obtain ⟨C, hC0, hC⟩ := C168_smoothing_partial Splines.demo_smooth 7 (by norm_num)
  have hp : 0 < 1 / (C + 1) := by positivity
  obtain ⟨lu, b1, b2, -⟩ := exists_inflatedLU 5 hp.le
  obtain ⟨lu', x1, x2⟩ := exists_exactLU (K := ℝ) 5
  obtain ⟨t, S, c, c', r1, r2, -, -, hb⟩ := hC y _ lu lu' hp.le (by rw [mul_one_div, div_le_one (by linarith)]; linarith) b1 b2 x1 x2
  exact ⟨_, lu, lu', C, hp, t, S, c, c', r1, r2, fun X hX => (hb X hX).1⟩

/-- The rod at the times 1/2, 2 and 3. -/
example (n : Nat) (hn : 0 < n) (y : Nat → ℝ) : ∃ (ε : ℝ) (lu : Solver ℝ) (P : Prob ℝ) (f g : Nat → ℝ), 0 < ε ∧
    problem1 1 (.neg .lap) lineCells n (n + 1) lineX (fun p => p == 0 || p == n) = .ok P ∧
    (∀ A F, lu A = some F → ∀ (b : Nat → ℝ), ∀ p < 5 * (n + 1) + 5 * (n + 1), ∑ q ∈ range (5 * (n + 1) + 5 * (n + 1)), A p q * F b q = (1 + ε) * b p) ∧
    spaceTimeFit (1 / 10) 3 [0, 1, 3] (Splines.splineNodes ℝ) (Splines.splineWeights ℝ) [1 / 2, 2, 3] lu P ⟨n * Quadrature.size P.t, 1, fun r _ => r⟩
      (fun _ => 0) [0, -1, 0] (psiAt 1 1 2 lineCells lineX fun i _ => if i = 0 then 1 / 2 else if i = 1 then -5 else 1 / 3) 7 8 y = .ok (some (f, g)) := by
  obtain ⟨P, I, J, l, e, em, eo, hLa, hD, hV, -⟩ := mesh_fit (d := 1) (by unfold Dims; decide) (op := .neg .lap) (fun _ => trivial) trivial
    (fun p => p == 0 || p == n) (line_good n hn) (fun r => C103_laplacian 1 r) (demo_located n hn)
  obtain ⟨C, hC0, hC⟩ := C168_space_time_partial demo_time (hD ⟨n * Quadrature.size P.t, 1, fun r _ => r⟩ le_rfl (by norm_num)) (fun _ => 0) 7 8
    (by norm_num) (by norm_num)
  have hp : 0 < 1 / (C + 1) := by positivity
  obtain ⟨lu, b1, b2, b3⟩ := exists_inflatedLU (5 * (n + 1) + 5 * (n + 1)) hp.le
  obtain ⟨lu', x1, x2⟩ := exists_exactLU (K := ℝ) (5 * (n + 1) + 5 * (n + 1))
  have b3' := b3
  rw [← em] at b1 b2 x1 x2
  obtain ⟨f, g, f', g', r1, r2, hb⟩ := hC y _ lu lu' hp.le (by rw [mul_one_div, div_le_one (by linarith)]; linarith) b1 b2 x1 x2
  exact ⟨_, lu, P, f, g, hp, e, b3', r1⟩

end Fdapde.PDE
