import Verif.Splines.PropsSmooth
import Verif.Splines.PropsExact
import Mathlib.LinearAlgebra.FiniteDimensional.Lemmas
import Mathlib.Analysis.Calculus.Deriv.Polynomial
import Mathlib.LinearAlgebra.Dimension.Constructions
/- C129: the matrices of the spline solver are definite, up to affine functions for the bilaplacian. -/
namespace Fdapde.Splines
open Polynomial
set_option linter.unusedSectionVars false
variable {K : Type} [Field K] [LinearOrder K] [IsStrictOrderedRing K]

/-- Derivative of order `k` of the spline with coefficients `u`. -/
def fS (tol : K) (R : Nat) (knots : List K) (k : Nat) (u : Nat → K) (y : K) : K :=
  ∑ i ∈ Finset.range (knots.length + R - 1), u i * fD tol R knots k i y

/-- Composite rule over the spans of the knots, written as a sum. -/
def quad (qn qw knots : List K) (f : K → K) : K :=
  ∑ j ∈ Finset.range (knots.length - 1), span1 qn qw (knots.getD j 0) (knots.getD (j + 1) 0) f

theorem padded_quad {R : Nat} {knots : List K} (h2 : 2 ≤ knots.length) (qn qw : List K) (f : K → K) :
    integral qn qw (tab (knots.length + 2 * R) (padFn R knots)) f = quad qn qw knots f := by
  have hg : ∀ r, r < knots.length + 2 * R → (tab (knots.length + 2 * R) (padFn R knots)).getD r 0 = padFn R knots r := by
    intro r h
    rw [tab, getD_map_range _ _ _ h]
  unfold integral
  rw [tab_length, Finset.sum_congr rfl fun r hr => by
    have := Finset.mem_range.1 hr
    rw [hg r (by omega), hg (r + 1) (by omega)]]
  change ∑ r ∈ Finset.range (knots.length + 2 * R - 1), span1 qn qw (padFn R knots r) (padFn R knots (r + 1)) f = _
  rw [show knots.length + 2 * R - 1 = R + (knots.length - 1) + R by omega, Finset.sum_range_add, Finset.sum_range_add,
    Finset.sum_eq_zero fun r hr => by
      have := Finset.mem_range.1 hr
      rw [padFn_clamp, padFn_clamp, show min (r - R) (knots.length - 1) = 0 by omega, show min (r + 1 - R) (knots.length - 1) = 0 by omega, span1,
        sub_self, zero_div, zero_mul],
    Finset.sum_eq_zero (s := Finset.range R) fun r hr => by
      rw [padFn_clamp, padFn_clamp, show min (R + (knots.length - 1) + r - R) (knots.length - 1) = knots.length - 1 by omega,
        show min (R + (knots.length - 1) + r + 1 - R) (knots.length - 1) = knots.length - 1 by omega, span1, sub_self, zero_div, zero_mul], zero_add, add_zero]
  refine Finset.sum_congr rfl fun j hj => ?_
  have := Finset.mem_range.1 hj
  rw [show R + j = j + R by omega, padFn_knot R knots j (by omega), show j + R + 1 = j + 1 + R by omega, padFn_knot R knots (j + 1) (by omega)]

/-- The matrices computed by `init` in terms of the functions of the basis. -/
theorem solver_forms (tol : K) (R : Nat) (knots : List K) (g : Good tol knots) (qn qw : List K) (hn : ∀ q ∈ qn, -1 < q ∧ q < 1) (op : SOp K) :
    ∃ s s', SpSolver.create R knots = .ok s ∧ s.init tol R qn qw op = .ok s' ∧ s'.nDofs R = knots.length + R - 1 ∧
      s'.basis = tab (knots.length + 2 * R) (padFn R knots) ∧ ∀ u v : Nat → K,
        (∑ i ∈ Finset.range (s'.nDofs R), ∑ j ∈ Finset.range (s'.nDofs R), v i * s'.stiff i j * u j =
          quad qn qw knots fun y => sform y op (fS tol R knots 0 u y) (fS tol R knots 2 u y) (fS tol R knots 0 v y) (fS tol R knots 2 v y)) ∧
        (∑ i ∈ Finset.range (s'.nDofs R), ∑ j ∈ Finset.range (s'.nDofs R), v i * s'.mass i j * u j =
          quad qn qw knots fun y => fS tol R knots 0 u y * fS tol R knots 0 v y) := by
  have two := g.two
  obtain ⟨s, s', h1, h2, h3, h4, b, b2, hb, h5⟩ := C105_init tol R knots g qn qw hn op
  have hbasis : s'.basis = tab (knots.length + 2 * R) (padFn R knots) := by
    rw [create_eq R knots (by omega)] at h1
    have e := Res.ok.inj h1
    subst e
    simp only [SpSolver.init, Res.bind_eq_ok] at h2
    obtain ⟨_, _, _, _, _, _, h⟩ := h2
    have := Res.ok.inj h
    rw [← this]
  have sp1 : ∀ (u : Nat → K) y, spline (s'.nDofs R) b u y = fS tol R knots 0 u y := fun u y => by
    rw [spline, fS, h4]
    refine Finset.sum_congr rfl fun i hi => ?_
    have hi := Finset.mem_range.1 hi
    have e := (hb i (by omega) y).1
    rw [hbasis, basis_value (by omega) hi] at e
    rw [← Res.ok.inj e]; rfl
  have sp2 : ∀ (u : Nat → K) y, spline (s'.nDofs R) b2 u y = fS tol R knots 2 u y := fun u y => by
    rw [spline, fS, h4]
    refine Finset.sum_congr rfl fun i hi => ?_
    have hi := Finset.mem_range.1 hi
    have e := (hb i (by omega) y).2
    rw [hbasis, derive_eq tol R _ _ y 2 R i (by omega)] at e
    rw [← Res.ok.inj e]; rfl
  refine ⟨s, s', h1, h2, h4, hbasis, fun u v => ⟨?_, ?_⟩⟩
  · rw [(h5 u v).1, hbasis, padded_quad two]
    simp only [sp1, sp2]
  · rw [(h5 u v).2, hbasis, padded_quad two]
    simp only [sp1]

/-- The `k`-th node of the span `j`. -/
def node (qn knots : List K) (j k : Nat) : K :=
  (knots.getD (j + 1) 0 - knots.getD j 0) / 2 * qn.getD k 0 + (knots.getD (j + 1) 0 + knots.getD j 0) / 2

theorem node_mem {knots : List K} (hk : knots.Pairwise (· < ·)) {qn : List K} (hn : ∀ q ∈ qn, -1 < q ∧ q < 1) {j k : Nat}
    (hj : j + 1 < knots.length) (hkq : k < qn.length) : knots.getD j 0 < node qn knots j k ∧ node qn knots j k < knots.getD (j + 1) 0 := by
  have hq : -1 < qn.getD k 0 ∧ qn.getD k 0 < 1 := by
    rw [List.getD_eq_getElem?_getD, List.getElem?_eq_getElem hkq, Option.getD_some]
    exact hn _ (List.getElem_mem _)
  have hd := getD_lt hk (show j < j + 1 by omega) hj
  unfold node
  constructor <;> nlinarith [hq.1, hq.2]

theorem quad_square_nonneg {knots : List K} (hk : knots.Pairwise (· < ·)) {qn qw : List K} (hw : ∀ w ∈ qw, 0 < w) (f : K → K) :
    0 ≤ quad qn qw knots (fun y => f y * f y) ∧
    (quad qn qw knots (fun y => f y * f y) = 0 → ∀ j, j + 1 < knots.length → ∀ k < min qn.length qw.length, f (node qn knots j k) = 0) := by
  have hwk : ∀ k < min qn.length qw.length, 0 < qw.getD k 0 := by
    intro k hk
    rw [List.getD_eq_getElem?_getD, List.getElem?_eq_getElem (by omega), Option.getD_some]
    exact hw _ (List.getElem_mem _)
  have hin : ∀ (a b : K), ∀ k ∈ Finset.range (min qn.length qw.length),
      0 ≤ qw.getD k 0 * (f ((b - a) / 2 * qn.getD k 0 + (b + a) / 2) * f ((b - a) / 2 * qn.getD k 0 + (b + a) / 2)) :=
    fun a b k hk => mul_nonneg (hwk k (Finset.mem_range.1 hk)).le (mul_self_nonneg _)
  have hh : ∀ j, j + 1 < knots.length → 0 < (knots.getD (j + 1) 0 - knots.getD j 0) / 2 := by
    intro j hj
    have := getD_lt hk (show j < j + 1 by omega) hj
    linarith
  have ho : ∀ j ∈ Finset.range (knots.length - 1), 0 ≤ span1 qn qw (knots.getD j 0) (knots.getD (j + 1) 0) fun y => f y * f y := by
    intro j hj
    have hj := Finset.mem_range.1 hj
    exact mul_nonneg (hh j (by omega)).le (Finset.sum_nonneg (hin _ _))
  refine ⟨Finset.sum_nonneg ho, fun h0 j hj k hkm => ?_⟩
  have h1 := (Finset.sum_eq_zero_iff_of_nonneg ho).1 h0 j (Finset.mem_range.2 (by omega))
  rcases mul_eq_zero.1 h1 with h2 | h2
  · exact absurd h2 (hh j hj).ne'
  · have h3 := (Finset.sum_eq_zero_iff_of_nonneg (hin _ _)).1 h2 k (Finset.mem_range.2 hkm)
    rcases mul_eq_zero.1 h3 with h4 | h4
    · exact absurd h4 (hwk k hkm).ne'
    · exact mul_self_eq_zero.1 h4

/-- On a span a spline is a polynomial. -/
theorem fS_poly {tol : K} {R : Nat} {knots : List K} (g : Good tol knots) {j : Nat} (hj : j + 1 < knots.length) (k : Nat) (u : Nat → K) :
    ∃ p : K[X], p.natDegree ≤ R - k ∧
      (∀ y, p.eval y = ∑ i ∈ Finset.range (knots.length + R - 1), u i * cdbD (padFn R knots) (fun m => if m = j + R then 1 else 0) y k R i) ∧
      ∀ y, knots.getD j 0 ≤ y → y < knots.getD (j + 1) 0 → fS tol R knots k u y = p.eval y := by
  choose P hP hPe using fun i => cdbD_poly (padFn R knots) (fun m => if m = j + R then 1 else 0) k R i
  have he : ∀ y, (∑ i ∈ Finset.range (knots.length + R - 1), C (u i) * P i).eval y =
      ∑ i ∈ Finset.range (knots.length + R - 1), u i * cdbD (padFn R knots) (fun m => if m = j + R then 1 else 0) y k R i := by
    intro y
    rw [eval_finsetSum]
    exact Finset.sum_congr rfl fun i _ => by rw [eval_mul, eval_C, hPe]
  refine ⟨_, ?_, he, fun y h1 h2 => ?_⟩
  · exact natDegree_sum_le_of_forall_le _ _ fun i _ => (natDegree_C_mul_le _ _).trans (hP i)
  · rw [he]
    unfold fS fD
    rw [z0_span g hj h1 h2]

/-- A polynomial with more roots among the nodes of a span than its degree vanishes. -/
theorem poly_nodes {knots : List K} (hk : knots.Pairwise (· < ·)) {qn : List K} (hnd : qn.Nodup) {j : Nat} (hj : j + 1 < knots.length) {m : Nat}
    (hm : m ≤ qn.length) (p : K[X]) (hp : p.natDegree < m) (h0 : ∀ k < m, p.eval (node qn knots j k) = 0) : p = 0 := by
  refine Polynomial.eq_zero_of_natDegree_lt_card_of_eval_eq_zero p (f := fun k : Fin m => node qn knots j k) ?_ (fun k => h0 k k.2) (by simpa using hp)
  intro a b hab
  have hd := getD_lt hk (show j < j + 1 by omega) hj
  have hne : (knots.getD (j + 1) 0 - knots.getD j 0) / 2 ≠ 0 := by intro h; linarith
  simp only [node, add_left_inj] at hab
  have h1 := mul_left_cancel₀ hne hab
  have ha : (a : Nat) < qn.length := by omega
  have hb : (b : Nat) < qn.length := by omega
  rw [List.getD_eq_getElem?_getD, List.getD_eq_getElem?_getD, List.getElem?_eq_getElem ha, List.getElem?_eq_getElem hb, Option.getD_some,
    Option.getD_some] at h1
  exact Fin.ext ((List.Nodup.getElem_inj_iff hnd).1 h1)

/-- A spline which vanishes on all spans has no non-zero coefficient. -/
theorem coeffs_zero {tol : K} {R : Nat} {knots : List K} (g : Good tol knots) (u : Nat → K)
    (h : ∀ j, j + 1 < knots.length → ∀ y, knots.getD j 0 < y → y < knots.getD (j + 1) 0 → fS tol R knots 0 u y = 0) :
    ∀ i < knots.length + R - 1, u i = 0 := by
  have two := g.two
  intro i hi
  have hj : min i (knots.length - 2) + 1 < knots.length := by omega
  set j := min i (knots.length - 2) with hjd
  have e0 := padFn_knot R knots j (by omega)
  have e1 : padFn R knots (j + R + 1) = knots.getD (j + 1) 0 := by
    rw [show j + R + 1 = j + 1 + R by omega]; exact padFn_knot R knots (j + 1) hj
  refine span_independent (padFn_mono R g.incr (by omega)) (μ := j + R) (by rw [e0, e1]; exact getD_lt g.incr (by omega) hj)
    (knots.length + R - 1) (by omega) R (by omega) u (fun y y0 y1 => ?_) i (by omega) (by omega)
  rw [e0] at y0
  rw [e1] at y1
  have := h j hj y y0 y1
  unfold fS fD at this
  rw [z0_span g hj y0.le y1] at this
  exact this

/-- **C129** (partial: at least `R + 1` nodes per span are needed, and the last span must not be shorter than the tolerance).  The mass
matrix is positive definite. -/
theorem C129_mass_definite_partial (tol : K) (R : Nat) (knots : List K) (g : Good tol knots) (qn qw : List K) (hn : ∀ q ∈ qn, -1 < q ∧ q < 1)
    (hnd : qn.Nodup) (hw : ∀ w ∈ qw, 0 < w) (hR : R < min qn.length qw.length) (op : SOp K) :
    ∃ s s', SpSolver.create R knots = .ok s ∧ s.init tol R qn qw op = .ok s' ∧ ∀ u : Nat → K, (∃ i < s'.nDofs R, u i ≠ 0) →
      0 < ∑ i ∈ Finset.range (s'.nDofs R), ∑ j ∈ Finset.range (s'.nDofs R), u i * s'.mass i j * u j := by
  obtain ⟨s, s', h1, h2, h3, _, h4⟩ := solver_forms tol R knots g qn qw hn op
  refine ⟨s, s', h1, h2, fun u ⟨i, hi, hu⟩ => ?_⟩
  rw [(h4 u u).2]
  have hq := quad_square_nonneg g.incr (qn := qn) hw (fS tol R knots 0 u)
  refine lt_of_le_of_ne hq.1 fun h0 => hu ?_
  refine coeffs_zero (R := R) g u (fun j hj y y0 y1 => ?_) i (by omega)
  obtain ⟨p, hp, _, hpe⟩ := fS_poly (R := R) g hj 0 u
  have : p = 0 := poly_nodes g.incr hnd hj (m := min qn.length qw.length) (by omega) p (by omega) fun k hk => by
    have hm := node_mem g.incr hn hj (show k < qn.length by omega)
    rw [← hpe _ hm.1.le hm.2]
    exact hq.2 h0.symm j hj k hk
  rw [hpe y y0.le y1, this, eval_zero]

/-- The mass matrix is singular when the nodes of all spans are fewer than the functions: with the rule of the library (three nodes) this
is the case for cubic splines on two knots, see the example below. -/
theorem C129_bug_singular_mass (tol : K) (R : Nat) (knots : List K) (g : Good tol knots) (qn qw : List K) (hn : ∀ q ∈ qn, -1 < q ∧ q < 1)
    (op : SOp K) (hfew : (knots.length - 1) * min qn.length qw.length < knots.length + R - 1) :
    ∃ s s', SpSolver.create R knots = .ok s ∧ s.init tol R qn qw op = .ok s' ∧ ∃ u : Nat → K, (∃ i < s'.nDofs R, u i ≠ 0) ∧
      ∀ i < s'.nDofs R, ∑ j ∈ Finset.range (s'.nDofs R), s'.mass i j * u j = 0 := by
  obtain ⟨s, s', h1, h2, h3, _, h4⟩ := solver_forms tol R knots g qn qw hn op
  refine ⟨s, s', h1, h2, ?_⟩
  let L : (Fin (knots.length + R - 1) → K) →ₗ[K] (Fin (knots.length - 1) × Fin (min qn.length qw.length) → K) :=
    { toFun := fun u jk => ∑ i : Fin (knots.length + R - 1), u i * fD tol R knots 0 i (node qn knots jk.1 jk.2)
      map_add' := fun u v => by
        funext jk
        simp only [Pi.add_apply, add_mul, Finset.sum_add_distrib]
      map_smul' := fun c u => by
        funext jk
        simp only [Pi.smul_apply, smul_eq_mul, RingHom.id_apply, Finset.mul_sum]
        exact Finset.sum_congr rfl fun i _ => by ring }
  have hker : LinearMap.ker L ≠ ⊥ := LinearMap.ker_ne_bot_of_finrank_lt (by simpa [Module.finrank_fintype_fun_eq_card] using hfew)
  obtain ⟨w, hw, hw0⟩ := (Submodule.ne_bot_iff _).1 hker
  obtain ⟨i0, hi0⟩ := Function.ne_iff.1 hw0
  let u : Nat → K := fun i => if h : i < knots.length + R - 1 then w ⟨i, h⟩ else 0
  have hz : ∀ j, j + 1 < knots.length → ∀ k < min qn.length qw.length, fS tol R knots 0 u (node qn knots j k) = 0 := by
    intro j hj k hk
    have e := congrFun (LinearMap.mem_ker.1 hw) (⟨j, by omega⟩, ⟨k, hk⟩)
    rw [fS, Finset.sum_range]
    refine Eq.trans (Finset.sum_congr rfl fun i _ => ?_) e
    simp only [u, i.2, dif_pos]
  refine ⟨u, ⟨i0, by rw [h3]; exact i0.2, by simpa [u] using hi0⟩, fun i hi => ?_⟩
  have e := (h4 u (fun m => if m = i then 1 else 0)).2
  rw [Finset.sum_eq_single i (fun m _ hm => by simp [hm]) (fun h => absurd (Finset.mem_range.2 hi) h)] at e
  simp only [if_true, one_mul] at e
  rw [e, quad]
  refine Finset.sum_eq_zero fun j hj => ?_
  have hj := Finset.mem_range.1 hj
  rw [span1, Finset.sum_eq_zero fun k hk => ?_, mul_zero]
  have := hz j (by omega) k (Finset.mem_range.1 hk)
  rw [node] at this
  rw [this, zero_mul, mul_zero]

/-! ### Splines as functions -/

theorem fS_closed {tol : K} {R : Nat} {knots : List K} (g : Good tol knots) {j : Nat} (hj : j + 1 < knots.length) {k : Nat} (hk : k < R) (u : Nat → K)
    {y : K} (h1 : knots.getD j 0 ≤ y) (h2 : y ≤ knots.getD (j + 1) 0) :
    fS tol R knots k u y = ∑ i ∈ Finset.range (knots.length + R - 1), u i * cdbD (padFn R knots) (fun m => if m = j + R then 1 else 0) y k R i :=
  Finset.sum_congr rfl fun i _ => by rw [fD_closed g hj hk i h1 h2]

/-- The polynomial of a spline on a closed span and its derivative. -/
theorem fS_poly_closed {tol : ℝ} {R : Nat} {knots : List ℝ} (g : Good tol knots) {j : Nat} (hj : j + 1 < knots.length) (hR : 2 ≤ R) (u : Nat → ℝ) :
    ∃ p : ℝ[X], p.natDegree ≤ R ∧ (∀ y, knots.getD j 0 ≤ y → y ≤ knots.getD (j + 1) 0 → fS tol R knots 0 u y = p.eval y ∧
        fS tol R knots 1 u y = p.derivative.eval y) ∧
      ∀ y, knots.getD j 0 ≤ y → y < knots.getD (j + 1) 0 → fS tol R knots 2 u y = p.derivative.derivative.eval y := by
  have two := g.two
  obtain ⟨p, hp, hpe, _⟩ := fS_poly (R := R) g hj 0 u
  have hd : ∀ k y, HasDerivAt (fun y => ∑ i ∈ Finset.range (knots.length + R - 1), u i * cdbD (padFn R knots) (fun m => if m = j + R then 1 else 0) y k R i)
      (∑ i ∈ Finset.range (knots.length + R - 1), u i * cdbD (padFn R knots) (fun m => if m = j + R then 1 else 0) y (k + 1) R i) y :=
    fun k y => HasDerivAt.fun_sum fun i _ => (cdbD_hasDerivAt (padFn_mono R g.incr (by omega)) _ y k R i).const_mul (u i)
  have e1 : ∀ y, p.derivative.eval y = ∑ i ∈ Finset.range (knots.length + R - 1), u i * cdbD (padFn R knots) (fun m => if m = j + R then 1 else 0) y 1 R i := by
    intro y
    have h := p.hasDerivAt y
    rw [show (fun x => p.eval x) = _ from funext hpe] at h
    exact h.unique (hd 0 y)
  have e2 : ∀ y, p.derivative.derivative.eval y =
      ∑ i ∈ Finset.range (knots.length + R - 1), u i * cdbD (padFn R knots) (fun m => if m = j + R then 1 else 0) y 2 R i := by
    intro y
    have h := p.derivative.hasDerivAt y
    rw [show (fun x => p.derivative.eval x) = _ from funext e1] at h
    exact h.unique (hd 1 y)
  refine ⟨p, by omega, fun y h1 h2 => ⟨?_, ?_⟩, fun y h1 h2 => ?_⟩
  · rw [hpe, fS_closed g hj (by omega) u h1 h2]
  · rw [e1, fS_closed g hj (by omega) u h1 h2]
  · rw [e2]
    unfold fS fD
    rw [z0_span g hj h1 h2]

/-- A cubic with roots at `m - d`, `m` and `m + d`. -/
theorem cubic_roots (p : ℝ[X]) (hp : p.natDegree ≤ 3) (m d : ℝ) (hd : 0 < d) (h1 : p.eval (m - d) = 0) (h2 : p.eval m = 0) (h3 : p.eval (m + d) = 0) :
    ∃ a : ℝ, (∀ y, p.eval y = a * ((y - m) * ((y - m) ^ 2 - d ^ 2))) ∧ ∀ y, p.derivative.eval y = a * (3 * (y - m) ^ 2 - d ^ 2) := by
  have key : p - C (p.coeff 3) * ((X - C m) * ((X - C m) ^ 2 - C (d ^ 2))) = 0 := by
    refine Polynomial.eq_zero_of_natDegree_lt_card_of_eval_eq_zero _ (f := fun k : Fin 3 => m + ((k : ℕ) - 1 : ℝ) * d) ?_ ?_ ?_
    · intro a b hab
      have := mul_right_cancel₀ hd.ne' (add_left_cancel hab)
      have h : ((a : ℕ) : ℝ) = ((b : ℕ) : ℝ) := by linarith
      exact Fin.ext (by exact_mod_cast h)
    · intro k
      fin_cases k
      · simp only [eval_sub, eval_mul, eval_C, eval_X, eval_pow, Nat.cast_zero]
        rw [show m + (0 - 1) * d = m - d by ring, h1]; ring
      · simp only [eval_sub, eval_mul, eval_C, eval_X, eval_pow, Nat.cast_one]
        rw [show m + (1 - 1) * d = m by ring, h2]; ring
      · simp only [eval_sub, eval_mul, eval_C, eval_X, eval_pow]
        rw [show m + (((2 : ℕ) : ℝ) - 1) * d = m + d by push_cast; ring, h3]; ring
    · rw [Fintype.card_fin]
      obtain ⟨α, β, γ, e⟩ : ∃ α β γ : ℝ, (X - C m) * ((X - C m) ^ 2 - C (d ^ 2)) = X ^ 3 - C α * X ^ 2 + C β * X - C γ := by
        refine ⟨3 * m, 3 * m ^ 2 - d ^ 2, m ^ 3 - m * d ^ 2, ?_⟩
        simp only [C_mul, C_sub, C_pow]
        rw [show (C (3 : ℝ) : ℝ[X]) = 3 from rfl]
        ring
      rw [Nat.lt_iff_le_pred (by norm_num), natDegree_le_iff_coeff_eq_zero, e]
      intro N hN
      rcases Nat.lt_or_ge 3 N with h | h
      · rw [coeff_sub, coeff_eq_zero_of_natDegree_lt (by omega), coeff_C_mul]
        simp [coeff_X_pow, coeff_X, coeff_C_ne_zero, show N ≠ 3 by omega, show N ≠ 2 by omega, show 1 ≠ N by omega, show N ≠ 0 by omega]
      · have : N = 3 := by simp at hN; omega
        subst this
        rw [coeff_sub, coeff_C_mul]
        simp [coeff_X_pow, coeff_X, coeff_C_ne_zero]
  have e := sub_eq_zero.1 key
  refine ⟨p.coeff 3, fun y => ?_, fun y => ?_⟩
  · conv_lhs => rw [e]
    simp
  · conv_lhs => rw [e]
    simp only [derivative_mul, derivative_C, derivative_sub, derivative_X, derivative_pow, eval_add, eval_sub, eval_mul, eval_C, eval_X, eval_pow,
      eval_zero, eval_one]
    push_cast
    ring

/-- **C129**: cubic splines on at least three knots have a positive definite mass matrix with every rule on three nodes `-d`, 0, `d` with
positive weights, although four nodes would be needed on each span alone. -/
theorem C129_cubic_definite_partial (tol : ℝ) (knots : List ℝ) (g : Good tol knots) (h3 : 3 ≤ knots.length) (d w0 w1 w2 : ℝ) (hd : 0 < d) (hd1 : d < 1)
    (hw : 0 < w0 ∧ 0 < w1 ∧ 0 < w2) (op : SOp ℝ) :
    ∃ s s', SpSolver.create 3 knots = .ok s ∧ s.init tol 3 [-d, 0, d] [w0, w1, w2] op = .ok s' ∧ ∀ u : Nat → ℝ, (∃ i < s'.nDofs 3, u i ≠ 0) →
      0 < ∑ i ∈ Finset.range (s'.nDofs 3), ∑ j ∈ Finset.range (s'.nDofs 3), u i * s'.mass i j * u j := by
  have hn : ∀ q ∈ [-d, 0, d], -1 < q ∧ q < 1 := by
    simp only [List.mem_cons, List.not_mem_nil, or_false]
    rintro q (rfl | rfl | rfl) <;> constructor <;> linarith
  have hw' : ∀ w ∈ [w0, w1, w2], 0 < w := by
    simp only [List.mem_cons, List.not_mem_nil, or_false]
    rintro w (rfl | rfl | rfl)
    exacts [hw.1, hw.2.1, hw.2.2]
  obtain ⟨s, s', h1, h2, h4, _, h5⟩ := solver_forms tol 3 knots g [-d, 0, d] [w0, w1, w2] hn op
  refine ⟨s, s', h1, h2, fun u ⟨i, hi, hu⟩ => ?_⟩
  rw [(h5 u u).2]
  have hq := quad_square_nonneg g.incr (qn := [-d, 0, d]) hw' (fS tol 3 knots 0 u)
  refine lt_of_le_of_ne hq.1 fun h0 => hu ?_
  have hz := hq.2 h0.symm
  -- the cubic of each span
  have span : ∀ j, j + 1 < knots.length → ∃ a : ℝ, ∀ y, knots.getD j 0 ≤ y → y ≤ knots.getD (j + 1) 0 →
      fS tol 3 knots 0 u y = a * ((y - (knots.getD (j + 1) 0 + knots.getD j 0) / 2) *
        ((y - (knots.getD (j + 1) 0 + knots.getD j 0) / 2) ^ 2 - ((knots.getD (j + 1) 0 - knots.getD j 0) / 2 * d) ^ 2)) ∧
      fS tol 3 knots 1 u y = a * (3 * (y - (knots.getD (j + 1) 0 + knots.getD j 0) / 2) ^ 2 - ((knots.getD (j + 1) 0 - knots.getD j 0) / 2 * d) ^ 2) := by
    intro j hj
    obtain ⟨p, hp, hpe, _⟩ := fS_poly_closed (R := 3) g hj (by omega) u
    have hlen := getD_lt g.incr (show j < j + 1 by omega) hj
    have hv : ∀ k < 3, p.eval (node [-d, 0, d] knots j k) = 0 := by
      intro k hk
      have hm := node_mem g.incr hn hj (k := k) (by simpa using hk)
      rw [← (hpe _ hm.1.le hm.2.le).1]
      exact hz j hj k (by simpa using hk)
    obtain ⟨a, ha, ha'⟩ := cubic_roots p hp ((knots.getD (j + 1) 0 + knots.getD j 0) / 2) ((knots.getD (j + 1) 0 - knots.getD j 0) / 2 * d)
      (mul_pos (by linarith) hd)
      (by have := hv 0 (by omega); simp only [node, List.getD_cons_zero] at this; exact Eq.trans (congrArg (fun z => p.eval z) (by ring)) this)
      (by have := hv 1 (by omega); simp only [node, List.getD_cons_zero, List.getD_cons_succ] at this; exact Eq.trans (congrArg (fun z => p.eval z) (by ring)) this)
      (by have := hv 2 (by omega); simp only [node, List.getD_cons_zero, List.getD_cons_succ] at this; exact Eq.trans (congrArg (fun z => p.eval z) (by ring)) this)
    exact ⟨a, fun y y0 y1 => ⟨by rw [(hpe y y0 y1).1, ha], by rw [(hpe y y0 y1).2, ha']⟩⟩
  have pair : ∀ j, j + 2 < knots.length → ∀ y, knots.getD j 0 ≤ y → y ≤ knots.getD (j + 2) 0 → fS tol 3 knots 0 u y = 0 := by
    intro j hj
    obtain ⟨a, ha⟩ := span j (by omega)
    obtain ⟨b, hb⟩ := span (j + 1) (by omega)
    have l1 := getD_lt g.incr (show j < j + 1 by omega) (by omega)
    have l2 := getD_lt g.incr (show j + 1 < j + 1 + 1 by omega) (by omega)
    have a1 := ha _ l1.le le_rfl
    have b1 := hb _ le_rfl l2.le
    have v := a1.1.symm.trans b1.1
    have v' := a1.2.symm.trans b1.2
    rw [show knots.getD (j + 2) 0 = knots.getD (j + 1 + 1) 0 from rfl]
    set x0 := knots.getD j 0
    set x1 := knots.getD (j + 1) 0
    set x2 := knots.getD (j + 1 + 1) 0
    have hα : 0 < 1 - d ^ 2 := by nlinarith
    have hβ : 0 < 3 - d ^ 2 := by nlinarith
    have v1 : a * ((x1 - x0) / 2) ^ 3 = -(b * ((x2 - x1) / 2) ^ 3) := by
      refine mul_right_cancel₀ hα.ne' ?_
      linear_combination v
    have v2 : a * ((x1 - x0) / 2) ^ 2 = b * ((x2 - x1) / 2) ^ 2 := by
      refine mul_right_cancel₀ hβ.ne' ?_
      linear_combination v'
    have hx : b * (((x2 - x1) / 2) ^ 2 * ((x1 - x0) / 2 + (x2 - x1) / 2)) = 0 := by linear_combination v1 - (x1 - x0) / 2 * v2
    have hb0 : b = 0 := by
      rcases mul_eq_zero.1 hx with h | h
      · exact h
      · exact absurd h (mul_pos (by positivity) (by linarith)).ne'
    have ha0 : a = 0 := by
      rw [hb0, zero_mul] at v2
      rcases mul_eq_zero.1 v2 with h | h
      · exact h
      · exact absurd h (by positivity)
    intro y y0 y2
    rcases le_total y x1 with h | h
    · rw [(ha y y0 h).1, ha0, zero_mul]
    · rw [(hb y h y2).1, hb0, zero_mul]
  refine coeffs_zero (R := 3) g u (fun j hj y y0 y1 => ?_) i (by omega)
  rcases Nat.lt_or_ge (j + 2) knots.length with h | h
  · exact pair j h y y0.le (y1.le.trans (getD_le g.incr (by omega) (by omega)))
  · obtain ⟨j, rfl⟩ : ∃ i, j = i + 1 := ⟨j - 1, by omega⟩
    exact pair j (by omega) y ((getD_le g.incr (by omega) (by omega)).trans y0.le) y1.le

/-! ### The kernel of the penalty -/

theorem affine_of_derivative {p : ℝ[X]} (h : p.derivative.derivative = 0) : ∃ α β : ℝ, (∀ y, p.eval y = α + β * y) ∧ ∀ y, p.derivative.eval y = β := by
  have h1 := Polynomial.eq_C_of_natDegree_eq_zero (natDegree_eq_zero_of_derivative_eq_zero h)
  set β := p.derivative.coeff 0
  have h2 : (p - C β * X).derivative = 0 := by rw [derivative_sub, h1]; simp
  have h3 := Polynomial.eq_C_of_natDegree_eq_zero (natDegree_eq_zero_of_derivative_eq_zero h2)
  refine ⟨(p - C β * X).coeff 0, β, fun y => ?_, fun y => by rw [h1]; simp⟩
  have h4 : p = C ((p - C β * X).coeff 0) + C β * X := by rw [← h3]; ring
  conv_lhs => rw [h4]
  simp

/-- Splines without second derivative inside the spans are affine functions. -/
theorem affine_spans {tol : ℝ} {R : Nat} (hR : 2 ≤ R) {knots : List ℝ} (g : Good tol knots) (u : Nat → ℝ)
    (h : ∀ j, j + 1 < knots.length → ∀ y, knots.getD j 0 < y → y < knots.getD (j + 1) 0 → fS tol R knots 2 u y = 0) :
    ∃ α β : ℝ, ∀ y, knots.getD 0 0 ≤ y → y ≤ knots.getD (knots.length - 1) 0 → fS tol R knots 0 u y = α + β * y := by
  have two := g.two
  have span : ∀ j, j + 1 < knots.length → ∃ α β : ℝ, ∀ y, knots.getD j 0 ≤ y → y ≤ knots.getD (j + 1) 0 →
      fS tol R knots 0 u y = α + β * y ∧ fS tol R knots 1 u y = β := by
    intro j hj
    obtain ⟨p, _, hp1, hp2⟩ := fS_poly_closed (R := R) g hj hR u
    have hlt := getD_lt g.incr (show j < j + 1 by omega) hj
    have hz : p.derivative.derivative = 0 := poly_eq_of_Ioo hlt fun y y0 y1 => by
      rw [← hp2 y y0.le y1, h j hj y y0 y1, eval_zero]
    obtain ⟨α, β, h1, h2⟩ := affine_of_derivative hz
    exact ⟨α, β, fun y y0 y1 => ⟨by rw [(hp1 y y0 y1).1, h1], by rw [(hp1 y y0 y1).2, h2]⟩⟩
  obtain ⟨α, β, h0⟩ := span 0 (by omega)
  have key : ∀ n, n + 1 < knots.length → ∀ y, knots.getD 0 0 ≤ y → y ≤ knots.getD (n + 1) 0 → fS tol R knots 0 u y = α + β * y ∧ fS tol R knots 1 u y = β := by
    intro n
    induction n with
    | zero => exact fun _ => h0
    | succ n ih =>
        intro hn y y0 y1
        rcases le_total y (knots.getD (n + 1) 0) with hy | hy
        · exact ih (by omega) y y0 hy
        · obtain ⟨α', β', h'⟩ := span (n + 1) hn
          have l1 := getD_le g.incr (Nat.zero_le (n + 1)) (by omega)
          have l2 := getD_le g.incr (show n + 1 ≤ n + 1 + 1 by omega) hn
          have e1 := ih (by omega) _ l1 le_rfl
          have e2 := h' _ le_rfl l2
          have hβ : β' = β := e2.2.symm.trans e1.2
          have hα : α' = α := by have := e2.1.symm.trans e1.1; rw [hβ] at this; linarith
          rw [← hα, ← hβ]
          exact h' y hy y1
  refine ⟨α, β, fun y y0 y1 => (key (knots.length - 2) (by omega) y y0 ?_).1⟩
  rwa [show knots.length - 2 + 1 = knots.length - 1 by omega]

theorem affine_second {tol : ℝ} {R : Nat} (hR : 2 ≤ R) {knots : List ℝ} (g : Good tol knots) (u : Nat → ℝ) {α β : ℝ}
    (h : ∀ y, knots.getD 0 0 ≤ y → y ≤ knots.getD (knots.length - 1) 0 → fS tol R knots 0 u y = α + β * y) {j : Nat} (hj : j + 1 < knots.length)
    {y : ℝ} (y0 : knots.getD j 0 < y) (y1 : y < knots.getD (j + 1) 0) : fS tol R knots 2 u y = 0 := by
  obtain ⟨p, _, hp1, hp2⟩ := fS_poly_closed (R := R) g hj hR u
  have hlt := getD_lt g.incr (show j < j + 1 by omega) hj
  have e : p = C α + C β * X := poly_eq_of_Ioo hlt fun z z0 z1 => by
    rw [← (hp1 z z0.le z1.le).1, h z ((getD_le g.incr (Nat.zero_le j) (by omega)).trans z0.le) (z1.le.trans (getD_le g.incr (by omega) (by omega)))]
    simp
  rw [hp2 y y0.le y1, e]
  simp

/-- **C129** (partial: at least `R - 1` nodes per span, last span not shorter than the tolerance).  For the operator `-bilaplacian`, of
splines of order at least two, the quadratic form of the stiffness matrix (the roughness penalty) is never negative, and it vanishes exactly
for the splines which are affine functions. -/
theorem C129_penalty_kernel_partial (tol : ℝ) (R : Nat) (hR : 2 ≤ R) (knots : List ℝ) (g : Good tol knots) (qn qw : List ℝ)
    (hn : ∀ q ∈ qn, -1 < q ∧ q < 1) (hnd : qn.Nodup) (hw : ∀ w ∈ qw, 0 < w) (hm : R ≤ min qn.length qw.length + 1) :
    ∃ s s', SpSolver.create R knots = .ok s ∧ s.init tol R qn qw (.neg .bilap) = .ok s' ∧ ∀ c : List ℝ, c.length = s'.nDofs R →
      0 ≤ ∑ i ∈ Finset.range (s'.nDofs R), ∑ j ∈ Finset.range (s'.nDofs R), c.getD i 0 * s'.stiff i j * c.getD j 0 ∧
      (∑ i ∈ Finset.range (s'.nDofs R), ∑ j ∈ Finset.range (s'.nDofs R), c.getD i 0 * s'.stiff i j * c.getD j 0 = 0 ↔
        ∃ α β : ℝ, ∀ x, knots.getD 0 0 ≤ x → x ≤ knots.getD (knots.length - 1) 0 → expansion tol R s'.basis c x = .ok (α + β * x)) := by
  have two := g.two
  obtain ⟨s, s', h1, h2, h3, hb, h4⟩ := solver_forms tol R knots g qn qw hn (.neg .bilap)
  refine ⟨s, s', h1, h2, fun c hc => ?_⟩
  have hq := quad_square_nonneg g.incr (qn := qn) hw (fS tol R knots 2 fun i => c.getD i 0)
  have hf : ∑ i ∈ Finset.range (s'.nDofs R), ∑ j ∈ Finset.range (s'.nDofs R), c.getD i 0 * s'.stiff i j * c.getD j 0 =
      quad qn qw knots fun y => fS tol R knots 2 (fun i => c.getD i 0) y * fS tol R knots 2 (fun i => c.getD i 0) y := by
    rw [(h4 (fun i => c.getD i 0) fun i => c.getD i 0).1]
    simp only [sform, neg_neg]
  have hx : ∀ x, expansion tol R s'.basis c x = .ok (fS tol R knots 0 (fun i => c.getD i 0) x) := by
    intro x
    rw [hb, expansion_values g (by rw [hc, h3])]
    rfl
  rw [hf]
  refine ⟨hq.1, fun h0 => ?_, fun ⟨α, β, hαβ⟩ => ?_⟩
  · obtain ⟨α, β, hαβ⟩ := affine_spans hR g (fun i => c.getD i 0) fun j hj y y0 y1 => by
      obtain ⟨p, hp, _, hpe⟩ := fS_poly (R := R) g hj 2 fun i => c.getD i 0
      have : p = 0 := by
        rcases Nat.eq_zero_or_pos (min qn.length qw.length) with h | h
        · omega
        · exact poly_nodes g.incr hnd hj (m := min qn.length qw.length) (by omega) p (by omega) fun k hk => by
            have hm := node_mem g.incr hn hj (show k < qn.length by omega)
            rw [← hpe _ hm.1.le hm.2]
            exact hq.2 h0 j hj k hk
      rw [hpe y y0.le y1, this, eval_zero]
    exact ⟨α, β, fun x x0 x1 => by rw [hx, hαβ x x0 x1]⟩
  · have hs : ∀ y, knots.getD 0 0 ≤ y → y ≤ knots.getD (knots.length - 1) 0 → fS tol R knots 0 (fun i => c.getD i 0) y = α + β * y := by
      intro y y0 y1
      have := hαβ y y0 y1
      rw [hx] at this
      exact Res.ok.inj this
    refine Finset.sum_eq_zero fun j hj => ?_
    have hj := Finset.mem_range.1 hj
    rw [span1, Finset.sum_eq_zero fun k hk => ?_, mul_zero]
    have hk := Finset.mem_range.1 hk
    have hm := node_mem g.incr hn (show j + 1 < knots.length by omega) (show k < qn.length by omega)
    have := affine_second hR g (fun i => c.getD i 0) hs (show j + 1 < knots.length by omega) hm.1 hm.2
    rw [node] at this
    rw [this, zero_mul, mul_zero]

/-- **C129**: the matrix of penalized least squares (sum of the squares of the values at the observed locations, plus a positive multiple of
the penalty) is positive definite as soon as two different locations between the first and the last knot are observed. -/
theorem C129_smoothing_partial (tol : ℝ) (R : Nat) (hR : 2 ≤ R) (knots : List ℝ) (g : Good tol knots) (qn qw : List ℝ)
    (hn : ∀ q ∈ qn, -1 < q ∧ q < 1) (hnd : qn.Nodup) (hw : ∀ w ∈ qw, 0 < w) (hm : R ≤ min qn.length qw.length + 1) (lam : ℝ) (hl : 0 < lam)
    (locs : List ℝ) (x1 x2 : ℝ) (m1 : x1 ∈ locs) (m2 : x2 ∈ locs) (hne : x1 ≠ x2)
    (hx : ∀ x ∈ [x1, x2], knots.getD 0 0 ≤ x ∧ x ≤ knots.getD (knots.length - 1) 0) :
    ∃ s s', SpSolver.create R knots = .ok s ∧ s.init tol R qn qw (.neg .bilap) = .ok s' ∧ ∀ c : List ℝ, c.length = s'.nDofs R → (∃ a ∈ c, a ≠ 0) →
      ∃ V : ℝ → ℝ, (∀ x, expansion tol R s'.basis c x = .ok (V x)) ∧
        0 < (locs.map fun x => V x ^ 2).sum +
          lam * ∑ i ∈ Finset.range (s'.nDofs R), ∑ j ∈ Finset.range (s'.nDofs R), c.getD i 0 * s'.stiff i j * c.getD j 0 := by
  have two := g.two
  obtain ⟨s, s', h1, h2, h3⟩ := C129_penalty_kernel_partial tol R hR knots g qn qw hn hnd hw hm
  refine ⟨s, s', h1, h2, fun c hc ⟨a, ha, ha0⟩ => ?_⟩
  have hb : s'.basis = tab (knots.length + 2 * R) (padFn R knots) := by
    obtain ⟨r, r', e1, e2, _, e3, _⟩ := solver_forms tol R knots g qn qw hn (.neg .bilap)
    rw [h1] at e1
    obtain rfl := Res.ok.inj e1
    rw [h2] at e2
    rw [Res.ok.inj e2, e3]
  have hs : size R s'.basis = knots.length + R - 1 := by rw [hb]; unfold size; rw [tab_length]; omega
  have hcl : c.length = knots.length + R - 1 := by rw [hc]; exact hs
  have hV : ∀ x, expansion tol R s'.basis c x = .ok (fS tol R knots 0 (fun i => c.getD i 0) x) := by
    intro x
    rw [hb, expansion_values g hcl]
    rfl
  refine ⟨_, hV, ?_⟩
  obtain ⟨p0, p1⟩ := h3 c hc
  have hsum : 0 ≤ (locs.map fun x => fS tol R knots 0 (fun i => c.getD i 0) x ^ 2).sum :=
    List.sum_nonneg fun y hy => by obtain ⟨x, _, rfl⟩ := List.mem_map.1 hy; exact sq_nonneg _
  rcases lt_or_eq_of_le p0 with hp | hp
  · exact add_pos_of_nonneg_of_pos hsum (mul_pos hl hp)
  · obtain ⟨α, β, hαβ⟩ := p1.1 hp.symm
    rw [← hp, mul_zero, add_zero]
    refine lt_of_le_of_ne hsum fun h0 => ha0 ?_
    have hz : ∀ x ∈ locs, fS tol R knots 0 (fun i => c.getD i 0) x = 0 := by
      intro x hx
      have := List.single_le_sum (l := locs.map fun x => fS tol R knots 0 (fun i => c.getD i 0) x ^ 2)
        (fun y hy => by obtain ⟨x, _, rfl⟩ := List.mem_map.1 hy; exact sq_nonneg _) _ (List.mem_map.2 ⟨x, hx, rfl⟩)
      rw [← h0] at this
      exact pow_eq_zero_iff (two_ne_zero) |>.1 (le_antisymm this (sq_nonneg _))
    have v : ∀ x ∈ [x1, x2], x ∈ locs → α + β * x = 0 := by
      intro x hx' hl'
      have := hαβ x (hx x hx').1 (hx x hx').2
      rw [hV, hz x hl'] at this
      exact (Res.ok.inj this).symm
    have v1 := v x1 (by simp) m1
    have v2 := v x2 (by simp) m2
    have hβ : β = 0 := by
      have : β * (x1 - x2) = 0 := by linarith
      rcases mul_eq_zero.1 this with h | h
      · exact h
      · exact absurd (sub_eq_zero.1 h) hne
    have hα : α = 0 := by rw [hβ] at v1; linarith
    have hc0 := coeffs_zero (R := R) g (fun i => c.getD i 0) fun j hj y y0 y1 => by
      have := hαβ y ((getD_le g.incr (Nat.zero_le j) (by omega)).trans y0.le) (y1.le.trans (getD_le g.incr (by omega) (by omega)))
      rw [hV, hα, hβ] at this
      rw [Res.ok.inj this]; ring
    obtain ⟨i, hi, e⟩ := List.mem_iff_getElem.1 ha
    have := hc0 i (by omega)
    rwa [List.getD_eq_getElem?_getD, List.getElem?_eq_getElem hi, Option.getD_some, e] at this

/-! ### The rule of the library and the hypotheses -/

theorem library_rule : (∀ q ∈ splineNodes ℝ, -1 < q ∧ q < 1) ∧ (splineNodes ℝ).Nodup ∧ (∀ w ∈ splineWeights ℝ, 0 < w) ∧
    min (splineNodes ℝ).length (splineWeights ℝ).length = 3 := by
  rw [splineNodes_eq, splineWeights_eq]
  refine ⟨?_, ?_, ?_, rfl⟩
  · simp only [List.mem_cons, List.not_mem_nil, or_false]
    rintro q (rfl | rfl | rfl) <;> norm_num
  · simp; norm_num
  · simp only [List.mem_cons, List.not_mem_nil, or_false]
    rintro q (rfl | rfl | rfl) <;> norm_num

/-- **C129** for the rule of the library: the mass matrix is positive definite for orders up to two, and for cubic splines on at least three
knots; the penalty has the affine functions as kernel for orders from two to four. -/
theorem C129_library_partial (tol : ℝ) (R : Nat) (knots : List ℝ) (g : Good tol knots) (op : SOp ℝ) (hR : R ≤ 2 ∨ R = 3 ∧ 3 ≤ knots.length) :
    ∃ s s', SpSolver.create R knots = .ok s ∧ s.init tol R (splineNodes ℝ) (splineWeights ℝ) op = .ok s' ∧ ∀ u : Nat → ℝ,
      (∃ i < s'.nDofs R, u i ≠ 0) → 0 < ∑ i ∈ Finset.range (s'.nDofs R), ∑ j ∈ Finset.range (s'.nDofs R), u i * s'.mass i j * u j := by
  obtain ⟨hn, hnd, hw, hl⟩ := library_rule
  rcases hR with hR | ⟨rfl, h3⟩
  · exact C129_mass_definite_partial tol R knots g _ _ hn hnd hw (by omega) op
  · rw [splineNodes_eq, splineWeights_eq]
    exact C129_cubic_definite_partial tol knots g h3 0.774596669241483 0.555555555555555 0.888888888888888 0.555555555555555 (by norm_num) (by norm_num)
      ⟨by norm_num, by norm_num, by norm_num⟩ op

/-- With the rule of the library the mass matrix of cubic splines on two knots is singular. -/
theorem C129_bug_cubic_two_knots (tol : ℝ) (h0 : 0 < tol) (h1 : tol ≤ 1) (op : SOp ℝ) :
    ∃ s s', SpSolver.create 3 [(0 : ℝ), 1] = .ok s ∧ s.init tol 3 (splineNodes ℝ) (splineWeights ℝ) op = .ok s' ∧ ∃ u : Nat → ℝ,
      (∃ i < s'.nDofs 3, u i ≠ 0) ∧ ∀ i < s'.nDofs 3, ∑ j ∈ Finset.range (s'.nDofs 3), s'.mass i j * u j = 0 :=
  C129_bug_singular_mass tol 3 _ (good01 h0 h1) _ _ library_rule.1 op (by rw [library_rule.2.2.2]; simp)

example : Good (1 / 10) [(0 : ℝ), 1, 3] ∧ (3 : Nat) ≤ [(0 : ℝ), 1, 3].length ∧ 3 ≤ min (splineNodes ℝ).length (splineWeights ℝ).length + 1 ∧
    (∃ x1 ∈ [(1 / 2 : ℝ), 2], ∃ x2 ∈ [(1 / 2 : ℝ), 2], x1 ≠ x2 ∧ 0 ≤ x1 ∧ x2 ≤ 3) := by
  refine ⟨⟨by simp, by simp [List.pairwise_cons], by norm_num, by norm_num [List.getD]⟩, by simp, by rw [library_rule.2.2.2]; omega,
    1 / 2, by simp, 2, by simp, by norm_num, by norm_num, by norm_num⟩

end Fdapde.Splines
