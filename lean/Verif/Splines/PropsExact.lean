import Verif.Splines.ExactSpec
import Verif.Splines.PropsSolver
import Verif.Splines.Marsden
import Verif.Quadrature.Tables
import Mathlib.MeasureTheory.Integral.IntervalIntegral.FundThmCalculus
import Mathlib.Analysis.SpecialFunctions.Integrals.Basic
import Mathlib.Topology.Algebra.Polynomial
/- C122: the matrices of the spline solver are integrals. -/
set_option linter.unusedSectionVars false
namespace Fdapde.Splines
open Polynomial

/-- Between two different consecutive knots all functions are polynomials. -/
theorem spline_poly {tol : ℝ} {R : Nat} {knots : List ℝ} (g : Good tol knots) (s : Nat)
    (hs : padFn R knots s < padFn R knots (s + 1)) (k n : Nat) (u : Nat → ℝ) :
    ∃ p : ℝ[X], p.natDegree ≤ R - k ∧ ∀ y, padFn R knots s < y → y < padFn R knots (s + 1) →
      spline n (fun i y => cdbD (padFn R knots) (z0 tol R (knots.length + 2 * R) (padFn R knots) y) y k R i) u y = p.eval y := by
  have two := g.two
  have hs1 : R ≤ s := by
    by_contra h
    rw [padFn_clamp, padFn_clamp, show min (s - R) (knots.length - 1) = 0 by omega, show min (s + 1 - R) (knots.length - 1) = 0 by omega] at hs
    exact lt_irrefl _ hs
  have hs2 : s - R + 1 < knots.length := by
    by_contra h
    rw [padFn_clamp, padFn_clamp, show min (s - R) (knots.length - 1) = knots.length - 1 by omega,
      show min (s + 1 - R) (knots.length - 1) = knots.length - 1 by omega] at hs
    exact lt_irrefl _ hs
  have e0 : padFn R knots s = knots.getD (s - R) 0 := by
    have := padFn_knot R knots (s - R) (by omega)
    rwa [show s - R + R = s by omega] at this
  have e1 : padFn R knots (s + 1) = knots.getD (s - R + 1) 0 := by
    have := padFn_knot R knots (s - R + 1) hs2
    rwa [show s - R + 1 + R = s + 1 by omega] at this
  have zc : ∀ y, padFn R knots s < y → y < padFn R knots (s + 1) →
      z0 tol R (knots.length + 2 * R) (padFn R knots) y = fun m => if m = s then 1 else 0 := by
    intro y h1 h2
    have sp := inSpan_of (R := R) (x := y) g hs2 (by rw [← e0]; exact h1.le) (Or.inl (by rw [← e1]; exact h2))
    rw [show s - R + R = s by omega] at sp
    funext m
    split_ifs with hm
    · rw [hm]; exact sp.z1
    · exact sp.z0 m hm
  choose P hP hPe using fun i => cdbD_poly (padFn R knots) (fun m => if m = s then 1 else 0) k R i
  refine ⟨∑ i ∈ Finset.range n, C (u i) * P i, ?_, fun y h1 h2 => ?_⟩
  · refine natDegree_sum_le_of_forall_le _ _ fun i _ => ?_
    exact (natDegree_C_mul_le _ _).trans (hP i)
  · rw [spline, eval_finsetSum]
    refine Finset.sum_congr rfl fun i _ => ?_
    rw [zc y h1 h2, hPe]; simp

theorem sform_poly (R d : Nat) (u u2 v v2 : ℝ[X]) (hu : u.natDegree ≤ R) (hv : v.natDegree ≤ R) (hu2 : u2.natDegree ≤ R - 2) (hv2 : v2.natDegree ≤ R - 2) :
    ∀ op : SOp ℝ, op.DegLe R d → ∃ p : ℝ[X], p.natDegree ≤ d ∧ ∀ y, sform y op (u.eval y) (u2.eval y) (v.eval y) (v2.eval y) = p.eval y
  | .bilap, h => by
    refine ⟨-(u2 * v2), ?_, fun y => by simp [sform]⟩
    rw [natDegree_neg]
    refine natDegree_mul_le.trans ?_
    simp only [SOp.DegLe] at h
    omega
  | .react c, h => by
    obtain ⟨q, hq, hd⟩ := h
    refine ⟨q * u * v, ?_, fun y => by simp [sform, hq]⟩
    refine natDegree_mul_le.trans ?_
    have := natDegree_mul_le (p := q) (q := u)
    omega
  | .add a b, h => by
    obtain ⟨p, hp, e⟩ := sform_poly R d u u2 v v2 hu hv hu2 hv2 a h.1
    obtain ⟨q, hq, e'⟩ := sform_poly R d u u2 v v2 hu hv hu2 hv2 b h.2
    exact ⟨p + q, (natDegree_add_le _ _).trans (max_le hp hq), fun y => by rw [sform, e, e']; simp⟩
  | .sub a b, h => by
    obtain ⟨p, hp, e⟩ := sform_poly R d u u2 v v2 hu hv hu2 hv2 a h.1
    obtain ⟨q, hq, e'⟩ := sform_poly R d u u2 v v2 hu hv hu2 hv2 b h.2
    exact ⟨p - q, (natDegree_sub_le _ _).trans (max_le hp hq), fun y => by rw [sform, e, e']; simp⟩
  | .smul x a, h => by
    obtain ⟨p, hp, e⟩ := sform_poly R d u u2 v v2 hu hv hu2 hv2 a h
    exact ⟨C x * p, (natDegree_C_mul_le _ _).trans hp, fun y => by rw [sform, e]; simp⟩
  | .neg a, h => by
    obtain ⟨p, hp, e⟩ := sform_poly R d u u2 v v2 hu hv hu2 hv2 a h
    exact ⟨-p, by rw [natDegree_neg]; exact hp, fun y => by rw [sform, e]; simp⟩

/-- An exact rule on a span. -/
theorem span_exact {qn qw : List ℝ} {d : Nat} (hx : ExactTo qn qw d) (hn : ∀ q ∈ qn, -1 < q ∧ q < 1) {a b : ℝ} (hab : a < b)
    (f : ℝ → ℝ) (p : ℝ[X]) (hp : p.natDegree ≤ d) (hf : ∀ y, a < y → y < b → f y = p.eval y) :
    span1 qn qw a b f = ∫ y in a..b, f y ∧ IntervalIntegrable f MeasureTheory.volume a b := by
  have hne : f =ᵐ[MeasureTheory.volume.restrict (Set.uIoc a b)] fun y => p.eval y := by
    rw [Set.uIoc_of_le hab.le, Filter.EventuallyEq, MeasureTheory.ae_restrict_iff' measurableSet_Ioc]
    have : ∀ᵐ y : ℝ, y ≠ b := by
      rw [MeasureTheory.ae_iff]
      simp
    filter_upwards [this] with y hy hy2
    exact hf y hy2.1 (lt_of_le_of_ne hy2.2 hy)
  have hint : IntervalIntegrable (fun y => p.eval y) MeasureTheory.volume a b := p.continuous.intervalIntegrable a b
  refine ⟨?_, (hint.congr_ae hne.symm)⟩
  have e1 : ∫ y in a..b, f y = ∫ y in a..b, p.eval y := by
    refine intervalIntegral.integral_congr_ae_restrict hne
  have e2 := intervalIntegral.mul_integral_comp_mul_add (a := -1) (b := 1) (f := fun y => p.eval y) ((b - a) / 2) ((b + a) / 2)
  rw [show (b - a) / 2 * -1 + (b + a) / 2 = a by ring, show (b - a) / 2 * 1 + (b + a) / 2 = b by ring] at e2
  rw [e1, ← e2, span1]
  congr 1
  have e3 := hx (p.comp (C ((b - a) / 2) * X + C ((b + a) / 2))) (by
    refine natDegree_comp_le.trans ?_
    have : (C ((b - a) / 2) * X + C ((b + a) / 2) : ℝ[X]).natDegree ≤ 1 := natDegree_linear_le
    nlinarith)
  simp only [eval_comp, eval_add, eval_mul, eval_C, eval_X] at e3
  rw [← e3]
  refine Finset.sum_congr rfl fun k hk => ?_
  congr 1
  have hk := Finset.mem_range.1 hk
  have hq : -1 < qn.getD k 0 ∧ qn.getD k 0 < 1 := by
    have hl : k < qn.length := by omega
    rw [List.getD_eq_getElem?_getD, List.getElem?_eq_getElem hl, Option.getD_some]
    exact hn _ (List.getElem_mem _)
  have hd : 0 < (b - a) / 2 := by linarith
  apply hf <;> nlinarith [hq.1, hq.2]

/-- The composite rule is the integral over the domain. -/
theorem integral_exact {tol : ℝ} {R : Nat} {knots : List ℝ} (g : Good tol knots) {qn qw : List ℝ} {d : Nat} (hx : ExactTo qn qw d)
    (hn : ∀ q ∈ qn, -1 < q ∧ q < 1) (f : ℝ → ℝ) (t : List ℝ) (ht : t = tab (knots.length + 2 * R) (padFn R knots))
    (hf : ∀ s, padFn R knots s < padFn R knots (s + 1) → ∃ p : ℝ[X], p.natDegree ≤ d ∧ ∀ y, padFn R knots s < y →
      y < padFn R knots (s + 1) → f y = p.eval y) :
    integral qn qw t f = ∫ y in (knots.getD 0 0)..(knots.getD (knots.length - 1) 0), f y := by
  have two := g.two
  have hm := padFn_mono R g.incr (by omega)
  have hlt : t.length = knots.length + 2 * R := by rw [ht]; exact tab_length _ _
  have hg : ∀ s, s < knots.length + 2 * R → t.getD s 0 = padFn R knots s := by
    intro s h
    have h1 := rd_eq (t := t) (i := s) (by rw [hlt]; exact h)
    rw [ht, rd_tab h] at h1
    rw [ht]
    exact (Res.ok.inj h1).symm
  have key : ∀ s, span1 qn qw (padFn R knots s) (padFn R knots (s + 1)) f = ∫ y in (padFn R knots s)..(padFn R knots (s + 1)), f y ∧
      IntervalIntegrable f MeasureTheory.volume (padFn R knots s) (padFn R knots (s + 1)) := by
    intro s
    rcases lt_or_eq_of_le (hm (show s ≤ s + 1 by omega)) with h | h
    · obtain ⟨p, hp, hfp⟩ := hf s h
      exact span_exact hx hn h f p hp hfp
    · rw [← h]
      exact ⟨by simp [span1], IntervalIntegrable.refl⟩
  have e1 : integral qn qw t f = ∑ s ∈ Finset.range (t.length - 1), span1 qn qw (padFn R knots s) (padFn R knots (s + 1)) f := by
    unfold integral
    refine Finset.sum_congr rfl fun s hs => ?_
    have hs := Finset.mem_range.1 hs
    rw [hg s (by omega), hg (s + 1) (by omega), span1]
  rw [e1, Finset.sum_congr rfl fun s _ => (key s).1,
    intervalIntegral.sum_integral_adjacent_intervals (a := padFn R knots) fun k _ => (key k).2, hlt, padFn_end,
    padFn_clamp, show min (0 - R) (knots.length - 1) = 0 by omega]

/-- **C122.** With a quadrature rule which is exact for the degree of the integrand, the matrices computed by `init` are those of the
integrals over the whole domain: `stiff` represents the weak form of the operator, `mass` the L2 product. (The rule the library selects
is exact up to degree 5 whatever the order of the splines, see `C122_bug_cubic_mass`.) -/
theorem C122_exact_partial (tol : ℝ) (R : Nat) (knots : List ℝ) (g : Good tol knots) (qn qw : List ℝ) (hn : ∀ q ∈ qn, -1 < q ∧ q < 1)
    (op : SOp ℝ) (d : Nat) (hx : ExactTo qn qw d) (hd : op.DegLe R d) :
    ∃ s s', SpSolver.create R knots = .ok s ∧ s.init tol R qn qw op = .ok s' ∧ s'.isInit = true ∧
      s'.nDofs R = knots.length + R - 1 ∧ ∃ b b2 : Nat → ℝ → ℝ,
        (∀ i < s'.nDofs R, ∀ y, basisEval tol R s'.basis i y = .ok (b i y) ∧ derive tol R s'.basis 2 R i y = .ok (b2 i y)) ∧
        ∀ u v : Nat → ℝ,
          (∑ i ∈ Finset.range (s'.nDofs R), ∑ j ∈ Finset.range (s'.nDofs R), v i * s'.stiff i j * u j =
            ∫ y in (knots.getD 0 0)..(knots.getD (knots.length - 1) 0), sform y op (spline (s'.nDofs R) b u y) (spline (s'.nDofs R) b2 u y)
              (spline (s'.nDofs R) b v y) (spline (s'.nDofs R) b2 v y)) ∧
          (2 * R ≤ d → ∑ i ∈ Finset.range (s'.nDofs R), ∑ j ∈ Finset.range (s'.nDofs R), v i * s'.mass i j * u j =
            ∫ y in (knots.getD 0 0)..(knots.getD (knots.length - 1) 0), spline (s'.nDofs R) b u y * spline (s'.nDofs R) b v y) := by
  have two := g.two
  obtain ⟨s, s', h1, h2, h3, h4, b, b2, hb, h5⟩ := C105_init tol R knots g qn qw hn op
  have hbasis : s'.basis = tab (knots.length + 2 * R) (padFn R knots) := by
    rw [create_eq R knots (by omega)] at h1
    have e := Res.ok.inj h1
    subst e
    simp only [SpSolver.init, Res.bind_eq_ok] at h2
    obtain ⟨_, _, _, _, _, _, h⟩ := h2
    have := Res.ok.inj h
    rw [← this]
  have hb1 : ∀ i < s'.nDofs R, ∀ y, b i y = cdbD (padFn R knots) (z0 tol R (knots.length + 2 * R) (padFn R knots) y) y 0 R i := by
    intro i hi y
    have e := (hb i hi y).1
    rw [hbasis, basisEval, if_pos (by rw [← hbasis]; exact hi)] at e
    have e' := derive_eq tol R (knots.length + 2 * R) (padFn R knots) y 0 R i (by omega)
    rw [derive, e] at e'
    exact Res.ok.inj e'
  have hb2 : ∀ i < s'.nDofs R, ∀ y, b2 i y = cdbD (padFn R knots) (z0 tol R (knots.length + 2 * R) (padFn R knots) y) y 2 R i := by
    intro i hi y
    have e := (hb i hi y).2
    rw [hbasis, derive_eq tol R (knots.length + 2 * R) (padFn R knots) y 2 R i (by omega)] at e
    exact (Res.ok.inj e).symm
  have sp1 : ∀ (u : Nat → ℝ) y, spline (s'.nDofs R) b u y =
      spline (s'.nDofs R) (fun i y => cdbD (padFn R knots) (z0 tol R (knots.length + 2 * R) (padFn R knots) y) y 0 R i) u y := fun u y =>
    Finset.sum_congr rfl fun i hi => by rw [hb1 i (Finset.mem_range.1 hi) y]
  have sp2 : ∀ (u : Nat → ℝ) y, spline (s'.nDofs R) b2 u y =
      spline (s'.nDofs R) (fun i y => cdbD (padFn R knots) (z0 tol R (knots.length + 2 * R) (padFn R knots) y) y 2 R i) u y := fun u y =>
    Finset.sum_congr rfl fun i hi => by rw [hb2 i (Finset.mem_range.1 hi) y]
  refine ⟨s, s', h1, h2, h3, h4, b, b2, hb, fun u v => ⟨?_, fun h2R => ?_⟩⟩
  · rw [(h5 u v).1]
    refine integral_exact g hx hn _ _ hbasis fun k hk => ?_
    obtain ⟨pu, du, eu⟩ := spline_poly (R := R) g k hk 0 (s'.nDofs R) u
    obtain ⟨pv, dv, ev⟩ := spline_poly (R := R) g k hk 0 (s'.nDofs R) v
    obtain ⟨pu2, du2, eu2⟩ := spline_poly (R := R) g k hk 2 (s'.nDofs R) u
    obtain ⟨pv2, dv2, ev2⟩ := spline_poly (R := R) g k hk 2 (s'.nDofs R) v
    obtain ⟨p, hp, e⟩ := sform_poly R d pu pu2 pv pv2 du dv du2 dv2 op hd
    refine ⟨p, hp, fun y y1 y2 => ?_⟩
    rw [sp1, sp1, sp2, sp2, eu y y1 y2, ev y y1 y2, eu2 y y1 y2, ev2 y y1 y2, e]
  · rw [(h5 u v).2]
    refine integral_exact g hx hn _ _ hbasis fun k hk => ?_
    obtain ⟨pu, du, eu⟩ := spline_poly (R := R) g k hk 0 (s'.nDofs R) u
    obtain ⟨pv, dv, ev⟩ := spline_poly (R := R) g k hk 0 (s'.nDofs R) v
    refine ⟨pu * pv, natDegree_mul_le.trans (by omega), fun y y1 y2 => ?_⟩
    rw [sp1, sp1, eu y y1 y2, ev y y1 y2, eval_mul]

/-! ### The rule of the library -/

theorem splineNodes_eq : splineNodes ℝ = [-0.774596669241483, 0, 0.774596669241483] := by
  simp only [splineNodes, Quadrature.legendre1_3, List.map_cons, List.map_nil, List.getD_cons_zero]
  norm_num
theorem splineWeights_eq : splineWeights ℝ = [0.555555555555555, 0.888888888888888, 0.555555555555555] := by
  simp only [splineWeights, Quadrature.legendre1_3, List.map_cons, List.map_nil]
  norm_num

theorem poly_integral (p : ℝ[X]) (n : Nat) (h : p.natDegree < n) (a b : ℝ) :
    ∫ x in a..b, p.eval x = ∑ i ∈ Finset.range n, p.coeff i * ((b ^ (i + 1) - a ^ (i + 1)) / (i + 1)) := by
  simp only [eval_eq_sum_range' h]
  rw [intervalIntegral.integral_finsetSum fun i _ => (by fun_prop : Continuous fun x : ℝ => p.coeff i * x ^ i).intervalIntegrable a b]
  refine Finset.sum_congr rfl fun i _ => ?_
  rw [intervalIntegral.integral_const_mul, integral_pow]

/-- The three-node Gauss rule is exact up to degree 5, so that `C122_exact_partial` applies to the bilaplacian of cubic splines and to
the mass matrix of quadratic ones. -/
theorem gauss3_exact : ExactTo [-√(3 / 5), 0, √(3 / 5)] [5 / 9, 8 / 9, 5 / 9] 5 := by
  intro p hp
  rw [poly_integral p 6 (by omega)]
  simp only [eval_eq_sum_range' (show p.natDegree < 6 by omega), Finset.sum_range_succ, Finset.sum_range_zero, List.length_cons,
    List.length_nil, Nat.min_self, List.getD_cons_zero, List.getD_cons_succ]
  have hr : √(3 / 5 : ℝ) ^ 2 = 3 / 5 := Real.sq_sqrt (by norm_num)
  set r := √(3 / 5 : ℝ)
  have h4 : r ^ 4 = 9 / 25 := by rw [show r ^ 4 = (r ^ 2) ^ 2 by ring, hr]; norm_num
  push_cast
  ring_nf
  rw [hr, h4]
  ring

example : Good (1 / 10) [(0 : ℝ), 1, 3] ∧ (SOp.bilap : SOp ℝ).DegLe 3 5 ∧ (.react fun y => y : SOp ℝ).DegLe 2 5 ∧
    ∀ q ∈ [-√(3 / 5), 0, √(3 / 5)], -1 < q ∧ q < 1 := by
  refine ⟨⟨by simp, by simp [List.pairwise_cons], by norm_num, by norm_num [List.getD]⟩, by simp [SOp.DegLe], ⟨X, by simp, by simp⟩, ?_⟩
  have h1 : √(3 / 5 : ℝ) < 1 := by
    rw [show (1 : ℝ) = √1 by simp]
    exact Real.sqrt_lt_sqrt (by norm_num) (by norm_num)
  have h0 : 0 ≤ √(3 / 5 : ℝ) := Real.sqrt_nonneg _
  simp only [List.mem_cons, List.not_mem_nil, or_false]
  rintro q (rfl | rfl | rfl) <;> constructor <;> linarith

/-- No rule with `m` nodes is exact up to degree `2 m`: three nodes are not enough for the products of cubic splines. -/
theorem C122_needs_nodes (qn qw : List ℝ) : ¬ ExactTo qn qw (2 * qn.length) := by
  intro h
  set p : ℝ[X] := (qn.map fun x => (X - C x) ^ 2).prod with hp
  have hdeg : p.natDegree ≤ 2 * qn.length := by
    rw [hp]
    clear h hp
    induction qn with
    | nil => simp
    | cons x l ih =>
        rw [List.map_cons, List.prod_cons, List.length_cons]
        refine natDegree_mul_le.trans ?_
        have : ((X - C x) ^ 2 : ℝ[X]).natDegree ≤ 2 := by
          refine natDegree_pow_le.trans ?_
          rw [natDegree_sub_C]
          have := natDegree_X_le (R := ℝ)
          omega
        omega
  have heval : ∀ y, p.eval y = (qn.map fun x => (y - x) ^ 2).prod := by
    intro y
    rw [hp]
    clear h hp hdeg
    induction qn with
    | nil => simp
    | cons x l ih => simp [ih]
  have hnn : ∀ y, 0 ≤ p.eval y := by
    intro y
    rw [heval]
    refine List.prod_nonneg fun a ha => ?_
    obtain ⟨x, _, rfl⟩ := List.mem_map.1 ha
    exact sq_nonneg _
  have hz : ∀ x ∈ qn, p.eval x = 0 := by
    intro x hx
    rw [heval, List.prod_eq_zero_iff]
    exact List.mem_map.2 ⟨x, hx, by simp⟩
  have h0 : ∫ x in (-1 : ℝ)..1, p.eval x = 0 := by
    rw [← h p hdeg]
    refine Finset.sum_eq_zero fun k hk => ?_
    have hk := Finset.mem_range.1 hk
    have hl : k < qn.length := by omega
    rw [hz, mul_zero]
    rw [List.getD_eq_getElem?_getD, List.getElem?_eq_getElem hl, Option.getD_some]
    exact List.getElem_mem _
  obtain ⟨y, hy, hyq⟩ : ∃ y ∈ Set.Ioo (-1 : ℝ) 1, y ∉ qn := by
    by_contra hne
    push Not at hne
    have : (Set.Ioo (-1 : ℝ) 1).Finite := (List.finite_toSet qn).subset fun y hy => hne y hy
    exact Set.Ioo_infinite (by norm_num) this
  have hpos : 0 < p.eval y := by
    refine lt_of_le_of_ne (hnn y) (Ne.symm ?_)
    rw [heval, Ne, List.prod_eq_zero_iff]
    intro hm
    obtain ⟨x, hx, e⟩ := List.mem_map.1 hm
    have : y - x = 0 := by simpa using e
    exact hyq (by rw [sub_eq_zero.1 this]; exact hx)
  have := intervalIntegral.integral_pos (show (-1 : ℝ) < 1 by norm_num) p.continuous.continuousOn (fun x _ => hnn x) ⟨y, ⟨hy.1.le, hy.2.le⟩, hpos⟩
  linarith

theorem good01 {tol : ℝ} (h0 : 0 < tol) (h1 : tol ≤ 1) : Good tol [(0 : ℝ), 1] :=
  ⟨by simp, by simp, h0, by simpa [List.getD] using h1⟩

/-- The first cubic function on one span. -/
theorem cubic0 {tol : ℝ} (h0 : 0 < tol) (h1 : tol ≤ 1) {y : ℝ} (y0 : 0 < y) (y1 : y < 1) :
    cdb (padFn 3 [(0 : ℝ), 1]) (z0 tol 3 (2 + 2 * 3) (padFn 3 [(0 : ℝ), 1]) y) y 3 0 = (1 - y) ^ 3 := by
  have sp := inSpan_of (R := 3) (x := y) (good01 h0 h1) (j := 0) (by simp) (by simpa using y0.le) (Or.inl (by simpa using y1))
  have zc : z0 tol 3 (2 + 2 * 3) (padFn 3 [(0 : ℝ), 1]) y = fun m => if m = 3 then 1 else 0 := by
    funext m
    split_ifs with hm
    · rw [hm]; exact sp.z1
    · exact sp.z0 m hm
  rw [zc]
  simp [cdb, ca, padFn]
  ring

/-- With the rule of the library (three Gauss-Legendre nodes) the mass matrix of cubic splines is not the Gram matrix of the basis:
on the knots 0 and 1 the first diagonal entry is off by more than 3/10000 from the integral of the square of the first function,
while spline_solver_base.h:85 announces a rule which is exact for the order of the splines. -/
theorem C122_bug_cubic_mass (tol : ℝ) (h0 : 0 < tol) (h1 : tol ≤ 1) (op : SOp ℝ) :
    ∃ (s s' : SpSolver ℝ) (b : ℝ → ℝ), SpSolver.create 3 [(0 : ℝ), 1] = .ok s ∧
      s.init tol 3 (splineNodes ℝ) (splineWeights ℝ) op = .ok s' ∧
      (∀ y, basisEval tol 3 s'.basis 0 y = .ok (b y)) ∧
      3 / 10000 < (∫ y in (0 : ℝ)..1, b y * b y) - s'.mass 0 0 := by
  have g := good01 h0 h1
  have hn : ∀ q ∈ splineNodes ℝ, -1 < q ∧ q < 1 := by
    rw [splineNodes_eq]
    simp only [List.mem_cons, List.not_mem_nil, or_false]
    rintro q (rfl | rfl | rfl) <;> norm_num
  obtain ⟨s, s', e1, e2, e3, e4, b, b2, hb, e5⟩ := C105_init tol 3 [(0 : ℝ), 1] g (splineNodes ℝ) (splineWeights ℝ) hn op
  have hn4 : s'.nDofs 3 = 4 := e4
  have hbasis : s'.basis = tab (2 + 2 * 3) (padFn 3 [(0 : ℝ), 1]) := by
    rw [create_eq 3 _ (by simp)] at e1
    have e := Res.ok.inj e1
    subst e
    simp only [SpSolver.init, Res.bind_eq_ok] at e2
    obtain ⟨_, _, _, _, _, _, h⟩ := e2
    have := Res.ok.inj h
    rw [← this]
    rfl
  have hb0 : ∀ y, 0 < y → y < 1 → b 0 y = (1 - y) ^ 3 := by
    intro y y0 y1
    have e := (hb 0 (by omega) y).1
    rw [hbasis, basisEval, if_pos (by rw [← hbasis]; show 0 < s'.nDofs 3; omega)] at e
    have e' := derive_eq tol 3 (2 + 2 * 3) (padFn 3 [(0 : ℝ), 1]) y 0 3 0 (by omega)
    rw [derive, e] at e'
    rw [Res.ok.inj e', cdbD, cubic0 h0 h1 y0 y1]
  refine ⟨s, s', b 0, e1, e2, fun y => (hb 0 (by omega) y).1, ?_⟩
  have hint : ∫ y in (0 : ℝ)..1, b 0 y * b 0 y = 1 / 7 := by
    have : ∫ y in (0 : ℝ)..1, b 0 y * b 0 y = ∫ y in (0 : ℝ)..1, (fun z => z ^ 6) (1 - y) := by
      refine intervalIntegral.integral_congr_Ioo_of_le (by norm_num) fun y hy => ?_
      show b 0 y * b 0 y = (1 - y) ^ 6
      rw [hb0 y hy.1 hy.2]; ring
    rw [this, intervalIntegral.integral_comp_sub_left (fun z : ℝ => z ^ 6), integral_pow]
    norm_num
  have hm := (e5 (fun i => if i = 0 then 1 else 0) (fun i => if i = 0 then 1 else 0)).2
  have hs : ∀ y, spline 4 b (fun i => if i = 0 then 1 else 0) y = b 0 y := by
    intro y; simp [spline]
  rw [hn4] at hm
  simp only [hs] at hm
  rw [hbasis, splineNodes_eq, splineWeights_eq] at hm
  have ht : tab (2 + 2 * 3) (padFn 3 [(0 : ℝ), 1]) = [0, 0, 0, 0, 1, 1, 1, 1] := by
    simp [tab, padFn, List.range_succ]
  rw [ht] at hm
  have hM : s'.mass 0 0 = 1 / 2 * (0.555555555555555 * (b 0 (1 / 2 * -0.774596669241483 + 1 / 2)) ^ 2 + 0.888888888888888 * (b 0 (1 / 2)) ^ 2
      + 0.555555555555555 * (b 0 (1 / 2 * 0.774596669241483 + 1 / 2)) ^ 2) := by
    simp [Finset.sum_range_succ, integral] at hm
    rw [hm]; ring_nf
  rw [hint, hM, hb0 _ (by norm_num) (by norm_num), hb0 _ (by norm_num) (by norm_num), hb0 _ (by norm_num) (by norm_num)]
  norm_num

end Fdapde.Splines
