import Verif.Splines.SolverSpec
import Verif.Splines.PropsSpline
import Verif.Splines.PropsAssembly
/- C105: the spline solver. -/
set_option linter.unusedSectionVars false
namespace Fdapde.Splines
open Fdapde.PDE (Solver)
variable {K : Type} [Field K] [LinearOrder K] [IsStrictOrderedRing K]

theorem sweak_coef (y : K) : ∀ op : SOp K, ∃ A B : K, ∀ p p2 q q2, sweak y op p p2 q q2 = A * (p * q) + B * (p2 * q2) ∧
    sform y op p p2 q q2 = A * (p * q) + B * (p2 * q2)
  | .bilap => ⟨0, -1, fun _ _ _ _ => ⟨by rw [sweak]; ring, by rw [sform]; ring⟩⟩
  | .react c => ⟨c y, 0, fun _ _ _ _ => ⟨by rw [sweak]; ring, by rw [sform]; ring⟩⟩
  | .add a b => by
    obtain ⟨A, B, h⟩ := sweak_coef y a
    obtain ⟨A', B', h'⟩ := sweak_coef y b
    exact ⟨A + A', B + B', fun p p2 q q2 => ⟨by rw [sweak, (h _ _ _ _).1, (h' _ _ _ _).1]; ring, by rw [sform, (h _ _ _ _).2, (h' _ _ _ _).2]; ring⟩⟩
  | .sub a b => by
    obtain ⟨A, B, h⟩ := sweak_coef y a
    obtain ⟨A', B', h'⟩ := sweak_coef y b
    exact ⟨A - A', B - B', fun p p2 q q2 => ⟨by rw [sweak, (h _ _ _ _).1, (h' _ _ _ _).1]; ring, by rw [sform, (h _ _ _ _).2, (h' _ _ _ _).2]; ring⟩⟩
  | .smul x a => by
    obtain ⟨A, B, h⟩ := sweak_coef y a
    exact ⟨x * A, x * B, fun p p2 q q2 => ⟨by rw [sweak, (h _ _ _ _).1]; ring, by rw [sform, (h _ _ _ _).2]; ring⟩⟩
  | .neg a => by
    obtain ⟨A, B, h⟩ := sweak_coef y a
    exact ⟨-A, -B, fun p p2 q q2 => ⟨by rw [sweak, (h _ _ _ _).1]; ring, by rw [sform, (h _ _ _ _).2]; ring⟩⟩

/-- One span of the composite rule, as a sum. -/
def span1 (qn qw : List K) (a b : K) (f : K → K) : K :=
  (b - a) / 2 * ∑ k ∈ Finset.range (min qn.length qw.length), qw.getD k 0 * f ((b - a) / 2 * qn.getD k 0 + (b + a) / 2)

theorem spanRule_sum (qn qw : List K) (a b : K) (f : K → K) : spanRule qn qw a b f = span1 qn qw a b f := by
  unfold spanRule span1
  congr 1
  have key : ∀ (l : List (K × K)) (v : K), l.foldl (fun v p => v + f ((b - a) / 2 * p.1 + (b + a) / 2) * p.2) v =
      v + (l.map fun p => f ((b - a) / 2 * p.1 + (b + a) / 2) * p.2).sum := by
    intro l
    induction l with
    | nil => intro v; simp
    | cons p l ih => intro v; rw [List.foldl_cons, ih, List.map_cons, List.sum_cons]; ring
  rw [key, zero_add]
  clear key
  induction qn generalizing qw with
  | nil => simp
  | cons x xs ih =>
    cases qw with
    | nil => simp
    | cons w ws =>
      rw [List.zip_cons_cons, List.map_cons, List.sum_cons, ih, List.length_cons, List.length_cons, Nat.succ_min_succ,
        Finset.sum_range_succ']
      simp only [List.getD_cons_zero, List.getD_cons_succ]
      ring

theorem bil (n : Nat) (p p2 u v : Nat → K) (c w A B : K) :
    ∑ i ∈ Finset.range n, ∑ j ∈ Finset.range n, v i * (c * (w * (A * (p i * p j) + B * (p2 i * p2 j)))) * u j =
      c * (w * (A * ((∑ i ∈ Finset.range n, u i * p i) * ∑ i ∈ Finset.range n, v i * p i) +
        B * ((∑ i ∈ Finset.range n, u i * p2 i) * ∑ i ∈ Finset.range n, v i * p2 i))) := by
  have e : ∀ q : Nat → K, (∑ i ∈ Finset.range n, u i * q i) * ∑ i ∈ Finset.range n, v i * q i =
      ∑ i ∈ Finset.range n, ∑ j ∈ Finset.range n, v i * q i * (u j * q j) := by
    intro q
    rw [mul_comm, Finset.sum_mul_sum]
  rw [e, e]
  simp only [Finset.mul_sum, ← Finset.sum_add_distrib]
  exact Finset.sum_congr rfl fun i _ => Finset.sum_congr rfl fun j _ => by ring

/-- The matrix of an operator represents its form. -/
theorem assembled (tol : K) (R : Nat) (knots : List K) (g : Good tol knots) (qn qw : List K) (hn : ∀ q ∈ qn, -1 < q ∧ q < 1)
    (op : SOp K) : ∃ t, pad R knots = .ok t ∧ t.length = knots.length + 2 * R ∧
      (∀ i < size R t, ∀ k y, derive tol R t k R i y = .ok (val tol R t k i y)) ∧
      ∃ l, assemble true R t.length (size R t) (spanQ tol R t qn qw op) = .ok l ∧
        ∀ u v : Nat → K, ∑ i ∈ Finset.range (size R t), ∑ j ∈ Finset.range (size R t), v i * matrix true l i j * u j =
          integral qn qw t fun y => sform y op (spline (size R t) (val tol R t 0) u y) (spline (size R t) (val tol R t 2) u y)
            (spline (size R t) (val tol R t 0) v y) (spline (size R t) (val tol R t 2) v y) := by
  have two := g.two
  have hm := padFn_mono R g.incr (by omega)
  set t := tab (knots.length + 2 * R) (padFn R knots) with ht
  have hlt : t.length = knots.length + 2 * R := tab_length _ _
  have hs : size R t = knots.length + R - 1 := by unfold size; rw [hlt]; omega
  have hder : ∀ i < size R t, ∀ k y, derive tol R t k R i y = .ok (val tol R t k i y) ∧
      val tol R t k i y = cdbD (padFn R knots) (z0 tol R (knots.length + 2 * R) (padFn R knots) y) y k R i := by
    intro i hi k y
    have := derive_eq tol R (knots.length + 2 * R) (padFn R knots) y k R i (by omega)
    rw [← ht] at this
    rw [val, this]
    exact ⟨rfl, rfl⟩
  refine ⟨t, pad_eq R knots (by omega), hlt, fun i hi k y => (hder i hi k y).1, ?_⟩
  have hg : ∀ s, s < knots.length + 2 * R → t.getD s 0 = padFn R knots s := by
    intro s h
    have h1 := rd_eq (t := t) (i := s) (by rw [hlt]; exact h)
    rw [ht, rd_tab h] at h1
    exact (Res.ok.inj h1).symm
  have hsup : ∀ k i s y, i < size R t → s + 1 < knots.length + 2 * R → (s < i ∨ i + R < s) → padFn R knots s < y →
      y < padFn R knots (s + 1) → val tol R t k i y = 0 := by
    intro k i s y hi _ h h1 h2
    rw [(hder i hi k y).2]
    have hlast := padFn_le_last R g.incr (by omega) (s + 1)
    refine cdbD_support g (Or.inl (h2.le.trans hlast)) k i ?_
    rcases h with h | h
    · exact Or.inl (lt_of_lt_of_le h2 (hm (by omega)))
    · exact Or.inr (lt_of_le_of_lt (hm (by omega)) h1)
  have hlen : t.length = size R t + R + 1 := by rw [hlt, hs]; omega
  -- functions outside of the basis are not used: they are replaced by zero
  set Q : Nat → Nat → Nat → K := fun i j s => if i < size R t ∧ j < size R t then spanQ tol R t qn qw op i j s else 0 with hQ
  have hz : ∀ i j k, k + 1 < size R t + R + 1 → (k < i ∨ i + R < k ∨ k < j ∨ j + R < k) → Q i j k = 0 := by
    intro i j s hs1 hs2
    simp only [hQ]
    split_ifs with hij
    · rw [spanQ, hg s (by omega), hg (s + 1) (by omega)]
      refine spanRule_zero hn (hm (by omega)) (fun y h1 h2 => ?_)
      obtain ⟨A, B, hAB⟩ := sweak_coef y op
      rw [(hAB _ _ _ _).1]
      rcases hs2 with h | h | h | h
      · rw [hsup 0 i s y hij.1 (by omega) (Or.inl h) h1 h2, hsup 2 i s y hij.1 (by omega) (Or.inl h) h1 h2]; ring
      · rw [hsup 0 i s y hij.1 (by omega) (Or.inr h) h1 h2, hsup 2 i s y hij.1 (by omega) (Or.inr h) h1 h2]; ring
      · rw [hsup 0 j s y hij.2 (by omega) (Or.inl h) h1 h2, hsup 2 j s y hij.2 (by omega) (Or.inl h) h1 h2]; ring
      · rw [hsup 0 j s y hij.2 (by omega) (Or.inr h) h1 h2, hsup 2 j s y hij.2 (by omega) (Or.inr h) h1 h2]; ring
    · rfl
  obtain ⟨l, hl, hmat⟩ := C52_symmetric R (size R t) Q hz
  have hcongr : assemble true R t.length (size R t) (spanQ tol R t qn qw op) = assemble true R (size R t + R + 1) (size R t) Q := by
    rw [hlen, assemble_eq _ le_rfl, assemble_eq _ le_rfl]
    congr 1
    refine List.flatMap_congr fun i hi => ?_
    have hi := List.mem_range.1 hi
    unfold rowT
    refine List.map_congr_left fun j hj => ?_
    have hj := List.mem_range.1 hj
    simp only [hQ, if_pos (show i < size R t ∧ j < size R t from ⟨hi, by omega⟩)]
  refine ⟨l, hcongr.trans hl, fun u v => ?_⟩
  have hent : ∀ i < size R t, ∀ j < size R t, matrix true l i j = ∑ s ∈ Finset.range (t.length - 1), spanQ tol R t qn qw op i j s := by
    intro i hi j hj
    rw [hmat i hi j hj, hlen, Nat.add_sub_cancel]
    refine Finset.sum_congr rfl fun s _ => ?_
    simp only [hQ]
    rcases le_total i j with h | h
    · rw [max_eq_right h, min_eq_left h, if_pos ⟨hj, hi⟩, spanQ, spanQ]
      congr 1
      funext y
      obtain ⟨A, B, hAB⟩ := sweak_coef y op
      rw [(hAB _ _ _ _).1, (hAB _ _ _ _).1]; ring
    · rw [max_eq_left h, min_eq_right h, if_pos ⟨hi, hj⟩]
  rw [integral]
  have e1 : ∑ i ∈ Finset.range (size R t), ∑ j ∈ Finset.range (size R t), v i * matrix true l i j * u j =
      ∑ i ∈ Finset.range (size R t), ∑ j ∈ Finset.range (size R t), ∑ s ∈ Finset.range (t.length - 1), v i * spanQ tol R t qn qw op i j s * u j := by
    refine Finset.sum_congr rfl fun i hi => Finset.sum_congr rfl fun j hj => ?_
    rw [hent i (Finset.mem_range.1 hi) j (Finset.mem_range.1 hj), Finset.mul_sum, Finset.sum_mul]
  rw [e1]
  have e2 : ∀ i ∈ Finset.range (size R t), (∑ j ∈ Finset.range (size R t), ∑ s ∈ Finset.range (t.length - 1), v i * spanQ tol R t qn qw op i j s * u j) =
      ∑ s ∈ Finset.range (t.length - 1), ∑ j ∈ Finset.range (size R t), v i * spanQ tol R t qn qw op i j s * u j := fun i _ => Finset.sum_comm
  rw [Finset.sum_congr rfl e2, Finset.sum_comm]
  refine Finset.sum_congr rfl fun s _ => ?_
  simp only [spanQ, spanRule_sum, span1, Finset.mul_sum, Finset.sum_mul]
  have e3 : ∀ i ∈ Finset.range (size R t), ∀ F : Nat → Nat → K, (∑ j ∈ Finset.range (size R t), ∑ k ∈ Finset.range (min qn.length qw.length), F j k) =
      ∑ k ∈ Finset.range (min qn.length qw.length), ∑ j ∈ Finset.range (size R t), F j k := fun i _ F => Finset.sum_comm
  rw [Finset.sum_congr rfl fun i hi => e3 i hi _, Finset.sum_comm]
  refine Finset.sum_congr rfl fun k _ => ?_
  obtain ⟨A, B, hAB⟩ := sweak_coef ((t.getD (s + 1) 0 - t.getD s 0) / 2 * qn.getD k 0 + (t.getD (s + 1) 0 + t.getD s 0) / 2) op
  simp only [(hAB _ _ _ _).1, (hAB _ _ _ _).2, spline]
  exact bil _ _ _ _ _ _ _ _ _

theorem create_eq (R : Nat) (nodes : List K) (h : 0 < nodes.length) :
    SpSolver.create R nodes = .ok ⟨nodes, tab (nodes.length + 2 * R) (padFn R nodes),
      tab (nodes.length + 2 * R) (padFn R (nodes.map (mapNode (nodes.getD 0 0) (nodes.getD (nodes.length - 1) 0)))),
      fun _ _ => 0, fun _ _ => 0, 0, false⟩ := by
  rw [SpSolver.create, pad_eq R nodes h, Res.ok_bind, rd_eq h, Res.ok_bind, rd_eq (by omega), Res.ok_bind,
    pad_eq R _ (by rw [List.length_map]; exact h), Res.ok_bind, List.length_map]

/-- C105: construction and `init` succeed; `stiff` represents the form of the operator and `mass` the L2 product of splines,
integrals being the composite quadrature over the spans between knots. -/
theorem C105_init (tol : K) (R : Nat) (knots : List K) (g : Good tol knots) (qn qw : List K) (hn : ∀ q ∈ qn, -1 < q ∧ q < 1)
    (op : SOp K) :
    ∃ s s', SpSolver.create R knots = .ok s ∧ s.init tol R qn qw op = .ok s' ∧ s'.isInit = true ∧
      s'.nDofs R = knots.length + R - 1 ∧ ∃ b b2 : Nat → K → K,
        (∀ i < s'.nDofs R, ∀ y, basisEval tol R s'.basis i y = .ok (b i y) ∧ derive tol R s'.basis 2 R i y = .ok (b2 i y)) ∧
        ∀ u v : Nat → K,
          (∑ i ∈ Finset.range (s'.nDofs R), ∑ j ∈ Finset.range (s'.nDofs R), v i * s'.stiff i j * u j =
            integral qn qw s'.basis fun y => sform y op (spline (s'.nDofs R) b u y) (spline (s'.nDofs R) b2 u y)
              (spline (s'.nDofs R) b v y) (spline (s'.nDofs R) b2 v y)) ∧
          (∑ i ∈ Finset.range (s'.nDofs R), ∑ j ∈ Finset.range (s'.nDofs R), v i * s'.mass i j * u j =
            integral qn qw s'.basis fun y => spline (s'.nDofs R) b u y * spline (s'.nDofs R) b v y) := by
  have two := g.two
  have h0 : 0 < knots.length := by omega
  obtain ⟨t, h1, hlen, h2, l, h3, h4⟩ := assembled tol R knots g qn qw hn op
  obtain ⟨t', h1', _, h2', m, h3', h4'⟩ := assembled tol R knots g qn qw hn (.react fun _ => 1)
  have et : t' = t := by rw [h1] at h1'; exact (Res.ok.inj h1').symm
  subst et
  have hp := pad_eq R knots h0
  rw [h1] at hp
  have ht := Res.ok.inj hp
  refine ⟨_, { nodes := knots, basis := t', ref := tab (knots.length + 2 * R) (padFn R (knots.map (mapNode (knots.getD 0 0) (knots.getD (knots.length - 1) 0)))),
               stiff := matrix true l, mass := matrix true m, forceRows := 0, isInit := true },
    create_eq R knots h0, ?_, rfl, ?_, val tol R t' 0, val tol R t' 2, ?_, ?_⟩
  · rw [SpSolver.init, h1, Res.ok_bind, h3, Res.ok_bind, h3', Res.ok_bind, ← ht]
  · show size R t' = _
    unfold size; rw [hlen]; omega
  · intro i hi y
    have hi : i < size R t' := hi
    have := h2 i hi 0 y
    rw [derive] at this
    exact ⟨by show basisEval tol R t' i y = _; rw [basisEval, if_pos hi, this], h2 i hi 2 y⟩
  · intro u v
    refine ⟨h4 u v, (h4' u v).trans ?_⟩
    simp only [sform, one_mul]
    rfl

theorem integral_nonneg (qn qw : List K) (hw : ∀ w ∈ qw, 0 ≤ w) (t : List K) (ht : ∀ s, s + 1 < t.length → t.getD s 0 ≤ t.getD (s + 1) 0)
    (f : K → K) (hf : ∀ y, 0 ≤ f y) : 0 ≤ integral qn qw t f := by
  refine Finset.sum_nonneg fun s hs => mul_nonneg ?_ (Finset.sum_nonneg fun k hk => mul_nonneg ?_ (hf _))
  · have := ht s (by have := Finset.mem_range.1 hs; omega)
    linarith
  · have hk := Finset.mem_range.1 hk
    rw [List.getD_eq_getElem?_getD, List.getElem?_eq_getElem (by omega), Option.getD_some]
    exact hw _ (List.getElem_mem _)

/-- C105: with non-negative weights the mass matrix and the matrix of the negated bilaplacian are positive semidefinite. -/
theorem C105_semidefinite (tol : K) (R : Nat) (knots : List K) (g : Good tol knots) (qn qw : List K) (hn : ∀ q ∈ qn, -1 < q ∧ q < 1)
    (hw : ∀ w ∈ qw, 0 ≤ w) :
    ∃ s s', SpSolver.create R knots = .ok s ∧ s.init tol R qn qw (.neg .bilap) = .ok s' ∧ ∀ u : Nat → K,
      0 ≤ ∑ i ∈ Finset.range (s'.nDofs R), ∑ j ∈ Finset.range (s'.nDofs R), u i * s'.stiff i j * u j ∧
      0 ≤ ∑ i ∈ Finset.range (s'.nDofs R), ∑ j ∈ Finset.range (s'.nDofs R), u i * s'.mass i j * u j := by
  have two := g.two
  obtain ⟨s, s', h1, h2, _, _, b, b2, _, h3⟩ := C105_init tol R knots g qn qw hn (.neg .bilap)
  refine ⟨s, s', h1, h2, fun u => ?_⟩
  have hb : s'.basis = tab (knots.length + 2 * R) (padFn R knots) := by
    rw [create_eq R knots (by omega)] at h1
    obtain rfl := Res.ok.inj h1
    obtain ⟨t, e1, _, _, l, e3, _⟩ := assembled tol R knots g qn qw hn (.neg .bilap)
    obtain ⟨t', e1', _, _, l', e3', _⟩ := assembled tol R knots g qn qw hn (.react fun _ => 1)
    have et : t' = t := by rw [e1] at e1'; exact (Res.ok.inj e1').symm
    subst et
    rw [SpSolver.init, e1, Res.ok_bind, e3, Res.ok_bind, e3', Res.ok_bind] at h2
    obtain rfl := Res.ok.inj h2
    rfl
  have ht : ∀ r, r + 1 < s'.basis.length → s'.basis.getD r 0 ≤ s'.basis.getD (r + 1) 0 := by
    intro r hr
    rw [hb, tab_length] at hr
    have hg : ∀ r, r < knots.length + 2 * R → s'.basis.getD r 0 = padFn R knots r := by
      intro r h
      have h1 := rd_eq (t := s'.basis) (i := r) (by rw [hb, tab_length]; exact h)
      rw [hb, rd_tab h] at h1
      rw [hb]
      exact (Res.ok.inj h1).symm
    rw [hg r (by omega), hg (r + 1) hr]
    exact padFn_mono R g.incr (by omega) (by omega)
  refine ⟨?_, ?_⟩
  · rw [(h3 u u).1]
    refine integral_nonneg qn qw hw _ ht _ fun y => ?_
    simp only [sform, neg_neg]
    exact mul_self_nonneg _
  · rw [(h3 u u).2]
    exact integral_nonneg qn qw hw _ ht _ fun y => mul_self_nonneg _

/-- C105 (finding): the bilaplacian, documented as `psi_i'' psi_j''`, is assembled with the opposite sign: the matrix of
`bilaplacian<SPLINE>()` is negative semidefinite. -/
theorem C105_bug_sign (tol : K) (R : Nat) (knots : List K) (g : Good tol knots) (qn qw : List K) (hn : ∀ q ∈ qn, -1 < q ∧ q < 1) :
    ∃ s s', SpSolver.create R knots = .ok s ∧ s.init tol R qn qw .bilap = .ok s' ∧ ∃ b2 : Nat → K → K,
      (∀ i < s'.nDofs R, ∀ y, derive tol R s'.basis 2 R i y = .ok (b2 i y)) ∧ ∀ u : Nat → K,
      ∑ i ∈ Finset.range (s'.nDofs R), ∑ j ∈ Finset.range (s'.nDofs R), u i * s'.stiff i j * u j =
        integral qn qw s'.basis fun y => -(spline (s'.nDofs R) b2 u y) ^ 2 := by
  obtain ⟨s, s', h1, h2, _, _, b, b2, hb, h3⟩ := C105_init tol R knots g qn qw hn .bilap
  refine ⟨s, s', h1, h2, b2, fun i hi y => (hb i hi y).2, fun u => ?_⟩
  rw [(h3 u u).1]
  simp only [sform, ← pow_two]

/-! ### The basis on the reference interval -/

theorem ca_affine (τ τ' : Nat → K) (α β : K) (hα : 0 < α) (h : ∀ i, τ' i = α * τ i + β) (R i : Nat) : ca τ' R i = ca τ R i / α := by
  unfold ca
  have e : τ' (i + R) - τ' i = α * (τ (i + R) - τ i) := by rw [h, h]; ring
  rw [e]
  by_cases hz : τ (i + R) - τ i = 0
  · simp [hz]
  · rw [if_pos hz, if_pos (mul_ne_zero hα.ne' hz)]
    field_simp

theorem cdb_affine (τ τ' z : Nat → K) (α β x : K) (hα : 0 < α) (h : ∀ i, τ' i = α * τ i + β) :
    ∀ R i, cdb τ' z (α * x + β) R i = cdb τ z x R i
  | 0, i => rfl
  | R + 1, i => by
    rw [cdb, cdb, ca_affine τ τ' α β hα h, ca_affine τ τ' α β hα h, cdb_affine τ τ' z α β x hα h R i,
      cdb_affine τ τ' z α β x hα h R (i + 1), h, h]
    field_simp
    ring

theorem cdbD_affine (τ τ' z : Nat → K) (α β x : K) (hα : 0 < α) (h : ∀ i, τ' i = α * τ i + β) :
    ∀ k R i, cdbD τ' z (α * x + β) k R i = cdbD τ z x k R i / α ^ k
  | 0, R, i => by rw [cdbD, cdbD, cdb_affine τ τ' z α β x hα h, pow_zero, div_one]
  | k + 1, 0, i => by rw [cdbD, cdbD, zero_div]
  | k + 1, R + 1, i => by
    rw [cdbD, cdbD, ca_affine τ τ' α β hα h, ca_affine τ τ' α β hα h, cdbD_affine τ τ' z α β x hα h k R i,
      cdbD_affine τ τ' z α β x hα h k R (i + 1), pow_succ]
    field_simp

theorem z0_affine (τ τ' : Nat → K) (α β x tol : K) (hα : 0 < α) (h : ∀ i, τ' i = α * τ i + β) (M m : Nat) :
    z0 tol M m τ' (α * x + β) = z0 (tol / α) M m τ x := by
  funext i
  unfold z0
  rw [h, h, h]
  have e1 : α * τ i + β ≤ α * x + β ↔ τ i ≤ x := by
    rw [add_le_add_iff_right, mul_le_mul_iff_right₀ hα]
  have e2 : α * x + β < α * τ (i + 1) + β ↔ x < τ (i + 1) := by
    rw [add_lt_add_iff_right, mul_lt_mul_iff_right₀ hα]
  have e3 : |α * x + β - (α * τ (m - 1) + β)| < tol ↔ |x - τ (m - 1)| < tol / α := by
    rw [show α * x + β - (α * τ (m - 1) + β) = α * (x - τ (m - 1)) by ring, abs_mul, abs_of_pos hα, lt_div_iff₀ hα, mul_comm]
  simp only [e1, e2, e3]

theorem padFn_map (R : Nat) (knots : List K) (h : 0 < knots.length) (φ : K → K) (i : Nat) :
    padFn R (knots.map φ) i = φ (padFn R knots i) := by
  have hg : ∀ j < knots.length, (knots.map φ).getD j 0 = φ (knots.getD j 0) := by
    intro j hj
    simp [List.getD_eq_getElem?_getD, List.getElem?_eq_getElem hj]
  unfold padFn
  rw [List.length_map]
  split_ifs with h1 h2
  · exact hg 0 h
  · exact hg _ (by omega)
  · exact hg _ (by omega)

/-- C105: the basis on [-1, 1] is the image of the basis on the domain [a, b] by the affine map between them: the `i`-th
reference function at the image of a point has the value of the `i`-th function at the point, and a derivative of order `k`
its derivative times ((b - a) / 2)^k.  The tolerance within which the right end point counts as inside is absolute, hence
scaled by the map. -/
theorem C105_reference (tol : K) (R : Nat) (nodes : List K) (h2 : 2 ≤ nodes.length)
    (hab : nodes.getD 0 0 < nodes.getD (nodes.length - 1) 0) :
    ∃ s, SpSolver.create R nodes = .ok s ∧ ∀ i < s.nDofs R, ∀ (k : Nat) (x : K), ∃ v,
      derive (tol * ((nodes.getD (nodes.length - 1) 0 - nodes.getD 0 0) / 2)) R s.basis k R i x = .ok v ∧
      derive tol R s.ref k R i (mapNode (nodes.getD 0 0) (nodes.getD (nodes.length - 1) 0) x) =
        .ok (v * ((nodes.getD (nodes.length - 1) 0 - nodes.getD 0 0) / 2) ^ k) := by
  have h0 : 0 < nodes.length := by omega
  refine ⟨_, create_eq R nodes h0, fun i hi k x => ?_⟩
  set a := nodes.getD 0 0 with ha
  set b := nodes.getD (nodes.length - 1) 0 with hb
  have hd : 0 < b - a := by linarith
  have hi : i < size R (tab (nodes.length + 2 * R) (padFn R nodes)) := hi
  unfold size at hi
  rw [tab_length] at hi
  refine ⟨_, derive_eq _ R _ _ x k R i (by omega), ?_⟩
  dsimp only
  rw [derive_eq _ R _ _ _ k R i (by omega)]
  have hα : 0 < 2 / (b - a) := div_pos two_pos hd
  have hφ : ∀ y, mapNode a b y = 2 / (b - a) * y + -(b + a) / (b - a) := by
    intro y; unfold mapNode; field_simp; ring
  have hτ : ∀ j, padFn R (nodes.map (mapNode a b)) j = 2 / (b - a) * padFn R nodes j + -(b + a) / (b - a) := by
    intro j; rw [padFn_map R nodes h0, hφ]
  rw [hφ x, z0_affine _ _ _ _ x tol hα hτ, cdbD_affine _ _ _ _ _ x hα hτ]
  congr 1
  rw [show tol / (2 / (b - a)) = tol * ((b - a) / 2) by field_simp, div_eq_mul_inv, ← inv_pow, inv_div]

/-- C105: the nodes of the domain are mapped on [-1, 1], end points on end points. -/
theorem C105_reference_interval (a b : K) (hab : a < b) :
    mapNode a b a = -1 ∧ mapNode a b b = 1 ∧ ∀ x y, x < y → mapNode a b x < mapNode a b y := by
  have hd : 0 < b - a := by linarith
  refine ⟨by unfold mapNode; field_simp; ring, by unfold mapNode; field_simp; ring, fun x y h => ?_⟩
  unfold mapNode
  exact mul_lt_mul_of_pos_left (by linarith) (div_pos one_pos hd)

/-! ### solve -/

/-- C105 (finding): the discretized forcing is never computed and stays a matrix without rows, so that solving the system is
undefined behaviour for every problem whose matrix can be factorized. -/
theorem C105_bug_no_forcing (tol : K) (R : Nat) (knots : List K) (g : Good tol knots) (qn qw : List K) (hn : ∀ q ∈ qn, -1 < q ∧ q < 1)
    (op : SOp K) (lu : Solver K) (force : Nat → K) :
    ∃ s s', SpSolver.create R knots = .ok s ∧ s.init tol R qn qw op = .ok s' ∧
      (s'.solve lu R force = .ok (false, none) ∨ s'.solve lu R force = .ub) ∧
      ((lu s'.stiff).isSome → s'.solve lu R force = .ub) := by
  have two := g.two
  obtain ⟨s, s', h1, h2, h3, h4, _⟩ := C105_init tol R knots g qn qw hn op
  have hf : s'.forceRows = 0 := by
    rw [create_eq R knots (by omega)] at h1
    obtain rfl := Res.ok.inj h1
    obtain ⟨t, e1, _, _, l, e3, _⟩ := assembled tol R knots g qn qw hn op
    obtain ⟨t', e1', _, _, l', e3', _⟩ := assembled tol R knots g qn qw hn (.react fun _ => 1)
    have et : t' = t := by rw [e1] at e1'; exact (Res.ok.inj e1').symm
    subst et
    rw [SpSolver.init, e1, Res.ok_bind, e3, Res.ok_bind, e3', Res.ok_bind] at h2
    obtain rfl := Res.ok.inj h2
    rfl
  refine ⟨s, s', h1, h2, ?_⟩
  unfold SpSolver.solve
  rw [if_neg (by simp [h3])]
  cases hl : lu s'.stiff with
  | none => exact ⟨Or.inl rfl, fun h => by simp at h⟩
  | some f =>
    dsimp only
    rw [if_neg (by omega)]
    exact ⟨Or.inr rfl, fun _ => rfl⟩

/-- C105: solving before `init` throws, whatever the problem. -/
theorem C105_not_initialised (R : Nat) (nodes : List K) (h : 0 < nodes.length) (lu : Solver K) (force : Nat → K) :
    ∃ s, SpSolver.create R nodes = .ok s ∧ s.solve lu R force = .throws :=
  ⟨_, create_eq R nodes h, rfl⟩

/-- C105 (finding): Dirichlet conditions are ignored. -/
theorem C105_bug_dirichlet (s : SpSolver K) : s.setDirichlet = s := rfl

/-- C105 (finding): `dof_coords()` lists the nodes of the domain, `R - 1` rows less than `n_dofs()`. -/
theorem C105_bug_dof_coords (R : Nat) (nodes : List K) (h : 0 < nodes.length) :
    ∃ s, SpSolver.create R nodes = .ok s ∧ s.dofsCoords.length + R = s.nDofs R + 1 := by
  refine ⟨_, create_eq R nodes h, ?_⟩
  show nodes.length + R = size R (tab _ _) + 1
  unfold size
  rw [tab_length]
  omega

/-- C105: `eval_basis` has a result exactly for the two evaluation types 0 (pointwise) and 1 (areal). -/
theorem C105_eval_basis {E : Type} (p a : E) (type : Int) :
    evalBasis (.ok p) (.ok a) type = .ok (if type = 0 then some p else if type = 1 then some a else none) := by
  unfold evalBasis
  split_ifs <;> rfl

/-! ### The hypotheses are met -/

theorem demo_good : Good (1 / 100 : ℚ) [0, 1, 2, 4] :=
  ⟨by decide, by decide +kernel, by norm_num, by norm_num⟩

example : ∃ s s' : SpSolver ℚ, SpSolver.create 3 [0, 1, 2, 4] = .ok s ∧
    s.init (1 / 100) 3 [-3 / 4, 0, 3 / 4] [5 / 9, 8 / 9, 5 / 9] (.neg .bilap) = .ok s' ∧ s'.nDofs 3 = 6 := by
  obtain ⟨s, s', h1, h2, _, h3, _⟩ := C105_init (1 / 100 : ℚ) 3 [0, 1, 2, 4] demo_good [-3 / 4, 0, 3 / 4] [5 / 9, 8 / 9, 5 / 9]
    (by
      intro q hq
      simp only [List.mem_cons, List.not_mem_nil, or_false] at hq
      rcases hq with rfl | rfl | rfl <;> norm_num) (.neg .bilap)
  exact ⟨s, s', h1, h2, h3⟩

example : ∃ s : SpSolver ℚ, SpSolver.create 3 [0, 1, 2, 4] = .ok s ∧ s.dofsCoords.length = 4 ∧ s.nDofs 3 = 6 := by
  obtain ⟨s, h, e⟩ := C105_bug_dof_coords 3 [0, 1, 2, (4 : ℚ)] (by decide)
  rw [create_eq 3 _ (by decide)] at h
  obtain rfl := Res.ok.inj h
  exact ⟨_, create_eq 3 _ (by decide), rfl, rfl⟩

end Fdapde.Splines
