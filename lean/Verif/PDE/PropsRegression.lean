import Verif.PDE.RegressionSpec
import Verif.PDE.PropsMesh
import Verif.PDE.PropsElements
import Verif.LinAlg.PropsBlockHist
import Verif.Splines.PropsSmoothing
/- C162: spatial regression with the penalty of a differential problem. -/
set_option linter.unusedSectionVars false
namespace Fdapde.PDE
open Finset FEM LinAlg
open Splines (vals pform vals_sub pform_sub_left pform_sub_right)

/-! ### The block matrix -/

/-- Entry of a matrix of four blocks of size `m`. -/
def quadEntry (m : Nat) (A B C D : Nat → Nat → ℝ) (p q : Nat) : ℝ :=
  if p < m then (if q < m then A p q else B p (q - m)) else (if q < m then C (p - m) q else D (p - m) (q - m))

theorem psum_const (m k : Nat) : psum (fun _ => m) k = k * m := by
  simp [psum]

theorem make_read (m : Nat) (A B C D : Nat → Nat → ℝ) :
    ∃ s, SB.make 2 2 [⟨m, m, A⟩, ⟨m, m, B⟩, ⟨m, m, C⟩, ⟨m, m, D⟩] = .ok s ∧
      ∀ p < m + m, ∀ q < m + m, readAll s p q = quadEntry m A B C D p q := by
  obtain ⟨s, s', e, e', _, _, h, _⟩ := C141_history_partial (α := ℝ) (R := 2) (C := 2) (by norm_num) (by norm_num)
    [⟨m, m, A⟩, ⟨m, m, B⟩, ⟨m, m, C⟩, ⟨m, m, D⟩] (fun _ => m) (fun _ => m) (fun i j => quadEntry m A B C D i.toNat j.toNat) rfl (by
      intro r hr c hc
      have : (r = 0 ∨ r = 1) ∧ (c = 0 ∨ c = 1) := by omega
      obtain ⟨rfl | rfl, rfl | rfl⟩ := this
      all_goals
        refine ⟨_, rfl, rfl, rfl, fun a ha b hb => ?_⟩
        simp only [psum_const, Int.toNat_natCast, quadEntry]
        simp [ha, hb]) [] (by simp)
  simp only [SB.run, Res.ok.injEq] at e'
  subst e'
  refine ⟨s, e, fun p hp q hq => ?_⟩
  have := h p q
  rw [if_pos (by simp only [psum_const]; omega)] at this
  rw [readAll, this]
  simp

theorem sum_halves (m : Nat) (f : Nat → ℝ) : ∑ q ∈ range (m + m), f q = ∑ q ∈ range m, f q + ∑ q ∈ range m, f (m + q) :=
  sum_range_add f m m

/-! ### The system -/
section
variable {m L : Nat} {A S M : Nat → Nat → ℝ} {lam : ℝ}

theorem block_first (f g v : Nat → ℝ) : ∑ p ∈ range m, v p * (∑ q ∈ range m, (-∑ j ∈ range L, A j p * A j q) * f q +
    ∑ q ∈ range m, lam * S q p * g q) = -∑ j ∈ range L, vals m A f j * vals m A v j + lam * pform m S v g := by
  have e1 : ∑ j ∈ range L, vals m A f j * vals m A v j = ∑ p ∈ range m, v p * ∑ q ∈ range m, (∑ j ∈ range L, A j p * A j q) * f q := by
    have := Splines.normal_form m L A (fun _ _ => 0) 0 f v
    simp only [Splines.normalMatrix, zero_mul, add_zero] at this
    exact this.symm
  have e2 : lam * pform m S v g = ∑ p ∈ range m, v p * ∑ q ∈ range m, lam * S q p * g q := by
    rw [pform, sum_comm, mul_sum]
    refine sum_congr rfl fun p _ => ?_
    rw [mul_sum, mul_sum]
    exact sum_congr rfl fun q _ => by ring
  rw [e1, e2, ← sum_neg_distrib, ← sum_add_distrib]
  refine sum_congr rfl fun p _ => ?_
  rw [← mul_neg, ← sum_neg_distrib, ← mul_add]
  simp only [neg_mul]

theorem block_second (f g v : Nat → ℝ) : ∑ p ∈ range m, v p * (∑ q ∈ range m, lam * S p q * f q + ∑ q ∈ range m, lam * M p q * g q) =
    lam * (pform m S f v + pform m M g v) := by
  rw [pform, pform, ← sum_add_distrib, mul_sum]
  refine sum_congr rfl fun p _ => ?_
  rw [← sum_add_distrib, ← sum_add_distrib, mul_sum, mul_sum]
  exact sum_congr rfl fun q _ => by ring

theorem quad_rows (B C D E : Nat → Nat → ℝ) (x : Nat → ℝ) {p : Nat} (hp : p < m) :
    ∑ q ∈ range (m + m), quadEntry m B C D E p q * x q = ∑ q ∈ range m, B p q * x q + ∑ q ∈ range m, C p q * x (m + q) ∧
    ∑ q ∈ range (m + m), quadEntry m B C D E (m + p) q * x q = ∑ q ∈ range m, D p q * x q + ∑ q ∈ range m, E p q * x (m + q) := by
  constructor
  · rw [sum_halves]
    congr 1
    · exact sum_congr rfl fun q hq => by rw [quadEntry, if_pos hp, if_pos (mem_range.1 hq)]
    · exact sum_congr rfl fun q hq => by rw [quadEntry, if_pos hp, if_neg (by omega), Nat.add_sub_cancel_left]
  · rw [sum_halves]
    congr 1
    · exact sum_congr rfl fun q hq => by rw [quadEntry, if_neg (by omega), if_pos (mem_range.1 hq), Nat.add_sub_cancel_left]
    · exact sum_congr rfl fun q hq => by rw [quadEntry, if_neg (by omega), if_neg (by omega), Nat.add_sub_cancel_left, Nat.add_sub_cancel_left]

/-- The hypotheses on the forms: the first is non-negative on the diagonal, zero only on constants, the second positive definite,
and a location sees constants. -/
structure Forms (m L : Nat) (A S M : Nat → Nat → ℝ) : Prop where
  coercive : ∀ v, 0 ≤ pform m S v v ∧ (pform m S v v = 0 → ∀ p < m, ∀ q < m, v p = v q)
  mass : ∀ v, 0 ≤ pform m M v v ∧ (pform m M v v = 0 → ∀ p < m, v p = 0)
  symm : ∀ u v, pform m M u v = pform m M v u
  located : ∃ j < L, ∑ q ∈ range m, A j q = 1

theorem pform_congr (T : Nat → Nat → ℝ) {u u' v v' : Nat → ℝ} (hu : ∀ p < m, u p = u' p) (hv : ∀ p < m, v p = v' p) :
    pform m T u v = pform m T u' v' :=
  sum_congr rfl fun p hp => sum_congr rfl fun q hq => by rw [hu q (mem_range.1 hq), hv p (mem_range.1 hp)]

theorem forms_zero (h : Forms m L A S M) (hl : 0 < lam) {w k : Nat → ℝ} (hk : ∀ v, pform m S w v + pform m M k v = 0)
    (hz : ∑ j ∈ range L, vals m A w j * vals m A w j + lam * pform m M k k = 0) : (∀ p < m, w p = 0) ∧ ∀ p < m, k p = 0 := by
  have n1 : 0 ≤ ∑ j ∈ range L, vals m A w j * vals m A w j := sum_nonneg fun j _ => mul_self_nonneg _
  have n2 : 0 ≤ lam * pform m M k k := mul_nonneg hl.le (h.mass k).1
  have z1 : pform m M k k = 0 := (mul_eq_zero.1 (by linarith : lam * pform m M k k = 0)).resolve_left hl.ne'
  have z2 := (h.mass k).2 z1
  have z3 : pform m M k w = 0 := by
    rw [pform_congr M (u' := fun _ => 0) (v' := w) z2 fun _ _ => rfl]
    simp [pform]
  have z4 := (h.coercive w).2 (by have := hk w; linarith)
  refine ⟨fun p hp => ?_, z2⟩
  obtain ⟨j, hj, hs⟩ := h.located
  have z5 := (sum_eq_zero_iff_of_nonneg fun j _ => mul_self_nonneg (vals m A w j)).1 (by linarith : ∑ j ∈ range L, vals m A w j * vals m A w j = 0) j
    (mem_range.2 hj)
  have z6 := mul_self_eq_zero.1 z5
  have e : vals m A w j = w p := by
    rw [vals, sum_congr rfl fun q hq => by rw [z4 q (mem_range.1 hq) p hp], ← sum_mul, hs, one_mul]
  rw [← e, z6]

/-- The system is not singular. -/
theorem quad_det (h : Forms m L A S M) (hl : 0 < lam) {B : Nat → Nat → ℝ}
    (hB : ∀ p < m + m, ∀ q < m + m, B p q = quadEntry m (fun p q => -∑ j ∈ range L, A j p * A j q) (fun p q => lam * S q p)
      (fun p q => lam * S p q) (fun p q => lam * M p q) p q) :
    (Matrix.of fun i j : Fin (m + m) => B i j).det ≠ 0 := by
  intro hd
  obtain ⟨x, hx, hx0⟩ := Matrix.exists_mulVec_eq_zero_iff.2 hd
  set u : Nat → ℝ := fun p => if h : p < m + m then x ⟨p, h⟩ else 0 with hu
  have hui : ∀ i : Fin (m + m), u i = x i := fun i => by rw [hu]; simp
  have hrow : ∀ p < m + m, ∑ q ∈ range (m + m), quadEntry m (fun p q => -∑ j ∈ range L, A j p * A j q) (fun p q => lam * S q p)
      (fun p q => lam * S p q) (fun p q => lam * M p q) p q * u q = 0 := by
    intro p hp
    have := congrFun hx0 ⟨p, hp⟩
    rw [Matrix.mulVec, dotProduct] at this
    rw [sum_range]
    exact (sum_congr rfl fun q _ => by rw [hui, ← hB p hp q q.2]; rfl).trans this
  have v1 : ∀ v, -∑ j ∈ range L, vals m A u j * vals m A v j + lam * pform m S v (fun p => u (m + p)) = 0 := by
    intro v
    rw [← block_first]
    refine sum_eq_zero fun p hp => mul_eq_zero_of_right _ ?_
    have e := hrow p (by have := mem_range.1 hp; omega)
    rw [(quad_rows _ _ _ _ u (mem_range.1 hp)).1] at e
    exact e
  have v2 : ∀ v, pform m S u v + pform m M (fun p => u (m + p)) v = 0 := by
    intro v
    refine (mul_eq_zero.1 ?_).resolve_left hl.ne'
    rw [← block_second]
    refine sum_eq_zero fun p hp => mul_eq_zero_of_right _ ?_
    have e := hrow (m + p) (by have := mem_range.1 hp; omega)
    rw [(quad_rows _ _ _ _ u (mem_range.1 hp)).2] at e
    exact e
  have hz := forms_zero h hl v2 (by
    have a1 := v1 u
    have a2 := v2 fun p => u (m + p)
    have : pform m S u (fun p => u (m + p)) = - pform m M (fun p => u (m + p)) (fun p => u (m + p)) := by linarith
    rw [this] at a1
    linarith)
  refine hx (funext fun i => ?_)
  rw [← hui]
  by_cases hi : (i : Nat) < m
  · exact hz.1 i hi
  · have := hz.2 (i - m) (by omega)
    rwa [Nat.add_sub_cancel' (by omega)] at this

variable {y f g U : Nat → ℝ}

theorem expand_misfit (w f' : Nat → ℝ) (hw : ∀ p, w p = f' p - f p) : ∑ j ∈ range L, (y j - vals m A f' j) ^ 2 =
    ∑ j ∈ range L, (y j - vals m A f j) ^ 2 - 2 * ∑ j ∈ range L, (y j - vals m A f j) * vals m A w j + ∑ j ∈ range L, vals m A w j * vals m A w j := by
  obtain rfl : w = fun p => f' p - f p := funext hw
  rw [mul_sum, ← sum_sub_distrib, ← sum_add_distrib]
  exact sum_congr rfl fun j _ => by rw [vals_sub]; ring

/-- The criterion around the solution. -/
theorem criterion_expand (hsym : ∀ u v, pform m M u v = pform m M v u)
    (h1 : ∀ v, ∑ j ∈ range L, (y j - vals m A f j) * vals m A v j = -(lam * pform m S v g))
    {f' g' : Nat → ℝ} (hk : ∀ v, pform m S (fun p => f' p - f p) v + pform m M (fun p => g' p - g p) v = 0) :
    ∑ j ∈ range L, (y j - vals m A f' j) ^ 2 + lam * pform m M g' g' = ∑ j ∈ range L, (y j - vals m A f j) ^ 2 + lam * pform m M g g +
      (∑ j ∈ range L, vals m A (fun p => f' p - f p) j * vals m A (fun p => f' p - f p) j +
        lam * pform m M (fun p => g' p - g p) fun p => g' p - g p) := by
  rw [expand_misfit (fun p => f' p - f p) f' fun _ => rfl, h1]
  have a := hk g
  have b : pform m S (fun p => f' p - f p) g = - pform m M (fun p => g' p - g p) g := by linarith
  rw [b]
  simp only [pform_sub_left, pform_sub_right]
  rw [hsym g g']
  ring

end

/-! ### The program -/

/-- Data of a regression problem: an elliptic problem on a connected mesh with a positive definite mass matrix, forcing at every
quadrature node, and a row of the evaluation matrix with sum one (a location in a cell). -/
structure FitData (P : Prob ℝ) (data : Dense ℝ) (ids : List Int) (psi : Nat → Nat → Nat → ℝ) (l : List (Trip ℝ)) : Prop where
  ok : P.Ok
  coercive : P.Coercive
  mass : ∀ v, 0 ≤ P.l2 v v ∧ (P.l2 v v = 0 → ∀ p < P.m, v p = 0)
  rows : P.n * Quadrature.size P.t ≤ data.rows
  cols : 0 < data.cols
  eval : pointEval P.n P.nb P.dofs ids psi = .ok l
  located : ∃ j < ids.length, ∑ q ∈ range P.m, entry l j q = 1

variable {P : Prob ℝ} {data : Dense ℝ} {ids : List Int} {psi : Nat → Nat → Nat → ℝ} {l : List (Trip ℝ)}

/-- What the program computes, in terms of the forms. -/
theorem fit_core (h : FitData P data ids psi l) {lu : Solver ℝ} (hlu : ExactLU (P.m + P.m) lu) (hlc : CompleteLU (P.m + P.m) lu) (junk : Nat → ℝ) :
    ∃ S M : Nat → Nat → ℝ, (∀ u v, pform P.m S u v = P.bilin u v) ∧ (∀ u v, pform P.m M u v = P.l2 u v) ∧ Forms P.m ids.length (entry l) S M ∧
      ∀ lam : ℝ, 0 < lam → ∀ y, ∃ f g, spatialFit lu P data junk ids psi lam y = .ok (some (f, g)) ∧ P.Gap data f g ∧
        ∀ v, ∑ j ∈ range ids.length, (y j - vals P.m (entry l) f j) * vals P.m (entry l) v j = -(lam * pform P.m S v g) := by
  obtain ⟨s, e1, e2, _, _, _, hS, hM, hU⟩ := C102_init P h.ok data h.rows h.cols junk
  have hS' : ∀ u v, pform P.m s.stiff u v = P.bilin u v := fun u v => by rw [pform, hS]
  have hM' : ∀ u v, pform P.m s.mass u v = P.l2 u v := fun u v => by rw [pform, hM]
  have hF : Forms P.m ids.length (entry l) s.stiff s.mass :=
    ⟨fun v => by rw [hS']; exact h.coercive v, fun v => by rw [hM']; exact h.mass v, fun u v => by rw [hM', hM', l2_symm], h.located⟩
  refine ⟨s.stiff, s.mass, hS', hM', hF, fun lam hl y => ?_⟩
  obtain ⟨A, eA, hA⟩ := make_read P.m (fun p q => -∑ j ∈ range ids.length, entry l j p * entry l j q) (fun p q => lam * s.stiff q p)
    (fun p q => lam * s.stiff p q) (fun p q => lam * s.mass p q)
  obtain ⟨F, hFF⟩ := Option.isSome_iff_exists.1 (hlc _ (quad_det hF hl hA))
  set b : Nat → ℝ := fun p => if p < P.m then -∑ j ∈ range ids.length, entry l j p * y j else lam * s.force (p - P.m) with hb
  have hx : ∀ p < P.m + P.m, ∑ q ∈ range (P.m + P.m), quadEntry P.m (fun p q => -∑ j ∈ range ids.length, entry l j p * entry l j q)
      (fun p q => lam * s.stiff q p) (fun p q => lam * s.stiff p q) (fun p q => lam * s.mass p q) p q * F b q = b p := by
    intro p hp
    rw [← hlu _ F hFF b p hp]
    exact sum_congr rfl fun q hq => by rw [hA p hp q (mem_range.1 hq)]
  refine ⟨F b, fun p => F b (P.m + p), ?_, fun v => ?_, fun v => ?_⟩
  · rw [spatialFit, e1, Res.ok_bind, h.eval, Res.ok_bind]
    simp only [e2]
    rw [eA, Res.ok_bind, hFF]
  · have hv := block_second (m := P.m) (S := s.stiff) (M := s.mass) (lam := lam) (F b) (fun p => F b (P.m + p)) v
    have e3 : ∀ p ∈ range P.m, v p * (∑ q ∈ range P.m, lam * s.stiff p q * F b q + ∑ q ∈ range P.m, lam * s.mass p q * F b (P.m + q)) =
        lam * (v p * s.force (P.m * 0 + p)) := by
      intro p hp
      have hp := mem_range.1 hp
      have e := hx (P.m + p) (by omega)
      rw [(quad_rows _ _ _ _ (F b) hp).2] at e
      rw [e, hb]
      dsimp only
      rw [if_neg (by omega), Nat.add_sub_cancel_left, Nat.mul_zero, Nat.zero_add]
      ring
    rw [sum_congr rfl e3, ← mul_sum, hU 0 (.inl rfl) v] at hv
    have := mul_left_cancel₀ hl.ne' hv
    rw [hS', hM'] at this
    linarith
  · have hv := block_first (m := P.m) (L := ids.length) (A := entry l) (S := s.stiff) (lam := lam) (F b) (fun p => F b (P.m + p)) v
    have e3 : ∀ p ∈ range P.m, v p * (∑ q ∈ range P.m, (-∑ j ∈ range ids.length, entry l j p * entry l j q) * F b q +
        ∑ q ∈ range P.m, lam * s.stiff q p * F b (P.m + q)) = -(v p * Splines.normalRhs ids.length (entry l) y p) := by
      intro p hp
      have hp := mem_range.1 hp
      have e := hx p (by omega)
      rw [(quad_rows _ _ _ _ (F b) hp).1] at e
      rw [e, hb]
      dsimp only
      rw [if_pos hp, Splines.normalRhs]
      ring
    rw [sum_congr rfl e3, sum_neg_distrib, Splines.normal_rhs] at hv
    simp only [sub_mul, sum_sub_distrib]
    linarith

theorem gap_sub {S M : Nat → Nat → ℝ} (hS : ∀ u v, pform P.m S u v = P.bilin u v) (hM : ∀ u v, pform P.m M u v = P.l2 u v) {f g f' g' : Nat → ℝ}
    (h : P.Gap data f g) (h' : P.Gap data f' g') (v : Nat → ℝ) :
    pform P.m S (fun p => f' p - f p) v + pform P.m M (fun p => g' p - g p) v = 0 := by
  rw [pform_sub_left, pform_sub_left, hS, hS, hM, hM]
  have := h v
  have := h' v
  linarith

/-- Every function has a gap. -/
theorem gap_exists (h : FitData P data ids psi l) (f : Nat → ℝ) : ∃ g, P.Gap data f g := by
  obtain ⟨s, _, _, _, _, _, hS, hM, hU⟩ := C102_init P h.ok data h.rows h.cols fun _ => 0
  have hd := Splines.normal_det P.m 0 (fun _ _ => 0) s.mass 1 fun u hu => (h.mass u).2 (by
    rw [← hM u u]
    simpa [pform] using hu)
  obtain ⟨lu, h1, h2⟩ := exists_exactLU (K := ℝ) P.m
  obtain ⟨F, hF⟩ := Option.isSome_iff_exists.1 (h2 _ hd)
  set b : Nat → ℝ := fun p => s.force (P.m * 0 + p) - ∑ q ∈ range P.m, s.stiff p q * f q with hb
  refine ⟨F b, fun v => ?_⟩
  rw [← hM, ← hS, ← hU 0 (.inl rfl) v, ← sum_sub_distrib]
  refine sum_congr rfl fun p hp => ?_
  have e := h1 _ F hF b p (mem_range.1 hp)
  simp only [Splines.normalMatrix, range_zero, sum_empty, zero_add, one_mul] at e
  have e1 : ∑ q ∈ range P.m, v p * s.mass p q * F b q = v p * ∑ q ∈ range P.m, s.mass p q * F b q := by
    rw [mul_sum]; exact sum_congr rfl fun q _ => by ring
  have e2 : ∑ q ∈ range P.m, v p * s.stiff p q * f q = v p * ∑ q ∈ range P.m, s.stiff p q * f q := by
    rw [mul_sum]; exact sum_congr rfl fun q _ => by ring
  rw [e1, e2, e, hb]
  ring

section
variable (h : FitData P data ids psi l) {lu : Solver ℝ} (hlu : ExactLU (P.m + P.m) lu) (hlc : CompleteLU (P.m + P.m) lu) (junk : Nat → ℝ)
include h hlu hlc

/-- **C162** (partial: exact factorization, real arithmetic).  The program succeeds, and of all functions the one it returns, and no other,
has the least sum of squared differences from the data plus `lambda` times the integral of the square of the function by which it fails to solve
the problem. -/
theorem C162_fit_partial (lam : ℝ) (hl : 0 < lam) (y : Nat → ℝ) :
    ∃ f g, spatialFit lu P data junk ids psi lam y = .ok (some (f, g)) ∧ P.Gap data f g ∧ (∀ f', ∃ g', P.Gap data f' g') ∧
      ∀ f' g', P.Gap data f' g' →
        ∑ j ∈ range ids.length, (y j - ∑ q ∈ range P.m, entry l j q * f q) ^ 2 + lam * P.l2 g g ≤
          ∑ j ∈ range ids.length, (y j - ∑ q ∈ range P.m, entry l j q * f' q) ^ 2 + lam * P.l2 g' g' ∧
        ((∃ p < P.m, f' p ≠ f p) →
          ∑ j ∈ range ids.length, (y j - ∑ q ∈ range P.m, entry l j q * f q) ^ 2 + lam * P.l2 g g <
            ∑ j ∈ range ids.length, (y j - ∑ q ∈ range P.m, entry l j q * f' q) ^ 2 + lam * P.l2 g' g') := by
  obtain ⟨S, M, hS, hM, hF, hfit⟩ := fit_core h hlu hlc junk
  obtain ⟨f, g, e, hg, hv⟩ := hfit lam hl y
  refine ⟨f, g, e, hg, gap_exists h, fun f' g' hg' => ?_⟩
  have hk := gap_sub hS hM hg hg'
  have hx := criterion_expand hF.symm hv hk
  rw [hM, hM] at hx
  have n0 : 0 ≤ ∑ j ∈ range ids.length, vals P.m (entry l) (fun p => f' p - f p) j * vals P.m (entry l) (fun p => f' p - f p) j +
      lam * pform P.m M (fun p => g' p - g p) fun p => g' p - g p :=
    add_nonneg (sum_nonneg fun j _ => mul_self_nonneg _) (mul_nonneg hl.le (hF.mass _).1)
  simp only [vals] at hx n0
  refine ⟨by linarith, fun hne => ?_⟩
  refine lt_of_le_of_ne (by linarith) fun hz => ?_
  obtain ⟨p, hp, hne⟩ := hne
  have := (forms_zero hF hl hk (by simp only [vals]; linarith)).1 p hp
  exact hne (sub_eq_zero.1 this)

/-- **C162**: data which are the values of a function that solves the problem are fitted by that function, whatever the smoothing
parameter. -/
theorem C162_exact_partial (lam : ℝ) (hl : 0 < lam) (y f0 : Nat → ℝ)
    (h0 : ∀ v, P.bilin f0 v = P.load (fun c k => data.at' (Quadrature.size P.t * c + k) 0) v)
    (hy : ∀ j < ids.length, y j = ∑ q ∈ range P.m, entry l j q * f0 q) :
    ∃ f g, spatialFit lu P data junk ids psi lam y = .ok (some (f, g)) ∧ ∀ p < P.m, f p = f0 p ∧ g p = 0 := by
  obtain ⟨S, M, hS, hM, hF, hfit⟩ := fit_core h hlu hlc junk
  obtain ⟨f, g, e, hg, hv⟩ := hfit lam hl y
  have hg0 : P.Gap data f0 fun _ => 0 := fun v => by
    rw [h0, sub_self, ← hM]
    simp [pform]
  have hk := gap_sub hS hM hg hg0
  have hx := criterion_expand hF.symm hv hk
  have z1 : ∑ j ∈ range ids.length, (y j - vals P.m (entry l) f0 j) ^ 2 = 0 :=
    sum_eq_zero fun j hj => by rw [hy j (mem_range.1 hj), vals, sub_self, zero_pow two_ne_zero]
  have z2 : pform P.m M (fun _ => 0) (fun _ => 0) = 0 := by simp [pform]
  rw [z1, z2, mul_zero, add_zero] at hx
  have n1 : 0 ≤ ∑ j ∈ range ids.length, (y j - vals P.m (entry l) f j) ^ 2 := sum_nonneg fun _ _ => sq_nonneg _
  have n2 : 0 ≤ lam * pform P.m M g g := mul_nonneg hl.le (hF.mass g).1
  have n3 : 0 ≤ ∑ j ∈ range ids.length, vals P.m (entry l) (fun p => f0 p - f p) j * vals P.m (entry l) (fun p => f0 p - f p) j +
      lam * pform P.m M (fun p => 0 - g p) fun p => 0 - g p :=
    add_nonneg (sum_nonneg fun j _ => mul_self_nonneg _) (mul_nonneg hl.le (hF.mass _).1)
  obtain ⟨w1, w2⟩ := forms_zero hF hl hk (by linarith)
  refine ⟨f, g, e, fun p hp => ⟨(sub_eq_zero.1 (w1 p hp)).symm, ?_⟩⟩
  have := w2 p hp
  linarith

/-- **C162**: when the form does not see constants, the differences between data and fitted values, over the locations in a cell, have
sum zero. -/
theorem C162_residuals_partial (hc : ∀ v, P.bilin (fun _ => 1) v = 0) (lam : ℝ) (hl : 0 < lam) (y : Nat → ℝ) :
    ∃ f g, spatialFit lu P data junk ids psi lam y = .ok (some (f, g)) ∧
      ∑ j ∈ range ids.length, (y j - ∑ q ∈ range P.m, entry l j q * f q) * ∑ q ∈ range P.m, entry l j q = 0 := by
  obtain ⟨S, M, hS, hM, hF, hfit⟩ := fit_core h hlu hlc junk
  obtain ⟨f, g, e, hg, hv⟩ := hfit lam hl y
  refine ⟨f, g, e, ?_⟩
  have := hv fun _ => 1
  rw [hS, hc, mul_zero, neg_zero] at this
  refine Eq.trans (sum_congr rfl fun j _ => ?_) this
  rw [vals, vals]
  simp only [mul_one]

/-- **C162**: a larger smoothing parameter gives a function which is not farther from a solution of the problem, and not closer to the
data. -/
theorem C162_monotone_partial (lam lam' : ℝ) (hl : 0 < lam) (hll : lam < lam') (y : Nat → ℝ) :
    ∃ f g f' g', spatialFit lu P data junk ids psi lam y = .ok (some (f, g)) ∧ spatialFit lu P data junk ids psi lam' y = .ok (some (f', g')) ∧
      P.l2 g' g' ≤ P.l2 g g ∧ ∑ j ∈ range ids.length, (y j - ∑ q ∈ range P.m, entry l j q * f q) ^ 2 ≤
        ∑ j ∈ range ids.length, (y j - ∑ q ∈ range P.m, entry l j q * f' q) ^ 2 := by
  obtain ⟨f, g, e, hg, _, hmin⟩ := C162_fit_partial h hlu hlc junk lam hl y
  obtain ⟨f', g', e', hg', _, hmin'⟩ := C162_fit_partial h hlu hlc junk lam' (hl.trans hll) y
  have i1 := (hmin f' g' hg').1
  have i2 := (hmin' f g hg).1
  have hr : P.l2 g' g' ≤ P.l2 g g := by
    have : (lam' - lam) * (P.l2 g' g' - P.l2 g g) ≤ 0 := by linarith
    by_contra hh
    push Not at hh
    have := mul_pos (sub_pos.2 hll) (sub_pos.2 hh)
    linarith
  refine ⟨f, g, f', g', e, e', hr, ?_⟩
  have := mul_le_mul_of_nonneg_left hr hl.le
  linarith

/-- **C162**: the fitted values do not change more than the data: the sum of the squared changes at the locations is not larger. -/
theorem C162_stable_partial (lam : ℝ) (hl : 0 < lam) (y y' : Nat → ℝ) :
    ∃ f g f' g', spatialFit lu P data junk ids psi lam y = .ok (some (f, g)) ∧ spatialFit lu P data junk ids psi lam y' = .ok (some (f', g')) ∧
      ∑ j ∈ range ids.length, (∑ q ∈ range P.m, entry l j q * f q - ∑ q ∈ range P.m, entry l j q * f' q) ^ 2 ≤
        ∑ j ∈ range ids.length, (y j - y' j) ^ 2 := by
  obtain ⟨S, M, hS, hM, hF, hfit⟩ := fit_core h hlu hlc junk
  obtain ⟨f, g, e, hg, hv⟩ := hfit lam hl y
  obtain ⟨f', g', e', hg', hv'⟩ := hfit lam hl y'
  refine ⟨f, g, f', g', e, e', ?_⟩
  set w : Nat → ℝ := fun p => f p - f' p with hw
  have hk := gap_sub hS hM hg' hg fun p => g p - g' p
  have hm := (hF.mass fun p => g p - g' p).1
  have h3 : ∑ j ∈ range ids.length, (y j - y' j - vals P.m (entry l) w j) * vals P.m (entry l) w j =
      lam * pform P.m M (fun p => g p - g' p) fun p => g p - g' p := by
    have : ∑ j ∈ range ids.length, (y j - y' j - vals P.m (entry l) w j) * vals P.m (entry l) w j =
        -(lam * pform P.m S w g) - -(lam * pform P.m S w g') := by
      rw [← hv w, ← hv' w, ← sum_sub_distrib]
      refine sum_congr rfl fun j _ => ?_
      rw [show vals P.m (entry l) w j = vals P.m (entry l) f j - vals P.m (entry l) f' j from vals_sub _ _ _ _ _]
      ring
    rw [this]
    have e4 : pform P.m S w (fun p => g p - g' p) = pform P.m S w g - pform P.m S w g' := pform_sub_right _ _ _ _ _
    rw [← hw, e4] at hk
    linear_combination (-lam) * hk
  have h6 : ∑ j ∈ range ids.length, (∑ q ∈ range P.m, entry l j q * f q - ∑ q ∈ range P.m, entry l j q * f' q) ^ 2 =
      ∑ j ∈ range ids.length, vals P.m (entry l) w j ^ 2 :=
    sum_congr rfl fun j _ => by rw [hw, vals_sub]; rfl
  rw [h6]
  have h7 : ∑ j ∈ range ids.length, (y j - y' j) ^ 2 = ∑ j ∈ range ids.length, vals P.m (entry l) w j ^ 2 +
      ∑ j ∈ range ids.length, (y j - y' j - vals P.m (entry l) w j) ^ 2 +
      2 * ∑ j ∈ range ids.length, (y j - y' j - vals P.m (entry l) w j) * vals P.m (entry l) w j := by
    rw [mul_sum, ← sum_add_distrib, ← sum_add_distrib]
    exact sum_congr rfl fun j _ => by ring
  have h8 : 0 ≤ ∑ j ∈ range ids.length, (y j - y' j - vals P.m (entry l) w j) ^ 2 := sum_nonneg fun _ _ => sq_nonneg _
  have h9 : 0 ≤ lam * pform P.m M (fun p => g p - g' p) fun p => g p - g' p := mul_nonneg hl.le hm
  linarith

/-- **C162**: when the data are the values of a function, the squared errors at the locations are at most `lambda` times the integral of
the square of its gap: with smaller and smaller parameters the data are reproduced. -/
theorem C162_interpolates_partial (lam : ℝ) (hl : 0 < lam) (y f0 g0 : Nat → ℝ) (h0 : P.Gap data f0 g0)
    (hy : ∀ j < ids.length, y j = ∑ q ∈ range P.m, entry l j q * f0 q) :
    ∃ f g, spatialFit lu P data junk ids psi lam y = .ok (some (f, g)) ∧
      ∑ j ∈ range ids.length, (y j - ∑ q ∈ range P.m, entry l j q * f q) ^ 2 ≤ lam * P.l2 g0 g0 ∧ P.l2 g g ≤ P.l2 g0 g0 := by
  obtain ⟨f, g, e, hg, _, hmin⟩ := C162_fit_partial h hlu hlc junk lam hl y
  have i1 := (hmin f0 g0 h0).1
  have z : ∑ j ∈ range ids.length, (y j - ∑ q ∈ range P.m, entry l j q * f0 q) ^ 2 = 0 :=
    sum_eq_zero fun j hj => by rw [hy j (mem_range.1 hj), sub_self, zero_pow two_ne_zero]
  rw [z, zero_add] at i1
  have n1 : 0 ≤ ∑ j ∈ range ids.length, (y j - ∑ q ∈ range P.m, entry l j q * f q) ^ 2 := sum_nonneg fun _ _ => sq_nonneg _
  have n2 := mul_nonneg hl.le (h.mass g).1
  exact ⟨f, g, e, by linarith, le_of_mul_le_mul_left (by linarith) hl⟩

end

/-! ### On meshes -/

theorem gra_sum : ∀ e ∈ elements, ∀ k < Quadrature.ruleSize e.1 e.2.1, ∀ w < e.1,
    (List.range e.2.2).foldl (fun v i => v + look (litGra e.1 e.2.1) (e.1 * k + w) i) 0 = (0 : ℚ) := by
  decide +kernel

/-- Without reaction term the form does not see constants, for every element. -/
theorem lagrange_const {M R : Nat} {I J : Nat → Nat → Nat → ℝ} (h : P.Lagrange M R I J) (hr : NoReaction P.op) (x : ℝ) (v : Nat → ℝ) :
    P.bilin (fun _ => x) v = 0 := by
  refine sum_eq_zero fun c hc => mul_eq_zero_of_right _ (sum_eq_zero fun k hk => mul_eq_zero_of_right _ (form_const _ _ _ hr _ _ _ _ fun z _ => ?_))
  have hk := mem_range.1 hk
  have h1 := (rule_node (K := ℝ) h.supported h.rule).1
  have key : ∀ w < M, ∑ i : Fin P.nb, refGrad ℝ M R P.nb i (Quadrature.node ℝ P.t k) w = 0 := by
    intro w hw
    rw [sum_congr rfl fun i _ => refGrad_node h.supported h.rule k hk w hw i, ← Rat.cast_sum,
      ← sum_range (n := P.nb) fun i => look (litGra M R) (M * k + w) i, ← foldl_sum]
    exact_mod_cast gra_sum (M, R, P.nb) h.supported k (by rw [← h1]; exact hk) w hw
  rw [feGrad, ← mul_sum, sum_range, sum_congr rfl fun i _ => h.grad c (mem_range.1 hc) i _ z, sum_comm]
  refine mul_eq_zero_of_right _ (sum_eq_zero fun w hw => ?_)
  rw [← sum_mul, key w (mem_range.1 hw), zero_mul]

variable {d N n nNodes : Nat} {cells : Nat → Nat → Nat} {X : Nat → Fin N → ℝ}

theorem p1_value (hd : Dims d N) (h : GoodMesh (d + 1) n nNodes cells X) {u : Nat → ℝ} {F : (Fin N → ℝ) → ℝ} (hF : IsP1 (d + 1) n nNodes cells X u F)
    {c : Nat} (hc : c < n) {p : Fin N → ℝ} (hp : p ∈ region (d + 1) cells X c) : valIn d 1 (d + 1) cells cells X u c p = F p := by
  obtain ⟨q, h1, h2⟩ := hF.1 c hc
  rw [val_poly (shape1 (dims_mem hd)) h.proper u hc q h1 (fun i => ?_) hp, h2 p hp]
  rw [nodeIn1 (dims_mem hd), ← h2 _ (subset_convexHull ℝ _ ⟨i, i.2, rfl⟩), hF.2 _ (h.nodes c hc i i.2)]

theorem mesh_fit (hd : Dims d N) {op : Op ℝ} (hs : FlagRight N op) (hns : NoScalar op) (bNodes : Nat → Bool) (h : GoodMesh (d + 1) n nNodes cells X)
    (hell : ∀ r, Elliptic N op r) {ids : List Int} {locs : Nat → Fin N → ℝ} (hL : Located (d + 1) n cells X ids locs) :
    ∃ P I J l, problem1 d op cells n nNodes X bNodes = .ok P ∧ P.m = nNodes ∧ P.op = op ∧ P.Lagrange d 1 I J ∧
      (∀ data : Dense ℝ, n * Quadrature.size P.t ≤ data.rows → 0 < data.cols → FitData P data ids (psiAt d 1 (d + 1) cells X locs) l) ∧
      (∀ u F, IsP1 (d + 1) n nNodes cells X u F → ∀ i < ids.length,
        ∑ q ∈ range nNodes, entry l i q * u q = if ids[i]? = some (-1) then 0 else F (locs i)) ∧
      ∀ u, ∃ F, ContinuousOn F (domain (d + 1) n cells X) ∧ IsP1 (d + 1) n nNodes cells X u F := by
  obtain ⟨P, I, J, e, hLa, e1, e2, e3, e4, e5, e6, e7, hpos, hcon⟩ := C131_first_order hd op bNodes h
  obtain ⟨i0, id0, hi0, hn0⟩ := hL.one
  have hid : ∀ id ∈ ids, id = -1 ∨ (0 ≤ id ∧ id.toNat < n) := by
    intro id hm
    obtain ⟨i, hi⟩ := List.mem_iff_getElem?.1 hm
    rcases hL.cell i id hi with h | ⟨c, hc, h, _⟩
    · exact .inl h
    · exact .inr (by omega)
  have hinj : ∀ c < n, ∀ a < d + 1, ∀ b < d + 1, cells c a = cells c b → a = b :=
    fun c hc a ha b hb e => Fin.mk.inj (proper_inj h.proper hc (v := ⟨a, ha⟩) (w := ⟨b, hb⟩) e)
  obtain ⟨l, el, hl⟩ := row_val d 1 (d + 1) n nNodes cells cells X ids locs (by rintro rfl; simp at hi0) hid hinj h.nodes
  have hval : ∀ u F, IsP1 (d + 1) n nNodes cells X u F → ∀ i < ids.length,
      ∑ q ∈ range nNodes, entry l i q * u q = if ids[i]? = some (-1) then 0 else F (locs i) := by
    intro u F hF i hi
    split_ifs with hm
    · exact (hl u).1 i hm
    · rcases hL.cell i _ (List.getElem?_eq_getElem hi) with h1 | ⟨c, hc, h1, h2⟩
      · exact absurd (by rw [List.getElem?_eq_getElem hi, h1]) hm
      · rw [(hl u).2 i c (by rw [List.getElem?_eq_getElem hi, h1]), p1_value hd h hF hc h2]
  refine ⟨P, I, J, l, e, e5, e1, hLa, fun data hr hc => ?_, hval, fun u => ?_⟩
  · refine ⟨⟨fun c hc i hi => by rw [e7, e5]; exact h.nodes c (by omega) i (by omega), by rw [e1, e2]; exact hs, by rw [e1]; exact hns⟩,
      C103_coercive P (C103_elements P hLa (by simp) (fun c _ k _ => by rw [e1, e2]; exact hell _) (by rwa [e3]) hcon),
      C104_mass_definite P hLa (by simp) (by rwa [e3]) fun p hp => ?_, by rwa [e3], hc, ?_, ⟨i0, ?_, ?_⟩⟩
    · obtain ⟨c, hc, v, hv, e8⟩ := h.used p (by omega)
      exact ⟨c, by omega, v, by omega, by rw [e7, e8]⟩
    · rw [e3, e4, show P.dofs = cells from funext fun c => funext fun v => e7 c v, el]
    · exact (List.getElem?_eq_some_iff.1 hi0).1
    · have h1 := hval (fun _ => 1) (fun _ => 1) ⟨fun c _ => ⟨1, by simp, fun p _ => by simp⟩, fun _ _ => rfl⟩ i0 (List.getElem?_eq_some_iff.1 hi0).1
      rw [if_neg (by rw [hi0]; simpa using hn0)] at h1
      rw [e5, ← h1]
      simp only [mul_one]
  · obtain ⟨F, f1, f2, f3, _⟩ := C123_first_order (dims_mem hd) n nNodes cells X h.proper h.conforming h.nodes u
    refine ⟨F, f1, f2, fun p hp => ?_⟩
    obtain ⟨c, hc, v, hv, rfl⟩ := h.used p hp
    obtain ⟨x, _, rfl, hx⟩ := f3 c hc v hv
    exact hx

theorem misfit_split {l : List (Trip ℝ)} {ids : List Int} {locs : Nat → Fin N → ℝ} {u : Nat → ℝ} {F : (Fin N → ℝ) → ℝ} (y : Nat → ℝ)
    (h : ∀ i < ids.length, ∑ q ∈ range nNodes, entry l i q * u q = if ids[i]? = some (-1) then 0 else F (locs i)) :
    ∑ i ∈ range ids.length, (y i - ∑ q ∈ range nNodes, entry l i q * u q) ^ 2 =
      misfitAt ids locs y F + ∑ i ∈ range ids.length with ids[i]? = some (-1), y i ^ 2 := by
  rw [misfitAt, add_comm, ← sum_filter_add_sum_filter_not (range ids.length) fun i => ids[i]? = some (-1)]
  congr 1
  · refine sum_congr rfl fun i hi => ?_
    obtain ⟨h1, h2⟩ := mem_filter.1 hi
    rw [h i (mem_range.1 h1), if_pos h2, sub_zero]
  · refine sum_congr rfl fun i hi => ?_
    obtain ⟨h1, h2⟩ := mem_filter.1 hi
    rw [h i (mem_range.1 h1), if_neg h2]

section
variable (hd : Dims d N) {op : Op ℝ} (hs : FlagRight N op) (hns : NoScalar op) (bNodes : Nat → Bool) (h : GoodMesh (d + 1) n nNodes cells X)
    (hell : ∀ r, Elliptic N op r) {ids : List Int} {locs : Nat → Fin N → ℝ} (hL : Located (d + 1) n cells X ids locs)
    {lu : Solver ℝ} (hlu : ExactLU (nNodes + nNodes) lu) (hlc : CompleteLU (nNodes + nNodes) lu)
include hd hs hns h hell hL hlu hlc

/-- **C162** on connected meshes of intervals, triangles, tetrahedra, surfaces and networks of segments, first order elements: the fitted
function is continuous, linear on each cell, and of all such functions it alone has the least criterion. -/
theorem C162_mesh_partial :
    ∃ P, problem1 d op cells n nNodes X bNodes = .ok P ∧ ∀ data : Dense ℝ, n * Quadrature.size P.t ≤ data.rows → 0 < data.cols → ∀ junk lam, 0 < lam →
      ∀ y : Nat → ℝ, ∃ f g F, spatialFit lu P data junk ids (psiAt d 1 (d + 1) cells X locs) lam y = .ok (some (f, g)) ∧
        ContinuousOn F (domain (d + 1) n cells X) ∧ IsP1 (d + 1) n nNodes cells X f F ∧ P.Gap data f g ∧
        ∀ f' g' F', IsP1 (d + 1) n nNodes cells X f' F' → P.Gap data f' g' →
          misfitAt ids locs y F + lam * P.l2 g g ≤ misfitAt ids locs y F' + lam * P.l2 g' g' ∧
          ((∃ p < nNodes, f' p ≠ f p) → misfitAt ids locs y F + lam * P.l2 g g < misfitAt ids locs y F' + lam * P.l2 g' g') := by
  obtain ⟨P, I, J, l, e, em, _, _, hD, hV, hC⟩ := mesh_fit hd hs hns bNodes h hell hL
  subst em
  refine ⟨P, e, fun data hr hc junk lam hl y => ?_⟩
  obtain ⟨f, g, e1, hg, _, hmin⟩ := C162_fit_partial (hD data hr hc) hlu hlc junk lam hl y
  obtain ⟨F, f1, f2⟩ := hC f
  refine ⟨f, g, F, e1, f1, f2, hg, fun f' g' F' hF' hg' => ?_⟩
  have := hmin f' g' hg'
  rw [misfit_split y (hV f F f2), misfit_split y (hV f' F' hF')] at this
  exact ⟨by linarith [this.1], fun hne => by linarith [this.2 hne]⟩

/-- **C162** on meshes: without reaction term and forcing, constant data are fitted by the constant. -/
theorem C162_mesh_constants_partial (hr : NoReaction op) :
    ∃ P, problem1 d op cells n nNodes X bNodes = .ok P ∧ ∀ data : Dense ℝ, n * Quadrature.size P.t ≤ data.rows → 0 < data.cols →
      (∀ r, data.at' r 0 = 0) → ∀ junk lam, 0 < lam → ∀ (y : Nat → ℝ) (α : ℝ), (∀ i < ids.length, ids[i]? ≠ some (-1) → y i = α) →
        ∃ f g, spatialFit lu P data junk ids (psiAt d 1 (d + 1) cells X locs) lam y = .ok (some (f, g)) ∧ ∀ p < nNodes, f p = α := by
  obtain ⟨P, I, J, l, e, em, eo, hLa, hD, hV, hC⟩ := mesh_fit hd hs hns bNodes h hell hL
  subst em
  refine ⟨P, e, fun data hrw hc h0 junk lam hl y α hy => ?_⟩
  have hF : IsP1 (d + 1) n P.m cells X (fun _ => α) fun _ => α := ⟨fun c _ => ⟨MvPolynomial.C α, by simp, fun p _ => by simp⟩, fun _ _ => rfl⟩
  obtain ⟨f, g, e1, hg, _, hmin⟩ := C162_fit_partial (hD data hrw hc) hlu hlc junk lam hl y
  refine ⟨f, g, e1, fun p hp => ?_⟩
  have hz : P.Gap data (fun _ => α) fun _ => 0 := fun v => by
    rw [lagrange_const hLa (by rw [eo]; exact hr)]
    simp [Prob.load, Prob.l2, feValue, h0]
  obtain ⟨F, f1, f2⟩ := hC f
  by_contra hne
  have := (hmin _ _ hz).2 ⟨p, hp, Ne.symm hne⟩
  rw [misfit_split y (hV f F f2), misfit_split y (hV _ _ hF)] at this
  have z1 : misfitAt ids locs y (fun _ => α) = 0 := sum_eq_zero fun i hi => by
    obtain ⟨h1, h2⟩ := mem_filter.1 hi
    rw [hy i (mem_range.1 h1) h2, sub_self, zero_pow two_ne_zero]
  have z2 : P.l2 (fun _ => 0) (fun _ => 0) = 0 := by simp [Prob.l2, feValue]
  have n1 : 0 ≤ misfitAt ids locs y F := sum_nonneg fun _ _ => sq_nonneg _
  have n2 := mul_nonneg hl.le ((hD data hrw hc).mass g).1
  rw [z1, z2] at this
  linarith

/-- **C162** on meshes: without reaction term, the differences between data and fitted values at the locations in the mesh have sum
zero. -/
theorem C162_mesh_residuals_partial (hr : NoReaction op) :
    ∃ P, problem1 d op cells n nNodes X bNodes = .ok P ∧ ∀ data : Dense ℝ, n * Quadrature.size P.t ≤ data.rows → 0 < data.cols → ∀ junk lam, 0 < lam →
      ∀ y : Nat → ℝ, ∃ f g F, spatialFit lu P data junk ids (psiAt d 1 (d + 1) cells X locs) lam y = .ok (some (f, g)) ∧
        IsP1 (d + 1) n nNodes cells X f F ∧ ∑ i ∈ range ids.length with ids[i]? ≠ some (-1), (y i - F (locs i)) = 0 := by
  obtain ⟨P, I, J, l, e, em, eo, hLa, hD, hV, hC⟩ := mesh_fit hd hs hns bNodes h hell hL
  subst em
  refine ⟨P, e, fun data hrw hc junk lam hl y => ?_⟩
  obtain ⟨f, g, e1, hz⟩ := C162_residuals_partial (hD data hrw hc) hlu hlc junk (fun v => lagrange_const hLa (by rw [eo]; exact hr) 1 v) lam hl y
  obtain ⟨F, f1, f2⟩ := hC f
  refine ⟨f, g, F, e1, f2, Eq.trans ?_ hz⟩
  have hone : IsP1 (d + 1) n P.m cells X (fun _ => 1) fun _ => 1 := ⟨fun c _ => ⟨1, by simp, fun p _ => by simp⟩, fun _ _ => rfl⟩
  rw [sum_filter]
  refine sum_congr rfl fun i hi => ?_
  have h1 := hV _ _ hone i (mem_range.1 hi)
  simp only [mul_one] at h1
  rw [h1, hV f F f2 i (mem_range.1 hi)]
  by_cases hm : ids[i]? = some (-1) <;> simp [hm]

end

/-! ### The hypotheses are met -/

/-- The rod from 0 to `n`, locations 1/2 and 1/3 in the first cell and one outside of the rod. -/
theorem demo_located (n : Nat) (hn : 0 < n) : Located 2 n lineCells lineX [0, -1, 0] fun i _ => if i = 0 then 1 / 2 else if i = 1 then -5 else 1 / 3 where
  cell := fun i id hi => by
    match i with
    | 0 => exact .inr ⟨0, hn, by simpa using hi.symm, by rw [line_region]; norm_num⟩
    | 1 => exact .inl (by simpa using hi.symm)
    | 2 => exact .inr ⟨0, hn, by simpa using hi.symm, by rw [line_region]; norm_num⟩
    | i + 3 => simp at hi
  one := ⟨0, 0, rfl, by norm_num⟩

example (n : Nat) (hn : 0 < n) (lam : ℝ) (hl : 0 < lam) (y : Nat → ℝ) : ∃ (lu : Solver ℝ) (P : Prob ℝ) (f g : Nat → ℝ) (F : (Fin 1 → ℝ) → ℝ),
    problem1 1 (.neg .lap) lineCells n (n + 1) lineX (fun p => p == 0 || p == n) = .ok P ∧
    spatialFit lu P ⟨n * Quadrature.size P.t, 1, fun r _ => r⟩ (fun _ => 0) [0, -1, 0] (psiAt 1 1 2 lineCells lineX fun i _ => if i = 0 then 1 / 2 else
      if i = 1 then -5 else 1 / 3) lam y = .ok (some (f, g)) ∧ IsP1 2 n (n + 1) lineCells lineX f F ∧
    y 0 - F (fun _ => 1 / 2) + (y 2 - F (fun _ => 1 / 3)) = 0 := by
  obtain ⟨lu, h1, h2⟩ := exists_exactLU (K := ℝ) (n + 1 + (n + 1))
  obtain ⟨P, e, h⟩ := C162_mesh_residuals_partial (d := 1) (by unfold Dims; decide) (op := .neg .lap) (fun _ => trivial) trivial (fun p => p == 0 || p == n)
    (line_good n hn) (fun r => C103_laplacian 1 r) (demo_located n hn) h1 h2 trivial
  obtain ⟨f, g, F, e1, hF, hz⟩ := h ⟨n * Quadrature.size P.t, 1, fun r _ => r⟩ le_rfl (by norm_num) (fun _ => 0) lam hl y
  refine ⟨lu, P, f, g, F, e, e1, hF, ?_⟩
  rw [sum_filter] at hz
  simpa [sum_range_succ] using hz

end Fdapde.PDE
