import Verif.Quadrature.Model
import Verif.Quadrature.Lemmas
/- C59 and C86 : the quadrature tables and their choice. -/
namespace Fdapde.Quadrature
open scoped Nat

/-! ### Statement -/

/-- Value of the rule on a function on the reference simplex of dimension `M`. -/
noncomputable def applyRule (t : Table) (M : Nat) (f : (Fin M → ℝ) → ℝ) : ℝ := accum t (fun iq => f fun z => node ℝ t iq z)

/-- Mean value over the reference simplex of dimension 1, 2, 3 (whose volume is 1, 1/2, 1/6). -/
noncomputable def refMean : (M : Nat) → ((Fin M → ℝ) → ℝ) → ℝ
  | 1, f => refInt1 f
  | 2, f => 2 * refInt2 f
  | 3, f => 6 * refInt3 f
  | _, _ => 0

/-- The rule integrates polynomials of total degree at most `d` up to 1e-14 times the sum of their coefficients. -/
def ExactTo (t : Table) (M d : Nat) : Prop :=
  ∀ p : MvPolynomial (Fin M) ℝ, p.totalDegree ≤ d →
    |applyRule t M (fun x => MvPolynomial.eval x p) - refMean M (fun x => MvPolynomial.eval x p)| ≤ 1 / 10 ^ 14 * coeffSum p

/-! ### Proofs -/

/-- Rational counterpart of `accum`. -/
def accumQ (t : Table) (g : Nat → ℚ) : ℚ := (List.range t.nodes.length).foldl (fun v iq => v + g iq * t.weights.getD iq 0) 0

theorem foldl_add_sum {K : Type} [Field K] (h : Nat → K) : ∀ n, (List.range n).foldl (fun v i => v + h i) 0 = ∑ i ∈ Finset.range n, h i
  | 0 => rfl
  | n + 1 => by rw [List.range_succ, List.foldl_append, foldl_add_sum h n, Finset.sum_range_succ]; rfl

theorem accum_eq {K : Type} [Field K] (t : Table) (g : Nat → K) : accum t g = ∑ iq ∈ Finset.range (size t), g iq * weight K t iq :=
  foldl_add_sum (fun iq => g iq * weight K t iq) _

theorem accumQ_cast (t : Table) (g : Nat → ℚ) : ((accumQ t g : ℚ) : ℝ) = accum t (fun iq => ((g iq : ℚ) : ℝ)) := by
  rw [accum_eq, accumQ, foldl_add_sum (fun iq => g iq * t.weights.getD iq 0)]
  push_cast
  rfl

/-- Coordinate of a node in ℚ. -/
def nd (t : Table) (iq z : Nat) : ℚ := (t.nodes.getD iq []).getD z 0

theorem node_cast (t : Table) (iq z : Nat) : node ℝ t iq z = ((nd t iq z : ℚ) : ℝ) := rfl

theorem error_bound {M : Nat} (t : Table) (p : MvPolynomial (Fin M) ℝ) (mom : (Fin M →₀ ℕ) → ℝ)
    (I : ℝ) (hI : I = ∑ m ∈ p.support, p.coeff m * mom m) (ε : ℝ)
    (h : ∀ m ∈ p.support, |accum t (fun iq => ∏ z : Fin M, node ℝ t iq z ^ m z) - mom m| ≤ ε) :
    |applyRule t M (fun x => MvPolynomial.eval x p) - I| ≤ ε * coeffSum p := by
  have e : applyRule t M (fun x => MvPolynomial.eval x p) =
      ∑ m ∈ p.support, p.coeff m * accum t (fun iq => ∏ z : Fin M, node ℝ t iq z ^ m z) := by
    unfold applyRule
    simp only [accum_eq, MvPolynomial.eval_eq', Finset.sum_mul, Finset.mul_sum]
    rw [Finset.sum_comm]
    refine Finset.sum_congr rfl (fun m _ => Finset.sum_congr rfl (fun iq _ => by ring))
  rw [e, hI, ← Finset.sum_sub_distrib]
  refine (Finset.abs_sum_le_sum_abs _ _).trans ?_
  unfold coeffSum
  rw [Finset.mul_sum]
  refine Finset.sum_le_sum (fun m hm => ?_)
  rw [← mul_sub, abs_mul, mul_comm]
  exact mul_le_mul_of_nonneg_right (h m hm) (abs_nonneg _)

theorem cast_bound {a b : ℚ} {x y : ℝ} (hx : x = (a : ℝ)) (hy : y = (b : ℝ)) (h : |a - b| ≤ 1 / 10 ^ 14) : |x - y| ≤ 1 / 10 ^ 14 := by
  rw [hx, hy]
  have : ((|a - b| : ℚ) : ℝ) ≤ ((1 / 10 ^ 14 : ℚ) : ℝ) := by exact_mod_cast h
  push_cast at this
  exact this

/-- Exhaustive check over the monomials. -/
def check1 (t : Table) (d : Nat) : Bool :=
  decide (∀ a < d + 1, |accumQ t (fun iq => nd t iq 0 ^ a) - 1 / (a + 1)| ≤ 1 / 10 ^ 14)
def checkL (t : Table) (d : Nat) : Bool :=
  decide (∀ a < d + 1, |accumQ t (fun iq => nd t iq 0 ^ a) - (1 - (-1) ^ (a + 1)) / (a + 1)| ≤ 1 / 10 ^ 14)
def check2 (t : Table) (d : Nat) : Bool :=
  decide (∀ a < d + 1, ∀ b < d + 1, a + b ≤ d →
    |accumQ t (fun iq => nd t iq 0 ^ a * nd t iq 1 ^ b) - 2 * ((a ! * b ! : ℕ) / (a + b + 2)!)| ≤ 1 / 10 ^ 14)
def check3 (t : Table) (d : Nat) : Bool :=
  decide (∀ a < d + 1, ∀ b < d + 1, ∀ c < d + 1, a + b + c ≤ d →
    |accumQ t (fun iq => nd t iq 0 ^ a * nd t iq 1 ^ b * nd t iq 2 ^ c) - 6 * ((a ! * b ! * c ! : ℕ) / (a + b + c + 3)!)| ≤ 1 / 10 ^ 14)

theorem degree1 {p : MvPolynomial (Fin 1) ℝ} {m : Fin 1 →₀ ℕ} (hm : m ∈ p.support) : m 0 ≤ p.totalDegree := by
  have := MvPolynomial.le_totalDegree hm
  rwa [Finsupp.sum_fintype _ _ (by simp), Fin.sum_univ_one] at this

theorem degree2 {p : MvPolynomial (Fin 2) ℝ} {m : Fin 2 →₀ ℕ} (hm : m ∈ p.support) : m 0 + m 1 ≤ p.totalDegree := by
  have := MvPolynomial.le_totalDegree hm
  rwa [Finsupp.sum_fintype _ _ (by simp), Fin.sum_univ_two] at this

theorem degree3 {p : MvPolynomial (Fin 3) ℝ} {m : Fin 3 →₀ ℕ} (hm : m ∈ p.support) : m 0 + m 1 + m 2 ≤ p.totalDegree := by
  have := MvPolynomial.le_totalDegree hm
  rwa [Finsupp.sum_fintype _ _ (by simp), Fin.sum_univ_three] at this

theorem exact1 (t : Table) (d : Nat) (h : check1 t d = true) : ExactTo t 1 d := by
  intro p hp
  refine error_bound t p (fun m => 1 / (m 0 + 1)) _ (refInt1_poly p) _ (fun m hm => ?_)
  have h0 := of_decide_eq_true h (m 0) (by have := degree1 hm; omega)
  refine cast_bound ?_ ?_ h0
  · rw [accumQ_cast]; simp [node_cast]
  · push_cast; rfl

theorem exact2 (t : Table) (d : Nat) (h : check2 t d = true) : ExactTo t 2 d := by
  intro p hp
  refine error_bound t p (fun m => 2 * (((m 0)! * (m 1)! : ℝ) / (m 0 + m 1 + 2)!)) _ ?_ _ (fun m hm => ?_)
  · show 2 * refInt2 _ = _
    rw [refInt2_poly, Finset.mul_sum]
    exact Finset.sum_congr rfl (fun m _ => by ring)
  have hd := degree2 hm
  have h0 := of_decide_eq_true h (m 0) (by omega) (m 1) (by omega) (by omega)
  refine cast_bound ?_ ?_ h0
  · rw [accumQ_cast]; simp [node_cast, Fin.prod_univ_two]
  · push_cast; rfl

theorem exact3 (t : Table) (d : Nat) (h : check3 t d = true) : ExactTo t 3 d := by
  intro p hp
  refine error_bound t p (fun m => 6 * (((m 0)! * (m 1)! * (m 2)! : ℝ) / (m 0 + m 1 + m 2 + 3)!)) _ ?_ _ (fun m hm => ?_)
  · show 6 * refInt3 _ = _
    rw [refInt3_poly, Finset.mul_sum]
    exact Finset.sum_congr rfl (fun m _ => by ring)
  have hd := degree3 hm
  have h0 := of_decide_eq_true h (m 0) (by omega) (m 1) (by omega) (m 2) (by omega) (by omega)
  refine cast_bound ?_ ?_ h0
  · rw [accumQ_cast]; simp [node_cast, Fin.prod_univ_three]
  · push_cast; rfl

/-- **C59.**  Every table of dimension M integrates all polynomials up to its degree over the reference simplex: the
difference from the exact mean value is at most 1e-14 times the sum of the absolute values of the coefficients.  Entries:
(dimension, number of nodes, degree). -/
theorem C59_simplex : ∀ e ∈ [(1, 2, 3), (1, 3, 5), (2, 1, 1), (2, 3, 2), (2, 6, 4), (2, 7, 5), (2, 12, 6), (3, 1, 1), (3, 4, 2),
      (3, 5, 3), (3, 11, 4)],
    ∃ t, table e.1 e.2.1 = some t ∧ t.nodes.length = e.2.1 ∧ t.weights.length = e.2.1 ∧ ExactTo t e.1 e.2.2 := by
  intro e he
  simp only [List.mem_cons, List.not_mem_nil, or_false] at he
  rcases he with rfl | rfl | rfl | rfl | rfl | rfl | rfl | rfl | rfl | rfl | rfl
  · exact ⟨_, rfl, rfl, rfl, exact1 _ _ (by decide +kernel)⟩
  · exact ⟨_, rfl, rfl, rfl, exact1 _ _ (by decide +kernel)⟩
  · exact ⟨_, rfl, rfl, rfl, exact2 _ _ (by decide +kernel)⟩
  · exact ⟨_, rfl, rfl, rfl, exact2 _ _ (by decide +kernel)⟩
  · exact ⟨_, rfl, rfl, rfl, exact2 _ _ (by decide +kernel)⟩
  · exact ⟨_, rfl, rfl, rfl, exact2 _ _ (by decide +kernel)⟩
  · exact ⟨_, rfl, rfl, rfl, exact2 _ _ (by decide +kernel)⟩
  · exact ⟨_, rfl, rfl, rfl, exact3 _ _ (by decide +kernel)⟩
  · exact ⟨_, rfl, rfl, rfl, exact3 _ _ (by decide +kernel)⟩
  · exact ⟨_, rfl, rfl, rfl, exact3 _ _ (by decide +kernel)⟩
  · exact ⟨_, rfl, rfl, rfl, exact3 _ _ (by decide +kernel)⟩

/-- **C59**, Gauss-Legendre tables on [-1, 1]: degrees 5 and 9. -/
theorem C59_legendre : ∀ e ∈ [(legendre1_3, 5), (legendre1_5, 9)], ∀ p : MvPolynomial (Fin 1) ℝ, p.totalDegree ≤ e.2 →
    |applyRule e.1 1 (fun x => MvPolynomial.eval x p) - ∫ x in (-1 : ℝ)..1, MvPolynomial.eval ![x] p| ≤ 1 / 10 ^ 14 * coeffSum p := by
  intro e he p hp
  have hc : checkL e.1 e.2 = true := by
    simp only [List.mem_cons, List.not_mem_nil, or_false] at he
    rcases he with rfl | rfl <;> decide +kernel
  refine error_bound e.1 p (fun m => (1 - (-1) ^ (m 0 + 1)) / (m 0 + 1)) _ (legInt_poly p) _ (fun m hm => ?_)
  have h0 := of_decide_eq_true hc (m 0) (by have := degree1 hm; omega)
  refine cast_bound ?_ ?_ h0
  · rw [accumQ_cast]; simp [node_cast]
  · push_cast; rfl

/-- **C59**, weights: they sum to one (two for the Gauss-Legendre tables) within 1e-14. -/
theorem C59_weights : (∀ e ∈ [(1, 2), (1, 3), (2, 1), (2, 3), (2, 6), (2, 7), (2, 12), (3, 1), (3, 4), (3, 5), (3, 11)],
      ∃ t, table e.1 e.2 = some t ∧ |t.weights.sum - 1| ≤ 1 / 10 ^ 14) ∧
    |legendre1_3.weights.sum - 2| ≤ 1 / 10 ^ 14 ∧ |legendre1_5.weights.sum - 2| ≤ 1 / 10 ^ 14 := by
  refine ⟨?_, by decide +kernel, by decide +kernel⟩
  intro e he
  simp only [List.mem_cons, List.not_mem_nil, or_false] at he
  rcases he with rfl | rfl | rfl | rfl | rfl | rfl | rfl | rfl | rfl | rfl | rfl <;> exact ⟨_, rfl, by decide +kernel⟩

/-- x y x meets the hypothesis of the theorem for the 6 point rule. -/
example : (MvPolynomial.X 0 * MvPolynomial.X 1 * MvPolynomial.X 0 : MvPolynomial (Fin 2) ℝ).totalDegree ≤ 4 := by
  refine (MvPolynomial.totalDegree_mul _ _).trans ?_
  have h1 := MvPolynomial.totalDegree_mul (MvPolynomial.X 0 : MvPolynomial (Fin 2) ℝ) (MvPolynomial.X 1)
  have h2 : ∀ i, (MvPolynomial.X i : MvPolynomial (Fin 2) ℝ).totalDegree = 1 := fun i => MvPolynomial.totalDegree_X i
  rw [h2, h2] at h1
  rw [h2]
  omega

/-! ### Choice of the rule -/

/-- **C86**, documented degree: the rule chosen for elements of order R is exact on polynomials of degree R + 1. -/
theorem C86_documented_degree : ∀ e ∈ [(1, 1), (1, 2), (2, 1), (2, 2), (2, 3), (3, 1), (3, 2)],
    ∃ t, table e.1 (ruleSize e.1 e.2) = some t ∧ ExactTo t e.1 (e.2 + 1) := by
  have mono : ∀ {t M d d'}, d ≤ d' → ExactTo t M d' → ExactTo t M d := fun h h' p hp => h' p (hp.trans h)
  intro e he
  simp only [List.mem_cons, List.not_mem_nil, or_false] at he
  rcases he with rfl | rfl | rfl | rfl | rfl | rfl | rfl
  · exact ⟨_, rfl, mono (d' := 3) (by omega) (exact1 _ _ (by decide +kernel))⟩
  · exact ⟨_, rfl, mono (d' := 5) (by omega) (exact1 _ _ (by decide +kernel))⟩
  · exact ⟨_, rfl, exact2 _ _ (by decide +kernel)⟩
  · exact ⟨_, rfl, mono (d' := 4) (by omega) (exact2 _ _ (by decide +kernel))⟩
  · exact ⟨_, rfl, mono (d' := 6) (by omega) (exact2 _ _ (by decide +kernel))⟩
  · exact ⟨_, rfl, exact3 _ _ (by decide +kernel)⟩
  · exact ⟨_, rfl, exact3 _ _ (by decide +kernel)⟩

/-- **C86** (partial: all supported elements but second order tetrahedra).  The chosen rule integrates exactly products of
two polynomials of degree R, which is what the mass matrix needs. -/
theorem C86_products_partial : ∀ e ∈ [(1, 1), (1, 2), (2, 1), (2, 2), (2, 3), (3, 1)],
    ∃ t, table e.1 (ruleSize e.1 e.2) = some t ∧ ∀ p q : MvPolynomial (Fin e.1) ℝ, p.totalDegree ≤ e.2 → q.totalDegree ≤ e.2 →
      |applyRule t e.1 (fun x => MvPolynomial.eval x p * MvPolynomial.eval x q) -
        refMean e.1 (fun x => MvPolynomial.eval x p * MvPolynomial.eval x q)| ≤ 1 / 10 ^ 14 * coeffSum (p * q) := by
  have key : ∀ {t : Table} {M R d : Nat}, ExactTo t M d → 2 * R ≤ d → ∀ p q : MvPolynomial (Fin M) ℝ, p.totalDegree ≤ R → q.totalDegree ≤ R →
      |applyRule t M (fun x => MvPolynomial.eval x p * MvPolynomial.eval x q) -
        refMean M (fun x => MvPolynomial.eval x p * MvPolynomial.eval x q)| ≤ 1 / 10 ^ 14 * coeffSum (p * q) := by
    intro t M R d h hd p q hp hq
    have := h (p * q) ((MvPolynomial.totalDegree_mul _ _).trans (by omega))
    simpa using this
  intro e he
  simp only [List.mem_cons, List.not_mem_nil, or_false] at he
  rcases he with rfl | rfl | rfl | rfl | rfl | rfl
  · exact ⟨_, rfl, key (d := 3) (exact1 _ _ (by decide +kernel)) (by decide)⟩
  · exact ⟨_, rfl, key (d := 5) (exact1 _ _ (by decide +kernel)) (by decide)⟩
  · exact ⟨_, rfl, key (d := 2) (exact2 _ _ (by decide +kernel)) (by decide)⟩
  · exact ⟨_, rfl, key (d := 4) (exact2 _ _ (by decide +kernel)) (by decide)⟩
  · exact ⟨_, rfl, key (d := 6) (exact2 _ _ (by decide +kernel)) (by decide)⟩
  · exact ⟨_, rfl, key (d := 2) (exact3 _ _ (by decide +kernel)) (by decide)⟩

/-- For second order tetrahedra the chosen 5 point rule has degree 3 only: the mass of x² against itself is off by more than
2e-3 (the exact mean is 1/35). -/
theorem C86_bug_tetrahedra : ∃ t, table 3 (ruleSize 3 2) = some t ∧
    ∃ p : MvPolynomial (Fin 3) ℝ, p.totalDegree ≤ 2 ∧
      |applyRule t 3 (fun x => MvPolynomial.eval x p * MvPolynomial.eval x p) -
        refMean 3 (fun x => MvPolynomial.eval x p * MvPolynomial.eval x p)| > 2 / 1000 := by
  refine ⟨_, rfl, MvPolynomial.X 0 ^ 2, ?_, ?_⟩
  · rw [MvPolynomial.totalDegree_X_pow]
  · have e1 : (fun x : Fin 3 → ℝ => MvPolynomial.eval x (MvPolynomial.X 0 ^ 2) * MvPolynomial.eval x (MvPolynomial.X 0 ^ 2)) =
        fun x => MvPolynomial.eval x (MvPolynomial.monomial (Finsupp.single 0 4) 1) := by
      funext x
      simp [MvPolynomial.eval_monomial]
      ring
    rw [e1]
    have e2 : refMean 3 (fun x => MvPolynomial.eval x (MvPolynomial.monomial (Finsupp.single 0 4) 1)) = ((6 * ((4 ! : ℕ) / (7 ! : ℕ)) : ℚ) : ℝ) := by
      show 6 * refInt3 _ = _
      rw [refInt3_poly, MvPolynomial.support_monomial, if_neg one_ne_zero, Finset.sum_singleton]
      simp
    have e3 : applyRule rule3_5 3 (fun x => MvPolynomial.eval x (MvPolynomial.monomial (Finsupp.single 0 4) 1)) =
        ((accumQ rule3_5 (fun iq => nd rule3_5 iq 0 ^ 4) : ℚ) : ℝ) := by
      rw [accumQ_cast]
      unfold applyRule
      simp [MvPolynomial.eval_monomial, node_cast]
    rw [e2]
    erw [e3]
    have : |accumQ rule3_5 (fun iq => nd rule3_5 iq 0 ^ 4) - 6 * ((4 ! : ℕ) / (7 ! : ℕ))| > 2 / 1000 := by decide +kernel
    have h2 : ((2 / 1000 : ℚ) : ℝ) < _ := Rat.cast_lt.2 this
    rw [Rat.cast_abs, Rat.cast_sub] at h2
    refine lt_of_eq_of_lt ?_ h2
    norm_num

end Fdapde.Quadrature
