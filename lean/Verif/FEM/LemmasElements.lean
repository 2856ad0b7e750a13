import Verif.FEM.ElementsCert
/- Values and gradients of the basis functions at the nodes of the quadrature rules. -/
namespace Fdapde.FEM
open Fdapde.Quadrature Fdapde.Combinatorics

/-- The supported elements. -/
def elements : List (Nat × Nat × Nat) := [(1, 1, 2), (1, 2, 3), (2, 1, 3), (2, 2, 6), (2, 3, 10), (3, 1, 4), (3, 2, 10)]

/-- Nodes of the standard rule. -/
def ruleNodes (M R : Nat) : List (List ℚ) := ((standardRule M R).map Table.nodes).getD []

theorem gra_ok : ∀ e ∈ elements, ∀ k < ruleSize e.1 e.2.1, ∀ w < e.1, ∀ i < e.2.2,
    polyDeriv (fun m => look (refInv e.1 e.2.1) m i) (look (ruleNodes e.1 e.2.1) k) (refTable e.1 e.2.1) (e.1 - 1) e.2.2 w =
      look (litGra e.1 e.2.1) (e.1 * k + w) i := by
  decide +kernel

theorem val_ok : ∀ e ∈ elements, ∀ k < ruleSize e.1 e.2.1, ∀ i < e.2.2,
    monomialSum (fun m => look (refInv e.1 e.2.1) m i) (look (ruleNodes e.1 e.2.1) k) (refTable e.1 e.2.1) (e.1 - 1) (e.2.2 - 1) =
      look (litVal e.1 e.2.1) k i := by
  decide +kernel

theorem rig_ok : ∀ e ∈ elements, ∀ i < e.2.2, ∀ j < e.2.2,
    (List.range (ruleSize e.1 e.2.1)).foldl (fun v k => v + (List.range e.1).foldl (fun v w => v +
      look (litRig e.1 e.2.1) i (e.1 * k + w) * look (litGra e.1 e.2.1) (e.1 * k + w) j) 0) 0 =
      (if i = j then (1 : ℚ) else 0) - if j = 0 then 1 else 0 := by
  decide +kernel

theorem mas_ok : ∀ e ∈ [(1, 1, 2), (1, 2, 3), (2, 1, 3), (2, 2, 6), (2, 3, 10), (3, 1, 4)], ∀ i < e.2.2, ∀ j < e.2.2,
    (List.range (ruleSize e.1 e.2.1)).foldl (fun v k => v + look (litMas e.1 e.2.1) i k * look (litVal e.1 e.2.1) k j) 0 =
      if i = j then (1 : ℚ) else 0 := by
  decide +kernel

theorem bar_ok : ∀ w < 3, ∀ i < 10, look gra32 w i = (List.range 4).foldl (fun v k => v + look bar32 0 k * look gra32 (3 * (k + 1) + w) i) 0 := by
  decide +kernel

theorem rule_ok : ∀ e ∈ elements, ∃ t, standardRule e.1 e.2.1 = some t ∧ size t = ruleSize e.1 e.2.1 := by
  decide +kernel

theorem weights_ok : ∀ e ∈ [(1, 1, 2), (1, 2, 3), (2, 1, 3), (2, 2, 6), (2, 3, 10), (3, 1, 4)], ∀ t, standardRule e.1 e.2.1 = some t →
    ∀ k < size t, 0 < t.weights.getD k 0 := by
  intro e he t ht
  simp only [List.mem_cons, List.not_mem_nil, or_false] at he
  rcases he with rfl | rfl | rfl | rfl | rfl | rfl <;> (simp only [standardRule, ruleSize, table, Option.some.injEq] at ht; subst ht; decide +kernel)

section
variable {K : Type} [Field K] [CharZero K]

theorem foldl_sum {A : Type} [AddCommMonoid A] (f : Nat → A) : ∀ n, (List.range n).foldl (fun v k => v + f k) 0 = ∑ k ∈ Finset.range n, f k
  | 0 => rfl
  | n + 1 => by rw [List.range_succ, List.foldl_append, foldl_sum f n, Finset.sum_range_succ]; rfl

/-- The coefficients of the basis are those of the table of inverses. -/
theorem lagCoeff_eq {M R n : Nat} (h : Supported M R n) (i : Fin n) (m : Nat) (hm : m < n) :
    lagCoeff n (M - 1) (refTable M R) (refNodesK K M R) i m = ((look (refInv M R) m i : ℚ) : K) := by
  rw [lagCoeff, dif_pos hm, Matrix.inv_eq_right_inv (vander_inv (K := K) h), Matrix.mulVec_single_one]
  rfl

theorem polyDeriv_cast (n M w : Nat) (tab : Nat → Nat → Nat) (c : Nat → K) (c0 p0 : Nat → ℚ) (hc : ∀ m < n, c m = (c0 m : K)) :
    polyDeriv c (fun z => (p0 z : K)) tab M n w = ((polyDeriv c0 p0 tab M n w : ℚ) : K) := by
  rw [polyDeriv_eq, polyDeriv_eq]
  push_cast
  exact Finset.sum_congr rfl fun m hm => by rw [hc m (Finset.mem_range.1 hm)]

theorem monomialSum_cast (n M : Nat) (tab : Nat → Nat → Nat) (c : Nat → K) (c0 p0 : Nat → ℚ) (hc : ∀ m < n + 1, c m = (c0 m : K)) :
    monomialSum c (fun z => (p0 z : K)) tab M n = ((monomialSum c0 p0 tab M n : ℚ) : K) := by
  rw [C54_value, C54_value]
  push_cast
  exact Finset.sum_congr rfl fun m hm => by rw [hc m (Finset.mem_range.1 hm)]

theorem rule_node {M R n : Nat} (h : Supported M R n) {t : Table} (ht : standardRule M R = some t) :
    size t = ruleSize M R ∧ ∀ k, node K t k = fun z => ((look (ruleNodes M R) k z : ℚ) : K) := by
  obtain ⟨t', h1, h2⟩ := rule_ok _ h
  rw [ht] at h1
  cases h1
  refine ⟨h2, fun k => ?_⟩
  funext z
  simp only [node, look, ruleNodes, ht, Option.map_some, Option.getD_some]

/-- Derivatives of the basis functions at the nodes of the rule. -/
theorem refGrad_node {M R n : Nat} (h : Supported M R n) {t : Table} (ht : standardRule M R = some t) (k : Nat) (hk : k < size t) (w : Nat)
    (hw : w < M) (i : Fin n) : refGrad K M R n i (node K t k) w = ((look (litGra M R) (M * k + w) i : ℚ) : K) := by
  obtain ⟨h1, h2⟩ := rule_node (K := K) h ht
  rw [refGrad, h2, polyDeriv_cast n (M - 1) w (refTable M R) _ (fun m => look (refInv M R) m i) _ (fun m hm => lagCoeff_eq h i m hm),
    gra_ok _ h k (by rw [← h1]; exact hk) w hw i i.2]

/-- Values of the basis functions at the nodes of the rule. -/
theorem refBasis_node {M R n : Nat} (h : Supported M R n) {t : Table} (ht : standardRule M R = some t) (k : Nat) (hk : k < size t)
    (i : Fin n) : refBasis K M R n i (node K t k) = ((look (litVal M R) k i : ℚ) : K) := by
  obtain ⟨h1, h2⟩ := rule_node (K := K) h ht
  have hn : n - 1 + 1 = n := by have := i.2; omega
  rw [refBasis, lagEval, h2, monomialSum_cast (n - 1) (M - 1) (refTable M R) _ (fun m => look (refInv M R) m i) _
    (fun m hm => lagCoeff_eq h i m (by omega)), val_ok _ h k (by rw [← h1]; exact hk) i i.2]

/-- A function whose derivatives vanish at the nodes has equal nodal values. -/
theorem rigid_nodes {M R n : Nat} (h : Supported M R n) {t : Table} (ht : standardRule M R = some t) (u : Nat → K)
    (hu : ∀ k < size t, ∀ w < M, ∑ i : Fin n, u i * refGrad K M R n i (node K t k) w = 0) : ∀ i < n, u i = u 0 := by
  intro i hi
  obtain ⟨h1, _⟩ := rule_node (K := K) h ht
  have key : ∀ j < n, ∑ k ∈ Finset.range (size t), ∑ w ∈ Finset.range M,
      ((look (litRig M R) i (M * k + w) : ℚ) : K) * ((look (litGra M R) (M * k + w) j : ℚ) : K) =
        (if i = j then 1 else 0) - if j = 0 then 1 else 0 := by
    intro j hj
    have := rig_ok _ h i hi j hj
    simp only [foldl_sum] at this
    have := congrArg (fun q : ℚ => (q : K)) this
    rw [h1]
    push_cast at this
    refine this.trans ?_
    split_ifs <;> simp
  have e : ∑ j ∈ Finset.range n, u j * ((if i = j then 1 else 0) - if j = 0 then 1 else 0) = u i - u 0 := by
    simp only [mul_sub, mul_ite, mul_one, mul_zero, Finset.sum_sub_distrib]
    rw [Finset.sum_ite_eq, Finset.sum_ite_eq', if_pos (Finset.mem_range.2 hi), if_pos (Finset.mem_range.2 (by omega))]
  have e2 : ∑ j ∈ Finset.range n, u j * ((if i = j then 1 else 0) - if j = 0 then 1 else 0) = (0 : K) := by
    rw [Finset.sum_congr rfl fun j hj => by rw [← key j (Finset.mem_range.1 hj)]]
    simp only [Finset.mul_sum]
    rw [Finset.sum_comm]
    refine Finset.sum_eq_zero fun k hk => ?_
    rw [Finset.sum_comm]
    refine Finset.sum_eq_zero fun w hw => ?_
    have := hu k (Finset.mem_range.1 hk) w (Finset.mem_range.1 hw)
    simp only [refGrad_node h ht k (Finset.mem_range.1 hk) w (Finset.mem_range.1 hw)] at this
    rw [Finset.sum_range, ← mul_zero ((look (litRig M R) i (M * k + w) : ℚ) : K), ← this, Finset.mul_sum]
    exact Finset.sum_congr rfl fun j _ => by ring
  rw [e] at e2
  exact sub_eq_zero.1 e2

theorem supported_ne {M R n : Nat} (h : Supported M R n) (h3 : (M, R) ≠ (3, 2)) :
    (M, R, n) ∈ [(1, 1, 2), (1, 2, 3), (2, 1, 3), (2, 2, 6), (2, 3, 10), (3, 1, 4)] := by
  unfold Supported at h
  simp only [List.mem_cons, List.not_mem_nil, or_false] at h ⊢
  rcases h with h | h | h | h | h | h | h
  · exact Or.inl h
  · exact Or.inr (Or.inl h)
  · exact Or.inr (Or.inr (Or.inl h))
  · exact Or.inr (Or.inr (Or.inr (Or.inl h)))
  · exact Or.inr (Or.inr (Or.inr (Or.inr (Or.inl h))))
  · exact Or.inr (Or.inr (Or.inr (Or.inr (Or.inr h))))
  · cases h; exact absurd rfl h3

/-- A function that vanishes at the nodes of the rule is zero (not for quadratic elements in space). -/
theorem values_nodes {M R n : Nat} (h : Supported M R n) (h3 : (M, R) ≠ (3, 2)) {t : Table} (ht : standardRule M R = some t) (u : Nat → K)
    (hu : ∀ k < size t, ∑ i : Fin n, u i * refBasis K M R n i (node K t k) = 0) : ∀ i < n, u i = 0 := by
  intro i hi
  obtain ⟨h1, _⟩ := rule_node (K := K) h ht
  have h' := supported_ne h h3
  have key : ∀ j < n, ∑ k ∈ Finset.range (size t), ((look (litMas M R) i k : ℚ) : K) * ((look (litVal M R) k j : ℚ) : K) =
        if i = j then 1 else 0 := by
    intro j hj
    have := mas_ok _ h' i hi j hj
    simp only [foldl_sum] at this
    have := congrArg (fun q : ℚ => (q : K)) this
    rw [h1]
    push_cast at this
    refine this.trans ?_
    split_ifs <;> simp
  have e : ∑ j ∈ Finset.range n, u j * (if i = j then 1 else 0) = u i := by
    simp only [mul_ite, mul_one, mul_zero]
    rw [Finset.sum_ite_eq, if_pos (Finset.mem_range.2 hi)]
  rw [← e, Finset.sum_congr rfl fun j hj => by rw [← key j (Finset.mem_range.1 hj)]]
  simp only [Finset.mul_sum]
  rw [Finset.sum_comm]
  refine Finset.sum_eq_zero fun k hk => ?_
  have := hu k (Finset.mem_range.1 hk)
  simp only [refBasis_node h ht k (Finset.mem_range.1 hk)] at this
  rw [Finset.sum_range, ← mul_zero ((look (litMas M R) i k : ℚ) : K), ← this, Finset.mul_sum]
  exact Finset.sum_congr rfl fun j _ => by ring

/-- The gradient at the first node of the rule for quadratic tetrahedra is an average of those at the others. -/
theorem bar_nodes (i : Fin 10) (w : Nat) (hw : w < 3) : refGrad K 3 2 10 i (node K rule3_5 0) w =
    ∑ k ∈ Finset.range 4, ((look bar32 0 k : ℚ) : K) * refGrad K 3 2 10 i (node K rule3_5 (k + 1)) w := by
  have hs : Supported 3 2 10 := by unfold Supported; decide
  rw [refGrad_node hs rfl 0 (by decide) w hw]
  have := congrArg (fun q : ℚ => (q : K)) (bar_ok w hw i i.2)
  rw [foldl_sum] at this
  push_cast at this
  simp only [Nat.mul_zero, Nat.zero_add]
  refine this.trans (Finset.sum_congr rfl fun k hk => ?_)
  rw [refGrad_node hs rfl (k + 1) (by have := Finset.mem_range.1 hk; show k + 1 < 5; omega) w hw]
  rfl

end
end Fdapde.FEM
