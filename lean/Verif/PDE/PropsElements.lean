import Verif.PDE.PropsWellPosed
/- C103, C104: the elements of the library with their standard quadrature rules. -/
set_option linter.unusedSectionVars false
namespace Fdapde.PDE
open Fdapde.Quadrature
variable {K : Type} [Field K] [LinearOrder K] [IsStrictOrderedRing K]

/-- A gradient that vanishes on the cell vanishes on the reference element. -/
theorem ref_zero {M R : Nat} {I J : Nat → Nat → Nat → K} (P : Prob K) (h : P.Lagrange M R I J) (c : Nat) (hc : c < P.n) (u : Nat → K) (x : Nat → K)
    (hu : ∀ z < P.N, feGrad P.nb (P.dofs c) u (fun i => P.grad c i x) z = 0) :
    ∀ w < M, ∑ i : Fin P.nb, u (P.dofs c i) * FEM.refGrad K M R P.nb i x w = 0 := by
  intro w' hw'
  have h1 : ∀ z < P.N, ∑ w ∈ Finset.range M, (∑ i : Fin P.nb, u (P.dofs c i) * FEM.refGrad K M R P.nb i x w) * I c w z = 0 := by
    intro z hz
    rw [← hu z hz, feGrad, Finset.sum_range (n := P.nb)]
    simp only [h.grad c hc, Finset.mul_sum, Finset.sum_mul]
    rw [Finset.sum_comm]
    exact Finset.sum_congr rfl fun i _ => Finset.sum_congr rfl fun w _ => by ring
  have e : ∑ z ∈ Finset.range P.N, (∑ w ∈ Finset.range M, (∑ i : Fin P.nb, u (P.dofs c i) * FEM.refGrad K M R P.nb i x w) * I c w z) * J c z w' =
      ∑ i : Fin P.nb, u (P.dofs c i) * FEM.refGrad K M R P.nb i x w' := by
    simp only [Finset.sum_mul _ _ (J c _ _)]
    rw [Finset.sum_comm]
    have : ∀ w ∈ Finset.range M, ∑ z ∈ Finset.range P.N, (∑ i : Fin P.nb, u (P.dofs c i) * FEM.refGrad K M R P.nb i x w) * I c w z * J c z w' =
        if w = w' then ∑ i : Fin P.nb, u (P.dofs c i) * FEM.refGrad K M R P.nb i x w else 0 := by
      intro w hw
      simp only [mul_assoc]
      rw [← Finset.mul_sum, h.inv c hc w (Finset.mem_range.1 hw) w' hw', mul_ite, mul_one, mul_zero]
    rw [Finset.sum_congr rfl this, Finset.sum_ite_eq' (Finset.range M) w', if_pos (Finset.mem_range.2 hw')]
  rw [← e]
  exact Finset.sum_eq_zero fun z hz => by rw [h1 z (Finset.mem_range.1 hz), zero_mul]

/-- C103: for every element of the library with its standard quadrature rule, on a non-degenerate cell, a function whose gradient
vanishes at the quadrature nodes is constant on the cell. -/
theorem C103_rigid {M R : Nat} {I J : Nat → Nat → Nat → K} (P : Prob K) (h : P.Lagrange M R I J) (c : Nat) (hc : c < P.n) (u : Nat → K)
    (hu : ∀ k < size P.t, ∀ z < P.N, feGrad P.nb (P.dofs c) u (fun i => P.grad c i (node K P.t k)) z = 0) :
    ∀ i < P.nb, ∀ j < P.nb, u (P.dofs c i) = u (P.dofs c j) := by
  have := FEM.rigid_nodes h.supported h.rule (fun i => u (P.dofs c i)) fun k hk => ref_zero P h c hc u _ (hu k hk)
  exact fun i hi j hj => (this i hi).trans (this j hj).symm

/-- C103: for every element of the library but the quadratic tetrahedra, an elliptic operator on a connected mesh of
non-degenerate cells makes an elliptic problem. -/
theorem C103_elements {M R : Nat} {I J : Nat → Nat → Nat → K} (P : Prob K) (h : P.Lagrange M R I J) (h3 : (M, R) ≠ (3, 2))
    (hop : ∀ c < P.n, ∀ k < size P.t, Elliptic P.N P.op (size P.t * c + k)) (hm : ∀ c < P.n, 0 < P.measure c)
    (hcon : ∀ p < P.m, ∀ q < P.m, Relation.ReflTransGen P.Linked p q) : P.Ell where
  op := hop
  measure := hm
  weight := fun k hk => by
    rw [weight]
    exact_mod_cast FEM.weights_ok _ (FEM.supported_ne h.supported h3) P.t h.rule k hk
  rigid := C103_rigid P h
  connected := hcon

/-- The form of a tensor. -/
def tensor (N : Nat) (D : Nat → Nat → K) (g h : Nat → K) : K := dot N (fun z => dot N (D z) g) h

theorem tensor_eq (N : Nat) (D : Nat → Nat → K) (g h : Nat → K) :
    tensor N D g h = ∑ z ∈ Finset.range N, ∑ y ∈ Finset.range N, D z y * g y * h z := by
  simp only [tensor, dot, Finset.sum_mul]

theorem tensor_congr (N : Nat) (D : Nat → Nat → K) {g g' : Nat → K} (h : ∀ z < N, g z = g' z) : tensor N D g g = tensor N D g' g' := by
  rw [tensor_eq, tensor_eq]
  exact Finset.sum_congr rfl fun z hz => Finset.sum_congr rfl fun y hy => by rw [h z (Finset.mem_range.1 hz), h y (Finset.mem_range.1 hy)]

/-- Jensen's inequality for a non-negative form. -/
theorem tensor_jensen (N n : Nat) (D : Nat → Nat → K) (hD : ∀ x, 0 ≤ tensor N D x x) (a : Nat → K) (ha : ∀ k < n, 0 ≤ a k)
    (hs : ∑ k ∈ Finset.range n, a k = 1) (g : Nat → Nat → K) :
    tensor N D (fun z => ∑ k ∈ Finset.range n, a k * g k z) (fun z => ∑ k ∈ Finset.range n, a k * g k z) ≤
      ∑ k ∈ Finset.range n, a k * tensor N D (g k) (g k) := by
  set m : Nat → K := fun z => ∑ k ∈ Finset.range n, a k * g k z with hm
  have h0 : 0 ≤ ∑ k ∈ Finset.range n, a k * tensor N D (fun z => g k z - m z) (fun z => g k z - m z) :=
    Finset.sum_nonneg fun k hk => mul_nonneg (ha k (Finset.mem_range.1 hk)) (hD _)
  have h1 : ∑ k ∈ Finset.range n, a k * tensor N D (fun z => g k z - m z) (fun z => g k z - m z) =
      ∑ k ∈ Finset.range n, a k * tensor N D (g k) (g k) - tensor N D m m := by
    have e : ∀ k, a k * tensor N D (fun z => g k z - m z) (fun z => g k z - m z) = a k * tensor N D (g k) (g k) + a k * tensor N D m m
        - ∑ z ∈ Finset.range N, ∑ y ∈ Finset.range N, D z y * (a k * g k y) * m z
        - ∑ z ∈ Finset.range N, ∑ y ∈ Finset.range N, D z y * m y * (a k * g k z) := by
      intro k
      simp only [tensor_eq, Finset.mul_sum, ← Finset.sum_add_distrib, ← Finset.sum_sub_distrib]
      exact Finset.sum_congr rfl fun z _ => Finset.sum_congr rfl fun y _ => by ring
    simp only [e, Finset.sum_sub_distrib, Finset.sum_add_distrib]
    have e1 : ∑ k ∈ Finset.range n, ∑ z ∈ Finset.range N, ∑ y ∈ Finset.range N, D z y * (a k * g k y) * m z = tensor N D m m := by
      rw [Finset.sum_comm, tensor_eq]
      refine Finset.sum_congr rfl fun z _ => ?_
      rw [Finset.sum_comm]
      refine Finset.sum_congr rfl fun y _ => ?_
      rw [← Finset.sum_mul, ← Finset.mul_sum]
    have e2 : ∑ k ∈ Finset.range n, ∑ z ∈ Finset.range N, ∑ y ∈ Finset.range N, D z y * m y * (a k * g k z) = tensor N D m m := by
      rw [Finset.sum_comm, tensor_eq]
      refine Finset.sum_congr rfl fun z _ => ?_
      rw [Finset.sum_comm]
      refine Finset.sum_congr rfl fun y _ => ?_
      rw [← Finset.mul_sum]
    rw [e1, e2, ← Finset.sum_mul, hs]
    ring
  linarith

/-- C103: quadratic tetrahedra, whose standard rule has a negative weight: the form is coercive when the operator is, on each cell,
`-div(D grad)` with a constant positive definite tensor. -/
theorem C103_quadratic_tetrahedra {I J : Nat → Nat → Nat → K} (P : Prob K) (h : P.Lagrange 3 2 I J)
    (hop : ∀ c < P.n, ∃ D : Nat → Nat → K, (∀ x, 0 ≤ tensor P.N D x x ∧ (tensor P.N D x x = 0 → ∀ z < P.N, x z = 0)) ∧
      ∀ k < 5, ∀ u v g g', form P.N P.op (5 * c + k) u v g g' = tensor P.N D g g')
    (hm : ∀ c < P.n, 0 < P.measure c) (hcon : ∀ p < P.m, ∀ q < P.m, Relation.ReflTransGen P.Linked p q) : P.Coercive := by
  have ht : P.t = rule3_5 := (Option.some.inj h.rule).symm
  have hnb : P.nb = 10 := by
    have := h.supported
    unfold FEM.Supported at this
    simp only [List.mem_cons, List.not_mem_nil, or_false, Prod.mk.injEq] at this
    omega
  have hsz : size P.t = 5 := by rw [ht]; rfl
  have cell : ∀ c < P.n, ∀ v : Nat → K, 0 ≤ (∑ k ∈ Finset.range (size P.t), weight K P.t k *
      form P.N P.op (size P.t * c + k)
        (feValue P.nb (P.dofs c) v fun i => P.psi i (node K P.t k)) (feValue P.nb (P.dofs c) v fun i => P.psi i (node K P.t k))
        (feGrad P.nb (P.dofs c) v fun i => P.grad c i (node K P.t k)) (feGrad P.nb (P.dofs c) v fun i => P.grad c i (node K P.t k))) ∧
      ((∑ k ∈ Finset.range (size P.t), weight K P.t k *
      form P.N P.op (size P.t * c + k)
        (feValue P.nb (P.dofs c) v fun i => P.psi i (node K P.t k)) (feValue P.nb (P.dofs c) v fun i => P.psi i (node K P.t k))
        (feGrad P.nb (P.dofs c) v fun i => P.grad c i (node K P.t k)) (feGrad P.nb (P.dofs c) v fun i => P.grad c i (node K P.t k))) = 0 →
        ∀ i < P.nb, ∀ j < P.nb, v (P.dofs c i) = v (P.dofs c j)) := by
    intro c hc v
    obtain ⟨D, hD, hf⟩ := hop c hc
    set g : Nat → Nat → K := fun k => feGrad P.nb (P.dofs c) v fun i => P.grad c i (node K P.t k) with hg
    have e0 : (∑ k ∈ Finset.range (size P.t), weight K P.t k *
      form P.N P.op (size P.t * c + k)
        (feValue P.nb (P.dofs c) v fun i => P.psi i (node K P.t k)) (feValue P.nb (P.dofs c) v fun i => P.psi i (node K P.t k))
        (g k) (g k)) = ∑ k ∈ Finset.range 5, weight K rule3_5 k * tensor P.N D (g k) (g k) := by
      rw [hsz]
      exact Finset.sum_congr rfl fun k hk => by rw [hf k (Finset.mem_range.1 hk), ht]
    set a : Nat → K := fun k => ((FEM.look FEM.bar32 0 k : ℚ) : K) with ha
    have hbar : ∀ z < P.N, g 0 z = ∑ k ∈ Finset.range 4, a k * g (k + 1) z := by
      intro z _
      simp only [hg, feGrad, Finset.sum_range (n := P.nb), h.grad c hc, ht, Finset.mul_sum]
      have hb : ∀ (i : Fin P.nb) (w : Nat), w < 3 → FEM.refGrad K 3 2 P.nb i (node K rule3_5 0) w =
          ∑ k ∈ Finset.range 4, a k * FEM.refGrad K 3 2 P.nb i (node K rule3_5 (k + 1)) w := by
        rw [hnb]
        exact fun i w hw => FEM.bar_nodes i w hw
      conv_rhs => rw [Finset.sum_comm]
      refine Finset.sum_congr rfl fun i _ => ?_
      conv_rhs => rw [Finset.sum_comm]
      refine Finset.sum_congr rfl fun w hw => ?_
      rw [hb i w (Finset.mem_range.1 hw), Finset.sum_mul, Finset.mul_sum]
      exact Finset.sum_congr rfl fun k _ => by ring
    have ha0 : ∀ k < 4, 0 ≤ a k ∧ a k < 1 / 2 := by
      intro k hk
      have : 0 ≤ FEM.look FEM.bar32 0 k ∧ FEM.look FEM.bar32 0 k < 1 / 2 := by
        have : ∀ k < 4, 0 ≤ FEM.look FEM.bar32 0 k ∧ FEM.look FEM.bar32 0 k < 1 / 2 := by decide +kernel
        exact this k hk
      constructor
      · simp only [ha]; exact_mod_cast this.1
      · have h2 : ((FEM.look FEM.bar32 0 k : ℚ) : K) < ((1 / 2 : ℚ) : K) := by exact_mod_cast this.2
        simpa [ha] using h2
    have ha1 : ∑ k ∈ Finset.range 4, a k = 1 := by
      have : ∑ k ∈ Finset.range 4, FEM.look FEM.bar32 0 k = 1 := by decide +kernel
      have := congrArg (fun q : ℚ => (q : K)) this
      push_cast at this
      exact this
    have hj := tensor_jensen P.N 4 D (fun x => (hD x).1) a (fun k hk => (ha0 k hk).1) ha1 (fun k => g (k + 1))
    rw [← tensor_congr P.N D hbar] at hj
    have e1 : ∑ k ∈ Finset.range 5, weight K rule3_5 k * tensor P.N D (g k) (g k) =
        -(4 / 5) * tensor P.N D (g 0) (g 0) + ∑ k ∈ Finset.range 4, 9 / 20 * tensor P.N D (g (k + 1)) (g (k + 1)) := by
      rw [Finset.sum_range_succ', add_comm]
      have w0 : weight K rule3_5 0 = -(4 / 5) := by norm_num [weight, rule3_5]
      have w1 : ∀ k < 4, weight K rule3_5 (k + 1) = 9 / 20 := by
        intro k hk
        rcases (by omega : k = 0 ∨ k = 1 ∨ k = 2 ∨ k = 3) with rfl | rfl | rfl | rfl <;> norm_num [weight, rule3_5]
      rw [w0]
      congr 1
      exact Finset.sum_congr rfl fun k hk => by rw [w1 k (Finset.mem_range.1 hk)]
    have e2 : ∑ k ∈ Finset.range 4, (9 / 20 - 4 / 5 * a k) * tensor P.N D (g (k + 1)) (g (k + 1)) ≤
        ∑ k ∈ Finset.range 5, weight K rule3_5 k * tensor P.N D (g k) (g k) := by
      have : ∑ k ∈ Finset.range 4, (9 / 20 - 4 / 5 * a k) * tensor P.N D (g (k + 1)) (g (k + 1)) =
          ∑ k ∈ Finset.range 4, 9 / 20 * tensor P.N D (g (k + 1)) (g (k + 1)) -
            4 / 5 * ∑ k ∈ Finset.range 4, a k * tensor P.N D (g (k + 1)) (g (k + 1)) := by
        rw [Finset.mul_sum, ← Finset.sum_sub_distrib]
        exact Finset.sum_congr rfl fun k _ => by ring
      rw [e1, this]
      linarith
    have hpos : ∀ k ∈ Finset.range 4, 0 ≤ (9 / 20 - 4 / 5 * a k) * tensor P.N D (g (k + 1)) (g (k + 1)) := fun k hk =>
      mul_nonneg (by have := (ha0 k (Finset.mem_range.1 hk)).2; linarith) (hD _).1
    have e3 := Finset.sum_nonneg hpos
    rw [e0]
    refine ⟨by linarith, fun hz => ?_⟩
    have e4 : ∑ k ∈ Finset.range 4, (9 / 20 - 4 / 5 * a k) * tensor P.N D (g (k + 1)) (g (k + 1)) = 0 := by linarith
    have e5 : ∀ k < 4, ∀ z < P.N, g (k + 1) z = 0 := by
      intro k hk
      have := (Finset.sum_eq_zero_iff_of_nonneg hpos).1 e4 k (Finset.mem_range.2 hk)
      refine (hD _).2 ((mul_eq_zero.1 this).resolve_left ?_)
      have := (ha0 k hk).2
      have : 0 < 9 / 20 - 4 / 5 * a k := by linarith
      exact this.ne'
    have e6 : ∀ k < size P.t, ∀ z < P.N, g k z = 0 := by
      intro k hk z hz'
      rw [hsz] at hk
      rcases k with _ | k
      · rw [hbar z hz']
        exact Finset.sum_eq_zero fun k hk => by rw [e5 k (Finset.mem_range.1 hk) z hz', mul_zero]
      · exact e5 k (by omega) z hz'
    exact C103_rigid P h c hc v e6
  intro v
  have hnn : ∀ c ∈ Finset.range P.n, 0 ≤ P.measure c * _ := fun c hc =>
    mul_nonneg (hm c (Finset.mem_range.1 hc)).le (cell c (Finset.mem_range.1 hc) v).1
  refine ⟨Finset.sum_nonneg hnn, fun hz => ?_⟩
  have h1 := (Finset.sum_eq_zero_iff_of_nonneg hnn).1 hz
  have h2 : ∀ p q, P.Linked p q → v p = v q := by
    rintro p q ⟨c, hc, i, hi, j, hj, rfl, rfl⟩
    exact (cell c hc v).2 ((mul_eq_zero.1 (h1 c (Finset.mem_range.2 hc))).resolve_left (hm c hc).ne') i hi j hj
  have h3 : ∀ p q, Relation.ReflTransGen P.Linked p q → v p = v q := by
    intro p q hr
    induction hr with
    | refl => rfl
    | tail _ hbc ih => rw [ih, h2 _ _ hbc]
  exact fun p hp q hq => h3 p q (hcon p hp q hq)

/-- C104: for every element of the library but the quadratic tetrahedra, the mass matrix is positive definite: the hypothesis of
`C104_succeeds_partial`. -/
theorem C104_mass_definite {M R : Nat} {I J : Nat → Nat → Nat → K} (P : Prob K) (h : P.Lagrange M R I J) (h3 : (M, R) ≠ (3, 2))
    (hm : ∀ c < P.n, 0 < P.measure c) (hd : ∀ p < P.m, ∃ c < P.n, ∃ i < P.nb, P.dofs c i = p) (v : Nat → K) :
    0 ≤ P.l2 v v ∧ (P.l2 v v = 0 → ∀ p < P.m, v p = 0) := by
  have hw : ∀ k < size P.t, 0 < weight K P.t k := fun k hk => by
    rw [weight]
    exact_mod_cast FEM.weights_ok _ (FEM.supported_ne h.supported h3) P.t h.rule k hk
  refine ⟨l2_nonneg P hm hw v, fun hz p hp => ?_⟩
  obtain ⟨c, hc, i, hi, rfl⟩ := hd p hp
  have hn1 : ∀ c ∈ Finset.range P.n, ∀ k ∈ Finset.range (size P.t), 0 ≤ weight K P.t k * (feValue P.nb (P.dofs c) v (fun i => P.psi i (node K P.t k)) *
      feValue P.nb (P.dofs c) v fun i => P.psi i (node K P.t k)) := fun c _ k hk => mul_nonneg (hw k (Finset.mem_range.1 hk)).le (mul_self_nonneg _)
  have e1 := (Finset.sum_eq_zero_iff_of_nonneg fun c hc => mul_nonneg (hm c (Finset.mem_range.1 hc)).le (Finset.sum_nonneg (hn1 c hc))).1 hz c (Finset.mem_range.2 hc)
  have e2 := (mul_eq_zero.1 e1).resolve_left (hm c hc).ne'
  have e3 := (Finset.sum_eq_zero_iff_of_nonneg (hn1 c (Finset.mem_range.2 hc))).1 e2
  refine FEM.values_nodes h.supported h3 h.rule (fun i => v (P.dofs c i)) (fun k hk => ?_) i hi
  have e4 := mul_self_eq_zero.1 ((mul_eq_zero.1 (e3 k (Finset.mem_range.2 hk))).resolve_left (hw k hk).ne')
  rw [feValue, Finset.sum_range] at e4
  simpa only [h.psi] using e4

/-! ### The hypotheses are met -/

/-- One cell, the reference simplex, with the element of dimension `M` and order `R`. -/
noncomputable def oneCell (M R n : Nat) (t : Table) (op : Op ℚ) : Prob ℚ where
  t := t
  N := M
  op := op
  measure := fun _ => 1
  psi := fun i x => if h : i < n then FEM.refBasis ℚ M R n ⟨i, h⟩ x else 0
  grad := fun _ i x z => if h : i < n then ∑ w ∈ Finset.range M, FEM.refGrad ℚ M R n ⟨i, h⟩ x w * (if w = z then 1 else 0) else 0
  n := 1
  nb := n
  m := n
  dofs := fun _ i => i
  bd := fun p => p == 0

theorem oneCell_lagrange {M R n : Nat} {t : Table} (h : FEM.Supported M R n) (ht : FEM.standardRule M R = some t) (op : Op ℚ) :
    (oneCell M R n t op).Lagrange M R (fun _ w z => if w = z then 1 else 0) (fun _ w z => if w = z then 1 else 0) where
  supported := h
  rule := ht
  psi := fun i x => dif_pos (c := (i : Nat) < n) i.2
  grad := fun c _ i x z => dif_pos (c := (i : Nat) < n) i.2
  inv := fun c _ w hw w' hw' => by
    simp only [oneCell, ite_mul, one_mul, zero_mul]
    rw [Finset.sum_ite_eq, if_pos (Finset.mem_range.2 hw)]

theorem oneCell_connected {M R n : Nat} {t : Table} (op : Op ℚ) : ∀ p < (oneCell M R n t op).m, ∀ q < (oneCell M R n t op).m,
    Relation.ReflTransGen (oneCell M R n t op).Linked p q :=
  fun p hp q hq => .single ⟨0, Nat.one_pos, p, hp, q, hq, rfl, rfl⟩

/-- Cubic triangles and quadratic tetrahedra. -/
example : (oneCell 2 3 10 rule2_12 (.neg .lap)).Ell :=
  C103_elements _ (oneCell_lagrange (by unfold FEM.Supported; decide) rfl _) (by decide) (fun _ _ _ _ => C103_laplacian _ _)
    (fun _ _ => by norm_num [oneCell]) (oneCell_connected _)

example : (oneCell 3 2 10 rule3_5 (.neg .lap)).Coercive := by
  refine C103_quadratic_tetrahedra _ (oneCell_lagrange (by unfold FEM.Supported; decide) rfl _) (fun c _ => ⟨fun z y => if z = y then 1 else 0, ?_, ?_⟩)
    (fun _ _ => by norm_num [oneCell]) (oneCell_connected _)
  · intro x
    have : tensor 3 (fun z y => if z = y then (1 : ℚ) else 0) x x = dot 3 x x := by
      simp only [tensor, dot, Finset.sum_range_succ, Finset.sum_range_zero]; norm_num
    simp only [oneCell]
    rw [this]
    exact dot_self 3 x
  · intro k _ u v g g'
    simp only [oneCell, form, tensor, dot, Finset.sum_range_succ, Finset.sum_range_zero]; norm_num

end Fdapde.PDE
