import Verif.PDE.FormSpec
import Verif.PDE.PropsOperators
import Verif.FEM.PropsLagrange
/- C91, C92 : the assembled matrices represent the bilinear forms; stiffness and mass matrices. -/
namespace Fdapde.PDE
open Fdapde.FEM Fdapde.Quadrature

section
variable {K : Type} [Field K]

theorem fullSum_quad (n nb size : Nat) (dofs : Nat → Nat → Nat) (loc : Nat → Nat → Nat → K) (hd : ∀ c < n, ∀ i < nb, dofs c i < size)
    (u v : Nat → K) :
    ∑ p ∈ Finset.range size, ∑ q ∈ Finset.range size, v p * fullSum n nb dofs loc p q * u q =
      ∑ c ∈ Finset.range n, ∑ i ∈ Finset.range nb, ∑ j ∈ Finset.range nb, v (dofs c i) * loc c i j * u (dofs c j) := by
  unfold fullSum
  have h1 : ∀ p q, v p * (∑ c ∈ Finset.range n, ∑ i ∈ Finset.range nb, ∑ j ∈ Finset.range nb,
      if dofs c i = p ∧ dofs c j = q then loc c i j else 0) * u q =
      ∑ c ∈ Finset.range n, ∑ i ∈ Finset.range nb, ∑ j ∈ Finset.range nb,
        if dofs c i = p ∧ dofs c j = q then v p * loc c i j * u q else 0 := by
    intro p q
    simp only [Finset.mul_sum, Finset.sum_mul]
    refine Finset.sum_congr rfl fun c _ => Finset.sum_congr rfl fun i _ => Finset.sum_congr rfl fun j _ => ?_
    split <;> simp
  simp only [h1]
  have e1 : ∀ p, ∑ q ∈ Finset.range size, ∑ c ∈ Finset.range n, ∑ i ∈ Finset.range nb, ∑ j ∈ Finset.range nb,
      (if dofs c i = p ∧ dofs c j = q then v p * loc c i j * u q else 0) =
      ∑ c ∈ Finset.range n, ∑ i ∈ Finset.range nb, ∑ j ∈ Finset.range nb,
        if dofs c i = p then v p * loc c i j * u (dofs c j) else 0 := by
    intro p
    rw [Finset.sum_comm]
    refine Finset.sum_congr rfl fun c hc => ?_
    rw [Finset.sum_comm]
    refine Finset.sum_congr rfl fun i hi => ?_
    rw [Finset.sum_comm]
    refine Finset.sum_congr rfl fun j hj => ?_
    rw [Finset.sum_eq_single (dofs c j)]
    · by_cases h : dofs c i = p <;> simp [h]
    · intro q _ hq
      rw [if_neg]
      rintro ⟨_, h⟩
      exact hq h.symm
    · intro h
      exact absurd (Finset.mem_range.2 (hd c (Finset.mem_range.1 hc) j (Finset.mem_range.1 hj))) h
  simp only [e1]
  rw [Finset.sum_comm]
  refine Finset.sum_congr rfl fun c hc => ?_
  rw [Finset.sum_comm]
  refine Finset.sum_congr rfl fun i hi => ?_
  rw [Finset.sum_comm]
  refine Finset.sum_congr rfl fun j hj => ?_
  rw [Finset.sum_eq_single (dofs c i)]
  · simp
  · intro p _ hp
    rw [if_neg]
    exact fun h => hp h.symm
  · intro h
    exact absurd (Finset.mem_range.2 (hd c (Finset.mem_range.1 hc) i (Finset.mem_range.1 hi))) h

theorem weak_eq_form (N : Nat) (op : Op K) (r : Nat) (bi bj : K) (gi gj : Nat → K) : weak N op r bi bj gi gj = form N op r bj bi gj gi := by
  induction op with
  | dT => rfl
  | lap => simp only [weak, form, dot]; congr 1; exact Finset.sum_congr rfl fun z _ => mul_comm _ _
  | diff D => simp only [weak, form, dot]; congr 1; exact Finset.sum_congr rfl fun z _ => mul_comm _ _
  | adv b => simp only [weak, form, dot]; rw [mul_comm]; congr 1; exact Finset.sum_congr rfl fun z _ => mul_comm _ _
  | react c => simp only [weak, form]; ring
  | scalar x => rfl
  | add a b iha ihb => simp only [weak, form, iha, ihb]
  | sub a b iha ihb => simp only [weak, form, iha, ihb]
  | smul x a iha => simp only [weak, form, iha]
  | neg a iha => simp only [weak, form, iha]

theorem dot_add_left (N : Nat) (x : K) (a a' b : Nat → K) : dot N (fun z => a z + x * a' z) b = dot N a b + x * dot N a' b := by
  unfold dot
  rw [Finset.mul_sum, ← Finset.sum_add_distrib]
  exact Finset.sum_congr rfl fun z _ => by ring

theorem dot_add_right (N : Nat) (x : K) (a b b' : Nat → K) : dot N a (fun z => b z + x * b' z) = dot N a b + x * dot N a b' := by
  unfold dot
  rw [Finset.mul_sum, ← Finset.sum_add_distrib]
  exact Finset.sum_congr rfl fun z _ => by ring

theorem form_linear_left (N r : Nat) (x u u' v : K) (gu gu' gv : Nat → K) (op : Op K) (h : NoScalar op) :
    form N op r (u + x * u') v (fun z => gu z + x * gu' z) gv = form N op r u v gu gv + x * form N op r u' v gu' gv := by
  induction op with
  | dT => simp [form]
  | lap => simp only [form, dot_add_left]; ring
  | diff D => simp only [form, dot_add_right, dot_add_left]; ring
  | adv b => simp only [form, dot_add_right]; ring
  | react c => simp only [form]; ring
  | scalar x => exact absurd h id
  | add a b iha ihb => simp only [form, iha h.1, ihb h.2]; ring
  | sub a b iha ihb => simp only [form, iha h.1, ihb h.2]; ring
  | smul x a iha => simp only [form, iha h]; ring
  | neg a iha => simp only [form, iha h]; ring

theorem form_linear_right (N r : Nat) (x u v v' : K) (gu gv gv' : Nat → K) (op : Op K) (h : NoScalar op) :
    form N op r u (v + x * v') gu (fun z => gv z + x * gv' z) = form N op r u v gu gv + x * form N op r u v' gu gv' := by
  induction op with
  | dT => simp [form]
  | lap => simp only [form, dot_add_right]; ring
  | diff D => simp only [form, dot_add_right]; ring
  | adv b => simp only [form]; ring
  | react c => simp only [form]; ring
  | scalar x => exact absurd h id
  | add a b iha ihb => simp only [form, iha h.1, ihb h.2]; ring
  | sub a b iha ihb => simp only [form, iha h.1, ihb h.2]; ring
  | smul x a iha => simp only [form, iha h]; ring
  | neg a iha => simp only [form, iha h]; ring

theorem form_zero_left (N r : Nat) (v : K) (gv : Nat → K) (op : Op K) (h : NoScalar op) : form N op r 0 v (fun _ => 0) gv = 0 := by
  have := form_linear_left N r (-1) 0 0 v (fun _ => 0) (fun _ => 0) gv op h
  simpa using this

theorem form_zero_right (N r : Nat) (u : K) (gu : Nat → K) (op : Op K) (h : NoScalar op) : form N op r u 0 gu (fun _ => 0) = 0 := by
  have := form_linear_right N r (-1) u 0 0 gu (fun _ => 0) (fun _ => 0) op h
  simpa using this

theorem form_sum_left (N r nb : Nat) (x b : Nat → K) (g : Nat → Nat → K) (v : K) (gv : Nat → K) (op : Op K) (h : NoScalar op) :
    form N op r (∑ j ∈ Finset.range nb, x j * b j) v (fun z => ∑ j ∈ Finset.range nb, x j * g j z) gv =
      ∑ j ∈ Finset.range nb, x j * form N op r (b j) v (g j) gv := by
  induction nb with
  | zero => simpa using form_zero_left N r v gv op h
  | succ n ih => simp only [Finset.sum_range_succ, form_linear_left _ _ _ _ _ _ _ _ _ _ h, ih]

theorem form_sum_right (N r nb : Nat) (y b : Nat → K) (g : Nat → Nat → K) (u : K) (gu : Nat → K) (op : Op K) (h : NoScalar op) :
    form N op r u (∑ i ∈ Finset.range nb, y i * b i) gu (fun z => ∑ i ∈ Finset.range nb, y i * g i z) =
      ∑ i ∈ Finset.range nb, y i * form N op r u (b i) gu (g i) := by
  induction nb with
  | zero => simpa using form_zero_right N r u gu op h
  | succ n ih => simp only [Finset.sum_range_succ, form_linear_right _ _ _ _ _ _ _ _ _ _ h, ih]

/-- The weak form, evaluated on linear combinations of the local functions. -/
theorem weak_combination (N nb r : Nat) (x y : Nat → K) (b : Nat → K) (g : Nat → Nat → K) (op : Op K) (h : NoScalar op) :
    ∑ i ∈ Finset.range nb, ∑ j ∈ Finset.range nb, y i * weak N op r (b i) (b j) (g i) (g j) * x j =
      form N op r (∑ j ∈ Finset.range nb, x j * b j) (∑ i ∈ Finset.range nb, y i * b i)
        (fun z => ∑ j ∈ Finset.range nb, x j * g j z) (fun z => ∑ i ∈ Finset.range nb, y i * g i z) := by
  rw [form_sum_right _ _ _ _ _ _ _ _ _ h]
  refine Finset.sum_congr rfl fun i _ => ?_
  rw [form_sum_left _ _ _ _ _ _ _ _ _ h, Finset.mul_sum]
  refine Finset.sum_congr rfl fun j _ => ?_
  rw [weak_eq_form]
  ring

theorem form_const (N r : Nat) (op : Op K) (h : NoReaction op) (u v : K) (gu gv : Nat → K) (hg : ∀ z < N, gu z = 0) :
    form N op r u v gu gv = 0 := by
  have hd : ∀ b, dot N b gu = 0 := fun b => Finset.sum_eq_zero fun z hz => by rw [hg z (Finset.mem_range.1 hz), mul_zero]
  have hd' : ∀ b, dot N gu b = 0 := fun b => Finset.sum_eq_zero fun z hz => by rw [hg z (Finset.mem_range.1 hz), zero_mul]
  induction op with
  | dT => rfl
  | lap => simp [form, hd']
  | diff D => simp only [form, hd]; simp [dot]
  | adv b => simp [form, hd]
  | react c => exact absurd h id
  | scalar x => exact absurd h id
  | add a b iha ihb => simp [form, iha h.1, ihb h.2]
  | sub a b iha ihb => simp [form, iha h.1, ihb h.2]
  | smul x a iha => simp [form, iha h]
  | neg a iha => simp [form, iha h]

/-- **C91.** The matrix assembled from an operator represents its bilinear form on the finite element space: for all coefficient vectors `u`, `v`,
`vᵀ A u` is the sum over the cells of the quadrature of `a(u_h, v_h)`. -/
theorem C91_form (t : Table) (N : Nat) (op : Op K) (measure : Nat → K) (psi : Nat → (Nat → K) → K)
    (grad : Nat → Nat → (Nat → K) → Nat → K) (n nb m : Nat) (dofs : Nat → Nat → Nat) (hd : ∀ c < n, ∀ i < nb, dofs c i < m)
    (hs : FlagRight N op) (hn : NoScalar op) :
    ∃ A, discretizeOperator (isSymmetric op) n nb m dofs (locOf t N op measure psi grad) = .ok A ∧
      ∀ u v : Nat → K, ∑ p ∈ Finset.range m, ∑ q ∈ Finset.range m, v p * A p q * u q =
        ∑ c ∈ Finset.range n, measure c * ∑ k ∈ Finset.range (size t), weight K t k *
          form N op (size t * c + k)
            (feValue nb (dofs c) u fun i => psi i (node K t k)) (feValue nb (dofs c) v fun i => psi i (node K t k))
            (feGrad nb (dofs c) u fun i => grad c i (node K t k)) (feGrad nb (dofs c) v fun i => grad c i (node K t k)) := by
  obtain ⟨A, h1, h2, _⟩ := C60_operators_partial t N op measure psi grad n nb m dofs hd hs
  refine ⟨A, h1, fun u v => ?_⟩
  simp only [h2]
  rw [fullSum_quad n nb m dofs _ hd]
  refine Finset.sum_congr rfl fun c _ => ?_
  unfold locOf integrateWeak feValue feGrad
  simp only [accum_eq]
  have e : ∀ k, form N op (size t * c + k)
      (∑ i ∈ Finset.range nb, u (dofs c i) * psi i (node K t k)) (∑ i ∈ Finset.range nb, v (dofs c i) * psi i (node K t k))
      (fun z => ∑ i ∈ Finset.range nb, u (dofs c i) * grad c i (node K t k) z) (fun z => ∑ i ∈ Finset.range nb, v (dofs c i) * grad c i (node K t k) z) =
      ∑ i ∈ Finset.range nb, ∑ j ∈ Finset.range nb, v (dofs c i) * weak N op (size t * c + k) (psi i (node K t k)) (psi j (node K t k))
        (grad c i (node K t k)) (grad c j (node K t k)) * u (dofs c j) := by
    intro k
    rw [← weak_combination N nb (size t * c + k) (fun j => u (dofs c j)) (fun i => v (dofs c i)) (fun i => psi i (node K t k))
      (fun i => grad c i (node K t k)) op hn]
  have e3 : ∀ k, form N op (size t * c + k)
      (∑ i ∈ Finset.range nb, u (dofs c i) * psi i (node K t k)) (∑ i ∈ Finset.range nb, v (dofs c i) * psi i (node K t k))
      (feGrad nb (dofs c) u fun i => grad c i (node K t k)) (feGrad nb (dofs c) v fun i => grad c i (node K t k)) = _ := e
  unfold feGrad at e3
  simp only [e3, Finset.mul_sum, Finset.sum_mul]
  symm
  rw [Finset.sum_comm]
  refine Finset.sum_congr rfl fun i _ => ?_
  rw [Finset.sum_comm]
  refine Finset.sum_congr rfl fun j _ => Finset.sum_congr rfl fun k _ => ?_
  ring

/-- **C91.** If the gradients of the local functions add up to zero (the functions add up to one) the rows of the matrix of every combination of
laplacian, diffusion and transport terms add up to zero: constants are in its kernel. -/
theorem C91_constants (t : Table) (N : Nat) (op : Op K) (measure : Nat → K) (psi : Nat → (Nat → K) → K)
    (grad : Nat → Nat → (Nat → K) → Nat → K) (n nb m : Nat) (dofs : Nat → Nat → Nat) (hd : ∀ c < n, ∀ i < nb, dofs c i < m)
    (hs : FlagRight N op) (hn : NoScalar op) (hr : NoReaction op)
    (hg : ∀ c < n, ∀ k < size t, ∀ z < N, ∑ i ∈ Finset.range nb, grad c i (node K t k) z = 0) :
    ∃ A, discretizeOperator (isSymmetric op) n nb m dofs (locOf t N op measure psi grad) = .ok A ∧
      ∀ p < m, ∑ q ∈ Finset.range m, A p q = 0 := by
  obtain ⟨A, h1, h2⟩ := C91_form t N op measure psi grad n nb m dofs hd hs hn
  refine ⟨A, h1, fun p hp => ?_⟩
  have h3 := h2 (fun _ => 1) (fun r => if r = p then 1 else 0)
  rw [Finset.sum_eq_single p] at h3
  · simp only [if_true, one_mul, mul_one] at h3
    rw [h3]
    refine Finset.sum_eq_zero fun c hc => ?_
    rw [Finset.sum_eq_zero, mul_zero]
    intro k hk
    rw [form_const N _ op hr _ _ _ _ ?_, mul_zero]
    intro z hz
    have := hg c (Finset.mem_range.1 hc) k (Finset.mem_range.1 hk) z hz
    simpa [feGrad] using this
  · intro r _ hr
    simp [hr]
  · intro h
    exact absurd (Finset.mem_range.2 hp) h

end

section
variable {K : Type} [Field K] [LinearOrder K] [IsStrictOrderedRing K]

/-- **C91.** The matrix `A` of the negated laplacian: `uᵀ A u` is the Dirichlet energy of `u_h` (the quadrature of `|∇u_h|²`).  It is not negative
if the weights of the rule and the measures of the cells are not. -/
theorem C91_energy (t : Table) (N : Nat) (measure : Nat → K) (psi : Nat → (Nat → K) → K)
    (grad : Nat → Nat → (Nat → K) → Nat → K) (n nb m : Nat) (dofs : Nat → Nat → Nat) (hd : ∀ c < n, ∀ i < nb, dofs c i < m) :
    ∃ A, discretizeOperator (isSymmetric (.neg .lap : Op K)) n nb m dofs (locOf t N (.neg .lap) measure psi grad) = .ok A ∧
      (∀ p q, A p q = A q p) ∧
      (∀ u : Nat → K, ∑ p ∈ Finset.range m, ∑ q ∈ Finset.range m, u p * A p q * u q =
        ∑ c ∈ Finset.range n, measure c * ∑ k ∈ Finset.range (size t), weight K t k *
          ∑ z ∈ Finset.range N, feGrad nb (dofs c) u (fun i => grad c i (node K t k)) z ^ 2) ∧
      ((∀ c < n, 0 ≤ measure c) → (∀ k < size t, 0 ≤ weight K t k) →
        ∀ u : Nat → K, 0 ≤ ∑ p ∈ Finset.range m, ∑ q ∈ Finset.range m, u p * A p q * u q) := by
  obtain ⟨A, h1, h2⟩ := C91_form t N (.neg .lap) measure psi grad n nb m dofs hd (fun _ => trivial) trivial
  obtain ⟨A', h1', _, hsym⟩ := C60_operators_partial t N (.neg .lap) measure psi grad n nb m dofs hd (fun _ => trivial)
  rw [h1] at h1'
  cases h1'
  have h3 : ∀ u : Nat → K, ∑ p ∈ Finset.range m, ∑ q ∈ Finset.range m, u p * A p q * u q =
        ∑ c ∈ Finset.range n, measure c * ∑ k ∈ Finset.range (size t), weight K t k *
          ∑ z ∈ Finset.range N, feGrad nb (dofs c) u (fun i => grad c i (node K t k)) z ^ 2 := by
    intro u
    rw [h2 u u]
    simp only [form, dot, neg_neg, sq]
  refine ⟨A, h1, hsym rfl, h3, fun hm hw u => ?_⟩
  rw [h3]
  refine Finset.sum_nonneg fun c hc => mul_nonneg (hm c (Finset.mem_range.1 hc)) (Finset.sum_nonneg fun k hk => ?_)
  exact mul_nonneg (hw k (Finset.mem_range.1 hk)) (Finset.sum_nonneg fun z _ => sq_nonneg _)

/-- **C92.** The mass matrix `M`: `uᵀ M u` is the quadrature of `u_h²`, and not negative if the weights and the measures are not. -/
theorem C92_mass (t : Table) (N : Nat) (measure : Nat → K) (psi : Nat → (Nat → K) → K)
    (grad : Nat → Nat → (Nat → K) → Nat → K) (n nb m : Nat) (dofs : Nat → Nat → Nat) (hd : ∀ c < n, ∀ i < nb, dofs c i < m) :
    ∃ A, discretizeOperator (isSymmetric (.react (fun _ => 1) : Op K)) n nb m dofs (locOf t N (.react fun _ => 1) measure psi grad) = .ok A ∧
      (∀ p q, A p q = A q p) ∧
      (∀ u : Nat → K, ∑ p ∈ Finset.range m, ∑ q ∈ Finset.range m, u p * A p q * u q =
        ∑ c ∈ Finset.range n, measure c * ∑ k ∈ Finset.range (size t), weight K t k *
          feValue nb (dofs c) u (fun i => psi i (node K t k)) ^ 2) ∧
      ((∀ c < n, 0 ≤ measure c) → (∀ k < size t, 0 ≤ weight K t k) →
        ∀ u : Nat → K, 0 ≤ ∑ p ∈ Finset.range m, ∑ q ∈ Finset.range m, u p * A p q * u q) ∧
      ((∀ k < size t, ∑ i ∈ Finset.range nb, psi i (node K t k) = 1) →
        ∑ p ∈ Finset.range m, ∑ q ∈ Finset.range m, A p q =
          (∑ c ∈ Finset.range n, measure c) * ∑ k ∈ Finset.range (size t), weight K t k) := by
  obtain ⟨A, h1, h2⟩ := C91_form t N (.react fun _ => 1) measure psi grad n nb m dofs hd (fun _ => trivial) trivial
  obtain ⟨A', h1', _, hsym⟩ := C60_operators_partial t N (.react fun _ => 1) measure psi grad n nb m dofs hd (fun _ => trivial)
  rw [h1] at h1'
  cases h1'
  have h3 : ∀ u : Nat → K, ∑ p ∈ Finset.range m, ∑ q ∈ Finset.range m, u p * A p q * u q =
        ∑ c ∈ Finset.range n, measure c * ∑ k ∈ Finset.range (size t), weight K t k *
          feValue nb (dofs c) u (fun i => psi i (node K t k)) ^ 2 := by
    intro u
    rw [h2 u u]
    simp only [form, one_mul, sq]
  refine ⟨A, h1, hsym rfl, h3, fun hm hw u => ?_, fun hp => ?_⟩
  · rw [h3]
    refine Finset.sum_nonneg fun c hc => mul_nonneg (hm c (Finset.mem_range.1 hc)) (Finset.sum_nonneg fun k hk => ?_)
    exact mul_nonneg (hw k (Finset.mem_range.1 hk)) (sq_nonneg _)
  · have h4 := h3 fun _ => 1
    simp only [one_mul, mul_one] at h4
    rw [h4, Finset.sum_mul]
    refine Finset.sum_congr rfl fun c _ => ?_
    congr 1
    refine Finset.sum_congr rfl fun k hk => ?_
    have := hp k (Finset.mem_range.1 hk)
    simp [feValue, this]

end

/-- The weights of all the rules selected for finite elements are positive, except those for second order tetrahedra. -/
theorem C92_positive_weights : ∀ e ∈ [(1, 1), (1, 2), (2, 1), (2, 2), (2, 3), (3, 1)], ∃ t, table e.1 (ruleSize e.1 e.2) = some t ∧
    ∀ k < size t, (0 : ℝ) ≤ weight ℝ t k := by
  have key : ∀ t : Table, (t.weights.all fun w => decide (0 ≤ w)) = true → ∀ k < size t, (0 : ℝ) ≤ weight ℝ t k := by
    intro t h k _
    unfold weight
    have : (0 : ℚ) ≤ t.weights.getD k 0 := by
      rw [List.getD_eq_getElem?_getD]
      cases hk : t.weights[k]? with
      | none => simp
      | some w =>
          simp only [Option.getD_some]
          exact of_decide_eq_true (List.all_eq_true.1 h w (List.mem_of_getElem? hk))
    exact_mod_cast this
  intro e he
  simp only [List.mem_cons, List.not_mem_nil, or_false] at he
  rcases he with rfl | rfl | rfl | rfl | rfl | rfl <;> exact ⟨_, rfl, key _ (by decide +kernel)⟩

/-- The reference basis, indexed by natural numbers. -/
noncomputable def lagPsi (K : Type) [Field K] (M R n : Nat) (i : Nat) (x : Nat → K) : K := if h : i < n then refBasis K M R n ⟨i, h⟩ x else 0

/-- **C92.** With the Lagrangian basis the entries of the mass matrix add up to the measure of the domain, up to the precision of the weights. -/
theorem C92_total_mass (M R nb : Nat) (h : Supported M R nb) (t : Table) (ht : table M (ruleSize M R) = some t) (N : Nat) (measure : Nat → ℝ)
    (grad : Nat → Nat → (Nat → ℝ) → Nat → ℝ) (n m : Nat) (dofs : Nat → Nat → Nat) (hd : ∀ c < n, ∀ i < nb, dofs c i < m)
    (hm : ∀ c < n, 0 ≤ measure c) :
    ∃ A, discretizeOperator (isSymmetric (.react (fun _ => 1) : Op ℝ)) n nb m dofs
        (locOf t N (.react fun _ => 1) measure (lagPsi ℝ M R nb) grad) = .ok A ∧
      |∑ p ∈ Finset.range m, ∑ q ∈ Finset.range m, A p q - ∑ c ∈ Finset.range n, measure c| ≤ 1 / 10 ^ 14 * ∑ c ∈ Finset.range n, measure c := by
  obtain ⟨A, h1, _, _, _, h2⟩ := C92_mass t N measure (lagPsi ℝ M R nb) grad n nb m dofs hd
  refine ⟨A, h1, ?_⟩
  rw [h2]
  · have hw : |∑ k ∈ Finset.range (size t), weight ℝ t k - 1| ≤ 1 / 10 ^ 14 := by
      have hq : |accumQ t (fun _ => 1) - 1| ≤ 1 / 10 ^ 14 := by
        unfold Supported at h
        simp only [List.mem_cons, List.not_mem_nil, or_false, Prod.mk.injEq] at h
        rcases h with ⟨rfl, rfl, _⟩ | ⟨rfl, rfl, _⟩ | ⟨rfl, rfl, _⟩ | ⟨rfl, rfl, _⟩ | ⟨rfl, rfl, _⟩ | ⟨rfl, rfl, _⟩ | ⟨rfl, rfl, _⟩ <;>
          (cases ht; decide +kernel)
      have hc := accumQ_cast t fun _ => 1
      rw [accum_eq] at hc
      simp only [Rat.cast_one, one_mul] at hc
      rw [← hc]
      have h5 := (Rat.cast_le (K := ℝ)).2 hq
      push_cast at h5
      exact h5
    have hS : 0 ≤ ∑ c ∈ Finset.range n, measure c := Finset.sum_nonneg fun c hc => hm c (Finset.mem_range.1 hc)
    rw [show (∑ c ∈ Finset.range n, measure c) * ∑ k ∈ Finset.range (size t), weight ℝ t k - ∑ c ∈ Finset.range n, measure c =
      (∑ k ∈ Finset.range (size t), weight ℝ t k - 1) * ∑ c ∈ Finset.range n, measure c by ring, abs_mul, abs_of_nonneg hS]
    exact mul_le_mul_of_nonneg_right hw hS
  · intro k _
    rw [Finset.sum_range]
    have := C55_sum_one (K := ℝ) M R nb h (node ℝ t k)
    simpa [lagPsi] using this

/-- The coefficients of the function `6 (x² + y² + z² + w²) - 2`, `w = 1 - x - y - z`: its values at the nodes of the element. -/
noncomputable def negMass (i : Nat) : ℝ :=
  let x := refNodesK ℝ 3 2 i 0
  let y := refNodesK ℝ 3 2 i 1
  let z := refNodesK ℝ 3 2 i 2
  6 * (x ^ 2 + y ^ 2 + z ^ 2 + (1 - x - y - z) ^ 2) - 2

theorem negMass_value (x : Nat → ℝ) : feValue 10 (fun i => i) negMass (fun i => lagPsi ℝ 3 2 10 i x) =
    6 * (x 0 ^ 2 + x 1 ^ 2 + x 2 ^ 2 + (1 - x 0 - x 1 - x 2) ^ 2) - 2 := by
  have h := C55_reproduces (K := ℝ) 3 2 10 (by unfold Supported; decide)
    {[2, 0, 0], [0, 2, 0], [0, 0, 2], [1, 1, 0], [1, 0, 1], [0, 1, 1], [1, 0, 0], [0, 1, 0], [0, 0, 1], [0, 0, 0]}
    (fun v => if v.sum = 0 then 4 else if v.sum = 1 then -12 else 12) (by decide) x
  simp [Finset.prod_range_succ] at h
  unfold feValue
  rw [Finset.sum_range]
  have e : ∀ y : Nat → ℝ, 6 * (y 0 ^ 2 + y 1 ^ 2 + y 2 ^ 2 + (1 - y 0 - y 1 - y 2) ^ 2) - 2 =
      12 * y 0 ^ 2 + (12 * y 1 ^ 2 + (12 * y 2 ^ 2 + (12 * (y 0 * y 1) + (12 * (y 0 * y 2) + (12 * (y 1 * y 2) + (-(12 * y 0) + (-(12 * y 1) + (-(12 * y 2) + 4)))))))) := by
    intro y; ring
  rw [e x, ← h]
  refine Finset.sum_congr rfl fun i _ => ?_
  have h1 : negMass i = _ := e (refNodesK ℝ 3 2 i)
  have h2 : lagPsi ℝ 3 2 10 i x = refBasis ℝ 3 2 10 i x := by simp [lagPsi]
  simp only [h1, h2]

/-- **C92, defect.** The mass matrix of second order tetrahedra is not positive semidefinite: the rule selected for them has a negative weight at the
centroid, and on every mesh made of one tetrahedron there are coefficients `u` with `uᵀ M u < 0`.  (A Cholesky factorization of it fails.) -/
theorem C92_bug_indefinite_mass (vol : ℝ) (hv : 0 < vol) (N : Nat) (grad : Nat → Nat → (Nat → ℝ) → Nat → ℝ) :
    ∃ t A, table 3 (ruleSize 3 2) = some t ∧
      discretizeOperator (isSymmetric (.react (fun _ => 1) : Op ℝ)) 1 10 10 (fun _ i => i)
        (locOf t N (.react fun _ => 1) (fun _ => vol) (lagPsi ℝ 3 2 10) grad) = .ok A ∧
      ∃ u : Nat → ℝ, ∑ p ∈ Finset.range 10, ∑ q ∈ Finset.range 10, u p * A p q * u q < 0 := by
  obtain ⟨A, h1, _, h2, _⟩ := C92_mass rule3_5 N (fun _ => vol) (lagPsi ℝ 3 2 10) grad 1 10 10 (fun _ i => i) (fun _ _ i hi => hi)
  refine ⟨rule3_5, A, rfl, h1, negMass, ?_⟩
  rw [h2, Finset.sum_range_one]
  simp only [negMass_value]
  have : ∑ k ∈ Finset.range (size rule3_5), weight ℝ rule3_5 k * (6 * (node ℝ rule3_5 k 0 ^ 2 + node ℝ rule3_5 k 1 ^ 2 + node ℝ rule3_5 k 2 ^ 2 +
      (1 - node ℝ rule3_5 k 0 - node ℝ rule3_5 k 1 - node ℝ rule3_5 k 2) ^ 2) - 2) ^ 2 < 0 := by
    rw [show size rule3_5 = 5 from rfl]
    simp only [Finset.sum_range_succ, Finset.sum_range_zero, weight, node, rule3_5, List.getD_cons_zero, List.getD_cons_succ]
    norm_num
  exact mul_neg_of_pos_of_neg hv this

/-- Two triangles of the unit square: the hypotheses of the theorems above are met. -/
example : ∃ (dofs : Nat → Nat → Nat) (grad : Nat → Nat → (Nat → ℚ) → Nat → ℚ), (∀ c < 2, ∀ i < 3, dofs c i < 4) ∧
    (∀ c < 2, ∀ k < size rule2_3, ∀ z < 2, ∑ i ∈ Finset.range 3, grad c i (node ℚ rule2_3 k) z = 0) ∧
    NoReaction (.add (.neg .lap) (.adv fun _ _ => 1) : Op ℚ) ∧ NoScalar (.add (.neg .lap) (.adv fun _ _ => 1) : Op ℚ) :=
  ⟨fun c i => if c = 0 then i else i + 1, fun c i _ z => if i = 0 then -1 else if i = z + 1 then 1 else 0, by decide, by
    intro c _ k _ z hz
    rcases (by omega : z = 0 ∨ z = 1) with rfl | rfl <;> simp [Finset.sum_range_succ], ⟨trivial, trivial⟩, ⟨trivial, trivial⟩⟩

end Fdapde.PDE
