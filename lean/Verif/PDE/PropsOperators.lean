import Verif.PDE.Operators
import Verif.PDE.PropsAssembly
import Verif.Quadrature.PropsIntegrator
/- C82 and C60 (operators). -/
namespace Fdapde.PDE
open Fdapde.FEM Fdapde.Quadrature
variable {K : Type} [Field K]

/-! ### Removal of the time derivative -/

/-- Number of time derivatives in an expression. -/
def countDT : Op K → Nat
  | .dT => 1
  | .add a b => countDT a + countDT b
  | .sub a b => countDT a + countDT b
  | .smul _ a => countDT a
  | .neg a => countDT a
  | _ => 0

/-- Sums and differences in which no time derivative is negated, multiplied by a scalar, or the left operand of a
difference. -/
def Plain : Op K → Prop
  | .add a b => Plain a ∧ Plain b
  | .sub a b => Plain a ∧ Plain b ∧ a ≠ .dT
  | .smul _ a => countDT a = 0
  | .neg a => countDT a = 0
  | _ => True

theorem hasDT_iff : ∀ a : Op K, hasDT a = true ↔ 0 < countDT a
  | .dT => by simp [hasDT, countDT]
  | .lap => by simp [hasDT, countDT]
  | .diff _ => by simp [hasDT, countDT]
  | .adv _ => by simp [hasDT, countDT]
  | .react _ => by simp [hasDT, countDT]
  | .scalar _ => by simp [hasDT, countDT]
  | .add a b => by
    have h1 := hasDT_iff a; have h2 := hasDT_iff b
    simp only [hasDT, countDT, Bool.or_eq_true, h1, h2]; omega
  | .sub a b => by
    have h1 := hasDT_iff a; have h2 := hasDT_iff b
    simp only [hasDT, countDT, Bool.or_eq_true, h1, h2]; omega
  | .smul _ a => by have h1 := hasDT_iff a; simpa only [hasDT, countDT] using h1
  | .neg a => by have h1 := hasDT_iff a; simpa only [hasDT, countDT] using h1

theorem isDT_iff (a : Op K) : isDT a = true ↔ a = .dT := by cases a <;> simp [isDT]

theorem weak_dT (N r : Nat) (bi bj : K) (gi gj : Nat → K) : weak N (.dT : Op K) r bi bj gi gj = 0 := rfl

/-- A non-binary plain expression other than dT contains no time derivative. -/
theorem count_nonbin (a : Op K) (h : isBin a = false) (hp : Plain a) (hd : a ≠ .dT) : countDT a = 0 := by
  cases a with
  | dT => exact absurd rfl hd
  | neg a => exact hp
  | add a b => simp [isBin] at h
  | sub a b => simp [isBin] at h
  | smul x a => simp [isBin] at h
  | _ => rfl

/-- **C82** (partial: plain expressions, see `Plain`).  `remove_operator<dT>()` compiles and yields a form with the same weak
form (the time derivative contributes zero), and no time derivative is left if there was one. -/
theorem C82_remove_partial (N : Nat) : ∀ op : Op K, isBin op = true → Plain op →
    ∃ op', removeDT op = some op' ∧ (∀ r bi bj gi gj, weak N op' r bi bj gi gj = weak N op r bi bj gi gj) ∧
      (countDT op ≤ 1 → hasDT op' = false)
  | .add a b, _, hp => by
    have zero : ∀ c : Op K, countDT c = 0 → hasDT c = false := fun c h => by
      rw [← Bool.not_eq_true, hasDT_iff]; omega
    unfold removeDT
    by_cases h0 : countDT (.add a b) = 0
    · rw [if_pos (by simp [zero _ h0])]
      exact ⟨_, rfl, fun _ _ _ _ _ => rfl, fun _ => zero _ h0⟩
    · have hh : hasDT (.add a b) = true := (hasDT_iff _).2 (by omega)
      rw [if_neg (by simp [hh])]
      by_cases ha : a = .dT
      · subst ha
        rw [if_pos (show isDT (.dT : Op K) = true from rfl)]
        refine ⟨b, rfl, fun r bi bj gi gj => by simp [weak], fun h => zero b ?_⟩
        simp only [countDT] at h; omega
      · rw [if_neg (by rw [isDT_iff]; exact ha)]
        by_cases hb : b = .dT
        · subst hb
          rw [if_pos (show isDT (.dT : Op K) = true from rfl)]
          refine ⟨a, rfl, fun r bi bj gi gj => by simp [weak], fun h => zero a ?_⟩
          simp only [countDT] at h; omega
        · rw [if_neg (by rw [isDT_iff]; exact hb)]
          cases hba : isBin a <;> cases hbb : isBin b
          · have h1 := count_nonbin a hba hp.1 ha
            have h2 := count_nonbin b hbb hp.2 hb
            exact absurd (show countDT (.add a b) = 0 by simp [countDT, h1, h2]) h0
          · obtain ⟨b', h1, h2, h3⟩ := C82_remove_partial N b hbb hp.2
            refine ⟨.add a b', by simp [h1], fun r bi bj gi gj => by simp [weak, h2], fun h => ?_⟩
            have hca := count_nonbin a hba hp.1 ha
            simp only [countDT] at h
            simp [hasDT, zero a hca, h3 (by omega)]
          · obtain ⟨a', h1, h2, h3⟩ := C82_remove_partial N a hba hp.1
            refine ⟨.add a' b, by simp [h1], fun r bi bj gi gj => by simp [weak, h2], fun h => ?_⟩
            have hcb := count_nonbin b hbb hp.2 hb
            simp only [countDT] at h
            simp [hasDT, zero b hcb, h3 (by omega)]
          · obtain ⟨a', h1, h2, h3⟩ := C82_remove_partial N a hba hp.1
            obtain ⟨b', g1, g2, g3⟩ := C82_remove_partial N b hbb hp.2
            refine ⟨.add a' b', by simp [h1, g1], fun r bi bj gi gj => by simp [weak, h2, g2], fun h => ?_⟩
            simp only [countDT] at h
            simp [hasDT, h3 (by omega), g3 (by omega)]
  | .sub a b, _, hp => by
    have zero : ∀ c : Op K, countDT c = 0 → hasDT c = false := fun c h => by
      rw [← Bool.not_eq_true, hasDT_iff]; omega
    unfold removeDT
    by_cases h0 : countDT (.sub a b) = 0
    · rw [if_pos (by simp [zero _ h0])]
      exact ⟨_, rfl, fun _ _ _ _ _ => rfl, fun _ => zero _ h0⟩
    · have hh : hasDT (.sub a b) = true := (hasDT_iff _).2 (by omega)
      rw [if_neg (by simp [hh])]
      have ha := hp.2.2
      rw [if_neg (by rw [isDT_iff]; exact ha)]
      by_cases hb : b = .dT
      · subst hb
        rw [if_pos (show isDT (.dT : Op K) = true from rfl)]
        refine ⟨a, rfl, fun r bi bj gi gj => by simp [weak], fun h => zero a ?_⟩
        simp only [countDT] at h; omega
      · rw [if_neg (by rw [isDT_iff]; exact hb)]
        cases hba : isBin a <;> cases hbb : isBin b
        · have h1 := count_nonbin a hba hp.1 ha
          have h2 := count_nonbin b hbb hp.2.1 hb
          exact absurd (show countDT (.sub a b) = 0 by simp [countDT, h1, h2]) h0
        · obtain ⟨b', h1, h2, h3⟩ := C82_remove_partial N b hbb hp.2.1
          refine ⟨.sub a b', by simp [h1], fun r bi bj gi gj => by simp [weak, h2], fun h => ?_⟩
          have hca := count_nonbin a hba hp.1 ha
          simp only [countDT] at h
          simp [hasDT, zero a hca, h3 (by omega)]
        · obtain ⟨a', h1, h2, h3⟩ := C82_remove_partial N a hba hp.1
          refine ⟨.sub a' b, by simp [h1], fun r bi bj gi gj => by simp [weak, h2], fun h => ?_⟩
          have hcb := count_nonbin b hbb hp.2.1 hb
          simp only [countDT] at h
          simp [hasDT, zero b hcb, h3 (by omega)]
        · obtain ⟨a', h1, h2, h3⟩ := C82_remove_partial N a hba hp.1
          obtain ⟨b', g1, g2, g3⟩ := C82_remove_partial N b hbb hp.2.1
          refine ⟨.sub a' b', by simp [h1, g1], fun r bi bj gi gj => by simp [weak, h2, g2], fun h => ?_⟩
          simp only [countDT] at h
          simp [hasDT, h3 (by omega), g3 (by omega)]
  | .smul x a, _, hp => by
    have h0 : hasDT (.smul x a) = false := by
      rw [← Bool.not_eq_true, hasDT_iff]
      have : countDT a = 0 := hp
      simp [countDT, this]
    exact ⟨.smul x a, by simp [removeDT, h0], fun _ _ _ _ _ => rfl, fun _ => h0⟩

/-- dt + (laplacian - 2 * reaction) is plain. -/
example : Plain (.add .dT (.sub .lap (.smul 2 (.react fun _ => 1))) : Op ℚ) := by simp [Plain, countDT]

/-- The documented use `dt - L`: removing the time derivative from `dt - laplacian` gives `laplacian`, with the opposite
sign. -/
theorem C82_bug_minus (N : Nat) (op : Op K) : removeDT (.sub .dT op) = some op ∧
    ∀ r bi bj gi gj, weak N (.sub .dT op) r bi bj gi gj = -weak N op r bi bj gi gj :=
  ⟨by simp [removeDT, hasDT, isDT], fun r bi bj gi gj => by simp [weak]⟩

/-- Removing a time derivative multiplied by a scalar leaves the scalar in the form: `2 * dt + L` becomes `2 + L`. -/
theorem C82_bug_scaled (N : Nat) (x : K) (hx : x ≠ 0) : ∃ op', removeDT (.add (.smul x .dT) .lap) = some op' ∧
    ∀ r bi bj gi gj, weak N op' r bi bj gi gj ≠ weak N (.add (.smul x .dT) .lap) r bi bj gi gj :=
  ⟨.add (.scalar x) .lap, by simp [removeDT, hasDT, isDT, isBin], fun r bi bj gi gj => by simp [weak, hx]⟩

/-- Removing a negated time derivative (`-dt + laplacian`) does not compile. -/
theorem C82_bug_negated : removeDT (.add (.neg .dT) .lap : Op K) = none := rfl

/-! ### Symmetric operators -/

/-- All diffusion tensors in the expression are symmetric. -/
def SymTensors (N : Nat) : Op K → Prop
  | .diff D => ∀ r, ∀ z < N, ∀ k < N, D r z k = D r k z
  | .add a b => SymTensors N a ∧ SymTensors N b
  | .sub a b => SymTensors N a ∧ SymTensors N b
  | .smul _ a => SymTensors N a
  | .neg a => SymTensors N a
  | _ => True

/-- If the flag makes the assembler fill half of the matrix, the diffusion tensors are symmetric.  Operators with a transport term are not flagged,
their tensors are arbitrary. -/
def FlagRight (N : Nat) (op : Op K) : Prop := isSymmetric op = true → SymTensors N op

/-- **C60**, flags: an operator flagged symmetric whose diffusion tensors are symmetric has a symmetric weak form. -/
theorem C60_flag (N : Nat) : ∀ (op : Op K), isSymmetric op = true → SymTensors N op → ∀ r bi bj gi gj,
    weak N op r bi bj gi gj = weak N op r bj bi gj gi
  | .dT, _, _, _, _, _, _, _ => rfl
  | .lap, _, _, _, _, _, gi, gj => by
    simp only [weak]; congr 1; exact Finset.sum_congr rfl (fun z _ => mul_comm _ _)
  | .diff D, _, hs, r, _, _, gi, gj => by
    simp only [weak, Finset.mul_sum]
    congr 1
    rw [Finset.sum_comm]
    refine Finset.sum_congr rfl (fun z hz => Finset.sum_congr rfl (fun k hk => ?_))
    rw [hs r z (Finset.mem_range.1 hz) k (Finset.mem_range.1 hk)]
    ring
  | .adv b, h, _, _, _, _, _, _ => by simp [isSymmetric] at h
  | .react c, _, _, _, _, _, _, _ => by simp only [weak]; ring
  | .scalar x, _, _, _, _, _, _, _ => rfl
  | .add a b, h, hs, r, bi, bj, gi, gj => by
    simp only [isSymmetric, Bool.and_eq_true] at h
    simp only [weak]
    rw [C60_flag N a h.1 hs.1 r bi bj gi gj, C60_flag N b h.2 hs.2 r bi bj gi gj]
  | .sub a b, h, hs, r, bi, bj, gi, gj => by
    simp only [isSymmetric, Bool.and_eq_true] at h
    simp only [weak]
    rw [C60_flag N a h.1 hs.1 r bi bj gi gj, C60_flag N b h.2 hs.2 r bi bj gi gj]
  | .smul x a, h, hs, r, bi, bj, gi, gj => by
    simp only [isSymmetric, Bool.true_and] at h
    simp only [weak]
    rw [C60_flag N a h hs r bi bj gi gj]
  | .neg a, h, hs, r, bi, bj, gi, gj => by
    simp only [isSymmetric] at h
    simp only [weak]
    rw [C60_flag N a h hs r bi bj gi gj]

/-- The local integral of an operator: `integrate_weak_form` of its weak form on cell `c`; `psi i p` are the values of the
reference basis, `grad c i p` the transformed gradients. -/
def locOf (t : Table) (N : Nat) (op : Op K) (measure : Nat → K) (psi : Nat → (Nat → K) → K) (grad : Nat → Nat → (Nat → K) → Nat → K)
    (c i j : Nat) : K :=
  integrateWeak t c (measure c) fun r p => weak N op r (psi i p) (psi j p) (grad c i p) (grad c j p)

/-- **C60** (partial: symmetric diffusion tensors, unless there is a transport term).  For every operator expression and quadrature rule the matrix assembled
using the flag of the operator is the one accumulated from all local pairs; it is symmetric if the flag is set. -/
theorem C60_operators_partial (t : Table) (N : Nat) (op : Op K) (measure : Nat → K) (psi : Nat → (Nat → K) → K)
    (grad : Nat → Nat → (Nat → K) → Nat → K) (n nb size : Nat) (dofs : Nat → Nat → Nat) (hd : ∀ c < n, ∀ i < nb, dofs c i < size)
    (hs : FlagRight N op) :
    ∃ A, discretizeOperator (isSymmetric op) n nb size dofs (locOf t N op measure psi grad) = .ok A ∧
      (∀ p q, A p q = fullSum n nb dofs (locOf t N op measure psi grad) p q) ∧
      (isSymmetric op = true → ∀ p q, A p q = A q p) := by
  cases h : isSymmetric op with
  | false =>
    obtain ⟨A, h1, h2⟩ := C61_operator n nb size dofs (locOf t N op measure psi grad) hd
    exact ⟨A, h1, h2, by simp⟩
  | true =>
    have hl : ∀ c < n, ∀ i < nb, ∀ j < nb, locOf t N op measure psi grad c i j = locOf t N op measure psi grad c j i := by
      intro c _ i _ j _
      unfold locOf integrateWeak
      congr 1
      refine accum_congr t _ _ (fun iq _ => ?_)
      exact C60_flag N op h (hs h) _ _ _ _ _
    obtain ⟨A, B, h1, h2, h3⟩ := C60_same_matrix_partial n nb size dofs _ hd hl
    obtain ⟨B', h4, h5⟩ := C61_operator n nb size dofs (locOf t N op measure psi grad) hd
    obtain ⟨A', h6, h7⟩ := C60_symmetric n nb size dofs (locOf t N op measure psi grad) hd
    rw [h2] at h4; cases h4
    rw [h1] at h6; cases h6
    exact ⟨A, h1, fun p q => by rw [h3, h5], fun _ => h7⟩

example : SymTensors 2 (.add (.diff fun _ z k => if z = k then 2 else 1) (.neg (.react fun r => r)) : Op ℚ) ∧
    isSymmetric (.add (.diff fun _ z k => if z = k then 2 else 1) (.neg (.react fun r => r)) : Op ℚ) = true := by
  refine ⟨⟨fun r z _ k _ => ?_, trivial⟩, rfl⟩
  by_cases h : z = k
  · rw [h]
  · simp [h, Ne.symm h]

/-- A diffusion with a non-symmetric tensor and a transport: the operator is not flagged, the theorem applies. -/
example : FlagRight 2 (.add (.diff fun _ z k => if z ≤ k then 1 else 0) (.adv fun _ _ => 1) : Op ℚ) ∧
    ¬ SymTensors 2 (.add (.diff fun _ z k => if z ≤ k then 1 else 0) (.adv fun _ _ => 1) : Op ℚ) := by
  refine ⟨fun h => by simp [isSymmetric] at h, fun h => ?_⟩
  have := h.1 0 0 (by norm_num) 1 (by norm_num)
  norm_num at this

/-- The diffusion operator is flagged symmetric whatever its tensor: with the tensor [[1, 1], [0, 1]] on the reference
triangle the assembled matrix is not the one of the weak form (entry (1, 2) is 0 instead of -1/2). -/
theorem C60_bug_diffusion : ∃ (D : Nat → Nat → Nat → ℚ) (grad : Nat → Nat → (Nat → ℚ) → Nat → ℚ) (A : Nat → Nat → ℚ),
    discretizeOperator (isSymmetric (.diff D : Op ℚ)) 1 3 3 (fun _ i => i)
      (locOf rule2_1 2 (.diff D) (fun _ => 1 / 2) (fun _ _ => 0) grad) = .ok A ∧
    A 1 2 = 0 ∧ fullSum 1 3 (fun _ i => i) (locOf rule2_1 2 (.diff D) (fun _ => 1 / 2) (fun _ _ => 0) grad) 1 2 = -1 / 2 := by
  let D : Nat → Nat → Nat → ℚ := fun _ z k => if z ≤ k then 1 else 0
  let grad : Nat → Nat → (Nat → ℚ) → Nat → ℚ := fun _ i _ z => if i = 0 then -1 else if i = z + 1 then 1 else 0
  obtain ⟨l, h1, h2⟩ := opTriplets_spec true 1 3 3 (fun _ i => i)
    (locOf rule2_1 2 (.diff D) (fun _ => 1 / 2) (fun _ _ => 0) grad) (by intro c _ i hi; exact hi)
  have w : weight ℚ rule2_1 0 = 1 := by norm_num [weight, rule2_1]
  have loc12 : locOf rule2_1 2 (.diff D) (fun _ => 1 / 2) (fun _ _ => 0) grad 0 1 2 = -1 / 2 := by
    unfold locOf integrateWeak
    rw [accum_eq]
    simp [size, rule2_1, weak, D, grad, Finset.sum_range_succ]
    rw [show weight ℚ { nodes := [[0.333333333333333, 0.333333333333333]], weights := [1.0] } 0 = 1 from w]
    norm_num
  have loc21 : locOf rule2_1 2 (.diff D) (fun _ => 1 / 2) (fun _ _ => 0) grad 0 2 1 = 0 := by
    unfold locOf integrateWeak
    rw [accum_eq]
    simp [size, rule2_1, weak, D, grad]
  refine ⟨D, grad, _, by rw [show isSymmetric (.diff D : Op ℚ) = true from rfl, discretizeOperator, h1, Res.map_ok], ?_, ?_⟩
  · simp only [if_true, h2]
    rw [if_neg (by omega), if_neg (by omega)]
    unfold fullSum
    rw [Finset.sum_range_one, Finset.sum_eq_single 2, Finset.sum_eq_single 1]
    · simpa using loc21
    · intro j _ hj; exact if_neg (fun h => hj h.2)
    · simp
    · intro i _ hi; exact Finset.sum_eq_zero (fun j _ => if_neg (fun h => hi h.1))
    · simp
  · unfold fullSum
    rw [Finset.sum_range_one, Finset.sum_eq_single 1, Finset.sum_eq_single 2]
    · simpa using loc12
    · intro j _ hj; exact if_neg (fun h => hj h.2)
    · simp
    · intro i _ hi; exact Finset.sum_eq_zero (fun j _ => if_neg (fun h => hi h.1))
    · simp

end Fdapde.PDE
