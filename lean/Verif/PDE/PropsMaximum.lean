import Verif.PDE.MaximumSpec
import Verif.PDE.PropsPatch
set_option linter.unusedSectionVars false
namespace Fdapde.PDE
open Fdapde.Quadrature Matrix
variable {K : Type} [Field K] [LinearOrder K] [IsStrictOrderedRing K]

theorem first_val_nonneg : ∀ e ∈ [(1, 1, 2), (2, 1, 3), (3, 1, 4)], ∀ k < ruleSize e.1 e.2.1, ∀ i < e.2.2,
    0 ≤ FEM.look (FEM.litVal e.1 e.2.1) k i := by
  decide +kernel

theorem dot_fe (N nb : Nat) (d : Nat → Nat) (T : Nat → Nat → K) (u v : Nat → K) (G : Nat → Nat → K) :
    dot N (fun z => dot N (T z) (feGrad nb d u G)) (feGrad nb d v G) =
      ∑ i ∈ Finset.range nb, ∑ j ∈ Finset.range nb, u (d i) * v (d j) * dot N (fun z => dot N (T z) (G i)) (G j) := by
  simp only [dot, feGrad, Finset.mul_sum, Finset.sum_mul]
  have e : ∀ (F : Nat → Nat → Nat → Nat → K) (A B : Finset Nat),
      ∑ z ∈ A, ∑ j ∈ B, ∑ y ∈ A, ∑ i ∈ B, F z j y i = ∑ i ∈ B, ∑ j ∈ B, ∑ z ∈ A, ∑ y ∈ A, F z j y i := by
    intro F A B
    calc ∑ z ∈ A, ∑ j ∈ B, ∑ y ∈ A, ∑ i ∈ B, F z j y i
        = ∑ j ∈ B, ∑ z ∈ A, ∑ y ∈ A, ∑ i ∈ B, F z j y i := Finset.sum_comm
      _ = ∑ j ∈ B, ∑ z ∈ A, ∑ i ∈ B, ∑ y ∈ A, F z j y i :=
          Finset.sum_congr rfl fun j _ => Finset.sum_congr rfl fun z _ => Finset.sum_comm
      _ = ∑ j ∈ B, ∑ i ∈ B, ∑ z ∈ A, ∑ y ∈ A, F z j y i := Finset.sum_congr rfl fun j _ => Finset.sum_comm
      _ = _ := Finset.sum_comm
  rw [← e]
  exact Finset.sum_congr rfl fun z _ => Finset.sum_congr rfl fun j _ => Finset.sum_congr rfl fun y _ => Finset.sum_congr rfl fun i _ => by ring

/-- C111: with weights and functions that are not negative at the quadrature nodes and gradients at angles that are not acute,
forcing and boundary data that are not negative give a solution that is not negative. -/
theorem C111_nonneg (P : Prob K) (hP : P.Ok) (hE : P.Coercive) (hm : ∀ c < P.n, 0 ≤ P.measure c) (hw : ∀ k < size P.t, 0 ≤ weight K P.t k)
    (hpsi : ∀ k < size P.t, ∀ i < P.nb, 0 ≤ P.psi i (node K P.t k)) (D : Nat → Nat → Nat → K) (hop : Diffusive P.N P.op D)
    (hD : P.NonAcuteGradients D) (h0 : ∃ p < P.m, P.bd p = true) (f : Nat → Nat → K) (hf : ∀ c < P.n, ∀ k < size P.t, 0 ≤ f c k)
    (g w : Nat → K) (hg : ∀ p < P.m, P.bd p = true → 0 ≤ g p) (h : P.Galerkin f g w) : ∀ p < P.m, 0 ≤ w p := by
  set v : Nat → K := fun p => min (w p) 0 with hv
  set u : Nat → K := fun p => max (w p) 0 with hu
  have hT : P.Test v := fun p hp hb => by
    simp only [hv]
    rw [h.1 p hp hb]
    exact min_eq_right (hg p hp hb)
  have hwv : w = fun p => v p + 1 * u p := by
    funext p
    simp only [hv, hu, one_mul]
    rw [min_add_max, add_zero]
  have hload : P.load f v ≤ 0 := by
    refine Finset.sum_nonpos fun c hc => mul_nonpos_of_nonneg_of_nonpos (hm c (Finset.mem_range.1 hc)) (Finset.sum_nonpos fun k hk =>
      mul_nonpos_of_nonneg_of_nonpos (hw k (Finset.mem_range.1 hk)) (mul_nonpos_of_nonneg_of_nonpos (hf c (Finset.mem_range.1 hc) k (Finset.mem_range.1 hk)) ?_))
    exact Finset.sum_nonpos fun i hi => mul_nonpos_of_nonpos_of_nonneg (min_le_right _ _) (hpsi k (Finset.mem_range.1 hk) i (Finset.mem_range.1 hi))
  have huv : 0 ≤ P.bilin u v := by
    refine Finset.sum_nonneg fun c hc => mul_nonneg (hm c (Finset.mem_range.1 hc)) (Finset.sum_nonneg fun k hk => mul_nonneg (hw k (Finset.mem_range.1 hk)) ?_)
    rw [hop, dot_fe]
    refine Finset.sum_nonneg fun i hi => Finset.sum_nonneg fun j hj => ?_
    by_cases hij : i = j
    · subst hij
      refine le_of_eq (mul_eq_zero_of_left ?_ _).symm
      simp only [hu, hv]
      rcases le_total (w (P.dofs c i)) 0 with h | h
      · rw [max_eq_right h, zero_mul]
      · rw [min_eq_right h, mul_zero]
    · exact mul_nonneg_of_nonpos_of_nonpos (mul_nonpos_of_nonneg_of_nonpos (le_max_right _ _) (min_le_right _ _))
        (hD c (Finset.mem_range.1 hc) k (Finset.mem_range.1 hk) i (Finset.mem_range.1 hi) j (Finset.mem_range.1 hj) hij)
  have h1 := h.2 v hT
  have h2 : P.bilin w v = P.bilin v v + 1 * P.bilin u v := by
    rw [← bilin_left P hP, ← hwv]
  have h3 : P.bilin v v = 0 := le_antisymm (by linarith) (hE v).1
  obtain ⟨q, hq, hb⟩ := h0
  intro p hp
  have h4 := (hE v).2 h3 p hp q hq
  rw [hT q hq hb] at h4
  simp only [hv] at h4
  exact min_eq_right_iff.1 h4

section
variable {P : Prob K} {X : Nat → Nat → K} {I : Nat → Nat → Nat → K}

theorem weight_pos (h : P.OnNodes X I) {k : Nat} (hk : k < size P.t) : 0 < weight K P.t k := by
  rw [weight]
  exact_mod_cast FEM.weights_ok _ (FEM.supported_ne h.lagrange.supported (by simp)) P.t h.lagrange.rule k hk

theorem psi_nonneg (h : P.OnNodes X I) {k i : Nat} (hk : k < size P.t) (hi : i < P.nb) : 0 ≤ P.psi i (node K P.t k) := by
  have hr := FEM.rule_node (K := K) h.lagrange.supported h.lagrange.rule
  have h1 := h.lagrange.psi ⟨i, hi⟩ (node K P.t k)
  simp only at h1
  rw [h1, FEM.refBasis_node h.lagrange.supported h.lagrange.rule k hk]
  exact_mod_cast first_val_nonneg _ (first_mem h.lagrange.supported).1 k (hr.1 ▸ hk) i hi

theorem onNodes_coercive (h : P.OnNodes X I) (hcon : ∀ p < P.m, ∀ q < P.m, Relation.ReflTransGen P.Linked p q)
    (hell : ∀ c < P.n, ∀ k < size P.t, Elliptic P.N P.op (size P.t * c + k)) : P.Coercive :=
  C103_coercive P (C103_elements P h.lagrange (by simp) hell (fun c hc => measure_pos h hc) hcon)

/-- The form does not see constants. -/
theorem bilin_const (h : P.OnNodes X I) (D : Nat → Nat → Nat → K) (hop : Diffusive P.N P.op D) (x : K) (v : Nat → K) :
    P.bilin (fun _ => x) v = 0 := by
  refine Finset.sum_eq_zero fun c hc => mul_eq_zero_of_right _ (Finset.sum_eq_zero fun k hk => mul_eq_zero_of_right _ ?_)
  have hc' := Finset.mem_range.1 hc
  have hk' := Finset.mem_range.1 hk
  have e : ∀ z, feGrad P.nb (P.dofs c) (fun _ => x) (fun i => P.grad c i (node K P.t k)) z = 0 := fun z => by
    rw [feGrad, ← Finset.mul_sum, Finset.sum_congr rfl fun i hi => grad_node h hc' hk' (Finset.mem_range.1 hi) z, grads_sum c z h, mul_zero]
  rw [hop]
  simp only [dot, e, mul_zero, Finset.sum_const_zero, zero_mul]

/-- C111: first-order elements and no forcing: the solution lies between the bounds of the boundary data. -/
theorem C111_bounds (h : P.OnNodes X I) (hP : P.Ok) (hcon : ∀ p < P.m, ∀ q < P.m, Relation.ReflTransGen P.Linked p q)
    (hell : ∀ c < P.n, ∀ k < size P.t, Elliptic P.N P.op (size P.t * c + k)) (D : Nat → Nat → Nat → K) (hop : Diffusive P.N P.op D)
    (hD : P.NonAcuteGradients D) (h0 : ∃ p < P.m, P.bd p = true) (g w : Nat → K) (lo hi : K)
    (hlo : ∀ p < P.m, P.bd p = true → lo ≤ g p) (hhi : ∀ p < P.m, P.bd p = true → g p ≤ hi)
    (hG : P.Galerkin (fun _ _ => 0) g w) : ∀ p < P.m, lo ≤ w p ∧ w p ≤ hi := by
  have hl : ∀ v, P.load (fun _ _ => 0) v = 0 := fun v => by simp [Prob.load]
  have key : ∀ (x y : K), (∀ p < P.m, P.bd p = true → 0 ≤ y + x * g p) → ∀ p < P.m, 0 ≤ y + x * w p := by
    intro x y hb
    refine C111_nonneg P hP (onNodes_coercive h hcon hell) (fun c hc => (measure_pos h hc).le) (fun k hk => (weight_pos h hk).le)
      (fun k hk i hi => psi_nonneg h hk hi) D hop hD h0 (fun _ _ => 0) (fun _ _ _ _ => le_rfl) (fun p => y + x * g p) (fun p => y + x * w p) hb ?_
    refine ⟨fun p hp hb => ?_, fun v hv => ?_⟩
    · show y + x * w p = y + x * g p
      rw [hG.1 p hp hb]
    · rw [bilin_left P hP, bilin_const h D hop, hG.2 v hv, hl]; ring
  intro p hp
  constructor
  · have := key 1 (-lo) (fun p hp hb => by linarith [hlo p hp hb]) p hp
    linarith
  · have := key (-1) hi (fun p hp hb => by linarith [hhi p hp hb]) p hp
    linarith

/-- C111 (dof 0 on the boundary, see `C62_bug_dof_zero`): what `solve` returns is not negative when forcing and boundary data are
not, and stays between the bounds of the boundary data when there is no forcing. -/
theorem C111_solve_partial (h : P.OnNodes X I) (hP : P.Ok) (hcon : ∀ p < P.m, ∀ q < P.m, Relation.ReflTransGen P.Linked p q)
    (hell : ∀ c < P.n, ∀ k < size P.t, Elliptic P.N P.op (size P.t * c + k)) (D : Nat → Nat → Nat → K) (hop : Diffusive P.N P.op D)
    (hD : P.NonAcuteGradients D) (lu : Solver K) (hlu : ExactLU P.m lu) (hlc : CompleteLU P.m lu)
    (data : Dense K) (hr : P.n * size P.t ≤ data.rows) (hc : data.cols = 1) (g : Dense K) (hg : P.m ≤ g.rows) (hgc : 0 < g.cols)
    (hm : 0 < P.m) (h0 : P.bd 0 = true) (junk : Nat → K) :
    ∃ w, (P.init data junk >>= pdeSolveElliptic lu g) = .ok (true, some w) ∧
      ((∀ c < P.n, ∀ k < size P.t, 0 ≤ data.at' (size P.t * c + k) 0) → (∀ p < P.m, P.bd p = true → 0 ≤ g.at' p 0) → ∀ p < P.m, 0 ≤ w p) ∧
      ∀ lo hi : K, (∀ c < P.n, ∀ k < size P.t, data.at' (size P.t * c + k) 0 = 0) →
        (∀ p < P.m, P.bd p = true → lo ≤ g.at' p 0 ∧ g.at' p 0 ≤ hi) → ∀ p < P.m, lo ≤ w p ∧ w p ≤ hi := by
  have hE := onNodes_coercive h hcon hell
  obtain ⟨w, e1, e2, _⟩ := C103_solve_partial P hP hE lu hlu hlc data hr hc g hg hgc hm h0 junk
  refine ⟨w, e1, fun hf hb => C111_nonneg P hP hE (fun c hc => (measure_pos h hc).le) (fun k hk => (weight_pos h hk).le)
    (fun k hk i hi => psi_nonneg h hk hi) D hop hD ⟨0, hm, h0⟩ _ hf _ w hb e2, fun lo hi hf hb => ?_⟩
  refine C111_bounds h hP hcon hell D hop hD ⟨0, hm, h0⟩ _ w lo hi (fun p hp h => (hb p hp h).1) (fun p hp h => (hb p hp h).2)
    ⟨e2.1, fun v hv => ?_⟩
  rw [e2.2 v hv]
  refine Finset.sum_congr rfl fun c hc => congrArg _ (Finset.sum_congr rfl fun k hk => ?_)
  dsimp only
  rw [hf c (Finset.mem_range.1 hc) k (Finset.mem_range.1 hk)]

/-- C111: triangles without obtuse angles and the Laplacian, or intervals, satisfy the condition on the gradients. -/
theorem C111_triangles (h : P.OnNodes X I) (hN : P.N = 2) (hO : P.NonObtuse X) :
    P.NonAcuteGradients fun _ z y => if z = y then 1 else 0 := by
  intro c hc k hk i hi j hj hij
  have hn := nb_eq h
  rw [hN] at hn
  rw [hn] at hi hj
  have hl : ∃ l < 3, i ≠ l ∧ j ≠ l := ⟨3 - i - j, by omega, by omega, by omega⟩
  obtain ⟨l, hl, hil, hjl⟩ := hl
  have hb : ∀ i < 3, ∀ z, P.grad c i (node K P.t k) z = locGrad P.N I c i z := fun i hi z => grad_node h hc hk (by omega) z
  have hd : ∀ i < 3, ∀ j < 3, ∀ l < 3, locGrad P.N I c i 0 * (X (P.dofs c j) 0 - X (P.dofs c l) 0) +
      locGrad P.N I c i 1 * (X (P.dofs c j) 1 - X (P.dofs c l) 1) = (if i = j then 1 else 0) - if i = l then 1 else 0 := by
    intro i hi j hj l hl
    have key : ∀ j < 3, dot P.N (locGrad P.N I c i) (fun z => X (P.dofs c j) z - X (P.dofs c 0) z) = (if i = j then 1 else 0) - if i = 0 then 1 else 0 := by
      intro j hj
      have h1 := dual h hc ⟨i, by omega⟩ ⟨j, by omega⟩
      rw [show grads P I c ⟨i, by omega⟩ ⬝ᵥ (vert P X c ⟨j, by omega⟩ - vert P X c 0) =
        dot P.N (locGrad P.N I c i) (fun z => X (P.dofs c j) z - X (P.dofs c 0) z) from
        dotProduct_dot (locGrad P.N I c i) (fun z => X (P.dofs c j) z - X (P.dofs c 0) z)] at h1
      simpa only [Fin.ext_iff, Fin.val_zero] using h1
    have h1 := key j hj
    have h2 := key l hl
    simp only [hN, dot, Finset.sum_range_succ, Finset.sum_range_zero, zero_add] at h1 h2
    rw [hN]
    linear_combination h1 - h2
  have hO' := hO c hc i hi j hj l hl hij hil hjl
  have a1 := hd i hi i hi l hl
  have a2 := hd i hi j hj l hl
  have a3 := hd j hj j hj l hl
  have a4 := hd j hj i hi l hl
  rw [if_pos rfl, if_neg hil] at a1
  rw [if_neg hij, if_neg hil] at a2
  rw [if_pos rfl, if_neg hjl] at a3
  rw [if_neg hij.symm, if_neg hjl] at a4
  simp only [hN, dot, Finset.sum_range_succ, Finset.sum_range_zero, zero_add] at hO' ⊢
  simp only [hb i hi, hb j hj]
  norm_num
  rw [hN] at *
  generalize locGrad 2 I c i 0 = G0 at *
  generalize locGrad 2 I c i 1 = G1 at *
  generalize locGrad 2 I c j 0 = H0 at *
  generalize locGrad 2 I c j 1 = H1 at *
  generalize X (P.dofs c i) 0 - X (P.dofs c l) 0 = p0 at *
  generalize X (P.dofs c i) 1 - X (P.dofs c l) 1 = p1 at *
  generalize X (P.dofs c j) 0 - X (P.dofs c l) 0 = q0 at *
  generalize X (P.dofs c j) 1 - X (P.dofs c l) 1 = q1 at *
  have b1 : G0 * (p0 * q1 - p1 * q0) = q1 := by linear_combination q1 * a1 - p1 * a2
  have b2 : G1 * (p0 * q1 - p1 * q0) = -q0 := by linear_combination -q0 * a1 + p0 * a2
  have b3 : H0 * (p0 * q1 - p1 * q0) = -p1 := by linear_combination -p1 * a3 + q1 * a4
  have b4 : H1 * (p0 * q1 - p1 * q0) = p0 := by linear_combination p0 * a3 - q0 * a4
  have hne : p0 * q1 - p1 * q0 ≠ 0 := fun h0 => by
    rw [h0, mul_zero] at b1 b2
    have : q0 = 0 := by linarith
    rw [← b1, this] at a3
    simp at a3
  have b5 : (G0 * H0 + G1 * H1) * (p0 * q1 - p1 * q0) ^ 2 = -(p0 * q0 + p1 * q1) := by
    linear_combination (H0 * (p0 * q1 - p1 * q0)) * b1 + q1 * b3 + (H1 * (p0 * q1 - p1 * q0)) * b2 - q0 * b4
  by_contra hpos
  push Not at hpos
  have : 0 < (G0 * H0 + G1 * H1) * (p0 * q1 - p1 * q0) ^ 2 := mul_pos hpos (by positivity)
  linarith

theorem C111_intervals (h : P.OnNodes X I) (hN : P.N = 1) : P.NonAcuteGradients fun _ z y => if z = y then 1 else 0 := by
  intro c hc k hk i hi j hj hij
  have hn := nb_eq h
  rw [hN] at hn
  have hs := grads_sum c 0 h
  rw [hn, Finset.sum_range_succ, Finset.sum_range_one] at hs
  simp only [hN, dot, Finset.sum_range_one]
  rw [grad_node h hc hk hi, grad_node h hc hk hj, if_true, one_mul]
  have e : locGrad P.N I c 1 0 = -locGrad P.N I c 0 0 := by linarith
  have : (i = 0 ∧ j = 1) ∨ (i = 1 ∧ j = 0) := by omega
  rcases this with ⟨rfl, rfl⟩ | ⟨rfl, rfl⟩ <;> rw [e] <;> nlinarith [mul_self_nonneg (locGrad P.N I c 0 0)]

end

/-! ### The hypotheses are met -/

theorem lap_diffusive (N : Nat) : Diffusive N (.neg .lap : Op K) fun _ z y => if z = y then 1 else 0 := by
  intro r u v gu gv
  simp only [form, neg_neg, dot]
  refine Finset.sum_congr rfl fun z hz => ?_
  rw [Finset.sum_congr rfl fun y _ => by rw [ite_mul, one_mul, zero_mul], Finset.sum_ite_eq, if_pos hz]

set_option synthInstance.maxHeartbeats 200000 in
set_option synthInstance.maxSize 512 in
/-- The square in four right triangles, with data 3, 5, 4, 7 at the corners. -/
example : ∃ w, (square (.neg .lap)).Galerkin (fun _ _ => 0) (fun p => ([3, 5, 4, 7] : List ℚ).getD p 0) w ∧ 3 ≤ w 4 ∧ w 4 ≤ 7 := by
  have hok : (square (.neg .lap)).Ok := ⟨fun c hc i hi => by
      show squareDofs c i < 5
      unfold squareDofs
      split_ifs <;> omega, fun _ => trivial, trivial⟩
  obtain ⟨lu, h1, h2⟩ := exists_exactLU (K := ℚ) 5
  obtain ⟨w, _, e2, _⟩ := C103_solve_partial (square (.neg .lap)) hok
    (onNodes_coercive (square_onNodes _) (square_linked _) fun _ _ _ _ => C103_laplacian 2 _) lu h1 h2
    ⟨12, 1, fun _ _ => 0⟩ (by decide) rfl ⟨5, 1, fun p _ => ([3, 5, 4, 7] : List ℚ).getD p 0⟩ (by decide) (by decide) (by decide) rfl (fun _ => 0)
  refine ⟨w, e2, ?_⟩
  have hb : ∀ p < 5, p ≠ 4 → (3 : ℚ) ≤ ([3, 5, 4, 7] : List ℚ).getD p 0 ∧ ([3, 5, 4, 7] : List ℚ).getD p 0 ≤ 7 := by decide +kernel
  have hO : ∀ c < 4, ∀ i < 3, ∀ j < 3, ∀ k < 3, i ≠ j → i ≠ k → j ≠ k →
      0 ≤ (squareX (squareDofs c i) 0 - squareX (squareDofs c k) 0) * (squareX (squareDofs c j) 0 - squareX (squareDofs c k) 0) +
        (squareX (squareDofs c i) 1 - squareX (squareDofs c k) 1) * (squareX (squareDofs c j) 1 - squareX (squareDofs c k) 1) := by
    decide +kernel
  exact C111_bounds (square_onNodes _) hok (square_linked _) (fun _ _ _ _ => C103_laplacian 2 _) _ (lap_diffusive 2)
    (C111_triangles (square_onNodes _) rfl fun c hc i hi j hj k hk h1 h2 h3 => by
      show 0 ≤ dot 2 (fun z => squareX (squareDofs c i) z - squareX (squareDofs c k) z) (fun z => squareX (squareDofs c j) z - squareX (squareDofs c k) z)
      rw [dot, Finset.sum_range_succ, Finset.sum_range_one]
      exact hO c hc i hi j hj k hk h1 h2 h3)
    ⟨0, by decide, rfl⟩ _ w 3 7 (fun p hp h => (hb p hp (by rintro rfl; cases h)).1) (fun p hp h => (hb p hp (by rintro rfl; cases h)).2) e2 4 (by decide)

end Fdapde.PDE
