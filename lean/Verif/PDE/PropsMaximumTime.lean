import Verif.PDE.MaximumTimeSpec
import Verif.PDE.PropsMaximum
import Verif.PDE.PropsElements
set_option linter.unusedSectionVars false
/- C160: maximum principle of the time stepping. -/
namespace Fdapde.PDE
open Fdapde.Quadrature Matrix
variable {K : Type} [Field K] [LinearOrder K] [IsStrictOrderedRing K]

theorem value_fe (nb : Nat) (d : Nat → Nat) (u v : Nat → K) (ψ : Nat → K) :
    feValue nb d u ψ * feValue nb d v ψ =
      ∑ i ∈ Finset.range nb, ∑ j ∈ Finset.range nb, u (d i) * v (d j) * (ψ i * ψ j) := by
  simp only [feValue, Finset.sum_mul_sum]
  exact Finset.sum_congr rfl fun i _ => Finset.sum_congr rfl fun j _ => by ring

/-- The form of one time step, by pairs of local functions. -/
theorem step_form (P : Prob K) (D : Nat → Nat → Nat → K) (hop : Diffusive P.N P.op D) (dt : K) (u v : Nat → K) :
    P.l2 u v / dt + P.bilin u v = ∑ c ∈ Finset.range P.n, P.measure c * ∑ i ∈ Finset.range P.nb, ∑ j ∈ Finset.range P.nb,
      u (P.dofs c i) * v (P.dofs c j) * ∑ k ∈ Finset.range (size P.t), weight K P.t k *
        (P.psi i (node K P.t k) * P.psi j (node K P.t k) / dt +
          dot P.N (fun z => dot P.N (D (size P.t * c + k) z) (P.grad c i (node K P.t k))) (P.grad c j (node K P.t k))) := by
  rw [Prob.l2, Prob.bilin, Finset.sum_div, ← Finset.sum_add_distrib]
  refine Finset.sum_congr rfl fun c _ => ?_
  rw [mul_div_assoc, ← mul_add, Finset.sum_div, ← Finset.sum_add_distrib]
  congr 1
  calc ∑ k ∈ Finset.range (size P.t), (weight K P.t k * (feValue P.nb (P.dofs c) u (fun i => P.psi i (node K P.t k)) *
          feValue P.nb (P.dofs c) v fun i => P.psi i (node K P.t k)) / dt + weight K P.t k *
        form P.N P.op (size P.t * c + k) (feValue P.nb (P.dofs c) u fun i => P.psi i (node K P.t k))
          (feValue P.nb (P.dofs c) v fun i => P.psi i (node K P.t k)) (feGrad P.nb (P.dofs c) u fun i => P.grad c i (node K P.t k))
          (feGrad P.nb (P.dofs c) v fun i => P.grad c i (node K P.t k)))
      = ∑ k ∈ Finset.range (size P.t), ∑ i ∈ Finset.range P.nb, ∑ j ∈ Finset.range P.nb, u (P.dofs c i) * v (P.dofs c j) *
        (weight K P.t k * (P.psi i (node K P.t k) * P.psi j (node K P.t k) / dt +
          dot P.N (fun z => dot P.N (D (size P.t * c + k) z) (P.grad c i (node K P.t k))) (P.grad c j (node K P.t k)))) := by
        refine Finset.sum_congr rfl fun k _ => ?_
        rw [hop, dot_fe, value_fe, mul_div_assoc, ← mul_add, Finset.sum_div, ← Finset.sum_add_distrib, Finset.mul_sum]
        refine Finset.sum_congr rfl fun i _ => ?_
        rw [Finset.sum_div, ← Finset.sum_add_distrib, Finset.mul_sum]
        exact Finset.sum_congr rfl fun j _ => by ring
    _ = _ := by
        rw [Finset.sum_comm]
        refine Finset.sum_congr rfl fun i _ => ?_
        rw [Finset.sum_comm]
        exact Finset.sum_congr rfl fun j _ => by rw [Finset.mul_sum]

/-- C160: one time step from values that are not negative, with forcing and boundary data that are not negative, gives values that are
not negative, if the time step is not too small for the cells. -/
theorem C160_step_nonneg (P : Prob K) (hP : P.Ok) (hm : ∀ c < P.n, 0 < P.measure c) (hw : ∀ k < size P.t, 0 < weight K P.t k)
    (hpsi : ∀ k < size P.t, ∀ i < P.nb, 0 ≤ P.psi i (node K P.t k)) (D : Nat → Nat → Nat → K) (hop : Diffusive P.N P.op D)
    (hE : ∀ c < P.n, ∀ k < size P.t, ∀ (u : K) (g : Nat → K), 0 ≤ form P.N P.op (size P.t * c + k) u u g g)
    (hM : ∀ v, P.l2 v v = 0 → ∀ p < P.m, v p = 0) (dt : K) (hdt : 0 < dt) (hS : P.StepCondition D dt)
    (f : Nat → Nat → K) (hf : ∀ c < P.n, ∀ k < size P.t, 0 ≤ f c k) (w0 w : Nat → K) (h0 : ∀ p < P.m, 0 ≤ w0 p)
    (hb : ∀ p < P.m, P.bd p = true → 0 ≤ w p)
    (h : ∀ v, P.Test v → P.l2 (fun p => (w p - w0 p) / dt) v + P.bilin w v = P.load f v) : ∀ p < P.m, 0 ≤ w p := by
  set v : Nat → K := fun p => min (w p) 0 with hv
  set u : Nat → K := fun p => max (w p) 0 with hu
  have hT : P.Test v := fun p hp hbp => min_eq_right (hb p hp hbp)
  have hwv : w = fun p => v p + 1 * u p := by
    funext p
    simp only [hv, hu, one_mul]
    rw [min_add_max, add_zero]
  have hval : ∀ c < P.n, ∀ k < size P.t, feValue P.nb (P.dofs c) v (fun i => P.psi i (node K P.t k)) ≤ 0 := fun c _ k hk =>
    Finset.sum_nonpos fun i hi => mul_nonpos_of_nonpos_of_nonneg (min_le_right _ _) (hpsi k hk i (Finset.mem_range.1 hi))
  have hload : P.load f v ≤ 0 := by
    refine Finset.sum_nonpos fun c hc => mul_nonpos_of_nonneg_of_nonpos (hm c (Finset.mem_range.1 hc)).le (Finset.sum_nonpos fun k hk =>
      mul_nonpos_of_nonneg_of_nonpos (hw k (Finset.mem_range.1 hk)).le (mul_nonpos_of_nonneg_of_nonpos
        (hf c (Finset.mem_range.1 hc) k (Finset.mem_range.1 hk)) (hval c (Finset.mem_range.1 hc) k (Finset.mem_range.1 hk))))
  have hl0 : P.l2 w0 v ≤ 0 := by
    refine Finset.sum_nonpos fun c hc => mul_nonpos_of_nonneg_of_nonpos (hm c (Finset.mem_range.1 hc)).le (Finset.sum_nonpos fun k hk =>
      mul_nonpos_of_nonneg_of_nonpos (hw k (Finset.mem_range.1 hk)).le (mul_nonpos_of_nonneg_of_nonpos ?_
        (hval c (Finset.mem_range.1 hc) k (Finset.mem_range.1 hk))))
    exact Finset.sum_nonneg fun i hi => mul_nonneg (h0 _ (hP.dofs c (Finset.mem_range.1 hc) i (Finset.mem_range.1 hi)))
      (hpsi k (Finset.mem_range.1 hk) i (Finset.mem_range.1 hi))
  have huv : 0 ≤ P.l2 u v / dt + P.bilin u v := by
    rw [step_form P D hop]
    refine Finset.sum_nonneg fun c hc => mul_nonneg (hm c (Finset.mem_range.1 hc)).le
      (Finset.sum_nonneg fun i hi => Finset.sum_nonneg fun j hj => ?_)
    by_cases hij : i = j
    · subst hij
      refine le_of_eq (mul_eq_zero_of_left ?_ _).symm
      simp only [hu, hv]
      rcases le_total (w (P.dofs c i)) 0 with h | h
      · rw [max_eq_right h, zero_mul]
      · rw [min_eq_right h, mul_zero]
    · by_cases hbj : P.bd (P.dofs c j) = true
      · rw [hT _ (hP.dofs c (Finset.mem_range.1 hc) j (Finset.mem_range.1 hj)) hbj, mul_zero, zero_mul]
      · exact mul_nonneg_of_nonpos_of_nonpos (mul_nonpos_of_nonneg_of_nonpos (le_max_right _ _) (min_le_right _ _))
          (hS c (Finset.mem_range.1 hc) i (Finset.mem_range.1 hi) j (Finset.mem_range.1 hj) hij (by simpa using hbj))
  have h1 := h v hT
  have h2 : P.bilin w v = P.bilin v v + 1 * P.bilin u v := by
    rw [← bilin_left P hP, ← hwv]
  have h3 : P.l2 (fun p => (w p - w0 p) / dt) v = dt⁻¹ * P.l2 w v + -dt⁻¹ * P.l2 w0 v := by
    rw [← l2_left P hP]
    congr 1
    funext p
    ring
  have h4 : P.l2 w v = 1 * P.l2 v v + 1 * P.l2 u v := by
    rw [← l2_left P hP]
    congr 1
    rw [hwv]
    funext p
    ring
  have hinv : 0 < dt⁻¹ := inv_pos.2 hdt
  have hbv : 0 ≤ P.bilin v v :=
    Finset.sum_nonneg fun c hc => mul_nonneg (hm c (Finset.mem_range.1 hc)).le
      (Finset.sum_nonneg fun k hk => mul_nonneg (hw k (Finset.mem_range.1 hk)).le
        (hE c (Finset.mem_range.1 hc) k (Finset.mem_range.1 hk) _ _))
  have hlv := l2_nonneg P hm hw v
  have h5 : dt⁻¹ * P.l2 w0 v ≤ 0 := mul_nonpos_of_nonneg_of_nonpos hinv.le hl0
  have h6 : 0 ≤ dt⁻¹ * P.l2 v v := mul_nonneg hinv.le hlv
  rw [h3, h4, h2] at h1
  rw [div_eq_inv_mul] at huv
  have h7 : dt⁻¹ * P.l2 v v = 0 := by nlinarith
  have h8 := hM v ((mul_eq_zero.1 h7).resolve_left hinv.ne')
  intro p hp
  exact min_eq_right_iff.1 (h8 p hp)

section
variable {P : Prob K} {X : Nat → Nat → K} {I : Nat → Nat → Nat → K}

/-- C160 (dof 0 on the boundary, see `C63_bug_dof_zero`): what `solve` returns for a parabolic problem of diffusion is not negative at any
time when initial values, forcing and boundary data are not negative, and without forcing it stays between the bounds of initial and
boundary values, if the time step is not too small for the cells (`C160_bug_small_step` shows that this cannot be dropped). -/
theorem C160_solve_partial (h : P.OnNodes X I) (hP : P.Ok) (hdT : hasDT P.op = true)
    (hcov : ∀ p < P.m, ∃ c < P.n, ∃ i < P.nb, P.dofs c i = p)
    (hE : ∀ c < P.n, ∀ k < size P.t, ∀ (u : K) (g : Nat → K), 0 ≤ form P.N P.op (size P.t * c + k) u u g g)
    (D : Nat → Nat → Nat → K) (hop : Diffusive P.N P.op D) (t0 t1 : K) (ht : t0 < t1) (ts : List K)
    (hS : P.StepCondition D (t1 - t0)) (lu : Solver K) (hlu : ExactLU P.m lu) (hlc : CompleteLU P.m lu)
    (data : Dense K) (hr : P.n * size P.t ≤ data.rows) (hc : 0 < data.cols) (g : Dense K) (hg : P.m ≤ g.rows)
    (hgc : data.cols ≤ g.cols) (hm : 0 < P.m) (h0 : P.bd 0 = true) (junk ic : Nat → K) :
    ∃ sol, (P.init data junk >>= pdeSolveParabolic lu (t0 :: t1 :: ts) data.cols ic g) = .ok (true, sol) ∧
      ((∀ c < P.n, ∀ k < size P.t, ∀ j < data.cols, 0 ≤ data.at' (size P.t * c + k) j) → (∀ p < P.m, 0 ≤ ic p) →
        (∀ p < P.m, P.bd p = true → ∀ j < data.cols, 0 ≤ g.at' p j) → ∀ j < data.cols, ∀ p < P.m, 0 ≤ sol j p) ∧
      ∀ lo hi : K, (∀ c < P.n, ∀ k < size P.t, ∀ j < data.cols, data.at' (size P.t * c + k) j = 0) →
        (∀ p < P.m, lo ≤ ic p ∧ ic p ≤ hi) →
        (∀ p < P.m, P.bd p = true → ∀ j < data.cols, lo ≤ g.at' p j ∧ g.at' p j ≤ hi) →
        ∀ j < data.cols, ∀ p < P.m, lo ≤ sol j p ∧ sol j p ≤ hi := by
  have hme : ∀ c < P.n, 0 < P.measure c := fun c hc => measure_pos h hc
  have hwp : ∀ k < size P.t, 0 < weight K P.t k := fun k hk => weight_pos h hk
  have hM : ∀ v, P.l2 v v = 0 → ∀ p < P.m, v p = 0 := fun v => (C104_mass_definite P h.lagrange (by simp) hme hcov v).2
  have hdt : 0 < t1 - t0 := by linarith
  obtain ⟨sol, e⟩ := C104_succeeds_partial P hP hE hme hwp hM lu hlu hlc data hr hc g hg hgc hm h0 junk ic t0 t1 ht ts
  obtain ⟨b, sol', e1, e2, e3⟩ := C102_parabolic_partial P hP hdT lu hlu data hr hc g hg hgc hm h0 junk ic t0 t1 ts
  rw [e] at e1
  obtain ⟨rfl, rfl⟩ : true = b ∧ sol = sol' := by
    have := (Res.ok.injEq _ _).mp e1
    exact ⟨congrArg Prod.fst this, congrArg Prod.snd this⟩
  have e3 := e3 rfl
  refine ⟨sol, e, fun hf hic hgb => ?_, fun lo hi hf hic hgb => ?_⟩
  · intro j
    induction j with
    | zero => intro _ p hp; rw [e2]; exact hic p hp
    | succ j ih =>
      intro hj
      obtain ⟨a1, a2⟩ := e3 j hj
      exact C160_step_nonneg P hP hme hwp (fun k hk i hi => psi_nonneg h hk hi) D hop hE hM _ hdt hS _
        (fun c hc k hk => hf c hc k hk (j + 1) hj) (sol j) (sol (j + 1)) (ih (by omega))
        (fun p hp hb => by rw [a1 p hp hb]; exact hgb p hp hb (j + 1) hj) a2
  · have key : ∀ (x y : K), (∀ p < P.m, 0 ≤ y + x * ic p) → (∀ p < P.m, P.bd p = true → ∀ j < data.cols, 0 ≤ y + x * g.at' p j) →
        ∀ j < data.cols, ∀ p < P.m, 0 ≤ y + x * sol j p := by
      intro x y hi0 hb0 j
      induction j with
      | zero => intro _ p hp; rw [e2]; exact hi0 p hp
      | succ j ih =>
        intro hj
        obtain ⟨a1, a2⟩ := e3 j hj
        refine C160_step_nonneg P hP hme hwp (fun k hk i hi => psi_nonneg h hk hi) D hop hE hM _ hdt hS (fun _ _ => 0)
          (fun _ _ _ _ => le_rfl) (fun p => y + x * sol j p) (fun p => y + x * sol (j + 1) p) (ih (by omega))
          (fun p hp hb => by show 0 ≤ y + x * sol (j + 1) p; rw [a1 p hp hb]; exact hb0 p hp hb (j + 1) hj) fun v hv => ?_
        have a3 := a2 v hv
        have hl : P.load (fun c k => data.at' (size P.t * c + k) (j + 1)) v = 0 := by
          refine Finset.sum_eq_zero fun c hc => mul_eq_zero_of_right _ (Finset.sum_eq_zero fun k hk => ?_)
          dsimp only
          rw [hf c (Finset.mem_range.1 hc) k (Finset.mem_range.1 hk) (j + 1) hj]
          ring
        have hl' : P.load (fun _ _ => 0) v = 0 := by simp [Prob.load]
        have h3 : P.l2 (fun p => (y + x * sol (j + 1) p - (y + x * sol j p)) / (t1 - t0)) v =
            x * P.l2 (fun p => (sol (j + 1) p - sol j p) / (t1 - t0)) v + 0 * P.l2 (fun p => (sol (j + 1) p - sol j p) / (t1 - t0)) v := by
          rw [← l2_left P hP]
          congr 1
          funext p
          ring
        rw [bilin_left P hP, bilin_const h D hop, h3, hl']
        rw [hl] at a3
        linear_combination x * a3
    intro j hj p hp
    constructor
    · have := key 1 (-lo) (fun p hp => by linarith [(hic p hp).1]) (fun p hp hb j hj => by linarith [(hgb p hp hb j hj).1]) j hj p hp
      linarith
    · have := key (-1) hi (fun p hp => by linarith [(hic p hp).2]) (fun p hp hb j hj => by linarith [(hgb p hp hb j hj).2]) j hj p hp
      linarith

/-- Products of distinct first order functions, integrated with the stored rule, and the sum of its weights. -/
theorem first_products : ∀ e ∈ [(1, 1, 2), (2, 1, 3), (3, 1, 4)], ∀ t, FEM.standardRule e.1 e.2.1 = some t →
    (1 - 1 / 10 ^ 12 ≤ ∑ k ∈ Finset.range (size t), t.weights.getD k 0) ∧ ∀ i < e.2.2, ∀ j < e.2.2, i ≠ j →
      ∑ k ∈ Finset.range (size t), t.weights.getD k 0 * (FEM.look (FEM.litVal e.1 e.2.1) k i * FEM.look (FEM.litVal e.1 e.2.1) k j) ≤
        (1 + 1 / 10 ^ 12) / (((e.1 + 1) * (e.1 + 2) : Nat) : ℚ) := by
  intro e he t ht
  simp only [List.mem_cons, List.not_mem_nil, or_false] at he
  rcases he with rfl | rfl | rfl <;>
    (simp only [FEM.standardRule, ruleSize, table, Option.some.injEq] at ht; subst ht; constructor <;> decide +kernel)

/-- C160: first-order elements and the Laplacian: the condition on the step in terms of the constant gradients of the cells; the last
factor is for the printed digits of the quadrature rule. -/
theorem C160_condition (h : P.OnNodes X I) (dt : K) (hdt : 0 < dt)
    (hG : ∀ c < P.n, ∀ i < P.nb, ∀ j < P.nb, i ≠ j → P.bd (P.dofs c j) = false →
      (1 + 1 / 10 ^ 11) / ((((P.N + 1) * (P.N + 2) : Nat) : K) * dt) ≤ -dot P.N (locGrad P.N I c i) (locGrad P.N I c j)) :
    P.StepCondition (fun _ z y => if z = y then 1 else 0) dt := by
  intro c hc i hi j hj hij hbj
  have hr := FEM.rule_node (K := K) h.lagrange.supported h.lagrange.rule
  obtain ⟨hw, hp⟩ := first_products _ (first_mem h.lagrange.supported).1 P.t h.lagrange.rule
  have hp := hp i hi j hj hij
  have hG := hG c hc i hi j hj hij hbj
  set G := dot P.N (locGrad P.N I c i) (locGrad P.N I c j) with hGdef
  have hpsi : ∀ k < size P.t, ∀ i < P.nb, P.psi i (node K P.t k) = ((FEM.look (FEM.litVal P.N 1) k i : ℚ) : K) := by
    intro k hk i hi
    have h1 := h.lagrange.psi ⟨i, hi⟩ (node K P.t k)
    simp only at h1
    rw [h1, FEM.refBasis_node h.lagrange.supported h.lagrange.rule k hk]
  have hgr : ∀ k < size P.t, dot P.N (fun z => dot P.N (fun y => if z = y then (1 : K) else 0) (P.grad c i (node K P.t k)))
      (P.grad c j (node K P.t k)) = G := by
    intro k hk
    rw [hGdef]
    simp only [dot]
    refine Finset.sum_congr rfl fun z hz => ?_
    rw [Finset.sum_congr rfl fun y _ => by rw [ite_mul, one_mul, zero_mul], Finset.sum_ite_eq, if_pos hz,
      grad_node h hc hk hi, grad_node h hc hk hj]
  have e1 : ∑ k ∈ Finset.range (size P.t), weight K P.t k * (P.psi i (node K P.t k) * P.psi j (node K P.t k) / dt +
      dot P.N (fun z => dot P.N (fun y => if z = y then (1 : K) else 0) (P.grad c i (node K P.t k))) (P.grad c j (node K P.t k))) =
      ((∑ k ∈ Finset.range (size P.t), P.t.weights.getD k 0 * (FEM.look (FEM.litVal P.N 1) k i * FEM.look (FEM.litVal P.N 1) k j) : ℚ) : K) / dt +
        ((∑ k ∈ Finset.range (size P.t), P.t.weights.getD k 0 : ℚ) : K) * G := by
    push_cast
    rw [Finset.sum_div, Finset.sum_mul, ← Finset.sum_add_distrib]
    refine Finset.sum_congr rfl fun k hk => ?_
    rw [hgr k (Finset.mem_range.1 hk), hpsi k (Finset.mem_range.1 hk) i hi, hpsi k (Finset.mem_range.1 hk) j hj, weight]
    ring
  rw [e1]
  have hw' : (1 - 1 / 10 ^ 12 : K) ≤ ((∑ k ∈ Finset.range (size P.t), P.t.weights.getD k 0 : ℚ) : K) := by
    have : (((1 - 1 / 10 ^ 12 : ℚ)) : K) ≤ ((∑ k ∈ Finset.range (size P.t), P.t.weights.getD k 0 : ℚ) : K) := by exact_mod_cast hw
    push_cast at this ⊢
    exact this
  have hp' : ((∑ k ∈ Finset.range (size P.t), P.t.weights.getD k 0 * (FEM.look (FEM.litVal P.N 1) k i * FEM.look (FEM.litVal P.N 1) k j) : ℚ) : K) ≤
      (1 + 1 / 10 ^ 12) / (((P.N + 1) * (P.N + 2) : Nat) : K) := by
    have := (Rat.cast_le (K := K)).2 hp
    push_cast at this ⊢
    exact this
  generalize ((∑ k ∈ Finset.range (size P.t), P.t.weights.getD k 0 : ℚ) : K) = W at hw' ⊢
  generalize ((∑ k ∈ Finset.range (size P.t), P.t.weights.getD k 0 * (FEM.look (FEM.litVal P.N 1) k i * FEM.look (FEM.litVal P.N 1) k j) : ℚ) : K) = S at hp' ⊢
  have hn : (0 : K) < (((P.N + 1) * (P.N + 2) : Nat) : K) := by
    exact_mod_cast Nat.mul_pos (Nat.succ_pos _) (Nat.succ_pos _)
  generalize (((P.N + 1) * (P.N + 2) : Nat) : K) = q at hn hp' hG
  have hq : 0 < 1 / (q * dt) := by positivity
  have hG0 : (1 + 1 / 10 ^ 11) * (1 / (q * dt)) ≤ -G := by rw [mul_one_div]; exact hG
  have hS : S / dt ≤ (1 + 1 / 10 ^ 12) * (1 / (q * dt)) := by
    calc S / dt ≤ (1 + 1 / 10 ^ 12) / q / dt := by gcongr
      _ = _ := by rw [div_div, mul_one_div]
  generalize 1 / (q * dt) = x at hq hG0 hS
  have hG1 : G ≤ 0 := by nlinarith
  have : W * G ≤ (1 - 1 / 10 ^ 12) * G := mul_le_mul_of_nonpos_right hw' hG1
  have h9 : (1 - 1 / 10 ^ 12 : K) * G ≤ -((1 - 1 / 10 ^ 12) * ((1 + 1 / 10 ^ 11) * x)) := by
    have : (0 : K) ≤ 1 - 1 / 10 ^ 12 := by norm_num
    nlinarith
  have h10 : (1 + 1 / 10 ^ 12 : K) * x ≤ (1 - 1 / 10 ^ 12) * ((1 + 1 / 10 ^ 11) * x) := by
    rw [← mul_assoc]
    refine mul_le_mul_of_nonneg_right ?_ hq.le
    norm_num
  linarith

/-- C160: triangles and the Laplacian. -/
theorem C160_triangles (h : P.OnNodes X I) (hN : P.N = 2) (dt : K) (hdt : 0 < dt) (hO : P.TriangleStep X dt) :
    P.StepCondition (fun _ z y => if z = y then 1 else 0) dt := by
  refine C160_condition h dt hdt fun c hc i hi j hj hij hbj => ?_
  have hn := nb_eq h
  rw [hN] at hn
  rw [hn] at hi hj
  have hl : ∃ l < 3, i ≠ l ∧ j ≠ l := ⟨3 - i - j, by omega, by omega, by omega⟩
  obtain ⟨l, hl, hil, hjl⟩ := hl
  have hd : ∀ i < 3, ∀ j < 3, ∀ l < 3, locGrad P.N I c i 0 * (X (P.dofs c j) 0 - X (P.dofs c l) 0) +
      locGrad P.N I c i 1 * (X (P.dofs c j) 1 - X (P.dofs c l) 1) = (if i = j then 1 else 0) - if i = l then 1 else 0 := by
    intro i hi j hj l hl
    have key : ∀ j < 3, dot P.N (locGrad P.N I c i) (fun z => X (P.dofs c j) z - X (P.dofs c 0) z) = (if i = j then 1 else 0) - if i = 0 then 1 else 0 := by
      intro j hj
      have h1 := dual h hc ⟨i, by omega⟩ ⟨j, by omega⟩
      rw [show grads P I c ⟨i, by omega⟩ ⬝ᵥ (vert P X c ⟨j, by omega⟩ - vert P X c 0) =
        dot P.N (locGrad P.N I c i) (fun z => X (P.dofs c j) z - X (P.dofs c 0) z) from
        dotProduct_dot (locGrad P.N I c i) (fun z => X (P.dofs c j) z - X (P.dofs c 0) z)] at h1
      simpa only [Fin.ext_iff, Fin.val_zero] using h1
    have h1 := key j hj
    have h2 := key l hl
    simp only [hN, dot, Finset.sum_range_succ, Finset.sum_range_zero, zero_add] at h1 h2
    rw [hN]
    linear_combination h1 - h2
  have hO' := hO c hc i hi j hj l hl hij hil hjl hbj
  have a1 := hd i hi i hi l hl
  have a2 := hd i hi j hj l hl
  have a3 := hd j hj j hj l hl
  have a4 := hd j hj i hi l hl
  rw [if_pos rfl, if_neg hil] at a1
  rw [if_neg hij, if_neg hil] at a2
  rw [if_pos rfl, if_neg hjl] at a3
  rw [if_neg hij.symm, if_neg hjl] at a4
  rw [hN] at *
  simp only [dot, Finset.sum_range_succ, Finset.sum_range_zero, zero_add] at hO' ⊢
  generalize locGrad 2 I c i 0 = G0 at *
  generalize locGrad 2 I c i 1 = G1 at *
  generalize locGrad 2 I c j 0 = H0 at *
  generalize locGrad 2 I c j 1 = H1 at *
  generalize X (P.dofs c i) 0 - X (P.dofs c l) 0 = p0 at *
  generalize X (P.dofs c i) 1 - X (P.dofs c l) 1 = p1 at *
  generalize X (P.dofs c j) 0 - X (P.dofs c l) 0 = q0 at *
  generalize X (P.dofs c j) 1 - X (P.dofs c l) 1 = q1 at *
  have b1 : G0 * (p0 * q1 - p1 * q0) = q1 := by linear_combination q1 * a1 - p1 * a2
  have b2 : G1 * (p0 * q1 - p1 * q0) = -q0 := by linear_combination -q0 * a1 + p0 * a2
  have b3 : H0 * (p0 * q1 - p1 * q0) = -p1 := by linear_combination -p1 * a3 + q1 * a4
  have b4 : H1 * (p0 * q1 - p1 * q0) = p0 := by linear_combination p0 * a3 - q0 * a4
  have hne : p0 * q1 - p1 * q0 ≠ 0 := fun h0 => by
    rw [h0, mul_zero] at b1 b2
    have : q0 = 0 := by linarith
    rw [← b1, this] at a3
    simp at a3
  have b5 : (G0 * H0 + G1 * H1) * (p0 * q1 - p1 * q0) ^ 2 = -(p0 * q0 + p1 * q1) := by
    linear_combination (H0 * (p0 * q1 - p1 * q0)) * b1 + q1 * b3 + (H1 * (p0 * q1 - p1 * q0)) * b2 - q0 * b4
  have hpos : 0 < (p0 * q1 - p1 * q0) ^ 2 := by positivity
  have h12 : (((2 + 1) * (2 + 2) : Nat) : K) = 12 := by norm_num
  rw [h12, div_le_iff₀ (by positivity)]
  generalize (p0 * q1 - p1 * q0) ^ 2 = d at *
  have : (1 + 1 / 10 ^ 11) * d ≤ -(G0 * H0 + G1 * H1) * (12 * dt) * d := by
    calc (1 + 1 / 10 ^ 11) * d ≤ 12 * dt * (p0 * q0 + p1 * q1) := hO'
      _ = _ := by linear_combination (12 * dt) * b5
  exact le_of_mul_le_mul_right this hpos

/-- C160: intervals and the second derivative: the squared length of every cell is at most six times the time step. -/
theorem C160_intervals (h : P.OnNodes X I) (hN : P.N = 1) (dt : K) (hdt : 0 < dt)
    (hO : ∀ c < P.n, (1 + 1 / 10 ^ 11) * (X (P.dofs c 1) 0 - X (P.dofs c 0) 0) ^ 2 ≤ 6 * dt) :
    P.StepCondition (fun _ z y => if z = y then 1 else 0) dt := by
  refine C160_condition h dt hdt fun c hc i hi j hj hij _ => ?_
  have hn := nb_eq h
  rw [hN] at hn
  have hs := grads_sum c 0 h
  rw [hn, Finset.sum_range_succ, Finset.sum_range_one] at hs
  have h1 := dual h hc ⟨1, by omega⟩ ⟨1, by omega⟩
  rw [show grads P I c ⟨1, by omega⟩ ⬝ᵥ (vert P X c ⟨1, by omega⟩ - vert P X c 0) =
    dot P.N (locGrad P.N I c 1) (fun z => X (P.dofs c 1) z - X (P.dofs c 0) z) from
    dotProduct_dot (locGrad P.N I c 1) (fun z => X (P.dofs c 1) z - X (P.dofs c 0) z)] at h1
  simp only [Fin.ext_iff, Fin.val_zero] at h1
  have hO := hO c hc
  have h6 : (((P.N + 1) * (P.N + 2) : Nat) : K) = 6 := by rw [hN]; norm_num
  rw [h6]
  have hdot : ∀ a b : Nat → K, dot P.N a b = a 0 * b 0 := fun a b => by rw [hN, dot, Finset.sum_range_one]
  rw [hdot] at h1 ⊢
  rw [if_pos trivial, if_neg (by norm_num), sub_zero] at h1
  have e : locGrad P.N I c 0 0 = -locGrad P.N I c 1 0 := by linarith
  have hG : locGrad P.N I c i 0 * locGrad P.N I c j 0 = -(locGrad P.N I c 1 0) ^ 2 := by
    have : (i = 0 ∧ j = 1) ∨ (i = 1 ∧ j = 0) := by omega
    rcases this with ⟨rfl, rfl⟩ | ⟨rfl, rfl⟩ <;> rw [e] <;> ring
  rw [hG, neg_neg, div_le_iff₀ (by positivity)]
  generalize locGrad P.N I c 1 0 = G at *
  generalize X (P.dofs c 1) 0 - X (P.dofs c 0) 0 = d at *
  have h2 : G ^ 2 * d ^ 2 = 1 := by rw [← mul_pow, h1, one_pow]
  nlinarith [mul_le_mul_of_nonneg_left hO (sq_nonneg G)]

end

/-! ### The condition cannot be dropped, and the hypotheses are met -/

theorem heat_diffusive_op (N : Nat) : Diffusive N (.add .dT (.neg .lap) : Op K) fun _ z y => if z = y then 1 else 0 := by
  intro r u v gu gv
  have := lap_diffusive (K := K) N r u v gu gv
  simp only [form] at this ⊢
  rw [zero_add]
  exact this

theorem demo_mass (v : Nat → ℚ) (hv : (demoProb (.add .dT (.neg .lap))).l2 v v = 0) : ∀ p < 3, v p = 0 := by
  have e : ∀ a b c d : ℚ, 1 / 2 * (1 / 2 * (a * a) + 1 / 2 * (b * b)) + 1 / 2 * (1 / 2 * (c * c) + 1 / 2 * (d * d)) = 0 → a = 0 ∧ b = 0 ∧ c = 0 ∧ d = 0 := by
    intro a b c d h
    refine ⟨?_, ?_, ?_, ?_⟩ <;> (apply mul_self_eq_zero.1; nlinarith [mul_self_nonneg a, mul_self_nonneg b, mul_self_nonneg c, mul_self_nonneg d])
  have hs : size (demoProb (.add .dT (.neg .lap))).t = 2 := rfl
  have w0 : weight ℚ rule1_2 0 = 1 / 2 := by norm_num [weight, rule1_2]
  have w1 : weight ℚ rule1_2 1 = 1 / 2 := by norm_num [weight, rule1_2]
  have n0 : node ℚ rule1_2 0 0 = 211324865405187 / 1000000000000000 := by norm_num [node, rule1_2]
  have n1 : node ℚ rule1_2 1 0 = 788675134594812 / 1000000000000000 := by norm_num [node, rule1_2]
  simp only [Prob.l2, hs] at hv
  simp only [demoProb, feValue, Finset.sum_range_succ, Finset.sum_range_zero, w0, w1, n0, n1, zero_add, if_true,
    one_ne_zero, if_false, Nat.add_zero, Nat.reduceAdd] at hv
  obtain ⟨a, b, c, d⟩ := e _ _ _ _ hv
  intro p hp
  rcases (by omega : p = 0 ∨ p = 1 ∨ p = 2) with rfl | rfl | rfl <;> linarith

/-- C160 (finding): the condition on the step cannot be dropped.  A rod of length one in two cells, at temperature zero, is heated to one
at its left end and kept at zero at the other: for every time step up to 1/25 the temperature computed in the middle after the first
step is negative, lower than all the data.  (Cells of length 1/2 satisfy the condition from 1/24 on.) -/
theorem C160_bug_small_step (dt : ℚ) (hdt : 0 < dt) (hsmall : dt ≤ 1 / 25) (lu : Solver ℚ) (hlu : ExactLU 3 lu) (hlc : CompleteLU 3 lu) :
    ∃ sol, ((demoProb (.add .dT (.neg .lap))).init ⟨4, 2, fun _ _ => 0⟩ (fun _ => 0) >>=
      pdeSolveParabolic lu [0, dt] 2 (fun _ => 0) ⟨3, 2, fun p _ => if p = 0 then 1 else 0⟩) = .ok (true, sol) ∧
      sol 1 0 = 1 ∧ sol 1 2 = 0 ∧ sol 1 1 < 0 := by
  obtain ⟨sol, e⟩ := C104_succeeds_partial (demoProb (.add .dT (.neg .lap))) demoProb_ok.2
    (fun c hc k hk u g => (((C103_compose 1 _ _ (C103_laplacian 1 _)).2.1) u g).1) (fun c _ => by norm_num [demoProb]) demo_weight
    demo_mass lu hlu hlc ⟨4, 2, fun _ _ => 0⟩ (by decide) (by decide) ⟨3, 2, fun p _ => if p = 0 then 1 else 0⟩ (by decide) (by decide)
    (by decide) rfl (fun _ => 0) (fun _ => 0) 0 dt hdt []
  obtain ⟨b, sol', e1, e2, e3⟩ := C102_parabolic_partial (demoProb (.add .dT (.neg .lap))) demoProb_ok.2 rfl lu hlu
    ⟨4, 2, fun _ _ => 0⟩ (by decide) (by decide) ⟨3, 2, fun p _ => if p = 0 then 1 else 0⟩ (by decide) (by decide) (by decide) rfl
    (fun _ => 0) (fun _ => 0) 0 dt []
  rw [e] at e1
  obtain ⟨rfl, rfl⟩ : true = b ∧ sol = sol' := by
    have := (Res.ok.injEq _ _).mp e1
    exact ⟨congrArg Prod.fst this, congrArg Prod.snd this⟩
  obtain ⟨a1, a2⟩ := e3 rfl 0 (by decide)
  have s0 : sol 1 0 = 1 := a1 0 (by decide) rfl
  have s2 : sol 1 2 = 0 := a1 2 (by decide) rfl
  refine ⟨sol, e, s0, s2, ?_⟩
  have hv := a2 (fun p => if p = 1 then 1 else 0) (by
    intro p hp hb
    have : p ≠ 1 := by rintro rfl; cases hb
    simp [this])
  simp [Prob.l2, Prob.bilin, Prob.load, demoProb, form, feValue, feGrad, dot, Finset.sum_range_succ, size, rule1_2, weight, node, s0, s2, e2] at hv
  field_simp at hv
  by_contra hneg
  push Not at hneg
  norm_num at hv
  nlinarith

set_option synthInstance.maxHeartbeats 400000 in
set_option synthInstance.maxSize 1024 in
/-- Hypotheses of `C160_solve_partial` and `C160_triangles`: the square in four triangles, from the step 1/20 on. -/
example (dt : ℚ) (h : 1 / 20 ≤ dt) : ∃ (lu : Solver ℚ) (sol : Nat → Nat → ℚ),
    ((square (.add .dT (.neg .lap))).init ⟨12, 3, fun _ _ => 0⟩ (fun _ => 0) >>=
      pdeSolveParabolic lu [0, dt, 2 * dt] 3 (fun p => if p = 4 then 5 else 0) ⟨5, 3, fun p j => if p = 0 then j else 1⟩) = .ok (true, sol) ∧
      0 ≤ sol 2 4 ∧ sol 2 4 ≤ 5 := by
  have hdt : 0 < dt := by linarith
  have hok : (square (.add .dT (.neg .lap))).Ok := ⟨fun c hc i hi => by
      show squareDofs c i < 5
      unfold squareDofs
      split_ifs <;> omega, fun _ => ⟨trivial, trivial⟩, ⟨trivial, trivial⟩⟩
  obtain ⟨lu, h1, h2⟩ := exists_exactLU (K := ℚ) 5
  have hcov : ∀ p < 5, ∃ c < 4, ∃ i < 3, squareDofs c i = p := by decide +kernel
  have hO : ∀ c < 4, ∀ i < 3, ∀ j < 3, ∀ l < 3, i ≠ j → i ≠ l → j ≠ l → squareDofs c j = 4 →
      (1 + 1 / 10 ^ 11) * ((squareX (squareDofs c i) 0 - squareX (squareDofs c l) 0) * (squareX (squareDofs c j) 1 - squareX (squareDofs c l) 1) -
        (squareX (squareDofs c i) 1 - squareX (squareDofs c l) 1) * (squareX (squareDofs c j) 0 - squareX (squareDofs c l) 0)) ^ 2 ≤
      12 * (1 / 20) * ((squareX (squareDofs c i) 0 - squareX (squareDofs c l) 0) * (squareX (squareDofs c j) 0 - squareX (squareDofs c l) 0) +
        (squareX (squareDofs c i) 1 - squareX (squareDofs c l) 1) * (squareX (squareDofs c j) 1 - squareX (squareDofs c l) 1)) := by
    decide +kernel
  have hO2 : ∀ c < 4, ∀ i < 3, ∀ j < 3, ∀ l < 3, i ≠ j → i ≠ l → j ≠ l →
      0 ≤ ((squareX (squareDofs c i) 0 - squareX (squareDofs c l) 0) * (squareX (squareDofs c j) 0 - squareX (squareDofs c l) 0) +
        (squareX (squareDofs c i) 1 - squareX (squareDofs c l) 1) * (squareX (squareDofs c j) 1 - squareX (squareDofs c l) 1)) := by
    decide +kernel
  have hS : (square (.add .dT (.neg .lap))).StepCondition (fun _ z y => if z = y then 1 else 0) (dt - 0) := by
    rw [sub_zero]
    refine C160_triangles (square_onNodes _) rfl dt hdt fun c hc i hi j hj l hl hij hil hjl hb => ?_
    have hj4 : squareDofs c j = 4 := by
      have : (squareDofs c j != 4) = false := hb
      simpa using this
    have h3 := hO c hc i hi j hj l hl hij hil hjl hj4
    have h4 := hO2 c hc i hi j hj l hl hij hil hjl
    rw [dot, Finset.sum_range_succ, Finset.sum_range_one]
    refine le_trans h3 (mul_le_mul_of_nonneg_right (by linarith) h4)
  obtain ⟨sol, e, _, hb⟩ := C160_solve_partial (square_onNodes (.add .dT (.neg .lap))) hok rfl hcov
    (fun c hc k hk u g => (((C103_compose 2 _ _ (C103_laplacian 2 _)).2.1) u g).1) _ (heat_diffusive_op 2) 0 dt hdt [2 * dt] hS lu h1 h2
    ⟨12, 3, fun _ _ => 0⟩ (by decide) (by decide) ⟨5, 3, fun p j => if p = 0 then j else 1⟩ (by decide) (by decide) (by decide) rfl
    (fun _ => 0) (fun p => if p = 4 then 5 else 0)
  refine ⟨lu, sol, e, hb 0 5 (fun _ _ _ _ _ _ => rfl) (fun p _ => by split_ifs <;> norm_num) (fun p _ _ j hj => ?_) 2 (by decide) 4 (by decide)⟩
  have hj : j < 3 := hj
  show (0 : ℚ) ≤ (if p = 0 then (j : ℚ) else 1) ∧ (if p = 0 then (j : ℚ) else 1) ≤ 5
  have : (j : ℚ) < 3 := by exact_mod_cast hj
  split_ifs
  · exact ⟨by positivity, by linarith⟩
  · norm_num

end Fdapde.PDE
