import Verif.PDE.PropsZero
/- Existence of discrete solutions, and how far from them the solutions computed with a value at dof 0 are. -/
namespace Fdapde.PDE
open Finset FEM Quadrature

variable {K : Type} [Field K] [LinearOrder K] [IsStrictOrderedRing K]

/-- **C103**, existence: a problem whose form is definite on the test functions has a discrete solution, for every forcing and boundary data. -/
theorem C103_exists (P : Prob K) (hP : P.Ok) (hE : P.Definite) (f : Nat → Nat → K) (g : Nat → K) :
    ∃ w, P.Galerkin f g w := by
  obtain ⟨A, _, hA⟩ := C91_form P.t P.N P.op P.measure P.psi P.grad P.n P.nb P.m P.dofs hP.dofs hP.sym hP.noScalar
  have hA : ∀ u v, ∑ p ∈ range P.m, ∑ q ∈ range P.m, v p * A p q * u q = P.bilin u v := hA
  obtain ⟨b, _, _, hb⟩ := force_load P hP f
  set B : Nat → Nat → K := fun p q => if P.bd p = true then (if q = p then 1 else 0) else A p q with hB
  have hd := dirichlet_det P hE A B hA fun p _ q => rfl
  set r : Fin P.m → K := fun p => if P.bd p = true then g p else b.getD p 0 with hr
  set x := (Matrix.of fun i j : Fin P.m => B i j)⁻¹.mulVec r with hx
  have hs : (Matrix.of fun i j : Fin P.m => B i j).mulVec x = r := by
    rw [hx, Matrix.mulVec_mulVec, Matrix.mul_nonsing_inv _ (isUnit_iff_ne_zero.2 hd), Matrix.one_mulVec]
  set w : Nat → K := fun p => if h : p < P.m then x ⟨p, h⟩ else 0 with hw
  have hrow : ∀ p (hp : p < P.m), ∑ q ∈ range P.m, B p q * w q = r ⟨p, hp⟩ := by
    intro p hp
    rw [← congrFun hs ⟨p, hp⟩, Finset.sum_range]
    exact Finset.sum_congr rfl fun i _ => by simp [hw, i.2]
  refine ⟨w, fun p hp hbp => ?_, fun v hv => ?_⟩
  · have := hrow p hp
    simp only [hB, if_pos hbp, ite_mul, one_mul, zero_mul, hr] at this
    rwa [Finset.sum_ite_eq' (range P.m) p, if_pos (Finset.mem_range.2 hp)] at this
  · rw [← hA w v, ← hb v]
    refine tested P.m (fun p => P.bd p = true) A w (fun p => b.getD p 0) (fun p hp hbp => ?_) v hv
    have := hrow p hp
    simp only [hB, if_neg hbp, hr] at this
    exact this

/-- Bilinear forms only see the values at the dofs. -/
theorem bilin_agree (P : Prob K) (hP : P.Ok) {w u : Nat → K} (h : ∀ p < P.m, w p = u p) (v : Nat → K) : P.bilin w v = P.bilin u v := by
  obtain ⟨A, _, hA⟩ := C91_form P.t P.N P.op P.measure P.psi P.grad P.n P.nb P.m P.dofs hP.dofs hP.sym hP.noScalar
  have hA : ∀ u v, ∑ p ∈ range P.m, ∑ q ∈ range P.m, v p * A p q * u q = P.bilin u v := hA
  rw [← hA, ← hA]
  exact Finset.sum_congr rfl fun p _ => Finset.sum_congr rfl fun q hq => by rw [h q (Finset.mem_range.1 hq)]

/-- **C140**, the error, for every elliptic problem with at least one marked dof: the discrete solution `u` exists, and what `solve` returns is `u` plus
the error of the value given at dof 0 times a function `φ` that depends on neither the data nor the forcing: the one that is 1 at dof 0, 0 at the
other marked dofs and satisfies a(φ, v) = 0 for the test functions that vanish at dof 0.  So the solution is right if and only if the value at
dof 0 is. -/
theorem C140_error (P : Prob K) (hP : P.Ok) (hE : P.Coercive) (hb : ∃ p < P.m, P.bd p = true) :
    ∃ φ : Nat → K, φ 0 = 1 ∧ (∀ p < P.m, p ≠ 0 → P.bd p = true → φ p = 0) ∧ (∀ v, P.Test v → v 0 = 0 → P.bilin φ v = 0) ∧
      ∀ (lu : Solver K), ExactLU P.m lu → CompleteLU P.m lu → ∀ (data : Dense K), P.n * size P.t ≤ data.rows → data.cols = 1 →
      ∀ (g : Dense K), P.m ≤ g.rows → 0 < g.cols → ∀ junk : Nat → K,
      ∃ w u, (P.init data junk >>= pdeSolveElliptic lu g) = .ok (true, some w) ∧
        P.Galerkin (fun c k => data.at' (size P.t * c + k) 0) (fun p => g.at' p 0) u ∧
        (∀ p < P.m, w p = u p + (g.at' 0 0 - u 0) * φ p) ∧
        (P.Galerkin (fun c k => data.at' (size P.t * c + k) 0) (fun p => g.at' p 0) w ↔ g.at' 0 0 = u 0) := by
  have hm : 0 < P.m := by obtain ⟨p, hp, _⟩ := hb; omega
  have hQ : P.pin.Ok := ⟨hP.dofs, hP.sym, hP.noScalar⟩
  have hload : ∀ v, P.load (fun _ _ => 0) v = 0 := fun v => by simp [Prob.load]
  obtain ⟨φ, hφ⟩ := C103_exists P.pin hQ (test_zero P.pin hE ⟨0, hm, pin_zero P⟩) (fun _ _ => 0) fun p => if p = 0 then 1 else 0
  have pinT : ∀ v, P.Test v → v 0 = 0 → P.pin.Test v := fun v hv h0 p hp hbp => by
    rcases pin_bd hbp with rfl | h
    · exact h0
    · exact hv p hp h
  have pinB : ∀ p, P.bd p = true → P.pin.bd p = true := fun p h => by simp [Prob.pin, pinned, h]
  refine ⟨φ, by simpa using hφ.1 0 hm (pin_zero P), fun p hp h0 hbp => by simpa [h0] using hφ.1 p hp (pinB p hbp),
    fun v hv h0 => (hφ.2 v (pinT v hv h0)).trans (hload v), fun lu hlu hlc data hr hc g hg hgc junk => ?_⟩
  obtain ⟨w, e, hG, hu⟩ := C140_solve P hP hE lu hlu hlc data hr hc g hg hgc hm junk
  obtain ⟨u, hU⟩ := C103_exists P hP (test_zero P hE hb) (fun c k => data.at' (size P.t * c + k) 0) fun p => g.at' p 0
  have hw : ∀ p < P.m, w p = u p + (g.at' 0 0 - u 0) * φ p := fun p hp => by
    refine (hu (fun p => u p + (g.at' 0 0 - u 0) * φ p) ⟨fun q hq hbq => ?_, fun v hv => ?_⟩ p hp).symm
    · have := hφ.1 q hq hbq
      dsimp only at this ⊢
      rw [this]
      rcases pin_bd hbq with rfl | h
      · rw [if_pos rfl]; ring
      · by_cases hq0 : q = 0
        · subst hq0; rw [if_pos rfl]; ring
        · rw [if_neg hq0, mul_zero, add_zero]
          exact hU.1 q hq h
    · rw [bilin_left P.pin hQ, hφ.2 v hv, show P.pin.load (fun _ _ => 0) v = 0 from hload v, mul_zero, add_zero]
      exact hU.2 v fun q hq hbq => hv q hq (pinB q hbq)
  refine ⟨w, u, e, hU, hw, fun h => ?_, fun h => ?_⟩
  · rw [← C103_unique P hP hE hb _ _ _ _ h hU 0 hm]
    exact (hG.1 0 hm (pin_zero P)).symm
  · have hwu : ∀ p < P.m, w p = u p := fun p hp => by rw [hw p hp, h, sub_self, zero_mul, add_zero]
    exact ⟨fun p hp hbp => (hwu p hp).trans (hU.1 p hp hbp), fun v hv => (bilin_agree P hP hwu v).trans (hU.2 v hv)⟩

/-- **C140**, parabolic problems: for every marking, every column after the first takes the data of its instant at dof 0 and at the marked dofs, and satisfies
the equation of its step for every test function that vanishes at dof 0. -/
theorem C140_parabolic_galerkin (P : Prob K) (hP : P.Ok) (hop : hasDT P.op = true) (lu : Solver K) (hlu : ExactLU P.m lu)
    (data : Dense K) (hr : P.n * size P.t ≤ data.rows) (hc : 0 < data.cols) (g : Dense K) (hg : P.m ≤ g.rows)
    (hgc : data.cols ≤ g.cols) (hm : 0 < P.m) (junk ic : Nat → K) (t0 t1 : K) (ts : List K) :
    ∃ b sol, (P.init data junk >>= pdeSolveParabolic lu (t0 :: t1 :: ts) data.cols ic g) = .ok (b, sol) ∧ sol 0 = ic ∧
      (b = true → ∀ i, i + 1 < data.cols → sol (i + 1) 0 = g.at' 0 (i + 1) ∧ (∀ p < P.m, P.bd p = true → sol (i + 1) p = g.at' p (i + 1)) ∧
        ∀ v, v 0 = 0 → P.Test v → P.l2 (fun p => (sol (i + 1) p - sol i p) / (t1 - t0)) v + P.bilin (sol (i + 1)) v =
          P.load (fun c k => data.at' (size P.t * c + k) (i + 1)) v) := by
  obtain ⟨b, sol, e1, e2, e3⟩ := C102_parabolic_partial P.pin ⟨hP.dofs, hP.sym, hP.noScalar⟩ hop lu hlu data hr hc g hg hgc hm (pin_zero P) junk ic t0 t1 ts
  refine ⟨b, sol, (C140_parabolic P data junk lu _ _ _ g).trans e1, e2, fun hb i hi =>
    ⟨(e3 hb i hi).1 0 hm (pin_zero P), fun p hp hbp => (e3 hb i hi).1 p hp (by simp [Prob.pin, pinned, hbp]), fun v h0 hv => (e3 hb i hi).2 v ?_⟩⟩
  intro p hp hbp
  rcases pin_bd hbp with rfl | h
  · exact h0
  · exact hv p hp h

/-- **C140**, stability: for every marking, without forcing and with zero boundary data, the solution of a parabolic problem with a non-negative form and a
definite mass is computed for every positive time step and its L2 norm never increases. -/
theorem C140_stable (P : Prob K) (hP : P.Ok) (hop : hasDT P.op = true)
    (hE : ∀ c < P.n, ∀ k < size P.t, ∀ (u : K) (g : Nat → K), 0 ≤ form P.N P.op (size P.t * c + k) u u g g)
    (hme : ∀ c < P.n, 0 < P.measure c) (hw : ∀ k < size P.t, 0 < weight K P.t k) (hM : ∀ v, P.l2 v v = 0 → ∀ p < P.m, v p = 0)
    (lu : Solver K) (hlu : ExactLU P.m lu) (hlc : CompleteLU P.m lu)
    (data : Dense K) (hr : P.n * size P.t ≤ data.rows) (hc : 0 < data.cols) (hd : ∀ r j, data.at' r j = 0)
    (g : Dense K) (hg : P.m ≤ g.rows) (hgc : data.cols ≤ g.cols) (hg0 : ∀ p j, g.at' p j = 0)
    (hm : 0 < P.m) (junk ic : Nat → K) (t0 t1 : K) (ht : t0 < t1) (ts : List K) :
    ∃ sol, (P.init data junk >>= pdeSolveParabolic lu (t0 :: t1 :: ts) data.cols ic g) = .ok (true, sol) ∧ sol 0 = ic ∧
      ∀ i, i + 1 < data.cols → P.l2 (sol (i + 1)) (sol (i + 1)) ≤ P.l2 (sol i) (sol i) := by
  have hQ : P.pin.Ok := ⟨hP.dofs, hP.sym, hP.noScalar⟩
  obtain ⟨sol, e⟩ := C104_succeeds_partial P.pin hQ hE hme hw hM lu hlu hlc data hr hc g hg hgc hm (pin_zero P) junk ic t0 t1 ht ts
  obtain ⟨b, sol', e', h0, h⟩ := C104_stable_partial P.pin hQ hop hE hme hw lu hlu data hr hc hd g hg hgc hg0 hm (pin_zero P) junk ic t0 t1 ht ts
  obtain ⟨rfl, rfl⟩ := Prod.mk.inj (Res.ok.inj (e.symm.trans e'))
  exact ⟨sol, (C140_parabolic P data junk lu _ _ _ g).trans e, h0, h rfl⟩

/- The rod with its left end free: `φ` is 1, 1/2, 0. -/
example : ∃ φ : Nat → ℚ, φ 0 = 1 ∧ φ 1 = 1 / 2 ∧ φ 2 = 0 ∧ ∃ lu : Solver ℚ, ∀ g0 : ℚ, ∃ w u,
    (halfProb.init ⟨4, 1, fun _ _ => 1⟩ (fun _ => 0) >>= pdeSolveElliptic lu ⟨3, 1, fun p _ => if p = 0 then g0 else 0⟩) = .ok (true, some w) ∧
      halfProb.Galerkin (fun _ _ => 1) (fun p => if p = 0 then g0 else 0) u ∧ ∀ p < 3, w p = u p + (g0 - u 0) * φ p := by
  obtain ⟨lu, h1, h2⟩ := exists_exactLU (K := ℚ) 3
  obtain ⟨φ, a0, a1, a2, h⟩ := C140_error halfProb half_ok half_coercive ⟨2, by decide, rfl⟩
  have b2 : φ 2 = 0 := a1 2 (by decide) (by decide) rfl
  have hv := a2 (fun p => if p = 1 then 1 else 0) (fun p _ hb => by
    have : p ≠ 1 := by rintro rfl; cases hb
    simp [this]) rfl
  simp [Prob.bilin, halfProb, demoProb, form, feValue, feGrad, dot, Finset.sum_range_succ, size, rule1_2, weight, node, a0, b2] at hv
  norm_num at hv
  refine ⟨φ, a0, by linarith, b2, lu, fun g0 => ?_⟩
  obtain ⟨w, u, e, hU, hw, _⟩ := h lu h1 h2 ⟨4, 1, fun _ _ => 1⟩ (by decide) rfl ⟨3, 1, fun p _ => if p = 0 then g0 else 0⟩ (Nat.le_refl 3) Nat.one_pos (fun _ => 0)
  exact ⟨w, u, e, hU, hw⟩

/-- The rod with heat flowing, its left end free. -/
def halfHeat : Prob ℚ := { demoProb (.add .dT (.neg .lap)) with bd := fun p => p == 2 }

theorem half_mass : ∀ v : Nat → ℚ, (demoProb (.add .dT (.neg .lap))).l2 v v = 0 → ∀ p < 3, v p = 0 := by
  intro v hv
  have e : ∀ a b c d : ℚ, 1 / 2 * (1 / 2 * (a * a) + 1 / 2 * (b * b)) + 1 / 2 * (1 / 2 * (c * c) + 1 / 2 * (d * d)) = 0 → a = 0 ∧ b = 0 ∧ c = 0 ∧ d = 0 := by
    intro a b c d h
    refine ⟨?_, ?_, ?_, ?_⟩ <;> (apply mul_self_eq_zero.1; nlinarith [mul_self_nonneg a, mul_self_nonneg b, mul_self_nonneg c, mul_self_nonneg d])
  have hs : size (demoProb (.add .dT (.neg .lap))).t = 2 := rfl
  have w0 : weight ℚ rule1_2 0 = 1 / 2 := by norm_num [weight, rule1_2]
  have w1 : weight ℚ rule1_2 1 = 1 / 2 := by norm_num [weight, rule1_2]
  have n0 : node ℚ rule1_2 0 0 = 211324865405187 / 1000000000000000 := by norm_num [node, rule1_2]
  have n1 : node ℚ rule1_2 1 0 = 788675134594812 / 1000000000000000 := by norm_num [node, rule1_2]
  simp only [Prob.l2, hs] at hv
  simp only [demoProb, feValue, Finset.sum_range_succ, Finset.sum_range_zero, w0, w1, n0, n1, zero_add, if_true,
    one_ne_zero, if_false, Nat.add_zero, Nat.reduceAdd] at hv
  have := e _ _ _ _ hv
  obtain ⟨a, b, c, d⟩ := this
  intro p hp
  have hp : p < 3 := hp
  rcases (by omega : p = 0 ∨ p = 1 ∨ p = 2) with rfl | rfl | rfl <;> linarith

example : ∃ (lu : Solver ℚ) (sol : Nat → Nat → ℚ),
    (halfHeat.init ⟨4, 3, fun _ _ => 0⟩ (fun _ => 0) >>=
      pdeSolveParabolic lu [0, 1, 2] 3 (fun p => if p = 1 then 1 else 0) ⟨3, 3, fun _ _ => 0⟩) = .ok (true, sol) ∧
    halfHeat.l2 (sol 2) (sol 2) ≤ halfHeat.l2 (sol 1) (sol 1) := by
  obtain ⟨lu, h1, h2⟩ := exists_exactLU (K := ℚ) 3
  obtain ⟨sol, e, _, h⟩ := C140_stable halfHeat ⟨demoProb_ok.2.dofs, demoProb_ok.2.sym, demoProb_ok.2.noScalar⟩ rfl
    (fun c hc k hk u g => (((C103_compose 1 _ _ (C103_laplacian 1 _)).2.1) u g).1) (fun c _ => by norm_num [halfHeat, demoProb]) demo_weight half_mass
    lu h1 h2 ⟨4, 3, fun _ _ => 0⟩ (by decide) (by decide) (fun _ _ => rfl) ⟨3, 3, fun _ _ => 0⟩ (by decide) (by decide) (fun _ _ => rfl) (by decide) (fun _ => 0)
    (fun p => if p = 1 then 1 else 0) 0 1 (by norm_num) [2]
  exact ⟨lu, sol, e, h 1 (by decide)⟩

end Fdapde.PDE
