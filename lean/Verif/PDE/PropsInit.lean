import Verif.PDE.InitSpec
import Verif.PDE.PropsForm
import Verif.PDE.PropsSolver
/- C102: the discrete problem solved is the Galerkin problem. -/
namespace Fdapde.PDE
open Fdapde.Quadrature
variable {K : Type} [Field K]

/-- The problem is well formed: dofs in range, symmetric diffusion tensors, an expression of the public interface. -/
structure Prob.Ok (P : Prob K) : Prop where
  dofs : ∀ c < P.n, ∀ i < P.nb, P.dofs c i < P.m
  sym : FlagRight P.N P.op
  noScalar : NoScalar P.op

theorem force_load (P : Prob K) (hP : P.Ok) (F : Nat → Nat → K) :
    ∃ v, discretizeForcing P.n P.nb P.m P.dofs
        (fun c j => accum P.t (fun iq => F c iq * P.psi j (node K P.t iq)) * P.measure c) = .ok v ∧ v.length = P.m ∧
      ∀ y : Nat → K, ∑ p ∈ Finset.range P.m, y p * v.getD p 0 = P.load F y := by
  obtain ⟨v, h1, h2, h3⟩ := C61_forcing P.n P.nb P.m P.dofs
    (fun c j => accum P.t (fun iq => F c iq * P.psi j (node K P.t iq)) * P.measure c) hP.dofs
  refine ⟨v, h1, h2, fun y => ?_⟩
  have e : ∀ p ∈ Finset.range P.m, y p * v.getD p 0 = ∑ c ∈ Finset.range P.n, ∑ i ∈ Finset.range P.nb,
      if P.dofs c i = p then y p * (accum P.t (fun iq => F c iq * P.psi i (node K P.t iq)) * P.measure c) else 0 := by
    intro p hp
    rw [List.getD_eq_getElem?_getD, h3 p (Finset.mem_range.1 hp), Option.getD_some, Finset.mul_sum]
    refine Finset.sum_congr rfl fun c _ => ?_
    rw [Finset.mul_sum]
    refine Finset.sum_congr rfl fun i _ => ?_
    rw [mul_ite, mul_zero]
  rw [Finset.sum_congr rfl e, Finset.sum_comm]
  refine Finset.sum_congr rfl fun c hc => ?_
  rw [Finset.sum_comm]
  have e2 : ∀ i ∈ Finset.range P.nb, (∑ p ∈ Finset.range P.m,
      if P.dofs c i = p then y p * (accum P.t (fun iq => F c iq * P.psi i (node K P.t iq)) * P.measure c) else 0) =
      y (P.dofs c i) * (accum P.t (fun iq => F c iq * P.psi i (node K P.t iq)) * P.measure c) := by
    intro i hi
    rw [Finset.sum_ite_eq, if_pos (Finset.mem_range.2 (hP.dofs c (Finset.mem_range.1 hc) i (Finset.mem_range.1 hi)))]
  rw [Finset.sum_congr rfl e2]
  simp only [accum_eq, feValue, Finset.mul_sum, Finset.sum_mul]
  rw [Finset.sum_comm]
  refine Finset.sum_congr rfl fun k _ => Finset.sum_congr rfl fun i _ => ?_
  ring

theorem forceCol_load (P : Prob K) (hP : P.Ok) (data : Dense K) (hr : P.n * size P.t ≤ data.rows) (i : Nat) (hi : i < data.cols) :
    ∃ v, P.forceCol data i = .ok v ∧ v.length = P.m ∧
      ∀ y : Nat → K, ∑ p ∈ Finset.range P.m, y p * v.getD p 0 = P.load (fun c k => data.at' (size P.t * c + k) i) y := by
  obtain ⟨v, h1, h2, h3⟩ := force_load P hP (fun c k => data.at' (size P.t * c + k) i)
  exact ⟨v, by rw [Prob.forceCol, if_pos ⟨hi, hr⟩]; exact h1, h2, h3⟩

theorem putBlock_same (n i : Nat) (f : Nat → K) (v : List K) (p : Nat) (hp : p < n) : putBlock n i f v (n * i + p) = v.getD p 0 := by
  rw [putBlock, if_pos (by omega), Nat.add_sub_cancel_left]

theorem putBlock_other (n i j : Nat) (hij : i ≠ j) (f : Nat → K) (v : List K) (p : Nat) (hp : p < n) :
    putBlock n i f v (n * j + p) = f (n * j + p) := by
  rw [putBlock, if_neg]
  rintro ⟨h1, h2⟩
  rcases lt_or_gt_of_ne hij with h | h
  · have : n * (i + 1) ≤ n * j := Nat.mul_le_mul_left n h
    rw [Nat.mul_succ] at this
    omega
  · have : n * (j + 1) ≤ n * i := Nat.mul_le_mul_left n h
    rw [Nat.mul_succ] at this
    omega

/-- Block `i` of the right-hand side is the load vector of column `i` of the data. -/
def Prob.Loaded (P : Prob K) (data : Dense K) (f : Nat → K) (i : Nat) : Prop :=
  ∀ y : Nat → K, ∑ p ∈ Finset.range P.m, y p * f (P.m * i + p) = P.load (fun c k => data.at' (size P.t * c + k) i) y

theorem loaded_put (P : Prob K) (data : Dense K) (f : Nat → K) (v : List K) (i : Nat)
    (h : ∀ y : Nat → K, ∑ p ∈ Finset.range P.m, y p * v.getD p 0 = P.load (fun c k => data.at' (size P.t * c + k) i) y) :
    P.Loaded data (putBlock P.m i f v) i := by
  intro y
  rw [← h y]
  exact Finset.sum_congr rfl fun p hp => by rw [putBlock_same _ _ _ _ _ (Finset.mem_range.1 hp)]

theorem loaded_keep (P : Prob K) (data : Dense K) (f : Nat → K) (v : List K) (i j : Nat) (hij : i ≠ j)
    (h : P.Loaded data f j) : P.Loaded data (putBlock P.m i f v) j := by
  intro y
  rw [← h y]
  exact Finset.sum_congr rfl fun p hp => by rw [putBlock_other _ _ _ hij _ _ _ (Finset.mem_range.1 hp)]

theorem force_spec (P : Prob K) (hP : P.Ok) (data : Dense K) (hr : P.n * size P.t ≤ data.rows) (hc : 0 < data.cols)
    (junk : Nat → K) : ∃ f, P.force data junk = .ok f ∧ P.Loaded data f 0 ∧
      (hasDT P.op = true → ∀ i < data.cols, P.Loaded data f i) := by
  obtain ⟨v, h1, _, h3⟩ := forceCol_load P hP data hr 0 hc
  have h0 := loaded_put P data junk v 0 h3
  rw [Prob.force, h1, Res.ok_bind]
  by_cases ht : hasDT P.op = true
  · rw [if_pos ht]
    have key : ∀ k, k < data.cols → ∃ f, foldRes (fun f i => putBlock P.m i f <$> P.forceCol data i) (putBlock P.m 0 junk v)
        (List.range' 1 k) = .ok f ∧ ∀ i ≤ k, P.Loaded data f i := by
      intro k
      induction k with
      | zero =>
        intro _
        exact ⟨_, rfl, fun i hi => by rw [Nat.le_zero.1 hi]; exact h0⟩
      | succ k ih =>
        intro hk
        obtain ⟨f, e, hf⟩ := ih (by omega)
        obtain ⟨w, hw1, _, hw3⟩ := forceCol_load P hP data hr (1 + k) (by omega)
        refine ⟨putBlock P.m (1 + k) f w, ?_, ?_⟩
        · rw [List.range'_1_concat, foldRes_append, e, Res.ok_bind, foldRes_cons, hw1, Res.map_ok, Res.ok_bind, foldRes_nil]
        · intro i hi
          by_cases hik : i = 1 + k
          · subst hik; exact loaded_put P data f w _ hw3
          · exact loaded_keep P data f w _ _ (Ne.symm hik) (hf i (by omega))
    obtain ⟨f, e, hf⟩ := key (data.cols - 1) (by omega)
    exact ⟨f, e, hf 0 (by omega), fun _ i hi => hf i (by omega)⟩
  · rw [if_neg ht]
    exact ⟨_, rfl, h0, fun h => absurd h ht⟩

/-- C102: `init` succeeds and produces the matrices of the two bilinear forms and the load vector of the forcing; for a
parabolic problem one load vector per column of the data, in order. -/
theorem C102_init (P : Prob K) (hP : P.Ok) (data : Dense K) (hr : P.n * size P.t ≤ data.rows) (hc : 0 < data.cols)
    (junk : Nat → K) :
    ∃ s, P.init data junk = .ok s ∧ s.n = P.m ∧ s.bd = P.bd ∧ s.isInit = true ∧ s.forceRows = P.m * data.cols ∧
      (∀ u v : Nat → K, ∑ p ∈ Finset.range P.m, ∑ q ∈ Finset.range P.m, v p * s.stiff p q * u q = P.bilin u v) ∧
      (∀ u v : Nat → K, ∑ p ∈ Finset.range P.m, ∑ q ∈ Finset.range P.m, v p * s.mass p q * u q = P.l2 u v) ∧
      (∀ i, i = 0 ∨ (hasDT P.op = true ∧ i < data.cols) → P.Loaded data s.force i) := by
  obtain ⟨A, hA1, hA2⟩ := C91_form P.t P.N P.op P.measure P.psi P.grad P.n P.nb P.m P.dofs hP.dofs hP.sym hP.noScalar
  obtain ⟨M, hM1, hM2⟩ := C91_form P.t P.N (.react fun _ => 1) P.measure P.psi P.grad P.n P.nb P.m P.dofs hP.dofs (fun _ => trivial) trivial
  obtain ⟨f, hf1, hf2, hf3⟩ := force_spec P hP data hr hc junk
  refine ⟨⟨P.m, P.bd, A, M, f, P.m * data.cols, true⟩, ?_, rfl, rfl, rfl, rfl, hA2, ?_, ?_⟩
  · rw [Prob.init, hA1, Res.ok_bind, hf1, Res.ok_bind, hM1, Res.ok_bind]
  · intro u v
    rw [hM2]
    simp only [form, one_mul]
    rfl
  · rintro i (rfl | ⟨h, hi⟩)
    · exact hf2
    · exact hf3 h i hi

/-- C102, callable forcing: one load vector, with the values of the forcing at the images of the quadrature nodes. -/
theorem C102_init_callable {Q : Type} (P : Prob K) (hP : P.Ok) (map : Nat → (Nat → K) → Q) (g : Q → K) (junk : Nat → K) :
    ∃ s, P.initCall map g junk = .ok s ∧ s.n = P.m ∧ s.bd = P.bd ∧ s.isInit = true ∧ s.forceRows = P.m ∧
      (∀ u v : Nat → K, ∑ p ∈ Finset.range P.m, ∑ q ∈ Finset.range P.m, v p * s.stiff p q * u q = P.bilin u v) ∧
      (∀ u v : Nat → K, ∑ p ∈ Finset.range P.m, ∑ q ∈ Finset.range P.m, v p * s.mass p q * u q = P.l2 u v) ∧
      ∀ y : Nat → K, ∑ p ∈ Finset.range P.m, y p * s.force p = P.load (fun c k => g (map c (node K P.t k))) y := by
  obtain ⟨A, hA1, hA2⟩ := C91_form P.t P.N P.op P.measure P.psi P.grad P.n P.nb P.m P.dofs hP.dofs hP.sym hP.noScalar
  obtain ⟨M, hM1, hM2⟩ := C91_form P.t P.N (.react fun _ => 1) P.measure P.psi P.grad P.n P.nb P.m P.dofs hP.dofs (fun _ => trivial) trivial
  obtain ⟨v, hv1, _, hv3⟩ := force_load P hP (fun c k => g (map c (node K P.t k)))
  refine ⟨⟨P.m, P.bd, A, M, putBlock P.m 0 junk v, P.m, true⟩, ?_, rfl, rfl, rfl, rfl, hA2, ?_, ?_⟩
  · rw [Prob.initCall, hA1, Res.ok_bind]
    unfold integrateBasis
    rw [hv1, Res.ok_bind, hM1, Res.ok_bind]
  · intro u w
    rw [hM2]
    simp only [form, one_mul]
    rfl
  · intro y
    rw [← hv3 y]
    refine Finset.sum_congr rfl fun p hp => ?_
    have := putBlock_same P.m 0 junk v p (Finset.mem_range.1 hp)
    rw [Nat.mul_zero, Nat.zero_add] at this
    dsimp only
    rw [this]

/-- Equations of the interior dofs, tested with functions that vanish on the others. -/
theorem tested (m : Nat) (B : Nat → Prop) (A : Nat → Nat → K) (w b : Nat → K)
    (h : ∀ p < m, ¬ B p → ∑ q ∈ Finset.range m, A p q * w q = b p) (v : Nat → K) (hv : ∀ p < m, B p → v p = 0) :
    ∑ p ∈ Finset.range m, ∑ q ∈ Finset.range m, v p * A p q * w q = ∑ p ∈ Finset.range m, v p * b p := by
  refine Finset.sum_congr rfl fun p hp => ?_
  have hp := Finset.mem_range.1 hp
  by_cases hb : B p
  · simp [hv p hp hb]
  · rw [← h p hp hb, Finset.mul_sum]
    exact Finset.sum_congr rfl fun q _ => by ring

/-- C102 (stationary problems, Dirichlet data; dof 0 on the boundary, see `C62_bug_dof_zero` for the others): `init` and
`solve` succeed or report a failure of the factorization, and the solution takes the data on the boundary dofs and
satisfies a(u, v) = (f, v) for every test function. -/
theorem C102_galerkin_partial (P : Prob K) (hP : P.Ok) (lu : Solver K) (hlu : ExactLU P.m lu) (data : Dense K)
    (hr : P.n * size P.t ≤ data.rows) (hc : data.cols = 1) (g : Dense K) (hg : P.m ≤ g.rows) (hgc : 0 < g.cols) (hm : 0 < P.m)
    (h0 : P.bd 0 = true) (junk : Nat → K) :
    ∃ b u, (P.init data junk >>= pdeSolveElliptic lu g) = .ok (b, u) ∧ (b = true ↔ u.isSome) ∧
      ∀ w ∈ u, (∀ p < P.m, P.bd p = true → w p = g.at' p 0) ∧
        ∀ v, P.Test v → P.bilin w v = P.load (fun c k => data.at' (size P.t * c + k) 0) v := by
  obtain ⟨s, h1, h2, h3, h4, h5, h6, _, h8⟩ := C102_init P hP data hr (by omega) junk
  have hload := h8 0 (Or.inl rfl)
  rw [hc, Nat.mul_one] at h5
  obtain ⟨b, u, e1, e2, e3⟩ := C62_solution_partial lu g s (by rw [h2]; exact hlu) h4 (by rw [h2]; exact hg) hgc
    (by rw [h5, h2]) (by rw [h3]; exact h0) (by rw [h2]; assumption)
  refine ⟨b, u, by rw [h1, Res.ok_bind, e1], e2, fun w hw => ⟨fun p hp hb => ?_, fun v hv => ?_⟩⟩
  · exact (e3 w hw p (by rw [h2]; exact hp)).1 (by rw [h3]; exact hb)
  · rw [← h6 w v, ← hload v]
    simp only [Nat.mul_zero, Nat.zero_add]
    refine tested P.m (fun p => P.bd p = true) s.stiff w s.force ?_ v hv
    intro p hp hb
    have := (e3 w hw p (by rw [h2]; exact hp)).2 (by rw [h3]; simpa using hb)
    rwa [h2] at this

/-- C102 (stationary problems without Dirichlet data): the solution satisfies a(u, v) = (f, v) for every function. -/
theorem C102_natural (P : Prob K) (hP : P.Ok) (lu : Solver K) (hlu : ExactLU P.m lu) (data : Dense K)
    (hr : P.n * size P.t ≤ data.rows) (hc : data.cols = 1) (g : Dense K) (hg : g.rows * g.cols = 0) (junk : Nat → K) :
    ∃ b u, (P.init data junk >>= pdeSolveElliptic lu g) = .ok (b, u) ∧ (b = true ↔ u.isSome) ∧
      ∀ w ∈ u, ∀ v, P.bilin w v = P.load (fun c k => data.at' (size P.t * c + k) 0) v := by
  obtain ⟨s, h1, h2, _, h4, h5, h6, _, h8⟩ := C102_init P hP data hr (by omega) junk
  have hload := h8 0 (Or.inl rfl)
  rw [hc, Nat.mul_one] at h5
  rw [h1, Res.ok_bind, pdeSolveElliptic, if_pos hg]
  show ∃ b u, solveElliptic lu s = _ ∧ _
  rw [solveElliptic, if_neg (by simp [h4])]
  cases hl : lu s.stiff with
  | none => exact ⟨false, none, rfl, by simp, by simp⟩
  | some f =>
    refine ⟨true, some (f s.force), by simp [h5, h2], by simp, fun w hw v => ?_⟩
    cases hw
    rw [← h6 _ v, ← hload v]
    simp only [Nat.mul_zero, Nat.zero_add]
    exact tested P.m (fun _ => False) s.stiff _ s.force (fun p hp _ => hlu _ _ hl s.force p hp) v (fun _ _ h => h.elim)

/-- C102 (parabolic problems; dof 0 on the boundary and boundary data given, see `C63_bug_dof_zero` and
`C63_bug_no_boundary_data` for the others): column 0 of the solution is the initial condition, and every further column
takes the data of its instant on the boundary dofs and satisfies ((u' - u) / dt, v) + a(u', v) = (f', v) for every test
function, u being the column before and f' the column of the forcing of the same instant. -/
theorem C102_parabolic_partial (P : Prob K) (hP : P.Ok) (hop : hasDT P.op = true) (lu : Solver K) (hlu : ExactLU P.m lu)
    (data : Dense K) (hr : P.n * size P.t ≤ data.rows) (hc : 0 < data.cols) (g : Dense K) (hg : P.m ≤ g.rows)
    (hgc : data.cols ≤ g.cols) (hm : 0 < P.m) (h0 : P.bd 0 = true) (junk ic : Nat → K) (t0 t1 : K) (ts : List K) :
    ∃ b sol, (P.init data junk >>= pdeSolveParabolic lu (t0 :: t1 :: ts) data.cols ic g) = .ok (b, sol) ∧ sol 0 = ic ∧
      (b = true → ∀ i, i + 1 < data.cols → (∀ p < P.m, P.bd p = true → sol (i + 1) p = g.at' p (i + 1)) ∧
        ∀ v, P.Test v → P.l2 (fun p => (sol (i + 1) p - sol i p) / (t1 - t0)) v + P.bilin (sol (i + 1)) v =
          P.load (fun c k => data.at' (size P.t * c + k) (i + 1)) v) := by
  obtain ⟨s, h1, h2, h3, h4, h5, h6, h7, h8⟩ := C102_init P hP data hr hc junk
  obtain ⟨b, sol, e1, e2, e3, _⟩ := C63_implicit_euler_partial lu t0 t1 ts data.cols ic g s (by rw [h2]; exact hlu) h4
    (by rw [h2]; exact hg) hgc hc (by rw [h5, h2]) (by rw [h2]; exact hm) (by rw [h3]; exact h0)
  refine ⟨b, sol, by rw [h1, Res.ok_bind, e1], e2, fun hb i hi => ⟨fun p hp hbp => ?_, fun v hv => ?_⟩⟩
  · exact (e3 hb i hi p (by rw [h2]; exact hp)).1 (by rw [h3]; exact hbp)
  · rw [← h8 (i + 1) (Or.inr ⟨hop, hi⟩) v, ← h6, ← h7, ← Finset.sum_add_distrib]
    refine Finset.sum_congr rfl fun p hp => ?_
    have hp := Finset.mem_range.1 hp
    by_cases hbp : P.bd p = true
    · simp [hv p hp hbp]
    · have e := (e3 hb i hi p (by rw [h2]; exact hp)).2 (by rw [h3]; simpa using hbp)
      rw [h2] at e
      rw [← sub_eq_iff_eq_add'.2 e, ← Finset.sum_sub_distrib, ← Finset.sum_add_distrib, Finset.mul_sum]
      exact Finset.sum_congr rfl fun q _ => by ring

/-- The unit interval cut in two, linear elements, operator `op`; the first and the last node are on the boundary. -/
def demoProb (op : Op ℚ) : Prob ℚ where
  t := rule1_2
  N := 1
  op := op
  measure := fun _ => 1 / 2
  psi := fun i x => if i = 0 then 1 - x 0 else x 0
  grad := fun _ i _ _ => if i = 0 then -2 else 2
  n := 2
  nb := 2
  m := 3
  dofs := fun c i => c + i
  bd := fun p => p != 1

theorem demoProb_ok : (demoProb (.neg .lap)).Ok ∧ (demoProb (.add .dT (.neg .lap))).Ok :=
  ⟨⟨by decide, fun _ => trivial, trivial⟩, ⟨by decide, fun _ => ⟨trivial, trivial⟩, ⟨trivial, trivial⟩⟩⟩

/-- The hypotheses of the theorems are met. -/
example : ∃ (lu : Solver ℚ) (b : Bool) (u : Option (Nat → ℚ)),
    ((demoProb (.neg .lap)).init ⟨4, 1, fun _ _ => 1⟩ (fun _ => 0) >>= pdeSolveElliptic lu ⟨3, 1, fun _ _ => 0⟩) = .ok (b, u) := by
  obtain ⟨lu, h1, _⟩ := exists_exactLU (K := ℚ) 3
  obtain ⟨b, u, e, _⟩ := C102_galerkin_partial (demoProb (.neg .lap)) demoProb_ok.1 lu h1 ⟨4, 1, fun _ _ => 1⟩ (by decide) rfl
    ⟨3, 1, fun _ _ => 0⟩ (by decide) (by decide) (by decide) rfl (fun _ => 0)
  exact ⟨lu, b, u, e⟩

example : ∃ (lu : Solver ℚ) (b : Bool) (u : Option (Nat → ℚ)),
    ((demoProb (.neg .lap)).init ⟨4, 1, fun _ _ => 1⟩ (fun _ => 0) >>= pdeSolveElliptic lu ⟨0, 0, fun _ _ => 0⟩) = .ok (b, u) := by
  obtain ⟨lu, h1, _⟩ := exists_exactLU (K := ℚ) 3
  obtain ⟨b, u, e, _⟩ := C102_natural (demoProb (.neg .lap)) demoProb_ok.1 lu h1 ⟨4, 1, fun _ _ => 1⟩ (by decide) rfl
    ⟨0, 0, fun _ _ => 0⟩ rfl (fun _ => 0)
  exact ⟨lu, b, u, e⟩

example : ∃ (lu : Solver ℚ) (b : Bool) (sol : Nat → Nat → ℚ),
    ((demoProb (.add .dT (.neg .lap))).init ⟨4, 3, fun _ j => (j : ℚ)⟩ (fun _ => 0) >>=
      pdeSolveParabolic lu [0, 1, 2] 3 (fun p => (p : ℚ)) ⟨3, 3, fun _ _ => 0⟩) = .ok (b, sol) ∧ sol 0 1 = 1 := by
  obtain ⟨lu, h1, _⟩ := exists_exactLU (K := ℚ) 3
  obtain ⟨b, u, e, h, _⟩ := C102_parabolic_partial (demoProb (.add .dT (.neg .lap))) demoProb_ok.2 rfl lu h1
    ⟨4, 3, fun _ j => (j : ℚ)⟩ (by decide) (by decide) ⟨3, 3, fun _ _ => 0⟩ (by decide) (by decide) (by decide) rfl (fun _ => 0)
    (fun p => (p : ℚ)) 0 1 [2]
  exact ⟨lu, b, u, e, by rw [h]; norm_num⟩

end Fdapde.PDE
