import Verif.PDE.WellPosedSpec
import Verif.PDE.PropsInit
import Mathlib.Tactic.Linarith
import Mathlib.Tactic.Positivity
import Mathlib.Tactic.FieldSimp
import Mathlib.LinearAlgebra.Matrix.ToLinearEquiv
/- C103: well-posedness of elliptic problems; C104: stability of the time steps. -/
set_option linter.unusedSectionVars false
namespace Fdapde.PDE
open Fdapde.Quadrature
variable {K : Type} [Field K] [LinearOrder K] [IsStrictOrderedRing K]

theorem bilin_nonneg (P : Prob K) (hE : P.Ell) (v : Nat → K) : 0 ≤ P.bilin v v :=
  Finset.sum_nonneg fun c hc => mul_nonneg (hE.measure c (Finset.mem_range.1 hc)).le
    (Finset.sum_nonneg fun k hk => mul_nonneg (hE.weight k (Finset.mem_range.1 hk)).le
      ((hE.op c (Finset.mem_range.1 hc) k (Finset.mem_range.1 hk)) _ _).1)

theorem bilin_zero (P : Prob K) (hE : P.Ell) (v : Nat → K) (h : P.bilin v v = 0) :
    ∀ p < P.m, ∀ q < P.m, v p = v q := by
  have h1 : ∀ c < P.n, ∀ k < size P.t, ∀ z < P.N, feGrad P.nb (P.dofs c) v (fun i => P.grad c i (node K P.t k)) z = 0 := by
    intro c hc k hk
    have e1 := (Finset.sum_eq_zero_iff_of_nonneg (fun c hc => mul_nonneg (hE.measure c (Finset.mem_range.1 hc)).le
      (Finset.sum_nonneg fun k hk => mul_nonneg (hE.weight k (Finset.mem_range.1 hk)).le
        ((hE.op c (Finset.mem_range.1 hc) k (Finset.mem_range.1 hk)) _ _).1))).1 h c (Finset.mem_range.2 hc)
    have e2 := (mul_eq_zero.1 e1).resolve_left (hE.measure c hc).ne'
    have e3 := (Finset.sum_eq_zero_iff_of_nonneg (fun k hk => mul_nonneg (hE.weight k (Finset.mem_range.1 hk)).le
        ((hE.op c hc k (Finset.mem_range.1 hk)) _ _).1)).1 e2 k (Finset.mem_range.2 hk)
    exact ((hE.op c hc k hk) _ _).2 ((mul_eq_zero.1 e3).resolve_left (hE.weight k hk).ne')
  have h2 : ∀ p q, P.Linked p q → v p = v q := by
    rintro p q ⟨c, hc, i, hi, j, hj, rfl, rfl⟩
    exact hE.rigid c hc v (h1 c hc) i hi j hj
  have h3 : ∀ p q, Relation.ReflTransGen P.Linked p q → v p = v q := by
    intro p q hr
    induction hr with
    | refl => rfl
    | tail _ hbc ih => rw [ih, h2 _ _ hbc]
  exact fun p hp q hq => h3 p q (hE.connected p hp q hq)

/-- C103: the form of an elliptic problem on a connected mesh is coercive. -/
theorem C103_coercive (P : Prob K) (hE : P.Ell) : P.Coercive := fun v => ⟨bilin_nonneg P hE v, bilin_zero P hE v⟩

theorem bilin_matrix (P : Prob K) (hP : P.Ok) : ∃ A : Nat → Nat → K, ∀ u v,
    ∑ p ∈ Finset.range P.m, ∑ q ∈ Finset.range P.m, v p * A p q * u q = P.bilin u v := by
  obtain ⟨A, _, h⟩ := C91_form P.t P.N P.op P.measure P.psi P.grad P.n P.nb P.m P.dofs hP.dofs hP.sym hP.noScalar
  exact ⟨A, h⟩

theorem bilin_left (P : Prob K) (hP : P.Ok) (x : K) (u u' v : Nat → K) :
    P.bilin (fun p => u p + x * u' p) v = P.bilin u v + x * P.bilin u' v := by
  obtain ⟨A, h⟩ := bilin_matrix P hP
  simp only [← h, Finset.mul_sum, ← Finset.sum_add_distrib]
  exact Finset.sum_congr rfl fun p _ => Finset.sum_congr rfl fun q _ => by ring

theorem bilin_right (P : Prob K) (hP : P.Ok) (x : K) (u v v' : Nat → K) :
    P.bilin u (fun p => v p + x * v' p) = P.bilin u v + x * P.bilin u v' := by
  obtain ⟨A, h⟩ := bilin_matrix P hP
  simp only [← h, Finset.mul_sum, ← Finset.sum_add_distrib]
  exact Finset.sum_congr rfl fun p _ => Finset.sum_congr rfl fun q _ => by ring

theorem load_add (P : Prob K) (hP : P.Ok) (x : K) (f : Nat → Nat → K) (v v' : Nat → K) :
    P.load f (fun p => v p + x * v' p) = P.load f v + x * P.load f v' := by
  obtain ⟨b, _, _, h⟩ := force_load P hP f
  simp only [← h, Finset.mul_sum, ← Finset.sum_add_distrib]
  exact Finset.sum_congr rfl fun p _ => by ring

/-- A function zero on the boundary, orthogonal to itself, is zero. -/
theorem test_zero (P : Prob K) (hE : P.Coercive) (h0 : ∃ p < P.m, P.bd p = true) : P.Definite := by
  obtain ⟨q, hq, hb⟩ := h0
  intro v hv h p hp
  rw [(hE v).2 h p hp q hq, hv q hq hb]

/-- C103 (uniqueness): a problem with definite form has at most one discrete solution. -/
theorem C103_definite_unique (P : Prob K) (hP : P.Ok) (hE : P.Definite)
    (f : Nat → Nat → K) (g w w' : Nat → K) (h : P.Galerkin f g w) (h' : P.Galerkin f g w') : ∀ p < P.m, w p = w' p := by
  have ht : P.Test (fun p => w p + -1 * w' p) := fun p hp hb => by
    dsimp only; rw [h.1 p hp hb, h'.1 p hp hb]; ring
  intro p hp
  have := hE _ ht (by rw [bilin_left P hP, h.2 _ ht, h'.2 _ ht]; ring) p hp
  linarith

/-- C103 (uniqueness): on a connected mesh with at least one boundary dof, an elliptic problem has at most one discrete
solution. -/
theorem C103_unique (P : Prob K) (hP : P.Ok) (hE : P.Coercive) (h0 : ∃ p < P.m, P.bd p = true)
    (f : Nat → Nat → K) (g w w' : Nat → K) (h : P.Galerkin f g w) (h' : P.Galerkin f g w') : ∀ p < P.m, w p = w' p :=
  C103_definite_unique P hP (test_zero P hE h0) f g w w' h h'

/-- The solver reports success on every non-singular matrix. -/
def CompleteLU (n : Nat) (lu : Solver K) : Prop := ∀ A, (Matrix.of fun i j : Fin n => A i j).det ≠ 0 → (lu A).isSome

theorem dirichlet_det (P : Prob K) (hE : P.Definite) (A B : Nat → Nat → K)
    (hA : ∀ u v, ∑ p ∈ Finset.range P.m, ∑ q ∈ Finset.range P.m, v p * A p q * u q = P.bilin u v)
    (hB : ∀ p < P.m, ∀ q, B p q = if P.bd p = true then (if q = p then 1 else 0) else A p q) :
    (Matrix.of fun i j : Fin P.m => B i j).det ≠ 0 := by
  intro hd
  obtain ⟨v, hv, hv0⟩ := Matrix.exists_mulVec_eq_zero_iff.2 hd
  set y : Nat → K := fun p => if h : p < P.m then v ⟨p, h⟩ else 0 with hy
  have hyv : ∀ i : Fin P.m, y i = v i := fun i => by simp [hy, i.2]
  have hrow : ∀ p < P.m, ∑ q ∈ Finset.range P.m, B p q * y q = 0 := by
    intro p hp
    have := congrFun hv0 ⟨p, hp⟩
    simp only [Matrix.mulVec, dotProduct, Matrix.of_apply, Pi.zero_apply] at this
    rw [Finset.sum_range]
    simp only [hyv]
    exact this
  have hT : P.Test y := by
    intro p hp hb
    have := hrow p hp
    simp only [hB p hp, if_pos hb, ite_mul, one_mul, zero_mul] at this
    rwa [Finset.sum_ite_eq' (Finset.range P.m) p, if_pos (Finset.mem_range.2 hp)] at this
  have hz := hE y hT (by
    rw [← hA, tested P.m (fun p => P.bd p = true) A y (fun _ => 0) _ y hT]
    · simp
    · intro p hp hb
      rw [← hrow p hp]
      exact Finset.sum_congr rfl fun q _ => by rw [hB p hp, if_neg hb])
  exact hv (funext fun i => by rw [← hyv]; exact hz i i.2)

/-- C103 (dof 0 on the boundary, see `C62_bug_dof_zero`): for a problem with definite form, `init` and `solve`
with a solver that succeeds on non-singular matrices succeed and return the solution of the discrete problem, the only one. -/
theorem C103_definite_partial (P : Prob K) (hP : P.Ok) (hE : P.Definite) (lu : Solver K) (hlu : ExactLU P.m lu) (hlc : CompleteLU P.m lu)
    (data : Dense K) (hr : P.n * size P.t ≤ data.rows) (hc : data.cols = 1) (g : Dense K) (hg : P.m ≤ g.rows) (hgc : 0 < g.cols)
    (hm : 0 < P.m) (h0 : P.bd 0 = true) (junk : Nat → K) :
    ∃ w, (P.init data junk >>= pdeSolveElliptic lu g) = .ok (true, some w) ∧
      P.Galerkin (fun c k => data.at' (size P.t * c + k) 0) (fun p => g.at' p 0) w ∧
      ∀ w', P.Galerkin (fun c k => data.at' (size P.t * c + k) 0) (fun p => g.at' p 0) w' → ∀ p < P.m, w' p = w p := by
  obtain ⟨b, u, e1, e2, e3⟩ := C102_galerkin_partial P hP lu hlu data hr hc g hg hgc hm h0 junk
  have hb : b = true := by
    obtain ⟨s, h1, h2, h3, h4, h5, h6, _, _⟩ := C102_init P hP data hr (by omega) junk
    rw [hc, Nat.mul_one] at h5
    obtain ⟨s', e, a1, a2, a3, a4, a5, a6, a7⟩ := C62_rows g s h4 (by rw [h2]; exact hg) hgc (by rw [h2, h5])
    rw [h1, Res.ok_bind, pdeSolveElliptic, if_neg (Nat.mul_pos (by omega) hgc).ne', e, Res.ok_bind] at e1
    change solveElliptic lu s' = _ at e1
    rw [solveElliptic, if_neg (by simp [a5])] at e1
    have hs : (lu s'.stiff).isSome := by
      apply hlc
      refine dirichlet_det P hE s.stiff s'.stiff h6 fun p hp q => ?_
      rw [a6, h3, h2]
      by_cases hbp : P.bd p = true
      · rw [if_pos ⟨hp, Or.inr hbp⟩, if_pos hbp]
      · rw [if_neg (by rintro ⟨_, rfl | h⟩; exact hbp h0; exact hbp h), if_neg hbp]
    obtain ⟨F, hF⟩ := Option.isSome_iff_exists.1 hs
    rw [hF] at e1
    dsimp only at e1
    rw [if_pos (by rw [a4, a1, h5, h2])] at e1
    cases e1
    rfl
  subst hb
  obtain ⟨w, rfl⟩ := Option.isSome_iff_exists.1 (e2.1 rfl)
  exact ⟨w, e1, e3 w rfl, fun w' hw' => C103_definite_unique P hP hE _ _ _ _ hw' (e3 w rfl)⟩

/-- C103 (dof 0 on the boundary, see `C62_bug_dof_zero`): for an elliptic problem on a connected mesh, `init` and `solve`
with a solver that succeeds on non-singular matrices succeed and return the solution of the discrete problem, the only one. -/
theorem C103_solve_partial (P : Prob K) (hP : P.Ok) (hE : P.Coercive) (lu : Solver K) (hlu : ExactLU P.m lu) (hlc : CompleteLU P.m lu)
    (data : Dense K) (hr : P.n * size P.t ≤ data.rows) (hc : data.cols = 1) (g : Dense K) (hg : P.m ≤ g.rows) (hgc : 0 < g.cols)
    (hm : 0 < P.m) (h0 : P.bd 0 = true) (junk : Nat → K) :
    ∃ w, (P.init data junk >>= pdeSolveElliptic lu g) = .ok (true, some w) ∧
      P.Galerkin (fun c k => data.at' (size P.t * c + k) 0) (fun p => g.at' p 0) w ∧
      ∀ w', P.Galerkin (fun c k => data.at' (size P.t * c + k) 0) (fun p => g.at' p 0) w' → ∀ p < P.m, w' p = w p :=
  C103_definite_partial P hP (test_zero P hE ⟨0, hm, h0⟩) lu hlu hlc data hr hc g hg hgc hm h0 junk

theorem bilin_symm (P : Prob K) (hP : P.Ok) (hs : isSymmetric P.op = true) (u v : Nat → K) : P.bilin u v = P.bilin v u :=
  Finset.sum_congr rfl fun c _ => congrArg _ (Finset.sum_congr rfl fun k _ => congrArg _ (by
    rw [← weak_eq_form, ← weak_eq_form]; exact C60_flag P.N P.op hs (hP.sym hs) _ _ _ _ _))

/-- C103 (Ritz): when the operator is flagged symmetric, a solution of the discrete problem has the least energy among all functions
with its boundary values. -/
theorem C103_energy (P : Prob K) (hP : P.Ok) (hE : P.Coercive) (hs : isSymmetric P.op = true) (f : Nat → Nat → K)
    (g w : Nat → K) (h : P.Galerkin f g w) (y : Nat → K) (hy : ∀ p < P.m, P.bd p = true → y p = g p) :
    P.energy f w ≤ P.energy f y := by
  set e : Nat → K := fun p => y p + -1 * w p with he
  have ht : P.Test e := fun p hp hb => by
    simp only [he]; rw [h.1 p hp hb, hy p hp hb]; ring
  have hye : y = fun p => w p + 1 * e p := by funext p; simp only [he]; ring
  clear_value e
  have h1 : P.bilin y y = P.bilin w w + 2 * P.load f e + P.bilin e e := by
    rw [hye, bilin_left P hP, bilin_right P hP, bilin_right P hP, bilin_symm P hP hs e w, h.2 e ht]
    ring
  have h2 : P.load f y = P.load f w + 1 * P.load f e := by
    conv_lhs => rw [hye]
    rw [load_add P hP]
  rw [Prob.energy, Prob.energy, h1, h2]
  have := (hE e).1
  linarith

/-! ### Operators -/

theorem dot_self (N : Nat) (g : Nat → K) : 0 ≤ dot N g g ∧ (dot N g g = 0 → ∀ z < N, g z = 0) := by
  refine ⟨Finset.sum_nonneg fun z _ => mul_self_nonneg _, fun h z hz => ?_⟩
  have := (Finset.sum_eq_zero_iff_of_nonneg (fun z _ => mul_self_nonneg (g z))).1 h z (Finset.mem_range.2 hz)
  exact mul_self_eq_zero.1 this

/-- C103: `-laplace` is elliptic. -/
theorem C103_laplacian (N r : Nat) : Elliptic N (.neg .lap : Op K) r := by
  intro u g
  simp only [form, neg_neg]
  exact dot_self N g

/-- C103: `-div(D grad)` is elliptic when the tensor is positive definite. -/
theorem C103_diffusion (N r : Nat) (D : Nat → Nat → Nat → K)
    (hD : ∀ x : Nat → K, (∃ z < N, x z ≠ 0) → 0 < dot N (fun z => dot N (D r z) x) x) : Elliptic N (.neg (.diff D)) r := by
  intro u g
  simp only [form, neg_neg]
  by_cases h : ∃ z < N, g z ≠ 0
  · exact ⟨(hD g h).le, fun h' => absurd h' (hD g h).ne'⟩
  · have hg : ∀ z < N, g z = 0 := fun z hz => by
      by_contra h'
      exact h ⟨z, hz, h'⟩
    have : dot N (fun z => dot N (D r z) g) g = 0 := Finset.sum_eq_zero fun z hz => by rw [hg z (Finset.mem_range.1 hz), mul_zero]
    exact ⟨this.ge, fun _ => hg⟩

/-- C103: ... also with a non-negative reaction term, with `dt`, and multiplied by a positive number. -/
theorem C103_compose (N r : Nat) (a : Op K) (h : Elliptic N a r) :
    (∀ c : Nat → K, 0 ≤ c r → Elliptic N (.add a (.react c)) r) ∧ Elliptic N (.add .dT a) r ∧
      (∀ x : K, 0 < x → Elliptic N (.smul x a) r) ∧ ∀ b, Elliptic N b r → Elliptic N (.add a b) r := by
  refine ⟨fun c hc u g => ?_, fun u g => ?_, fun x hx u g => ?_, fun b hb u g => ?_⟩ <;> simp only [form]
  · have h1 := h u g
    have h2 : 0 ≤ c r * u * u := by rw [mul_assoc]; exact mul_nonneg hc (mul_self_nonneg u)
    exact ⟨add_nonneg h1.1 h2, fun h3 => h1.2 (by linarith [h1.1])⟩
  · rw [zero_add]; exact h u g
  · have h1 := h u g
    exact ⟨mul_nonneg hx.le h1.1, fun h3 => h1.2 ((mul_eq_zero.1 h3).resolve_left hx.ne')⟩
  · have h1 := h u g
    have h2 := hb u g
    exact ⟨add_nonneg h1.1 h2.1, fun h3 => h1.2 (by linarith [h1.1, h2.1])⟩

/-- C103: linear elements on non-degenerate cells: a function is constant on a cell where its gradient is zero.  The
gradients are those of the assembler, the gradient of the reference function times the inverse Jacobian `I c` of the cell,
which has a right inverse. -/
theorem C103_linear_elements (N M : Nat) (I J : Nat → Nat → K) (hI : ∀ w < M, ∀ w' < M, ∑ z ∈ Finset.range N, I w z * J z w' = if w = w' then 1 else 0)
    (d : Nat → Nat) (u : Nat → K)
    (h : ∀ z < N, feGrad (M + 1) d u (fun i z => ∑ w ∈ Finset.range M, (if i = 0 then -1 else if i = w + 1 then 1 else 0) * I w z) z = 0) :
    ∀ i < M + 1, ∀ j < M + 1, u (d i) = u (d j) := by
  have h1 : ∀ z < N, ∑ w ∈ Finset.range M, (u (d (w + 1)) - u (d 0)) * I w z = 0 := by
    intro z hz
    rw [← h z hz, feGrad]
    simp only [Finset.mul_sum]
    rw [Finset.sum_comm]
    refine Finset.sum_congr rfl fun w hw => ?_
    rw [Finset.sum_range_succ', if_pos rfl]
    simp only [Nat.succ_ne_zero, if_false, Nat.add_right_cancel_iff, ite_mul, one_mul, zero_mul, mul_ite, mul_zero]
    rw [Finset.sum_ite_eq' (Finset.range M) w, if_pos hw]
    ring
  have h2 : ∀ w' < M, u (d (w' + 1)) = u (d 0) := by
    intro w' hw'
    have e : ∑ z ∈ Finset.range N, (∑ w ∈ Finset.range M, (u (d (w + 1)) - u (d 0)) * I w z) * J z w' = u (d (w' + 1)) - u (d 0) := by
      simp only [Finset.sum_mul]
      rw [Finset.sum_comm]
      have : ∀ w ∈ Finset.range M, ∑ z ∈ Finset.range N, (u (d (w + 1)) - u (d 0)) * I w z * J z w' =
          if w = w' then u (d (w + 1)) - u (d 0) else 0 := by
        intro w hw
        simp only [mul_assoc]
        rw [← Finset.mul_sum, hI w (Finset.mem_range.1 hw) w' hw', mul_ite, mul_one, mul_zero]
      rw [Finset.sum_congr rfl this, Finset.sum_ite_eq' (Finset.range M) w', if_pos (Finset.mem_range.2 hw')]
    rw [Finset.sum_eq_zero (fun z hz => by rw [h1 z (Finset.mem_range.1 hz), zero_mul])] at e
    linarith
  have h3 : ∀ i < M + 1, u (d i) = u (d 0) := by
    intro i hi
    rcases i with _ | i
    · rfl
    · exact h2 i (by omega)
  exact fun i hi j hj => by rw [h3 i hi, h3 j hj]

/-! ### Time steps -/

theorem l2_matrix (P : Prob K) (hP : P.Ok) : ∃ A : Nat → Nat → K, ∀ u v,
    ∑ p ∈ Finset.range P.m, ∑ q ∈ Finset.range P.m, v p * A p q * u q = P.l2 u v := by
  obtain ⟨A, _, h⟩ := C91_form P.t P.N (.react fun _ => 1) P.measure P.psi P.grad P.n P.nb P.m P.dofs hP.dofs (fun _ => trivial) trivial
  refine ⟨A, fun u v => ?_⟩
  rw [h]
  simp only [form, one_mul]
  rfl

theorem l2_symm (P : Prob K) (u v : Nat → K) : P.l2 u v = P.l2 v u :=
  Finset.sum_congr rfl fun c _ => congrArg _ (Finset.sum_congr rfl fun k _ => congrArg _ (mul_comm _ _))

theorem l2_left (P : Prob K) (hP : P.Ok) (x y : K) (u u' v : Nat → K) :
    P.l2 (fun p => x * u p + y * u' p) v = x * P.l2 u v + y * P.l2 u' v := by
  obtain ⟨A, h⟩ := l2_matrix P hP
  simp only [← h, Finset.mul_sum, ← Finset.sum_add_distrib]
  exact Finset.sum_congr rfl fun p _ => Finset.sum_congr rfl fun q _ => by ring

theorem l2_nonneg (P : Prob K) (hm : ∀ c < P.n, 0 < P.measure c) (hw : ∀ k < size P.t, 0 < weight K P.t k) (v : Nat → K) : 0 ≤ P.l2 v v :=
  Finset.sum_nonneg fun c hc => mul_nonneg (hm c (Finset.mem_range.1 hc)).le
    (Finset.sum_nonneg fun k hk => mul_nonneg (hw k (Finset.mem_range.1 hk)).le (mul_self_nonneg _))

/-- C104 (dof 0 on the boundary): unconditional stability.  Without forcing and with zero boundary data, for every positive
time step, the L2 norm of the solution of a parabolic problem with a non-negative form never increases after the first step,
and not in the first one either. -/
theorem C104_stable_partial (P : Prob K) (hP : P.Ok) (hop : hasDT P.op = true)
    (hE : ∀ c < P.n, ∀ k < size P.t, ∀ (u : K) (g : Nat → K), 0 ≤ form P.N P.op (size P.t * c + k) u u g g)
    (hme : ∀ c < P.n, 0 < P.measure c) (hw : ∀ k < size P.t, 0 < weight K P.t k)
    (lu : Solver K) (hlu : ExactLU P.m lu)
    (data : Dense K) (hr : P.n * size P.t ≤ data.rows) (hc : 0 < data.cols) (hd : ∀ r j, data.at' r j = 0)
    (g : Dense K) (hg : P.m ≤ g.rows) (hgc : data.cols ≤ g.cols) (hg0 : ∀ p j, g.at' p j = 0)
    (hm : 0 < P.m) (h0 : P.bd 0 = true) (junk ic : Nat → K) (t0 t1 : K) (ht : t0 < t1) (ts : List K) :
    ∃ b sol, (P.init data junk >>= pdeSolveParabolic lu (t0 :: t1 :: ts) data.cols ic g) = .ok (b, sol) ∧ sol 0 = ic ∧
      (b = true → ∀ i, i + 1 < data.cols → P.l2 (sol (i + 1)) (sol (i + 1)) ≤ P.l2 (sol i) (sol i)) := by
  obtain ⟨b, sol, e1, e2, e3⟩ := C102_parabolic_partial P hP hop lu hlu data hr hc g hg hgc hm h0 junk ic t0 t1 ts
  refine ⟨b, sol, e1, e2, fun hb i hi => ?_⟩
  obtain ⟨e4, e5⟩ := e3 hb i hi
  have hT : P.Test (sol (i + 1)) := fun p hp hbp => by rw [e4 p hp hbp, hg0]
  have hdt : 0 < t1 - t0 := by linarith
  have e6 := e5 _ hT
  have hl : P.load (fun c k => data.at' (size P.t * c + k) (i + 1)) (sol (i + 1)) = 0 := by
    simp [Prob.load, hd]
  have hb0 : 0 ≤ P.bilin (sol (i + 1)) (sol (i + 1)) :=
    Finset.sum_nonneg fun c hc => mul_nonneg (hme c (Finset.mem_range.1 hc)).le
      (Finset.sum_nonneg fun k hk => mul_nonneg (hw k (Finset.mem_range.1 hk)).le
        (hE c (Finset.mem_range.1 hc) k (Finset.mem_range.1 hk) _ _))
  have e7 : P.l2 (fun p => (sol (i + 1) p - sol i p) / (t1 - t0)) (sol (i + 1)) =
      (t1 - t0)⁻¹ * P.l2 (sol (i + 1)) (sol (i + 1)) + -(t1 - t0)⁻¹ * P.l2 (sol i) (sol (i + 1)) := by
    rw [← l2_left P hP]
    congr 1
    funext p
    ring
  have e8 := l2_nonneg P hme hw (fun p => 1 * sol (i + 1) p + -1 * sol i p)
  rw [l2_left P hP, l2_symm P (sol (i + 1)), l2_symm P (sol i) (fun p => _), l2_left P hP, l2_left P hP,
    l2_symm P (sol (i + 1)) (sol i)] at e8
  rw [e7, hl] at e6
  have hinv : 0 < (t1 - t0)⁻¹ := inv_pos.2 hdt
  have e9 : P.l2 (sol (i + 1)) (sol (i + 1)) - P.l2 (sol i) (sol (i + 1)) ≤ 0 := by
    by_contra hcon
    push Not at hcon
    have := mul_pos hinv hcon
    have e10 : (t1 - t0)⁻¹ * (P.l2 (sol (i + 1)) (sol (i + 1)) - P.l2 (sol i) (sol (i + 1))) + P.bilin (sol (i + 1)) (sol (i + 1)) = 0 := by
      rw [← e6]; ring
    linarith
  linarith

/-- C104: when the form of the time steps is definite on the test functions the matrix of the time steps is non-singular: a solver that
succeeds on non-singular matrices succeeds. -/
theorem C104_nonsingular_partial (P : Prob K) (hP : P.Ok) (t0 t1 : K)
    (hD : ∀ v, P.Test v → P.l2 v v / (t1 - t0) + P.bilin v v = 0 → ∀ p < P.m, v p = 0)
    (lu : Solver K) (hlu : ExactLU P.m lu) (hlc : CompleteLU P.m lu)
    (data : Dense K) (hr : P.n * size P.t ≤ data.rows) (hc : 0 < data.cols)
    (g : Dense K) (hg : P.m ≤ g.rows) (hgc : data.cols ≤ g.cols)
    (hm : 0 < P.m) (h0 : P.bd 0 = true) (junk ic : Nat → K) (ts : List K) :
    ∃ sol, (P.init data junk >>= pdeSolveParabolic lu (t0 :: t1 :: ts) data.cols ic g) = .ok (true, sol) := by
  obtain ⟨s, h1, h2, h3, h4, h5, h6, h7, h8⟩ := C102_init P hP data hr hc junk
  obtain ⟨b, sol, e1, _, _, e4⟩ := C63_implicit_euler_partial lu t0 t1 ts data.cols ic g s (by rw [h2]; exact hlu) h4
    (by rw [h2]; exact hg) hgc hc (by rw [h5, h2]) (by rw [h2]; exact hm) (by rw [h3]; exact h0)
  have hb : b = true := by
    rw [e4]
    apply hlc
    intro hd
    obtain ⟨v, hv, hv0⟩ := Matrix.exists_mulVec_eq_zero_iff.2 hd
    set y : Nat → K := fun p => if h : p < P.m then v ⟨p, h⟩ else 0 with hy
    have hyv : ∀ i : Fin P.m, y i = v i := fun i => by simp [hy, i.2]
    have hrow : ∀ p < P.m, ∑ q ∈ Finset.range P.m, (if P.bd p = true then (if q = p then 1 else 0)
        else s.mass p q / (t1 - t0) + s.stiff p q) * y q = 0 := by
      intro p hp
      have := congrFun hv0 ⟨p, hp⟩
      simp only [Matrix.mulVec, dotProduct, Matrix.of_apply, Pi.zero_apply, h2, h3, hp, true_and] at this
      rw [Finset.sum_range]
      simp only [hyv]
      exact this
    have hT : P.Test y := by
      intro p hp hb
      have := hrow p hp
      simp only [if_pos hb, ite_mul, one_mul, zero_mul] at this
      rwa [Finset.sum_ite_eq' (Finset.range P.m) p, if_pos (Finset.mem_range.2 hp)] at this
    have e := tested P.m (fun p => P.bd p = true) (fun p q => s.mass p q / (t1 - t0) + s.stiff p q) y (fun _ => 0)
      (fun p hp hb => by
        rw [← hrow p hp]
        exact Finset.sum_congr rfl fun q _ => by rw [if_neg hb]) y hT
    have e' : P.l2 y y / (t1 - t0) + P.bilin y y = 0 := by
      rw [← h6, ← h7, Finset.sum_div, ← Finset.sum_add_distrib]
      simp only [mul_zero, Finset.sum_const_zero] at e
      rw [← e]
      refine Finset.sum_congr rfl fun p _ => ?_
      rw [Finset.sum_div, ← Finset.sum_add_distrib]
      exact Finset.sum_congr rfl fun q _ => by ring
    have := hD y hT e'
    exact hv (funext fun i => by rw [← hyv]; exact this i i.2)
  subst hb
  exact ⟨sol, by rw [h1, Res.ok_bind, e1]⟩

/-- C104: for a parabolic problem with a non-negative form and positive definite mass matrix the matrix of the time steps is
non-singular for every positive time step: a solver that succeeds on non-singular matrices succeeds. -/
theorem C104_succeeds_partial (P : Prob K) (hP : P.Ok)
    (hE : ∀ c < P.n, ∀ k < size P.t, ∀ (u : K) (g : Nat → K), 0 ≤ form P.N P.op (size P.t * c + k) u u g g)
    (hme : ∀ c < P.n, 0 < P.measure c) (hw : ∀ k < size P.t, 0 < weight K P.t k)
    (hM : ∀ v, P.l2 v v = 0 → ∀ p < P.m, v p = 0)
    (lu : Solver K) (hlu : ExactLU P.m lu) (hlc : CompleteLU P.m lu)
    (data : Dense K) (hr : P.n * size P.t ≤ data.rows) (hc : 0 < data.cols)
    (g : Dense K) (hg : P.m ≤ g.rows) (hgc : data.cols ≤ g.cols)
    (hm : 0 < P.m) (h0 : P.bd 0 = true) (junk ic : Nat → K) (t0 t1 : K) (ht : t0 < t1) (ts : List K) :
    ∃ sol, (P.init data junk >>= pdeSolveParabolic lu (t0 :: t1 :: ts) data.cols ic g) = .ok (true, sol) := by
  refine C104_nonsingular_partial P hP t0 t1 (fun y _ e' => ?_) lu hlu hlc data hr hc g hg hgc hm h0 junk ic ts
  have hb0 : 0 ≤ P.bilin y y :=
    Finset.sum_nonneg fun c hc => mul_nonneg (hme c (Finset.mem_range.1 hc)).le
      (Finset.sum_nonneg fun k hk => mul_nonneg (hw k (Finset.mem_range.1 hk)).le
        (hE c (Finset.mem_range.1 hc) k (Finset.mem_range.1 hk) _ _))
  have hdt : 0 < t1 - t0 := by linarith
  have hl0 := div_nonneg (l2_nonneg P hme hw y) hdt.le
  have hl : P.l2 y y / (t1 - t0) = 0 := by linarith
  exact hM y ((div_eq_zero_iff.1 hl).resolve_right hdt.ne')

/-! ### The hypotheses are met -/

theorem demo_weight : ∀ k < size rule1_2, 0 < weight ℚ rule1_2 k := by
  intro k hk
  have : k < 2 := hk
  rcases (by omega : k = 0 ∨ k = 1) with rfl | rfl <;> norm_num [weight, rule1_2]

theorem demo_ell (op : Op ℚ) (h : ∀ r, Elliptic 1 op r) : (demoProb op).Ell where
  op := fun c _ k _ => h _
  measure := fun c _ => by norm_num [demoProb]
  weight := demo_weight
  rigid := by
    intro c hc u hu
    have e := hu 0 (show 0 < 2 by decide) 0 (show 0 < 1 by decide)
    simp only [feGrad, demoProb, Finset.sum_range_succ, Finset.sum_range_zero, zero_add, if_pos, one_ne_zero, if_false] at e
    intro i hi j hj
    have hi : i < 2 := hi
    have hj : j < 2 := hj
    rcases (by omega : i = 0 ∨ i = 1) with rfl | rfl <;> rcases (by omega : j = 0 ∨ j = 1) with rfl | rfl <;>
      simp only [demoProb] <;> linarith
  connected := by
    have h01 : Relation.ReflTransGen (demoProb op).Linked 0 1 := .single ⟨0, (show 0 < 2 by decide), 0, (show 0 < 2 by decide), 1, (show 1 < 2 by decide), rfl, rfl⟩
    have h12 : Relation.ReflTransGen (demoProb op).Linked 1 2 := .single ⟨1, (show 1 < 2 by decide), 0, (show 0 < 2 by decide), 1, (show 1 < 2 by decide), rfl, rfl⟩
    have h10 : Relation.ReflTransGen (demoProb op).Linked 1 0 := .single ⟨0, (show 0 < 2 by decide), 1, (show 1 < 2 by decide), 0, (show 0 < 2 by decide), rfl, rfl⟩
    have h21 : Relation.ReflTransGen (demoProb op).Linked 2 1 := .single ⟨1, (show 1 < 2 by decide), 1, (show 1 < 2 by decide), 0, (show 0 < 2 by decide), rfl, rfl⟩
    intro p hp q hq
    have hp : p < 3 := hp
    have hq : q < 3 := hq
    rcases (by omega : p = 0 ∨ p = 1 ∨ p = 2) with rfl | rfl | rfl <;>
      rcases (by omega : q = 0 ∨ q = 1 ∨ q = 2) with rfl | rfl | rfl <;>
        first | exact .refl | assumption | exact h01.trans h12 | exact h21.trans h10

/-- `-u'' = 1` on the unit interval with zero boundary values: the value at the middle is 1/8. -/
example : ∃ (lu : Solver ℚ) (w : Nat → ℚ),
    ((demoProb (.neg .lap)).init ⟨4, 1, fun _ _ => 1⟩ (fun _ => 0) >>= pdeSolveElliptic lu ⟨3, 1, fun _ _ => 0⟩) = .ok (true, some w) ∧
      w 0 = 0 ∧ w 1 = 1 / 8 ∧ w 2 = 0 := by
  obtain ⟨lu, h1, h2⟩ := exists_exactLU (K := ℚ) 3
  obtain ⟨w, e, ⟨h3, h4⟩, _⟩ := C103_solve_partial (demoProb (.neg .lap)) demoProb_ok.1 (C103_coercive _ (demo_ell _ (C103_laplacian 1))) lu h1 h2
    ⟨4, 1, fun _ _ => 1⟩ (by decide) rfl ⟨3, 1, fun _ _ => 0⟩ (by decide) (by decide) (by decide) rfl (fun _ => 0)
  have w0 : w 0 = 0 := h3 0 (by decide) rfl
  have w2 : w 2 = 0 := h3 2 (by decide) rfl
  have hv := h4 (fun p => if p = 1 then 1 else 0) (by
    intro p hp hb
    have : p ≠ 1 := by rintro rfl; cases hb
    simp [this])
  refine ⟨lu, w, e, w0, ?_, w2⟩
  simp [Prob.bilin, Prob.load, demoProb, form, feValue, feGrad, dot, Finset.sum_range_succ, size, rule1_2, weight, node, w0, w2] at hv
  norm_num at hv
  linarith

example : ∃ (lu : Solver ℚ) (sol : Nat → Nat → ℚ),
    ((demoProb (.add .dT (.neg .lap))).init ⟨4, 3, fun _ _ => 0⟩ (fun _ => 0) >>=
      pdeSolveParabolic lu [0, 1, 2] 3 (fun p => if p = 1 then 1 else 0) ⟨3, 3, fun _ _ => 0⟩) = .ok (true, sol) := by
  obtain ⟨lu, h1, h2⟩ := exists_exactLU (K := ℚ) 3
  obtain ⟨sol, e⟩ := C104_succeeds_partial (demoProb (.add .dT (.neg .lap))) demoProb_ok.2
    (fun c hc k hk u g => (((C103_compose 1 _ _ (C103_laplacian 1 _)).2.1) u g).1) (fun c _ => by norm_num [demoProb]) demo_weight
    (by
      intro v hv
      have e : ∀ a b c d : ℚ, 1 / 2 * (1 / 2 * (a * a) + 1 / 2 * (b * b)) + 1 / 2 * (1 / 2 * (c * c) + 1 / 2 * (d * d)) = 0 → a = 0 ∧ b = 0 ∧ c = 0 ∧ d = 0 := by
        intro a b c d h
        refine ⟨?_, ?_, ?_, ?_⟩ <;> (apply mul_self_eq_zero.1; nlinarith [mul_self_nonneg a, mul_self_nonneg b, mul_self_nonneg c, mul_self_nonneg d])
      have hs : size (demoProb (.add .dT (.neg .lap))).t = 2 := rfl
      have w0 : weight ℚ rule1_2 0 = 1 / 2 := by norm_num [weight, rule1_2]
      have w1 : weight ℚ rule1_2 1 = 1 / 2 := by norm_num [weight, rule1_2]
      have n0 : node ℚ rule1_2 0 0 = 211324865405187 / 1000000000000000 := by norm_num [node, rule1_2]
      have n1 : node ℚ rule1_2 1 0 = 788675134594812 / 1000000000000000 := by norm_num [node, rule1_2]
      simp only [Prob.l2, hs] at hv
      simp only [demoProb, feValue, Finset.sum_range_succ, Finset.sum_range_zero, w0, w1, n0, n1, zero_add, if_true,
        one_ne_zero, if_false, Nat.add_zero, Nat.reduceAdd] at hv
      have := e _ _ _ _ hv
      obtain ⟨a, b, c, d⟩ := this
      intro p hp
      have hp : p < 3 := hp
      rcases (by omega : p = 0 ∨ p = 1 ∨ p = 2) with rfl | rfl | rfl <;> linarith)
    lu h1 h2 ⟨4, 3, fun _ _ => 0⟩ (by decide) (by decide) ⟨3, 3, fun _ _ => 0⟩ (by decide) (by decide) (by decide) rfl (fun _ => 0)
    (fun p => if p = 1 then 1 else 0) 0 1 (by norm_num) [2]
  exact ⟨lu, sol, e⟩

end Fdapde.PDE
