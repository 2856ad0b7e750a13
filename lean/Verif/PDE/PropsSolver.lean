import Mathlib.Algebra.Field.Rat
import Mathlib.Tactic.Ring
import Mathlib.Tactic.SplitIfs
import Mathlib.LinearAlgebra.Matrix.NonsingularInverse
import Verif.PDE.Solver

/-!
# Properties of the finite element solvers (C62, C63)
-/

namespace Fdapde.PDE

open Fdapde Finset

variable {K : Type} [Field K]

/-- Specification of a direct solver for systems of size `n`: whenever the factorization succeeds, the result solves the
system for every right-hand side. -/
def ExactLU (n : Nat) (lu : Solver K) : Prop :=
  ∀ A f, lu A = some f → ∀ (b : Nat → K), ∀ p < n, ∑ q ∈ range n, A p q * f b q = b p

/-- Such solvers exist and succeed on every non-singular matrix. -/
theorem exists_exactLU (n : Nat) : ∃ lu : Solver K, ExactLU n lu ∧
    ∀ A, (Matrix.of fun i j : Fin n => A i j).det ≠ 0 → (lu A).isSome := by
  classical
  refine ⟨fun A => if (Matrix.of fun i j : Fin n => A i j).det ≠ 0 then
    some (fun b q => if h : q < n then ((Matrix.of fun i j : Fin n => A i j)⁻¹.mulVec fun i => b i) ⟨q, h⟩ else 0) else none, ?_, ?_⟩
  · intro A f hf b p hp
    dsimp only at hf
    split_ifs at hf with h
    cases hf
    have hu : IsUnit (Matrix.of fun i j : Fin n => A i j).det := isUnit_iff_ne_zero.2 h
    have e := congrFun (congrArg (fun M => M.mulVec fun i : Fin n => b i) (Matrix.mul_nonsing_inv _ hu)) ⟨p, hp⟩
    simp only [← Matrix.mulVec_mulVec, Matrix.one_mulVec] at e
    rw [Finset.sum_range, ← e]
    rw [Matrix.mulVec, dotProduct]
    exact Finset.sum_congr rfl fun q _ => by simp
  · intro A h
    simp only [ne_eq, h, not_false_eq_true, if_true, Option.isSome_some]

theorem scan_spec (bd : Nat → Bool) (n : Nat) : ∀ k i, i ≤ n → n - i ≤ k →
    i ≤ scan bd n k i ∧ scan bd n k i ≤ n ∧ (∀ d, i ≤ d → d < scan bd n k i → bd d = false) ∧
      (scan bd n k i < n → bd (scan bd n k i) = true)
  | 0, i, h1, h2 => by
    have : i = n := by omega
    subst this
    simp only [scan]
    exact ⟨le_refl _, le_refl _, fun d _ _ => by omega, fun _ => by omega⟩
  | k + 1, i, h1, h2 => by
    rw [scan]
    split_ifs with h
    · obtain ⟨a, b, c, d⟩ := scan_spec bd n k (i + 1) (by omega) (by omega)
      refine ⟨by omega, b, fun e h3 h4 => ?_, d⟩
      by_cases he : e = i
      · exact he ▸ h.2
      · exact c e (by omega) h4
    · refine ⟨le_refl _, h1, fun d _ _ => by omega, fun h3 => ?_⟩
      cases hb : bd i
      · exact absurd ⟨h3, hb⟩ h
      · rfl

theorem visit_spec (bd : Nat → Bool) (n : Nat) : ∀ k i, i ≤ n → n - i ≤ k →
    ∃ l, visit bd n k i = some l ∧ ∀ d, d ∈ l ↔ d < n ∧ (d = i ∨ (i < d ∧ bd d = true))
  | 0, i, h1, h2 => by
    have : i = n := by omega
    refine ⟨[], by rw [visit, if_pos this], fun d => ?_⟩
    simp only [List.not_mem_nil, false_iff]
    omega
  | k + 1, i, h1, h2 => by
    rw [visit]
    split_ifs with h
    · refine ⟨[], rfl, fun d => ?_⟩
      simp only [List.not_mem_nil, false_iff]
      omega
    · obtain ⟨a, b, c, e⟩ := scan_spec bd n n (i + 1) (by omega) (by omega)
      obtain ⟨l, h3, h4⟩ := visit_spec bd n k (next bd n i) b (by unfold next; omega)
      refine ⟨i :: l, by rw [h3]; rfl, fun d => ?_⟩
      rw [List.mem_cons, h4]
      change i + 1 ≤ next bd n i at a
      constructor
      · rintro (rfl | ⟨h5, rfl | ⟨h6, h7⟩⟩)
        · exact ⟨by omega, .inl rfl⟩
        · exact ⟨h5, .inr ⟨a, e h5⟩⟩
        · exact ⟨h5, .inr ⟨by omega, h7⟩⟩
      · rintro ⟨h5, rfl | ⟨h6, h7⟩⟩
        · exact .inl rfl
        · refine .inr ⟨h5, ?_⟩
          by_cases h8 : d < next bd n i
          · rw [c d (by omega) h8] at h7
            simp at h7
          · by_cases h9 : d = next bd n i
            · exact .inl h9
            · exact .inr ⟨by omega, h7⟩

/-- The dofs which a loop over the boundary dofs visits: dof 0, always, and the boundary dofs. -/
theorem mem_boundaryLoop (bd : Nat → Bool) (n d : Nat) : d ∈ boundaryLoop bd n ↔ d < n ∧ (d = 0 ∨ bd d = true) := by
  obtain ⟨l, h1, h2⟩ := visit_spec bd n n 0 (by omega) (by omega)
  rw [boundaryLoop, h1, Option.getD_some, h2]
  constructor
  · rintro ⟨h, h3 | h3⟩
    · exact ⟨h, .inl h3⟩
    · exact ⟨h, .inr h3.2⟩
  · rintro ⟨h, h3 | h3⟩
    · exact ⟨h, .inl h3⟩
    · by_cases h4 : d = 0
      · exact ⟨h, .inl h4⟩
      · exact ⟨h, .inr ⟨by omega, h3⟩⟩

theorem unitRows_spec (l : List Nat) (A : Nat → Nat → K) (p q : Nat) :
    l.foldl unitRow A p q = if p ∈ l then (if q = p then 1 else 0) else A p q := by
  induction l generalizing A with
  | nil => simp
  | cons d l ih =>
    rw [List.foldl_cons, ih]
    by_cases h : p ∈ l
    · simp [h]
    · by_cases h2 : p = d
      · subst h2; simp [h, unitRow]
      · simp [h, h2, unitRow]

/-- Effect of the loop of `set_dirichlet_bc` over the dofs `l`. -/
theorem dirichletLoop_spec (g : Dense K) (hc : 0 < g.cols) (l : List Nat) : ∀ (s : Sys K), (∀ d ∈ l, d < g.rows ∧ d < s.forceRows) →
    ∃ s', foldRes (fun (s : Sys K) d => do
      if s.forceRows ≤ d then .ub
      let v ← g.read d 0
      .ok { s with stiff := unitRow s.stiff d, force := fun p => if p = d then v else s.force p }) s l = .ok s' ∧
      s'.n = s.n ∧ s'.bd = s.bd ∧ s'.mass = s.mass ∧ s'.forceRows = s.forceRows ∧ s'.isInit = s.isInit ∧
      (∀ p q, s'.stiff p q = if p ∈ l then (if q = p then 1 else 0) else s.stiff p q) ∧
      (∀ p, s'.force p = if p ∈ l then g.at' p 0 else s.force p) := by
  induction l with
  | nil => exact fun s _ => ⟨s, rfl, rfl, rfl, rfl, rfl, rfl, fun _ _ => by simp, fun _ => by simp⟩
  | cons d l ih =>
    intro s hl
    have h1 := hl d (by simp)
    obtain ⟨s', e, a1, a2, a3, a4, a5, a6, a7⟩ := ih
      { s with stiff := unitRow s.stiff d, force := fun p => if p = d then g.at' d 0 else s.force p }
      (fun d hd => hl d (by simp [hd]))
    refine ⟨s', ?_, a1, a2, a3, a4, a5, fun p q => ?_, fun p => ?_⟩
    · rw [foldRes_cons, ← e]
      simp only [Dense.read, if_pos (show d < g.rows ∧ 0 < g.cols from ⟨h1.1, hc⟩), if_neg (not_le.2 h1.2), Res.ok_bind]
    · rw [a6]
      by_cases h : p ∈ l
      · simp [h]
      · by_cases h2 : p = d
        · subst h2; simp [h, unitRow]
        · simp [h, h2, unitRow]
    · rw [a7]
      by_cases h : p ∈ l
      · simp [h]
      · by_cases h2 : p = d
        · subst h2; simp [h]
        · simp [h, h2]

/-! ## C62 -/

/-- What `set_dirichlet_bc` does for every boundary marking: it replaces the rows of the boundary dofs *and of dof 0*. -/
theorem C62_rows (g : Dense K) (s : Sys K) (hi : s.isInit = true) (hr : s.n ≤ g.rows) (hc : 0 < g.cols) (hf : s.n ≤ s.forceRows) :
    ∃ s', setDirichlet g s = .ok s' ∧ s'.n = s.n ∧ s'.bd = s.bd ∧ s'.mass = s.mass ∧ s'.forceRows = s.forceRows ∧ s'.isInit = true ∧
      (∀ p q, s'.stiff p q = if p < s.n ∧ (p = 0 ∨ s.bd p = true) then (if q = p then 1 else 0) else s.stiff p q) ∧
      (∀ p, s'.force p = if p < s.n ∧ (p = 0 ∨ s.bd p = true) then g.at' p 0 else s.force p) := by
  obtain ⟨s', e, a1, a2, a3, a4, a5, a6, a7⟩ := dirichletLoop_spec g hc (boundaryLoop s.bd s.n) s
    (fun d hd => by have := ((mem_boundaryLoop _ _ _).1 hd).1; omega)
  simp only [mem_boundaryLoop] at a6 a7
  exact ⟨s', by rw [setDirichlet, if_neg (by simp [hi]), e], a1, a2, a3, a4, by rw [a5, hi], a6, a7⟩

/-- **C62**, provided dof 0 is on the boundary (missing: the other markings, for which it is false, `C62_bug_dof_zero`):
`set_dirichlet_bc` replaces the equation of every boundary dof by `u_d = g_d` and leaves every other equation as it was. -/
theorem C62_boundary_rows_partial (g : Dense K) (s : Sys K) (hi : s.isInit = true) (hr : s.n ≤ g.rows) (hc : 0 < g.cols)
    (hf : s.n ≤ s.forceRows) (h0 : s.bd 0 = true) : ∃ s', setDirichlet g s = .ok s' ∧
    ∀ p < s.n,
      (s.bd p = true → (∀ u : Nat → K, ∑ q ∈ range s.n, s'.stiff p q * u q = u p) ∧ s'.force p = g.at' p 0) ∧
      (s.bd p = false → (∀ q, s'.stiff p q = s.stiff p q) ∧ s'.force p = s.force p) := by
  obtain ⟨s', e, _, _, _, _, _, a6, a7⟩ := C62_rows g s hi hr hc hf
  refine ⟨s', e, fun p hp => ⟨fun hb => ⟨fun u => ?_, ?_⟩, fun hb => ?_⟩⟩
  · simp only [a6, if_pos (show p < s.n ∧ (p = 0 ∨ s.bd p = true) from ⟨hp, .inr hb⟩), ite_mul, one_mul, zero_mul]
    rw [Finset.sum_ite_eq' (range s.n) p u, if_pos (Finset.mem_range.2 hp)]
  · rw [a7, if_pos ⟨hp, .inr hb⟩]
  · have : ¬ (p < s.n ∧ (p = 0 ∨ s.bd p = true)) := by
      rintro ⟨_, rfl | h⟩
      · rw [h0] at hb; cases hb
      · rw [h] at hb; cases hb
    exact ⟨fun q => by rw [a6, if_neg this], by rw [a7, if_neg this]⟩

/-- **C62**, twice is once: imposing the conditions again changes nothing, whatever the marking. -/
theorem C62_idempotent (g : Dense K) (s : Sys K) (hi : s.isInit = true) (hr : s.n ≤ g.rows) (hc : 0 < g.cols)
    (hf : s.n ≤ s.forceRows) : ∃ s', setDirichlet g s = .ok s' ∧ setDirichlet g s' = .ok s' := by
  obtain ⟨s', e, a1, a2, a3, a4, a5, a6, a7⟩ := C62_rows g s hi hr hc hf
  obtain ⟨s'', e', b1, b2, b3, b4, b5, b6, b7⟩ := C62_rows g s' a5 (by omega) hc (by omega)
  refine ⟨s', e, ?_⟩
  rw [e']
  congr 1
  cases s'; cases s''
  simp only at *
  subst b1 b2 b3 b4
  simp only [Sys.mk.injEq, true_and]
  refine ⟨?_, ?_, by rw [a5, b5]⟩
  · funext p q
    rw [b6]
    split_ifs with h1 h2
    · rw [a6, a1, a2] at *; simp_all
    · rw [a6, a1, a2] at *; simp_all
    · rfl
  · funext p
    rw [b7]
    split_ifs with h1
    · rw [a7]; simp_all
    · rfl

/-- **C62**, before initialization the calls throw. -/
theorem C62_uninitialized (g : Dense K) (s : Sys K) (hi : s.isInit = false) (lu : Solver K) (time : List K) (m : Nat) (ic : Nat → K) :
    setDirichlet g s = .throws ∧ pdeSolveElliptic lu g s = .throws ∧ pdeSolveParabolic lu time m ic g s = .throws := by
  have h1 : setDirichlet g s = .throws := by rw [setDirichlet, if_pos hi]
  have h2 : solveElliptic lu s = .throws := by rw [solveElliptic, if_pos hi]
  have h3 : solveParabolic lu time m ic g s = .throws := by unfold solveParabolic; exact if_pos hi
  refine ⟨h1, ?_, ?_⟩
  · unfold pdeSolveElliptic
    by_cases hz : g.rows * g.cols = 0
    · rw [if_pos hz]; exact h2
    · rw [if_neg hz, h1]; rfl
  · unfold pdeSolveParabolic
    by_cases hz : g.rows * g.cols = 0
    · rw [if_pos hz]; exact h3
    · rw [if_neg hz, h1]; rfl

/-- **C62**, on the solution (dof 0 on the boundary, exact linear solver): the solution of a stationary problem takes the
boundary values on the boundary dofs and satisfies the original equations on the others. -/
theorem C62_solution_partial (lu : Solver K) (g : Dense K) (s : Sys K) (hlu : ExactLU s.n lu) (hi : s.isInit = true) (hr : s.n ≤ g.rows)
    (hc : 0 < g.cols) (hf : s.forceRows = s.n) (h0 : s.bd 0 = true) (hn : 0 < s.n) : ∃ b u, pdeSolveElliptic lu g s = .ok (b, u) ∧
    (b = true ↔ u.isSome) ∧ ∀ v ∈ u, ∀ p < s.n, (s.bd p = true → v p = g.at' p 0) ∧
      (s.bd p = false → ∑ q ∈ range s.n, s.stiff p q * v q = s.force p) := by
  obtain ⟨s', e, h⟩ := C62_boundary_rows_partial g s hi hr hc hf.ge h0
  obtain ⟨s'', e', a1, a2, _, a4, a5, _⟩ := C62_rows g s hi hr hc hf.ge
  have : s' = s'' := by rw [e] at e'; exact Res.ok.inj e'
  subst this
  rw [pdeSolveElliptic, if_neg (by
    have : 0 < g.rows := by omega
    exact (Nat.mul_pos this hc).ne'), e, Res.ok_bind]
  show ∃ b u, solveElliptic lu s' = _ ∧ _
  rw [solveElliptic, if_neg (by simp [a5])]
  cases hl : lu s'.stiff with
  | none => exact ⟨false, none, rfl, by simp, by simp⟩
  | some f =>
    refine ⟨true, some (f s'.force), by simp [a4, a1, hf], by simp, fun v hv p hp => ?_⟩
    cases hv
    have hs := hlu _ _ hl s'.force p hp
    refine ⟨fun hb => ?_, fun hb => ?_⟩
    · rw [((h p hp).1 hb).1] at hs
      rw [hs, ((h p hp).1 hb).2]
    · rw [← ((h p hp).2 hb).2, ← hs]
      exact Finset.sum_congr rfl fun q _ => by rw [((h p hp).2 hb).1]

/-- A loop over the boundary dofs starts at dof 0 without looking whether it is on the boundary: when dof 0 is an interior
dof, `set_dirichlet_bc` overwrites its equation, too, by `u_0 = g_0`. -/
theorem C62_bug_dof_zero (g : Dense K) (s : Sys K) (hi : s.isInit = true) (hr : s.n ≤ g.rows) (hc : 0 < g.cols) (hf : s.n ≤ s.forceRows)
    (hn : 0 < s.n) : ∃ s', setDirichlet g s = .ok s' ∧ (∀ q, s'.stiff 0 q = if q = 0 then 1 else 0) ∧ s'.force 0 = g.at' 0 0 := by
  obtain ⟨s', e, _, _, _, _, _, a6, a7⟩ := C62_rows g s hi hr hc hf
  exact ⟨s', e, fun q => by rw [a6, if_pos ⟨hn, .inl rfl⟩], by rw [a7, if_pos ⟨hn, .inl rfl⟩]⟩

/-- Two dofs, the first an interior one: its equation `2 u_0 - u_1 = 5` becomes `u_0 = 0`. -/
example : ∃ s', setDirichlet (K := ℚ) ⟨2, 1, fun _ _ => 0⟩
    ⟨2, fun d => d == 1, fun p q => if p = q then 2 else -1, fun _ _ => 0, fun _ => 5, 2, true⟩ = .ok s' ∧
    s'.stiff 0 0 = 1 ∧ s'.stiff 0 1 = 0 ∧ s'.force 0 = 0 := by
  obtain ⟨s', e, h1, h2⟩ := C62_bug_dof_zero (K := ℚ) ⟨2, 1, fun _ _ => 0⟩
    ⟨2, fun d => d == 1, fun p q => if p = q then 2 else -1, fun _ _ => 0, fun _ => 5, 2, true⟩ rfl (by simp) (by simp) (by simp) (by simp)
  exact ⟨s', e, by rw [h1]; rfl, by rw [h1]; rfl, h2⟩

/-- A system which meets the hypotheses of the partial theorems: three dofs, the first and the last on the boundary. -/
def demo : Sys ℚ := ⟨3, fun d => d != 1, fun p q => if p = q then 2 else -1, fun p q => if p = q then 1 else 0, fun _ => 5, 3, true⟩

example : ∃ s', setDirichlet ⟨3, 1, fun p _ => (p : ℚ)⟩ demo = .ok s' ∧ s'.stiff 1 0 = -1 ∧ s'.stiff 1 1 = 2 ∧ s'.force 1 = 5 ∧ s'.force 2 = 2 := by
  obtain ⟨s', e, h⟩ := C62_boundary_rows_partial ⟨3, 1, fun p _ => (p : ℚ)⟩ demo rfl (by decide) (by decide) (by decide) rfl
  have h1 := (h 1 (by decide)).2 rfl
  have h2 := (h 2 (by decide)).1 rfl
  exact ⟨s', e, by rw [h1.1]; rfl, by rw [h1.1]; rfl, by rw [h1.2]; rfl, by rw [h2.2]; rfl⟩

/-! ## C63 -/

theorem stepRhs_spec (s : Sys K) (dt : K) (g : Dense K) (u : Nat → K) (i : Nat) (hr : s.n ≤ g.rows) (hc : i + 1 < g.cols)
    (hf : s.n * (i + 1) + s.n ≤ s.forceRows) : ∃ rhs, stepRhs s dt g u i = .ok rhs ∧
    ∀ p, rhs p = if p < s.n ∧ (p = 0 ∨ s.bd p = true) then g.at' p (i + 1)
      else (∑ q ∈ range s.n, s.mass p q / dt * u q) + s.force (s.n * (i + 1) + p) := by
  have key : ∀ (l : List Nat), (∀ d ∈ l, d < s.n) → ∀ r : Nat → K, ∃ r', foldRes (fun (rhs : Nat → K) d => do
      let v ← g.read d (i + 1)
      Res.ok (fun p => if p = d then v else rhs p)) r l = .ok r' ∧ ∀ p, r' p = if p ∈ l then g.at' p (i + 1) else r p := by
    intro l
    induction l with
    | nil => exact fun _ r => ⟨r, rfl, fun _ => by simp⟩
    | cons d l ih =>
      intro hl r
      obtain ⟨r', h1, h2⟩ := ih (fun e he => hl e (by simp [he])) (fun p => if p = d then g.at' d (i + 1) else r p)
      refine ⟨r', ?_, fun p => ?_⟩
      · rw [foldRes_cons, ← h1]
        have := hl d (by simp)
        simp only [Dense.read, if_pos (show d < g.rows ∧ i + 1 < g.cols from ⟨by omega, hc⟩), Res.ok_bind]
      · rw [h2]
        by_cases h : p ∈ l
        · simp [h]
        · by_cases h3 : p = d
          · subst h3; simp [h]
          · simp [h, h3]
  obtain ⟨r', h1, h2⟩ := key (boundaryLoop s.bd s.n) (fun d hd => ((mem_boundaryLoop _ _ _).1 hd).1)
    (fun p => (∑ q ∈ range s.n, s.mass p q / dt * u q) + s.force (s.n * (i + 1) + p))
  refine ⟨r', by rw [stepRhs, if_pos hf, h1], fun p => ?_⟩
  rw [h2]
  simp only [mem_boundaryLoop]

/-- The recursion performed by the parabolic solver for every boundary marking; the dofs treated as boundary dofs are the
boundary dofs and dof 0. -/
theorem C63_recursion (lu : Solver K) (t0 t1 : K) (ts : List K) (m : Nat) (ic : Nat → K) (g : Dense K) (s : Sys K)
    (hlu : ExactLU s.n lu) (hi : s.isInit = true) (hr : s.n ≤ g.rows) (hc : m ≤ g.cols) (hm : 0 < m) (hf : s.forceRows = s.n * m) :
    ∃ b sol, solveParabolic lu (t0 :: t1 :: ts) m ic g s = .ok (b, sol) ∧ sol 0 = ic ∧
    (b = true → ∀ i, i + 1 < m → ∀ p < s.n,
      ((p = 0 ∨ s.bd p = true) → sol (i + 1) p = g.at' p (i + 1)) ∧
      (¬ (p = 0 ∨ s.bd p = true) → ∑ q ∈ range s.n, (s.mass p q / (t1 - t0) + s.stiff p q) * sol (i + 1) q =
        (∑ q ∈ range s.n, s.mass p q / (t1 - t0) * sol i q) + s.force (s.n * (i + 1) + p))) ∧
    (b = true ↔ (lu (fun p q => if p < s.n ∧ (p = 0 ∨ s.bd p = true) then (if q = p then 1 else 0)
        else s.mass p q / (t1 - t0) + s.stiff p q)).isSome) := by
  have hA : (boundaryLoop s.bd s.n).foldl unitRow (fun p q => s.mass p q / (t1 - t0) + s.stiff p q) =
      fun p q => if p < s.n ∧ (p = 0 ∨ s.bd p = true) then (if q = p then 1 else 0) else s.mass p q / (t1 - t0) + s.stiff p q := by
    funext p q
    rw [unitRows_spec]
    simp only [mem_boundaryLoop]
  simp only [solveParabolic, if_neg (show ¬ s.isInit = false by simp [hi]), if_neg (show ¬ m = 0 by omega), hA]
  cases hl : lu (fun p q => if p < s.n ∧ (p = 0 ∨ s.bd p = true) then (if q = p then 1 else 0)
      else s.mass p q / (t1 - t0) + s.stiff p q) with
  | none => exact ⟨false, _, rfl, rfl, by simp, by simp⟩
  | some f =>
    have key : ∀ k, k ≤ m - 1 → ∃ sol, foldRes (fun (sol : Nat → Nat → K) i => do
        let rhs ← stepRhs s (t1 - t0) g (sol i) i
        Res.ok (fun c => if c = i + 1 then f rhs else sol c)) (fun _ => ic) (List.range k) = .ok sol ∧ sol 0 = ic ∧
        ∀ i < k, ∀ p < s.n,
          ((p = 0 ∨ s.bd p = true) → sol (i + 1) p = g.at' p (i + 1)) ∧
          (¬ (p = 0 ∨ s.bd p = true) → ∑ q ∈ range s.n, (s.mass p q / (t1 - t0) + s.stiff p q) * sol (i + 1) q =
            (∑ q ∈ range s.n, s.mass p q / (t1 - t0) * sol i q) + s.force (s.n * (i + 1) + p)) := by
      intro k
      induction k with
      | zero => exact fun _ => ⟨_, rfl, rfl, fun i hi => absurd hi (by omega)⟩
      | succ k ih =>
        intro hk
        obtain ⟨sol, h1, h2, h3⟩ := ih (by omega)
        have hfk : s.n * (k + 1) + s.n ≤ s.forceRows := by
          rw [hf, ← Nat.mul_succ]
          exact Nat.mul_le_mul_left _ (by omega)
        obtain ⟨rhs, h4, h5⟩ := stepRhs_spec s (t1 - t0) g (sol k) k hr (by omega) hfk
        refine ⟨fun c => if c = k + 1 then f rhs else sol c, ?_, by simpa using h2, fun i hik p hp => ?_⟩
        · rw [List.range_succ, foldRes_append, h1, Res.ok_bind, foldRes_cons, h4]
          rfl
        · by_cases hik' : i = k
          · subst hik'
            have hs := hlu _ _ hl rhs p hp
            rw [h5] at hs
            simp only [if_true, if_neg (show ¬ i = i + 1 by omega)]
            refine ⟨fun hb => ?_, fun hb => ?_⟩
            · simp only [if_pos (show p < s.n ∧ (p = 0 ∨ s.bd p = true) from ⟨hp, hb⟩), ite_mul, one_mul, zero_mul] at hs
              rw [Finset.sum_ite_eq' (range s.n) p, if_pos (Finset.mem_range.2 hp)] at hs
              exact hs
            · simp only [if_neg (show ¬ (p < s.n ∧ (p = 0 ∨ s.bd p = true)) from fun h => hb h.2)] at hs
              exact hs
          · simp only [if_neg (show ¬ i + 1 = k + 1 by omega), if_neg (show ¬ i = k + 1 by omega)]
            exact h3 i (by omega) p hp
    obtain ⟨sol, h1, h2, h3⟩ := key (m - 1) le_rfl
    refine ⟨true, sol, by simp only [h1, Res.ok_bind], h2, fun _ i him => h3 i (by omega), by simp⟩

/-- **C63**, provided dof 0 is on the boundary and boundary data are given (missing: the other problems, for which it is
false, `C63_bug_dof_zero`, `C63_bug_no_boundary_data`): after `PDE::solve` the columns of the solution satisfy the implicit
Euler recursion with the matrices assembled by `init`, and take the boundary values. The time step is the first one of the
time grid. -/
theorem C63_implicit_euler_partial (lu : Solver K) (t0 t1 : K) (ts : List K) (m : Nat) (ic : Nat → K) (g : Dense K) (s : Sys K)
    (hlu : ExactLU s.n lu) (hi : s.isInit = true) (hr : s.n ≤ g.rows) (hc : m ≤ g.cols) (hm : 0 < m) (hf : s.forceRows = s.n * m)
    (hn : 0 < s.n) (h0 : s.bd 0 = true) :
    ∃ b sol, pdeSolveParabolic lu (t0 :: t1 :: ts) m ic g s = .ok (b, sol) ∧ sol 0 = ic ∧
    (b = true → ∀ i, i + 1 < m → ∀ p < s.n,
      (s.bd p = true → sol (i + 1) p = g.at' p (i + 1)) ∧
      (s.bd p = false → ∑ q ∈ range s.n, (s.mass p q / (t1 - t0) + s.stiff p q) * sol (i + 1) q =
        (∑ q ∈ range s.n, s.mass p q / (t1 - t0) * sol i q) + s.force (s.n * (i + 1) + p))) ∧
    (b = true ↔ (lu (fun p q => if p < s.n ∧ s.bd p = true then (if q = p then 1 else 0)
        else s.mass p q / (t1 - t0) + s.stiff p q)).isSome) := by
  have hfr : s.n ≤ s.forceRows := by rw [hf]; exact Nat.le_mul_of_pos_right _ hm
  obtain ⟨s', e, a1, a2, a3, a4, a5, a6, a7⟩ := C62_rows g s hi hr (by omega) hfr
  have hb0 : ∀ p, (p = 0 ∨ s.bd p = true) ↔ s.bd p = true :=
    fun p => ⟨fun h => h.elim (fun h => h ▸ h0) id, .inr⟩
  simp only [hb0] at a6 a7
  obtain ⟨b, sol, h1, h2, h3, h4⟩ := C63_recursion lu t0 t1 ts m ic g s' (a1 ▸ hlu) a5 (by omega) hc hm (by rw [a4, a1, hf])
  rw [a1, a2, a3] at h3 h4
  simp only [hb0] at h3 h4
  refine ⟨b, sol, ?_, h2, fun hb i hm' p hp => ?_, ?_⟩
  · rw [pdeSolveParabolic, if_neg (by
      have h5 : 0 < g.rows := by omega
      have h6 : 0 < g.cols := by omega
      exact (Nat.mul_pos h5 h6).ne'), e, Res.ok_bind]
    exact h1
  · refine ⟨(h3 hb i hm' p hp).1, fun hbp => ?_⟩
    have h5 := (h3 hb i hm' p hp).2 (by simp [hbp])
    have hnp : ∀ q, ¬ (q < s.n ∧ s.bd q = true) → s'.force q = s.force q := fun q hq => by rw [a7, if_neg hq]
    rw [hnp] at h5
    · rw [← h5]
      exact Finset.sum_congr rfl fun q _ => by rw [a6, if_neg (by simp [hbp])]
    · rintro ⟨h6, -⟩
      have : s.n * 1 ≤ s.n * (i + 1) := Nat.mul_le_mul_left _ (by omega)
      omega
  · rw [h4]
    have : (fun p q => if p < s.n ∧ s.bd p = true then (if q = p then 1 else 0) else s.mass p q / (t1 - t0) + s'.stiff p q) =
        (fun p q => if p < s.n ∧ s.bd p = true then (if q = p then (1 : K) else 0) else s.mass p q / (t1 - t0) + s.stiff p q) := by
      funext p q
      split_ifs with h
      · rfl
      · rfl
      · rw [a6, if_neg h]
    rw [this]

/-- A parabolic problem without Dirichlet data (homogeneous Neumann conditions): `PDE::solve` skips `set_dirichlet_bc` but the
time loop still reads the empty boundary data, out of range, for dof 0 if for no other. -/
theorem C63_bug_no_boundary_data (lu : Solver K) (t0 t1 : K) (ts : List K) (m : Nat) (ic : Nat → K) (g : Dense K) (s : Sys K)
    (hi : s.isInit = true) (hg : g.rows = 0) (hm : 2 ≤ m) (hn : 0 < s.n) (hl : ∀ A, (lu A).isSome) :
    pdeSolveParabolic lu (t0 :: t1 :: ts) m ic g s = .ub := by
  have hz : g.rows * g.cols = 0 := by rw [hg, Nat.zero_mul]
  have hr : ∀ u, stepRhs s (t1 - t0) g u 0 = .ub := by
    intro u
    unfold stepRhs
    split_ifs
    · have h1 : boundaryLoop s.bd s.n ≠ [] := List.ne_nil_of_mem ((mem_boundaryLoop _ _ _).2 ⟨hn, .inl rfl⟩)
      cases hb : boundaryLoop s.bd s.n with
      | nil => exact absurd hb h1
      | cons d l => rw [foldRes_cons, Dense.read, if_neg (by omega)]; rfl
    · rfl
  obtain ⟨f, hf⟩ := Option.isSome_iff_exists.1 (hl ((boundaryLoop s.bd s.n).foldl unitRow (fun p q => s.mass p q / (t1 - t0) + s.stiff p q)))
  have hm' : List.range (m - 1) = 0 :: List.map Nat.succ (List.range (m - 2)) := by
    rw [show m - 1 = (m - 2) + 1 by omega, List.range_succ_eq_map]
  simp only [pdeSolveParabolic, if_pos hz, Res.ok_bind, solveParabolic, if_neg (show ¬ s.isInit = false by simp [hi]),
    if_neg (show ¬ m = 0 by omega), hf, hm', foldRes_cons, hr, Res.ub_bind]

/-- As in the stationary case, dof 0 is given the boundary datum at every time step even when it is an interior dof. -/
theorem C63_bug_dof_zero (lu : Solver K) (t0 t1 : K) (ts : List K) (m : Nat) (ic : Nat → K) (g : Dense K) (s : Sys K)
    (hlu : ExactLU s.n lu) (hi : s.isInit = true) (hr : s.n ≤ g.rows) (hc : m ≤ g.cols) (hm : 0 < m) (hf : s.forceRows = s.n * m)
    (hn : 0 < s.n) : ∃ b sol, solveParabolic lu (t0 :: t1 :: ts) m ic g s = .ok (b, sol) ∧
    (b = true → ∀ i, i + 1 < m → sol (i + 1) 0 = g.at' 0 (i + 1)) := by
  obtain ⟨b, sol, h1, _, h3, _⟩ := C63_recursion lu t0 t1 ts m ic g s hlu hi hr hc hm hf
  exact ⟨b, sol, h1, fun hb i him => (h3 hb i him 0 hn).1 (.inl rfl)⟩

/-- The hypotheses are met: two time steps of length 1/2 for `demo`, whose matrix `2 M + A` with boundary rows replaced is
non-singular, so that an exact solver succeeds. -/
example : ∃ (lu : Solver ℚ) (sol : Nat → Nat → ℚ),
    pdeSolveParabolic lu [0, 1/2, 1] 3 (fun p => p) ⟨3, 3, fun p _ => p⟩ { demo with forceRows := 9 } = .ok (true, sol) ∧
    sol 2 2 = 2 ∧ 4 * sol 1 1 - sol 1 0 - sol 1 2 = 2 * sol 0 1 + 5 := by
  obtain ⟨lu, h1, h2⟩ := exists_exactLU (K := ℚ) 3
  obtain ⟨b, sol, e, e0, h3, h4⟩ := C63_implicit_euler_partial lu 0 (1/2) [1] 3 (fun p => (p : ℚ)) ⟨3, 3, fun p _ => (p : ℚ)⟩
    { demo with forceRows := 9 } h1 rfl (by decide) (by decide) (by decide) (by decide) (by decide) rfl
  have hb : b = true := by
    rw [h4]
    apply h2
    rw [Matrix.det_fin_three]
    simp [demo]
  subst hb
  refine ⟨lu, sol, e, (h3 rfl 1 (by decide) 2 (by decide)).1 rfl, ?_⟩
  have := (h3 rfl 0 (by decide) 1 (by decide)).2 rfl
  simp [demo, Finset.sum_range_succ] at this
  rw [← this]
  ring_nf

end Fdapde.PDE
