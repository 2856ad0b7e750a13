import Verif.PDE.PropsMesh
import Verif.PDE.PropsMaximumTime
/- C160 on meshes: hypotheses on nodes, cells and time step only. -/
set_option linter.unusedSectionVars false
namespace Fdapde.PDE
open Fdapde.Geometry Fdapde.FEM Fdapde.Quadrature Fdapde.Triang Matrix

theorem heat_semi (N r : Nat) (u : ℝ) (g : Nat → ℝ) : 0 ≤ form N (.add .dT (.neg .lap) : Op ℝ) r u u g g :=
  (((C103_compose N _ _ (C103_laplacian N r)).2.1) u g).1

/-- **C160** on meshes of triangles: the heat equation, from temperatures, forcing and boundary data that are not negative, gives
temperatures that are not negative at every time, and without forcing temperatures between the bounds of initial and boundary data, when
the square of twice the area of every triangle is at most twelve times the time step times the product of the edges at each of its corners
whose opposite edge has an end inside.  Partial: dof 0 on the boundary, exact factorization. -/
theorem C160_mesh_triangles_partial {n nNodes : Nat} {cells : Nat → Nat → Nat} {X : Nat → Fin 2 → ℝ} (bNodes : Nat → Bool)
    (h : GoodMesh 3 n nNodes cells X) (t0 t1 : ℝ) (ht : t0 < t1) (ts : List ℝ)
    (hO : ∀ c < n, ∀ i < 3, ∀ j < 3, ∀ l < 3, i ≠ j → i ≠ l → j ≠ l → bNodes (cells c j) = false →
      (1 + 1 / 10 ^ 11) * ((X (cells c i) 0 - X (cells c l) 0) * (X (cells c j) 1 - X (cells c l) 1) -
          (X (cells c i) 1 - X (cells c l) 1) * (X (cells c j) 0 - X (cells c l) 0)) ^ 2 ≤
        12 * (t1 - t0) * ((X (cells c i) - X (cells c l)) ⬝ᵥ (X (cells c j) - X (cells c l))))
    (lu : Solver ℝ) (hlu : ExactLU nNodes lu) (hlc : CompleteLU nNodes lu) (hm : 0 < nNodes) (h0 : bNodes 0 = true) :
    ∃ P, problem1 2 (.add .dT (.neg .lap)) cells n nNodes X bNodes = .ok P ∧ ∀ (data : Dense ℝ), n * size P.t ≤ data.rows → 0 < data.cols →
      ∀ g : Dense ℝ, nNodes ≤ g.rows → data.cols ≤ g.cols → ∀ junk ic, ∃ sol,
        (P.init data junk >>= pdeSolveParabolic lu (t0 :: t1 :: ts) data.cols ic g) = .ok (true, sol) ∧
        ((∀ c < n, ∀ k < size P.t, ∀ j < data.cols, 0 ≤ data.at' (size P.t * c + k) j) → (∀ p < nNodes, 0 ≤ ic p) →
          (∀ p < nNodes, bNodes p = true → ∀ j < data.cols, 0 ≤ g.at' p j) → ∀ j < data.cols, ∀ p < nNodes, 0 ≤ sol j p) ∧
        ∀ lo hi : ℝ, (∀ c < n, ∀ k < size P.t, ∀ j < data.cols, data.at' (size P.t * c + k) j = 0) →
          (∀ p < nNodes, lo ≤ ic p ∧ ic p ≤ hi) →
          (∀ p < nNodes, bNodes p = true → ∀ j < data.cols, lo ≤ g.at' p j ∧ g.at' p j ≤ hi) →
          ∀ j < data.cols, ∀ p < nNodes, lo ≤ sol j p ∧ sol j p ≤ hi := by
  obtain ⟨t, ht'⟩ := rule1 (d := 2) (by simp)
  have e : problem1 2 (.add .dT (.neg .lap)) cells n nNodes X bNodes =
      .ok (meshProb 2 1 3 t (.add .dT (.neg .lap)) cells n X (enumDofs1 cells nNodes bNodes)) := by
    rw [problem1, ht', Res.ofOptionUB_some, Res.ok_bind]
  have hn := mesh_onNodes (nNodes := nNodes) (by simp) ht' (.add .dT (.neg .lap)) h.proper bNodes
  have hdt : 0 < t1 - t0 := by linarith
  refine ⟨_, e, fun data hr hc g hg hgc junk ic => ?_⟩
  refine C160_solve_partial hn ⟨h.nodes, fun _ => ⟨trivial, trivial⟩, ⟨trivial, trivial⟩⟩ rfl h.used (fun c _ k _ => heat_semi 2 _) _
    (heat_diffusive_op 2) t0 t1 ht ts (C160_triangles hn rfl _ hdt fun c hc i hi j hj l hl h1 h2 h3 hb => ?_) lu hlu hlc data hr hc g hg hgc hm h0 junk ic
  have := hO c hc i hi j hj l hl h1 h2 h3 hb
  rw [dotProduct, Fin.sum_univ_two] at this
  rw [dot, Finset.sum_range_succ, Finset.sum_range_one]
  exact this

/-- **C160** on meshes of intervals: as `C160_mesh_triangles_partial` when the square of the length of every cell is at most six times
the time step. -/
theorem C160_mesh_intervals_partial {n nNodes : Nat} {cells : Nat → Nat → Nat} {X : Nat → Fin 1 → ℝ} (bNodes : Nat → Bool)
    (h : GoodMesh 2 n nNodes cells X) (t0 t1 : ℝ) (ht : t0 < t1) (ts : List ℝ)
    (hO : ∀ c < n, (1 + 1 / 10 ^ 11) * (X (cells c 1) 0 - X (cells c 0) 0) ^ 2 ≤ 6 * (t1 - t0))
    (lu : Solver ℝ) (hlu : ExactLU nNodes lu) (hlc : CompleteLU nNodes lu) (hm : 0 < nNodes) (h0 : bNodes 0 = true) :
    ∃ P, problem1 1 (.add .dT (.neg .lap)) cells n nNodes X bNodes = .ok P ∧ ∀ (data : Dense ℝ), n * size P.t ≤ data.rows → 0 < data.cols →
      ∀ g : Dense ℝ, nNodes ≤ g.rows → data.cols ≤ g.cols → ∀ junk ic, ∃ sol,
        (P.init data junk >>= pdeSolveParabolic lu (t0 :: t1 :: ts) data.cols ic g) = .ok (true, sol) ∧
        ((∀ c < n, ∀ k < size P.t, ∀ j < data.cols, 0 ≤ data.at' (size P.t * c + k) j) → (∀ p < nNodes, 0 ≤ ic p) →
          (∀ p < nNodes, bNodes p = true → ∀ j < data.cols, 0 ≤ g.at' p j) → ∀ j < data.cols, ∀ p < nNodes, 0 ≤ sol j p) ∧
        ∀ lo hi : ℝ, (∀ c < n, ∀ k < size P.t, ∀ j < data.cols, data.at' (size P.t * c + k) j = 0) →
          (∀ p < nNodes, lo ≤ ic p ∧ ic p ≤ hi) →
          (∀ p < nNodes, bNodes p = true → ∀ j < data.cols, lo ≤ g.at' p j ∧ g.at' p j ≤ hi) →
          ∀ j < data.cols, ∀ p < nNodes, lo ≤ sol j p ∧ sol j p ≤ hi := by
  obtain ⟨t, ht'⟩ := rule1 (d := 1) (by simp)
  have e : problem1 1 (.add .dT (.neg .lap)) cells n nNodes X bNodes =
      .ok (meshProb 1 1 2 t (.add .dT (.neg .lap)) cells n X (enumDofs1 cells nNodes bNodes)) := by
    rw [problem1, ht', Res.ofOptionUB_some, Res.ok_bind]
  have hn := mesh_onNodes (nNodes := nNodes) (by simp) ht' (.add .dT (.neg .lap)) h.proper bNodes
  have hdt : 0 < t1 - t0 := by linarith
  refine ⟨_, e, fun data hr hc g hg hgc junk ic => ?_⟩
  refine C160_solve_partial hn ⟨h.nodes, fun _ => ⟨trivial, trivial⟩, ⟨trivial, trivial⟩⟩ rfl h.used (fun c _ k _ => heat_semi 1 _) _
    (heat_diffusive_op 1) t0 t1 ht ts (C160_intervals hn rfl _ hdt hO) lu hlu hlc data hr hc g hg hgc hm h0 junk ic

/-! ### The hypotheses are met -/

/-- The rod from 0 to `n` in `n` cells of length one, heated at its end, with the time step 1/5. -/
example (n : Nat) (hn : 0 < n) : ∃ (lu : Solver ℝ) (P : Prob ℝ) (sol : Nat → Nat → ℝ),
    problem1 1 (.add .dT (.neg .lap)) lineCells n (n + 1) lineX (fun p => p == 0 || p == n) = .ok P ∧
    (P.init ⟨n * size P.t, 10, fun _ _ => 0⟩ (fun _ => 0) >>= pdeSolveParabolic lu [0, 1 / 5, 2 / 5] 10 (fun _ => 1)
      ⟨n + 1, 10, fun p _ => if p = 0 then 7 else 1⟩) = .ok (true, sol) ∧ ∀ j < 10, ∀ p < n + 1, 1 ≤ sol j p ∧ sol j p ≤ 7 := by
  obtain ⟨lu, h1, h2⟩ := exists_exactLU (K := ℝ) (n + 1)
  obtain ⟨P, e, h⟩ := C160_mesh_intervals_partial (fun p => p == 0 || p == n) (line_good n hn) 0 (1 / 5) (by norm_num) [2 / 5]
    (fun c hc => by simp only [lineX, lineCells]; push_cast; norm_num) lu h1 h2 (by omega) (by simp)
  obtain ⟨sol, e1, _, h3⟩ := h ⟨n * size P.t, 10, fun _ _ => 0⟩ le_rfl (by norm_num) ⟨n + 1, 10, fun p _ => if p = 0 then 7 else 1⟩
    le_rfl le_rfl (fun _ => 0) (fun _ => 1)
  refine ⟨lu, P, sol, e, e1, h3 1 7 (fun _ _ _ _ _ _ => rfl) (fun _ _ => by norm_num) fun p _ _ j _ => ?_⟩
  simp only [Dense.at']
  split_ifs <;> norm_num

end Fdapde.PDE
