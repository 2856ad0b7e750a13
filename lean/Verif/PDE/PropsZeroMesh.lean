import Verif.PDE.PropsZeroExact
import Verif.PDE.PropsMaximumMesh
/- Property C140: patch test, maximum principles and order in time for every marking of the nodes. -/
namespace Fdapde.PDE
open Quadrature Matrix FEM

variable {N : Nat}

theorem pinned_iff (b : Nat → Bool) (p : Nat) : pinned b p = true ↔ p = 0 ∨ b p = true := by simp [pinned]

/-- **C140**, patch test: for every numbering of the nodes, `C131_patch_partial` holds when the value of the affine function is given at node 0 as it is at the
marked nodes. -/
theorem C140_patch (hN : N ∈ [1, 2, 3]) (op : Op ℝ) (hs : FlagRight N op) (hns : NoScalar op) {n nNodes : Nat} {cells : Nat → Nat → Nat}
    {X : Nat → Fin N → ℝ} (bNodes : Nat → Bool) (h : GoodMesh (N + 1) n nNodes cells X) (hb : MarksBoundary (N + 1) n cells bNodes)
    (hell : ∀ r, Elliptic N op r) (D : Nat → Nat → ℝ) (bt : Nat → Nat → ℝ) (ct : Nat → ℝ)
    (hop : ∀ r u v gu gv, form N op r u v gu gv = dot N (fun z => dot N (D z) gu) gv + dot N (bt r) gu * v + ct r * u * v)
    (lu : Solver ℝ) (hlu : ExactLU nNodes lu) (hlc : CompleteLU nNodes lu) (hm : 0 < nNodes) (a : Nat → ℝ) (b : ℝ) :
    ∃ P, problem1 N op cells n nNodes X bNodes = .ok P ∧ ∀ (data : Dense ℝ), n * size P.t ≤ data.rows → data.cols = 1 →
      (∀ c < n, ∀ k < size P.t, data.at' (size P.t * c + k) 0 = dot N (bt (size P.t * c + k)) a +
        ct (size P.t * c + k) * ((fun z : Fin N => a z) ⬝ᵥ meshPoint cells X c (fun w => node ℝ P.t k w) + b)) →
      ∀ g : Dense ℝ, nNodes ≤ g.rows → 0 < g.cols → (∀ p < nNodes, p = 0 ∨ bNodes p = true → g.at' p 0 = (fun z : Fin N => a z) ⬝ᵥ X p + b) →
      ∀ junk, ∃ w, (P.init data junk >>= pdeSolveElliptic lu g) = .ok (true, some w) ∧
        ∀ p < nNodes, w p = (fun z : Fin N => a z) ⬝ᵥ X p + b := by
  obtain ⟨P', e, hP⟩ := C131_patch_partial hN op hs hns (pinned bNodes) h (marks_pin hb) hell D bt ct hop lu hlu hlc hm rfl a b
  obtain ⟨P, e', rfl⟩ := problem1_pin _ _ _ _ _ _ _ e
  refine ⟨P, e', fun data hr hc hf g hg hgc hgb junk => ?_⟩
  rw [C140_elliptic]
  exact hP data hr hc hf g hg hgc (fun p hp hbp => hgb p hp ((pinned_iff _ _).1 hbp)) junk

/-- **C140**, maximum principle: for every numbering of the nodes, `C131_maximum_partial` holds when the value given at node 0 has the bounds of the others. -/
theorem C140_maximum {n nNodes : Nat} {cells : Nat → Nat → Nat} {X : Nat → Fin 2 → ℝ} (bNodes : Nat → Bool)
    (h : GoodMesh 3 n nNodes cells X)
    (hO : ∀ c < n, ∀ i < 3, ∀ j < 3, ∀ k < 3, i ≠ j → i ≠ k → j ≠ k →
      0 ≤ (X (cells c i) - X (cells c k)) ⬝ᵥ (X (cells c j) - X (cells c k)))
    (lu : Solver ℝ) (hlu : ExactLU nNodes lu) (hlc : CompleteLU nNodes lu) (hm : 0 < nNodes) :
    ∃ P, problem1 2 (.neg .lap) cells n nNodes X bNodes = .ok P ∧ ∀ (data : Dense ℝ), n * size P.t ≤ data.rows → data.cols = 1 →
      ∀ g : Dense ℝ, nNodes ≤ g.rows → 0 < g.cols → ∀ junk, ∃ w, (P.init data junk >>= pdeSolveElliptic lu g) = .ok (true, some w) ∧
        ((∀ c < n, ∀ k < size P.t, 0 ≤ data.at' (size P.t * c + k) 0) → (∀ p < nNodes, p = 0 ∨ bNodes p = true → 0 ≤ g.at' p 0) →
          ∀ p < nNodes, 0 ≤ w p) ∧
        ∀ lo hi : ℝ, (∀ c < n, ∀ k < size P.t, data.at' (size P.t * c + k) 0 = 0) →
          (∀ p < nNodes, p = 0 ∨ bNodes p = true → lo ≤ g.at' p 0 ∧ g.at' p 0 ≤ hi) → ∀ p < nNodes, lo ≤ w p ∧ w p ≤ hi := by
  obtain ⟨P', e, hP⟩ := C131_maximum_partial (pinned bNodes) h hO lu hlu hlc hm rfl
  obtain ⟨P, e', rfl⟩ := problem1_pin _ _ _ _ _ _ _ e
  refine ⟨P, e', fun data hr hc g hg hgc junk => ?_⟩
  rw [C140_elliptic]
  obtain ⟨w, r1, r2, r3⟩ := hP data hr hc g hg hgc junk
  exact ⟨w, r1, fun hd hgb => r2 hd fun p hp hbp => hgb p hp ((pinned_iff _ _).1 hbp),
    fun lo hi hd hgb => r3 lo hi hd fun p hp hbp => hgb p hp ((pinned_iff _ _).1 hbp)⟩

/-- **C140**, maximum principle in time on triangles: for every numbering of the nodes, `C160_mesh_triangles_partial` holds when the values given at node 0 have
the bounds of the others. -/
theorem C140_maximum_time_triangles {n nNodes : Nat} {cells : Nat → Nat → Nat} {X : Nat → Fin 2 → ℝ} (bNodes : Nat → Bool)
    (h : GoodMesh 3 n nNodes cells X) (t0 t1 : ℝ) (ht : t0 < t1) (ts : List ℝ)
    (hO : ∀ c < n, ∀ i < 3, ∀ j < 3, ∀ l < 3, i ≠ j → i ≠ l → j ≠ l → bNodes (cells c j) = false →
      (1 + 1 / 10 ^ 11) * ((X (cells c i) 0 - X (cells c l) 0) * (X (cells c j) 1 - X (cells c l) 1) -
          (X (cells c i) 1 - X (cells c l) 1) * (X (cells c j) 0 - X (cells c l) 0)) ^ 2 ≤
        12 * (t1 - t0) * ((X (cells c i) - X (cells c l)) ⬝ᵥ (X (cells c j) - X (cells c l))))
    (lu : Solver ℝ) (hlu : ExactLU nNodes lu) (hlc : CompleteLU nNodes lu) (hm : 0 < nNodes) :
    ∃ P, problem1 2 (.add .dT (.neg .lap)) cells n nNodes X bNodes = .ok P ∧ ∀ (data : Dense ℝ), n * size P.t ≤ data.rows → 0 < data.cols →
      ∀ g : Dense ℝ, nNodes ≤ g.rows → data.cols ≤ g.cols → ∀ junk ic, ∃ sol,
        (P.init data junk >>= pdeSolveParabolic lu (t0 :: t1 :: ts) data.cols ic g) = .ok (true, sol) ∧
        ((∀ c < n, ∀ k < size P.t, ∀ j < data.cols, 0 ≤ data.at' (size P.t * c + k) j) → (∀ p < nNodes, 0 ≤ ic p) →
          (∀ p < nNodes, p = 0 ∨ bNodes p = true → ∀ j < data.cols, 0 ≤ g.at' p j) → ∀ j < data.cols, ∀ p < nNodes, 0 ≤ sol j p) ∧
        ∀ lo hi : ℝ, (∀ c < n, ∀ k < size P.t, ∀ j < data.cols, data.at' (size P.t * c + k) j = 0) →
          (∀ p < nNodes, lo ≤ ic p ∧ ic p ≤ hi) →
          (∀ p < nNodes, p = 0 ∨ bNodes p = true → ∀ j < data.cols, lo ≤ g.at' p j ∧ g.at' p j ≤ hi) →
          ∀ j < data.cols, ∀ p < nNodes, lo ≤ sol j p ∧ sol j p ≤ hi := by
  obtain ⟨P', e, hP⟩ := C160_mesh_triangles_partial (pinned bNodes) h t0 t1 ht ts
    (fun c hc i hi j hj l hl h1 h2 h3 hbj => hO c hc i hi j hj l hl h1 h2 h3 (by
      by_contra hne
      rw [(pinned_iff bNodes _).2 (.inr (by simpa using hne))] at hbj
      cases hbj)) lu hlu hlc hm rfl
  obtain ⟨P, e', rfl⟩ := problem1_pin _ _ _ _ _ _ _ e
  refine ⟨P, e', fun data hr hc g hg hgc junk ic => ?_⟩
  rw [C140_parabolic]
  obtain ⟨w, r1, r2, r3⟩ := hP data hr hc g hg hgc junk ic
  exact ⟨w, r1, fun hd hi hgb => r2 hd hi fun p hp hbp => hgb p hp ((pinned_iff _ _).1 hbp),
    fun lo hi hd hic hgb => r3 lo hi hd hic fun p hp hbp => hgb p hp ((pinned_iff _ _).1 hbp)⟩

/-- **C140**, maximum principle in time on intervals: likewise for `C160_mesh_intervals_partial`. -/
theorem C140_maximum_time_intervals {n nNodes : Nat} {cells : Nat → Nat → Nat} {X : Nat → Fin 1 → ℝ} (bNodes : Nat → Bool)
    (h : GoodMesh 2 n nNodes cells X) (t0 t1 : ℝ) (ht : t0 < t1) (ts : List ℝ)
    (hO : ∀ c < n, (1 + 1 / 10 ^ 11) * (X (cells c 1) 0 - X (cells c 0) 0) ^ 2 ≤ 6 * (t1 - t0))
    (lu : Solver ℝ) (hlu : ExactLU nNodes lu) (hlc : CompleteLU nNodes lu) (hm : 0 < nNodes) :
    ∃ P, problem1 1 (.add .dT (.neg .lap)) cells n nNodes X bNodes = .ok P ∧ ∀ (data : Dense ℝ), n * size P.t ≤ data.rows → 0 < data.cols →
      ∀ g : Dense ℝ, nNodes ≤ g.rows → data.cols ≤ g.cols → ∀ junk ic, ∃ sol,
        (P.init data junk >>= pdeSolveParabolic lu (t0 :: t1 :: ts) data.cols ic g) = .ok (true, sol) ∧
        ((∀ c < n, ∀ k < size P.t, ∀ j < data.cols, 0 ≤ data.at' (size P.t * c + k) j) → (∀ p < nNodes, 0 ≤ ic p) →
          (∀ p < nNodes, p = 0 ∨ bNodes p = true → ∀ j < data.cols, 0 ≤ g.at' p j) → ∀ j < data.cols, ∀ p < nNodes, 0 ≤ sol j p) ∧
        ∀ lo hi : ℝ, (∀ c < n, ∀ k < size P.t, ∀ j < data.cols, data.at' (size P.t * c + k) j = 0) →
          (∀ p < nNodes, lo ≤ ic p ∧ ic p ≤ hi) →
          (∀ p < nNodes, p = 0 ∨ bNodes p = true → ∀ j < data.cols, lo ≤ g.at' p j ∧ g.at' p j ≤ hi) →
          ∀ j < data.cols, ∀ p < nNodes, lo ≤ sol j p ∧ sol j p ≤ hi := by
  obtain ⟨P', e, hP⟩ := C160_mesh_intervals_partial (pinned bNodes) h t0 t1 ht ts hO lu hlu hlc hm rfl
  obtain ⟨P, e', rfl⟩ := problem1_pin _ _ _ _ _ _ _ e
  refine ⟨P, e', fun data hr hc g hg hgc junk ic => ?_⟩
  rw [C140_parabolic]
  obtain ⟨w, r1, r2, r3⟩ := hP data hr hc g hg hgc junk ic
  exact ⟨w, r1, fun hd hi hgb => r2 hd hi fun p hp hbp => hgb p hp ((pinned_iff _ _).1 hbp),
    fun lo hi hd hic hgb => r3 lo hi hd hic fun p hp hbp => hgb p hp ((pinned_iff _ _).1 hbp)⟩

/-! ### The hypotheses are met -/

/-- The rod in three cells with the first two nodes exchanged: node 0 is inside.  The value of the affine function there is given, and the function is found. -/
example : ∃ (lu : Solver ℝ) (P : Prob ℝ) (w : Nat → ℝ),
    problem1 1 (.neg .lap) (fun c v => swap01 (lineCells c v)) 3 4 (fun p => lineX (swap01 p)) (fun p => swap01 p == 0 || swap01 p == 3) = .ok P ∧
    P.bd 0 = false ∧
    (P.init ⟨3 * size P.t, 1, fun _ _ => 0⟩ (fun _ => 0) >>= pdeSolveElliptic lu ⟨4, 1, fun p _ => 2 * swap01 p + 5⟩) = .ok (true, some w) ∧
    ∀ p < 4, w p = 2 * swap01 p + 5 := by
  obtain ⟨lu, h1, h2⟩ := exists_exactLU (K := ℝ) 4
  obtain ⟨P, e, h⟩ := C140_patch (N := 1) (by simp) (.neg .lap) (fun _ => trivial) trivial (fun p => swap01 p == 0 || swap01 p == 3)
    (swap_good (by omega) (line_good 3 (by norm_num))) (swap_marks (line_marks 3)) (fun r => C103_laplacian 1 r) (fun z y => if z = y then 1 else 0) (fun _ _ => 0)
    (fun _ => 0) (fun r u v gu gv => by simp [form, dot, neg_neg]) lu h1 h2 (by norm_num) (fun _ => 2) 5
  obtain ⟨w, r, hw⟩ := h ⟨3 * size P.t, 1, fun _ _ => 0⟩ le_rfl rfl (fun c hc k hk => by simp [dot]) ⟨4, 1, fun p _ => 2 * swap01 p + 5⟩ le_rfl Nat.one_pos
    (fun p hp _ => by simp [lineX, dotProduct]) (fun _ => 0)
  refine ⟨lu, P, w, e, ?_, r, fun p hp => by rw [hw p hp]; simp [lineX, dotProduct]⟩
  obtain rfl := Res.ok.inj e
  rfl

/-- Heat on the same rod, time step 1. -/
example : ∃ (lu : Solver ℝ) (P : Prob ℝ), ∀ g : Dense ℝ, 4 ≤ g.rows → 5 ≤ g.cols → (∀ p < 4, p = 0 ∨ swap01 p = 0 ∨ swap01 p = 3 → ∀ j < 5, 0 ≤ g.at' p j) →
    ∃ sol, problem1 1 (.add .dT (.neg .lap)) (fun c v => swap01 (lineCells c v)) 3 4 (fun p => lineX (swap01 p))
      (fun p => swap01 p == 0 || swap01 p == 3) = .ok P ∧
    (P.init ⟨3 * size P.t, 5, fun _ _ => 1⟩ (fun _ => 0) >>= pdeSolveParabolic lu [0, 1] 5 (fun p => p) g) = .ok (true, sol) ∧
    ∀ j < 5, ∀ p < 4, 0 ≤ sol j p := by
  obtain ⟨lu, h1, h2⟩ := exists_exactLU (K := ℝ) 4
  obtain ⟨P, e, h⟩ := C140_maximum_time_intervals (fun p => swap01 p == 0 || swap01 p == 3) (swap_good (by omega) (line_good 3 (by norm_num))) 0 1 (by norm_num) []
    (fun c hc => by simp [swap_swap, lineX, lineCells]; norm_num) lu h1 h2 (by norm_num)
  refine ⟨lu, P, fun g hg hgc hgb => ?_⟩
  obtain ⟨sol, r1, r2, _⟩ := h ⟨3 * size P.t, 5, fun _ _ => 1⟩ le_rfl (by norm_num) g hg hgc (fun _ => 0) fun p => p
  exact ⟨sol, e, r1, r2 (fun _ _ _ _ _ _ => zero_le_one) (fun p _ => Nat.cast_nonneg p) fun p hp hb => hgb p hp (by simpa using hb)⟩

end Fdapde.PDE
