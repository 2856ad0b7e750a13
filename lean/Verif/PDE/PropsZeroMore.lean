import Verif.PDE.PropsZero
import Verif.PDE.PropsQuadratic
import Verif.PDE.PropsParabolic
import Verif.PDE.PropsRoundedTime
/-
C140 for time dependent problems with variable coefficients, quadratic elements, linear solvers that are not exact and floating point.
-/
namespace Fdapde.PDE
open Fdapde.Quadrature Fdapde.Geometry Fdapde.FEM Fdapde.Fp Fdapde.Triang
open MeasureTheory
noncomputable section
variable {N : Nat} {K : Type}

/-- **C140**, time dependent problems with variable coefficients: the convergence of `C142_order_partial` holds for every numbering of the nodes when the value of
the solution is given at node 0 as it is at the marked nodes. -/
theorem C140_parabolic_order (hN : N ∈ [1, 2, 3]) {S : Set (Fin N → ℝ)} (z : Fin N) {a ℓ : ℝ} (hl : ∀ x ∈ S, |x z - a| ≤ ℓ)
    {A : (Fin N → ℝ) → Fin N → Fin N → ℝ} {β : (Fin N → ℝ) → Fin N → ℝ} {r : (Fin N → ℝ) → ℝ} {α Λ bm γ cm : ℝ} (hco : Bounded S A β r α Λ bm γ cm)
    (hα : 0 < α) (hΛ : 0 ≤ Λ) (hγ : 0 ≤ γ) (u u' : ℝ → (Fin N → ℝ) → ℝ) {M F B L K L' κ H T t0 : ℝ} (hM : 0 ≤ M) (hF : 0 ≤ F) (hL : 0 ≤ L) (hK : 0 ≤ K)
    (hL' : 0 ≤ L') :
    ∃ C : ℝ, ∀ (n nNodes : Nat) (cells : Nat → Nat → Nat) (X : Nat → Fin N → ℝ) (bNodes : Nat → Bool) (hh ρ t1 : ℝ) (ts : List ℝ) (cols : Nat),
      GoodMesh (N + 1) n nNodes cells X → MarksBoundary (N + 1) n cells bNodes → domain (N + 1) n cells X = S →
      t0 < t1 → 0 < cols → (cols - 1 : Nat) * (t1 - t0) ≤ T → (bm ^ 2 / (2 * α) + γ) * (t1 - t0) ≤ 1 / 2 →
      FlowOn n cells X A u u' t0 (t0 + (cols - 1 : Nat) * (t1 - t0)) M F B L K L' →
      MeshShape n cells X hh ρ → 0 < ρ → hh ≤ κ * ρ → hh ≤ H → 0 < nNodes →
      ∀ (op : Op ℝ) (Dr : Nat → Nat → Nat → ℝ) (br : Nat → Nat → ℝ) (cr : Nat → ℝ), StandsFor N op Dr br cr → hasDT op = true → FlagRight N op → NoScalar op →
      ∀ lu : Solver ℝ, ExactLU nNodes lu → CompleteLU nNodes lu →
      ∃ P, problem1 N op cells n nNodes X bNodes = .ok P ∧ (Sampled n cells X P.t A β r Dr br cr →
        ∀ (data : Dense ℝ), n * size P.t ≤ data.rows → data.cols = cols →
        (∀ j < cols, ∀ c < n, ∀ k < size P.t, data.at' (size P.t * c + k) j =
          parabolicForcing A β r u u' (t0 + j * (t1 - t0)) (meshPoint cells X c fun w => node ℝ P.t k w)) →
        ∀ g : Dense ℝ, nNodes ≤ g.rows → cols ≤ g.cols → (∀ j < cols, ∀ p < nNodes, p = 0 ∨ bNodes p = true → g.at' p j = u (t0 + j * (t1 - t0)) (X p)) →
        ∀ junk, ∃ (sol : Nat → Nat → ℝ) (W : Nat → Nat → Fin N → ℝ) (b : Nat → Nat → ℝ),
          (P.init data junk >>= pdeSolveParabolic lu (t0 :: t1 :: ts) cols (fun p => u t0 (X p)) g) = .ok (true, sol) ∧
          ∀ i < cols, PiecewiseAffine n cells X (sol i) (W i) (b i) ∧
            valueError n cells X (u (t0 + i * (t1 - t0))) (W i) (b i) ≤ C * ((t1 - t0) ^ 2 + hh ^ 2) ∧
            ∑ j ∈ Finset.range i, (t1 - t0) * gradError n cells X (u (t0 + (j + 1 : Nat) * (t1 - t0))) (W (j + 1)) ≤ C * ((t1 - t0) ^ 2 + hh ^ 2)) := by
  obtain ⟨C, hC⟩ := C142_order_partial hN z hl hco hα hΛ hγ u u' (κ := κ) (H := H) (T := T) (t0 := t0) (B := B) hM hF hL hK hL'
  refine ⟨C, fun n nNodes cells X bNodes hh ρ t1 ts cols h hb hD ht hcols hT hst hu hs hρ hκ hH hm op Dr br cr hop hpar hsy hns lu hlu hlc => ?_⟩
  obtain ⟨P, e, hP⟩ := hC n nNodes cells X (pinned bNodes) hh ρ t1 ts cols h (marks_pin hb) hD ht hcols hT hst hu hs hρ hκ hH hm rfl op Dr br cr hop hpar hsy hns
    lu hlu hlc
  obtain ⟨P', e', rfl⟩ := problem1_pin _ _ _ _ _ _ _ e
  refine ⟨P', e', fun hsa data hr hc hf g hg hgc hgb junk => ?_⟩
  rw [C140_parabolic]
  exact hP hsa data hr hc hf g hg hgc (fun j hj p hp hm => hgb j hj p hp (by simpa [pinned] using hm)) junk

/-- **C140**, linear solvers that are not exact: likewise for `C146_order_partial`. -/
theorem C140_inexact_elliptic (hN : N ∈ [1, 2, 3]) {S : Set (Fin N → ℝ)} (z : Fin N) {a ℓ : ℝ} (hl : ∀ x ∈ S, |x z - a| ≤ ℓ)
    {A : (Fin N → ℝ) → Fin N → Fin N → ℝ} {β : (Fin N → ℝ) → Fin N → ℝ} {r : (Fin N → ℝ) → ℝ} {α Λ bm γ cm : ℝ} (hco : Bounded S A β r α Λ bm γ cm)
    (hΛ : 0 ≤ Λ) (hγ : 0 ≤ γ) (u : (Fin N → ℝ) → ℝ) {M F B L κ H Fm : ℝ} (hM : 0 ≤ M) (hF : 0 ≤ F) (hL : 0 ≤ L)
    (hα : 0 < α - bm * (2 * ℓ + H) - γ * (2 * ℓ + H) ^ 2) (hFm : ∀ x ∈ S, |ellipticForcing A β r u x| ≤ Fm) :
    ∃ C : ℝ, ∀ (n nNodes : Nat) (cells : Nat → Nat → Nat) (X : Nat → Fin N → ℝ) (bNodes : Nat → Bool) (hh ρ : ℝ),
      GoodMesh (N + 1) n nNodes cells X → MarksBoundary (N + 1) n cells bNodes → domain (N + 1) n cells X = S →
      FluxOn n cells X A u M F B L → MeshShape n cells X hh ρ → 0 < ρ → ρ ≤ H → hh ≤ κ * ρ → hh ≤ H → 0 < nNodes →
      ∀ (op : Op ℝ) (Dr : Nat → Nat → Nat → ℝ) (br : Nat → Nat → ℝ) (cr : Nat → ℝ), StandsFor N op Dr br cr → FlagRight N op → NoScalar op →
      ∀ (ε : ℝ) (lu : Solver ℝ), 0 ≤ ε → BackwardLU nNodes ε lu → CompleteLU nNodes lu →
      ∃ P, problem1 N op cells n nNodes X bNodes = .ok P ∧ (Sampled n cells X P.t A β r Dr br cr →
        ∀ (data : Dense ℝ), n * size P.t ≤ data.rows → data.cols = 1 →
        (∀ c < n, ∀ k < size P.t, data.at' (size P.t * c + k) 0 = ellipticForcing A β r u (meshPoint cells X c fun w => node ℝ P.t k w)) →
        ∀ g : Dense ℝ, nNodes ≤ g.rows → 0 < g.cols → (∀ p < nNodes, p = 0 ∨ bNodes p = true → g.at' p 0 = u (X p)) →
        ∀ junk, ∃ w W b, (P.init data junk >>= pdeSolveElliptic lu g) = .ok (true, some w) ∧ PiecewiseAffine n cells X w W b ∧
          ∀ Wm, (∀ p < nNodes, |w p| ≤ Wm) → (∀ p < nNodes, p = 0 ∨ bNodes p = true → |u (X p)| ≤ Wm) →
          gradError n cells X u W ≤ C * (hh ^ 2 + (ε * (Wm + 1) / ρ ^ 2) ^ 2) ∧ valueError n cells X u W b ≤ C * (hh ^ 2 + (ε * (Wm + 1) / ρ ^ 2) ^ 2)) := by
  obtain ⟨C, hC⟩ := C146_order_partial hN z hl hco hΛ hγ u (κ := κ) (B := B) hM hF hL hα hFm
  refine ⟨C, fun n nNodes cells X bNodes hh ρ h hb hD hu hs hρ hρH hκ hH hm op Dr br cr hop hsy hns ε lu hε hlu hlc => ?_⟩
  obtain ⟨P, e, hP⟩ := hC n nNodes cells X (pinned bNodes) hh ρ h (marks_pin hb) hD hu hs hρ hρH hκ hH hm rfl op Dr br cr hop hsy hns ε lu hε hlu hlc
  obtain ⟨P', e', rfl⟩ := problem1_pin _ _ _ _ _ _ _ e
  refine ⟨P', e', fun hsa data hr hc hf g hg hgc hgb junk => ?_⟩
  rw [C140_elliptic]
  obtain ⟨w, W, b, r1, r2, r3⟩ := hP hsa data hr hc hf g hg hgc (fun p hp hm => hgb p hp (by simpa [pinned] using hm)) junk
  exact ⟨w, W, b, r1, r2, fun Wm h1 h2 => r3 Wm h1 fun p hp hm => h2 p hp (by simpa [pinned] using hm)⟩

/-- **C140**, linear solvers that are not exact, in time: likewise for `C147_order_partial`. -/
theorem C140_inexact_parabolic (hN : N ∈ [1, 2, 3]) {S : Set (Fin N → ℝ)} (z : Fin N) {a ℓ : ℝ} (hl : ∀ x ∈ S, |x z - a| ≤ ℓ)
    {A : (Fin N → ℝ) → Fin N → Fin N → ℝ} {β : (Fin N → ℝ) → Fin N → ℝ} {r : (Fin N → ℝ) → ℝ} {α Λ bm γ cm : ℝ} (hco : Bounded S A β r α Λ bm γ cm)
    (hα : 0 < α) (hΛ : 0 ≤ Λ) (hγ : 0 ≤ γ) (u u' : ℝ → (Fin N → ℝ) → ℝ) {M F B L K L' κ H T t0 Fm : ℝ} (hM : 0 ≤ M) (hF : 0 ≤ F) (hL : 0 ≤ L) (hK : 0 ≤ K)
    (hL' : 0 ≤ L') (hFm : ∀ t ∈ Set.Icc t0 (t0 + T), ∀ x ∈ S, |parabolicForcing A β r u u' t x| ≤ Fm) :
    ∃ C : ℝ, ∀ (n nNodes : Nat) (cells : Nat → Nat → Nat) (X : Nat → Fin N → ℝ) (bNodes : Nat → Bool) (hh ρ t1 : ℝ) (ts : List ℝ) (cols : Nat),
      GoodMesh (N + 1) n nNodes cells X → MarksBoundary (N + 1) n cells bNodes → domain (N + 1) n cells X = S →
      t0 < t1 → 0 < cols → (cols - 1 : Nat) * (t1 - t0) ≤ T → (bm ^ 2 / (2 * α) + γ) * (t1 - t0) ≤ 1 / 2 →
      FlowOn n cells X A u u' t0 (t0 + (cols - 1 : Nat) * (t1 - t0)) M F B L K L' →
      MeshShape n cells X hh ρ → 0 < ρ → ρ ≤ H → hh ≤ κ * ρ → hh ≤ H → 0 < nNodes →
      ∀ (op : Op ℝ) (Dr : Nat → Nat → Nat → ℝ) (br : Nat → Nat → ℝ) (cr : Nat → ℝ), StandsFor N op Dr br cr → hasDT op = true → FlagRight N op → NoScalar op →
      ∀ (ε : ℝ) (lu : Solver ℝ), 0 ≤ ε → BackwardLU nNodes ε lu → CompleteLU nNodes lu →
      ∃ P, problem1 N op cells n nNodes X bNodes = .ok P ∧ (Sampled n cells X P.t A β r Dr br cr →
        ∀ (data : Dense ℝ), n * size P.t ≤ data.rows → data.cols = cols →
        (∀ j < cols, ∀ c < n, ∀ k < size P.t, data.at' (size P.t * c + k) j =
          parabolicForcing A β r u u' (t0 + j * (t1 - t0)) (meshPoint cells X c fun w => node ℝ P.t k w)) →
        ∀ g : Dense ℝ, nNodes ≤ g.rows → cols ≤ g.cols → (∀ j < cols, ∀ p < nNodes, p = 0 ∨ bNodes p = true → g.at' p j = u (t0 + j * (t1 - t0)) (X p)) →
        ∀ junk, ∃ (sol : Nat → Nat → ℝ) (W : Nat → Nat → Fin N → ℝ) (b : Nat → Nat → ℝ),
          (P.init data junk >>= pdeSolveParabolic lu (t0 :: t1 :: ts) cols (fun p => u t0 (X p)) g) = .ok (true, sol) ∧
          ∀ Wm, (∀ j < cols, ∀ p < nNodes, |sol j p| ≤ Wm) → (∀ j < cols, ∀ p < nNodes, p = 0 ∨ bNodes p = true → |u (t0 + j * (t1 - t0)) (X p)| ≤ Wm) →
          ∀ i < cols, PiecewiseAffine n cells X (sol i) (W i) (b i) ∧
            valueError n cells X (u (t0 + i * (t1 - t0))) (W i) (b i) ≤
              C * ((t1 - t0) ^ 2 + hh ^ 2 + (ε * ((Wm + 1) * (1 / ρ ^ 2 + 1 / (t1 - t0)))) ^ 2) ∧
            ∑ j ∈ Finset.range i, (t1 - t0) * gradError n cells X (u (t0 + (j + 1 : Nat) * (t1 - t0))) (W (j + 1)) ≤
              C * ((t1 - t0) ^ 2 + hh ^ 2 + (ε * ((Wm + 1) * (1 / ρ ^ 2 + 1 / (t1 - t0)))) ^ 2)) := by
  obtain ⟨C, hC⟩ := C147_order_partial hN z hl hco hα hΛ hγ u u' (κ := κ) (H := H) (T := T) (t0 := t0) (B := B) hM hF hL hK hL' hFm
  refine ⟨C, fun n nNodes cells X bNodes hh ρ t1 ts cols h hb hD ht hcols hT hst hu hs hρ hρH hκ hH hm op Dr br cr hop hpar hsy hns ε lu hε hlu hlc => ?_⟩
  obtain ⟨P, e, hP⟩ := hC n nNodes cells X (pinned bNodes) hh ρ t1 ts cols h (marks_pin hb) hD ht hcols hT hst hu hs hρ hρH hκ hH hm rfl op Dr br cr hop hpar hsy
    hns ε lu hε hlu hlc
  obtain ⟨P', e', rfl⟩ := problem1_pin _ _ _ _ _ _ _ e
  refine ⟨P', e', fun hsa data hr hc hf g hg hgc hgb junk => ?_⟩
  rw [C140_parabolic]
  obtain ⟨sol, W, b, r1, r2⟩ := hP hsa data hr hc hf g hg hgc (fun j hj p hp hm => hgb j hj p hp (by simpa [pinned] using hm)) junk
  exact ⟨sol, W, b, r1, fun Wm h1 h2 => r2 Wm h1 fun j hj p hp hm => h2 j hj p hp (by simpa [pinned] using hm)⟩

theorem initR_pin (r : Rounding) (S : List ℝ → ℝ) (P : Prob ℝ) (data : Dense ℝ) (junk : Nat → ℝ) :
    P.pin.initR r S data junk = pinRes (P.initR r S data junk) := by
  have assoc : ∀ {α β γ : Type} (x : Res α) (f : α → Res β) (g : β → Res γ), (x >>= f) >>= g = x >>= fun a => f a >>= g := fun x _ _ => by
    cases x <;> rfl
  unfold pinRes Prob.initR
  simp only [assoc]
  rfl

/-- **C140**, stationary problems in floating point: for every rounding and every order of the sums, `init` and `solve` do what they do for the problem in
which dof 0 is on the boundary too. -/
theorem C140_elliptic_rounded (r : Rounding) (S : List ℝ → ℝ) (P : Prob ℝ) (data : Dense ℝ) (junk : Nat → ℝ) (lu : Solver ℝ) (g : Dense ℝ) :
    (P.initR r S data junk >>= pdeSolveElliptic lu g) = (P.pin.initR r S data junk >>= pdeSolveElliptic lu g) := by
  rw [initR_pin]
  cases P.initR r S data junk with
  | throws => rfl
  | ub => rfl
  | ok s =>
    rw [pinRes, Res.ok_bind, Res.ok_bind, Res.ok_bind]
    unfold pdeSolveElliptic
    by_cases hg : g.rows * g.cols = 0
    · simp only [if_pos hg]; rfl
    · simp only [if_neg hg]
      rw [setDirichlet_pin]
      cases setDirichlet g s <;> rfl

theorem stepRhsR_pin (r : Rounding) (S : List ℝ → ℝ) (s : Sys ℝ) (dt : ℝ) (g : Dense ℝ) (u : Nat → ℝ) (i : Nat) :
    stepRhsR r S s.pin dt g u i = stepRhsR r S s dt g u i := by
  rw [stepRhsR, stepRhsR, show boundaryLoop s.pin.bd s.pin.n = boundaryLoop s.bd s.n from loop_pinned _ _]
  rfl

theorem solveParabolicR_pin (r : Rounding) (S : List ℝ → ℝ) (lu : Solver ℝ) (time : List ℝ) (m : Nat) (ic : Nat → ℝ) (g : Dense ℝ) (s : Sys ℝ) :
    solveParabolicR r S lu time m ic g s.pin = solveParabolicR r S lu time m ic g s := by
  unfold solveParabolicR
  simp only [stepRhsR_pin, show boundaryLoop s.pin.bd s.pin.n = boundaryLoop s.bd s.n from loop_pinned _ _]
  rfl

/-- **C140**, parabolic problems in floating point: likewise. -/
theorem C140_parabolic_rounded (r : Rounding) (S : List ℝ → ℝ) (P : Prob ℝ) (data : Dense ℝ) (junk : Nat → ℝ) (lu : Solver ℝ) (time : List ℝ) (cols : Nat)
    (ic : Nat → ℝ) (g : Dense ℝ) :
    (P.initR r S data junk >>= pdeSolveParabolicR r S lu time cols ic g) = (P.pin.initR r S data junk >>= pdeSolveParabolicR r S lu time cols ic g) := by
  rw [initR_pin]
  cases P.initR r S data junk with
  | throws => rfl
  | ub => rfl
  | ok s =>
    rw [pinRes, Res.ok_bind, Res.ok_bind, Res.ok_bind]
    unfold pdeSolveParabolicR
    by_cases hg : g.rows * g.cols = 0
    · simp only [if_pos hg]
      exact (solveParabolicR_pin r S lu time cols ic g s).symm
    · simp only [if_neg hg]
      rw [setDirichlet_pin]
      cases setDirichlet g s with
      | ok s' => exact (solveParabolicR_pin r S lu time cols ic g s').symm
      | throws => rfl
      | ub => rfl

section
variable {r : Rounding} {S : List ℝ → ℝ} {v : Nat}

/-- **C140**, bounds in floating point: likewise for `C151_elliptic_partial`. -/
theorem C140_rounding_elliptic (hN : N ∈ [1, 2, 3]) {n nNodes : Nat} {cells : Nat → Nat → Nat} {X : Nat → Fin N → ℝ} (bNodes : Nat → Bool)
    (h : GoodMesh (N + 1) n nNodes cells X) (hb : MarksBoundary (N + 1) n cells bNodes) {hh ρ : ℝ} (hs : MeshShape n cells X hh ρ) (hρ : 0 < ρ)
    {A : (Fin N → ℝ) → Fin N → Fin N → ℝ} {β : (Fin N → ℝ) → Fin N → ℝ} {rc u : (Fin N → ℝ) → ℝ} {α Λ bm γ cm M F B L : ℝ}
    (hco : Bounded (domain (N + 1) n cells X) A β rc α Λ bm γ cm) (hu : FluxOn n cells X A u M F B L) (hM : 0 ≤ M) (hF : 0 ≤ F) (hL : 0 ≤ L)
    (hΛ : 0 ≤ Λ) (hγ : 0 ≤ γ) (z : Fin N) {a ℓ : ℝ} (hl : ∀ x ∈ domain (N + 1) n cells X, |x z - a| ≤ ℓ)
    (hα : 0 < α - bm * (2 * ℓ + hh) - γ * (2 * ℓ + hh) ^ 2)
    {op : Op ℝ} {Dr : Nat → Nat → Nat → ℝ} {br : Nat → Nat → ℝ} {cr : Nat → ℝ} (hop : StandsFor N op Dr br cr) (hsy : FlagRight N op) (hns : NoScalar op)
    (hS : r.Summation S) (hv : Valence n (N + 1) cells v)
    {ε : ℝ} (hε : 0 ≤ ε) (lu : Solver ℝ) (hlu : BackwardLU nNodes ε lu) (hlc : CompleteLU nNodes lu) (hm : 0 < nNodes)
    {Fm : ℝ} (hFm : ∀ x ∈ domain (N + 1) n cells X, |ellipticForcing A β rc u x| ≤ Fm) :
    ∃ P, problem1 N op cells n nNodes X bNodes = .ok P ∧ (Sampled n cells X P.t A β rc Dr br cr →
      ∀ kd μ G ms ps gr, P.Computed r kd μ G ms ps gr →
      ∀ κ, (∀ c < n, ∀ k < size P.t, weakAbs N op (size P.t * c + k) 1 1 (fun _ => G) (fun _ => G) ≤ κ) →
      (r.b ^ sysDepth P kd v - 1) * (μ * κ) * ((N + 1) * (2 * ℓ + hh)) ^ 2 < α - bm * (2 * ℓ + hh) - γ * (2 * ℓ + hh) ^ 2 →
      ∀ (data : Dense ℝ), n * size P.t ≤ data.rows → data.cols = 1 →
      (∀ c < n, ∀ k < size P.t, data.at' (size P.t * c + k) 0 = ellipticForcing A β rc u (meshPoint cells X c fun w => node ℝ P.t k w)) →
      ∀ g : Dense ℝ, nNodes ≤ g.rows → 0 < g.cols → (∀ p < nNodes, p = 0 ∨ bNodes p = true → g.at' p 0 = u (X p)) →
      ∀ junk, ∃ w W b, ((P.withData ms ps gr).initR r S data junk >>= pdeSolveElliptic lu g) = .ok (true, some w) ∧ PiecewiseAffine n cells X w W b ∧
        ∀ Wm, (∀ p < nNodes, |w p| ≤ Wm) → (∀ p < nNodes, p = 0 ∨ bNodes p = true → |u (X p)| ≤ Wm) →
        ∀ ν, ν = innerError N hh ρ (2 * ℓ) Λ bm cm (α - bm * (2 * ℓ + hh) - γ * (2 * ℓ + hh) ^ 2) (2 * ε * Wm)
            (rowError N ρ Λ bm cm ε (r.b ^ sysDepth P kd v - 1) μ κ Wm Fm) →
        gradError n cells X u W ≤ (4 * (((N + 1) * M * hh ^ 2 / (2 * ρ)) ^ 2 +
          (ellipticConst N hh ρ ℓ Λ bm cm M F B L / (α - bm * (2 * ℓ + hh) - γ * (2 * ℓ + hh) ^ 2)) ^ 2) +
          2 * ((N + 1) / ρ * (2 * ε * Wm) + ν) ^ 2) * (volume (domain (N + 1) n cells X)).toReal ∧
        valueError n cells X u W b ≤ (2 * (2 * (M / 2 * hh ^ 2) ^ 2 + 16 * ℓ ^ 2 * (3 * ((N + 1) * M * hh ^ 2 / (2 * ρ)) ^ 2 +
          2 * (ellipticConst N hh ρ ℓ Λ bm cm M F B L / (α - bm * (2 * ℓ + hh) - γ * (2 * ℓ + hh) ^ 2)) ^ 2)) +
          2 * (2 * (2 * ε * Wm) ^ 2 + 2 * (2 * ℓ * ν) ^ 2)) * (volume (domain (N + 1) n cells X)).toReal) := by
  obtain ⟨P, e, hP⟩ := C151_elliptic_partial (r := r) (S := S) hN (pinned bNodes) h (marks_pin hb) hs hρ hco hu hM hF hL hΛ hγ z hl hα hop hsy hns hS hv hε lu hlu hlc hm
    rfl hFm
  obtain ⟨P', e', rfl⟩ := problem1_pin _ _ _ _ _ _ _ e
  refine ⟨P', e', fun hsa kd μ G ms ps gr hd κ hκ hsm data hr hc hf g hg hgc hgb junk => ?_⟩
  rw [C140_elliptic_rounded]
  obtain ⟨w, W, b, r1, r2, r3⟩ := hP hsa kd μ G ms ps gr ⟨hd.measure, hd.psi, hd.grad⟩ κ hκ hsm data hr hc hf g hg hgc (fun p hp hm => hgb p hp (by simpa [pinned] using hm)) junk
  exact ⟨w, W, b, r1, r2, fun Wm h1 h2 => r3 Wm h1 fun p hp hm => h2 p hp (by simpa [pinned] using hm)⟩

/-- **C140**, bounds in floating point, in time: likewise for `C152_parabolic_partial`. -/
theorem C140_rounding_parabolic (hN : N ∈ [1, 2, 3]) {n nNodes : Nat} {cells : Nat → Nat → Nat} {X : Nat → Fin N → ℝ} (bNodes : Nat → Bool)
    (h : GoodMesh (N + 1) n nNodes cells X) (hb : MarksBoundary (N + 1) n cells bNodes) {hh ρ : ℝ} (hs : MeshShape n cells X hh ρ) (hρ : 0 < ρ)
    {t0 t1 : ℝ} (ht : t0 < t1) (ts : List ℝ) (cols : Nat) (hcols : 0 < cols)
    {A : (Fin N → ℝ) → Fin N → Fin N → ℝ} {β : (Fin N → ℝ) → Fin N → ℝ} {rc : (Fin N → ℝ) → ℝ} {α Λ bm γ cm : ℝ}
    (hco : Bounded (domain (N + 1) n cells X) A β rc α Λ bm γ cm) (hα : 0 < α) (hΛ : 0 ≤ Λ) (hγ : 0 ≤ γ)
    {u u' : ℝ → (Fin N → ℝ) → ℝ} {M F B L K L' : ℝ} (hu : FlowOn n cells X A u u' t0 (t0 + (cols - 1 : Nat) * (t1 - t0)) M F B L K L')
    (hM : 0 ≤ M) (hF : 0 ≤ F) (hL : 0 ≤ L) (hK : 0 ≤ K) (hL' : 0 ≤ L')
    (z : Fin N) {a ℓ : ℝ} (hl : ∀ x ∈ domain (N + 1) n cells X, |x z - a| ≤ ℓ) (hstep : (bm ^ 2 / (2 * α) + γ) * (t1 - t0) ≤ 1 / 2)
    {op : Op ℝ} {Dr : Nat → Nat → Nat → ℝ} {br : Nat → Nat → ℝ} {cr : Nat → ℝ} (hop : StandsFor N op Dr br cr) (hpar : hasDT op = true)
    (hsy : FlagRight N op) (hns : NoScalar op) (hS : r.Summation S) (hv : Valence n (N + 1) cells v)
    {ε : ℝ} (hε : 0 ≤ ε) (lu : Solver ℝ) (hlu : BackwardLU nNodes ε lu) (hlc : CompleteLU nNodes lu) (hm : 0 < nNodes)
    {Fm : ℝ} (hFm : ∀ j < cols, ∀ x ∈ domain (N + 1) n cells X, |parabolicForcing A β rc u u' (t0 + j * (t1 - t0)) x| ≤ Fm) :
    ∃ P, problem1 N op cells n nNodes X bNodes = .ok P ∧ (Sampled n cells X P.t A β rc Dr br cr →
      ∀ kd μ G ms ps gr, P.Computed r kd μ G ms ps gr →
      ∀ κ, (∀ c < n, ∀ k < size P.t, weakAbs N op (size P.t * c + k) 1 1 (fun _ => G) (fun _ => G) ≤ κ) →
      (r.b ^ stepDepth P kd v - 1) * (μ * (κ + 1 / (t1 - t0))) * ((N + 1) * (2 * ℓ + hh)) ^ 2 < α / 2 →
      ∀ (data : Dense ℝ), n * size P.t ≤ data.rows → data.cols = cols →
      (∀ j < cols, ∀ c < n, ∀ k < size P.t, data.at' (size P.t * c + k) j =
        parabolicForcing A β rc u u' (t0 + j * (t1 - t0)) (meshPoint cells X c fun w => node ℝ P.t k w)) →
      ∀ g : Dense ℝ, nNodes ≤ g.rows → cols ≤ g.cols → (∀ j < cols, ∀ p < nNodes, p = 0 ∨ bNodes p = true → g.at' p j = u (t0 + j * (t1 - t0)) (X p)) →
      ∀ junk, ∃ (sol : Nat → Nat → ℝ) (W : Nat → Nat → Fin N → ℝ) (b : Nat → Nat → ℝ), 
          ((P.withData ms ps gr).initR r S data junk >>= pdeSolveParabolicR r S lu (t0 :: t1 :: ts) cols (fun p => u t0 (X p)) g) = .ok (true, sol) ∧
        ∀ Wm, (∀ j < cols, ∀ p < nNodes, |sol j p| ≤ Wm) → (∀ j < cols, ∀ p < nNodes, p = 0 ∨ bNodes p = true → |u (t0 + j * (t1 - t0)) (X p)| ≤ Wm) →
        ∀ Q, Q = stepGain N hh ρ (2 * ℓ) Λ bm cm (2 * ε * Wm) (t1 - t0) (stepError N ρ Λ bm cm ε (r.b ^ stepDepth P kd v - 1) μ κ Wm Fm (t1 - t0)) →
        ∀ i < cols, PiecewiseAffine n cells X (sol i) (W i) (b i) ∧
          valueError n cells X (u (t0 + i * (t1 - t0))) (W i) (b i) ≤ (2 * (2 * (M / 2 * hh ^ 2) ^ 2 +
            50 * flowBound (bm ^ 2 / (2 * α) + γ) α (i * (t1 - t0)) (K * (t1 - t0) + L' * hh) (ellipticConst N hh ρ ℓ Λ bm cm M F B L) ^ 2) +
              (16 * (ε * Wm) ^ 2 + 100 * flowBound (bm ^ 2 / (2 * α) + γ) α (i * (t1 - t0)) 0 Q ^ 2)) *
              (volume (domain (N + 1) n cells X)).toReal ∧
          ∑ j ∈ Finset.range i, (t1 - t0) * gradError n cells X (u (t0 + (j + 1 : Nat) * (t1 - t0))) (W (j + 1)) ≤
            i * (t1 - t0) * (2 * (2 * ((N + 1) * M * hh ^ 2 / (2 * ρ)) ^ 2 + 16 / α * ((bm ^ 2 / (2 * α) + γ) *
              flowBound (bm ^ 2 / (2 * α) + γ) α (i * (t1 - t0)) (K * (t1 - t0) + L' * hh) (ellipticConst N hh ρ ℓ Λ bm cm M F B L) ^ 2 +
              (K * (t1 - t0) + L' * hh) * flowBound (bm ^ 2 / (2 * α) + γ) α (i * (t1 - t0)) (K * (t1 - t0) + L' * hh) (ellipticConst N hh ρ ℓ Λ bm cm M F B L) +
              ellipticConst N hh ρ ℓ Λ bm cm M F B L ^ 2 / α)) + (16 * ((N + 1) / ρ * (ε * Wm)) ^ 2 + 32 / α * ((bm ^ 2 / (2 * α) + γ) *
              flowBound (bm ^ 2 / (2 * α) + γ) α (i * (t1 - t0)) 0 Q ^ 2 +
              Q ^ 2 / α))) * (volume (domain (N + 1) n cells X)).toReal) := by
  obtain ⟨P, e, hP⟩ := C152_parabolic_partial (r := r) (S := S) hN (pinned bNodes) h (marks_pin hb) hs hρ ht ts cols hcols hco hα hΛ hγ hu hM hF hL hK hL' z hl hstep hop
    hpar hsy hns hS hv hε lu hlu hlc hm rfl hFm
  obtain ⟨P', e', rfl⟩ := problem1_pin _ _ _ _ _ _ _ e
  refine ⟨P', e', fun hsa kd μ G ms ps gr hd κ hκ hsm data hr hc hf g hg hgc hgb junk => ?_⟩
  rw [C140_parabolic_rounded]
  obtain ⟨sol, W, b, r1, r2⟩ := hP hsa kd μ G ms ps gr ⟨hd.measure, hd.psi, hd.grad⟩ κ hκ hsm data hr hc hf g hg hgc (fun j hj p hp hm => hgb j hj p hp (by simpa [pinned] using hm)) junk
  exact ⟨sol, W, b, r1, fun Wm h1 h2 => r2 Wm h1 fun j hj p hp hm => h2 j hj p hp (by simpa [pinned] using hm)⟩

end

theorem problem2_pin {op : Op ℝ} {cells : Nat → Nat → Nat} {n nNodes : Nat} {X : Nat → Vec N} {bNodes : Nat → Bool} {f : FSt}
    {dofs : Nat → Nat → Option Nat} {bnd : Nat → Bool} {m : Nat} (hn : 0 < nNodes) (hf : build2 cells n = .ok f)
    (hd : enumDofs2 cells n nNodes (pinned bNodes) f = .ok (dofs, bnd, m)) {P : Prob ℝ} (h : problem2 op cells n nNodes X (pinned bNodes) = .ok P) :
    ∃ bnd' P', enumDofs2 cells n nNodes bNodes f = .ok (dofs, bnd', m) ∧ problem2 op cells n nNodes X bNodes = .ok P' ∧ P = P'.pin ∧ bnd = pinned bnd' := by
  have key : ∃ bnd', enumDofs2 cells n nNodes bNodes f = .ok (dofs, bnd', m) ∧ bnd = pinned bnd' := by
    unfold enumDofs2 at hd ⊢
    cases h1 : Combinatorics.combinations 2 3 with
    | ok pat =>
      rw [h1] at hd
      simp only [Res.ok_bind] at hd ⊢
      cases h2 : foldRes (dofEdge cells n pat f) ⟨fun c v => if v < 3 then some (cells c v) else none, [], nNodes⟩ (List.range f.facets.length) with
      | ok s =>
        rw [h2] at hd
        have h3 := Res.ok.inj hd
        rw [Prod.mk.injEq, Prod.mk.injEq] at h3
        refine ⟨fun d => if d < nNodes then bNodes d else s.bnd.contains d, ?_, ?_⟩
        · rw [← h3.1, ← h3.2.2]; rfl
        · rw [← h3.2.1]
          funext d
          by_cases hd0 : d = 0
          · subst hd0; simp [pinned, hn]
          · have : (d == 0) = false := by simpa using hd0
            simp only [pinned, this, Bool.false_or]
      | throws => rw [h2] at hd; cases hd
      | ub => rw [h2] at hd; cases hd
    | throws => rw [h1] at hd; cases hd
    | ub => rw [h1] at hd; cases hd
  obtain ⟨bnd', k1, k2⟩ := key
  rw [problem2] at h ⊢
  cases ht : Res.ofOptionUB (standardRule 2 2) with
  | ok t =>
    rw [ht, Res.ok_bind, hf, Res.ok_bind, hd, Res.ok_bind] at h
    rw [Res.ok_bind, hf, Res.ok_bind, k1, Res.ok_bind]
    refine ⟨bnd', _, rfl, rfl, ?_, k2⟩
    rw [← Res.ok.inj h, k2]
    rfl
  | throws => rw [ht] at h; cases h
  | ub => rw [ht] at h; cases h

/-- **C140**, quadratic elements: likewise for `C143_order_partial`. -/
theorem C140_quadratic_order {D : Set (Vec 2)} (z : Fin 2) {a ℓ : ℝ} (hl : ∀ x ∈ D, |x z - a| ≤ ℓ) (u : Vec 2 → ℝ) {G M B L κ H : ℝ} (hM : 0 ≤ M) (hL : 0 ≤ L) :
    ∃ C : ℝ, ∀ (n nNodes : Nat) (cells : Nat → Nat → Nat) (X : Nat → Vec 2) (bNodes : Nat → Bool) (hh ρ : ℝ),
      GoodMesh 3 n nNodes cells X → MarksBoundary 3 n cells bNodes → domain 3 n cells X = D →
      SmoothOn3 n cells X u G M B L → MeshShape n cells X hh ρ → 0 < ρ → hh ≤ κ * ρ → hh ≤ H → 0 < nNodes →
      ∃ f dofs bnd Y P, build2 cells n = .ok f ∧ enumDofs2 cells n nNodes bNodes f = .ok (dofs, bnd, P.m) ∧
        dofsCoords2 cells n nNodes P.m X dofs = .ok Y ∧ problem2 (.neg .lap) cells n nNodes X bNodes = .ok P ∧
        ∀ lu : Solver ℝ, ExactLU P.m lu → CompleteLU P.m lu → ∀ (data : Dense ℝ), n * size P.t ≤ data.rows → data.cols = 1 →
        (∀ c < n, ∀ k < size P.t, data.at' (size P.t * c + k) 0 = -laplacian u (meshPoint cells X c fun w => node ℝ P.t k w)) →
        ∀ g : Dense ℝ, P.m ≤ g.rows → 0 < g.cols → (∀ p < P.m, p = 0 ∨ bnd p = true → ∀ x, Y p = some x → g.at' p 0 = u x) →
        ∀ junk, ∃ w W, (P.init data junk >>= pdeSolveElliptic lu g) = .ok (true, some w) ∧ PiecewiseQuadratic n P.dofs Y w W ∧
          gradError2 n cells X u W ≤ C * (hh ^ 2 + 1 / 10 ^ 14) ^ 2 ∧ valueError2 n cells X u W ≤ C * (hh ^ 2 + 1 / 10 ^ 14) ^ 2 := by
  obtain ⟨C, hC⟩ := C143_order_partial z hl u (κ := κ) (H := H) (G := G) (B := B) hM hL
  refine ⟨C, fun n nNodes cells X bNodes hh ρ h hb hD hu hs hρ hκ hH hm => ?_⟩
  obtain ⟨f, dofs, bnd, Y, P, e1, e2, e3, e4, hP⟩ := hC n nNodes cells X (pinned bNodes) hh ρ h (marks_pin hb) hD hu hs hρ hκ hH hm rfl
  obtain ⟨bnd', P', e5, e6, rfl, rfl⟩ := problem2_pin hm e1 e2 e4
  refine ⟨f, dofs, bnd', Y, P', e1, e5, e3, e6, fun lu hlu hlc data hr hc hf g hg hgc hgb junk => ?_⟩
  rw [C140_elliptic]
  exact hP lu hlu hlc data hr hc hf g hg hgc (fun p hp hm => hgb p hp (by simpa [pinned] using hm)) junk

/-! ### The hypotheses are met -/

abbrev swapCells (c v : Nat) : Nat := swap01 (lineCells c v)
abbrev swapX (n p : Nat) : Fin 1 → ℝ := unitX n (swap01 p)

theorem swap_point (n c : Nat) (x : Fin 1 → ℝ) : meshPoint swapCells (swapX n) c x = meshPoint lineCells (unitX n) c x := by
  simp only [meshPoint, swapCells, swapX, swap_swap]

/-- -((1 + x) u')' + u' / 8 + u on the interval from 0 to 1 in `n` cells with a solver that is not exact, for every `n` above 1 and every `ε`, node 0 being inside. -/
example : ∃ C : ℝ, ∀ n : Nat, 1 < n → ∀ ε : ℝ, 0 ≤ ε → ∃ (lu0 lu : Solver ℝ) (P : Prob ℝ) (f : Nat → ℝ) (w : Nat → ℝ) (W : Nat → Fin 1 → ℝ) (b : Nat → ℝ),
    ExactLU (n + 1) lu0 ∧ (∀ A, lu A = (lu0 A).map fun f b q => (1 + ε) * f b q) ∧
    problem1 1 (.add (.add (.neg (.diff (rodRows n))) (.adv fun _ _ => 1 / 8)) (.react fun _ => 1)) swapCells n (n + 1) (swapX n)
      (fun p => swap01 p == 0 || swap01 p == n) = .ok P ∧ P.bd 0 = false ∧
    (P.init ⟨n * size P.t, 1, fun r _ => f r⟩ (fun _ => 0) >>= pdeSolveElliptic lu ⟨n + 1, 1, fun p _ => swapX n p 0 ^ 2⟩) = .ok (true, some w) ∧
      PiecewiseAffine n swapCells (swapX n) w W b ∧ ∀ Wm, (∀ p < n + 1, |w p| ≤ Wm) → 1 ≤ Wm →
        gradError n swapCells (swapX n) (fun x => x 0 ^ 2) W ≤ C * ((1 / n) ^ 2 + (ε * (Wm + 1) / (1 / n) ^ 2) ^ 2) := by
  obtain ⟨C, hC⟩ := C140_inexact_elliptic (N := 1) (by simp) (S := {p : Fin 1 → ℝ | 0 ≤ p 0 ∧ p 0 ≤ 1}) 0 (a := 1 / 2) (ℓ := 1 / 2)
    (fun x hx => by rw [abs_le]; constructor <;> linarith [hx.1, hx.2]) rod_bounded (by norm_num) le_rfl (fun x => x 0 ^ 2)
    (M := 2) (F := 6) (B := 6) (L := 4) (κ := 1) (H := 1) (Fm := 6) (by norm_num) (by norm_num) (by norm_num) (by norm_num) (fun x hx => by
      rw [ellipticForcing, rod_div, Fin.sum_univ_one, sq_pderiv, abs_le]
      have := hx.1
      have := hx.2
      constructor <;> nlinarith)
  refine ⟨C, fun n hn1 ε hε => ?_⟩
  have hn : 0 < n := by omega
  have hn' : (1 : ℝ) ≤ n := by exact_mod_cast hn
  have hreg : region (N := 1) 2 swapCells (swapX n) = region 2 lineCells (unitX n) := by
    funext c; simp only [region, swap_swap, swapCells, swapX]
  have hdom : domain (N := 1) 2 n swapCells (swapX n) = domain 2 n lineCells (unitX n) := by
    simp only [domain, hreg]
  have hsm : FluxOn (N := 1) n swapCells (swapX n) rodA (fun x : Fin 1 → ℝ => x 0 ^ 2) 2 6 6 4 := by
    have := rod_smooth n hn
    constructor
    all_goals first | rw [hdom] | rw [hreg]
    exacts [this.smooth, this.gradient, this.flux, this.bound, this.lipschitz]
  have hsh : MeshShape (N := 1) n swapCells (swapX n) (1 / n) (1 / n) := by
    have := unit_shape n hn
    refine ⟨?_, ?_⟩
    · simp only [swap_swap, swapCells, swapX]; exact this.diam
    · simp only [swap_swap, swapCells, swapX]; exact this.height
  obtain ⟨lu0, lu, h0, h1, h2, h3⟩ := exists_backwardLU (n + 1) hε
  obtain ⟨P, e, h⟩ := hC n (n + 1) swapCells (swapX n) (fun p => swap01 p == 0 || swap01 p == n) (1 / n) (1 / n)
    (swap_good (by omega) (scale_good (by positivity) (line_good n hn))) (swap_marks (line_marks n))
    (hdom.trans (unit_domain n hn)) hsm hsh (by positivity) (by rw [div_le_one (by positivity)]; exact hn') (by rw [one_mul])
    (by rw [div_le_one (by positivity)]; exact hn') (by omega)
    _ _ _ _ (C139_operators 1 (rodRows n) (fun _ _ => 1 / 8) fun _ => 1).1 (fun _ => ⟨⟨fun r z _ k _ => rfl, trivial⟩, trivial⟩) ⟨⟨trivial, trivial⟩, trivial⟩ ε lu hε h1 h2
  have eP := Res.ok.inj (show Res.ok _ = Res.ok P from e)
  have et : P.t = rule1_2 := by rw [← eP]; rfl
  have hb0 : P.bd 0 = false := by
    rw [← eP]
    have : (n == 1) = false := by simp; omega
    show (swap01 0 == 0 || swap01 0 == n) = false
    simp [swap01]
    omega
  have hsz : size P.t = 2 := by rw [et]; rfl
  have hrow : ∀ (c k : Nat), k < 2 → rodRows n (2 * c + k) 0 0 = rodA (meshPoint swapCells (swapX n) c fun w => node ℝ P.t k w) 0 0 := by
    intro c k hk
    rw [rodRows, et, show (2 * c + k) / 2 = c by omega, show (2 * c + k) % 2 = k by omega, swap_point]
  refine ⟨lu0, lu, P, fun row => ellipticForcing rodA (fun _ _ => 1 / 8) (fun _ => 1) (fun x => x 0 ^ 2)
    (meshPoint swapCells (swapX n) (row / 2) fun w => node ℝ P.t (row % 2) w), ?_⟩
  obtain ⟨w, W, b, r1, r2, r3⟩ := h ⟨fun c _ k hk z y => by
      rw [hsz] at hk ⊢
      exact hrow c k hk, fun _ _ _ _ _ => rfl, fun _ _ _ _ => rfl⟩
    ⟨n * size P.t, 1, fun row _ => ellipticForcing rodA (fun _ _ => 1 / 8) (fun _ => 1) (fun x => x 0 ^ 2)
      (meshPoint swapCells (swapX n) (row / 2) fun w => node ℝ P.t (row % 2) w)⟩ le_rfl rfl (fun c hc k hk => by
        rw [hsz] at hk ⊢
        dsimp only
        rw [show (2 * c + k) / 2 = c by omega, show (2 * c + k) % 2 = k by omega])
    ⟨n + 1, 1, fun p _ => swapX n p 0 ^ 2⟩ le_rfl (by norm_num) (fun p hp _ => rfl) (fun _ => 0)
  refine ⟨w, W, b, h0, h3, e, hb0, r1, r2, fun Wm hW h1 => (r3 Wm hW fun p hp _ => ?_).1⟩
  have : swap01 p ≤ n := by unfold swap01; split_ifs <;> omega
  have hp' : (swap01 p : ℝ) ≤ n := by exact_mod_cast this
  have hX : swapX n p 0 = swap01 p / n := by simp [swapX, unitX, lineX]; ring
  have h01 : (swap01 p / n : ℝ) ≤ 1 := (div_le_one (by linarith)).2 hp'
  have h00 : (0 : ℝ) ≤ swap01 p / n := by positivity
  rw [hX, abs_of_nonneg (by positivity)]
  nlinarith

end
end Fdapde.PDE
