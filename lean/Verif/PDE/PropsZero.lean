import Verif.PDE.ZeroSpec
import Verif.PDE.PropsElliptic
import Verif.PDE.PropsHeat
/-
Property C140: what the solvers return for every marking of the dofs, dof 0 included or not.
-/
namespace Fdapde.PDE
open Fdapde.Quadrature MeasureTheory Matrix Fdapde.Geometry Fdapde.FEM
variable {K : Type} {N : Nat}

theorem pinned_pos (bd : Nat → Bool) {p : Nat} (h : 0 < p) : pinned bd p = bd p := by
  simp [pinned, Nat.ne_of_gt h]

theorem scan_pinned (bd : Nat → Bool) (n k : Nat) : ∀ i, 0 < i → scan (pinned bd) n k i = scan bd n k i := by
  induction k with
  | zero => intro i _; rfl
  | succ k ih =>
    intro i hi
    simp only [scan, pinned_pos bd hi]
    rw [ih (i + 1) (Nat.succ_pos i)]

theorem visit_pinned (bd : Nat → Bool) (n k : Nat) : ∀ i, visit (pinned bd) n k i = visit bd n k i := by
  induction k with
  | zero => intro i; rfl
  | succ k ih =>
    intro i
    simp only [visit, next, ih, scan_pinned bd n n (i + 1) (Nat.succ_pos i)]

theorem loop_pinned (bd : Nat → Bool) (n : Nat) : boundaryLoop (pinned bd) n = boundaryLoop bd n := by
  rw [boundaryLoop, boundaryLoop, visit_pinned]

/-- The state of a solver with dof 0 marked. -/
def Sys.pin (s : Sys K) : Sys K := { s with bd := pinned s.bd }

/-- The state under the outcome. -/
def pinRes (r : Res (Sys K)) : Res (Sys K) := r >>= fun s => .ok s.pin

theorem fold_pin [Zero K] [One K] [Mul K] (g : Dense K) (l : List Nat) : ∀ s : Sys K,
    foldRes (fun (s : Sys K) d => do
      if s.forceRows ≤ d then .ub
      let v ← g.read d 0
      .ok { s with stiff := unitRow s.stiff d, force := fun p => if p = d then v else s.force p }) s.pin l =
    pinRes (foldRes (fun (s : Sys K) d => do
      if s.forceRows ≤ d then .ub
      let v ← g.read d 0
      .ok { s with stiff := unitRow s.stiff d, force := fun p => if p = d then v else s.force p }) s l) := by
  induction l with
  | nil => intro s; rfl
  | cons d l ih =>
    intro s
    simp only [foldRes_cons]
    by_cases hd : s.forceRows ≤ d
    · have hd' : s.pin.forceRows ≤ d := hd
      simp only [if_pos hd, if_pos hd']
      rfl
    · have hd' : ¬ s.pin.forceRows ≤ d := hd
      simp only [if_neg hd, if_neg hd']
      cases hv : g.read d 0 with
      | ok v => exact ih ⟨s.n, s.bd, unitRow s.stiff d, s.mass, fun p => if p = d then v else s.force p, s.forceRows, s.isInit⟩
      | throws => rfl
      | ub => rfl

theorem setDirichlet_pin [Zero K] [One K] [Mul K] (g : Dense K) (s : Sys K) : setDirichlet g s.pin = pinRes (setDirichlet g s) := by
  unfold setDirichlet
  by_cases h : s.isInit = false
  · rw [if_pos h, if_pos (show s.pin.isInit = false from h)]; rfl
  · rw [if_neg h, if_neg (show ¬ s.pin.isInit = false from h),
      show boundaryLoop s.pin.bd s.pin.n = boundaryLoop s.bd s.n from loop_pinned _ _]
    exact fold_pin g _ s

theorem solveElliptic_pin (lu : Solver K) (s : Sys K) : solveElliptic lu s.pin = solveElliptic lu s := rfl

theorem stepRhs_pin [Field K] (s : Sys K) (dt : K) (g : Dense K) (u : Nat → K) (i : Nat) : stepRhs s.pin dt g u i = stepRhs s dt g u i := by
  unfold stepRhs
  rw [show boundaryLoop s.pin.bd s.pin.n = boundaryLoop s.bd s.n from loop_pinned _ _]
  rfl

theorem solveParabolic_pin [Field K] (lu : Solver K) (time : List K) (m : Nat) (ic : Nat → K) (g : Dense K) (s : Sys K) :
    solveParabolic lu time m ic g s.pin = solveParabolic lu time m ic g s := by
  unfold solveParabolic
  simp only [stepRhs_pin]
  rw [show boundaryLoop s.pin.bd s.pin.n = boundaryLoop s.bd s.n from loop_pinned _ _]
  rfl

theorem init_pin [Field K] (P : Prob K) (data : Dense K) (junk : Nat → K) : P.pin.init data junk = pinRes (P.init data junk) := by
  unfold Prob.init
  cases h1 : discretizeOperator (isSymmetric P.op) P.n P.nb P.m P.dofs (locOf P.t P.N P.op P.measure P.psi P.grad) with
  | throws => rw [show discretizeOperator (isSymmetric P.pin.op) P.pin.n P.pin.nb P.pin.m P.pin.dofs (locOf P.pin.t P.pin.N P.pin.op P.pin.measure P.pin.psi P.pin.grad) = _ from h1]; rfl
  | ub => rw [show discretizeOperator (isSymmetric P.pin.op) P.pin.n P.pin.nb P.pin.m P.pin.dofs (locOf P.pin.t P.pin.N P.pin.op P.pin.measure P.pin.psi P.pin.grad) = _ from h1]; rfl
  | ok A =>
    rw [show discretizeOperator (isSymmetric P.pin.op) P.pin.n P.pin.nb P.pin.m P.pin.dofs (locOf P.pin.t P.pin.N P.pin.op P.pin.measure P.pin.psi P.pin.grad) = _ from h1,
      Res.ok_bind, Res.ok_bind, show P.pin.force data junk = P.force data junk from rfl]
    cases P.force data junk with
    | throws => rfl
    | ub => rfl
    | ok f =>
      rw [Res.ok_bind, Res.ok_bind]
      cases h2 : discretizeOperator (isSymmetric (.react (fun _ => 1) : Op K)) P.n P.nb P.m P.dofs
          (locOf P.t P.N (.react fun _ => 1) P.measure P.psi P.grad) with
      | throws => rw [show discretizeOperator (isSymmetric (.react (fun _ => 1) : Op K)) P.pin.n P.pin.nb P.pin.m P.pin.dofs (locOf P.pin.t P.pin.N (.react fun _ => 1) P.pin.measure P.pin.psi P.pin.grad) = _ from h2]; rfl
      | ub => rw [show discretizeOperator (isSymmetric (.react (fun _ => 1) : Op K)) P.pin.n P.pin.nb P.pin.m P.pin.dofs (locOf P.pin.t P.pin.N (.react fun _ => 1) P.pin.measure P.pin.psi P.pin.grad) = _ from h2]; rfl
      | ok M => rw [show discretizeOperator (isSymmetric (.react (fun _ => 1) : Op K)) P.pin.n P.pin.nb P.pin.m P.pin.dofs (locOf P.pin.t P.pin.N (.react fun _ => 1) P.pin.measure P.pin.psi P.pin.grad) = _ from h2]; rfl

/-- **C140**, stationary problems: for every problem, forcing, boundary data and linear solver, `init` and `solve` do what they do for the problem in which
dof 0 is on the boundary too. -/
theorem C140_elliptic [Field K] (P : Prob K) (data : Dense K) (junk : Nat → K) (lu : Solver K) (g : Dense K) :
    (P.init data junk >>= pdeSolveElliptic lu g) = (P.pin.init data junk >>= pdeSolveElliptic lu g) := by
  rw [init_pin]
  cases P.init data junk with
  | throws => rfl
  | ub => rfl
  | ok s =>
    rw [pinRes, Res.ok_bind, Res.ok_bind, Res.ok_bind]
    unfold pdeSolveElliptic
    by_cases hg : g.rows * g.cols = 0
    · simp only [if_pos hg]; rfl
    · simp only [if_neg hg]
      rw [setDirichlet_pin]
      cases setDirichlet g s <;> rfl

/-- **C140**, parabolic problems: likewise, for every time domain and initial condition. -/
theorem C140_parabolic [Field K] (P : Prob K) (data : Dense K) (junk : Nat → K) (lu : Solver K) (time : List K) (cols : Nat) (ic : Nat → K) (g : Dense K) :
    (P.init data junk >>= pdeSolveParabolic lu time cols ic g) = (P.pin.init data junk >>= pdeSolveParabolic lu time cols ic g) := by
  rw [init_pin]
  cases P.init data junk with
  | throws => rfl
  | ub => rfl
  | ok s =>
    rw [pinRes, Res.ok_bind, Res.ok_bind, Res.ok_bind]
    unfold pdeSolveParabolic
    by_cases hg : g.rows * g.cols = 0
    · simp only [if_pos hg]
      exact (solveParabolic_pin lu time cols ic g s).symm
    · simp only [if_neg hg]
      rw [setDirichlet_pin]
      cases setDirichlet g s with
      | ok s' => exact (solveParabolic_pin lu time cols ic g s').symm
      | throws => rfl
      | ub => rfl

theorem pin_zero (P : Prob K) : P.pin.bd 0 = true := rfl

theorem pin_bd {P : Prob K} {p : Nat} (h : P.pin.bd p = true) : p = 0 ∨ P.bd p = true := by
  simpa [Prob.pin, pinned] using h

/-- **C140**: for every marking, what `solve` returns takes the data at dof 0 and at the marked dofs and satisfies the discrete equation for all functions that
vanish there. -/
theorem C140_galerkin [Field K] [LinearOrder K] [IsStrictOrderedRing K] (P : Prob K) (hP : P.Ok) (lu : Solver K) (hlu : ExactLU P.m lu) (data : Dense K)
    (hr : P.n * size P.t ≤ data.rows) (hc : data.cols = 1) (g : Dense K) (hg : P.m ≤ g.rows) (hgc : 0 < g.cols) (hm : 0 < P.m) (junk : Nat → K) :
    ∃ b u, (P.init data junk >>= pdeSolveElliptic lu g) = .ok (b, u) ∧ (b = true ↔ u.isSome) ∧
      ∀ w ∈ u, w 0 = g.at' 0 0 ∧ (∀ p < P.m, P.bd p = true → w p = g.at' p 0) ∧
        ∀ v, v 0 = 0 → P.Test v → P.bilin w v = P.load (fun c k => data.at' (size P.t * c + k) 0) v := by
  obtain ⟨b, u, e1, e2, e3⟩ := C102_galerkin_partial P.pin ⟨hP.dofs, hP.sym, hP.noScalar⟩ lu hlu data hr hc g hg hgc hm (pin_zero P) junk
  refine ⟨b, u, (C140_elliptic P data junk lu g).trans e1, e2, fun w hw => ⟨(e3 w hw).1 0 hm (pin_zero P), fun p hp hb => (e3 w hw).1 p hp ?_, fun v h0 hv => (e3 w hw).2 v ?_⟩⟩
  · simp [Prob.pin, pinned, hb]
  · intro p hp hb
    rcases pin_bd hb with rfl | h
    · exact h0
    · exact hv p hp h

/-- **C140**: for every marking, an elliptic problem has one solution with the data given at dof 0 and at the marked dofs, and `solve` returns it. -/
theorem C140_solve [Field K] [LinearOrder K] [IsStrictOrderedRing K] (P : Prob K) (hP : P.Ok) (hE : P.Coercive) (lu : Solver K) (hlu : ExactLU P.m lu)
    (hlc : CompleteLU P.m lu) (data : Dense K) (hr : P.n * size P.t ≤ data.rows) (hc : data.cols = 1) (g : Dense K) (hg : P.m ≤ g.rows) (hgc : 0 < g.cols)
    (hm : 0 < P.m) (junk : Nat → K) :
    ∃ w, (P.init data junk >>= pdeSolveElliptic lu g) = .ok (true, some w) ∧
      P.pin.Galerkin (fun c k => data.at' (size P.t * c + k) 0) (fun p => g.at' p 0) w ∧
      ∀ w', P.pin.Galerkin (fun c k => data.at' (size P.t * c + k) 0) (fun p => g.at' p 0) w' → ∀ p < P.m, w' p = w p := by
  obtain ⟨w, e1, e2, e3⟩ := C103_solve_partial P.pin ⟨hP.dofs, hP.sym, hP.noScalar⟩ hE lu hlu hlc data hr hc g hg hgc hm (pin_zero P) junk
  exact ⟨w, (C140_elliptic P data junk lu g).trans e1, e2, e3⟩

/-- **C140**: for every marking, if the value given at dof 0 is the one of the discrete solution, `solve` returns this solution. -/
theorem C140_right_value [Field K] [LinearOrder K] [IsStrictOrderedRing K] (P : Prob K) (hP : P.Ok) (hE : P.Coercive) (lu : Solver K) (hlu : ExactLU P.m lu)
    (hlc : CompleteLU P.m lu) (data : Dense K) (hr : P.n * size P.t ≤ data.rows) (hc : data.cols = 1) (g : Dense K) (hg : P.m ≤ g.rows) (hgc : 0 < g.cols)
    (hm : 0 < P.m) (junk : Nat → K) (w : Nat → K)
    (hw : P.Galerkin (fun c k => data.at' (size P.t * c + k) 0) (fun p => g.at' p 0) w) (h0 : g.at' 0 0 = w 0) :
    ∃ w', (P.init data junk >>= pdeSolveElliptic lu g) = .ok (true, some w') ∧ ∀ p < P.m, w' p = w p := by
  obtain ⟨w', e1, e2, e3⟩ := C140_solve P hP hE lu hlu hlc data hr hc g hg hgc hm junk
  refine ⟨w', e1, fun p hp => (e3 w ⟨fun p hp hb => ?_, fun v hv => hw.2 v fun p hp hb => hv p hp ?_⟩ p hp).symm⟩
  · rcases pin_bd hb with rfl | h
    · exact h0.symm
    · exact hw.1 p hp h
  · simp [Prob.pin, pinned, hb]

/-- **C140**, converse: if dof 0 is not marked and the value given there is not the one of the discrete solution, `solve` reports success and returns a function
that is not the discrete solution. -/
theorem C140_wrong_value [Field K] [LinearOrder K] [IsStrictOrderedRing K] (P : Prob K) (hP : P.Ok) (hE : P.Coercive) (lu : Solver K) (hlu : ExactLU P.m lu)
    (hlc : CompleteLU P.m lu) (data : Dense K) (hr : P.n * size P.t ≤ data.rows) (hc : data.cols = 1) (g : Dense K) (hg : P.m ≤ g.rows) (hgc : 0 < g.cols)
    (hm : 0 < P.m) (junk : Nat → K) (w : Nat → K) (hb : ∃ p < P.m, P.bd p = true)
    (hw : P.Galerkin (fun c k => data.at' (size P.t * c + k) 0) (fun p => g.at' p 0) w) (h0 : g.at' 0 0 ≠ w 0) :
    ∃ w', (P.init data junk >>= pdeSolveElliptic lu g) = .ok (true, some w') ∧
      ¬ P.Galerkin (fun c k => data.at' (size P.t * c + k) 0) (fun p => g.at' p 0) w' := by
  obtain ⟨w', e1, e2, e3⟩ := C140_solve P hP hE lu hlu hlc data hr hc g hg hgc hm junk
  refine ⟨w', e1, fun h => h0 ?_⟩
  rw [← C103_unique P hP hE hb _ _ w' w h hw 0 hm]
  exact (e2.1 0 hm (pin_zero P)).symm

/-! ### Meshes -/

theorem problem1_pin (d : Nat) (op : Op ℝ) (cells : Nat → Nat → Nat) (n nNodes : Nat) (X : Nat → Vec N) (bNodes : Nat → Bool) {P : Prob ℝ}
    (h : problem1 d op cells n nNodes X (pinned bNodes) = .ok P) : ∃ Q, problem1 d op cells n nNodes X bNodes = .ok Q ∧ Q.pin = P := by
  unfold problem1 at h ⊢
  cases hr : standardRule d 1 with
  | none => rw [hr] at h; cases h
  | some t =>
    rw [hr, Res.ofOptionUB_some, Res.ok_bind] at h
    obtain rfl := Res.ok.inj h
    exact ⟨_, by rw [Res.ofOptionUB_some, Res.ok_bind], rfl⟩

theorem marks_pin {nn n : Nat} {cells : Nat → Nat → Nat} {bNodes : Nat → Bool} (h : MarksBoundary nn n cells bNodes) :
    MarksBoundary nn n cells (pinned bNodes) := fun c hc i hi h1 w hw hne => by
  simp [pinned, h c hc i hi h1 w hw hne]

/-- **C140**, Poisson equation: the convergence of `C132_order_partial` holds for every numbering of the nodes when the value of the solution is given at node 0
as it is at the marked nodes. -/
theorem C140_poisson_order (hN : N ∈ [1, 2, 3]) {D : Set (Fin N → ℝ)} (z : Fin N) {a ℓ : ℝ} (hl : ∀ x ∈ D, |x z - a| ≤ ℓ)
    (u : (Fin N → ℝ) → ℝ) {M B L κ H : ℝ} (hM : 0 ≤ M) (hL : 0 ≤ L) :
    ∃ C : ℝ, ∀ (n nNodes : Nat) (cells : Nat → Nat → Nat) (X : Nat → Fin N → ℝ) (bNodes : Nat → Bool) (hh ρ : ℝ),
      GoodMesh (N + 1) n nNodes cells X → MarksBoundary (N + 1) n cells bNodes → domain (N + 1) n cells X = D →
      SmoothOn n cells X u M B L → MeshShape n cells X hh ρ → 0 < ρ → hh ≤ κ * ρ → hh ≤ H → 0 < nNodes →
      ∀ lu : Solver ℝ, ExactLU nNodes lu → CompleteLU nNodes lu →
      ∃ P, problem1 N (.neg .lap) cells n nNodes X bNodes = .ok P ∧ ∀ (data : Dense ℝ), n * size P.t ≤ data.rows → data.cols = 1 →
        (∀ c < n, ∀ k < size P.t, data.at' (size P.t * c + k) 0 = -laplacian u (meshPoint cells X c fun w => node ℝ P.t k w)) →
        ∀ g : Dense ℝ, nNodes ≤ g.rows → 0 < g.cols → (∀ p < nNodes, p = 0 ∨ bNodes p = true → g.at' p 0 = u (X p)) →
        ∀ junk, ∃ w W b, (P.init data junk >>= pdeSolveElliptic lu g) = .ok (true, some w) ∧ PiecewiseAffine n cells X w W b ∧
          gradError n cells X u W ≤ C * hh ^ 2 ∧ valueError n cells X u W b ≤ C * hh ^ 2 := by
  obtain ⟨C, hC⟩ := C132_order_partial hN z hl u (B := B) (κ := κ) (H := H) hM hL
  refine ⟨C, fun n nNodes cells X bNodes hh ρ h hb hD hu hs hρ hκ hH hm lu hlu hlc => ?_⟩
  obtain ⟨P, e, hP⟩ := hC n nNodes cells X (pinned bNodes) hh ρ h (marks_pin hb) hD hu hs hρ hκ hH hm rfl lu hlu hlc
  obtain ⟨Q, eQ, rfl⟩ := problem1_pin _ _ _ _ _ _ _ e
  refine ⟨Q, eQ, fun data hr hc hf g hg hgc hgb junk => ?_⟩
  rw [C140_elliptic]
  exact hP data hr hc hf g hg hgc (fun p hp h => hgb p hp (by simpa [pinned] using h)) junk

/-- **C140**, variable coefficients: likewise for `C139_order_partial`. -/
theorem C140_elliptic_order (hN : N ∈ [1, 2, 3]) {S : Set (Fin N → ℝ)} (z : Fin N) {a ℓ : ℝ} (hl : ∀ x ∈ S, |x z - a| ≤ ℓ)
    {A : (Fin N → ℝ) → Fin N → Fin N → ℝ} {β : (Fin N → ℝ) → Fin N → ℝ} {r : (Fin N → ℝ) → ℝ} {α Λ bm γ cm : ℝ} (hco : Bounded S A β r α Λ bm γ cm)
    (hΛ : 0 ≤ Λ) (hγ : 0 ≤ γ) (u : (Fin N → ℝ) → ℝ) {M F B L κ H : ℝ} (hM : 0 ≤ M) (hF : 0 ≤ F) (hL : 0 ≤ L)
    (hα : 0 < α - bm * (2 * ℓ + H) - γ * (2 * ℓ + H) ^ 2) :
    ∃ C : ℝ, ∀ (n nNodes : Nat) (cells : Nat → Nat → Nat) (X : Nat → Fin N → ℝ) (bNodes : Nat → Bool) (hh ρ : ℝ),
      GoodMesh (N + 1) n nNodes cells X → MarksBoundary (N + 1) n cells bNodes → domain (N + 1) n cells X = S →
      FluxOn n cells X A u M F B L → MeshShape n cells X hh ρ → 0 < ρ → hh ≤ κ * ρ → hh ≤ H → 0 < nNodes →
      ∀ (op : Op ℝ) (Dr : Nat → Nat → Nat → ℝ) (br : Nat → Nat → ℝ) (cr : Nat → ℝ), StandsFor N op Dr br cr → FlagRight N op → NoScalar op →
      ∀ lu : Solver ℝ, ExactLU nNodes lu → CompleteLU nNodes lu →
      ∃ P, problem1 N op cells n nNodes X bNodes = .ok P ∧ (Sampled n cells X P.t A β r Dr br cr →
        ∀ (data : Dense ℝ), n * size P.t ≤ data.rows → data.cols = 1 →
        (∀ c < n, ∀ k < size P.t, data.at' (size P.t * c + k) 0 = ellipticForcing A β r u (meshPoint cells X c fun w => node ℝ P.t k w)) →
        ∀ g : Dense ℝ, nNodes ≤ g.rows → 0 < g.cols → (∀ p < nNodes, p = 0 ∨ bNodes p = true → g.at' p 0 = u (X p)) →
        ∀ junk, ∃ w W b, (P.init data junk >>= pdeSolveElliptic lu g) = .ok (true, some w) ∧ PiecewiseAffine n cells X w W b ∧
          gradError n cells X u W ≤ C * hh ^ 2 ∧ valueError n cells X u W b ≤ C * hh ^ 2) := by
  obtain ⟨C, hC⟩ := C139_order_partial hN z hl hco hΛ hγ u (B := B) (κ := κ) (H := H) hM hF hL hα
  refine ⟨C, fun n nNodes cells X bNodes hh ρ h hb hD hu hs hρ hκ hH hm op Dr br cr hop hsy hns lu hlu hlc => ?_⟩
  obtain ⟨P, e, hP⟩ := hC n nNodes cells X (pinned bNodes) hh ρ h (marks_pin hb) hD hu hs hρ hκ hH hm rfl op Dr br cr hop hsy hns lu hlu hlc
  obtain ⟨Q, eQ, rfl⟩ := problem1_pin _ _ _ _ _ _ _ e
  refine ⟨Q, eQ, fun hsm data hr hc hf g hg hgc hgb junk => ?_⟩
  rw [C140_elliptic]
  exact hP hsm data hr hc hf g hg hgc (fun p hp h => hgb p hp (by simpa [pinned] using h)) junk

/-- **C140**, heat equation: likewise for `C138_order_partial`. -/
theorem C140_heat_order (hN : N ∈ [1, 2, 3]) {D : Set (Fin N → ℝ)} (z : Fin N) {a ℓ : ℝ} (hl : ∀ x ∈ D, |x z - a| ≤ ℓ)
    (u u' : ℝ → (Fin N → ℝ) → ℝ) {M B L K L' κ H T t0 : ℝ} (hM : 0 ≤ M) (hL : 0 ≤ L) (hK : 0 ≤ K) (hL' : 0 ≤ L') :
    ∃ C : ℝ, ∀ (n nNodes : Nat) (cells : Nat → Nat → Nat) (X : Nat → Fin N → ℝ) (bNodes : Nat → Bool) (hh ρ t1 : ℝ) (ts : List ℝ) (cols : Nat),
      GoodMesh (N + 1) n nNodes cells X → MarksBoundary (N + 1) n cells bNodes → domain (N + 1) n cells X = D →
      t0 < t1 → 0 < cols → (cols - 1 : Nat) * (t1 - t0) ≤ T → HeatOn n cells X u u' t0 (t0 + (cols - 1 : Nat) * (t1 - t0)) M B L K L' →
      MeshShape n cells X hh ρ → 0 < ρ → hh ≤ κ * ρ → hh ≤ H → 0 < nNodes →
      ∀ lu : Solver ℝ, ExactLU nNodes lu → CompleteLU nNodes lu →
      ∃ P, problem1 N (.add .dT (.neg .lap)) cells n nNodes X bNodes = .ok P ∧ ∀ (data : Dense ℝ), n * size P.t ≤ data.rows → data.cols = cols →
        (∀ j < cols, ∀ c < n, ∀ k < size P.t, data.at' (size P.t * c + k) j =
          heatForcing u u' (t0 + j * (t1 - t0)) (meshPoint cells X c fun w => node ℝ P.t k w)) →
        ∀ g : Dense ℝ, nNodes ≤ g.rows → cols ≤ g.cols →
        (∀ j < cols, ∀ p < nNodes, p = 0 ∨ bNodes p = true → g.at' p j = u (t0 + j * (t1 - t0)) (X p)) →
        ∀ junk, ∃ sol, (P.init data junk >>= pdeSolveParabolic lu (t0 :: t1 :: ts) cols (fun p => u t0 (X p)) g) = .ok (true, sol) ∧
          ∀ i < cols, ∃ W b, PiecewiseAffine n cells X (sol i) W b ∧
            valueError n cells X (u (t0 + i * (t1 - t0))) W b ≤ C * ((t1 - t0) ^ 2 + hh ^ 2) := by
  obtain ⟨C, hC⟩ := C138_order_partial hN z hl u u' (B := B) (κ := κ) (H := H) (T := T) (t0 := t0) hM hL hK hL'
  refine ⟨C, fun n nNodes cells X bNodes hh ρ t1 ts cols h hb hD ht hcols hT hu hs hρ hκ hH hm lu hlu hlc => ?_⟩
  obtain ⟨P, e, hP⟩ := hC n nNodes cells X (pinned bNodes) hh ρ t1 ts cols h (marks_pin hb) hD ht hcols hT hu hs hρ hκ hH hm rfl lu hlu hlc
  obtain ⟨Q, eQ, rfl⟩ := problem1_pin _ _ _ _ _ _ _ e
  refine ⟨Q, eQ, fun data hr hc hf g hg hgc hgb junk => ?_⟩
  rw [C140_parabolic]
  exact hP data hr hc hf g hg hgc (fun j hj p hp h => hgb j hj p hp (by simpa [pinned] using h)) junk

/-! ### The hypotheses are met -/

/-- -u'' = 1 on the interval from 0 to 1 in two cells, u' = 0 at the first end, u = 0 at the other: dof 0 is not marked. -/
def halfProb : Prob ℚ := { demoProb (.neg .lap) with bd := fun p => p == 2 }

theorem half_ok : halfProb.Ok := ⟨by decide, fun _ => trivial, trivial⟩

theorem half_coercive : halfProb.Coercive := C103_coercive (demoProb (.neg .lap)) (demo_ell _ (C103_laplacian 1))

/-- The values 1/2, 3/8, 0 of (1 - x²) / 2 at the nodes, up to the rounding of the quadrature nodes. -/
def halfSol (p : Nat) : ℚ :=
  if p = 0 then 1 / 2 + 1 / 4000000000000000 else if p = 1 then 3 / 8 + 1 / 8000000000000000 else 0

theorem half_galerkin (g0 : ℚ) : halfProb.Galerkin (fun _ _ => 1) (fun p => if p = 0 then g0 else 0) halfSol := by
  refine ⟨fun p hp hb => ?_, fun v hv => ?_⟩
  · have : p = 2 := by simpa [halfProb] using hb
    subst this; rfl
  · have v2 : v 2 = 0 := hv 2 (by decide) rfl
    simp [Prob.bilin, Prob.load, halfProb, halfSol, demoProb, form, feValue, feGrad, dot, Finset.sum_range_succ, size, rule1_2, weight, node, v2]
    ring

/-- With the value of the solution at dof 0 the solution is returned, with the value 0 it is not. -/
example : ∃ (lu : Solver ℚ) (w w' : Nat → ℚ),
    (halfProb.init ⟨4, 1, fun _ _ => 1⟩ (fun _ => 0) >>= pdeSolveElliptic lu ⟨3, 1, fun p _ => if p = 0 then 1 / 2 + 1 / 4000000000000000 else 0⟩) = .ok (true, some w) ∧
    (∀ p < 3, w p = halfSol p) ∧
    (halfProb.init ⟨4, 1, fun _ _ => 1⟩ (fun _ => 0) >>= pdeSolveElliptic lu ⟨3, 1, fun p _ => if p = 0 then 0 else 0⟩) = .ok (true, some w') ∧
    ¬ halfProb.Galerkin (fun _ _ => 1) (fun p => if p = 0 then 0 else 0) w' := by
  obtain ⟨lu, h1, h2⟩ := exists_exactLU (K := ℚ) 3
  obtain ⟨w, e, h⟩ := C140_right_value halfProb half_ok half_coercive lu h1 h2 ⟨4, 1, fun _ _ => 1⟩ (by decide) rfl
    ⟨3, 1, fun p _ => if p = 0 then 1 / 2 + 1 / 4000000000000000 else 0⟩ (by decide) (by decide) (by decide) (fun _ => 0) halfSol (half_galerkin _) rfl
  obtain ⟨w', e', h'⟩ := C140_wrong_value halfProb half_ok half_coercive lu h1 h2 ⟨4, 1, fun _ _ => 1⟩ (by decide) rfl
    ⟨3, 1, fun p _ => if p = 0 then 0 else 0⟩ (by decide) (by decide) (by decide) (fun _ => 0) halfSol ⟨2, by decide, rfl⟩ (half_galerkin 0) (by
      simp only [halfSol]; norm_num)
  exact ⟨lu, w, w', e, h, e', h'⟩

/-- The first two nodes exchange their numbers. -/
def swap01 (p : Nat) : Nat := if p = 0 then 1 else if p = 1 then 0 else p

theorem swap_swap (p : Nat) : swap01 (swap01 p) = p := by
  rcases p with _ | _ | p <;> simp [swap01]

theorem swap_inj {p q : Nat} (h : swap01 p = swap01 q) : p = q := by
  rw [← swap_swap p, h, swap_swap]

/-- A mesh with the first two nodes exchanged. -/
theorem swap_good {nn n nNodes : Nat} {cells : Nat → Nat → Nat} {X : Nat → Vec N} (h2 : 2 ≤ nNodes) (h : GoodMesh nn n nNodes cells X) :
    GoodMesh nn n nNodes (fun c v => swap01 (cells c v)) (fun p => X (swap01 p)) where
  nodes := fun c hc v hv => by
    have := h.nodes c hc v hv
    show swap01 (cells c v) < nNodes
    unfold swap01
    split_ifs <;> omega
  used := fun p hp => by
    obtain ⟨c, hc, v, hv, e⟩ := h.used (swap01 p) (by unfold swap01; split_ifs <;> omega)
    exact ⟨c, hc, v, hv, by rw [e, swap_swap]⟩
  proper := fun c hc => by
    simp only [swap_swap]
    exact h.proper c hc
  conforming := fun c hc c' hc' => by
    have := h.conforming c hc c' hc'
    simp only [region, swap_swap] at this ⊢
    refine this.trans (convexHull_mono ?_)
    rintro x ⟨v, hv, w, hw, e, rfl⟩
    exact ⟨v, hv, w, hw, by rw [e], rfl⟩
  distinct := fun c hc c' hc' he => h.distinct c hc c' hc' fun v hv => by
    obtain ⟨w, hw, e⟩ := he v hv
    exact ⟨w, hw, swap_inj e⟩
  connected := by
    have := h.connected
    simp only [domain, region, swap_swap] at this ⊢
    exact this

theorem swap_marks {nn n : Nat} {cells : Nat → Nat → Nat} {bNodes : Nat → Bool} (h : MarksBoundary nn n cells bNodes) :
    MarksBoundary nn n (fun c v => swap01 (cells c v)) fun p => bNodes (swap01 p) := fun c hc i hi h1 w hw hne => by
  dsimp only
  rw [swap_swap]
  refine h c hc i hi (fun c' hc' h2 => h1 c' hc' fun w hw hne => ?_) w hw hne
  obtain ⟨v, hv, e⟩ := h2 w hw hne
  exact ⟨v, hv, congrArg swap01 e⟩

/-- -u'' = -2 on the interval from 0 to 1 in `n` cells, for every `n` above 1, node 0 being inside. -/
example : ∃ C : ℝ, ∀ n : Nat, 1 < n → ∃ (lu : Solver ℝ) (P : Prob ℝ) (w : Nat → ℝ) (W : Nat → Fin 1 → ℝ) (b : Nat → ℝ),
    problem1 1 (.neg .lap) (fun c v => swap01 (lineCells c v)) n (n + 1) (fun p => unitX n (swap01 p)) (fun p => swap01 p == 0 || swap01 p == n) = .ok P ∧
    P.bd 0 = false ∧
    (P.init ⟨n * size P.t, 1, fun _ _ => -2⟩ (fun _ => 0) >>= pdeSolveElliptic lu ⟨n + 1, 1, fun p _ => (swap01 p / n : ℝ) ^ 2⟩) = .ok (true, some w) ∧
      gradError n (fun c v => swap01 (lineCells c v)) (fun p => unitX n (swap01 p)) (fun x => x 0 ^ 2) W ≤ C * (1 / n) ^ 2 ∧
      valueError n (fun c v => swap01 (lineCells c v)) (fun p => unitX n (swap01 p)) (fun x => x 0 ^ 2) W b ≤ C * (1 / n) ^ 2 := by
  obtain ⟨C, hC⟩ := C140_poisson_order (N := 1) (by simp) (D := {p : Fin 1 → ℝ | 0 ≤ p 0 ∧ p 0 ≤ 1}) 0 (a := 0) (ℓ := 1)
    (fun x hx => by rw [sub_zero, abs_of_nonneg hx.1]; exact hx.2) (fun x => x 0 ^ 2) (M := 2) (B := 2) (L := 0) (κ := 1) (H := 1) (by norm_num) le_rfl
  refine ⟨C, fun n hn1 => ?_⟩
  have hn : 0 < n := by omega
  have hn' : (1 : ℝ) ≤ n := by exact_mod_cast hn
  obtain ⟨lu, h1, h2⟩ := exists_exactLU (K := ℝ) (n + 1)
  have hreg : region (N := 1) 2 (fun c v => swap01 (lineCells c v)) (fun p => unitX n (swap01 p)) = region 2 lineCells (unitX n) := by
    funext c; simp only [region, swap_swap]
  have hdom : domain (N := 1) 2 n (fun c v => swap01 (lineCells c v)) (fun p => unitX n (swap01 p)) = domain 2 n lineCells (unitX n) := by
    simp only [domain, hreg]
  have hsm : SmoothOn (N := 1) n (fun c v => swap01 (lineCells c v)) (fun p => unitX n (swap01 p)) (fun x : Fin 1 → ℝ => x 0 ^ 2) 2 2 0 := by
    have := sq_smooth n
    refine ⟨?_, ?_, ?_, ?_⟩
    · rw [hdom]; exact this.smooth
    · rw [hreg]; exact this.gradient
    · rw [hdom]; exact this.bound
    · rw [hreg]; exact this.lipschitz
  have hsh : MeshShape (N := 1) n (fun c v => swap01 (lineCells c v)) (fun p => unitX n (swap01 p)) (1 / n) (1 / n) := by
    have := unit_shape n hn
    refine ⟨?_, ?_⟩
    · simp only [swap_swap]; exact this.diam
    · simp only [swap_swap]; exact this.height
  obtain ⟨P, e, h⟩ := hC n (n + 1) _ _ (fun p => swap01 p == 0 || swap01 p == n) (1 / n) (1 / n)
    (swap_good (by omega) (scale_good (by positivity) (line_good n hn))) (swap_marks (line_marks n))
    (hdom.trans (unit_domain n hn)) hsm hsh (by positivity) (by rw [one_mul]) (by rw [div_le_one (by positivity)]; exact hn') (by omega) lu h1 h2
  obtain ⟨w, W, b, r1, r2, r3, r4⟩ := h ⟨n * size P.t, 1, fun _ _ => -2⟩ le_rfl rfl (fun c hc k hk => by rw [sq_laplacian])
    ⟨n + 1, 1, fun p _ => (swap01 p / n : ℝ) ^ 2⟩ le_rfl (by norm_num) (fun p hp _ => by simp [unitX, lineX]; ring) (fun _ => 0)
  refine ⟨lu, P, w, W, b, e, ?_, r1, r3, r4⟩
  obtain rfl := Res.ok.inj e
  have : (n == 1) = false := by simp; omega
  show (swap01 0 == 0 || swap01 0 == n) = false
  simp [swap01]
  omega

end Fdapde.PDE
