import Verif.PDE.PropsRoundedCells3
import Verif.PDE.PropsRoundedTimeCells
/-
C151 and C152 on intervals of the line and on tetrahedra, from their coordinates on.
-/
namespace Fdapde.PDE
open Fdapde.Quadrature Matrix Fdapde.Geometry Fdapde.FEM Fdapde.Fp Fdapde.Triang
open MeasureTheory
noncomputable section
variable {r : Rounding} {S : List ℝ → ℝ}

/-- **C151**: the elliptic solve in floating point on intervals of the line, with measures and gradients of the cells computed from the coordinates of the vertices in the
same arithmetic.
Partial: dof 0 on the boundary, see `C62_bug_dof_zero`. -/
theorem C151_elliptic_intervals_partial {n nNodes : Nat} {cells : Nat → Nat → Nat} {X : Nat → Fin 1 → ℝ} (bNodes : Nat → Bool)
    (h : GoodMesh 2 n nNodes cells X) (hb : MarksBoundary 2 n cells bNodes) {hh ρ : ℝ} (hs : MeshShape n cells X hh ρ) (hρ : 0 < ρ)
    {A : (Fin 1 → ℝ) → Fin 1 → Fin 1 → ℝ} {β : (Fin 1 → ℝ) → Fin 1 → ℝ} {rc u : (Fin 1 → ℝ) → ℝ} {α Λ bm γ cm M F B L : ℝ}
    (hco : Bounded (domain 2 n cells X) A β rc α Λ bm γ cm) (hu : FluxOn n cells X A u M F B L) (hM : 0 ≤ M) (hF : 0 ≤ F) (hL : 0 ≤ L)
    (hΛ : 0 ≤ Λ) (hγ : 0 ≤ γ) (z : Fin 1) {a ℓ : ℝ} (hl : ∀ x ∈ domain 2 n cells X, |x z - a| ≤ ℓ)
    (hα : 0 < α - bm * (2 * ℓ + hh) - γ * (2 * ℓ + hh) ^ 2)
    {op : Op ℝ} {Dr : Nat → Nat → Nat → ℝ} {br : Nat → Nat → ℝ} {cr : Nat → ℝ} (hop : StandsFor 1 op Dr br cr) (hsy : FlagRight 1 op) (hns : NoScalar op)
    (hS : r.Summation S) {v : Nat} (hv : Valence n 2 cells v)
    {ε : ℝ} (hε : 0 ≤ ε) (lu : Solver ℝ) (hlu : BackwardLU nNodes ε lu) (hlc : CompleteLU nNodes lu) (hm : 0 < nNodes) (h0 : bNodes 0 = true)
    {Fm : ℝ} (hFm : ∀ x ∈ domain 2 n cells X, |ellipticForcing A β rc u x| ≤ Fm) (hsm : r.b - 1 ≤ 1 / 2)
    {kb : Nat} {ps : Nat → (Nat → ℝ) → ℝ} {dps : Nat → (Nat → ℝ) → Nat → ℝ} :
    ∃ P, problem1 1 op cells n nNodes X bNodes = .ok P ∧ (Sampled n cells X P.t A β rc Dr br cr →
      (∀ i : Fin 2, ∀ k < size P.t, |ps i (node ℝ P.t k) - refBasis ℝ 1 1 2 i (node ℝ P.t k)| ≤ r.b ^ kb - 1) →
      (∀ i : Fin 2, ∀ k < size P.t, ∀ w < 1, |dps i (node ℝ P.t k) w - refGrad ℝ 1 1 2 i (node ℝ P.t k) w| ≤ r.b ^ kb - 1) →
      ∀ κ, (∀ c < n, ∀ k < size P.t, weakAbs 1 op (size P.t * c + k) 1 1 (fun _ => 2 / ρ) (fun _ => 2 / ρ) ≤ κ) →
      (r.b ^ sysDepth P (kb + 4) v - 1) * (1 * κ) * (2 * (2 * ℓ + hh)) ^ 2 < α - bm * (2 * ℓ + hh) - γ * (2 * ℓ + hh) ^ 2 →
      ∀ (data : Dense ℝ), n * size P.t ≤ data.rows → data.cols = 1 →
      (∀ c < n, ∀ k < size P.t, data.at' (size P.t * c + k) 0 = ellipticForcing A β rc u (meshPoint cells X c fun w => node ℝ P.t k w)) →
      ∀ g : Dense ℝ, nNodes ≤ g.rows → 0 < g.cols → (∀ p < nNodes, bNodes p = true → g.at' p 0 = u (X p)) →
      ∀ junk, ∃ w W b, ((P.withData (fun c => measure1R r (cellOf 1 cells X c)) ps fun c i => gradOfR r S 1 (inv1AtR r (cellOf 1 cells X c)) dps i).initR r S data junk >>=
          pdeSolveElliptic lu g) = .ok (true, some w) ∧ PiecewiseAffine n cells X w W b ∧
        ∀ Wm, (∀ p < nNodes, |w p| ≤ Wm) → (∀ p < nNodes, bNodes p = true → |u (X p)| ≤ Wm) →
        ∀ ν, ν = innerError 1 hh ρ (2 * ℓ) Λ bm cm (α - bm * (2 * ℓ + hh) - γ * (2 * ℓ + hh) ^ 2) (2 * ε * Wm)
            (rowError 1 ρ Λ bm cm ε (r.b ^ sysDepth P (kb + 4) v - 1) 1 κ Wm Fm) →
        gradError n cells X u W ≤ (4 * ((2 * M * hh ^ 2 / (2 * ρ)) ^ 2 +
          (ellipticConst 1 hh ρ ℓ Λ bm cm M F B L / (α - bm * (2 * ℓ + hh) - γ * (2 * ℓ + hh) ^ 2)) ^ 2) +
          2 * (2 / ρ * (2 * ε * Wm) + ν) ^ 2) * (volume (domain 2 n cells X)).toReal ∧
        valueError n cells X u W b ≤ (2 * (2 * (M / 2 * hh ^ 2) ^ 2 + 16 * ℓ ^ 2 * (3 * (2 * M * hh ^ 2 / (2 * ρ)) ^ 2 +
          2 * (ellipticConst 1 hh ρ ℓ Λ bm cm M F B L / (α - bm * (2 * ℓ + hh) - γ * (2 * ℓ + hh) ^ 2)) ^ 2)) +
          2 * (2 * (2 * ε * Wm) ^ 2 + 2 * (2 * ℓ * ν) ^ 2)) * (volume (domain 2 n cells X)).toReal) := by
  obtain ⟨P, e, hP⟩ := C151_elliptic_partial (N := 1) (by decide) bNodes h hb hs hρ hco hu hM hF hL hΛ hγ z hl hα hop hsy hns hS hv hε lu hlu hlc hm h0 hFm
  obtain ⟨P', e', hP'⟩ := C151_intervals (r := r) (S := S) (nNodes := nNodes) op bNodes h.proper hs hρ hsm hS (kb := kb) (ps := ps) (dps := dps)
  obtain rfl : P = P' := Res.ok.inj (e.symm.trans e')
  refine ⟨P, e, fun hsa h1 h2 κ hκ hsmall data hr hc hf g hg hgc hgb junk => ?_⟩
  have n3 : ((1 : Nat) : ℝ) + 1 = 2 := by norm_num
  obtain ⟨w, W, b, r1, r2, r3⟩ := hP hsa _ _ _ _ _ _ (hP' h1 h2) κ hκ (by rw [n3]; exact hsmall) data hr hc hf g hg hgc hgb junk
  refine ⟨w, W, b, r1, r2, fun Wm hW hg ν hν => ?_⟩
  have := r3 Wm hW hg ν hν
  rw [n3] at this
  exact this

/-- **C152**: the time stepping in floating point on intervals of the line, with measures and gradients of the cells computed from the coordinates of the vertices in the
same arithmetic.
Partial: dof 0 on the boundary, see `C62_bug_dof_zero`. -/
theorem C152_parabolic_intervals_partial {n nNodes : Nat} {cells : Nat → Nat → Nat} {X : Nat → Fin 1 → ℝ} (bNodes : Nat → Bool)
    (h : GoodMesh 2 n nNodes cells X) (hb : MarksBoundary 2 n cells bNodes) {hh ρ : ℝ} (hs : MeshShape n cells X hh ρ) (hρ : 0 < ρ)
    {t0 t1 : ℝ} (ht : t0 < t1) (ts : List ℝ) (cols : Nat) (hcols : 0 < cols)
    {A : (Fin 1 → ℝ) → Fin 1 → Fin 1 → ℝ} {β : (Fin 1 → ℝ) → Fin 1 → ℝ} {rc : (Fin 1 → ℝ) → ℝ} {α Λ bm γ cm : ℝ}
    (hco : Bounded (domain 2 n cells X) A β rc α Λ bm γ cm) (hα : 0 < α) (hΛ : 0 ≤ Λ) (hγ : 0 ≤ γ)
    {u u' : ℝ → (Fin 1 → ℝ) → ℝ} {M F B L K L' : ℝ} (hu : FlowOn n cells X A u u' t0 (t0 + (cols - 1 : Nat) * (t1 - t0)) M F B L K L')
    (hM : 0 ≤ M) (hF : 0 ≤ F) (hL : 0 ≤ L) (hK : 0 ≤ K) (hL' : 0 ≤ L')
    (z : Fin 1) {a ℓ : ℝ} (hl : ∀ x ∈ domain 2 n cells X, |x z - a| ≤ ℓ) (hstep : (bm ^ 2 / (2 * α) + γ) * (t1 - t0) ≤ 1 / 2)
    {op : Op ℝ} {Dr : Nat → Nat → Nat → ℝ} {br : Nat → Nat → ℝ} {cr : Nat → ℝ} (hop : StandsFor 1 op Dr br cr) (hpar : hasDT op = true)
    (hsy : FlagRight 1 op) (hns : NoScalar op) (hS : r.Summation S) {v : Nat} (hv : Valence n 2 cells v)
    {ε : ℝ} (hε : 0 ≤ ε) (lu : Solver ℝ) (hlu : BackwardLU nNodes ε lu) (hlc : CompleteLU nNodes lu) (hm : 0 < nNodes) (h0 : bNodes 0 = true)
    {Fm : ℝ} (hFm : ∀ j < cols, ∀ x ∈ domain 2 n cells X, |parabolicForcing A β rc u u' (t0 + j * (t1 - t0)) x| ≤ Fm) (hsm : r.b - 1 ≤ 1 / 2)
    {kb : Nat} {ps : Nat → (Nat → ℝ) → ℝ} {dps : Nat → (Nat → ℝ) → Nat → ℝ} :
    ∃ P, problem1 1 op cells n nNodes X bNodes = .ok P ∧ (Sampled n cells X P.t A β rc Dr br cr →
      (∀ i : Fin 2, ∀ k < size P.t, |ps i (node ℝ P.t k) - refBasis ℝ 1 1 2 i (node ℝ P.t k)| ≤ r.b ^ kb - 1) →
      (∀ i : Fin 2, ∀ k < size P.t, ∀ w < 1, |dps i (node ℝ P.t k) w - refGrad ℝ 1 1 2 i (node ℝ P.t k) w| ≤ r.b ^ kb - 1) →
      ∀ κ, (∀ c < n, ∀ k < size P.t, weakAbs 1 op (size P.t * c + k) 1 1 (fun _ => 2 / ρ) (fun _ => 2 / ρ) ≤ κ) →
      (r.b ^ stepDepth P (kb + 4) v - 1) * (1 * (κ + 1 / (t1 - t0))) * (2 * (2 * ℓ + hh)) ^ 2 < α / 2 →
      ∀ (data : Dense ℝ), n * size P.t ≤ data.rows → data.cols = cols →
      (∀ j < cols, ∀ c < n, ∀ k < size P.t, data.at' (size P.t * c + k) j =
        parabolicForcing A β rc u u' (t0 + j * (t1 - t0)) (meshPoint cells X c fun w => node ℝ P.t k w)) →
      ∀ g : Dense ℝ, nNodes ≤ g.rows → cols ≤ g.cols → (∀ j < cols, ∀ p < nNodes, bNodes p = true → g.at' p j = u (t0 + j * (t1 - t0)) (X p)) →
      ∀ junk, ∃ (sol : Nat → Nat → ℝ) (W : Nat → Nat → Fin 1 → ℝ) (b : Nat → Nat → ℝ),
          ((P.withData (fun c => measure1R r (cellOf 1 cells X c)) ps fun c i => gradOfR r S 1 (inv1AtR r (cellOf 1 cells X c)) dps i).initR r S data junk >>= pdeSolveParabolicR r S lu (t0 :: t1 :: ts) cols (fun p => u t0 (X p)) g) = .ok (true, sol) ∧
        ∀ Wm, (∀ j < cols, ∀ p < nNodes, |sol j p| ≤ Wm) → (∀ j < cols, ∀ p < nNodes, bNodes p = true → |u (t0 + j * (t1 - t0)) (X p)| ≤ Wm) →
        ∀ Q, Q = stepGain 1 hh ρ (2 * ℓ) Λ bm cm (2 * ε * Wm) (t1 - t0) (stepError 1 ρ Λ bm cm ε (r.b ^ stepDepth P (kb + 4) v - 1) 1 κ Wm Fm (t1 - t0)) →
        ∀ i < cols, PiecewiseAffine n cells X (sol i) (W i) (b i) ∧
          valueError n cells X (u (t0 + i * (t1 - t0))) (W i) (b i) ≤ (2 * (2 * (M / 2 * hh ^ 2) ^ 2 +
            50 * flowBound (bm ^ 2 / (2 * α) + γ) α (i * (t1 - t0)) (K * (t1 - t0) + L' * hh) (ellipticConst 1 hh ρ ℓ Λ bm cm M F B L) ^ 2) +
              (16 * (ε * Wm) ^ 2 + 100 * flowBound (bm ^ 2 / (2 * α) + γ) α (i * (t1 - t0)) 0 Q ^ 2)) *
              (volume (domain 2 n cells X)).toReal ∧
          ∑ j ∈ Finset.range i, (t1 - t0) * gradError n cells X (u (t0 + (j + 1 : Nat) * (t1 - t0))) (W (j + 1)) ≤
            i * (t1 - t0) * (2 * (2 * (2 * M * hh ^ 2 / (2 * ρ)) ^ 2 + 16 / α * ((bm ^ 2 / (2 * α) + γ) *
              flowBound (bm ^ 2 / (2 * α) + γ) α (i * (t1 - t0)) (K * (t1 - t0) + L' * hh) (ellipticConst 1 hh ρ ℓ Λ bm cm M F B L) ^ 2 +
              (K * (t1 - t0) + L' * hh) * flowBound (bm ^ 2 / (2 * α) + γ) α (i * (t1 - t0)) (K * (t1 - t0) + L' * hh) (ellipticConst 1 hh ρ ℓ Λ bm cm M F B L) +
              ellipticConst 1 hh ρ ℓ Λ bm cm M F B L ^ 2 / α)) + (16 * (2 / ρ * (ε * Wm)) ^ 2 + 32 / α * ((bm ^ 2 / (2 * α) + γ) *
              flowBound (bm ^ 2 / (2 * α) + γ) α (i * (t1 - t0)) 0 Q ^ 2 +
              Q ^ 2 / α))) * (volume (domain 2 n cells X)).toReal) := by
  obtain ⟨P, e, hP⟩ := C152_parabolic_partial (N := 1) (by decide) bNodes h hb hs hρ ht ts cols hcols hco hα hΛ hγ hu hM hF hL hK hL' z hl hstep hop hpar hsy hns hS hv
    hε lu hlu hlc hm h0 hFm
  obtain ⟨P', e', hP'⟩ := C151_intervals (r := r) (S := S) (nNodes := nNodes) op bNodes h.proper hs hρ hsm hS (kb := kb) (ps := ps) (dps := dps)
  obtain rfl : P = P' := Res.ok.inj (e.symm.trans e')
  refine ⟨P, e, fun hsa h1 h2 κ hκ hsmall data hr hc hf g hg hgc hgb junk => ?_⟩
  have n3 : ((1 : Nat) : ℝ) + 1 = 2 := by norm_num
  obtain ⟨sol, W, b, r1, r2⟩ := hP hsa _ _ _ _ _ _ (hP' h1 h2) κ hκ (by rw [n3]; exact hsmall) data hr hc hf g hg hgc hgb junk
  refine ⟨sol, W, b, r1, fun Wm hW hg Q hQ i hi => ?_⟩
  have := r2 Wm hW hg Q hQ i hi
  rw [n3] at this
  exact this

/-- **C151**: the elliptic solve in floating point on tetrahedra, with measures and gradients of the cells computed from the coordinates of the vertices in the
same arithmetic.
Partial: dof 0 on the boundary, see `C62_bug_dof_zero`. -/
theorem C151_elliptic_tetrahedra_partial {n nNodes : Nat} {cells : Nat → Nat → Nat} {X : Nat → Fin 3 → ℝ} (bNodes : Nat → Bool)
    (h : GoodMesh 4 n nNodes cells X) (hb : MarksBoundary 4 n cells bNodes) {hh ρ : ℝ} (hs : MeshShape n cells X hh ρ) (hρ : 0 < ρ)
    {A : (Fin 3 → ℝ) → Fin 3 → Fin 3 → ℝ} {β : (Fin 3 → ℝ) → Fin 3 → ℝ} {rc u : (Fin 3 → ℝ) → ℝ} {α Λ bm γ cm M F B L : ℝ}
    (hco : Bounded (domain 4 n cells X) A β rc α Λ bm γ cm) (hu : FluxOn n cells X A u M F B L) (hM : 0 ≤ M) (hF : 0 ≤ F) (hL : 0 ≤ L)
    (hΛ : 0 ≤ Λ) (hγ : 0 ≤ γ) (z : Fin 3) {a ℓ : ℝ} (hl : ∀ x ∈ domain 4 n cells X, |x z - a| ≤ ℓ)
    (hα : 0 < α - bm * (2 * ℓ + hh) - γ * (2 * ℓ + hh) ^ 2)
    {op : Op ℝ} {Dr : Nat → Nat → Nat → ℝ} {br : Nat → Nat → ℝ} {cr : Nat → ℝ} (hop : StandsFor 3 op Dr br cr) (hsy : FlagRight 3 op) (hns : NoScalar op)
    (hS : r.Summation S) {v : Nat} (hv : Valence n 4 cells v)
    {ε : ℝ} (hε : 0 ≤ ε) (lu : Solver ℝ) (hlu : BackwardLU nNodes ε lu) (hlc : CompleteLU nNodes lu) (hm : 0 < nNodes) (h0 : bNodes 0 = true)
    {Fm : ℝ} (hFm : ∀ x ∈ domain 4 n cells X, |ellipticForcing A β rc u x| ≤ Fm) (hsm : (r.b ^ 9 - 1) * (2 * (hh / ρ) ^ 3) ≤ 1 / 2)
    {kb : Nat} {ps : Nat → (Nat → ℝ) → ℝ} {dps : Nat → (Nat → ℝ) → Nat → ℝ} :
    ∃ P, problem1 3 op cells n nNodes X bNodes = .ok P ∧ (Sampled n cells X P.t A β rc Dr br cr →
      (∀ i : Fin 4, ∀ k < size P.t, |ps i (node ℝ P.t k) - refBasis ℝ 3 1 4 i (node ℝ P.t k)| ≤ r.b ^ kb - 1) →
      (∀ i : Fin 4, ∀ k < size P.t, ∀ w < 3, |dps i (node ℝ P.t k) w - refGrad ℝ 3 1 4 i (node ℝ P.t k) w| ≤ r.b ^ kb - 1) →
      ∀ κ, (∀ c < n, ∀ k < size P.t, weakAbs 3 op (size P.t * c + k) 1 1 (fun _ => 12 * hh ^ 5 / ρ ^ 6) (fun _ => 12 * hh ^ 5 / ρ ^ 6) ≤ κ) →
      (r.b ^ sysDepth P (kb + 19) v - 1) * (3 * (hh / ρ) ^ 3 * κ) * (4 * (2 * ℓ + hh)) ^ 2 < α - bm * (2 * ℓ + hh) - γ * (2 * ℓ + hh) ^ 2 →
      ∀ (data : Dense ℝ), n * size P.t ≤ data.rows → data.cols = 1 →
      (∀ c < n, ∀ k < size P.t, data.at' (size P.t * c + k) 0 = ellipticForcing A β rc u (meshPoint cells X c fun w => node ℝ P.t k w)) →
      ∀ g : Dense ℝ, nNodes ≤ g.rows → 0 < g.cols → (∀ p < nNodes, bNodes p = true → g.at' p 0 = u (X p)) →
      ∀ junk, ∃ w W b, ((P.withData (fun c => measure3R r (cellOf 3 cells X c)) ps fun c i => gradOfR r S 3 (inv3AtR r S (cellOf 3 cells X c)) dps i).initR r S data junk >>=
          pdeSolveElliptic lu g) = .ok (true, some w) ∧ PiecewiseAffine n cells X w W b ∧
        ∀ Wm, (∀ p < nNodes, |w p| ≤ Wm) → (∀ p < nNodes, bNodes p = true → |u (X p)| ≤ Wm) →
        ∀ ν, ν = innerError 3 hh ρ (2 * ℓ) Λ bm cm (α - bm * (2 * ℓ + hh) - γ * (2 * ℓ + hh) ^ 2) (2 * ε * Wm)
            (rowError 3 ρ Λ bm cm ε (r.b ^ sysDepth P (kb + 19) v - 1) (3 * (hh / ρ) ^ 3) κ Wm Fm) →
        gradError n cells X u W ≤ (4 * ((4 * M * hh ^ 2 / (2 * ρ)) ^ 2 +
          (ellipticConst 3 hh ρ ℓ Λ bm cm M F B L / (α - bm * (2 * ℓ + hh) - γ * (2 * ℓ + hh) ^ 2)) ^ 2) +
          2 * (4 / ρ * (2 * ε * Wm) + ν) ^ 2) * (volume (domain 4 n cells X)).toReal ∧
        valueError n cells X u W b ≤ (2 * (2 * (M / 2 * hh ^ 2) ^ 2 + 16 * ℓ ^ 2 * (3 * (4 * M * hh ^ 2 / (2 * ρ)) ^ 2 +
          2 * (ellipticConst 3 hh ρ ℓ Λ bm cm M F B L / (α - bm * (2 * ℓ + hh) - γ * (2 * ℓ + hh) ^ 2)) ^ 2)) +
          2 * (2 * (2 * ε * Wm) ^ 2 + 2 * (2 * ℓ * ν) ^ 2)) * (volume (domain 4 n cells X)).toReal) := by
  obtain ⟨P, e, hP⟩ := C151_elliptic_partial (N := 3) (by decide) bNodes h hb hs hρ hco hu hM hF hL hΛ hγ z hl hα hop hsy hns hS hv hε lu hlu hlc hm h0 hFm
  obtain ⟨P', e', hP'⟩ := C151_tetrahedra (r := r) (S := S) (nNodes := nNodes) op bNodes h.proper hs hρ hsm hS (kb := kb) (ps := ps) (dps := dps)
  obtain rfl : P = P' := Res.ok.inj (e.symm.trans e')
  refine ⟨P, e, fun hsa h1 h2 κ hκ hsmall data hr hc hf g hg hgc hgb junk => ?_⟩
  have n3 : ((3 : Nat) : ℝ) + 1 = 4 := by norm_num
  obtain ⟨w, W, b, r1, r2, r3⟩ := hP hsa _ _ _ _ _ _ (hP' h1 h2) κ hκ (by rw [n3]; exact hsmall) data hr hc hf g hg hgc hgb junk
  refine ⟨w, W, b, r1, r2, fun Wm hW hg ν hν => ?_⟩
  have := r3 Wm hW hg ν hν
  rw [n3] at this
  exact this

/-- **C152**: the time stepping in floating point on tetrahedra, with measures and gradients of the cells computed from the coordinates of the vertices in the
same arithmetic.
Partial: dof 0 on the boundary, see `C62_bug_dof_zero`. -/
theorem C152_parabolic_tetrahedra_partial {n nNodes : Nat} {cells : Nat → Nat → Nat} {X : Nat → Fin 3 → ℝ} (bNodes : Nat → Bool)
    (h : GoodMesh 4 n nNodes cells X) (hb : MarksBoundary 4 n cells bNodes) {hh ρ : ℝ} (hs : MeshShape n cells X hh ρ) (hρ : 0 < ρ)
    {t0 t1 : ℝ} (ht : t0 < t1) (ts : List ℝ) (cols : Nat) (hcols : 0 < cols)
    {A : (Fin 3 → ℝ) → Fin 3 → Fin 3 → ℝ} {β : (Fin 3 → ℝ) → Fin 3 → ℝ} {rc : (Fin 3 → ℝ) → ℝ} {α Λ bm γ cm : ℝ}
    (hco : Bounded (domain 4 n cells X) A β rc α Λ bm γ cm) (hα : 0 < α) (hΛ : 0 ≤ Λ) (hγ : 0 ≤ γ)
    {u u' : ℝ → (Fin 3 → ℝ) → ℝ} {M F B L K L' : ℝ} (hu : FlowOn n cells X A u u' t0 (t0 + (cols - 1 : Nat) * (t1 - t0)) M F B L K L')
    (hM : 0 ≤ M) (hF : 0 ≤ F) (hL : 0 ≤ L) (hK : 0 ≤ K) (hL' : 0 ≤ L')
    (z : Fin 3) {a ℓ : ℝ} (hl : ∀ x ∈ domain 4 n cells X, |x z - a| ≤ ℓ) (hstep : (bm ^ 2 / (2 * α) + γ) * (t1 - t0) ≤ 1 / 2)
    {op : Op ℝ} {Dr : Nat → Nat → Nat → ℝ} {br : Nat → Nat → ℝ} {cr : Nat → ℝ} (hop : StandsFor 3 op Dr br cr) (hpar : hasDT op = true)
    (hsy : FlagRight 3 op) (hns : NoScalar op) (hS : r.Summation S) {v : Nat} (hv : Valence n 4 cells v)
    {ε : ℝ} (hε : 0 ≤ ε) (lu : Solver ℝ) (hlu : BackwardLU nNodes ε lu) (hlc : CompleteLU nNodes lu) (hm : 0 < nNodes) (h0 : bNodes 0 = true)
    {Fm : ℝ} (hFm : ∀ j < cols, ∀ x ∈ domain 4 n cells X, |parabolicForcing A β rc u u' (t0 + j * (t1 - t0)) x| ≤ Fm) (hsm : (r.b ^ 9 - 1) * (2 * (hh / ρ) ^ 3) ≤ 1 / 2)
    {kb : Nat} {ps : Nat → (Nat → ℝ) → ℝ} {dps : Nat → (Nat → ℝ) → Nat → ℝ} :
    ∃ P, problem1 3 op cells n nNodes X bNodes = .ok P ∧ (Sampled n cells X P.t A β rc Dr br cr →
      (∀ i : Fin 4, ∀ k < size P.t, |ps i (node ℝ P.t k) - refBasis ℝ 3 1 4 i (node ℝ P.t k)| ≤ r.b ^ kb - 1) →
      (∀ i : Fin 4, ∀ k < size P.t, ∀ w < 3, |dps i (node ℝ P.t k) w - refGrad ℝ 3 1 4 i (node ℝ P.t k) w| ≤ r.b ^ kb - 1) →
      ∀ κ, (∀ c < n, ∀ k < size P.t, weakAbs 3 op (size P.t * c + k) 1 1 (fun _ => 12 * hh ^ 5 / ρ ^ 6) (fun _ => 12 * hh ^ 5 / ρ ^ 6) ≤ κ) →
      (r.b ^ stepDepth P (kb + 19) v - 1) * (3 * (hh / ρ) ^ 3 * (κ + 1 / (t1 - t0))) * (4 * (2 * ℓ + hh)) ^ 2 < α / 2 →
      ∀ (data : Dense ℝ), n * size P.t ≤ data.rows → data.cols = cols →
      (∀ j < cols, ∀ c < n, ∀ k < size P.t, data.at' (size P.t * c + k) j =
        parabolicForcing A β rc u u' (t0 + j * (t1 - t0)) (meshPoint cells X c fun w => node ℝ P.t k w)) →
      ∀ g : Dense ℝ, nNodes ≤ g.rows → cols ≤ g.cols → (∀ j < cols, ∀ p < nNodes, bNodes p = true → g.at' p j = u (t0 + j * (t1 - t0)) (X p)) →
      ∀ junk, ∃ (sol : Nat → Nat → ℝ) (W : Nat → Nat → Fin 3 → ℝ) (b : Nat → Nat → ℝ),
          ((P.withData (fun c => measure3R r (cellOf 3 cells X c)) ps fun c i => gradOfR r S 3 (inv3AtR r S (cellOf 3 cells X c)) dps i).initR r S data junk >>= pdeSolveParabolicR r S lu (t0 :: t1 :: ts) cols (fun p => u t0 (X p)) g) = .ok (true, sol) ∧
        ∀ Wm, (∀ j < cols, ∀ p < nNodes, |sol j p| ≤ Wm) → (∀ j < cols, ∀ p < nNodes, bNodes p = true → |u (t0 + j * (t1 - t0)) (X p)| ≤ Wm) →
        ∀ Q, Q = stepGain 3 hh ρ (2 * ℓ) Λ bm cm (2 * ε * Wm) (t1 - t0) (stepError 3 ρ Λ bm cm ε (r.b ^ stepDepth P (kb + 19) v - 1) (3 * (hh / ρ) ^ 3) κ Wm Fm (t1 - t0)) →
        ∀ i < cols, PiecewiseAffine n cells X (sol i) (W i) (b i) ∧
          valueError n cells X (u (t0 + i * (t1 - t0))) (W i) (b i) ≤ (2 * (2 * (M / 2 * hh ^ 2) ^ 2 +
            50 * flowBound (bm ^ 2 / (2 * α) + γ) α (i * (t1 - t0)) (K * (t1 - t0) + L' * hh) (ellipticConst 3 hh ρ ℓ Λ bm cm M F B L) ^ 2) +
              (16 * (ε * Wm) ^ 2 + 100 * flowBound (bm ^ 2 / (2 * α) + γ) α (i * (t1 - t0)) 0 Q ^ 2)) *
              (volume (domain 4 n cells X)).toReal ∧
          ∑ j ∈ Finset.range i, (t1 - t0) * gradError n cells X (u (t0 + (j + 1 : Nat) * (t1 - t0))) (W (j + 1)) ≤
            i * (t1 - t0) * (2 * (2 * (4 * M * hh ^ 2 / (2 * ρ)) ^ 2 + 16 / α * ((bm ^ 2 / (2 * α) + γ) *
              flowBound (bm ^ 2 / (2 * α) + γ) α (i * (t1 - t0)) (K * (t1 - t0) + L' * hh) (ellipticConst 3 hh ρ ℓ Λ bm cm M F B L) ^ 2 +
              (K * (t1 - t0) + L' * hh) * flowBound (bm ^ 2 / (2 * α) + γ) α (i * (t1 - t0)) (K * (t1 - t0) + L' * hh) (ellipticConst 3 hh ρ ℓ Λ bm cm M F B L) +
              ellipticConst 3 hh ρ ℓ Λ bm cm M F B L ^ 2 / α)) + (16 * (4 / ρ * (ε * Wm)) ^ 2 + 32 / α * ((bm ^ 2 / (2 * α) + γ) *
              flowBound (bm ^ 2 / (2 * α) + γ) α (i * (t1 - t0)) 0 Q ^ 2 +
              Q ^ 2 / α))) * (volume (domain 4 n cells X)).toReal) := by
  obtain ⟨P, e, hP⟩ := C152_parabolic_partial (N := 3) (by decide) bNodes h hb hs hρ ht ts cols hcols hco hα hΛ hγ hu hM hF hL hK hL' z hl hstep hop hpar hsy hns hS hv
    hε lu hlu hlc hm h0 hFm
  obtain ⟨P', e', hP'⟩ := C151_tetrahedra (r := r) (S := S) (nNodes := nNodes) op bNodes h.proper hs hρ hsm hS (kb := kb) (ps := ps) (dps := dps)
  obtain rfl : P = P' := Res.ok.inj (e.symm.trans e')
  refine ⟨P, e, fun hsa h1 h2 κ hκ hsmall data hr hc hf g hg hgc hgb junk => ?_⟩
  have n3 : ((3 : Nat) : ℝ) + 1 = 4 := by norm_num
  obtain ⟨sol, W, b, r1, r2⟩ := hP hsa _ _ _ _ _ _ (hP' h1 h2) κ hκ (by rw [n3]; exact hsmall) data hr hc hf g hg hgc hgb junk
  refine ⟨sol, W, b, r1, fun Wm hW hg Q hQ i hi => ?_⟩
  have := r2 Wm hW hg Q hQ i hi
  rw [n3] at this
  exact this

/-! ### Examples: four intervals and the reference tetrahedron, binary64, sums from left to right -/

section
variable {N : Nat}

theorem axis_first (t : ℝ) (z : Fin (N + 1)) : pderiv (fun x : Fin (N + 1) → ℝ => t * x 0 ^ 2) z = fun x => t * if z = 0 then 2 * x 0 else 0 := by
  funext x
  have h : HasFDerivAt (fun x : Fin (N + 1) → ℝ => t * x 0 ^ 2) (t • ((2 * x 0 ^ (2 - 1)) • ContinuousLinearMap.proj (R := ℝ) (φ := fun _ : Fin (N + 1) => ℝ) 0)) x := by
    have := (ContinuousLinearMap.proj (R := ℝ) (φ := fun _ : Fin (N + 1) => ℝ) 0).hasFDerivAt (x := x)
    have h2 := this.pow 2
    simpa using h2.const_mul t
  rw [pderiv, h.fderiv]
  by_cases hz : z = 0
  · subst hz; simp
  · have : (0 : Fin (N + 1)) ≠ z := fun e => hz e.symm
    simp [hz, this]

theorem axis_flux (t : ℝ) (z : Fin (N + 1)) :
    flux (fun _ z y => if z = y then (1 : ℝ) else 0) (fun x : Fin (N + 1) → ℝ => t * x 0 ^ 2) z = fun x => t * if z = 0 then 2 * x 0 else 0 := by
  funext x
  simp only [flux, ite_mul, one_mul, zero_mul, Finset.sum_ite_eq, Finset.mem_univ, if_true, axis_first]

theorem axis_div (t : ℝ) (x : Fin (N + 1) → ℝ) : divFlux (fun _ z y => if z = y then (1 : ℝ) else 0) (fun x : Fin (N + 1) → ℝ => t * x 0 ^ 2) x = t * 2 := by
  have h : HasFDerivAt (fun x : Fin (N + 1) → ℝ => t * (2 * x 0)) (t • ((2 : ℝ) • ContinuousLinearMap.proj (R := ℝ) (φ := fun _ : Fin (N + 1) => ℝ) 0)) x :=
    (((ContinuousLinearMap.proj (R := ℝ) (φ := fun _ : Fin (N + 1) => ℝ) 0).hasFDerivAt (x := x)).const_mul 2).const_mul t
  rw [divFlux, Fin.sum_univ_succ, Finset.sum_eq_zero fun z _ => ?_]
  · rw [axis_flux]
    simp only [if_true]
    rw [pderiv, h.fderiv]
    simp
  · rw [axis_flux]
    simp only [Fin.succ_ne_zero, if_false, mul_zero]
    rw [pderiv]
    simp

theorem axis_gap {t : ℝ} (h0 : 0 ≤ t) (h1 : t ≤ 1) (x y : Fin (N + 1) → ℝ) :
    len (fun z : Fin (N + 1) => (t * if z = 0 then 2 * y 0 else 0) - t * if z = 0 then 2 * x 0 else 0) ≤ 2 * len (y - x) := by
  refine Real.sqrt_le_iff.2 ⟨mul_nonneg two_pos.le (Real.sqrt_nonneg _), ?_⟩
  rw [mul_pow, len_sq, Finset.mul_sum]
  refine Finset.sum_le_sum fun z _ => ?_
  rw [Pi.sub_apply]
  by_cases hz : z = 0
  · subst hz
    simp only [if_true]
    rw [show t * (2 * y 0) - t * (2 * x 0) = t * (2 * (y 0 - x 0)) by ring, mul_pow, mul_pow 2 (y 0 - x 0)]
    exact mul_le_of_le_one_left (by positivity) (by nlinarith)
  · simp only [hz, if_false, mul_zero, sub_zero]
    rw [zero_pow two_ne_zero]
    positivity

theorem axis_space {n : Nat} (cells : Nat → Nat → Nat) (X : Nat → Fin (N + 1) → ℝ) {t : ℝ} (h0 : 0 ≤ t) (h1 : t ≤ 1) :
    FluxOn n cells X (fun _ z y => if z = y then 1 else 0) (fun x : Fin (N + 1) → ℝ => t * x 0 ^ 2) 2 2 2 0 where
  smooth := ⟨Set.univ, isOpen_univ, Set.subset_univ _, ContDiff.contDiffOn (by fun_prop), fun z => by
    rw [axis_flux]
    by_cases hz : z = 0
    · simp only [hz, if_true]; exact ContDiff.contDiffOn (by fun_prop)
    · simp only [hz, if_false]; exact contDiffOn_const⟩
  gradient := fun c _ x _ y _ => by simp only [axis_first]; exact axis_gap h0 h1 x y
  flux := fun c _ x _ y _ => by simp only [axis_flux]; exact axis_gap h0 h1 x y
  bound := fun x _ => by rw [axis_div, abs_of_nonneg (by positivity)]; linarith
  lipschitz := fun c _ x _ y _ => by rw [axis_div, axis_div]; simp

theorem axis_spread {x y : Fin (N + 1) → ℝ} (hx : 0 ≤ x 0 ∧ x 0 ≤ 1) (hy : 0 ≤ y 0 ∧ y 0 ≤ 1) : |y 0 ^ 2 - x 0 ^ 2| ≤ 2 * len (y - x) := by
  have h1 : |y 0 - x 0| ≤ len (y - x) := by
    rw [← Real.sqrt_sq_eq_abs]
    exact Real.sqrt_le_sqrt (Finset.single_le_sum (f := fun z => (y - x) z ^ 2) (fun z _ => sq_nonneg _) (Finset.mem_univ (0 : Fin (N + 1))))
  rw [show y 0 ^ 2 - x 0 ^ 2 = (y 0 + x 0) * (y 0 - x 0) by ring, abs_mul, abs_of_nonneg (add_nonneg hy.1 hx.1)]
  exact mul_le_mul (by linarith [hx.2, hy.2]) h1 (abs_nonneg _) (by norm_num)

theorem axis_flow {n : Nat} (cells : Nat → Nat → Nat) (X : Nat → Fin (N + 1) → ℝ) (hX : ∀ x ∈ domain (N + 1 + 1) n cells X, 0 ≤ x 0 ∧ x 0 ≤ 1) :
    FlowOn n cells X (fun _ z y => if z = y then 1 else 0) (fun t (x : Fin (N + 1) → ℝ) => t * x 0 ^ 2) (fun _ x => x 0 ^ 2) 0 1 2 2 2 0 0 2 where
  space := fun t ht => axis_space cells X ht.1 ht.2
  time := fun x _ t _ => by simpa using ((hasDerivAt_id t).mul_const (x 0 ^ 2)).hasDerivWithinAt
  velocity := fun x _ s _ t _ => by simp
  spread := fun t _ c hc x hx y hy => axis_spread (hX _ (Set.mem_iUnion₂.2 ⟨c, hc, hx⟩)) (hX _ (Set.mem_iUnion₂.2 ⟨c, hc, hy⟩))

theorem axis_bounded (T : Set (Fin N → ℝ)) : Bounded T (fun _ z y => if z = y then 1 else 0) (fun _ _ => 0) (fun _ => 0) 1 1 0 0 0 where
  elliptic := fun x _ ξ => by
    simp only [ite_mul, one_mul, zero_mul, Finset.sum_ite_eq, Finset.mem_univ, if_true]
    rw [len_sq]
    exact le_of_eq (Finset.sum_congr rfl fun z _ => sq _)
  diffusion := fun x _ ξ => by
    simp only [ite_mul, one_mul, zero_mul, Finset.sum_ite_eq, Finset.mem_univ, if_true]
    exact le_rfl
  transport := fun x _ => by simp [len]
  reaction := fun x _ => by simp

end

/-- The reference tetrahedron. -/
def tetX (p : Nat) (z : Fin 3) : ℝ := if p = z.val + 1 then 1 else 0

theorem tet_box {x : Fin 3 → ℝ} (hx : x ∈ domain 4 1 (fun _ v => v) tetX) : 0 ≤ x 0 ∧ x 0 ≤ 1 := by
  simp only [domain, Set.mem_iUnion₂, Set.mem_ofPred_eq] at hx
  obtain ⟨c, hc, hx⟩ := hx
  have hcv : Convex ℝ {x : Fin 3 → ℝ | 0 ≤ x 0 ∧ x 0 ≤ 1} := by
    intro x hx y hy a b ha hb hab
    simp only [Set.mem_ofPred_eq, Pi.add_apply, Pi.smul_apply, smul_eq_mul] at hx hy ⊢
    constructor <;> nlinarith [mul_nonneg ha hx.1, mul_nonneg hb hy.1]
  refine convexHull_min ?_ hcv hx
  rintro _ ⟨v, hv, rfl⟩
  simp only [Set.mem_ofPred_eq, tetX]
  split_ifs <;> norm_num

theorem tet_proper : Proper 4 1 (fun _ v => v) tetX := by
  intro c hc
  rw [affineIndependent_iff_of_fintype]
  intro w hw h1
  rw [Finset.univ.weightedVSub_eq_weightedVSubOfPoint_of_sum_eq_zero w _ hw 0, Finset.weightedVSubOfPoint_apply] at h1
  have hz : ∀ z : Fin 3, w z.succ = 0 := by
    intro z
    have h2 := congrFun h1 z
    simp only [vsub_eq_sub, sub_zero, Finset.sum_apply, Pi.smul_apply, smul_eq_mul, Pi.zero_apply, Fin.sum_univ_four, tetX] at h2
    fin_cases z <;> simpa using h2
  have h0 : w 0 = 0 := by
    rw [Fin.sum_univ_succ, Finset.sum_eq_zero fun z _ => hz z, add_zero] at hw
    exact hw
  intro i
  refine Fin.cases h0 hz i

theorem tet_good : GoodMesh 4 1 4 (fun _ v => v) tetX where
  nodes := fun _ _ v hv => hv
  used := fun p hp => ⟨0, one_pos, p, hp, rfl⟩
  proper := tet_proper
  conforming := by
    rintro c hc c' hc' x ⟨hx, -⟩
    refine convexHull_mono ?_ hx
    rintro _ ⟨v, hv, rfl⟩
    exact ⟨v, hv, v, hv, rfl, rfl⟩
  distinct := fun c hc c' hc' _ => by omega
  connected := by
    have : domain 4 1 (fun _ v => v) tetX = region 4 (fun _ v => v) tetX 0 := by
      ext p
      simp only [domain, Set.mem_iUnion₂, Set.mem_ofPred_eq]
      constructor
      · rintro ⟨c, hc, h⟩
        rwa [show c = 0 by omega] at h
      · exact fun h => ⟨0, one_pos, h⟩
    rw [this]
    exact (convex_convexHull ℝ _).isPreconnected

theorem tet_mesh_shape : MeshShape 1 (fun _ v => v) tetX (3 / 2) (1 / 2) where
  diam := fun c hc v hv w hw => by
    refine Real.sqrt_le_iff.2 ⟨by norm_num, ?_⟩
    rw [Fin.sum_univ_three]
    interval_cases v <;> interval_cases w <;> norm_num [tetX]
  height := fun c hc v hv x hx => by
    refine Real.le_sqrt_of_sq_le ?_
    rw [Fin.sum_univ_three]
    by_cases h0 : v = 0
    · have h1 : x 0 + x 1 + x 2 = 1 := by
        refine affineSpan_induction (p := fun x : Fin 3 → ℝ => x 0 + x 1 + x 2 = 1) hx ?_ ?_
        · rintro x ⟨w, hw, hne, rfl⟩
          interval_cases w <;> simp_all [tetX]
        · intro a p q s hp hq hs
          simp only [vsub_eq_sub, vadd_eq_add, Pi.add_apply, Pi.smul_apply, Pi.sub_apply, smul_eq_mul]
          linear_combination a * hp - a * hq + hs
      subst h0
      simp [tetX]
      nlinarith [sq_nonneg (x 0 - 1 / 3), sq_nonneg (x 1 - 1 / 3), sq_nonneg (x 2 - 1 / 3)]
    · have h1 : ∀ z : Fin 3, v = z + 1 → x z = 0 := by
        intro z hz
        refine affineSpan_induction (p := fun x : Fin 3 → ℝ => x z = 0) hx ?_ ?_
        · rintro x ⟨w, hw, hne, rfl⟩
          exact if_neg fun e => hne (e.trans hz.symm)
        · intro a p q s hp hq hs
          simp only [vsub_eq_sub, vadd_eq_add, Pi.add_apply, Pi.smul_apply, Pi.sub_apply, smul_eq_mul]
          linear_combination a * hp - a * hq + hs
      have h2 : ∀ z : Fin 3, v = z + 1 → (1 / 2 : ℝ) ^ 2 ≤ (tetX v - x) z ^ 2 := by
        intro z hz
        rw [Pi.sub_apply, h1 z hz, tetX, if_pos hz]
        norm_num
      rcases (by omega : v = 1 ∨ v = 2 ∨ v = 3) with h | h | h
      · have := h2 0 (by rw [h]; rfl)
        nlinarith [sq_nonneg ((tetX v - x) 1), sq_nonneg ((tetX v - x) 2)]
      · have := h2 1 (by rw [h]; rfl)
        nlinarith [sq_nonneg ((tetX v - x) 0), sq_nonneg ((tetX v - x) 2)]
      · have := h2 2 (by rw [h]; rfl)
        nlinarith [sq_nonneg ((tetX v - x) 0), sq_nonneg ((tetX v - x) 1)]

/-- Four intervals: every node is in at most two. -/
theorem line4_valence : Valence 4 2 lineCells 2 := by
  intro p
  by_cases hp : p < 5
  · interval_cases p <;> decide
  · have h4 : ∀ x ∈ Finset.range 4 ×ˢ Finset.range 2, lineCells x.1 x.2 < 5 := by decide
    have h5 : (Finset.range 4 ×ˢ Finset.range 2).filter (fun x => lineCells x.1 x.2 = p) = ∅ :=
      Finset.filter_eq_empty_iff.2 fun x hx e => hp (e ▸ h4 x hx)
    rw [h5, Finset.card_empty]
    exact Nat.zero_le _

theorem line4_box {x : Fin 1 → ℝ} (hx : x ∈ domain 2 4 lineCells (unitX 4)) : 0 ≤ x 0 ∧ x 0 ≤ 1 := by
  rw [unit_domain 4 (by norm_num)] at hx
  exact hx

theorem line4_good : GoodMesh 2 4 5 lineCells (unitX 4) := scale_good (by positivity) (line_good 4 (by norm_num))

theorem line4_nodes {p : Nat} (hp : p < 5) : 0 ≤ unitX 4 p 0 ∧ unitX 4 p 0 ≤ 1 := by
  interval_cases p <;> norm_num [unitX, lineX]

theorem tet_valence : Valence 1 4 (fun _ v => v) 1 := by
  intro p
  by_cases hp : p < 4
  · interval_cases p <;> decide
  · have h4 : ∀ x ∈ Finset.range 1 ×ˢ Finset.range 4, x.2 < 4 := by decide
    have h5 : (Finset.range 1 ×ˢ Finset.range 4).filter (fun x => x.2 = p) = ∅ :=
      Finset.filter_eq_empty_iff.2 fun x hx e => hp (e ▸ h4 x hx)
    rw [h5, Finset.card_empty]
    exact Nat.zero_le _

theorem tet_nodes {p : Nat} (_hp : p < 4) : 0 ≤ tetX p 0 ∧ tetX p 0 ≤ 1 := by
  rw [tetX]
  split_ifs <;> norm_num

/-- -Δu = -2t on four intervals, with the solution t x₀², in binary64 with sums from left to right, and a linear solver with relative error `ε`. -/
example (ε t : ℝ) (hε : 0 ≤ ε) (ht0 : 0 ≤ t) (ht1 : t ≤ 1) : ∃ (lu0 lu : Solver ℝ) (P : Prob ℝ) (w : Nat → ℝ) (W : Nat → Fin 1 → ℝ) (b : Nat → ℝ),
    ExactLU 5 lu0 ∧ (∀ A, lu A = (lu0 A).map fun f b q => (1 + ε) * f b q) ∧ problem1 1 (.neg .lap) lineCells 4 5 (unitX 4) (fun p => p == 0 || p == 4) = .ok P ∧
    ((P.withData (fun c => measure1R binary64 (cellOf 1 lineCells (unitX 4) c)) P.psi fun c i => gradOfR binary64 binary64.sumLeft 1 (inv1AtR binary64 (cellOf 1 lineCells (unitX 4) c))
      (fun i x w => if h : i < 2 then refGrad ℝ 1 1 2 ⟨i, h⟩ x w else 0) i).initR binary64 binary64.sumLeft ⟨4 * size P.t, 1, fun _ _ => -2 * t⟩ (fun _ => 0) >>=
        pdeSolveElliptic lu ⟨5, 1, fun p _ => t * ((unitX 4) p) 0 ^ 2⟩) = .ok (true, some w) ∧ PiecewiseAffine 4 lineCells (unitX 4) w W b := by
  obtain ⟨lu0, lu, h0, h1, h2, h3⟩ := exists_backwardLU 5 hε
  have hb : binary64.b = 9007199254740992 / 9007199254740991 := by
    show (1 - 2⁻¹ ^ 53)⁻¹ = (9007199254740992 / 9007199254740991 : ℝ)
    norm_num
  have hop : StandsFor 1 (.neg .lap) (fun _ z y => if z = y then 1 else 0) (fun _ _ => 0) (fun _ => 0) := by
    intro row u v gu gv
    simp only [form, dot, Finset.sum_range_succ, Finset.sum_range_zero]
    simp
  obtain ⟨P, e, h⟩ := C151_elliptic_intervals_partial (r := binary64) (S := binary64.sumLeft) (fun p => p == 0 || p == 4) line4_good (line_marks 4) (unit_shape 4 (by norm_num))
    (by norm_num) (axis_bounded _) (axis_space _ _ ht0 ht1) (by norm_num) (by norm_num) le_rfl (by norm_num) le_rfl 0 (a := 0) (ℓ := 1)
    (fun x hx => by rw [sub_zero, abs_of_nonneg (line4_box hx).1]; exact (line4_box hx).2) (by norm_num) hop (fun _ => trivial) trivial
    (fun l => binary64.sumLeft_adds l) line4_valence hε lu h1 h2 (by norm_num) rfl (Fm := 2)
    (fun x _ => by
      rw [ellipticForcing, axis_div]
      simp only [Finset.sum_const_zero, zero_mul, add_zero, abs_neg]
      rw [abs_of_nonneg (by positivity)]
      linarith) (by rw [hb]; norm_num) (kb := 0)
    (ps := basisAt 1 1 2) (dps := fun i x w => if h : i < 2 then refGrad ℝ 1 1 2 ⟨i, h⟩ x w else 0)
  have eP : meshProb 1 1 2 rule1_2 (.neg .lap) lineCells 4 (unitX 4) (enumDofs1 lineCells 5 (fun p => p == 0 || p == 4)) = P := Res.ok.inj (show Res.ok _ = Res.ok P from e)
  have hps : P.psi = basisAt 1 1 2 := by rw [← eP]; rfl
  have hsd : sysDepth P (0 + 4) 2 = 24 := by rw [← eP]; rfl
  obtain ⟨w, W, b, r1, r2, -⟩ := h ⟨fun _ _ _ _ z y => by rw [Subsingleton.elim z y]; simp, fun _ _ _ _ _ => rfl, fun _ _ _ _ => rfl⟩
    (fun i k _ => by rw [basisAt, dif_pos i.2]; simp) (fun i k _ w _ => by rw [dif_pos i.2]; simp) 64
    (fun c _ k _ => by simp only [weakAbs, Finset.sum_const, Finset.card_range]; norm_num)
    (by rw [hsd, hb]; norm_num) ⟨4 * size P.t, 1, fun _ _ => -2 * t⟩ le_rfl rfl
    (fun c _ k _ => by rw [ellipticForcing, axis_div]; simp; ring) ⟨5, 1, fun p _ => t * ((unitX 4) p) 0 ^ 2⟩ le_rfl one_pos (fun _ _ _ => rfl) (fun _ => 0)
  rw [← hps] at r1
  exact ⟨lu0, lu, P, w, W, b, h0, h3, e, r1, r2⟩

/-- u' - Δu = x₀² - 2t on four intervals, with the solution t x₀², in four steps in binary64 with sums from left to right, and a linear solver with relative error `ε`. -/
example (ε : ℝ) (hε : 0 ≤ ε) : ∃ (lu0 lu : Solver ℝ) (P : Prob ℝ) (sol : Nat → Nat → ℝ) (W : Nat → Nat → Fin 1 → ℝ) (b : Nat → Nat → ℝ),
    ExactLU 5 lu0 ∧ (∀ A, lu A = (lu0 A).map fun f b q => (1 + ε) * f b q) ∧ problem1 1 (.add .dT (.neg .lap)) lineCells 4 5 (unitX 4) (fun p => p == 0 || p == 4) = .ok P ∧
    ((P.withData (fun c => measure1R binary64 (cellOf 1 lineCells (unitX 4) c)) P.psi fun c i => gradOfR binary64 binary64.sumLeft 1 (inv1AtR binary64 (cellOf 1 lineCells (unitX 4) c))
      (fun i x w => if h : i < 2 then refGrad ℝ 1 1 2 ⟨i, h⟩ x w else 0) i).initR binary64 binary64.sumLeft
        ⟨4 * size P.t, 5, fun q j => (meshPoint lineCells (unitX 4) (q / size P.t) fun w => node ℝ P.t (q % size P.t) w) 0 ^ 2 - 2 * (j * (1 / 4))⟩ (fun _ => 0) >>=
        pdeSolveParabolicR binary64 binary64.sumLeft lu [0, 1 / 4] 5 (fun _ => 0) ⟨5, 5, fun p j => j * (1 / 4) * ((unitX 4) p) 0 ^ 2⟩) = .ok (true, sol) ∧
      ∀ i < 5, PiecewiseAffine 4 lineCells (unitX 4) (sol i) (W i) (b i) := by
  obtain ⟨lu0, lu, h0, h1, h2, h3⟩ := exists_backwardLU 5 hε
  have hb : binary64.b = 9007199254740992 / 9007199254740991 := by
    show (1 - 2⁻¹ ^ 53)⁻¹ = (9007199254740992 / 9007199254740991 : ℝ)
    norm_num
  have hop : StandsFor 1 (.add .dT (.neg .lap)) (fun _ z y => if z = y then 1 else 0) (fun _ _ => 0) (fun _ => 0) := by
    intro row u v gu gv
    simp only [form, dot, Finset.sum_range_succ, Finset.sum_range_zero]
    simp
  have hf : ∀ (t : ℝ) (x : Fin 1 → ℝ), parabolicForcing (fun _ z y => if z = y then 1 else 0) (fun _ _ => 0) (fun _ => 0) (fun t (x : Fin 1 → ℝ) => t * x 0 ^ 2)
      (fun _ x => x 0 ^ 2) t x = x 0 ^ 2 - 2 * t := by
    intro t x
    rw [parabolicForcing, ellipticForcing, axis_div]
    simp
    ring
  obtain ⟨P, e, h⟩ := C152_parabolic_intervals_partial (r := binary64) (S := binary64.sumLeft) (fun p => p == 0 || p == 4) line4_good (line_marks 4) (unit_shape 4 (by norm_num))
    (by norm_num) (t0 := 0) (t1 := 1 / 4) (by norm_num) [] 5 (by norm_num) (axis_bounded _) (by norm_num) (by norm_num) le_rfl
    (u := fun t (x : Fin 1 → ℝ) => t * x 0 ^ 2) (u' := fun _ x => x 0 ^ 2)
    (by rw [show (0 : ℝ) + ((5 - 1 : Nat) : ℝ) * (1 / 4 - 0) = 1 by norm_num]; exact axis_flow _ _ fun x hx => line4_box hx) (by norm_num) (by norm_num) le_rfl le_rfl (by norm_num) 0 (a := 0) (ℓ := 1)
    (fun x hx => by rw [sub_zero, abs_of_nonneg (line4_box hx).1]; exact (line4_box hx).2) (by norm_num) hop rfl (fun _ => ⟨trivial, trivial⟩) ⟨trivial, trivial⟩
    (fun l => binary64.sumLeft_adds l) line4_valence hε lu h1 h2 (by norm_num) rfl (Fm := 3)
    (fun j hj x hx => by
      rw [hf]
      have hj' : (j : ℝ) ≤ 4 := by exact_mod_cast Nat.le_of_lt_succ hj
      have hj0 : (0 : ℝ) ≤ j := Nat.cast_nonneg j
      have hq := line4_box hx
      rw [abs_le]
      constructor <;> nlinarith [sq_nonneg (x 0)]) (by rw [hb]; norm_num) (kb := 0)
    (ps := basisAt 1 1 2) (dps := fun i x w => if h : i < 2 then refGrad ℝ 1 1 2 ⟨i, h⟩ x w else 0)
  have eP : meshProb 1 1 2 rule1_2 (.add .dT (.neg .lap)) lineCells 4 (unitX 4) (enumDofs1 lineCells 5 (fun p => p == 0 || p == 4)) = P := Res.ok.inj (show Res.ok _ = Res.ok P from e)
  have hps : P.psi = basisAt 1 1 2 := by rw [← eP]; rfl
  have hsz : 0 < size P.t := by rw [← eP]; decide
  have hsd : stepDepth P (0 + 4) 2 = 35 := by rw [← eP]; rfl
  obtain ⟨sol, W, b, r1, r2⟩ := h ⟨fun _ _ _ _ z y => by rw [Subsingleton.elim z y]; simp, fun _ _ _ _ _ => rfl, fun _ _ _ _ => rfl⟩
    (fun i k _ => by rw [basisAt, dif_pos i.2]; simp) (fun i k _ w _ => by rw [dif_pos i.2]; simp) 64
    (fun c _ k _ => by simp only [weakAbs, Finset.sum_const, Finset.card_range]; norm_num)
    (by rw [hsd, hb]; norm_num)
    ⟨4 * size P.t, 5, fun q j => (meshPoint lineCells (unitX 4) (q / size P.t) fun w => node ℝ P.t (q % size P.t) w) 0 ^ 2 - 2 * (j * (1 / 4))⟩ le_rfl rfl
    (fun j _ c _ k hk => by
      rw [hf]
      simp only [Nat.mul_add_div hsz, Nat.mul_add_mod, Nat.div_eq_of_lt hk, Nat.mod_eq_of_lt hk, add_zero, sub_zero, zero_add])
    ⟨5, 5, fun p j => j * (1 / 4) * ((unitX 4) p) 0 ^ 2⟩ le_rfl le_rfl (fun j _ p _ _ => by simp) (fun _ => 0)
  rw [← hps] at r1
  simp only [zero_mul] at r1
  exact ⟨lu0, lu, P, sol, W, b, h0, h3, e, r1, fun i hi => (r2 (∑ j ∈ Finset.range 5, ∑ p ∈ Finset.range 5, (|sol j p| + 1)) (fun j hj p hp => by
      refine le_trans ?_ (Finset.single_le_sum (f := fun j => ∑ p ∈ Finset.range 5, (|sol j p| + 1)) (fun j _ => Finset.sum_nonneg fun p _ => by positivity) (Finset.mem_range.2 hj))
      exact (le_add_of_nonneg_right zero_le_one).trans (Finset.single_le_sum (f := fun p => |sol j p| + 1) (fun p _ => by positivity) (Finset.mem_range.2 hp)))
    (fun j hj p hp _ => by
      have hj' : (j : ℝ) ≤ 4 := by exact_mod_cast Nat.le_of_lt_succ hj
      have hj0 : (0 : ℝ) ≤ j := Nat.cast_nonneg j
      have hX := line4_nodes hp
      have h20 : (20 : ℝ) ≤ ∑ j ∈ Finset.range 5, ∑ p ∈ Finset.range 5, (|sol j p| + 1) := by
        have : ∑ j ∈ Finset.range 5, ∑ p ∈ Finset.range 5, (1 : ℝ) ≤ ∑ j ∈ Finset.range 5, ∑ p ∈ Finset.range 5, (|sol j p| + 1) :=
          Finset.sum_le_sum fun j _ => Finset.sum_le_sum fun p _ => le_add_of_nonneg_left (abs_nonneg _)
        refine le_trans ?_ this
        norm_num
      refine le_trans ?_ h20
      have h1 : ((unitX 4) p) 0 ^ 2 ≤ 1 := pow_le_one₀ hX.1 hX.2
      have h4 : (0 + (j : ℝ) * (1 / 4 - 0)) ≤ 1 := by linarith
      have h5 : (0 : ℝ) ≤ 0 + (j : ℝ) * (1 / 4 - 0) := by linarith
      rw [abs_of_nonneg (mul_nonneg h5 (sq_nonneg _))]
      exact (mul_le_one₀ h4 (sq_nonneg _) h1).trans (by norm_num)) _ rfl i hi).1⟩

/-- -Δu = -2t on the reference tetrahedron, with the solution t x₀², in binary64 with sums from left to right, and a linear solver with relative error `ε`. -/
example (ε t : ℝ) (hε : 0 ≤ ε) (ht0 : 0 ≤ t) (ht1 : t ≤ 1) : ∃ (lu0 lu : Solver ℝ) (P : Prob ℝ) (w : Nat → ℝ) (W : Nat → Fin 3 → ℝ) (b : Nat → ℝ),
    ExactLU 4 lu0 ∧ (∀ A, lu A = (lu0 A).map fun f b q => (1 + ε) * f b q) ∧ problem1 3 (.neg .lap) (fun _ v => v) 1 4 tetX (fun _ => true) = .ok P ∧
    ((P.withData (fun c => measure3R binary64 (cellOf 3 (fun _ v => v) tetX c)) P.psi fun c i => gradOfR binary64 binary64.sumLeft 3 (inv3AtR binary64 binary64.sumLeft (cellOf 3 (fun _ v => v) tetX c))
      (fun i x w => if h : i < 4 then refGrad ℝ 3 1 4 ⟨i, h⟩ x w else 0) i).initR binary64 binary64.sumLeft ⟨1 * size P.t, 1, fun _ _ => -2 * t⟩ (fun _ => 0) >>=
        pdeSolveElliptic lu ⟨4, 1, fun p _ => t * (tetX p) 0 ^ 2⟩) = .ok (true, some w) ∧ PiecewiseAffine 1 (fun _ v => v) tetX w W b := by
  obtain ⟨lu0, lu, h0, h1, h2, h3⟩ := exists_backwardLU 4 hε
  have hb : binary64.b = 9007199254740992 / 9007199254740991 := by
    show (1 - 2⁻¹ ^ 53)⁻¹ = (9007199254740992 / 9007199254740991 : ℝ)
    norm_num
  have hop : StandsFor 3 (.neg .lap) (fun _ z y => if z = y then 1 else 0) (fun _ _ => 0) (fun _ => 0) := by
    intro row u v gu gv
    simp only [form, dot, Finset.sum_range_succ, Finset.sum_range_zero]
    simp
  obtain ⟨P, e, h⟩ := C151_elliptic_tetrahedra_partial (r := binary64) (S := binary64.sumLeft) (fun _ => true) tet_good (fun _ _ _ _ _ _ _ _ => rfl) tet_mesh_shape
    (by norm_num) (axis_bounded _) (axis_space _ _ ht0 ht1) (by norm_num) (by norm_num) le_rfl (by norm_num) le_rfl 0 (a := 0) (ℓ := 1)
    (fun x hx => by rw [sub_zero, abs_of_nonneg (tet_box hx).1]; exact (tet_box hx).2) (by norm_num) hop (fun _ => trivial) trivial
    (fun l => binary64.sumLeft_adds l) tet_valence hε lu h1 h2 (by norm_num) rfl (Fm := 2)
    (fun x _ => by
      rw [ellipticForcing, axis_div]
      simp only [Finset.sum_const_zero, zero_mul, add_zero, abs_neg]
      rw [abs_of_nonneg (by positivity)]
      linarith) (by rw [hb]; norm_num) (kb := 0)
    (ps := basisAt 3 1 4) (dps := fun i x w => if h : i < 4 then refGrad ℝ 3 1 4 ⟨i, h⟩ x w else 0)
  have eP : meshProb 3 1 4 rule3_4 (.neg .lap) (fun _ v => v) 1 tetX (enumDofs1 (fun _ v => v) 4 (fun _ => true)) = P := Res.ok.inj (show Res.ok _ = Res.ok P from e)
  have hps : P.psi = basisAt 3 1 4 := by rw [← eP]; rfl
  have hsd : sysDepth P (0 + 19) 1 = 73 := by rw [← eP]; rfl
  obtain ⟨w, W, b, r1, r2, -⟩ := h ⟨fun _ _ _ _ z y => by simp [Fin.ext_iff], fun _ _ _ _ _ => rfl, fun _ _ _ _ => rfl⟩
    (fun i k _ => by rw [basisAt, dif_pos i.2]; simp) (fun i k _ w _ => by rw [dif_pos i.2]; simp) 105000000
    (fun c _ k _ => by simp only [weakAbs, Finset.sum_const, Finset.card_range]; norm_num)
    (by rw [hsd, hb]; norm_num) ⟨1 * size P.t, 1, fun _ _ => -2 * t⟩ le_rfl rfl
    (fun c _ k _ => by rw [ellipticForcing, axis_div]; simp; ring) ⟨4, 1, fun p _ => t * (tetX p) 0 ^ 2⟩ le_rfl one_pos (fun _ _ _ => rfl) (fun _ => 0)
  rw [← hps] at r1
  exact ⟨lu0, lu, P, w, W, b, h0, h3, e, r1, r2⟩

/-- u' - Δu = x₀² - 2t on the reference tetrahedron, with the solution t x₀², in four steps in binary64 with sums from left to right, and a linear solver with relative error `ε`. -/
example (ε : ℝ) (hε : 0 ≤ ε) : ∃ (lu0 lu : Solver ℝ) (P : Prob ℝ) (sol : Nat → Nat → ℝ) (W : Nat → Nat → Fin 3 → ℝ) (b : Nat → Nat → ℝ),
    ExactLU 4 lu0 ∧ (∀ A, lu A = (lu0 A).map fun f b q => (1 + ε) * f b q) ∧ problem1 3 (.add .dT (.neg .lap)) (fun _ v => v) 1 4 tetX (fun _ => true) = .ok P ∧
    ((P.withData (fun c => measure3R binary64 (cellOf 3 (fun _ v => v) tetX c)) P.psi fun c i => gradOfR binary64 binary64.sumLeft 3 (inv3AtR binary64 binary64.sumLeft (cellOf 3 (fun _ v => v) tetX c))
      (fun i x w => if h : i < 4 then refGrad ℝ 3 1 4 ⟨i, h⟩ x w else 0) i).initR binary64 binary64.sumLeft
        ⟨1 * size P.t, 5, fun q j => (meshPoint (fun _ v => v) tetX (q / size P.t) fun w => node ℝ P.t (q % size P.t) w) 0 ^ 2 - 2 * (j * (1 / 4))⟩ (fun _ => 0) >>=
        pdeSolveParabolicR binary64 binary64.sumLeft lu [0, 1 / 4] 5 (fun _ => 0) ⟨4, 5, fun p j => j * (1 / 4) * (tetX p) 0 ^ 2⟩) = .ok (true, sol) ∧
      ∀ i < 5, PiecewiseAffine 1 (fun _ v => v) tetX (sol i) (W i) (b i) := by
  obtain ⟨lu0, lu, h0, h1, h2, h3⟩ := exists_backwardLU 4 hε
  have hb : binary64.b = 9007199254740992 / 9007199254740991 := by
    show (1 - 2⁻¹ ^ 53)⁻¹ = (9007199254740992 / 9007199254740991 : ℝ)
    norm_num
  have hop : StandsFor 3 (.add .dT (.neg .lap)) (fun _ z y => if z = y then 1 else 0) (fun _ _ => 0) (fun _ => 0) := by
    intro row u v gu gv
    simp only [form, dot, Finset.sum_range_succ, Finset.sum_range_zero]
    simp
  have hf : ∀ (t : ℝ) (x : Fin 3 → ℝ), parabolicForcing (fun _ z y => if z = y then 1 else 0) (fun _ _ => 0) (fun _ => 0) (fun t (x : Fin 3 → ℝ) => t * x 0 ^ 2)
      (fun _ x => x 0 ^ 2) t x = x 0 ^ 2 - 2 * t := by
    intro t x
    rw [parabolicForcing, ellipticForcing, axis_div]
    simp
    ring
  obtain ⟨P, e, h⟩ := C152_parabolic_tetrahedra_partial (r := binary64) (S := binary64.sumLeft) (fun _ => true) tet_good (fun _ _ _ _ _ _ _ _ => rfl) tet_mesh_shape
    (by norm_num) (t0 := 0) (t1 := 1 / 4) (by norm_num) [] 5 (by norm_num) (axis_bounded _) (by norm_num) (by norm_num) le_rfl
    (u := fun t (x : Fin 3 → ℝ) => t * x 0 ^ 2) (u' := fun _ x => x 0 ^ 2)
    (by rw [show (0 : ℝ) + ((5 - 1 : Nat) : ℝ) * (1 / 4 - 0) = 1 by norm_num]; exact axis_flow _ _ fun x hx => tet_box hx) (by norm_num) (by norm_num) le_rfl le_rfl (by norm_num) 0 (a := 0) (ℓ := 1)
    (fun x hx => by rw [sub_zero, abs_of_nonneg (tet_box hx).1]; exact (tet_box hx).2) (by norm_num) hop rfl (fun _ => ⟨trivial, trivial⟩) ⟨trivial, trivial⟩
    (fun l => binary64.sumLeft_adds l) tet_valence hε lu h1 h2 (by norm_num) rfl (Fm := 3)
    (fun j hj x hx => by
      rw [hf]
      have hj' : (j : ℝ) ≤ 4 := by exact_mod_cast Nat.le_of_lt_succ hj
      have hj0 : (0 : ℝ) ≤ j := Nat.cast_nonneg j
      have hq := tet_box hx
      rw [abs_le]
      constructor <;> nlinarith [sq_nonneg (x 0)]) (by rw [hb]; norm_num) (kb := 0)
    (ps := basisAt 3 1 4) (dps := fun i x w => if h : i < 4 then refGrad ℝ 3 1 4 ⟨i, h⟩ x w else 0)
  have eP : meshProb 3 1 4 rule3_4 (.add .dT (.neg .lap)) (fun _ v => v) 1 tetX (enumDofs1 (fun _ v => v) 4 (fun _ => true)) = P := Res.ok.inj (show Res.ok _ = Res.ok P from e)
  have hps : P.psi = basisAt 3 1 4 := by rw [← eP]; rfl
  have hsz : 0 < size P.t := by rw [← eP]; decide
  have hsd : stepDepth P (0 + 19) 1 = 84 := by rw [← eP]; rfl
  obtain ⟨sol, W, b, r1, r2⟩ := h ⟨fun _ _ _ _ z y => by simp [Fin.ext_iff], fun _ _ _ _ _ => rfl, fun _ _ _ _ => rfl⟩
    (fun i k _ => by rw [basisAt, dif_pos i.2]; simp) (fun i k _ w _ => by rw [dif_pos i.2]; simp) 105000000
    (fun c _ k _ => by simp only [weakAbs, Finset.sum_const, Finset.card_range]; norm_num)
    (by rw [hsd, hb]; norm_num)
    ⟨1 * size P.t, 5, fun q j => (meshPoint (fun _ v => v) tetX (q / size P.t) fun w => node ℝ P.t (q % size P.t) w) 0 ^ 2 - 2 * (j * (1 / 4))⟩ le_rfl rfl
    (fun j _ c _ k hk => by
      rw [hf]
      simp only [Nat.mul_add_div hsz, Nat.mul_add_mod, Nat.div_eq_of_lt hk, Nat.mod_eq_of_lt hk, add_zero, sub_zero, zero_add])
    ⟨4, 5, fun p j => j * (1 / 4) * (tetX p) 0 ^ 2⟩ le_rfl le_rfl (fun j _ p _ _ => by simp) (fun _ => 0)
  rw [← hps] at r1
  simp only [zero_mul] at r1
  exact ⟨lu0, lu, P, sol, W, b, h0, h3, e, r1, fun i hi => (r2 (∑ j ∈ Finset.range 5, ∑ p ∈ Finset.range 4, (|sol j p| + 1)) (fun j hj p hp => by
      refine le_trans ?_ (Finset.single_le_sum (f := fun j => ∑ p ∈ Finset.range 4, (|sol j p| + 1)) (fun j _ => Finset.sum_nonneg fun p _ => by positivity) (Finset.mem_range.2 hj))
      exact (le_add_of_nonneg_right zero_le_one).trans (Finset.single_le_sum (f := fun p => |sol j p| + 1) (fun p _ => by positivity) (Finset.mem_range.2 hp)))
    (fun j hj p hp _ => by
      have hj' : (j : ℝ) ≤ 4 := by exact_mod_cast Nat.le_of_lt_succ hj
      have hj0 : (0 : ℝ) ≤ j := Nat.cast_nonneg j
      have hX := tet_nodes hp
      have h20 : (20 : ℝ) ≤ ∑ j ∈ Finset.range 5, ∑ p ∈ Finset.range 4, (|sol j p| + 1) := by
        have : ∑ j ∈ Finset.range 5, ∑ p ∈ Finset.range 4, (1 : ℝ) ≤ ∑ j ∈ Finset.range 5, ∑ p ∈ Finset.range 4, (|sol j p| + 1) :=
          Finset.sum_le_sum fun j _ => Finset.sum_le_sum fun p _ => le_add_of_nonneg_left (abs_nonneg _)
        refine le_trans ?_ this
        norm_num
      refine le_trans ?_ h20
      have h1 : (tetX p) 0 ^ 2 ≤ 1 := pow_le_one₀ hX.1 hX.2
      have h4 : (0 + (j : ℝ) * (1 / 4 - 0)) ≤ 1 := by linarith
      have h5 : (0 : ℝ) ≤ 0 + (j : ℝ) * (1 / 4 - 0) := by linarith
      rw [abs_of_nonneg (mul_nonneg h5 (sq_nonneg _))]
      exact (mul_le_one₀ h4 (sq_nonneg _) h1).trans (by norm_num)) _ rfl i hi).1⟩

end
end Fdapde.PDE
