import Verif.PDE.PropsRoundedTime
import Verif.PDE.PropsRoundedCells
/-
C152: the time stepping in floating point on planar triangles, from their coordinates on, with an example in binary64.
-/
namespace Fdapde.PDE
open Fdapde.Quadrature Matrix Fdapde.Geometry Fdapde.FEM Fdapde.Fp Fdapde.Triang
open MeasureTheory
noncomputable section
variable {r : Rounding} {S : List ℝ → ℝ}

/-- **C152**: the time stepping in floating point on planar triangles, with measures and gradients of the cells computed from the coordinates of the vertices in the
same arithmetic.
Partial: dof 0 on the boundary, see `C62_bug_dof_zero`. -/
theorem C152_parabolic_triangles_partial {n nNodes : Nat} {cells : Nat → Nat → Nat} {X : Nat → Fin 2 → ℝ} (bNodes : Nat → Bool)
    (h : GoodMesh 3 n nNodes cells X) (hb : MarksBoundary 3 n cells bNodes) {hh ρ : ℝ} (hs : MeshShape n cells X hh ρ) (hρ : 0 < ρ)
    {t0 t1 : ℝ} (ht : t0 < t1) (ts : List ℝ) (cols : Nat) (hcols : 0 < cols)
    {A : (Fin 2 → ℝ) → Fin 2 → Fin 2 → ℝ} {β : (Fin 2 → ℝ) → Fin 2 → ℝ} {rc : (Fin 2 → ℝ) → ℝ} {α Λ bm γ cm : ℝ}
    (hco : Bounded (domain 3 n cells X) A β rc α Λ bm γ cm) (hα : 0 < α) (hΛ : 0 ≤ Λ) (hγ : 0 ≤ γ)
    {u u' : ℝ → (Fin 2 → ℝ) → ℝ} {M F B L K L' : ℝ} (hu : FlowOn n cells X A u u' t0 (t0 + (cols - 1 : Nat) * (t1 - t0)) M F B L K L')
    (hM : 0 ≤ M) (hF : 0 ≤ F) (hL : 0 ≤ L) (hK : 0 ≤ K) (hL' : 0 ≤ L')
    (z : Fin 2) {a ℓ : ℝ} (hl : ∀ x ∈ domain 3 n cells X, |x z - a| ≤ ℓ) (hstep : (bm ^ 2 / (2 * α) + γ) * (t1 - t0) ≤ 1 / 2)
    {op : Op ℝ} {Dr : Nat → Nat → Nat → ℝ} {br : Nat → Nat → ℝ} {cr : Nat → ℝ} (hop : StandsFor 2 op Dr br cr) (hpar : hasDT op = true)
    (hsy : FlagRight 2 op) (hns : NoScalar op) (hS : r.Summation S) {v : Nat} (hv : Valence n 3 cells v)
    {ε : ℝ} (hε : 0 ≤ ε) (lu : Solver ℝ) (hlu : BackwardLU nNodes ε lu) (hlc : CompleteLU nNodes lu) (hm : 0 < nNodes) (h0 : bNodes 0 = true)
    {Fm : ℝ} (hFm : ∀ j < cols, ∀ x ∈ domain 3 n cells X, |parabolicForcing A β rc u u' (t0 + j * (t1 - t0)) x| ≤ Fm) (hsm : (r.b ^ 4 - 1) * (hh / ρ) ≤ 1 / 2)
    {kb : Nat} {ps : Nat → (Nat → ℝ) → ℝ} {dps : Nat → (Nat → ℝ) → Nat → ℝ} :
    ∃ P, problem1 2 op cells n nNodes X bNodes = .ok P ∧ (Sampled n cells X P.t A β rc Dr br cr →
      (∀ i : Fin 3, ∀ k < size P.t, |ps i (node ℝ P.t k) - refBasis ℝ 2 1 3 i (node ℝ P.t k)| ≤ r.b ^ kb - 1) →
      (∀ i : Fin 3, ∀ k < size P.t, ∀ w < 2, |dps i (node ℝ P.t k) w - refGrad ℝ 2 1 3 i (node ℝ P.t k) w| ≤ r.b ^ kb - 1) →
      ∀ κ, (∀ c < n, ∀ k < size P.t, weakAbs 2 op (size P.t * c + k) 1 1 (fun _ => 4 * hh / ρ ^ 2) (fun _ => 4 * hh / ρ ^ 2) ≤ κ) →
      (r.b ^ stepDepth P (kb + 10) v - 1) * (hh / ρ * (κ + 1 / (t1 - t0))) * (3 * (2 * ℓ + hh)) ^ 2 < α / 2 →
      ∀ (data : Dense ℝ), n * size P.t ≤ data.rows → data.cols = cols →
      (∀ j < cols, ∀ c < n, ∀ k < size P.t, data.at' (size P.t * c + k) j =
        parabolicForcing A β rc u u' (t0 + j * (t1 - t0)) (meshPoint cells X c fun w => node ℝ P.t k w)) →
      ∀ g : Dense ℝ, nNodes ≤ g.rows → cols ≤ g.cols → (∀ j < cols, ∀ p < nNodes, bNodes p = true → g.at' p j = u (t0 + j * (t1 - t0)) (X p)) →
      ∀ junk, ∃ (sol : Nat → Nat → ℝ) (W : Nat → Nat → Fin 2 → ℝ) (b : Nat → Nat → ℝ),
          ((P.withData (fun c => measureR r (cellOf 2 cells X c)) ps fun c i => gradAtR r S (cellOf 2 cells X c) dps i).initR r S data junk >>= pdeSolveParabolicR r S lu (t0 :: t1 :: ts) cols (fun p => u t0 (X p)) g) = .ok (true, sol) ∧
        ∀ Wm, (∀ j < cols, ∀ p < nNodes, |sol j p| ≤ Wm) → (∀ j < cols, ∀ p < nNodes, bNodes p = true → |u (t0 + j * (t1 - t0)) (X p)| ≤ Wm) →
        ∀ Q, Q = stepGain 2 hh ρ (2 * ℓ) Λ bm cm (2 * ε * Wm) (t1 - t0) (stepError 2 ρ Λ bm cm ε (r.b ^ stepDepth P (kb + 10) v - 1) (hh / ρ) κ Wm Fm (t1 - t0)) →
        ∀ i < cols, PiecewiseAffine n cells X (sol i) (W i) (b i) ∧
          valueError n cells X (u (t0 + i * (t1 - t0))) (W i) (b i) ≤ (2 * (2 * (M / 2 * hh ^ 2) ^ 2 +
            50 * flowBound (bm ^ 2 / (2 * α) + γ) α (i * (t1 - t0)) (K * (t1 - t0) + L' * hh) (ellipticConst 2 hh ρ ℓ Λ bm cm M F B L) ^ 2) +
              (16 * (ε * Wm) ^ 2 + 100 * flowBound (bm ^ 2 / (2 * α) + γ) α (i * (t1 - t0)) 0 Q ^ 2)) *
              (volume (domain 3 n cells X)).toReal ∧
          ∑ j ∈ Finset.range i, (t1 - t0) * gradError n cells X (u (t0 + (j + 1 : Nat) * (t1 - t0))) (W (j + 1)) ≤
            i * (t1 - t0) * (2 * (2 * (3 * M * hh ^ 2 / (2 * ρ)) ^ 2 + 16 / α * ((bm ^ 2 / (2 * α) + γ) *
              flowBound (bm ^ 2 / (2 * α) + γ) α (i * (t1 - t0)) (K * (t1 - t0) + L' * hh) (ellipticConst 2 hh ρ ℓ Λ bm cm M F B L) ^ 2 +
              (K * (t1 - t0) + L' * hh) * flowBound (bm ^ 2 / (2 * α) + γ) α (i * (t1 - t0)) (K * (t1 - t0) + L' * hh) (ellipticConst 2 hh ρ ℓ Λ bm cm M F B L) +
              ellipticConst 2 hh ρ ℓ Λ bm cm M F B L ^ 2 / α)) + (16 * (3 / ρ * (ε * Wm)) ^ 2 + 32 / α * ((bm ^ 2 / (2 * α) + γ) *
              flowBound (bm ^ 2 / (2 * α) + γ) α (i * (t1 - t0)) 0 Q ^ 2 +
              Q ^ 2 / α))) * (volume (domain 3 n cells X)).toReal) := by
  obtain ⟨P, e, hP⟩ := C152_parabolic_partial (N := 2) (by decide) bNodes h hb hs hρ ht ts cols hcols hco hα hΛ hγ hu hM hF hL hK hL' z hl hstep hop hpar hsy hns hS hv
    hε lu hlu hlc hm h0 hFm
  obtain ⟨P', e', hP'⟩ := C151_triangles (r := r) (S := S) (nNodes := nNodes) op bNodes h.proper hs hρ hsm hS (kb := kb) (ps := ps) (dps := dps)
  obtain rfl : P = P' := Res.ok.inj (e.symm.trans e')
  refine ⟨P, e, fun hsa h1 h2 κ hκ hsmall data hr hc hf g hg hgc hgb junk => ?_⟩
  have n3 : ((2 : Nat) : ℝ) + 1 = 3 := by norm_num
  obtain ⟨sol, W, b, r1, r2⟩ := hP hsa _ _ _ _ _ _ (hP' h1 h2) κ hκ (by rw [n3]; exact hsmall) data hr hc hf g hg hgc hgb junk
  refine ⟨sol, W, b, r1, fun Wm hW hg Q hQ i hi => ?_⟩
  have := r2 Wm hW hg Q hQ i hi
  rw [n3] at this
  exact this

/-! ### Example: two triangles, four steps, binary64, sums from left to right -/

theorem tsquare2_first (t : ℝ) (z : Fin 2) : pderiv (fun x : Vec 2 => t * x 0 ^ 2) z = fun x => t * if z = 0 then 2 * x 0 else 0 := by
  funext x
  have h : HasFDerivAt (fun x : Vec 2 => t * x 0 ^ 2) (t • ((2 * x 0 ^ (2 - 1)) • ContinuousLinearMap.proj (R := ℝ) (φ := fun _ : Fin 2 => ℝ) 0)) x := by
    have := (ContinuousLinearMap.proj (R := ℝ) (φ := fun _ : Fin 2 => ℝ) 0).hasFDerivAt (x := x)
    have h2 := this.pow 2
    simpa using h2.const_mul t
  rw [pderiv, h.fderiv]
  fin_cases z <;> simp

theorem tsquare2_flux (t : ℝ) (z : Fin 2) :
    flux (fun _ z y => if z = y then (1 : ℝ) else 0) (fun x : Vec 2 => t * x 0 ^ 2) z = fun x => t * if z = 0 then 2 * x 0 else 0 := by
  funext x
  simp only [flux, ite_mul, one_mul, zero_mul, Finset.sum_ite_eq, Finset.mem_univ, if_true, tsquare2_first]

theorem tsquare2_div (t : ℝ) (x : Vec 2) : divFlux (fun _ z y => if z = y then (1 : ℝ) else 0) (fun x : Vec 2 => t * x 0 ^ 2) x = t * 2 := by
  rw [divFlux, Fin.sum_univ_two, tsquare2_flux, tsquare2_flux]
  have h : HasFDerivAt (fun x : Vec 2 => t * (2 * x 0)) (t • ((2 : ℝ) • ContinuousLinearMap.proj (R := ℝ) (φ := fun _ : Fin 2 => ℝ) 0)) x :=
    (((ContinuousLinearMap.proj (R := ℝ) (φ := fun _ : Fin 2 => ℝ) 0).hasFDerivAt (x := x)).const_mul 2).const_mul t
  simp only [if_true, Fin.isValue, one_ne_zero, if_false]
  rw [pderiv, h.fderiv, pderiv]
  simp

theorem tsquare2_gap {t : ℝ} (h0 : 0 ≤ t) (h1 : t ≤ 1) (x y : Vec 2) :
    len (fun z : Fin 2 => (t * if z = 0 then 2 * y 0 else 0) - t * if z = 0 then 2 * x 0 else 0) ≤ 2 * len (y - x) := by
  have : (fun z : Fin 2 => (t * if z = 0 then 2 * y 0 else 0) - t * if z = 0 then 2 * x 0 else 0) =
      t • (fun z : Fin 2 => (if z = 0 then 2 * y 0 else 0) - if z = 0 then 2 * x 0 else 0) := by
    funext z; simp only [Pi.smul_apply, smul_eq_mul]; ring
  rw [this, len_smul, abs_of_nonneg h0]
  exact (mul_le_of_le_one_left (Real.sqrt_nonneg _) h1).trans (square2_gap x y)

theorem tsquare2_space {t : ℝ} (h0 : 0 ≤ t) (h1 : t ≤ 1) :
    FluxOn 2 demo2 FEM.squareX (fun _ z y => if z = y then 1 else 0) (fun x : Vec 2 => t * x 0 ^ 2) 2 2 2 0 where
  smooth := ⟨Set.univ, isOpen_univ, Set.subset_univ _, ContDiff.contDiffOn (by fun_prop), fun z => by
    rw [tsquare2_flux]
    by_cases hz : z = 0
    · simp only [hz, if_true]; exact ContDiff.contDiffOn (by fun_prop)
    · simp only [hz, if_false]; exact contDiffOn_const⟩
  gradient := fun c _ x _ y _ => by simp only [tsquare2_first]; exact tsquare2_gap h0 h1 x y
  flux := fun c _ x _ y _ => by simp only [tsquare2_flux]; exact tsquare2_gap h0 h1 x y
  bound := fun x _ => by rw [tsquare2_div, abs_of_nonneg (by positivity)]; linarith
  lipschitz := fun c _ x _ y _ => by rw [tsquare2_div, tsquare2_div]; simp

theorem tsquare2_spread {x y : Vec 2} (hx : 0 ≤ x 0 ∧ x 0 ≤ 1) (hy : 0 ≤ y 0 ∧ y 0 ≤ 1) : |y 0 ^ 2 - x 0 ^ 2| ≤ 2 * len (y - x) := by
  have h1 : |y 0 - x 0| ≤ len (y - x) := by
    rw [← Real.sqrt_sq_eq_abs]
    refine Real.sqrt_le_sqrt ?_
    rw [Fin.sum_univ_two]
    simp only [Pi.sub_apply]
    nlinarith [sq_nonneg (y 1 - x 1)]
  rw [show y 0 ^ 2 - x 0 ^ 2 = (y 0 + x 0) * (y 0 - x 0) by ring, abs_mul, abs_of_nonneg (add_nonneg hy.1 hx.1)]
  exact mul_le_mul (by linarith [hx.2, hy.2]) h1 (abs_nonneg _) (by norm_num)

theorem tsquare2_flow : FlowOn 2 demo2 FEM.squareX (fun _ z y => if z = y then 1 else 0) (fun t (x : Vec 2) => t * x 0 ^ 2) (fun _ x => x 0 ^ 2) 0 1 2 2 2 0 0 2 where
  space := fun t ht => tsquare2_space ht.1 ht.2
  time := fun x _ t _ => by simpa using ((hasDerivAt_id t).mul_const (x 0 ^ 2)).hasDerivWithinAt
  velocity := fun x _ s _ t _ => by simp
  spread := fun t _ c hc x hx y hy => tsquare2_spread (square_box (Set.mem_iUnion₂.2 ⟨c, hc, hx⟩)) (square_box (Set.mem_iUnion₂.2 ⟨c, hc, hy⟩))

/-- u' - Δu = x₀² - 2t on the square, with the solution t x₀², in four steps in binary64 with sums from left to right, and a linear solver with relative error `ε`. -/
example (ε : ℝ) (hε : 0 ≤ ε) : ∃ (lu0 lu : Solver ℝ) (P : Prob ℝ) (sol : Nat → Nat → ℝ) (W : Nat → Nat → Fin 2 → ℝ) (b : Nat → Nat → ℝ),
    ExactLU 4 lu0 ∧ (∀ A, lu A = (lu0 A).map fun f b q => (1 + ε) * f b q) ∧ problem1 2 (.add .dT (.neg .lap)) demo2 2 4 FEM.squareX (fun _ => true) = .ok P ∧
    ((P.withData (fun c => measureR binary64 (cellOf 2 demo2 FEM.squareX c)) P.psi fun c i => gradAtR binary64 binary64.sumLeft (cellOf 2 demo2 FEM.squareX c)
      (fun i x w => if h : i < 3 then refGrad ℝ 2 1 3 ⟨i, h⟩ x w else 0) i).initR binary64 binary64.sumLeft
        ⟨2 * size P.t, 5, fun q j => (meshPoint demo2 FEM.squareX (q / size P.t) fun w => node ℝ P.t (q % size P.t) w) 0 ^ 2 - 2 * (j * (1 / 4))⟩ (fun _ => 0) >>=
        pdeSolveParabolicR binary64 binary64.sumLeft lu [0, 1 / 4] 5 (fun _ => 0) ⟨4, 5, fun p j => j * (1 / 4) * (FEM.squareX p) 0 ^ 2⟩) = .ok (true, sol) ∧
      ∀ i < 5, PiecewiseAffine 2 demo2 FEM.squareX (sol i) (W i) (b i) := by
  obtain ⟨lu0, lu, h0, h1, h2, h3⟩ := exists_backwardLU 4 hε
  have hb : binary64.b = 9007199254740992 / 9007199254740991 := by
    show (1 - 2⁻¹ ^ 53)⁻¹ = (9007199254740992 / 9007199254740991 : ℝ)
    norm_num
  have hop : StandsFor 2 (.add .dT (.neg .lap)) (fun _ z y => if z = y then 1 else 0) (fun _ _ => 0) (fun _ => 0) := by
    intro row u v gu gv
    simp only [form, dot, Finset.sum_range_succ, Finset.sum_range_zero]
    simp
  have hv : Valence 2 3 demo2 2 := by
    intro p
    by_cases hp : p < 4
    · interval_cases p <;> decide
    · have h4 : ∀ x ∈ Finset.range 2 ×ˢ Finset.range 3, demo2 x.1 x.2 < 4 := by decide
      have h5 : (Finset.range 2 ×ˢ Finset.range 3).filter (fun x => demo2 x.1 x.2 = p) = ∅ :=
        Finset.filter_eq_empty_iff.2 fun x hx e => hp (e ▸ h4 x hx)
      rw [h5, Finset.card_empty]
      exact Nat.zero_le _
  have hf : ∀ (t : ℝ) (x : Vec 2), parabolicForcing (fun _ z y => if z = y then 1 else 0) (fun _ _ => 0) (fun _ => 0) (fun t (x : Vec 2) => t * x 0 ^ 2)
      (fun _ x => x 0 ^ 2) t x = x 0 ^ 2 - 2 * t := by
    intro t x
    rw [parabolicForcing, ellipticForcing, tsquare2_div]
    simp
    ring
  obtain ⟨P, e, h⟩ := C152_parabolic_triangles_partial (r := binary64) (S := binary64.sumLeft) (fun _ => true) square_good (fun _ _ _ _ _ _ _ _ => rfl) square_shape
    (by norm_num) (t0 := 0) (t1 := 1 / 4) (by norm_num) [] 5 (by norm_num) (square2_bounded _) (by norm_num) (by norm_num) le_rfl
    (u := fun t (x : Vec 2) => t * x 0 ^ 2) (u' := fun _ x => x 0 ^ 2)
    (by rw [show (0 : ℝ) + ((5 - 1 : Nat) : ℝ) * (1 / 4 - 0) = 1 by norm_num]; exact tsquare2_flow) (by norm_num) (by norm_num) le_rfl le_rfl (by norm_num) 0 (a := 0) (ℓ := 1)
    (fun x hx => by rw [sub_zero, abs_of_nonneg (square_box hx).1]; exact (square_box hx).2) (by norm_num) hop rfl (fun _ => ⟨trivial, trivial⟩) ⟨trivial, trivial⟩
    (fun l => binary64.sumLeft_adds l) hv hε lu h1 h2 (by norm_num) rfl (Fm := 3)
    (fun j hj x hx => by
      rw [hf]
      have hj' : (j : ℝ) ≤ 4 := by exact_mod_cast Nat.le_of_lt_succ hj
      have hj0 : (0 : ℝ) ≤ j := Nat.cast_nonneg j
      have hq := square_box hx
      rw [abs_le]
      constructor <;> nlinarith [sq_nonneg (x 0)]) (by rw [hb]; norm_num) (kb := 0)
    (ps := basisAt 2 1 3) (dps := fun i x w => if h : i < 3 then refGrad ℝ 2 1 3 ⟨i, h⟩ x w else 0)
  have eP : meshProb 2 1 3 rule2_3 (.add .dT (.neg .lap)) demo2 2 FEM.squareX (enumDofs1 demo2 4 fun _ => true) = P := Res.ok.inj (show Res.ok _ = Res.ok P from e)
  have hps : P.psi = basisAt 2 1 3 := by rw [← eP]; rfl
  have hsz : 0 < size P.t := by rw [← eP]; decide
  have hsd : stepDepth P (0 + 10) 2 = 59 := by rw [← eP]; rfl
  obtain ⟨sol, W, b, r1, r2⟩ := h ⟨fun _ _ _ _ _ _ => by simp [Fin.ext_iff], fun _ _ _ _ _ => rfl, fun _ _ _ _ => rfl⟩
    (fun i k _ => by rw [basisAt, dif_pos i.2]; simp) (fun i k _ w _ => by simp) 4096
    (fun c _ k _ => by simp only [weakAbs, Finset.sum_const, Finset.card_range]; norm_num)
    (by rw [hsd, hb]; norm_num)
    ⟨2 * size P.t, 5, fun q j => (meshPoint demo2 FEM.squareX (q / size P.t) fun w => node ℝ P.t (q % size P.t) w) 0 ^ 2 - 2 * (j * (1 / 4))⟩ le_rfl rfl
    (fun j _ c _ k hk => by
      rw [hf]
      simp only [Nat.mul_add_div hsz, Nat.mul_add_mod, Nat.div_eq_of_lt hk, Nat.mod_eq_of_lt hk, add_zero, sub_zero, zero_add])
    ⟨4, 5, fun p j => j * (1 / 4) * (FEM.squareX p) 0 ^ 2⟩ le_rfl le_rfl (fun j _ p _ _ => by simp) (fun _ => 0)
  rw [← hps] at r1
  simp only [zero_mul] at r1
  exact ⟨lu0, lu, P, sol, W, b, h0, h3, e, r1, fun i hi => (r2 (∑ j ∈ Finset.range 5, ∑ p ∈ Finset.range 4, (|sol j p| + 1)) (fun j hj p hp => by
      refine le_trans ?_ (Finset.single_le_sum (f := fun j => ∑ p ∈ Finset.range 4, (|sol j p| + 1)) (fun j _ => Finset.sum_nonneg fun p _ => by positivity) (Finset.mem_range.2 hj))
      exact (le_add_of_nonneg_right zero_le_one).trans (Finset.single_le_sum (f := fun p => |sol j p| + 1) (fun p _ => by positivity) (Finset.mem_range.2 hp)))
    (fun j hj p hp _ => by
      have hj' : (j : ℝ) ≤ 4 := by exact_mod_cast Nat.le_of_lt_succ hj
      have hj0 : (0 : ℝ) ≤ j := Nat.cast_nonneg j
      have hX : (FEM.squareX p) 0 = 0 ∨ (FEM.squareX p) 0 = 1 := by interval_cases p <;> first | exact Or.inl rfl | exact Or.inr rfl
      have h20 : (20 : ℝ) ≤ ∑ j ∈ Finset.range 5, ∑ p ∈ Finset.range 4, (|sol j p| + 1) := by
        have : ∑ j ∈ Finset.range 5, ∑ p ∈ Finset.range 4, (1 : ℝ) ≤ ∑ j ∈ Finset.range 5, ∑ p ∈ Finset.range 4, (|sol j p| + 1) :=
          Finset.sum_le_sum fun j _ => Finset.sum_le_sum fun p _ => le_add_of_nonneg_left (abs_nonneg _)
        simpa using this.trans' (by norm_num : (20 : ℝ) ≤ _)
      refine le_trans ?_ h20
      rcases hX with hX | hX <;> rw [hX]
      · norm_num
      · rw [abs_of_nonneg (by norm_num)]
        linarith) _ rfl i hi).1⟩

end
end Fdapde.PDE
