import Verif.PDE.LemmasNear
/- C168 : regression with covariates, solved with factorizations in floating point. -/
set_option linter.unusedSectionVars false
namespace Fdapde.PDE
open Finset FEM LinAlg

variable {P : Prob ℝ} {data : Dense ℝ} {ids : List Int} {psi : Nat → Nat → Nat → ℝ} {l : List (Trip ℝ)} {q : Nat} {X : Nat → Nat → ℝ}

/-- Right-hand side of the system. -/
noncomputable def semiRhs (m L : Nat) (A X : Nat → Nat → ℝ) (lam : ℝ) (y : Nat → ℝ) (c : Fin q → ℝ) (force : Nat → ℝ) : Matrix (Fin (m + m)) (Fin 1) ℝ :=
  Matrix.of fun p _ => if (p : Nat) < m then -∑ j ∈ range L, A j p * (y j - ∑ a : Fin q, X j a * c a) else lam * force (p - m)

/-- Solution of the system. -/
noncomputable def semiU (m L : Nat) (A X : Nat → Nat → ℝ) (F : (Nat → ℝ) → Nat → ℝ) (dense : DenseSolver ℝ q) (b : Matrix (Fin (m + m)) (Fin 1) ℝ) (p : Nat) : ℝ :=
  if h : p < m + m then smwSolve (byColumns (m + m) F) (byColumns (m + m) F) dense (crossBlock m L A X) (gram q L X) (crossBlock m L A X).transpose b ⟨p, h⟩ 0
  else 0

theorem semi_run {data : Dense ℝ} {junk : Nat → ℝ} {s} (e1 : P.init data junk = .ok s) (e2 : s.n = P.m) (he : pointEval P.n P.nb P.dofs ids psi = .ok l) {lam : ℝ} {A}
    (eA : SB.make 2 2 [⟨P.m, P.m, fun p q => -∑ j ∈ range ids.length, entry l j p * entry l j q⟩, ⟨P.m, P.m, fun p q => lam * s.stiff q p⟩,
        ⟨P.m, P.m, fun p q => lam * s.stiff p q⟩, ⟨P.m, P.m, fun p q => lam * s.mass p q⟩] = .ok A) {lu : Solver ℝ} {F} (hF : lu (readAll A) = some F)
    (dense : DenseSolver ℝ q) (X : Nat → Nat → ℝ) (y : Nat → ℝ) :
    ∃ u, u = semiU P.m ids.length (entry l) X F dense (semiRhs P.m ids.length (entry l) X lam y (regress ids.length dense X y) s.force) ∧
      semiFit lu dense P data junk ids psi lam X y =
        .ok (some (regress ids.length dense X fun j => y j - ∑ p ∈ range P.m, entry l j p * u p, u, fun p => u (P.m + p))) := by
  refine ⟨_, rfl, ?_⟩
  rw [semiFit, e1, Res.ok_bind, he, Res.ok_bind]
  obtain ⟨sn, s2, s3, s4, s5, s6, s7⟩ := s
  dsimp only at e2
  subst e2
  dsimp only at eA hF ⊢
  rw [eA, Res.ok_bind, hF]
  rfl

/-- **C168** for regression with covariates (partial: the matrices are exact).  For every problem, locations, covariates and parameter there is a number
C such that, for all forcings and observations, whatever the memory held, what the program obtains with any solvers, sparse and dense, of relative residual
ε (C ε ≤ 1) differs neither in a coefficient of the covariates nor at a node from the minimizer, and from the function by which that fails to solve the
problem, by more than C ε times the largest of the observations and of the values of those two functions at the nodes. -/
theorem C168_covariates_partial (h : FitData P data ids psi l) (hX : Identified q P.m ids.length (entry l) X) (lam : ℝ) (hl : 0 < lam) :
    ∃ C : ℝ, 0 ≤ C ∧ ∀ (data' : Dense ℝ), P.n * Quadrature.size P.t ≤ data'.rows → 0 < data'.cols →
      ∀ (junk y : Nat → ℝ) (ε : ℝ) (lu lu' : Solver ℝ) (dense dense' : DenseSolver ℝ q), 0 ≤ ε → C * ε ≤ 1 →
      BackwardLU (P.m + P.m) ε lu → CompleteLU (P.m + P.m) lu → ExactLU (P.m + P.m) lu' → CompleteLU (P.m + P.m) lu' →
      BackwardDense ε dense → ExactDense dense' →
      ∃ β f g β' f' g', semiFit lu dense P data' junk ids psi lam X y = .ok (some (β, f, g)) ∧
        semiFit lu' dense' P data' junk ids psi lam X y = .ok (some (β', f', g')) ∧
        ∀ Y, 0 ≤ Y → (∀ j < ids.length, |y j| ≤ Y) → (∀ p < P.m, |f' p| ≤ Y ∧ |g' p| ≤ Y) →
          (∀ a, |β a - β' a| ≤ C * ε * Y) ∧ ∀ p < P.m, |f p - f' p| ≤ C * ε * Y ∧ |g p - g' p| ≤ C * ε * Y := by
  obtain ⟨s0, e1, e2, _, _, _, hS, hM, -⟩ := C102_init P h.ok data h.rows h.cols fun _ => 0
  have hS' : ∀ u v, Splines.pform P.m s0.stiff u v = P.bilin u v := fun u v => by rw [Splines.pform, hS]
  have hM' : ∀ u v, Splines.pform P.m s0.mass u v = P.l2 u v := fun u v => by rw [Splines.pform, hM]
  have hF : Forms P.m ids.length (entry l) s0.stiff s0.mass :=
    ⟨fun v => by rw [hS']; exact h.coercive v, fun v => by rw [hM']; exact h.mass v, fun u v => by rw [hM', hM', l2_symm], h.located⟩
  have hgd : (gram q ids.length X).det ≠ 0 := gram_det fun b hb => (hX 0 b fun j hj => by rw [zero_mul, hb j hj]).2
  set Q := quadEntry P.m (fun p q => -∑ j ∈ range ids.length, entry l j p * entry l j q) (fun p q => lam * s0.stiff q p) (fun p q => lam * s0.stiff p q)
    (fun p q => lam * s0.mass p q) with hQ
  have hdet : (Matrix.of fun i j : Fin (P.m + P.m) => Q i j).det ≠ 0 := quad_det hF hl fun _ _ _ _ => rfl
  -- constants
  set mX := mass1 fun (j : Fin ids.length) (a : Fin q) => X j a with hmX
  set mA := mass1 fun (p : Fin P.m) (j : Fin ids.length) => entry l j p with hmA
  set mP := mass1 fun (j : Fin ids.length) (p : Fin P.m) => entry l j p with hmP
  set mS := mass1 fun (p c : Fin P.m) => s0.stiff p c with hmS
  set mM := mass1 fun (p c : Fin P.m) => s0.mass p c with hmM
  have x0 : 0 ≤ mX := mass1_nonneg _
  have a0 : 0 ≤ mA := mass1_nonneg _
  have p0 : 0 ≤ mP := mass1_nonneg _
  have s00 : 0 ≤ mS := mass1_nonneg _
  have m0 : 0 ≤ mM := mass1_nonneg _
  obtain ⟨Cc, cc0, hc⟩ := regress_near hgd zero_le_one
  have cb0 : 0 ≤ mA * (1 + mX * Cc) + lam * (mS + mM) := by positivity
  obtain ⟨Cx, cx0, hx⟩ := smw_near (Matrix.of fun i j : Fin (P.m + P.m) => Q i j) hdet (crossBlock P.m ids.length (entry l) X) (gram q ids.length X)
    (fun Y hY => small_det hF hX hl (B := Q) (fun _ _ _ _ => rfl) Y hY) cb0
  have cr0 : 0 ≤ 1 + mP * Cx := by positivity
  obtain ⟨Cβ, cβ0, hβ⟩ := regress_near hgd cr0
  refine ⟨Cc + Cx + Cβ, by positivity, fun data' hr hcol junk y ε lu lu' dense dense' hε hCε b1 b2 z1 z2 hB hE => ?_⟩
  obtain ⟨s, e1', e2', _, _, _, hS1, hM1, -⟩ := C102_init P h.ok data' hr hcol junk
  obtain ⟨A, eA, hA⟩ := make_read P.m (fun p q => -∑ j ∈ range ids.length, entry l j p * entry l j q) (fun p q => lam * s.stiff q p)
    (fun p q => lam * s.stiff p q) (fun p q => lam * s.mass p q)
  have es : ∀ p < P.m, ∀ c < P.m, s.stiff p c = s0.stiff p c := fun p hp c hc => by
    rw [← entry_of_form s.stiff hp hc, ← entry_of_form s0.stiff hp hc]; exact (hS1 _ _).trans (hS _ _).symm
  have em : ∀ p < P.m, ∀ c < P.m, s.mass p c = s0.mass p c := fun p hp c hc => by
    rw [← entry_of_form s.mass hp hc, ← entry_of_form s0.mass hp hc]; exact (hM1 _ _).trans (hM _ _).symm
  have hAQ : ∀ p < P.m + P.m, ∀ c < P.m + P.m, readAll A p c = Q p c := fun p hp c hc => by
    rw [hA p hp c hc, hQ]
    exact quadEntry_congr (fun _ _ _ _ => rfl) (fun p hp q hq => by rw [es q hq p hp]) (fun p hp q hq => by rw [es p hp q hq])
      (fun p hp q hq => by rw [em p hp q hq]) p hp c hc
  have hd : (Matrix.of fun i j : Fin (P.m + P.m) => readAll A i j).det ≠ 0 := by
    have : (Matrix.of fun i j : Fin (P.m + P.m) => readAll A i j) = Matrix.of fun i j : Fin (P.m + P.m) => Q i j := by
      ext i j; exact hAQ i i.2 j j.2
    rw [this]; exact hdet
  obtain ⟨G, hG⟩ := Option.isSome_iff_exists.1 (b2 _ hd)
  obtain ⟨G', hG'⟩ := Option.isSome_iff_exists.1 (z2 _ hd)
  obtain ⟨u, hu, r1⟩ := semi_run e1' e2' h.eval eA hG dense X y
  obtain ⟨u', hu', r2⟩ := semi_run e1' e2' h.eval eA hG' dense' X y
  refine ⟨_, _, _, _, _, _, r1, r2, fun Y hY0 hy hfg => ?_⟩
  have t1 := mul_nonneg cc0 hε
  have t2 := mul_nonneg cx0 hε
  have t3 := mul_nonneg cβ0 hε
  -- solvers on vectors
  have exG : ∀ (r : Fin (P.m + P.m) → ℝ) i, ∑ j, (Matrix.of fun i j : Fin (P.m + P.m) => Q i j) i j * G' (ext0 r) j = r i := fun r i => by
    have := z1 _ G' hG' (ext0 r) i i.2
    rw [sum_range, ext0, dif_pos i.2] at this
    rw [← this]
    exact sum_congr rfl fun j _ => by rw [Matrix.of_apply, hAQ i i.2 j j.2]
  have bkG : ∀ r : Fin (P.m + P.m) → ℝ, Backward ε (Matrix.of fun i j : Fin (P.m + P.m) => Q i j) r fun j => G (ext0 r) j := fun r i => by
    have := b1 _ G hG (ext0 r) i i.2
    rw [sum_range, sum_range, show ext0 r i = r i from dif_pos i.2] at this
    simp only [hAQ i i.2 _ (Fin.is_lt _)] at this
    exact this
  -- the forcing
  have hforce : ∀ p < P.m, |s.force p| ≤ (mS + mM) * Y := by
    obtain ⟨t, ht⟩ := smw_solves (dense := dense') hF hX hl z1 hE hAQ hG'
      (semiRhs P.m ids.length (entry l) X lam y (regress ids.length dense' X y) s.force)
    intro p hp
    have := ht.second p hp
    rw [dif_pos (show P.m + p < P.m + P.m by omega), semiRhs, Matrix.of_apply, if_neg (by simp)] at this
    have e : s.force p = ∑ c : Fin P.m, s0.stiff p c * u' c + ∑ c : Fin P.m, s0.mass p c * u' (P.m + c) := by
      have e' : lam * (∑ c : Fin P.m, s0.stiff p c * u' c + ∑ c : Fin P.m, s0.mass p c * u' (P.m + c)) = lam * s.force p := by
        rw [show P.m + p - P.m = p by omega] at this
        rw [← this, sum_range, sum_range, mul_add, mul_sum, mul_sum, hu']
        simp only [mul_assoc]
        rfl
      exact (mul_left_cancel₀ hl.ne' e').symm
    rw [e, add_mul]
    refine (abs_add_le _ _).trans (add_le_add ?_ ?_)
    · exact lin_le (fun p c : Fin P.m => s0.stiff p c) (v := fun c : Fin P.m => u' c) hY0 (fun c => (hfg c c.2).1) ⟨p, hp⟩
    · exact lin_le (fun p c : Fin P.m => s0.mass p c) (v := fun c : Fin P.m => u' (P.m + c)) hY0 (fun c => (hfg c c.2).2) ⟨p, hp⟩
  -- stages
  have ny : Near 1 ε Y (fun j : Fin ids.length => y j) fun j => y j :=
    ⟨fun j => by rw [one_mul]; exact hy j j.2, fun j => by rw [sub_self, abs_zero, one_mul]; exact mul_nonneg hε hY0⟩
  have nc := hc ε Y dense' dense y y hε hY0 (by linarith) hE hB ny
  have nQ := ny.sub (nc.lin cc0 hε hY0 fun (j : Fin ids.length) (a : Fin q) => X j a)
  have nb0 := nQ.lin (by positivity) hε hY0 fun (p : Fin P.m) (j : Fin ids.length) => entry l j p
  have nb : Near (mA * (1 + mX * Cc) + lam * (mS + mM)) ε Y
      (fun i => semiRhs P.m ids.length (entry l) X lam y (regress ids.length dense' X y) s.force i 0)
      fun i => semiRhs P.m ids.length (entry l) X lam y (regress ids.length dense X y) s.force i 0 := by
    have k1 : 0 ≤ lam * (mS + mM) * Y := by positivity
    have k2 : 0 ≤ mA * (1 + mX * Cc) * Y := by positivity
    have k3 : 0 ≤ lam * (mS + mM) * ε * Y := by positivity
    have k4 : 0 ≤ (mA * (1 + mX * Cc) + lam * (mS + mM)) * ε * Y := by positivity
    refine ⟨fun i => ?_, fun i => ?_⟩
    · by_cases hi : (i : Nat) < P.m
      · have := nb0.size ⟨i, hi⟩
        rw [semiRhs, Matrix.of_apply, if_pos hi, abs_neg, sum_range, add_mul]
        exact this.trans (le_add_of_nonneg_right k1)
      · have := hforce (i - P.m) (by omega)
        rw [semiRhs, Matrix.of_apply, if_neg hi, abs_mul, abs_of_pos hl, add_mul]
        exact ((mul_le_mul_of_nonneg_left this hl.le).trans (le_of_eq (by ring))).trans (le_add_of_nonneg_left k2)
    · by_cases hi : (i : Nat) < P.m
      · have := nb0.diff ⟨i, hi⟩
        rw [semiRhs, semiRhs, Matrix.of_apply, Matrix.of_apply, if_pos hi, if_pos hi, sum_range, sum_range, ← neg_sub', abs_neg, add_mul, add_mul]
        exact this.trans (le_add_of_nonneg_right k3)
      · rw [semiRhs, semiRhs, Matrix.of_apply, Matrix.of_apply, if_neg hi, if_neg hi, sub_self, abs_zero]
        exact k4
  have nx := hx ε Y G' G dense' dense _ _ hε hY0 (by linarith) exG bkG hE hB nb
  have nu : ∀ p, p < P.m + P.m → |u' p| ≤ Cx * Y ∧ |u p - u' p| ≤ Cx * ε * Y := fun p hp => by
    rw [hu, hu', semiU, semiU, dif_pos hp, dif_pos hp]
    exact ⟨nx.size ⟨p, hp⟩, nx.diff ⟨p, hp⟩⟩
  have nf : Near Cx ε Y (fun p : Fin P.m => u' p) fun p => u p := ⟨fun p => (nu p (by omega)).1, fun p => (nu p (by omega)).2⟩
  have nr := ny.sub (nf.lin cx0 hε hY0 fun (j : Fin ids.length) (p : Fin P.m) => entry l j p)
  have nβ := hβ ε Y dense' dense (fun j => y j - ∑ p ∈ range P.m, entry l j p * u' p) (fun j => y j - ∑ p ∈ range P.m, entry l j p * u p) hε hY0 (by linarith) hE hB
    (by simp only [sum_range]; exact nr)
  have gx : Cx * ε * Y ≤ (Cc + Cx + Cβ) * ε * Y := mul_le_mul_of_nonneg_right (mul_le_mul_of_nonneg_right (by linarith) hε) hY0
  have gβ : Cβ * ε * Y ≤ (Cc + Cx + Cβ) * ε * Y := mul_le_mul_of_nonneg_right (mul_le_mul_of_nonneg_right (by linarith) hε) hY0
  exact ⟨fun a => (nβ.diff a).trans gβ, fun p hp => ⟨(nu p (by omega)).2.trans gx, (nu (P.m + p) (by omega)).2.trans gx⟩⟩

/-- **C168** with covariates on a mesh (partial: the matrices are exact): first order elements, at every point of the domain. -/
theorem C168_covariates_mesh_partial {d N n nNodes : Nat} {cells : Nat → Nat → Nat} {Z : Nat → Fin N → ℝ} (hd : Dims d N) {op : Op ℝ} (hs : FlagRight N op)
    (hns : NoScalar op) (bNodes : Nat → Bool) (h : GoodMesh (d + 1) n nNodes cells Z) (hell : ∀ r, Elliptic N op r) {locs : Nat → Fin N → ℝ}
    (hL : Located (d + 1) n cells Z ids locs)
    (hX : ∀ (c : ℝ) (b : Fin q → ℝ), (∀ i < ids.length, (if ids[i]? = some (-1) then 0 else c) = ∑ a : Fin q, X i a * b a) → c = 0 ∧ b = 0)
    (lam : ℝ) (hl : 0 < lam) :
    ∃ P C, problem1 d op cells n nNodes Z bNodes = .ok P ∧ 0 ≤ C ∧
      ∀ (data : Dense ℝ), n * Quadrature.size P.t ≤ data.rows → 0 < data.cols → ∀ (junk y : Nat → ℝ) (ε : ℝ) (lu lu' : Solver ℝ) (dense dense' : DenseSolver ℝ q),
        0 ≤ ε → C * ε ≤ 1 → BackwardLU (nNodes + nNodes) ε lu → CompleteLU (nNodes + nNodes) lu → ExactLU (nNodes + nNodes) lu' →
        CompleteLU (nNodes + nNodes) lu' → BackwardDense ε dense → ExactDense dense' →
        ∃ β f g β' f' g' F F', semiFit lu dense P data junk ids (psiAt d 1 (d + 1) cells Z locs) lam X y = .ok (some (β, f, g)) ∧
          semiFit lu' dense' P data junk ids (psiAt d 1 (d + 1) cells Z locs) lam X y = .ok (some (β', f', g')) ∧
          ContinuousOn F (domain (d + 1) n cells Z) ∧ IsP1 (d + 1) n nNodes cells Z f F ∧
          ContinuousOn F' (domain (d + 1) n cells Z) ∧ IsP1 (d + 1) n nNodes cells Z f' F' ∧
          ∀ Y, 0 ≤ Y → (∀ j < ids.length, |y j| ≤ Y) → (∀ p < nNodes, |f' p| ≤ Y ∧ |g' p| ≤ Y) →
            (∀ a, |β a - β' a| ≤ C * ε * Y) ∧ ∀ x ∈ domain (d + 1) n cells Z, |F x - F' x| ≤ C * ε * Y := by
  obtain ⟨P, I, J, l, e, em, -, -, hD, hV, hP1⟩ := mesh_fit hd hs hns bNodes h hell hL
  have en : P.n = n := by
    obtain ⟨P', _, _, e', _, _, _, e3, _⟩ := C131_first_order hd op bNodes h
    rw [e] at e'
    rw [Res.ok.inj e']
    exact e3
  subst em
  obtain ⟨C, hC0, hC⟩ := C168_covariates_partial (hD ⟨n * Quadrature.size P.t, 1, fun _ _ => 0⟩ le_rfl (by norm_num)) (mesh_identified hV hX) lam hl
  refine ⟨P, C, e, hC0, fun data hr hc junk y ε lu lu' dense dense' hε hCε b1 b2 x1 x2 hB hE => ?_⟩
  obtain ⟨β, f, g, β', f', g', r1, r2, hb⟩ := hC data (by rw [en]; exact hr) hc junk y ε lu lu' dense dense' hε hCε b1 b2 x1 x2 hB hE
  obtain ⟨F, hF1, hF2⟩ := hP1 f
  obtain ⟨F', hF1', hF2'⟩ := hP1 f'
  refine ⟨β, f, g, β', f', g', F, F', r1, r2, hF1, hF2, hF1', hF2', fun Y hY hy hfg => ⟨(hb Y hY hy hfg).1, fun x hx => ?_⟩⟩
  exact p1_gap h.nodes hF2 hF2' (fun p hp => ((hb Y hY hy hfg).2 p hp).1) hx

/-! ### The hypotheses are met -/

/-- A dense solver that is not exact. -/
theorem exists_inflatedDense {ε : ℝ} (hε : 0 ≤ ε) : ∃ dense : DenseSolver ℝ q, BackwardDense ε dense ∧
    ∀ M B, M.det ≠ 0 → M * dense M B = (1 + ε) • B := by
  have key : ∀ (M : Matrix (Fin q) (Fin q) ℝ) (B : Matrix (Fin q) (Fin 1) ℝ), M.det ≠ 0 → M * ((1 + ε) • (M⁻¹ * B)) = (1 + ε) • B := fun M B hd => by
    rw [Matrix.mul_smul, ← Matrix.mul_assoc, Matrix.mul_nonsing_inv _ (isUnit_iff_ne_zero.2 hd), Matrix.one_mul]
  refine ⟨fun M B => (1 + ε) • (M⁻¹ * B), fun M B hd a => ?_, key⟩
  have := congrFun (congrFun (key M B hd) a) 0
  rw [Matrix.mul_apply] at this
  rw [this, Matrix.smul_apply, smul_eq_mul, show (1 + ε) * B a 0 - B a 0 = ε * B a 0 by ring, abs_mul, abs_of_nonneg hε]
  exact mul_le_mul_of_nonneg_left (le_add_of_nonneg_left (sum_nonneg fun _ _ => mul_nonneg (abs_nonneg _) (abs_nonneg _))) hε

/-- The rod from 0 to `n`, locations 1/2 and 1/3 in the first cell and one outside of the rod, one covariate equal to the number of the location; solvers
that are not exact. -/
example (n : Nat) (hn : 0 < n) (y : Nat → ℝ) : ∃ (ε : ℝ) (lu lu' : Solver ℝ) (dense dense' : DenseSolver ℝ 1) (P : Prob ℝ) (C : ℝ) (β β' : Fin 1 → ℝ)
    (f g f' g' : Nat → ℝ) (F F' : (Fin 1 → ℝ) → ℝ), 0 < ε ∧ (∀ M B, M.det ≠ 0 → M * dense M B = (1 + ε) • B) ∧
    problem1 1 (.neg .lap) lineCells n (n + 1) lineX (fun p => p == 0 || p == n) = .ok P ∧
    semiFit lu dense P ⟨n * Quadrature.size P.t, 1, fun r _ => r⟩ (fun _ => 0) [0, -1, 0] (psiAt 1 1 2 lineCells lineX fun i _ => if i = 0 then 1 / 2 else
      if i = 1 then -5 else 1 / 3) 7 (fun i _ => (i : ℝ)) y = .ok (some (β, f, g)) ∧
    semiFit lu' dense' P ⟨n * Quadrature.size P.t, 1, fun r _ => r⟩ (fun _ => 0) [0, -1, 0] (psiAt 1 1 2 lineCells lineX fun i _ => if i = 0 then 1 / 2 else
      if i = 1 then -5 else 1 / 3) 7 (fun i _ => (i : ℝ)) y = .ok (some (β', f', g')) ∧
    ∀ Y, 0 ≤ Y → (∀ j < 3, |y j| ≤ Y) → (∀ p < n + 1, |f' p| ≤ Y ∧ |g' p| ≤ Y) →
      (∀ a, |β a - β' a| ≤ C * ε * Y) ∧ ∀ x ∈ domain 2 n lineCells lineX, |F x - F' x| ≤ C * ε * Y := by
  obtain ⟨P, C, e, hC0, hC⟩ := C168_covariates_mesh_partial (d := 1) (q := 1) (ids := [0, -1, 0]) (X := fun i _ => (i : ℝ)) (by unfold Dims; decide)
    (op := .neg .lap) (fun _ => trivial) trivial (fun p => p == 0 || p == n) (line_good n hn) (fun r => C103_laplacian 1 r) (demo_located n hn) (by
      intro c b hb
      have a0 := hb 0 (by simp)
      have a2 := hb 2 (by simp)
      simp at a0 a2
      rw [a0] at a2
      refine ⟨a0, funext fun a => ?_⟩
      rw [Subsingleton.elim a 0]
      simpa using a2.symm) 7 (by norm_num)
  have hp : 0 < 1 / (C + 1) := by positivity
  obtain ⟨lu, b1, b2, -⟩ := exists_inflatedLU (n + 1 + (n + 1)) hp.le
  obtain ⟨lu', x1, x2⟩ := exists_exactLU (K := ℝ) (n + 1 + (n + 1))
  obtain ⟨dense, d1, d2⟩ := exists_inflatedDense (q := 1) hp.le
  have hE : ExactDense (fun M B => M⁻¹ * B : DenseSolver ℝ 1) := fun M B hd => by
    rw [← Matrix.mul_assoc, Matrix.mul_nonsing_inv _ (isUnit_iff_ne_zero.2 hd), Matrix.one_mul]
  obtain ⟨β, f, g, β', f', g', F, F', r1, r2, -, -, -, -, hb⟩ := hC ⟨n * Quadrature.size P.t, 1, fun r _ => r⟩ le_rfl (by norm_num) (fun _ => 0) y _ lu lu'
    dense _ hp.le (by rw [mul_one_div, div_le_one (by linarith)]; linarith) b1 b2 x1 x2 d1 hE
  exact ⟨_, lu, lu', dense, _, P, C, β, β', f, g, f', g', F, F', hp, d2, e, r1, r2, hb⟩

end Fdapde.PDE
