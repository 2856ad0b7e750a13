import Verif.PDE.LemmasQuadGlobal
set_option linter.unusedSectionVars false
/-!
# C143: second order elements converge twice as fast as first order ones
-/
namespace Fdapde.PDE
open Fdapde.Quadrature MeasureTheory Matrix Fdapde.Geometry Fdapde.FEM Fdapde.Triang

variable {n nNodes : Nat} {cells : Nat → Nat → Nat} {X : Nat → Vec 2} {u : Vec 2 → ℝ} {G M B L hh ρ : ℝ}

theorem qpt_mesh (c k : Nat) : qpt (cellOf 2 cells X c) k = meshPoint cells X c fun w => node ℝ rule2_6 k w := by
  funext z
  simp only [qpt, Simplex.toCell, meshPoint, Pi.add_apply, Pi.smul_apply, smul_eq_mul, Pi.sub_apply, mulVec, dotProduct, Fin.sum_univ_two]
  show (X (cells c 1) z - X (cells c 0) z) * node ℝ rule2_6 k 0 + (X (cells c 2) z - X (cells c 0) z) * node ℝ rule2_6 k 1 + X (cells c 0) z =
    X (cells c 0) z + (node ℝ rule2_6 k 0 * (X (cells c 1) z - X (cells c 0) z) + node ℝ rule2_6 k 1 * (X (cells c 2) z - X (cells c 0) z))
  ring

/-- **C143**, -Δu = f with second order elements on a mesh of triangles of the plane: whatever the mesh, the discrete solution is piecewise quadratic and the
squares of the errors of its gradient and of its values are at most the bounds below; they are of the order of the fourth power of the size of the
cells, up to the 14 digits with which the library stores its quadrature rules.  Partial: node 0 is assumed to be on the boundary, the floating point
operations are exact and the boundary nodes of the mesh are marked. -/
theorem C143_poisson_partial (bNodes : Nat → Bool) (h : GoodMesh 3 n nNodes cells X) (hb : MarksBoundary 3 n cells bNodes) (hs : MeshShape n cells X hh ρ)
    (hρ : 0 < ρ) (hu : SmoothOn3 n cells X u G M B L) (hM : 0 ≤ M) (hL : 0 ≤ L) (z : Fin 2) {a ℓ : ℝ} (hl : ∀ x ∈ domain 3 n cells X, |x z - a| ≤ ℓ)
    (hm : 0 < nNodes) (h0 : bNodes 0 = true) :
    ∃ f dofs bnd Y P, build2 cells n = .ok f ∧ enumDofs2 cells n nNodes bNodes f = .ok (dofs, bnd, P.m) ∧
      dofsCoords2 cells n nNodes P.m X dofs = .ok Y ∧ problem2 (.neg .lap) cells n nNodes X bNodes = .ok P ∧
      ∀ lu : Solver ℝ, ExactLU P.m lu → CompleteLU P.m lu → ∀ (data : Dense ℝ), n * size P.t ≤ data.rows → data.cols = 1 →
      (∀ c < n, ∀ k < size P.t, data.at' (size P.t * c + k) 0 = -laplacian u (meshPoint cells X c fun w => node ℝ P.t k w)) →
      ∀ g : Dense ℝ, P.m ≤ g.rows → 0 < g.cols → (∀ p < P.m, bnd p = true → ∀ x, Y p = some x → g.at' p 0 = u x) →
      ∀ junk, ∃ w W, (P.init data junk >>= pdeSolveElliptic lu g) = .ok (true, some w) ∧ PiecewiseQuadratic n P.dofs Y w W ∧
        gradError2 n cells X u W ≤ (4 * (42 * M * hh ^ 3 / ρ) ^ 2 + 16 * ((3 * (L * hh ^ 2) + 275 / 10 ^ 14 * B) ^ 2 * (8 * ℓ ^ 2 + 24 * hh ^ 2) +
          12 * (2 * (42 * M * hh ^ 3 / ρ) + 50 / 10 ^ 14 * (G + 42 * M * hh ^ 3 / ρ)) ^ 2)) * (volume (domain 3 n cells X)).toReal ∧
        valueError2 n cells X u W ≤ (2 * (12 * M * hh ^ 3) ^ 2 + 64 * ℓ ^ 2 * ((3 * (L * hh ^ 2) + 275 / 10 ^ 14 * B) ^ 2 * (8 * ℓ ^ 2 + 24 * hh ^ 2) +
          12 * (2 * (42 * M * hh ^ 3 / ρ) + 50 / 10 ^ 14 * (G + 42 * M * hh ^ 3 / ρ)) ^ 2)) * (volume (domain 3 n cells X)).toReal := by
  have hmf := C131_manifold (N := 2) (by norm_num) h
  obtain ⟨f, h1, dofs, bnd, h2, hv, he, hbn, hbe⟩ := C57_numbering cells n nNodes bNodes hmf
  obtain ⟨f', dofs', bnd', m', Y, h1', h2', h3, hY1, hY2, hdof, -⟩ := C123_second_order n nNodes cells X bNodes h.proper h.conforming hmf h.nodes
  obtain rfl := Res.ok.inj (h1.symm.trans h1')
  have e := Res.ok.inj (h2.symm.trans h2')
  simp only [Prod.mk.injEq] at e
  obtain ⟨rfl, rfl, rfl⟩ := e
  obtain ⟨f', h1'', ht⟩ := build2_spec hmf
  obtain rfl := Res.ok.inj (h1.symm.trans h1'')
  have hP : problem2 (.neg .lap) cells n nNodes X bNodes = .ok (prob2 (.neg .lap) cells n X (dofs, bnd, nNodes + f.facets.length)) := by
    rw [problem2, show standardRule 2 2 = some _ from rfl, Res.ofOptionUB_some, Res.ok_bind, h1, Res.ok_bind, h2, Res.ok_bind]
  obtain ⟨P, hP', hsolve⟩ := C131_solve_second_partial (N := 2) (.inl rfl) (.neg .lap) (fun _ => trivial) trivial bNodes h hmf (C103_laplacian 2) hm h0
  obtain rfl := Res.ok.inj (hP.symm.trans hP')
  set P := prob2 (.neg .lap) cells n X (dofs, bnd, nNodes + f.facets.length) with hPdef
  refine ⟨f, dofs, bnd, Y, P, h1, h2, h3, hP, fun lu hlu hlc data hr hc hf g hg hgc hgb junk => ?_⟩
  obtain ⟨w, s1, s2, -⟩ := hsolve lu hlu hlc data hr hc g hg hgc junk
  set D : Nat → Nat → Nat := P.dofs with hDdef
  have hDe : ∀ c i, D c i = (dofs c i).getD 0 := fun c i => rfl
  have hD : Numbered cells n nNodes f.facets D := by
    refine ⟨ht.nodup, ht.mem, fun c hc v hv' => ?_, fun c hc j hj => ?_⟩
    · rw [hDe, hv c hc v hv', Option.getD_some]
    · obtain ⟨g, k, e1, e2, e3⟩ := he c hc j hj
      exact ⟨g, k, by rw [hDe, e1, Option.getD_some], e2, e3⟩
  -- the points of the dofs
  have hYn : ∀ c < n, ∀ i : Fin 6, Y (D c i) = some (nodes6 (cellOf 2 cells X c) i) := by
    intro c hc i
    obtain ⟨d1, d2⟩ := hdof c hc
    have lo : ∀ v : Fin 3, Y (D c v) = some ((cellOf 2 cells X c).coords v) := fun v => by
      rw [hDe, d1 v v.2, Option.getD_some, hY1 _ (h.nodes c hc v v.2)]
      rfl
    have hi : ∀ e ∈ [(3, 0, 1), (4, 0, 2), (5, 1, 2)], Y (D c e.1) = some ((1 / 2 : ℝ) • (X (cells c e.2.1) + X (cells c e.2.2))) := fun e he' => by
      obtain ⟨y, e1, -, -, e2⟩ := d2 e he'
      rw [hDe, e1, Option.getD_some, e2]
    fin_cases i
    · exact lo 0
    · exact lo 1
    · exact lo 2
    · exact hi (3, 0, 1) (by simp)
    · exact hi (4, 0, 2) (by simp)
    · exact hi (5, 1, 2) (by simp)
  have hDm : ∀ c < n, ∀ i < 6, D c i < P.m := fun c hc i hi => (numbered_inj hmf h.nodes hD).2 c hc i hi
  have hYs : ∀ p < P.m, ∃ x, Y p = some x := fun p hp => by
    by_cases hpn : p < nNodes
    · exact ⟨_, hY1 p hpn⟩
    · obtain ⟨x, hx, -⟩ := hY2 p hp (by omega)
      exact ⟨x, hx⟩
  set e : Nat → ℝ := fun p => w p - (Y p).elim 0 u with hedef
  have htest : P.Test e := by
    intro p hp hbp
    obtain ⟨x, hx⟩ := hYs p hp
    rw [hedef]
    simp only [hx, Option.elim_some]
    exact sub_eq_zero.2 ((s2.1 p hp hbp).trans (hgb p hp hbp x hx))
  have hval : ∀ c < n, ∀ i : Fin 6, w (D c i) = e (D c i) + u (nodes6 (cellOf 2 cells X c) i) := fun c hc i => by
    rw [hedef]
    simp only [hYn c hc i, Option.elim_some]
    ring
  have hvan : Vanish cells n D e := by
    intro c hc i hi
    have huniq : ∀ c' < n, Shares cells 3 c i c' → c' = c := fun c' hc' hsh => by
      by_contra hne
      exact hi ⟨c', hc', hsh, hne⟩
    constructor
    · intro v hvi
      refine htest _ (hDm c hc v (by omega)) ?_
      rw [hD.low c hc v v.2]
      exact (hbn _ (h.nodes c hc v v.2)).trans (hb c hc i i.2 (fun c' hc' hsh => huniq c' hc' fun w hw hne => hsh w hw hne) v v.2 fun e => hvi (Fin.ext e))
    · obtain ⟨q, k, e1, e2, e3⟩ := he c hc (2 - i) (by omega)
      rw [show 2 - (2 - (i : Nat)) = i by omega] at e3
      refine htest _ (hDm c hc _ (by omega)) ?_
      rw [hDe, e1, Option.getD_some]
      refine (hbe q k e2).2 ⟨c, ⟨hc, fun x hx => ?_⟩, fun d hd => huniq d hd.1 fun w hw hne => hd.2 _ ((e3.2 _).2 ⟨w, hw, hne, rfl⟩)⟩
      obtain ⟨w, hw, -, rfl⟩ := (e3.2 x).1 hx
      exact ⟨w, hw, rfl⟩
  obtain ⟨c0, hc0, v0, hv0, -⟩ := h.used 0 hm
  have hx0 : X (cells c0 v0) ∈ domain 3 n cells X := region_domain (N := 2) hc0 (subset_convexHull ℝ _ ⟨v0, hv0, rfl⟩)
  have hh0 : 0 ≤ hh := (len_nonneg _).trans (hs.diam c0 hc0 v0 hv0 v0 hv0)
  have hG : 0 ≤ G := (abs_nonneg _).trans (hu.first _ hx0 0)
  have hB : 0 ≤ B := (abs_nonneg _).trans (hu.bound _ hx0)
  have hgal : ∑ c ∈ Finset.range n, aC (cellOf 2 cells X c) (loc D e c) (loc D e c) =
      ∑ c ∈ Finset.range n, (lC (cellOf 2 cells X c) (fun x => -laplacian u x) (loc D e c) -
        aC (cellOf 2 cells X c) (fun i => u (nodes6 (cellOf 2 cells X c) i)) (loc D e c)) := by
    have g1 := s2.2 e htest
    rw [bilin2 h.proper, load2 h.proper _ (fun x => -laplacian u x) fun c hc k hk => by
      rw [qpt_mesh]; exact hf c hc k hk] at g1
    rw [Finset.sum_sub_distrib]
    refine Eq.trans ?_ (congrArg₂ (· - ·) g1 rfl)
    rw [← Finset.sum_sub_distrib]
    refine Finset.sum_congr rfl fun c hc => ?_
    rw [← aC_sub]
    congr 1
    funext i
    have := hval c (Finset.mem_range.1 hc) i
    show e (D c i) = w (D c i) - _
    rw [this]; ring
  have hen := quad_energy h hs hρ hh0 hu hM hL hG hB hD hvan hgal z hl
  have hfr := friedrichs2 h hD hvan z (a := a) (ℓ := ℓ) fun c hc x hx => hl x (region_domain (N := 2) hc hx)
  obtain ⟨er1, er2⟩ := quad_errors h hs hρ hh0 hu hM D w e hval
  refine ⟨w, fun c => qp (cellOf 2 cells X c) (loc D w c), s1, fun c hc => ⟨qp_degree _ _, fun i hi => ⟨_, hYn c hc ⟨i, hi⟩, ?_⟩⟩, er1.trans ?_, er2.trans ?_⟩
  · rw [qp_eval, q2_node (proper_nondeg h.proper hc)]
    rfl
  · nlinarith
  · have := mul_le_mul_of_nonneg_left hen (by positivity : 0 ≤ 8 * ℓ ^ 2)
    nlinarith

theorem alg_order {L B G M κ H ℓ hh ρ δ : ℝ} (hM : 0 ≤ M) (hL : 0 ≤ L) (hB : 0 ≤ B) (hG : 0 ≤ G) (hδ : 0 ≤ δ) (hδ1 : 50 * δ ≤ 1) (hρ : 0 < ρ) (h0 : 0 ≤ hh) (hκ : hh ≤ κ * ρ) (hH : hh ≤ H) :
    (42 * M * hh ^ 3 / ρ) ^ 2 ≤ (42 * M * κ) ^ 2 * (hh ^ 2 + δ) ^ 2 ∧
    (3 * (L * hh ^ 2) + 275 * δ * B) ^ 2 * (8 * ℓ ^ 2 + 24 * hh ^ 2) + 12 * (2 * (42 * M * hh ^ 3 / ρ) + 50 * δ * (G + 42 * M * hh ^ 3 / ρ)) ^ 2 ≤
      ((3 * L + 275 * B) ^ 2 * (8 * ℓ ^ 2 + 24 * H ^ 2) + 12 * (126 * M * κ + 50 * G) ^ 2) * (hh ^ 2 + δ) ^ 2 ∧
    (12 * M * hh ^ 3) ^ 2 ≤ (12 * M * H) ^ 2 * (hh ^ 2 + δ) ^ 2 := by
  have hκ0 : 0 ≤ κ := by
    by_contra hneg
    push Not at hneg
    have := mul_neg_of_neg_of_pos hneg hρ
    linarith
  have hH0 : 0 ≤ H := h0.trans hH
  have hR : 42 * M * hh ^ 3 / ρ ≤ 42 * M * κ * hh ^ 2 := by
    rw [div_le_iff₀ hρ]
    have : 42 * M * hh ^ 2 * hh ≤ 42 * M * hh ^ 2 * (κ * ρ) := mul_le_mul_of_nonneg_left hκ (by positivity)
    nlinarith
  have hR0 : 0 ≤ 42 * M * hh ^ 3 / ρ := by positivity
  generalize 42 * M * hh ^ 3 / ρ = R at hR hR0 ⊢
  have hs : hh ^ 2 ≤ hh ^ 2 + δ := by linarith
  have hs0 : 0 ≤ hh ^ 2 := sq_nonneg _
  have hR' : R ≤ 42 * M * κ * (hh ^ 2 + δ) := hR.trans (mul_le_mul_of_nonneg_left hs (by positivity))
  refine ⟨?_, ?_, ?_⟩
  · rw [← mul_pow]
    exact pow_le_pow_left₀ hR0 hR' 2
  · have t1 : 3 * (L * hh ^ 2) + 275 * δ * B ≤ (3 * L + 275 * B) * (hh ^ 2 + δ) := by
      have := mul_nonneg hL hδ
      have := mul_nonneg hB hs0
      nlinarith
    have t2 : 2 * R + 50 * δ * (G + R) ≤ (126 * M * κ + 50 * G) * (hh ^ 2 + δ) := by
      have := mul_le_mul_of_nonneg_right hδ1 hR0
      have := mul_nonneg hG hs0
      nlinarith
    have t3 := pow_le_pow_left₀ (by positivity) t1 2
    have t4 := pow_le_pow_left₀ (by positivity) t2 2
    have t5 : 8 * ℓ ^ 2 + 24 * hh ^ 2 ≤ 8 * ℓ ^ 2 + 24 * H ^ 2 := by
      have := pow_le_pow_left₀ h0 hH 2
      linarith
    have t6 := mul_le_mul t3 t5 (by positivity) (by positivity)
    rw [mul_pow] at t4 t6
    nlinarith
  · rw [← mul_pow]
    refine pow_le_pow_left₀ (by positivity) ?_ 2
    have : 12 * M * hh ^ 2 * hh ≤ 12 * M * (hh ^ 2 + δ) * H := mul_le_mul (by nlinarith) hH h0 (by positivity)
    nlinarith

/-- **C143**, order of convergence: on a domain `D`, for cells whose size is at most `κ` times their heights, one constant bounds the errors on every mesh by
the square of the size of the cells, up to the 14 digits of the quadrature rule: the squares of the errors are at most `C (h² + 10⁻¹⁴)²`.
Partial as `C143_poisson_partial`. -/
theorem C143_order_partial {D : Set (Vec 2)} (z : Fin 2) {a ℓ : ℝ} (hl : ∀ x ∈ D, |x z - a| ≤ ℓ) (u : Vec 2 → ℝ) {G M B L κ H : ℝ} (hM : 0 ≤ M) (hL : 0 ≤ L) :
    ∃ C : ℝ, ∀ (n nNodes : Nat) (cells : Nat → Nat → Nat) (X : Nat → Vec 2) (bNodes : Nat → Bool) (hh ρ : ℝ),
      GoodMesh 3 n nNodes cells X → MarksBoundary 3 n cells bNodes → domain 3 n cells X = D →
      SmoothOn3 n cells X u G M B L → MeshShape n cells X hh ρ → 0 < ρ → hh ≤ κ * ρ → hh ≤ H → 0 < nNodes → bNodes 0 = true →
      ∃ f dofs bnd Y P, build2 cells n = .ok f ∧ enumDofs2 cells n nNodes bNodes f = .ok (dofs, bnd, P.m) ∧
        dofsCoords2 cells n nNodes P.m X dofs = .ok Y ∧ problem2 (.neg .lap) cells n nNodes X bNodes = .ok P ∧
        ∀ lu : Solver ℝ, ExactLU P.m lu → CompleteLU P.m lu → ∀ (data : Dense ℝ), n * size P.t ≤ data.rows → data.cols = 1 →
        (∀ c < n, ∀ k < size P.t, data.at' (size P.t * c + k) 0 = -laplacian u (meshPoint cells X c fun w => node ℝ P.t k w)) →
        ∀ g : Dense ℝ, P.m ≤ g.rows → 0 < g.cols → (∀ p < P.m, bnd p = true → ∀ x, Y p = some x → g.at' p 0 = u x) →
        ∀ junk, ∃ w W, (P.init data junk >>= pdeSolveElliptic lu g) = .ok (true, some w) ∧ PiecewiseQuadratic n P.dofs Y w W ∧
          gradError2 n cells X u W ≤ C * (hh ^ 2 + 1 / 10 ^ 14) ^ 2 ∧ valueError2 n cells X u W ≤ C * (hh ^ 2 + 1 / 10 ^ 14) ^ 2 := by
  set V := (volume D).toReal with hV
  have hV0 : 0 ≤ V := ENNReal.toReal_nonneg
  set K := (3 * L + 275 * B) ^ 2 * (8 * ℓ ^ 2 + 24 * H ^ 2) + 12 * (126 * M * κ + 50 * G) ^ 2 with hK
  have hK0 : 0 ≤ K := by positivity
  refine ⟨(4 * (42 * M * κ) ^ 2 + 16 * K) * V + (2 * (12 * M * H) ^ 2 + 64 * ℓ ^ 2 * K) * V, ?_⟩
  intro n nNodes cells X bNodes hh ρ h hb hD hu hs hρ hκ hH hm h0
  obtain ⟨f, dofs, bnd, Y, P, e1, e2, e3, e4, hP⟩ := C143_poisson_partial bNodes h hb hs hρ hu hM hL z (hD ▸ hl) hm h0
  refine ⟨f, dofs, bnd, Y, P, e1, e2, e3, e4, fun lu hlu hlc data hr hc hf g hg hgc hgb junk => ?_⟩
  obtain ⟨w, W, r1, r2, r3, r4⟩ := hP lu hlu hlc data hr hc hf g hg hgc hgb junk
  obtain ⟨c0, hc0, v0, hv0, -⟩ := h.used 0 hm
  have hx0 : X (cells c0 v0) ∈ domain 3 n cells X := region_domain (N := 2) hc0 (subset_convexHull ℝ _ ⟨v0, hv0, rfl⟩)
  have hh0 : 0 ≤ hh := (len_nonneg _).trans (hs.diam c0 hc0 v0 hv0 v0 hv0)
  have hG : 0 ≤ G := (abs_nonneg _).trans (hu.first _ hx0 0)
  have hB : 0 ≤ B := (abs_nonneg _).trans (hu.bound _ hx0)
  obtain ⟨b1, b2, b3⟩ := alg_order (ℓ := ℓ) hM hL hB hG (show (0 : ℝ) ≤ 1 / 10 ^ 14 by norm_num) (by norm_num) hρ hh0 hκ hH
  rw [← hK] at b2
  rw [hD, ← hV] at r3 r4
  rw [show (275 : ℝ) / 10 ^ 14 = 275 * (1 / 10 ^ 14) by ring, show (50 : ℝ) / 10 ^ 14 = 50 * (1 / 10 ^ 14) by ring] at r3 r4
  set s := (hh ^ 2 + 1 / 10 ^ 14) ^ 2 with hs'
  have hs0 : 0 ≤ s := sq_nonneg _
  have q1 : 0 ≤ (2 * (12 * M * H) ^ 2 + 64 * ℓ ^ 2 * K) * V * s := by positivity
  have q2 : 0 ≤ (4 * (42 * M * κ) ^ 2 + 16 * K) * V * s := by positivity
  refine ⟨w, W, r1, r2, r3.trans ?_, r4.trans ?_⟩
  · refine (mul_le_mul_of_nonneg_right (add_le_add (mul_le_mul_of_nonneg_left b1 (by norm_num)) (mul_le_mul_of_nonneg_left b2 (by norm_num))) hV0).trans ?_
    linarith
  · refine (mul_le_mul_of_nonneg_right (add_le_add (mul_le_mul_of_nonneg_left b3 (by norm_num)) (mul_le_mul_of_nonneg_left b2 (by positivity))) hV0).trans ?_
    linarith

/-! ### Example: two triangles -/

theorem square_box {x : Vec 2} (hx : x ∈ domain 3 2 demo2 FEM.squareX) : 0 ≤ x 0 ∧ x 0 ≤ 1 := by
  simp only [domain, Set.mem_iUnion₂, Set.mem_ofPred_eq] at hx
  obtain ⟨c, hc, hx⟩ := hx
  have hcv : Convex ℝ {x : Vec 2 | 0 ≤ x 0 ∧ x 0 ≤ 1} := by
    intro x hx y hy a b ha hb hab
    simp only [Set.mem_ofPred_eq, Pi.add_apply, Pi.smul_apply, smul_eq_mul] at hx hy ⊢
    constructor <;> nlinarith [mul_nonneg ha hx.1, mul_nonneg hb hy.1]
  refine convexHull_min ?_ hcv hx
  rintro _ ⟨v, hv, rfl⟩
  rcases (by omega : c = 0 ∨ c = 1) with rfl | rfl <;> rcases (by omega : v = 0 ∨ v = 1 ∨ v = 2) with rfl | rfl | rfl <;>
    simp [demo2, FEM.squareX, Fin.ofNat]

theorem pair_line {v : Nat} (hv : v < 3) (Z : Nat → Vec 2) {x : Vec 2} (hx : x ∈ affineSpan ℝ {x | ∃ w < 3, w ≠ v ∧ x = Z w}) :
    ∃ r : ℝ, x = Z ((v + 1) % 3) + r • (Z ((v + 2) % 3) - Z ((v + 1) % 3)) := by
  have hset : {x : Vec 2 | ∃ w < 3, w ≠ v ∧ x = Z w} = {Z ((v + 1) % 3), Z ((v + 2) % 3)} := by
    ext y
    simp only [Set.mem_ofPred_eq, Set.mem_insert_iff, Set.mem_singleton_iff]
    constructor
    · rintro ⟨w, hw, hne, rfl⟩
      rcases (by omega : w = (v + 1) % 3 ∨ w = (v + 2) % 3) with e | e
      · left; rw [e]
      · right; rw [e]
    · rintro (rfl | rfl)
      · exact ⟨_, by omega, by omega, rfl⟩
      · exact ⟨_, by omega, by omega, rfl⟩
  have e : x = (x - Z ((v + 1) % 3)) +ᵥ Z ((v + 1) % 3) := by rw [vadd_eq_add]; exact (sub_add_cancel _ _).symm
  rw [hset, e, vadd_left_mem_affineSpan_pair] at hx
  obtain ⟨r, hr⟩ := hx
  exact ⟨r, by rw [show r • (Z ((v + 2) % 3) - Z ((v + 1) % 3)) = _ from hr]; abel⟩

theorem square_shape : MeshShape 2 demo2 FEM.squareX 2 (1 / 2) where
  diam := fun c hc v hv w hw => by
    refine Real.sqrt_le_iff.2 ⟨by norm_num, ?_⟩
    rw [Fin.sum_univ_two]
    rcases (by omega : c = 0 ∨ c = 1) with rfl | rfl <;> rcases (by omega : v = 0 ∨ v = 1 ∨ v = 2) with rfl | rfl | rfl <;>
      rcases (by omega : w = 0 ∨ w = 1 ∨ w = 2) with rfl | rfl | rfl <;> norm_num [demo2, FEM.squareX, Fin.ofNat]
  height := fun c hc v hv x hx => by
    obtain ⟨r, rfl⟩ := pair_line hv (fun w => FEM.squareX (demo2 c w)) hx
    refine Real.le_sqrt_of_sq_le ?_
    rw [Fin.sum_univ_two]
    rcases (by omega : c = 0 ∨ c = 1) with rfl | rfl <;> rcases (by omega : v = 0 ∨ v = 1 ∨ v = 2) with rfl | rfl | rfl <;>
      norm_num [demo2, FEM.squareX, Fin.ofNat] <;> nlinarith [sq_nonneg (r - 1 / 2)]

theorem cube_fderiv (x : Vec 2) : HasFDerivAt (fun x : Vec 2 => x 0 ^ 3) ((3 * x 0 ^ 2) • ContinuousLinearMap.proj (R := ℝ) (φ := fun _ : Fin 2 => ℝ) 0) x := by
  have := (ContinuousLinearMap.proj (R := ℝ) (φ := fun _ : Fin 2 => ℝ) 0).hasFDerivAt (x := x)
  simpa using this.pow 3

theorem cube_first (z : Fin 2) : pderiv (fun x : Vec 2 => x 0 ^ 3) z = fun x => if z = 0 then 3 * x 0 ^ 2 else 0 := by
  funext x
  rw [pderiv, (cube_fderiv x).fderiv]
  fin_cases z <;> simp

theorem cube_second (z s : Fin 2) : pderiv (pderiv (fun x : Vec 2 => x 0 ^ 3) z) s = fun x => if z = 0 ∧ s = 0 then 6 * x 0 else 0 := by
  funext x
  rw [cube_first]
  have h : HasFDerivAt (fun x : Vec 2 => 3 * x 0 ^ 2) ((3 : ℝ) • ((2 * x 0) • ContinuousLinearMap.proj (R := ℝ) (φ := fun _ : Fin 2 => ℝ) 0)) x := by
    have := (ContinuousLinearMap.proj (R := ℝ) (φ := fun _ : Fin 2 => ℝ) 0).hasFDerivAt (x := x)
    simpa using (this.pow 2).const_mul 3
  fin_cases z
  · simp only [Fin.zero_eta, if_true, true_and]
    rw [pderiv, h.fderiv]
    fin_cases s
    · simp; ring
    · simp
  · simp [pderiv]

theorem cube_laplacian : laplacian (fun x : Vec 2 => x 0 ^ 3) = fun x => 6 * x 0 := by
  funext x
  rw [laplacian, Fin.sum_univ_two, cube_second, cube_second]
  simp

theorem cube_smooth : SmoothOn3 2 demo2 FEM.squareX (fun x : Vec 2 => x 0 ^ 3) 3 6 6 0 where
  smooth := ⟨Set.univ, isOpen_univ, Set.subset_univ _, ContDiff.contDiffOn (by fun_prop)⟩
  first := fun x hx z => by
    obtain ⟨h0, h1⟩ := square_box hx
    rw [cube_first]
    split
    · rw [abs_of_nonneg (by positivity)]; nlinarith
    · norm_num
  second := fun c _ x _ y _ z => by
    simp only [cube_second]
    rw [show (6 : ℝ) * len (y - x) = len ((6 : ℝ) • (y - x)) by rw [len_smul, abs_of_pos (by norm_num)]]
    refine Real.sqrt_le_sqrt ?_
    rw [Fin.sum_univ_two, Fin.sum_univ_two]
    fin_cases z
    · simp only [Fin.zero_eta, true_and, if_true, Fin.isValue, one_ne_zero, if_false, sub_zero, Pi.smul_apply, Pi.sub_apply, smul_eq_mul]
      nlinarith [sq_nonneg (y 1 - x 1)]
    · simp only [Fin.mk_one, Fin.isValue, one_ne_zero, false_and, if_false, sub_zero]
      exact (by norm_num : (0 : ℝ) ^ 2 + 0 ^ 2 ≤ 0).trans (add_nonneg (sq_nonneg _) (sq_nonneg _))
  bound := fun x hx => by
    obtain ⟨h0, h1⟩ := square_box hx
    rw [cube_laplacian, abs_of_nonneg (by positivity)]
    linarith
  laplace := fun c _ x _ y _ => by
    have : ∀ s x, pderiv (laplacian fun x : Vec 2 => x 0 ^ 3) s x = if s = 0 then 6 else 0 := by
      intro s x
      have h : HasFDerivAt (fun x : Vec 2 => 6 * x 0) ((6 : ℝ) • ContinuousLinearMap.proj (R := ℝ) (φ := fun _ : Fin 2 => ℝ) 0) x :=
        ((ContinuousLinearMap.proj (R := ℝ) (φ := fun _ : Fin 2 => ℝ) 0).hasFDerivAt (x := x)).const_mul 6
      rw [cube_laplacian, pderiv, h.fderiv]
      fin_cases s <;> simp
    simp only [this, sub_self, zero_mul]
    simp [len]

/-- -Δu = -6x on the square, with exact values at the boundary. -/
example : ∃ C : ℝ, ∃ f dofs bnd Y P, build2 demo2 2 = .ok f ∧ enumDofs2 demo2 2 4 (fun _ => true) f = .ok (dofs, bnd, P.m) ∧
    dofsCoords2 demo2 2 4 P.m FEM.squareX dofs = .ok Y ∧ problem2 (.neg .lap) demo2 2 4 FEM.squareX (fun _ => true) = .ok P ∧
    ∃ lu : Solver ℝ, ∃ w W, (P.init ⟨2 * size P.t, 1, fun r _ => -6 * meshPoint demo2 FEM.squareX (r / size P.t) (fun w => node ℝ P.t (r % size P.t) w) 0⟩ (fun _ => 0) >>=
        pdeSolveElliptic lu ⟨P.m, 1, fun p _ => (Y p).elim 0 fun x => x 0 ^ 3⟩) = .ok (true, some w) ∧ PiecewiseQuadratic 2 P.dofs Y w W ∧
      gradError2 2 demo2 FEM.squareX (fun x => x 0 ^ 3) W ≤ C * (2 ^ 2 + 1 / 10 ^ 14) ^ 2 ∧
      valueError2 2 demo2 FEM.squareX (fun x => x 0 ^ 3) W ≤ C * (2 ^ 2 + 1 / 10 ^ 14) ^ 2 := by
  obtain ⟨C, hC⟩ := C143_order_partial (D := domain 3 2 demo2 FEM.squareX) 0 (a := 0) (ℓ := 1)
    (fun x hx => by rw [sub_zero, abs_of_nonneg (square_box hx).1]; exact (square_box hx).2) (fun x => x 0 ^ 3) (G := 3) (M := 6) (B := 6) (L := 0) (κ := 4) (H := 2)
    (by norm_num) le_rfl
  refine ⟨C, ?_⟩
  obtain ⟨f, dofs, bnd, Y, P, e1, e2, e3, e4, h⟩ := hC 2 4 demo2 FEM.squareX (fun _ => true) 2 (1 / 2) square_good (fun _ _ _ _ _ _ _ _ => rfl) rfl cube_smooth square_shape
    (by norm_num) (by norm_num) (by norm_num) (by norm_num) rfl
  obtain ⟨lu, h1, h2⟩ := exists_exactLU (K := ℝ) P.m
  refine ⟨f, dofs, bnd, Y, P, e1, e2, e3, e4, lu, h lu h1 h2 _ le_rfl rfl (fun c hc k hk => ?_) _ le_rfl (by norm_num) (fun p hp _ x hx => ?_) _⟩
  · rw [cube_laplacian]
    show -6 * meshPoint demo2 FEM.squareX ((size P.t * c + k) / size P.t) (fun w => node ℝ P.t ((size P.t * c + k) % size P.t) w) 0 = -(6 * _)
    rw [Nat.mul_add_div (by omega), Nat.div_eq_of_lt hk, Nat.mul_add_mod, Nat.mod_eq_of_lt hk, add_zero]
    ring
  · simp only [hx, Option.elim_some]

end Fdapde.PDE
