import Verif.PDE.LemmasNearRounded
import Verif.PDE.PropsSemiInexact
import Verif.PDE.PropsFitRounded
/- C169 : regression with covariates in floating point. -/
set_option linter.unusedSectionVars false
namespace Fdapde.PDE
open Finset FEM LinAlg Fdapde.Fp Quadrature

variable {P : Prob ℝ} {data : Dense ℝ} {ids : List Int} {psi : Nat → Nat → Nat → ℝ} {l : List (Trip ℝ)} {kd v q : Nat} {μ G κ B : ℝ} {X : Nat → Nat → ℝ}

/-- Right-hand side of the system, as computed. -/
noncomputable def semiRhsR (r : Rounding) (S : List ℝ → ℝ) (m L : Nat) (A X : Nat → Nat → ℝ) (lam : ℝ) (y : Nat → ℝ) (c : Fin q → ℝ) (force : Nat → ℝ) :
    Matrix (Fin (m + m)) (Fin 1) ℝ :=
  Matrix.of fun p _ => if (p : Nat) < m then -dotR r S (fun j : Fin L => A j p) (fun j => r.rnd (y j - dotR r S (fun a : Fin q => X j a) c))
    else r.rnd (lam * force (p - m))

/-- Solution of the system, as computed. -/
noncomputable def semiUR (r : Rounding) (S : List ℝ → ℝ) (m L : Nat) (A X : Nat → Nat → ℝ) (F : (Nat → ℝ) → Nat → ℝ) (dense : DenseSolver ℝ q)
    (b : Matrix (Fin (m + m)) (Fin 1) ℝ) (p : Nat) : ℝ :=
  if h : p < m + m then smwSolveFp r S (byColumns (m + m) F) (byColumns (m + m) F) dense (crossBlockR r S m L A X) (gramR r S q L X)
    (crossBlockR r S m L A X).transpose b ⟨p, h⟩ 0 else 0

theorem semi_runR {r : Rounding} {S : List ℝ → ℝ} {data : Dense ℝ} {junk : Nat → ℝ} {s} {M : Nat} (e1 : P.initR r S data junk = .ok s) (e2 : s.n = M)
    (he : pointEval P.n P.nb P.dofs ids psi = .ok l) {lam : ℝ} {A}
    (eA : SB.make 2 2 [⟨M, M, fun p q => -S ((List.range ids.length).map fun j => r.rnd (entry l j p * entry l j q))⟩,
        ⟨M, M, fun p q => r.rnd (lam * s.stiff q p)⟩, ⟨M, M, fun p q => r.rnd (lam * s.stiff p q)⟩,
        ⟨M, M, fun p q => r.rnd (lam * s.mass p q)⟩] = .ok A) {lu : Solver ℝ} {F} (hF : lu (readAll A) = some F)
    (dense : DenseSolver ℝ q) (X : Nat → Nat → ℝ) (y : Nat → ℝ) :
    ∃ u, u = semiUR r S M ids.length (entry l) X F dense (semiRhsR r S M ids.length (entry l) X lam y (regressR r S ids.length dense X y) s.force) ∧
      semiFitR r S lu dense P data junk ids psi lam X y =
        .ok (some (regressR r S ids.length dense X fun j => r.rnd (y j - dotR r S (fun p : Fin M => entry l j p) fun p => u p), u, fun p => u (M + p))) := by
  refine ⟨_, rfl, ?_⟩
  rw [semiFitR, e1, Res.ok_bind, he, Res.ok_bind]
  obtain ⟨sn, s2, s3, s4, s5, s6, s7⟩ := s
  dsimp only at e2
  subst e2
  dsimp only at eA hF ⊢
  rw [eA, Res.ok_bind, hF]
  rfl

/-- Length of the longest chain of roundings. -/
def semiDepth (P : Prob ℝ) (kd v L q : Nat) : Nat := fitDepth P kd v L + q + (P.m + P.m) + 1

set_option maxHeartbeats 1000000 in
/-- **C169** with covariates.  For every problem, locations, covariates identified there and parameter there is a number C such that, in every arithmetic whose
roundings along a computation amount to at most ε (C ε ≤ 1), for all forcings and observations, whatever the memory held and in whatever order sums are made,
with solvers, sparse and dense, of relative residual ε, the program succeeds and differs neither in a coefficient of the covariates nor at a node from the
exact program by more than C ε times the largest of the observations and of the forcing. -/
theorem C169_covariates (h : FitData P data ids psi l) (hX : Identified q P.m ids.length (entry l) X) (hv : Valence P.n P.nb P.dofs v) (lam : ℝ) (hl : 0 < lam)
    (hB : 0 ≤ B)
    (hκ : ∀ c < P.n, ∀ k < size P.t, weakAbs P.N P.op (size P.t * c + k) 1 1 (fun _ => G) (fun _ => G) ≤ κ) :
    ∃ C : ℝ, 0 ≤ C ∧ ∀ (r : Rounding) (S : List ℝ → ℝ) (ms : Nat → ℝ) (ps : Nat → (Nat → ℝ) → ℝ) (gr : Nat → Nat → (Nat → ℝ) → Nat → ℝ)
      (psi' : Nat → Nat → Nat → ℝ), r.Summation S → P.Computed r kd μ G ms ps gr → PsiErr r kd B P.nb ids psi psi' →
      ∀ (data' : Dense ℝ), P.n * size P.t ≤ data'.rows → 0 < data'.cols →
      ∀ (junk y : Nat → ℝ) (ε : ℝ) (lu lu' : Solver ℝ) (dense dense' : DenseSolver ℝ q), r.b ^ semiDepth P kd v ids.length q - 1 ≤ ε → C * ε ≤ 1 →
      BackwardLU (P.m + P.m) ε lu → CompleteLU (P.m + P.m) lu → ExactLU (P.m + P.m) lu' → CompleteLU (P.m + P.m) lu' →
      BackwardDense ε dense → ExactDense dense' →
      ∃ β f g β' f' g', semiFitR r S lu dense (P.withData ms ps gr) data' junk ids psi' lam X y = .ok (some (β, f, g)) ∧
        semiFit lu' dense' P data' junk ids psi lam X y = .ok (some (β', f', g')) ∧
        ∀ Y, 0 ≤ Y → (∀ j < ids.length, |y j| ≤ Y) → (∀ k < P.n * size P.t, |data'.at' k 0| ≤ Y) →
          (∀ a, |β a - β' a| ≤ C * ε * Y) ∧ ∀ p < P.m, |f p - f' p| ≤ C * ε * Y ∧ |g p - g' p| ≤ C * ε * Y := by
  obtain ⟨s0, e1, e2, _, _, _, hS, hM, -⟩ := C102_init P h.ok data h.rows h.cols fun _ => 0
  have hS' : ∀ u v, Splines.pform P.m s0.stiff u v = P.bilin u v := fun u v => by rw [Splines.pform, hS]
  have hM' : ∀ u v, Splines.pform P.m s0.mass u v = P.l2 u v := fun u v => by rw [Splines.pform, hM]
  have hF : Forms P.m ids.length (entry l) s0.stiff s0.mass :=
    ⟨fun v => by rw [hS']; exact h.coercive v, fun v => by rw [hM']; exact h.mass v, fun u v => by rw [hM', hM', l2_symm], h.located⟩
  have hgd : (gram q ids.length X).det ≠ 0 := gram_det fun b hb => (hX 0 b fun j hj => by rw [zero_mul, hb j hj]).2
  set L := ids.length with hL
  set Q := quadEntry P.m (fun p q => -∑ j ∈ range L, entry l j p * entry l j q) (fun p q => lam * s0.stiff q p) (fun p q => lam * s0.stiff p q)
    (fun p q => lam * s0.mass p q) with hQ
  have hdet : (Matrix.of fun i j : Fin (P.m + P.m) => Q i j).det ≠ 0 := quad_det hF hl fun _ _ _ _ => rfl
  -- constants
  set m := (P.nb : ℝ) * B with hm
  have m0 : 0 ≤ m := by positivity
  set mX := mass1 fun (j : Fin L) (a : Fin q) => X j a with hmX
  have x0 : 0 ≤ mX := mass1_nonneg _
  set U : Matrix (Fin (P.m + P.m)) (Fin q) ℝ := crossBlock P.m L (entry l) X with hU
  set mU := mass1 U + 8 * L * m * mX with hmU
  have hU1 : 0 ≤ mass1 U := mass1_nonneg _
  have mU0 : 0 ≤ mU := by positivity
  set mG := mass1 (gram q L X) + 8 * L * mX * mX with hmG
  have hG1 : 0 ≤ mass1 (gram q L X) := mass1_nonneg _
  have mG0 : 0 ≤ mG := by positivity
  obtain ⟨C1, C2, c10, c20, hsys⟩ := fit_system h hv lam hl hB hκ (kd := kd) (μ := μ) hS hM
  obtain ⟨Cd, cd0, hCd⟩ := solve_near (Matrix.of fun i j : Fin (P.m + P.m) => Q i j) hdet c10 zero_le_one
  obtain ⟨Cc, cc0, hc⟩ := regress_nearR hgd zero_le_one
  set CQ := 3 * (1 + 8 * q * mX * Cc) with hCQ
  have cq0 : 0 ≤ CQ := by positivity
  set C0 := 8 * L * m * CQ + C2 with hC0
  have c00 : 0 ≤ C0 := by positivity
  obtain ⟨Cx, cx0, hx⟩ := smw_nearR (Matrix.of fun i j : Fin (P.m + P.m) => Q i j) hdet U (gram q L X)
    (fun Y hY => small_det hF hX hl (B := Q) (fun _ _ _ _ => rfl) Y hY) c00 c10 mU0 mG0
    (fun i a => (entry_le U i a).trans (le_add_of_nonneg_right (by positivity)))
    (fun a c => (entry_le (gram q L X) a c).trans (le_add_of_nonneg_right (by positivity)))
  set CR := 3 * (1 + 8 * P.m * m * Cx) with hCR
  have cr0 : 0 ≤ CR := by positivity
  obtain ⟨Cβ, cβ0, hβ⟩ := regress_nearR hgd cr0
  refine ⟨1 + Cd + Cc + Cx + Cβ, by positivity, fun r S ms ps gr psi' hSum hcomp hpsi data' hr hcol junk y ε lu lu' dense dense' hKε hCε b1 b2 z1 z2 hBd hE => ?_⟩
  have hpow : ∀ k ≤ semiDepth P kd v L q, r.b ^ k - 1 ≤ ε := fun k hk => (sub_le_sub_right (pow_le_pow_right₀ r.one_le_b hk) 1).trans hKε
  have hε : 0 ≤ ε := by linarith [one_le_pow₀ r.one_le_b (n := semiDepth P kd v L q)]
  have hfd : fitDepth P kd v L ≤ semiDepth P kd v L q := by rw [semiDepth]; omega
  have hLd : L + 1 ≤ semiDepth P kd v L q := by rw [semiDepth, fitDepth]; omega
  have hkd : kd ≤ semiDepth P kd v L q := by rw [semiDepth, fitDepth]; omega
  have hu1 : r.u ≤ ε := (u_le_pow (K := semiDepth P kd v L q) (by rw [semiDepth]; omega)).trans hKε
  have t0 := mul_nonneg cd0 hε
  have t1 := mul_nonneg cc0 hε
  have t2 := mul_nonneg cx0 hε
  have t3 := mul_nonneg cβ0 hε
  have ε1 : ε ≤ 1 := by linarith
  obtain ⟨s1, s', l', A, A', e1', e2', i2, n', el', hent, eA, eA', hAQ, hAA', hforce⟩ := hsys r S ms ps gr psi' hSum hcomp hpsi data' hr hcol junk ε (hpow _ hfd)
  set Ac : Matrix (Fin (P.m + P.m)) (Fin (P.m + P.m)) ℝ := Matrix.of fun i j => readAll A' i j with hAc
  have hAA : ∀ i j, |Ac i j - (Matrix.of fun i j : Fin (P.m + P.m) => Q i j) i j| ≤ C1 * ε := fun i j => hAA' i i.2 j j.2
  have hd' : Ac.det ≠ 0 := (hCd ε 0 Ac (fun _ => 0) (fun _ => 0) (fun _ => 0) (fun _ => 0) hε le_rfl (by linarith) hAA ⟨by simp, by simp⟩ (by simp) fun _ i => by simp).1
  have hd : (Matrix.of fun i j : Fin (P.m + P.m) => readAll A i j).det ≠ 0 := by
    have : (Matrix.of fun i j : Fin (P.m + P.m) => readAll A i j) = Matrix.of fun i j : Fin (P.m + P.m) => Q i j := by
      ext i j; exact hAQ i i.2 j j.2
    rw [this]; exact hdet
  obtain ⟨H, hH⟩ := Option.isSome_iff_exists.1 (b2 _ hd')
  obtain ⟨H', hH'⟩ := Option.isSome_iff_exists.1 (z2 _ hd)
  obtain ⟨u, hu, r1⟩ := semi_runR (P := P.withData ms ps gr) i2 n' el' eA' hH dense X y
  obtain ⟨u', hu', r2⟩ := semi_run e1' e2' h.eval eA hH' dense' X y
  refine ⟨_, _, _, _, _, _, r1, r2, fun Y hY0 hy hf => ?_⟩
  rw [← hL] at hu hu'
  -- solvers on vectors
  have exG : ∀ (r : Fin (P.m + P.m) → ℝ) i, ∑ j, (Matrix.of fun i j : Fin (P.m + P.m) => Q i j) i j * H' (ext0 r) j = r i := fun r i => by
    have := z1 _ H' hH' (ext0 r) i i.2
    rw [sum_range, ext0, dif_pos i.2] at this
    rw [← this]
    exact sum_congr rfl fun j _ => by rw [Matrix.of_apply, hAQ i i.2 j j.2]
  have bkG : ∀ r : Fin (P.m + P.m) → ℝ, Backward ε Ac r fun j => H (ext0 r) j := fun r i => by
    have := b1 _ H hH (ext0 r) i i.2
    rw [sum_range, sum_range, show ext0 r i = r i from dif_pos i.2] at this
    exact this
  -- the matrices
  have hen : ∀ i < L, ∀ j, |entry l i j| ≤ m ∧ |entry l' i j - entry l i j| ≤ m * ε := fun i hi j => entry_bounds (hent i hi j) hkd hKε
  have hXb : ∀ (j : Fin L) (a : Fin q), |X j a| ≤ mX := fun j a => entry_le (fun (j : Fin L) (a : Fin q) => X j a) j a
  have nXc : ∀ a : Fin q, Near mX ε 1 (fun j : Fin L => X j a) fun j => X j a := fun a =>
    ⟨fun j => by rw [mul_one]; exact hXb j a, fun j => by rw [sub_self, abs_zero, mul_one]; exact mul_nonneg x0 hε⟩
  have hUU : ∀ i a, |crossBlockR r S P.m L (entry l') X i a - U i a| ≤ mU * ε := fun i a => by
    have k1 : 0 ≤ mass1 U * ε := mul_nonneg hU1 hε
    rw [hU, crossBlockR, crossBlock, Matrix.of_apply, Matrix.of_apply, hmU]
    split_ifs with hi
    · have := ((nXc a).dot hSum (ι := Unit) (M := fun _ j => entry l j i) (M' := fun _ j => entry l' j i) x0 m0 zero_le_one (hpow _ hLd) ε1
        (fun _ j => (hen j j.2 i).1) fun _ j => (hen j j.2 i).2).diff ()
      rw [mul_one] at this
      rw [sum_range]
      linarith
    · rw [sub_self, abs_zero]; exact mul_nonneg mU0 hε
  have hGG : ∀ a c, |gramR r S q L X a c - gram q L X a c| ≤ mG * ε := fun a c => by
    have k1 : 0 ≤ mass1 (gram q L X) * ε := mul_nonneg hG1 hε
    rw [hmG]
    have := ((nXc c).dot hSum (ι := Unit) (M := fun _ j => X j a) (M' := fun _ j => X j a) x0 x0 zero_le_one (hpow _ hLd) ε1
      (fun _ j => hXb j a) fun _ j => by rw [sub_self, abs_zero]; exact mul_nonneg x0 hε).diff ()
    rw [mul_one] at this
    have e : gram q L X a c = ∑ j : Fin L, X j a * X j c := by rw [gram, Matrix.of_apply, sum_range]
    rw [e, gramR, Matrix.of_apply]
    linarith
  -- stages
  have ny : Near 1 ε Y (fun j : Fin L => y j) fun j => y j :=
    ⟨fun j => by rw [one_mul]; exact hy j j.2, fun j => by rw [sub_self, abs_zero, one_mul]; exact mul_nonneg hε hY0⟩
  have nc := hc r S ε Y dense' dense y y hSum (hpow _ hLd) hY0 (by linarith) hE hBd ny
  have nQ := (ny.sub (nc.dot hSum (M := fun (j : Fin L) (a : Fin q) => X j a) (M' := fun (j : Fin L) (a : Fin q) => X j a) cc0 x0 hY0
    (hpow _ (by rw [semiDepth]; omega)) ε1 hXb fun j a => by rw [sub_self, abs_zero]; exact mul_nonneg x0 hε)).rnd hu1 ε1
  have nb0 := nQ.dot hSum (M := fun (p : Fin P.m) (j : Fin L) => entry l j p) (M' := fun (p : Fin P.m) (j : Fin L) => entry l' j p) cq0 m0 hY0 (hpow _ hLd) ε1
    (fun p j => (hen j j.2 p).1) fun p j => (hen j j.2 p).2
  have nb : Near C0 ε Y (fun i => semiRhs P.m L (entry l) X lam y (regress L dense' X y) s1.force i 0)
      fun i => semiRhsR r S P.m L (entry l') X lam y (regressR r S L dense X y) s'.force i 0 := by
    have k1 : 0 ≤ C2 * Y := by positivity
    have k2 : 0 ≤ 8 * L * m * CQ * Y := by positivity
    have k3 : 0 ≤ C2 * ε * Y := by positivity
    have k4 : 0 ≤ 8 * L * m * CQ * ε * Y := by positivity
    refine ⟨fun i => ?_, fun i => ?_⟩
    · by_cases hi : (i : Nat) < P.m
      · have := nb0.size ⟨i, hi⟩
        rw [semiRhs, Matrix.of_apply, if_pos hi, abs_neg, sum_range, hC0, add_mul]
        exact this.trans (le_add_of_nonneg_right k1)
      · have := (hforce Y hY0 hf (i - P.m) (by omega)).1
        rw [semiRhs, Matrix.of_apply, if_neg hi, hC0, add_mul]
        exact this.trans (le_add_of_nonneg_left k2)
    · by_cases hi : (i : Nat) < P.m
      · have := nb0.diff ⟨i, hi⟩
        rw [semiRhs, semiRhsR, Matrix.of_apply, Matrix.of_apply, if_pos hi, if_pos hi, sum_range, ← neg_sub', abs_neg, hC0, add_mul, add_mul]
        exact this.trans (le_add_of_nonneg_right k3)
      · have := (hforce Y hY0 hf (i - P.m) (by omega)).2
        rw [semiRhs, semiRhsR, Matrix.of_apply, Matrix.of_apply, if_neg hi, if_neg hi, hC0, add_mul, add_mul]
        exact this.trans (le_add_of_nonneg_left k4)
  have nx := hx r S ε Y Ac (crossBlockR r S P.m L (entry l') X) (gramR r S q L X) H' H dense' dense _ _ hSum (hpow _ (by rw [semiDepth]; omega)) hY0 (by linarith)
    hAA hUU hGG exG bkG hE hBd nb
  have nu : ∀ p, p < P.m + P.m → |u' p| ≤ Cx * Y ∧ |u p - u' p| ≤ Cx * ε * Y := fun p hp => by
    rw [hu, hu', semiU, semiUR, dif_pos hp, dif_pos hp]
    exact ⟨nx.size ⟨p, hp⟩, nx.diff ⟨p, hp⟩⟩
  have nf : Near Cx ε Y (fun p : Fin P.m => u' p) fun p => u p := ⟨fun p => (nu p (by omega)).1, fun p => (nu p (by omega)).2⟩
  have nr := (ny.sub (nf.dot hSum (M := fun (j : Fin L) (p : Fin P.m) => entry l j p) (M' := fun (j : Fin L) (p : Fin P.m) => entry l' j p) cx0 m0 hY0
    (hpow _ (by rw [semiDepth]; omega)) ε1 (fun j p => (hen j j.2 p).1) fun j p => (hen j j.2 p).2)).rnd hu1 ε1
  have nβ := hβ r S ε Y dense' dense (fun j => y j - ∑ p ∈ range P.m, entry l j p * u' p)
    (fun j => r.rnd (y j - dotR r S (fun p : Fin P.m => entry l' j p) fun p => u p)) hSum (hpow _ hLd) hY0 (by linarith) hE hBd
    (by simp only [sum_range]; exact nr)
  have gx : Cx * ε * Y ≤ (1 + Cd + Cc + Cx + Cβ) * ε * Y := mul_le_mul_of_nonneg_right (mul_le_mul_of_nonneg_right (by linarith) hε) hY0
  have gβ : Cβ * ε * Y ≤ (1 + Cd + Cc + Cx + Cβ) * ε * Y := mul_le_mul_of_nonneg_right (mul_le_mul_of_nonneg_right (by linarith) hε) hY0
  exact ⟨fun a => (nβ.diff a).trans gβ, fun p hp => ⟨(nu p (by omega)).2.trans gx, (nu (P.m + p) (by omega)).2.trans gx⟩⟩

end Fdapde.PDE
