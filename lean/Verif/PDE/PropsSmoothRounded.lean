import Verif.PDE.LemmasSmoothRounded
import Verif.PDE.PropsFitInexact
import Verif.PDE.LemmasNear
/- C170 : smoothing splines in floating point. -/
namespace Fdapde.PDE
open Finset Fdapde.Fp
open Splines (padFn tab z0 z0F cdb cdbF Good)
variable {tol : ℝ} {R : Nat} {knots qn qw locs : List ℝ}

/-- What the rounded program does. -/
theorem smooth_runR (r : Rounding) (tol : ℝ) (R : Nat) (h2 : 2 ≤ knots.length) (qn qw : List ℝ) (hl : locs ≠ []) :
    ∃ (P : Nat → Nat → ℝ) (l : List (Nat × Nat × ℝ)),
      (∀ i < knots.length + R - 1, ∀ j < knots.length + R - 1, P i j = entryF r.ops R
        (Splines.spanQF r.ops tol R (tab (knots.length + 2 * R) (padFn R knots)) (qn.map r.rnd) (qw.map r.rnd) (.neg .bilap)) (max i j) (min i j)) ∧
      (∀ j < locs.length, ∀ i < knots.length + R - 1, Splines.entry l j i =
        cdbF r (padFn R knots) (z0F r tol R (knots.length + 2 * R) (padFn R knots) (locs.getD j 0)) (locs.getD j 0) R i) ∧
      ∀ (S : List ℝ → ℝ) (lu : Solver ℝ) (lam : ℝ) (y : Nat → ℝ) f, lu (normalMatrixR r S locs.length (Splines.entry l) P lam) = some f →
        smoothR r S tol R knots qn qw lu locs lam y = .ok (some (tab (knots.length + 2 * R) (padFn R knots), P,
          (List.range (knots.length + R - 1)).map (f (normalRhsR r S locs.length (Splines.entry l) y)))) := by
  have hs : Splines.size R (tab (knots.length + 2 * R) (padFn R knots)) = knots.length + R - 1 := by
    unfold Splines.size; rw [Splines.tab_length]; omega
  obtain ⟨lP, eP, hP⟩ := assembleF_eq r.ops (R := R) (nk := (tab (knots.length + 2 * R) (padFn R knots)).length) (M := knots.length + R - 1)
    (Splines.spanQF r.ops tol R (tab (knots.length + 2 * R) (padFn R knots)) (qn.map r.rnd) (qw.map r.rnd) (.neg .bilap)) (by rw [Splines.tab_length]; omega)
  obtain ⟨lM, eM, -⟩ := assembleF_eq r.ops (R := R) (nk := (tab (knots.length + 2 * R) (padFn R knots)).length) (M := knots.length + R - 1)
    (Splines.spanQF r.ops tol R (tab (knots.length + 2 * R) (padFn R knots)) (qn.map r.rnd) (qw.map r.rnd) (.react fun _ => 1)) (by rw [Splines.tab_length]; omega)
  obtain ⟨l, el, hE⟩ := evalTripletsF_eq r tol R knots (by omega) locs hl
  refine ⟨Splines.matrix true lP, l, fun i hi j hj => ?_, hE, fun S lu lam y f hf => ?_⟩
  · unfold Splines.matrix
    simp only [if_true]
    split_ifs with h
    · rw [max_eq_left h, min_eq_right h]; exact hP i hi j h
    · rw [max_eq_right (by omega), min_eq_left (by omega)]; exact hP j hj i (by omega)
  · have hc := Splines.pad_eq R (knots.map (Splines.mapNodeF r.ops (knots.getD 0 0) (knots.getD (knots.length - 1) 0))) (by rw [List.length_map]; omega)
    rw [smoothR, Splines.createF, Splines.pad_eq R knots (by omega), Res.ok_bind, Splines.rd_eq (by omega), Res.ok_bind, Splines.rd_eq (by omega), Res.ok_bind,
      hc, Res.ok_bind, Res.ok_bind, Splines.initF]
    dsimp only
    rw [Splines.pad_eq R knots (by omega), Res.ok_bind, hs, eP, Res.ok_bind, eM, Res.ok_bind, Res.ok_bind]
    dsimp only
    rw [el, Res.ok_bind, hf]
    dsimp only [Splines.SpSolver.nDofs]
    rw [hs]

/-- The exact matrix. -/
theorem stiff_exact {s s' : Splines.SpSolver ℝ} (h2 : 2 ≤ knots.length) (e1 : Splines.SpSolver.create R knots = .ok s) (e2 : s.init tol R qn qw (.neg .bilap) = .ok s') :
    ∀ i < knots.length + R - 1, ∀ j < knots.length + R - 1, s'.stiff i j =
      ∑ k ∈ Ico (min i j) (max i j + R + 1), Splines.spanQ tol R (tab (knots.length + 2 * R) (padFn R knots)) qn qw (.neg .bilap) (max i j) (min i j) k := by
  have hs : Splines.size R (tab (knots.length + 2 * R) (padFn R knots)) = knots.length + R - 1 := by
    unfold Splines.size; rw [Splines.tab_length]; omega
  rw [Splines.create_eq R knots (by omega)] at e1
  obtain rfl := Res.ok.inj e1
  rw [Splines.SpSolver.init] at e2
  dsimp only at e2
  rw [Splines.pad_eq R knots (by omega), Res.ok_bind, hs, Splines.assemble_eq _ (by rw [Splines.tab_length]; omega), Res.ok_bind,
    Splines.assemble_eq _ (by rw [Splines.tab_length]; omega), Res.ok_bind] at e2
  obtain rfl := Res.ok.inj e2
  intro i hi j hj
  dsimp only
  unfold Splines.matrix
  simp only [if_true]
  split_ifs with h
  · rw [max_eq_left h, min_eq_right h, Splines.entry_rows R _ i j h, if_pos hi]
  · rw [max_eq_right (by omega), min_eq_left (by omega), Splines.entry_rows R _ j i (by omega), if_pos hj]

/-- **C170** (partial: no operation overflows or underflows, the last span is not shorter than the tolerance).  For every smoothing problem and parameter
there is a number C such that, in every arithmetic in which the tolerance is exact, whatever the order in which products are added up, and with any
solver of relative residual ε (ε not smaller than the unit roundoff, C ε ≤ 1), the program with all operations rounded succeeds, and the coefficients
it returns differ from those of the exact minimizer by at most C ε times the largest observation, even if the observations given to it
are themselves wrong by ε times the largest; and so does the value of the spline computed, with
rounding, at any point between the first and the last knot from the value of the exact minimizer there. -/
theorem C170_smoothing_partial (h : Splines.SmoothData tol R knots qn qw locs) (lam : ℝ) (hl : 0 < lam) :
    ∃ C : ℝ, 0 ≤ C ∧ ∀ (r : Rounding) (S : List ℝ → ℝ), r.Summation S → r.rnd tol = tol →
      ∀ (y y' : Nat → ℝ) (ε : ℝ) (lu lu' : Solver ℝ), r.u ≤ ε → C * ε ≤ 1 →
      BackwardLU (knots.length + R - 1) ε lu → CompleteLU (knots.length + R - 1) lu →
      ExactLU (knots.length + R - 1) lu' → CompleteLU (knots.length + R - 1) lu' →
      ∃ t P P' c c', smoothR r S tol R knots qn qw lu locs lam y' = .ok (some (t, P, c)) ∧
        Splines.smooth tol R knots qn qw lu' locs lam y = .ok (some (t, P', c')) ∧
        c.length = knots.length + R - 1 ∧ c'.length = knots.length + R - 1 ∧
        ∀ Y, 0 ≤ Y → (∀ j < locs.length, |y j| ≤ Y ∧ |y' j - y j| ≤ ε * Y) →
          (∀ p < knots.length + R - 1, |c.getD p 0 - c'.getD p 0| ≤ C * ε * Y) ∧
          ∀ x, knots.getD 0 0 ≤ x → x ≤ knots.getD (knots.length - 1) 0 → ∃ v v', Splines.expansionF r.ops tol R t c x = .ok v ∧
            Splines.expansion tol R t c' x = .ok v' ∧ |v - v'| ≤ C * ε * Y := by
  have two := h.good.two
  have hm := Splines.padFn_mono R h.good.incr (by omega)
  obtain ⟨s, s', h1, h2, h3, hb, -⟩ := Splines.solver_forms tol R knots h.good qn qw h.inside (.neg .bilap)
  obtain ⟨x1, m1, -⟩ := h.two
  have hlocs := List.ne_nil_of_mem m1
  obtain ⟨t, ht, l, el, hE⟩ := Splines.C85_evaluation_matrix tol R knots (by omega) locs hlocs
  rw [Splines.pad_eq R knots (by omega)] at ht
  obtain rfl := Res.ok.inj ht
  have hs : Splines.size R (tab (knots.length + 2 * R) (padFn R knots)) = knots.length + R - 1 := by
    unfold Splines.size; rw [Splines.tab_length]; omega
  set n := knots.length + R - 1 with hn
  set m := locs.length with hmm
  set A := Splines.normalMatrix m (Splines.entry l) s'.stiff lam with hA
  have run : ∀ (lu : Solver ℝ) f y, lu A = some f → Splines.smooth tol R knots qn qw lu locs lam y =
      .ok (some (tab (knots.length + 2 * R) (padFn R knots), s'.stiff, (List.range n).map (f (Splines.normalRhs m (Splines.entry l) y)))) := fun lu f y hf => by
    rw [Splines.smooth, h1, Res.ok_bind, h2, Res.ok_bind, hb, el, Res.ok_bind, ← hA, hf, h3]
  have hdet : (Matrix.of fun i j : Fin n => A i j).det ≠ 0 := by
    obtain ⟨lu, a1, a2, a3⟩ := exists_refusingLU n
    obtain ⟨l', S', -, -, hh⟩ := Splines.smooth_core h a1 a2
    obtain ⟨c, -, e, -⟩ := (hh lam hl).2 fun _ => 0
    refine a3 A ?_
    cases hlu : lu A with
    | some f => rfl
    | none => rw [Splines.smooth, h1, Res.ok_bind, h2, Res.ok_bind, hb, el, Res.ok_bind, ← hA, hlu] at e; simp at e
  choose P' l' hP' hE' runR using fun r : Rounding => smooth_runR (knots := knots) (locs := locs) r tol R two qn qw hlocs
  -- entries of the matrices
  have tE : ∀ j < m, ∀ i < n, Tame (Sound tol) (Splines.entry l j i) fun e => Splines.entry (l' e.1) j i := by
    intro j hj i hi
    have hmem : locs.getD j 0 ∈ locs := by
      rw [List.getD_eq_getElem?_getD, List.getElem?_eq_getElem hj, Option.getD_some]; exact List.getElem_mem _
    have e1 := (hE j i).1 (locs.getD j 0) (by rw [List.getD_eq_getElem?_getD, List.getElem?_eq_getElem hj]; rfl) (by rw [hs]; exact hi)
    rw [Splines.basis_value (by omega) hi] at e1
    rw [← Res.ok.inj e1]
    refine (cdb_tame hm (Tame.const (locs.getD j 0)) R i).congr le_rfl fun e he _ => ?_
    rw [hE' e.1 j hj i hi, Splines.z0F_eq e.1 he.2 h.good (Or.inl (h.range _ hmem).2)]
  have tP : ∀ i < n, ∀ j < n, Tame (Sound tol) (s'.stiff i j) fun e => P' e.1 i j := by
    intro i hi j hj
    rw [stiff_exact two h1 h2 i hi j hj, entry_exact (nk := knots.length + 2 * R) (M := n) _ (by omega) (max_lt hi hj) ((min_le_left _ _).trans_lt hi)]
    refine (Tame.fold _ (fun k hk => spanQ_tame h.good h.inside (max_lt hi hj) ((min_le_left _ _).trans_lt hi) ?_) (Tame.const 0)).congr le_rfl fun e _ _ => hP' e.1 i hi j hj
    rw [List.mem_range'_1] at hk
    have := max_lt hi hj
    omega
  have tA : ∀ p < n, ∀ q < n, Tame (Sound tol) (A p q) fun e => normalMatrixR e.1 e.2 m (Splines.entry (l' e.1)) (P' e.1) lam p q := by
    intro p hp q hq
    have d := Tame.dot (T := Sound tol) (fun e he => he.1) (n := m) (f := fun j => Splines.entry l j p) (g := fun j => Splines.entry l j q)
      (f' := fun j e => Splines.entry (l' e.1) j p) (g' := fun j e => Splines.entry (l' e.1) j q) (fun j hj => tE j hj p hp) fun j hj => tE j hj q hq
    have := (d.add ((Tame.const lam).mul (tP p hp q hq)).rnd).rnd
    rw [← sum_range fun j => Splines.entry l j p * Splines.entry l j q] at this
    exact this
  obtain ⟨C1, c10, hC1⟩ := Tame.all2 tA
  obtain ⟨Cp, cp0, hCp⟩ := Tame.all2 tE
  set mp := Cp + ∑ j ∈ range m, ∑ i ∈ range n, |Splines.entry l j i| with hmp
  have sp0 : 0 ≤ ∑ j ∈ range m, ∑ i ∈ range n, |Splines.entry l j i| := sum_nonneg fun _ _ => sum_nonneg fun _ _ => abs_nonneg _
  have mp0 : 0 ≤ mp := by positivity
  have m0 : (0 : ℝ) ≤ m := Nat.cast_nonneg m
  set c : ℝ := 2 * (m + 2) with hc
  have c1 : 1 ≤ c := by rw [hc]; linarith
  obtain ⟨C3, c30, hC3⟩ := solve_near (Matrix.of fun i j : Fin n => A i j) hdet c10 (show 0 ≤ c * (8 * m * mp * 1) by positivity)
  set K : ℝ := ((n + 6 * R + 1 : Nat) : ℝ) with hK
  have K0 : 0 ≤ K := Nat.cast_nonneg _
  set Z := C1 + Cp + c + 2 * K + 4 * K * C3 with hZ
  refine ⟨Z + C3, by positivity, fun r S hS htol y y' ε lu lu' hu hCε b1 b2 e1 e2 => ?_⟩
  have u0 := r.u_pos
  have ε0 : 0 ≤ ε := u0.trans hu
  have p1 := mul_nonneg c10 ε0
  have p2 := mul_nonneg cp0 ε0
  have p3 : 0 ≤ c * ε := by positivity
  have p4 := mul_nonneg c30 ε0
  have p5 := mul_nonneg K0 ε0
  have p6 : 0 ≤ 4 * K * C3 * ε := by positivity
  rw [hZ] at hCε
  have q1 := mul_le_mul_of_nonneg_left hu c10
  have q2 := mul_le_mul_of_nonneg_left hu cp0
  have q3 : c * r.u ≤ c * ε := mul_le_mul_of_nonneg_left hu (by linarith)
  have dA := hC1 (r, S) ⟨hS, htol⟩ (by dsimp only; linarith)
  have dE := hCp (r, S) ⟨hS, htol⟩ (by dsimp only; linarith)
  dsimp only at dA dE
  have hpow := Tame.pow_le r (m + 1) (by push_cast; rw [hc] at q3 hCε p3; linarith)
  push_cast at hpow
  have hpc : r.b ^ (m + 1) - 1 ≤ c * ε := by
    refine hpow.trans (le_trans ?_ q3)
    rw [hc]; linarith
  have εc : ε ≤ c * ε := le_mul_of_one_le_left ε0 c1
  set A' := normalMatrixR r S m (Splines.entry (l' r)) (P' r) lam with hA'
  set b := Splines.normalRhs m (Splines.entry l) y with hbb
  set b' := normalRhsR r S m (Splines.entry (l' r)) y' with hbb'
  have nb : ∀ Y, 0 ≤ Y → (∀ j < m, |y j| ≤ Y ∧ |y' j - y j| ≤ ε * Y) → Near (c * (8 * m * mp * 1)) ε Y (fun p : Fin n => b p) fun p => b' p := by
    intro Y hY hy
    have ny : Near 1 (c * ε) Y (fun j : Fin m => y j) fun j => y' j :=
      ⟨fun j => by rw [one_mul]; exact (hy j j.2).1, fun j => by rw [one_mul]; exact (hy j j.2).2.trans (mul_le_mul_of_nonneg_right εc hY)⟩
    have := ny.dot hS (ι := Fin n) (M := fun p j => Splines.entry l j p) (M' := fun p j => Splines.entry (l' r) j p) zero_le_one mp0 hY hpc (by linarith)
      (fun p j => by
        have a1 := single_le_sum (f := fun i => |Splines.entry l j i|) (fun _ _ => abs_nonneg _) (mem_range.2 p.2)
        have a2 := single_le_sum (f := fun j => ∑ i ∈ range n, |Splines.entry l j i|) (fun _ _ => sum_nonneg fun _ _ => abs_nonneg _) (mem_range.2 j.2)
        rw [hmp]
        linarith)
      fun p j => (dE j j.2 p p.2).trans (q2.trans ((mul_le_mul_of_nonneg_left εc cp0).trans (mul_le_mul_of_nonneg_right (by rw [hmp]; linarith) p3)))
    have := this.scale c1 (by positivity) hY
    refine ⟨fun p => ?_, fun p => ?_⟩
    · have := this.size p
      rw [← sum_range fun j => Splines.entry l j p * y j] at this
      exact this
    · have := this.diff p
      rw [← sum_range fun j => Splines.entry l j p * y j] at this
      exact this
  obtain ⟨f', hf'⟩ := Option.isSome_iff_exists.1 (e2 A hdet)
  set F : Nat → ℝ := (lu A').elim (fun _ => 0) fun f => f b' with hF
  have core : ∀ Y, 0 ≤ Y → (∀ j < m, |y j| ≤ Y ∧ |y' j - y j| ≤ ε * Y) → (Matrix.of fun i j : Fin n => A' i j).det ≠ 0 ∧ Near C3 ε Y (fun p : Fin n => f' b p) fun p => F p := by
    intro Y hY hy
    refine hC3 ε Y (Matrix.of fun i j : Fin n => A' i j) (fun p => b p) (fun p => b' p) _ _ ε0 hY (by linarith)
      (fun i j => (dA i i.2 j j.2).trans q1) (nb Y hY hy) (fun i => ?_) fun hd i => ?_
    · have := e1 A f' hf' b i i.2
      rw [sum_range] at this
      exact this
    · obtain ⟨f, hf⟩ := Option.isSome_iff_exists.1 (b2 A' hd)
      have := b1 A' f hf b' i i.2
      rw [sum_range, sum_range] at this
      rw [hF, hf]
      exact this
  have hd := (hC3 ε 0 (Matrix.of fun i j : Fin n => A' i j) (fun _ => 0) (fun _ => 0) (fun _ => 0) (fun _ => 0) ε0 le_rfl (by linarith)
    (fun i j => (dA i i.2 j j.2).trans q1) ⟨fun i => by simp, fun i => by simp⟩ (fun i => by simp) fun _ i => by simp).1
  obtain ⟨f, hf⟩ := Option.isSome_iff_exists.1 (b2 A' hd)
  refine ⟨_, _, _, _, _, runR r S lu lam y' f hf, run lu' f' y hf', by simp [hn], by simp, fun Y hY hy => ?_⟩
  have near := (core Y hY hy).2
  rw [hF, hf] at near
  have hco : ∀ p < n, |((List.range n).map (f b')).getD p 0 - ((List.range n).map (f' b)).getD p 0| ≤ C3 * ε * Y := by
    intro p hp
    rw [Splines.getD_map_range _ _ _ hp, Splines.getD_map_range _ _ _ hp]
    exact near.diff ⟨p, hp⟩
  have Z0 : 0 ≤ Z * ε * Y := by rw [hZ]; positivity
  refine ⟨fun p hp => (hco p hp).trans (by linarith), fun x hx0 hx1 => ?_⟩
  have csz : ∀ z ∈ (List.range n).map (f b'), |z| ≤ 2 * C3 * Y := by
    intro z hz
    obtain ⟨p, hp, rfl⟩ := List.mem_map.1 hz
    have hp := List.mem_range.1 hp
    have a1 := near.size ⟨p, hp⟩
    have a2 := near.diff ⟨p, hp⟩
    have a3 := abs_add_le (f b' p - f' b p) (f' b p)
    rw [sub_add_cancel] at a3
    have a4 := mul_le_mul_of_nonneg_right (mul_le_mul_of_nonneg_left (show ε ≤ 1 by linarith) c30) hY
    dsimp only [Option.elim] at a1 a2
    linarith
  obtain ⟨t, w, w', et, ew, ew', hw⟩ := Splines.C134_expansion_partial r tol htol R knots h.good x hx0 hx1 ((List.range n).map (f b')) (by simp [hn]) csz
  rw [Splines.pad_eq R knots (by omega)] at et
  obtain rfl := Res.ok.inj et
  rw [List.length_map, List.length_range, ← hK] at hw
  refine ⟨w', _, ew', Splines.expansion_values h.good (by simp [hn]) x, ?_⟩
  have eq := ew.symm.trans (Splines.expansion_values h.good (by simp [hn]) x)
  have Ku := mul_le_mul_of_nonneg_left hu K0
  have w1 : |w' - w| ≤ 4 * K * C3 * ε * Y := by
    have g1 := mul_le_mul_of_nonneg_right (show 1 / 2 ≤ 1 - K * r.u by linarith) (abs_nonneg (w' - w))
    have g2 := mul_le_mul_of_nonneg_right Ku (show 0 ≤ 2 * C3 * Y by positivity)
    linarith
  suffices hv : |w - ∑ i ∈ range n, ((List.range n).map (f' b)).getD i 0 * cdb (padFn R knots) (z0 tol R (knots.length + 2 * R) (padFn R knots) x) x R i| ≤ C3 * ε * Y by
    have g3 := abs_add_le (w' - w) (w - ∑ i ∈ range n, ((List.range n).map (f' b)).getD i 0 * cdb (padFn R knots) (z0 tol R (knots.length + 2 * R) (padFn R knots) x) x R i)
    rw [sub_add_sub_cancel] at g3
    have : 4 * K * C3 * ε * Y ≤ Z * ε * Y := mul_le_mul_of_nonneg_right (mul_le_mul_of_nonneg_right (by rw [hZ]; linarith) ε0) hY
    linarith
  rw [Res.ok.inj eq]
  obtain ⟨j, hj, hlo, hhi⟩ := Splines.exists_span two hx0 hx1
  have sp := Splines.inSpan_of (R := R) h.good hj hlo hhi
  have hsum := Splines.cdb_sum hm sp n (by omega) R (by omega)
  rw [← sum_sub_distrib]
  calc _ ≤ ∑ i ∈ range n, C3 * ε * Y * cdb (padFn R knots) (z0 tol R (knots.length + 2 * R) (padFn R knots) x) x R i := by
          refine (abs_sum_le_sum_abs _ _).trans (sum_le_sum fun i hi => ?_)
          have n0 := Splines.cdb_nonneg hm sp R i
          rw [← sub_mul, abs_mul, abs_of_nonneg n0]
          exact mul_le_mul_of_nonneg_right (hco i (mem_range.1 hi)) n0
    _ = C3 * ε * Y := by rw [← mul_sum, hsum, mul_one]

/-- Data on a line, given up to the relative error ε, are reproduced up to the errors of the arithmetic and of the solver, whatever the parameter: the value computed for the fitted spline
differs nowhere between the first and the last knot from the line by more than C ε times the largest observation. -/
theorem C170_lines_partial (h : Splines.SmoothData tol R knots qn qw locs) (lam : ℝ) (hl : 0 < lam) :
    ∃ C : ℝ, 0 ≤ C ∧ ∀ (r : Rounding) (S : List ℝ → ℝ), r.Summation S → r.rnd tol = tol →
      ∀ (y : Nat → ℝ) (α β ε : ℝ) (lu : Solver ℝ), r.u ≤ ε → C * ε ≤ 1 →
      BackwardLU (knots.length + R - 1) ε lu → CompleteLU (knots.length + R - 1) lu →
      ∃ t P c, smoothR r S tol R knots qn qw lu locs lam y = .ok (some (t, P, c)) ∧
        ∀ Y, 0 ≤ Y → (∀ j < locs.length, |α + β * locs.getD j 0| ≤ Y ∧ |y j - (α + β * locs.getD j 0)| ≤ ε * Y) → ∀ x, knots.getD 0 0 ≤ x → x ≤ knots.getD (knots.length - 1) 0 →
          ∃ v, Splines.expansionF r.ops tol R t c x = .ok v ∧ |v - (α + β * x)| ≤ C * ε * Y := by
  obtain ⟨C, c0, hC⟩ := C170_smoothing_partial h lam hl
  refine ⟨C, c0, fun r S hS ht y α β ε lu hu hε b1 b2 => ?_⟩
  obtain ⟨lu', x1, x2⟩ := exists_exactLU (K := ℝ) (knots.length + R - 1)
  obtain ⟨t, P, P', c, c', r1, r2, -, -, hh⟩ := hC r S hS ht (fun j => α + β * locs.getD j 0) y ε lu lu' hu hε b1 b2 x1 x2
  obtain ⟨t2, P2, c2, r3, hx⟩ := Splines.C161_lines_partial h x1 x2 lam hl (fun j => α + β * locs.getD j 0) α β fun _ _ => rfl
  rw [r2] at r3
  obtain ⟨rfl, rfl, rfl⟩ : t = t2 ∧ P' = P2 ∧ c' = c2 := by simpa using r3
  refine ⟨t, P, c, r1, fun Y hY hyY x a b => ?_⟩
  obtain ⟨v, v', e1, e2, hv⟩ := (hh Y hY hyY).2 x a b
  rw [hx x a b] at e2
  rw [Res.ok.inj e2]
  exact ⟨v, e1, hv⟩

/-- An arithmetic in which the numbers up to 1/10 are exact, and the others wrong by the factor 1 + `u`. -/
noncomputable def upwardAbove (u : ℝ) (h0 : 0 ≤ u) (h1 : u < 1) : Rounding where
  rnd := fun x => if |x| ≤ 1 / 10 then x else (1 + u) * x
  u := u
  u_pos := h0
  u_lt := h1
  err := fun x => by
    split_ifs
    · rw [sub_self, abs_zero]; positivity
    · rw [show (1 + u) * x - x = u * x by ring, abs_mul, abs_of_nonneg h0]
  mono := fun x y h => by
    dsimp only
    split_ifs with a b b
    · exact h
    · have y0 : 0 ≤ y := by
        by_contra hy
        have := (abs_le.1 a).1
        exact b (abs_le.2 ⟨by linarith, by linarith⟩)
      have := mul_nonneg h0 y0
      linarith
    · have x0 : x ≤ 0 := by
        by_contra hx
        have := (abs_le.1 b).2
        exact a (abs_le.2 ⟨by linarith, by linarith⟩)
      have := mul_nonpos_of_nonneg_of_nonpos h0 x0
      linarith
    · exact mul_le_mul_of_nonneg_left h (by linarith)
  odd := fun x => by
    rw [abs_neg]
    split_ifs
    · rfl
    · ring

/-- The example of C161: cubic splines on the knots 0, 1, 3, with the rule of the library, and data at 1/2, 2 and 3; an arithmetic and a solver that are
not exact. -/
example (y : Nat → ℝ) : ∃ (C : ℝ) (r : Rounding) (lu lu' : Solver ℝ) (t : List ℝ) (P P' : Nat → Nat → ℝ) (c c' : List ℝ), 0 < r.u ∧ (∀ x, 1 / 10 < x → r.rnd x = (1 + r.u) * x) ∧
    smoothR r r.sumLeft (1 / 10) 3 [0, 1, 3] (Splines.splineNodes ℝ) (Splines.splineWeights ℝ) lu [1 / 2, 2, 3] 7 y = .ok (some (t, P, c)) ∧
    Splines.smooth (1 / 10) 3 [0, 1, 3] (Splines.splineNodes ℝ) (Splines.splineWeights ℝ) lu' [1 / 2, 2, 3] 7 y = .ok (some (t, P', c')) ∧
    c.length = 5 ∧ ∀ Y, 0 ≤ Y → (∀ j < 3, |y j| ≤ Y) → ∀ p < 5, |c.getD p 0 - c'.getD p 0| ≤ C * r.u * Y := by
  obtain ⟨C, c0, hC⟩ := C170_smoothing_partial Splines.demo_smooth 7 (by norm_num)
  have hp : 0 < 1 / (C + 2) := by positivity
  have hp1 : 1 / (C + 2) < 1 := by rw [div_lt_one (by linarith)]; linarith
  obtain ⟨lu, b1, b2, -⟩ := exists_inflatedLU 5 hp.le
  obtain ⟨lu', x1, x2⟩ := exists_exactLU (K := ℝ) 5
  obtain ⟨t, P, P', c, c', r1, r2, hc, -, hh⟩ := hC (upwardAbove _ hp.le hp1) _ (fun l => Rounding.sumLeft_adds _ l) (if_pos (by norm_num)) y y (1 / (C + 2)) lu lu' le_rfl
    (by rw [mul_one_div, div_le_one (by linarith)]; linarith) b1 b2 x1 x2
  refine ⟨C, upwardAbove _ hp.le hp1, lu, lu', t, P, P', c, c', hp, fun x hx => if_neg ?_, r1, r2, hc, fun Y hY hy => (hh Y hY fun j hj => ⟨hy j hj, by rw [sub_self, abs_zero]; exact mul_nonneg hp.le hY⟩).1⟩
  rw [abs_of_pos (by linarith)]
  linarith

/-- The data 4, 7, 9 at 1/2, 2 and 3 lie on the line 3 + 2 x. -/
example : ∃ (C : ℝ) (r : Rounding) (lu : Solver ℝ) (t : List ℝ) (P : Nat → Nat → ℝ) (c : List ℝ), 0 < r.u ∧
    smoothR r r.sumLeft (1 / 10) 3 [0, 1, 3] (Splines.splineNodes ℝ) (Splines.splineWeights ℝ) lu [1 / 2, 2, 3] 7 (fun j => [4, 7, 9].getD j 0) = .ok (some (t, P, c)) ∧
    ∀ x, 0 ≤ x → x ≤ 3 → ∃ v, Splines.expansionF r.ops (1 / 10) 3 t c x = .ok v ∧ |v - (3 + 2 * x)| ≤ C * r.u * 9 := by
  obtain ⟨C, c0, hC⟩ := C170_lines_partial Splines.demo_smooth 7 (by norm_num)
  have hp : 0 < 1 / (C + 2) := by positivity
  have hp1 : 1 / (C + 2) < 1 := by rw [div_lt_one (by linarith)]; linarith
  obtain ⟨lu, b1, b2, -⟩ := exists_inflatedLU 5 hp.le
  obtain ⟨t, P, c, r1, hh⟩ := hC (upwardAbove _ hp.le hp1) _ (fun l => Rounding.sumLeft_adds _ l) (if_pos (by norm_num)) (fun j => [4, 7, 9].getD j 0) 3 2 (1 / (C + 2)) lu le_rfl
    (by rw [mul_one_div, div_le_one (by linarith)]; linarith) b1 b2
  refine ⟨C, upwardAbove _ hp.le hp1, lu, t, P, c, hp, r1, fun x h0 h1 => ?_⟩
  exact hh 9 (by norm_num) (by
      intro j hj
      have hj : j < 3 := hj
      rcases (by omega : j = 0 ∨ j = 1 ∨ j = 2) with rfl | rfl | rfl <;> refine ⟨by norm_num [List.getD], ?_⟩ <;> norm_num [List.getD] <;> positivity) x (by simpa [List.getD] using h0) (by simpa [List.getD] using h1)

end Fdapde.PDE
