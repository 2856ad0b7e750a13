import Verif.PDE.PropsSmoothRounded
/- C170 : the matrices of the spline solver in floating point, for all operators. -/
namespace Fdapde.PDE
open Finset Fdapde.Fp
open Splines (padFn tab Good SOp)

/-- The coefficients of the reaction terms are Lipschitz functions. -/
def LipOp : SOp ℝ → Prop
  | .bilap => True
  | .react c => ∃ L : ℝ, 0 ≤ L ∧ ∀ x y, |c x - c y| ≤ L * |x - y|
  | .add a b => LipOp a ∧ LipOp b
  | .sub a b => LipOp a ∧ LipOp b
  | .smul _ a => LipOp a
  | .neg a => LipOp a

theorem Tame.lip {T : Arith → Prop} {x : ℝ} {x' : Arith → ℝ} (h : Tame T x x') {c : ℝ → ℝ} {L : ℝ} (hL : 0 ≤ L) (hc : ∀ x y, |c x - c y| ≤ L * |x - y|) :
    Tame T (c x) fun e => c (x' e) := by
  obtain ⟨C, c0, hC⟩ := h
  refine ⟨C + L * C, by positivity, fun e he hu => ?_⟩
  have p1 := mul_nonneg c0 e.1.u_pos
  have p2 : 0 ≤ L * C * e.1.u := mul_nonneg (mul_nonneg hL c0) e.1.u_pos
  have h1 := hC e he (by linarith)
  have h2 := hc (x' e) x
  have h3 := mul_le_mul_of_nonneg_left h1 hL
  linarith

theorem sweak_tame {T : Arith → Prop} {y p p2 q q2 : ℝ} {y' p' p2' q' q2' : Arith → ℝ} (hy : Tame T y y') (h1 : Tame T p p') (h2 : Tame T p2 p2')
    (h3 : Tame T q q') (h4 : Tame T q2 q2') :
    ∀ op : SOp ℝ, LipOp op → Tame T (Splines.sweak y op p p2 q q2) fun e => Splines.sweakF e.1.ops (y' e) op (p' e) (p2' e) (q' e) (q2' e)
  | .bilap, _ => (h2.mul h4).rnd.neg
  | .react _, h => by
    obtain ⟨L, hL, hc⟩ := h
    exact (((hy.lip hL hc).mul h1).rnd.mul h3).rnd
  | .add a b, h => ((sweak_tame hy h1 h2 h3 h4 a h.1).add (sweak_tame hy h1 h2 h3 h4 b h.2)).rnd
  | .sub a b, h => ((sweak_tame hy h1 h2 h3 h4 a h.1).sub (sweak_tame hy h1 h2 h3 h4 b h.2)).rnd
  | .smul x a, h => ((Tame.const x).mul (sweak_tame hy h1 h2 h3 h4 a h)).rnd
  | .neg a, h => (sweak_tame hy h1 h2 h3 h4 a h).neg

variable {tol : ℝ} {R : Nat} {knots : List ℝ}

theorem spanQ_tame_op (g : Good tol knots) {qn qw : List ℝ} (hn : ∀ q ∈ qn, -1 < q ∧ q < 1) {op : SOp ℝ} (ho : LipOp op) {i j s : Nat}
    (hi : i < knots.length + R - 1) (hj : j < knots.length + R - 1) (hs : s + 1 < knots.length + 2 * R) :
    Tame (Sound tol) (Splines.spanQ tol R (tab (knots.length + 2 * R) (padFn R knots)) qn qw op i j s) fun e =>
      Splines.spanQF e.1.ops tol R (tab (knots.length + 2 * R) (padFn R knots)) (qn.map e.1.rnd) (qw.map e.1.rnd) op i j s := by
  have two := g.two
  have hm := Splines.padFn_mono R g.incr (by omega)
  have ga : (tab (knots.length + 2 * R) (padFn R knots)).getD s 0 = padFn R knots s := Splines.getD_map_range _ _ _ (by omega)
  have gb : (tab (knots.length + 2 * R) (padFn R knots)).getD (s + 1) 0 = padFn R knots (s + 1) := Splines.getD_map_range _ _ _ hs
  simp only [Splines.spanQ, Splines.spanQF, Splines.spanRule, Splines.spanRuleF, ga, gb, List.zip_map, List.foldl_map, Prod.map_fst, Prod.map_snd]
  set a := padFn R knots s with ha
  set b := padFn R knots (s + 1) with hb
  rcases (hm (Nat.le_succ s)).eq_or_lt with hab | hab
  · have hab' : a = b := hab
    rw [hab', sub_self, zero_div, zero_mul]
    refine (Tame.const 0).congr le_rfl fun e _ _ => ?_
    simp [Rounding.ops, e.1.zero]
  · have hab' : a < b := hab
    have hh : Tame (Sound tol) ((b - a) / 2) fun e => e.1.rnd (e.1.rnd (b - a) / 2) := by
      simp only [div_eq_mul_inv]
      exact ((Tame.const (b - a)).rnd.mul (Tame.const _)).rnd
    refine (hh.mul (Tame.fold (T := Sound tol) (qn.zip qw) (f := fun p => Splines.sweak ((b - a) / 2 * p.1 + (b + a) / 2) op
        (Splines.val tol R (tab (knots.length + 2 * R) (padFn R knots)) 0 i ((b - a) / 2 * p.1 + (b + a) / 2))
        (Splines.val tol R (tab (knots.length + 2 * R) (padFn R knots)) 2 i ((b - a) / 2 * p.1 + (b + a) / 2))
        (Splines.val tol R (tab (knots.length + 2 * R) (padFn R knots)) 0 j ((b - a) / 2 * p.1 + (b + a) / 2))
        (Splines.val tol R (tab (knots.length + 2 * R) (padFn R knots)) 2 j ((b - a) / 2 * p.1 + (b + a) / 2)) * p.2)
      (f' := fun p e => e.1.rnd (Splines.sweakF e.1.ops (Splines.nodeF e.1.ops a b (e.1.rnd p.1)) op
        (Splines.valF e.1.ops tol R (tab (knots.length + 2 * R) (padFn R knots)) 0 i (Splines.nodeF e.1.ops a b (e.1.rnd p.1)))
        (Splines.valF e.1.ops tol R (tab (knots.length + 2 * R) (padFn R knots)) 2 i (Splines.nodeF e.1.ops a b (e.1.rnd p.1)))
        (Splines.valF e.1.ops tol R (tab (knots.length + 2 * R) (padFn R knots)) 0 j (Splines.nodeF e.1.ops a b (e.1.rnd p.1)))
        (Splines.valF e.1.ops tol R (tab (knots.length + 2 * R) (padFn R knots)) 2 j (Splines.nodeF e.1.ops a b (e.1.rnd p.1))) * e.1.rnd p.2))
      (fun p hp => ?_) (Tame.const 0))).rnd
    obtain ⟨q1, q2⟩ := hn p.1 (List.of_mem_zip hp).1
    have x1 : a < (b - a) / 2 * p.1 + (b + a) / 2 := by
      have := mul_lt_mul_of_pos_left q1 (show 0 < (b - a) / 2 by linarith)
      linarith
    have x2 : (b - a) / 2 * p.1 + (b + a) / 2 < b := by
      have := mul_lt_mul_of_pos_left q2 (show 0 < (b - a) / 2 by linarith)
      linarith
    have V : ∀ {k i}, i < knots.length + R - 1 → _ := fun {k i} hi => val_tame g (node_tame a b p.1) x1 x2 hi (k := k)
    exact ((sweak_tame (node_tame a b p.1) (V hi) (V hi) (V hj) (V hj) op ho).mul (Tame.const p.2).rnd).rnd

/-- Entries of the assembled matrix. -/
theorem matrix_tame (g : Good tol knots) {qn qw : List ℝ} (hn : ∀ q ∈ qn, -1 < q ∧ q < 1) {op : SOp ℝ} (ho : LipOp op)
    {l' : Rounding → List (Nat × Nat × ℝ)} (hl : ∀ r, ∀ i < knots.length + R - 1, ∀ j ≤ i, Splines.entry (l' r) i j =
      entryF r.ops R (Splines.spanQF r.ops tol R (tab (knots.length + 2 * R) (padFn R knots)) (qn.map r.rnd) (qw.map r.rnd) op) i j) :
    ∀ i < knots.length + R - 1, ∀ j < knots.length + R - 1, Tame (Sound tol)
      (Splines.matrix true ((List.range (knots.length + R - 1)).flatMap (Splines.rowT R (Splines.spanQ tol R (tab (knots.length + 2 * R) (padFn R knots)) qn qw op))) i j)
      fun e => Splines.matrix true (l' e.1) i j := by
  have two := g.two
  have low : ∀ i < knots.length + R - 1, ∀ j ≤ i, Tame (Sound tol)
      (Splines.entry ((List.range (knots.length + R - 1)).flatMap (Splines.rowT R (Splines.spanQ tol R (tab (knots.length + 2 * R) (padFn R knots)) qn qw op))) i j)
      fun e => Splines.entry (l' e.1) i j := by
    intro i hi j hj
    rw [Splines.entry_rows R _ i j hj, if_pos hi, entry_exact (nk := knots.length + 2 * R) (M := knots.length + R - 1) _ (by omega) hi (by omega)]
    refine (Tame.fold _ (fun k hk => spanQ_tame_op g hn ho hi (by omega) ?_) (Tame.const 0)).congr le_rfl fun e _ _ => hl e.1 i hi j hj
    rw [List.mem_range'_1] at hk
    omega
  intro i hi j hj
  unfold Splines.matrix
  simp only [if_true]
  split_ifs with h
  · exact low i hi j h
  · exact low j hj i (by omega)

/-- Knots of the reference basis. -/
theorem ref_tame {T : Arith → Prop} (g : Good tol knots) (i : Nat) :
    Tame T (padFn R (knots.map (Splines.mapNode (knots.getD 0 0) (knots.getD (knots.length - 1) 0))) i) fun e =>
      padFn R (knots.map (Splines.mapNodeF e.1.ops (knots.getD 0 0) (knots.getD (knots.length - 1) 0))) i := by
  have two := g.two
  have h0 : 0 ≤ knots.getD (knots.length - 1) 0 - knots.getD 0 0 := sub_nonneg.2 (Splines.getD_le g.incr (by omega) (by omega))
  have hg : ∀ f : ℝ → ℝ, padFn R (knots.map f) i = f (knots.getD (min (i - R) (knots.length - 1)) 0) := fun f => by
    have hk : min (i - R) (knots.length - 1) < knots.length := by omega
    rw [Splines.padFn_clamp, List.length_map, List.getD_eq_getElem?_getD, List.getElem?_map, List.getD_eq_getElem?_getD, List.getElem?_eq_getElem hk]
    rfl
  simp only [hg]
  set a := knots.getD 0 0
  set b := knots.getD (knots.length - 1) 0
  have h1 : Tame T (1 / (b - a)) fun e => e.1.rnd (1 / e.1.rnd (b - a)) :=
    Tame.of_err (k := 2) (m := 1 / (b - a)) fun e _ => Rounding.Err.of_rel (Rounding.Rel.rnd0 h0).inv.rnd
  exact (h1.mul (((Tame.const 2).mul (Tame.const _)).rnd.sub (Tame.const (b + a)).rnd).rnd).rnd

/-- **C170**, the matrices (partial as above).  For all knots, quadrature rules with nodes inside (-1, 1) and operators with Lipschitz coefficients there is a
number C such that, in every arithmetic with C u ≤ 1 in which the tolerance is exact, the spline solver is constructed and initialised, and no entry of the
discretized operator and of the mass matrix, and no knot of the reference basis, differs from that of exact arithmetic by more than C u. -/
theorem C170_matrices_partial (tol : ℝ) (R : Nat) (knots : List ℝ) (g : Good tol knots) (qn qw : List ℝ) (hn : ∀ q ∈ qn, -1 < q ∧ q < 1) (op : SOp ℝ) (ho : LipOp op) :
    ∃ C : ℝ, 0 ≤ C ∧ ∀ r : Rounding, r.rnd tol = tol → C * r.u ≤ 1 →
      ∃ s0 s s0' s', Splines.SpSolver.create R knots = .ok s0 ∧ s0.init tol R qn qw op = .ok s ∧
        Splines.createF r.ops R knots = .ok s0' ∧ Splines.initF r.ops tol R (qn.map r.rnd) (qw.map r.rnd) op s0' = .ok s' ∧
        s'.basis = s.basis ∧ s'.nDofs R = s.nDofs R ∧ s.nDofs R = knots.length + R - 1 ∧
        s'.ref.length = s.ref.length ∧ (∀ i, |s'.ref.getD i 0 - s.ref.getD i 0| ≤ C * r.u) ∧
        ∀ i < s.nDofs R, ∀ j < s.nDofs R, |s'.stiff i j - s.stiff i j| ≤ C * r.u ∧ |s'.mass i j - s.mass i j| ≤ C * r.u := by
  have two := g.two
  have hs : Splines.size R (tab (knots.length + 2 * R) (padFn R knots)) = knots.length + R - 1 := by
    unfold Splines.size; rw [Splines.tab_length]; omega
  have hM : knots.length + R - 1 + R + 1 ≤ (tab (knots.length + 2 * R) (padFn R knots)).length := by rw [Splines.tab_length]; omega
  have h1 : LipOp (.react fun _ => 1) := ⟨0, le_rfl, fun x y => by simp⟩
  choose lP eP hP using fun r : Rounding => assembleF_eq r.ops (R := R)
    (Splines.spanQF r.ops tol R (tab (knots.length + 2 * R) (padFn R knots)) (qn.map r.rnd) (qw.map r.rnd) op) hM
  choose lM eM hMm using fun r : Rounding => assembleF_eq r.ops (R := R)
    (Splines.spanQF r.ops tol R (tab (knots.length + 2 * R) (padFn R knots)) (qn.map r.rnd) (qw.map r.rnd) (.react fun _ => 1)) hM
  obtain ⟨C, c0, hC⟩ := Tame.all2 (matrix_tame g hn ho hP)
  obtain ⟨D, d0, hD⟩ := Tame.all2 (matrix_tame g hn h1 hMm)
  obtain ⟨E, e0, hE⟩ := Tame.all (T := Sound tol) (n := knots.length + 2 * R) fun i _ => ref_tame (R := R) g i
  refine ⟨C + D + E, by positivity, fun r ht hu => ?_⟩
  have p3 := mul_nonneg e0 r.u_pos
  have p1 := mul_nonneg c0 r.u_pos
  have p2 := mul_nonneg d0 r.u_pos
  have snd : Sound tol (r, r.sumLeft) := ⟨fun l => r.sumLeft_adds l, ht⟩
  have a1 := hC (r, r.sumLeft) snd (by dsimp only; linarith)
  have a2 := hD (r, r.sumLeft) snd (by dsimp only; linarith)
  have a3 := hE (r, r.sumLeft) snd (by dsimp only; linarith)
  have hc := Splines.pad_eq R (knots.map (Splines.mapNodeF r.ops (knots.getD 0 0) (knots.getD (knots.length - 1) 0))) (by rw [List.length_map]; omega)
  rw [List.length_map] at hc
  obtain ⟨t', ht', ht2⟩ : ∃ t', Splines.createF r.ops R knots = .ok ⟨knots, tab (knots.length + 2 * R) (padFn R knots), t', fun _ _ => 0, fun _ _ => 0, 0, false⟩ ∧
      t' = tab (knots.length + 2 * R) (padFn R (knots.map (Splines.mapNodeF r.ops (knots.getD 0 0) (knots.getD (knots.length - 1) 0)))) := ⟨_, by
    rw [Splines.createF, Splines.pad_eq R knots (by omega), Res.ok_bind, Splines.rd_eq (by omega), Res.ok_bind, Splines.rd_eq (by omega), Res.ok_bind,
      hc, Res.ok_bind], rfl⟩
  have iF : ∀ s0 : Splines.SpSolver ℝ, s0.nodes = knots → Splines.initF r.ops tol R (qn.map r.rnd) (qw.map r.rnd) op s0 =
      .ok { s0 with stiff := Splines.matrix true (lP r), mass := Splines.matrix true (lM r), isInit := true } := fun s0 h0 => by
    rw [Splines.initF, h0, Splines.pad_eq R knots (by omega), Res.ok_bind, hs, eP, Res.ok_bind, eM, Res.ok_bind]
  have iE : ∀ s0 : Splines.SpSolver ℝ, s0.nodes = knots → s0.init tol R qn qw op = .ok { s0 with
      stiff := Splines.matrix true ((List.range (knots.length + R - 1)).flatMap (Splines.rowT R (Splines.spanQ tol R (tab (knots.length + 2 * R) (padFn R knots)) qn qw op)))
      mass := Splines.matrix true ((List.range (knots.length + R - 1)).flatMap (Splines.rowT R (Splines.spanQ tol R (tab (knots.length + 2 * R) (padFn R knots)) qn qw (.react fun _ => 1))))
      isInit := true } := fun s0 h0 => by
    rw [Splines.SpSolver.init, h0, Splines.pad_eq R knots (by omega), Res.ok_bind, hs, Splines.assemble_eq _ hM, Res.ok_bind, Splines.assemble_eq _ hM, Res.ok_bind]
  refine ⟨_, _, _, _, Splines.create_eq R knots (by omega), iE _ rfl, ht', iF _ rfl, ?_⟩
  refine ⟨rfl, rfl, hs, by rw [ht2]; simp only [Splines.tab_length], fun i => ?_, fun i hi j hj => ?_⟩
  · dsimp only
    rw [ht2]
    by_cases hi : i < knots.length + 2 * R
    · have := a3 i hi
      dsimp only at this
      rw [show ∀ τ : Nat → ℝ, (tab (knots.length + 2 * R) τ).getD i 0 = τ i from fun τ => Splines.getD_map_range _ _ _ hi,
        show ∀ τ : Nat → ℝ, (tab (knots.length + 2 * R) τ).getD i 0 = τ i from fun τ => Splines.getD_map_range _ _ _ hi]
      linarith
    · have hz : ∀ τ : Nat → ℝ, (tab (knots.length + 2 * R) τ).getD i 0 = 0 := fun τ => by
        rw [List.getD_eq_getElem?_getD, List.getElem?_eq_none (by rw [Splines.tab_length]; omega)]; rfl
      rw [hz, hz, sub_self, abs_zero]
      linarith
  have hi : i < knots.length + R - 1 := by rw [← hs]; exact hi
  have hj : j < knots.length + R - 1 := by rw [← hs]; exact hj
  have b1 := a1 i hi j hj
  have b2 := a2 i hi j hj
  exact ⟨b1.trans (by dsimp only; linarith), b2.trans (by dsimp only; linarith)⟩

/-- Cubic splines on 0, 1, 3 with a bilaplacian and a reaction of coefficient x, in an arithmetic that is not exact. -/
example : ∃ (C : ℝ) (r : Rounding) (s0 s s0' s' : Splines.SpSolver ℝ), 0 < r.u ∧ Splines.SpSolver.create 3 [0, 1, 3] = .ok s0 ∧
    s0.init (1 / 10) 3 (Splines.splineNodes ℝ) (Splines.splineWeights ℝ) (.sub (.react fun x => x) (.smul 2 .bilap)) = .ok s ∧
    Splines.createF r.ops 3 [0, 1, 3] = .ok s0' ∧ Splines.initF r.ops (1 / 10) 3 ((Splines.splineNodes ℝ).map r.rnd) ((Splines.splineWeights ℝ).map r.rnd)
      (.sub (.react fun x => x) (.smul 2 .bilap)) s0' = .ok s' ∧ s'.nDofs 3 = 5 ∧ ∀ i < 5, ∀ j < 5, |s'.stiff i j - s.stiff i j| ≤ C * r.u := by
  obtain ⟨C, c0, hC⟩ := C170_matrices_partial (1 / 10) 3 [0, 1, 3] Splines.demo_smooth.good (Splines.splineNodes ℝ) (Splines.splineWeights ℝ) Splines.demo_smooth.inside
    (.sub (.react fun x => x) (.smul 2 .bilap)) ⟨⟨1, by norm_num, fun x y => by rw [one_mul]⟩, trivial⟩
  have hp : 0 < 1 / (C + 2) := by positivity
  have hp1 : 1 / (C + 2) < 1 := by rw [div_lt_one (by linarith)]; linarith
  obtain ⟨s0, s, s0', s', q1, q2, q3, q4, -, e1, e2, -, -, hh⟩ := hC (upwardAbove _ hp.le hp1) (if_pos (by norm_num)) (by
    show C * (1 / (C + 2)) ≤ 1
    rw [mul_one_div, div_le_one (by linarith)]; linarith)
  have e2 : s.nDofs 3 = 5 := e2
  rw [e2] at hh e1
  exact ⟨C, _, s0, s, s0', s', hp, q1, q2, q3, q4, e1, fun i hi j hj => (hh i hi j hj).1⟩

end Fdapde.PDE
