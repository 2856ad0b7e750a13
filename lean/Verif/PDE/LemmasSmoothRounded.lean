import Verif.PDE.LemmasTame
import Verif.PDE.SmoothRoundedSpec
import Verif.Splines.PropsAssembly
import Verif.Splines.PropsMass
/- Errors of the matrices of smoothing splines. -/
namespace Fdapde.PDE
open Finset Fdapde.Fp
open Splines (padFn tab z0 z0F cdb cdbF cdbD cdbDF ca caF Good InSpan)

section values
variable {T : Arith → Prop} {t z : Nat → ℝ}

theorem ca_tame (ht : Monotone t) (R i : Nat) : Tame T (ca t R i) fun e => caF e.1 t R i :=
  Tame.of_err (k := 2) (m := ca t R i) fun e _ => Rounding.Err.of_rel (Splines.caF_rel e.1 ht R i)

theorem cdb_tame (ht : Monotone t) {x : ℝ} {x' : Arith → ℝ} (hx : Tame T x x') : ∀ R i, Tame T (cdb t z x R i) fun e => cdbF e.1 t z (x' e) R i
  | 0, i => Tame.const _
  | R + 1, i => by
    have h1 := (((ca_tame ht (R + 1) i).mul (hx.sub (Tame.const (t i))).rnd).rnd.mul (cdb_tame ht hx R i)).rnd
    have h2 := (((ca_tame ht (R + 1) (i + 1)).mul ((Tame.const (t (i + 1 + (R + 1)))).sub hx).rnd).rnd.mul (cdb_tame ht hx R (i + 1))).rnd
    exact (h1.add h2).rnd

theorem cdbD_tame (ht : Monotone t) {x : ℝ} {x' : Arith → ℝ} (hx : Tame T x x') : ∀ k R i, Tame T (cdbD t z x k R i) fun e => cdbDF e.1 t z (x' e) k R i
  | 0, R, i => cdb_tame ht hx R i
  | k + 1, 0, i => Tame.const _
  | k + 1, R + 1, i => by
    have h1 := (((Tame.const (T := T) ((R + 1 : Nat) : ℝ)).mul (ca_tame ht (R + 1) i)).rnd.mul (cdbD_tame ht hx k R i)).rnd
    have h2 := (((Tame.const (T := T) ((R + 1 : Nat) : ℝ)).mul (ca_tame ht (R + 1) (i + 1))).rnd.mul (cdbD_tame ht hx k R (i + 1))).rnd
    exact (h1.sub h2).rnd
end values

/-- The arithmetics considered: sums of rows are made in some order, and the tolerance of the library is a number of the arithmetic. -/
def Sound (tol : ℝ) (e : Arith) : Prop := e.1.Summation e.2 ∧ e.1.rnd tol = tol

variable {tol : ℝ} {R : Nat} {knots : List ℝ}

/-- A proper span of the padded knots is a span of the knots. -/
theorem proper_span {s : Nat} (h : padFn R knots s < padFn R knots (s + 1)) : ∃ j, s = j + R ∧ j + 1 < knots.length := by
  rw [Splines.padFn_clamp, Splines.padFn_clamp] at h
  by_contra hn
  push Not at hn
  have : min (s - R) (knots.length - 1) = min (s + 1 - R) (knots.length - 1) := by
    by_cases h1 : s < R
    · omega
    · have := hn (s - R) (by omega)
      omega
  rw [this] at h
  exact lt_irrefl _ h

/-- Derivatives at points inside a span. -/
theorem val_tame (g : Good tol knots) {s : Nat} {x : ℝ} {x' : Arith → ℝ} (hx : Tame (Sound tol) x x') (h1 : padFn R knots s < x) (h2 : x < padFn R knots (s + 1))
    {k i : Nat} (hi : i < knots.length + R - 1) :
    Tame (Sound tol) (Splines.val tol R (tab (knots.length + 2 * R) (padFn R knots)) k i x) fun e =>
      Splines.valF e.1.ops tol R (tab (knots.length + 2 * R) (padFn R knots)) k i (x' e) := by
  have two := g.two
  obtain ⟨j, rfl, hj⟩ := proper_span (h1.trans h2)
  have e1 := Splines.padFn_knot R knots j (by omega)
  have e2 := Splines.padFn_knot R knots (j + 1) hj
  rw [show j + 1 + R = j + R + 1 by omega] at e2
  have hm := Splines.padFn_mono R g.incr (by omega)
  have sp : ∀ y, padFn R knots (j + R) < y → y < padFn R knots (j + R + 1) →
      InSpan (padFn R knots) (z0 tol R (knots.length + 2 * R) (padFn R knots) y) y (j + R) := fun y a b =>
    Splines.inSpan_of g hj (by rw [← e1]; exact a.le) (Or.inl (by rw [← e2]; exact b))
  have ev : Splines.val tol R (tab (knots.length + 2 * R) (padFn R knots)) k i x = cdbD (padFn R knots) (z0 tol R (knots.length + 2 * R) (padFn R knots) x) x k R i := by
    rw [Splines.val, Splines.derive_eq tol R _ _ x k R i (by omega)]
  rw [ev]
  have base := cdbD_tame (T := Sound tol) (z := z0 tol R (knots.length + 2 * R) (padFn R knots) x) hm hx k R i
  obtain ⟨C, c0, hC⟩ := hx
  have g1 : 0 < x - padFn R knots (j + R) := by linarith
  have g2 : 0 < padFn R knots (j + R + 1) - x := by linarith
  refine base.congr (D := C + 2 * C / (x - padFn R knots (j + R)) + 2 * C / (padFn R knots (j + R + 1) - x)) (by positivity) fun e he hu => ?_
  have u0 := e.1.u_pos
  have q0 := mul_nonneg c0 u0
  have q1 : 0 ≤ 2 * C / (x - padFn R knots (j + R)) * e.1.u := by positivity
  have q2 : 0 ≤ 2 * C / (padFn R knots (j + R + 1) - x) * e.1.u := by positivity
  have b0 := abs_le.1 (hC e he (by linarith))
  have b1 : 2 * C / (x - padFn R knots (j + R)) * e.1.u ≤ 1 := by linarith
  have b2 : 2 * C / (padFn R knots (j + R + 1) - x) * e.1.u ≤ 1 := by linarith
  rw [div_mul_eq_mul_div, div_le_one g1] at b1
  rw [div_mul_eq_mul_div, div_le_one g2] at b2
  have i1 : padFn R knots (j + R) < x' e := by linarith [b0.1]
  have i2 : x' e < padFn R knots (j + R + 1) := by linarith [b0.2]
  have hz : z0F e.1 tol R (knots.length + 2 * R) (padFn R knots) (x' e) = z0 tol R (knots.length + 2 * R) (padFn R knots) x := by
    rw [Splines.z0F_eq e.1 he.2 g (Or.inl (i2.le.trans (Splines.padFn_le_last R g.incr (by omega) _)))]
    funext m
    by_cases hh : m = j + R
    · rw [hh, (sp _ i1 i2).z1, (sp _ h1 h2).z1]
    · rw [(sp _ i1 i2).z0 m hh, (sp _ h1 h2).z0 m hh]
  rw [Splines.valF, Splines.deriveF_eq e.1 tol R _ _ (x' e) k R i (by omega), hz]

/-- Nodes of the rule. -/
theorem node_tame {T : Arith → Prop} (a b p : ℝ) : Tame T ((b - a) / 2 * p + (b + a) / 2) fun e => Splines.nodeF e.1.ops a b (e.1.rnd p) := by
  have h1 : Tame T ((b - a) / 2) fun e => e.1.rnd (e.1.rnd (b - a) / 2) := by
    simp only [div_eq_mul_inv]
    exact ((Tame.const (b - a)).rnd.mul (Tame.const _)).rnd
  have h2 : Tame T ((b + a) / 2) fun e => e.1.rnd (e.1.rnd (b + a) / 2) := by
    simp only [div_eq_mul_inv]
    exact ((Tame.const (b + a)).rnd.mul (Tame.const _)).rnd
  exact ((h1.mul (Tame.const p).rnd).rnd.add h2).rnd

/-- Contributions of the spans to the penalty. -/
theorem spanQ_tame (g : Good tol knots) {qn qw : List ℝ} (hn : ∀ q ∈ qn, -1 < q ∧ q < 1) {i j s : Nat} (hi : i < knots.length + R - 1) (hj : j < knots.length + R - 1)
    (hs : s + 1 < knots.length + 2 * R) :
    Tame (Sound tol) (Splines.spanQ tol R (tab (knots.length + 2 * R) (padFn R knots)) qn qw (.neg .bilap) i j s) fun e =>
      Splines.spanQF e.1.ops tol R (tab (knots.length + 2 * R) (padFn R knots)) (qn.map e.1.rnd) (qw.map e.1.rnd) (.neg .bilap) i j s := by
  have two := g.two
  have hm := Splines.padFn_mono R g.incr (by omega)
  have ga : (tab (knots.length + 2 * R) (padFn R knots)).getD s 0 = padFn R knots s := Splines.getD_map_range _ _ _ (by omega)
  have gb : (tab (knots.length + 2 * R) (padFn R knots)).getD (s + 1) 0 = padFn R knots (s + 1) := Splines.getD_map_range _ _ _ hs
  simp only [Splines.spanQ, Splines.spanQF, Splines.spanRule, Splines.spanRuleF, ga, gb, List.zip_map, List.foldl_map, Prod.map_fst, Prod.map_snd]
  set a := padFn R knots s with ha
  set b := padFn R knots (s + 1) with hb
  rcases (hm (Nat.le_succ s)).eq_or_lt with hab | hab
  · have hab' : a = b := hab
    rw [hab', sub_self, zero_div, zero_mul]
    refine (Tame.const 0).congr le_rfl fun e _ _ => ?_
    simp [Rounding.ops, e.1.zero]
  · have hab' : a < b := hab
    have hh : Tame (Sound tol) ((b - a) / 2) fun e => e.1.rnd (e.1.rnd (b - a) / 2) := by
      simp only [div_eq_mul_inv]
      exact ((Tame.const (b - a)).rnd.mul (Tame.const _)).rnd
    refine (hh.mul (Tame.fold (T := Sound tol) (qn.zip qw) (f := fun p => Splines.sweak ((b - a) / 2 * p.1 + (b + a) / 2) (.neg .bilap)
        (Splines.val tol R (tab (knots.length + 2 * R) (padFn R knots)) 0 i ((b - a) / 2 * p.1 + (b + a) / 2))
        (Splines.val tol R (tab (knots.length + 2 * R) (padFn R knots)) 2 i ((b - a) / 2 * p.1 + (b + a) / 2))
        (Splines.val tol R (tab (knots.length + 2 * R) (padFn R knots)) 0 j ((b - a) / 2 * p.1 + (b + a) / 2))
        (Splines.val tol R (tab (knots.length + 2 * R) (padFn R knots)) 2 j ((b - a) / 2 * p.1 + (b + a) / 2)) * p.2)
      (f' := fun p e => e.1.rnd (Splines.sweakF e.1.ops (Splines.nodeF e.1.ops a b (e.1.rnd p.1)) (.neg .bilap)
        (Splines.valF e.1.ops tol R (tab (knots.length + 2 * R) (padFn R knots)) 0 i (Splines.nodeF e.1.ops a b (e.1.rnd p.1)))
        (Splines.valF e.1.ops tol R (tab (knots.length + 2 * R) (padFn R knots)) 2 i (Splines.nodeF e.1.ops a b (e.1.rnd p.1)))
        (Splines.valF e.1.ops tol R (tab (knots.length + 2 * R) (padFn R knots)) 0 j (Splines.nodeF e.1.ops a b (e.1.rnd p.1)))
        (Splines.valF e.1.ops tol R (tab (knots.length + 2 * R) (padFn R knots)) 2 j (Splines.nodeF e.1.ops a b (e.1.rnd p.1))) * e.1.rnd p.2))
      (fun p hp => ?_) (Tame.const 0))).rnd
    obtain ⟨q1, q2⟩ := hn p.1 (List.of_mem_zip hp).1
    have x1 : a < (b - a) / 2 * p.1 + (b + a) / 2 := by
      have := mul_lt_mul_of_pos_left q1 (show 0 < (b - a) / 2 by linarith)
      linarith
    have x2 : (b - a) / 2 * p.1 + (b + a) / 2 < b := by
      have := mul_lt_mul_of_pos_left q2 (show 0 < (b - a) / 2 by linarith)
      linarith
    exact ((((val_tame g (node_tame a b p.1) x1 x2 hi (k := 2)).mul (val_tame g (node_tame a b p.1) x1 x2 hj (k := 2))).rnd.neg.neg).mul (Tame.const p.2).rnd).rnd

/-! ### Assembly -/

theorem foldRes_add (o : Ops ℝ) (nk : Nat) (q : Nat → ℝ) : ∀ (L : List Nat) (acc : ℝ), (∀ k ∈ L, k + 1 < nk) →
    foldRes (fun acc k => if k + 1 < nk then .ok (o.add acc (q k)) else .ub) acc L = .ok (L.foldl (fun v k => o.add v (q k)) acc)
  | [], acc, _ => rfl
  | k :: L, acc, h => by
    rw [foldRes_cons, if_pos (h k List.mem_cons_self), Res.ok_bind, foldRes_add o nk q L _ fun m hm => h m (List.mem_cons_of_mem _ hm)]
    rfl

/-- The entry of the symmetric assembler. -/
def entryF (o : Ops ℝ) (R : Nat) (Q : Nat → Nat → Nat → ℝ) (i j : Nat) : ℝ := (List.range' j (i + R + 1 - j)).foldl (fun v k => o.add v (Q i j k)) 0

theorem pairValueF_eq (o : Ops ℝ) {R nk M : Nat} (Q : Nat → Nat → Nat → ℝ) {i j : Nat} (hM : M + R + 1 ≤ nk) (hi : i < M) (hj : j < M) :
    Splines.pairValueF o R nk M Q i j = .ok (entryF o R Q i j) := by
  rw [Splines.pairValueF, if_pos ⟨hi, hj⟩]
  exact foldRes_add o nk _ _ _ fun k hk => by rw [List.mem_range'_1] at hk; omega

theorem entry_exact {R nk M : Nat} (Q : Nat → Nat → Nat → ℝ) {i j : Nat} (hM : M + R + 1 ≤ nk) (hi : i < M) (hj : j < M) :
    ∑ k ∈ Ico j (i + R + 1), Q i j k = (List.range' j (i + R + 1 - j)).foldl (fun v k => v + Q i j k) 0 := by
  have h1 := Splines.pairValue_eq Q hM hi hj
  have h2 := pairValueF_eq (Ops.exact ℝ) Q hM hi hj
  exact (Res.ok.inj (h1.symm.trans h2))

theorem sum_pick {i j R : Nat} (hj : j ≤ i) (w : ℝ) : ∑ k ∈ Ico j (i + R + 1), (if k = j then w else 0) = w := by
  rw [sum_ite_eq' (Ico j (i + R + 1)) j fun _ => w, if_pos (mem_Ico.2 ⟨le_rfl, by omega⟩)]

theorem assembleF_eq (o : Ops ℝ) {R nk M : Nat} (Q : Nat → Nat → Nat → ℝ) (hM : M + R + 1 ≤ nk) :
    ∃ l, Splines.assembleF o R nk M Q = .ok l ∧ ∀ i < M, ∀ j ≤ i, Splines.entry l i j = entryF o R Q i j := by
  set Q' : Nat → Nat → Nat → ℝ := fun i j k => if k = j then entryF o R Q i j else 0 with hQ
  have row : ∀ i < M, ∀ acc, foldRes (fun acc j => (fun v => acc ++ [(i, j, v)]) <$> Splines.pairValueF o R nk M Q i j) acc (List.range (i + 1)) =
      .ok (acc ++ Splines.rowT R Q' i) := by
    intro i hi acc
    have key : ∀ n ≤ i + 1, foldRes (fun acc j => (fun v => acc ++ [(i, j, v)]) <$> Splines.pairValueF o R nk M Q i j) acc (List.range n) =
        .ok (acc ++ (List.range n).map fun j => (i, j, ∑ k ∈ Ico j (i + R + 1), Q' i j k)) := by
      intro n
      induction n with
      | zero => intro _; simp
      | succ n ih =>
        intro hn
        rw [List.range_succ, foldRes_append, ih (by omega), Res.ok_bind, foldRes_cons, pairValueF_eq o Q hM hi (by omega)]
        have := sum_pick (R := R) (show n ≤ i by omega) (entryF o R Q i n)
        rw [List.map_append, List.map_singleton, hQ]
        dsimp only
        rw [this]
        simp
    exact key _ le_rfl
  have key : ∀ n ≤ M, foldRes (fun acc i => foldRes (fun acc j => (fun v => acc ++ [(i, j, v)]) <$> Splines.pairValueF o R nk M Q i j) acc (List.range (i + 1))) []
      (List.range n) = .ok ((List.range n).flatMap (Splines.rowT R Q')) := by
    intro n
    induction n with
    | zero => intro _; simp
    | succ n ih =>
      intro hn
      rw [List.range_succ, foldRes_append, ih (by omega), Res.ok_bind, foldRes_cons, row n (by omega)]
      simp
  refine ⟨_, key M le_rfl, fun i hi j hj => ?_⟩
  rw [Splines.entry_rows R Q' i j hj, if_pos hi]
  exact sum_pick hj _

/-! ### Evaluation -/

theorem evalTripletsF_eq (r : Rounding) (tol : ℝ) (R : Nat) (knots : List ℝ) (h : 0 < knots.length) (locs : List ℝ) (hl : locs ≠ []) :
    ∃ l, Splines.evalTripletsF r.ops tol R (tab (knots.length + 2 * R) (padFn R knots)) locs = .ok l ∧
      ∀ j < locs.length, ∀ i < knots.length + R - 1, Splines.entry l j i =
        cdbF r (padFn R knots) (z0F r tol R (knots.length + 2 * R) (padFn R knots) (locs.getD j 0)) (locs.getD j 0) R i := by
  have hs : Splines.size R (tab (knots.length + 2 * R) (padFn R knots)) = knots.length + R - 1 := by
    unfold Splines.size; rw [Splines.tab_length]; omega
  set v : Nat → ℝ → ℝ := fun i x => cdbF r (padFn R knots) (z0F r tol R (knots.length + 2 * R) (padFn R knots) x) x R i with hv
  have hb : ∀ i x, i < knots.length + R - 1 → Splines.basisEvalF r.ops tol R (tab (knots.length + 2 * R) (padFn R knots)) i x = .ok (v i x) :=
    fun i x hi => Splines.basisF_value r h hi x
  have inner : ∀ i, i < knots.length + R - 1 → ∀ acc n, n ≤ locs.length →
      foldRes (fun acc j => do
        let x ← Splines.rd locs j
        let v ← Splines.basisEvalF r.ops tol R (tab (knots.length + 2 * R) (padFn R knots)) i x
        .ok (acc ++ [(j, i, v)])) acc (List.range n) = .ok (acc ++ (List.range n).map fun j => (j, i, v i (locs.getD j 0))) := by
    intro i hi acc n
    induction n with
    | zero => intro _; simp
    | succ n ih =>
      intro hn
      rw [List.range_succ, foldRes_append, ih (by omega), Res.ok_bind, foldRes_cons, Splines.rd_eq (show n < locs.length by omega),
        Res.ok_bind, hb i _ hi]
      simp
  have outer : ∀ n, n ≤ knots.length + R - 1 → foldRes (fun acc i =>
      foldRes (fun acc j => do
        let x ← Splines.rd locs j
        let v ← Splines.basisEvalF r.ops tol R (tab (knots.length + 2 * R) (padFn R knots)) i x
        .ok (acc ++ [(j, i, v)])) acc (List.range locs.length)) [] (List.range n) =
      .ok ((List.range n).flatMap fun i => (List.range locs.length).map fun j => (j, i, v i (locs.getD j 0))) := by
    intro n
    induction n with
    | zero => intro _; simp
    | succ n ih =>
      intro hn
      rw [List.range_succ, foldRes_append, ih (by omega), Res.ok_bind, foldRes_cons, inner n (by omega) _ _ le_rfl]
      simp
  have eCol : ∀ i' j i n, Splines.entry ((List.range n).map fun j => (j, i', v i' (locs.getD j 0))) j i =
      if i' = i ∧ j < n then v i (locs.getD j 0) else 0 := by
    intro i' j i n
    induction n with
    | zero => simp [Splines.entry]
    | succ n ih =>
      rw [List.range_succ, List.map_append, Splines.entry_append, ih]
      by_cases h1 : i' = i
      · subst h1
        by_cases h2 : n = j
        · subst h2; simp [Splines.entry]
        · by_cases h3 : j < n
          · simp [Splines.entry, h2, h3, show j < n + 1 by omega]
          · simp [Splines.entry, h2, h3, show ¬ j < n + 1 by omega]
      · simp [Splines.entry, h1]
  have eAll : ∀ j i n, Splines.entry ((List.range n).flatMap fun i => (List.range locs.length).map fun j => (j, i, v i (locs.getD j 0))) j i =
      if i < n ∧ j < locs.length then v i (locs.getD j 0) else 0 := by
    intro j i n
    induction n with
    | zero => simp [Splines.entry]
    | succ n ih =>
      rw [List.range_succ, List.flatMap_append, Splines.entry_append, ih, List.flatMap_singleton, eCol]
      by_cases h1 : n = i
      · subst h1; simp
      · by_cases h2 : i < n
        · simp [h1, h2, show i < n + 1 by omega]
        · simp [h1, h2, show ¬ i < n + 1 by omega]
  refine ⟨_, by rw [Splines.evalTripletsF, if_neg hl, hs]; exact outer _ le_rfl, fun j hj i hi => ?_⟩
  rw [eAll, if_pos ⟨hi, hj⟩]

end Fdapde.PDE
