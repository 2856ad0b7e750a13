import Verif.PDE.LemmasNear
import Verif.PDE.PropsRounded
import Verif.PDE.FitRoundedSpec
/- C169 : regression in space in floating point arithmetic. -/
set_option linter.unusedSectionVars false
namespace Fdapde.PDE
open Finset FEM LinAlg Fdapde.Fp Fdapde.Quadrature

/-- Locations that `pointwise_evaluation` accepts are in a cell or outside. -/
theorem eval_ids {nc nb : Nat} {dofs : Nat → Nat → Nat} {ids : List Int} {psi : Nat → Nat → Nat → ℝ} : ∀ {xs : List Nat} {acc l : List (Trip ℝ)},
    foldRes (pointRow nc nb dofs ids psi) acc xs = .ok l → ∀ i ∈ xs, ∃ id, ids[i]? = some id ∧ (id = -1 ∨ (0 ≤ id ∧ id.toNat < nc)) := by
  intro xs
  induction xs with
  | nil => intro acc l _ i hi; simp at hi
  | cons x xs ih =>
    intro acc l h i hi
    rw [foldRes_cons] at h
    cases hx : pointRow nc nb dofs ids psi acc x with
    | throws => rw [hx] at h; simp at h
    | ub => rw [hx] at h; simp at h
    | ok acc' =>
      rw [hx, Res.ok_bind] at h
      rcases List.mem_cons.1 hi with rfl | hi
      · unfold pointRow at hx
        cases hid : ids[i]? with
        | none => rw [hid] at hx; simp at hx
        | some id =>
          rw [hid] at hx
          dsimp only at hx
          refine ⟨id, rfl, ?_⟩
          by_cases h1 : id = -1
          · exact .inl h1
          · rw [if_pos h1] at hx
            by_cases h2 : 0 ≤ id ∧ id.toNat < nc
            · exact .inr h2
            · rw [if_neg h2] at hx; simp at hx
      · exact ih h i hi

/-- Values of the basis at the locations, computed with up to `kd` roundings. -/
def PsiErr (r : Rounding) (kd : Nat) (B : ℝ) (nb : Nat) (ids : List Int) (psi psi' : Nat → Nat → Nat → ℝ) : Prop :=
  ∀ i c : Nat, ids[i]? = some (c : Int) → ∀ h < nb, r.Err kd B (psi c h i) (psi' c h i)

theorem eval_err {r : Rounding} {kd : Nat} {B : ℝ} (hB : 0 ≤ B) {nc nb : Nat} {dofs : Nat → Nat → Nat} {ids : List Int} {psi psi' : Nat → Nat → Nat → ℝ}
    {l : List (Trip ℝ)} (h : pointEval nc nb dofs ids psi = .ok l) (hp : PsiErr r kd B nb ids psi psi') :
    ∃ l', pointEval nc nb dofs ids psi' = .ok l' ∧ ∀ i < ids.length, ∀ j, r.Err kd (nb * B) (entry l i j) (entry l' i j) := by
  have hne : ids.length ≠ 0 := fun h0 => by rw [pointEval, if_pos h0] at h; simp at h
  have hid : ∀ id ∈ ids, id = -1 ∨ (0 ≤ id ∧ id.toNat < nc) := by
    intro id hm
    obtain ⟨i, hi, rfl⟩ := List.getElem_of_mem hm
    rw [pointEval, if_neg hne] at h
    obtain ⟨id, e, hh⟩ := eval_ids h i (List.mem_range.2 hi)
    rw [List.getElem?_eq_getElem hi] at e
    rw [Option.some.inj e]
    exact hh
  have e0 := pointEval_eq (psi := psi) (nb := nb) (dofs := dofs) hne hid
  obtain rfl := Res.ok.inj (h.symm.trans e0)
  refine ⟨_, pointEval_eq (psi := psi') hne hid, fun i hi j => ?_⟩
  have row : ∀ f : Nat → Nat → Nat → ℝ, entry ((List.range ids.length).flatMap (pRow nb dofs ids f)) i j =
      if ids.getD i (-1) ≠ -1 then ∑ h ∈ range nb, (if dofs (ids.getD i (-1)).toNat h = j then f (ids.getD i (-1)).toNat h i else 0) else 0 := fun f => by
    rw [entry_flatMap, sum_eq_single i (fun a _ ha => by rw [entry_pRow, if_neg fun e => ha e.1]) fun hn => absurd (mem_range.2 hi) hn, entry_pRow]
    simp
  rw [row, row]
  have hb := one_le_pow₀ r.one_le_b (n := kd)
  by_cases h1 : ids.getD i (-1) ≠ -1
  · rw [if_pos h1, if_pos h1]
    have hg : ids[i]? = some ids[i] := List.getElem?_eq_getElem hi
    have hgd : ids.getD i (-1) = ids[i] := by rw [List.getD_eq_getElem?_getD, hg]; rfl
    have hv := (hid _ (List.getElem_mem hi)).resolve_left (by rw [← hgd]; exact h1)
    have hp' := hp i (ids.getD i (-1)).toNat (by rw [hg, hgd, Int.toNat_of_nonneg hv.1])
    have term : ∀ h ∈ range nb, r.Err kd B (if dofs (ids.getD i (-1)).toNat h = j then psi (ids.getD i (-1)).toNat h i else 0)
        (if dofs (ids.getD i (-1)).toNat h = j then psi' (ids.getD i (-1)).toNat h i else 0) := fun h hh => by
      split_ifs
      · exact hp' h (mem_range.1 hh)
      · refine ⟨by rw [abs_zero]; exact hB, by rw [sub_self, abs_zero]; exact mul_nonneg (by linarith) hB⟩
    refine ⟨(abs_sum_le_sum_abs _ _).trans ((sum_le_sum fun h hh => (term h hh).1).trans (by simp)), ?_⟩
    rw [← sum_sub_distrib]
    refine (abs_sum_le_sum_abs _ _).trans ((sum_le_sum fun h hh => (term h hh).2).trans (le_of_eq ?_))
    simp only [sum_const, card_range, nsmul_eq_mul]
    ring
  · rw [if_neg h1, if_neg h1]
    have : (0 : ℝ) ≤ nb * B := by positivity
    exact ⟨by rw [abs_zero]; exact this, by rw [sub_self, abs_zero]; exact mul_nonneg (by linarith) this⟩

/-- Number of roundings on the way from the data to the system. -/
def fitDepth (P : Prob ℝ) (kd v L : Nat) : Nat := opDepth P.N P.op + 3 * kd + size P.t + 6 + v * P.nb + v + L

variable {P : Prob ℝ} {data : Dense ℝ} {ids : List Int} {psi : Nat → Nat → Nat → ℝ} {l : List (Trip ℝ)} {kd v : Nat} {μ G κ B : ℝ}

set_option maxHeartbeats 1000000 in
/-- The computed system, against the exact one. -/
theorem fit_system (h : FitData P data ids psi l) (hv : Valence P.n P.nb P.dofs v) (lam : ℝ) (hl : 0 < lam) (hB : 0 ≤ B)
    (hκ : ∀ c < P.n, ∀ k < size P.t, weakAbs P.N P.op (size P.t * c + k) 1 1 (fun _ => G) (fun _ => G) ≤ κ) {s0 : Sys ℝ}
    (hS0 : ∀ u w, ∑ p ∈ range P.m, ∑ c ∈ range P.m, w p * s0.stiff p c * u c = P.bilin u w)
    (hM0 : ∀ u w, ∑ p ∈ range P.m, ∑ c ∈ range P.m, w p * s0.mass p c * u c = P.l2 u w) :
    ∃ C1 C2 : ℝ, 0 ≤ C1 ∧ 0 ≤ C2 ∧ ∀ (r : Rounding) (S : List ℝ → ℝ) (ms : Nat → ℝ) (ps : Nat → (Nat → ℝ) → ℝ) (gr : Nat → Nat → (Nat → ℝ) → Nat → ℝ)
      (psi' : Nat → Nat → Nat → ℝ), r.Summation S → P.Computed r kd μ G ms ps gr → PsiErr r kd B P.nb ids psi psi' →
      ∀ (data' : Dense ℝ), P.n * size P.t ≤ data'.rows → 0 < data'.cols → ∀ (junk : Nat → ℝ) (ε : ℝ), r.b ^ fitDepth P kd v ids.length - 1 ≤ ε →
      ∃ s s' l' A A', P.init data' junk = .ok s ∧ s.n = P.m ∧ (P.withData ms ps gr).initR r S data' junk = .ok s' ∧ s'.n = P.m ∧
        pointEval P.n P.nb P.dofs ids psi' = .ok l' ∧ (∀ i < ids.length, ∀ j, r.Err kd (P.nb * B) (entry l i j) (entry l' i j)) ∧
        SB.make 2 2 [⟨P.m, P.m, fun p q => -∑ j ∈ range ids.length, entry l j p * entry l j q⟩, ⟨P.m, P.m, fun p q => lam * s.stiff q p⟩,
          ⟨P.m, P.m, fun p q => lam * s.stiff p q⟩, ⟨P.m, P.m, fun p q => lam * s.mass p q⟩] = .ok A ∧
        SB.make 2 2 [⟨P.m, P.m, fun p q => -S ((List.range ids.length).map fun j => r.rnd (entry l' j p * entry l' j q))⟩,
          ⟨P.m, P.m, fun p q => r.rnd (lam * s'.stiff q p)⟩, ⟨P.m, P.m, fun p q => r.rnd (lam * s'.stiff p q)⟩,
          ⟨P.m, P.m, fun p q => r.rnd (lam * s'.mass p q)⟩] = .ok A' ∧
        (∀ p < P.m + P.m, ∀ c < P.m + P.m, readAll A p c = quadEntry P.m (fun p q => -∑ j ∈ range ids.length, entry l j p * entry l j q)
          (fun p q => lam * s0.stiff q p) (fun p q => lam * s0.stiff p q) (fun p q => lam * s0.mass p q) p c) ∧
        (∀ p < P.m + P.m, ∀ c < P.m + P.m, |readAll A' p c - quadEntry P.m (fun p q => -∑ j ∈ range ids.length, entry l j p * entry l j q)
          (fun p q => lam * s0.stiff q p) (fun p q => lam * s0.stiff p q) (fun p q => lam * s0.mass p q) p c| ≤ C1 * ε) ∧
        ∀ Y, 0 ≤ Y → (∀ k < P.n * size P.t, |data'.at' k 0| ≤ Y) → ∀ p < P.m,
          |lam * s.force p| ≤ C2 * Y ∧ |r.rnd (lam * s'.force p) - lam * s.force p| ≤ C2 * ε * Y := by
  set L := ids.length with hL
  set W := ∑ k ∈ range (size P.t), |weight ℝ P.t k| with hW
  set σ := fullSum P.n P.nb P.dofs (fun c _ _ => W * (μ * κ * P.measure c)) with hσ
  set τ := fullSum P.n P.nb P.dofs (fun c _ _ => W * (μ * P.measure c)) with hτ
  set φ : Nat → ℝ := fun p => ∑ c ∈ range P.n, ∑ j ∈ range P.nb, if P.dofs c j = p then W * (μ * P.measure c) else 0 with hφ
  set mσ := mass1 fun (p q : Fin P.m) => σ p q with hmσ
  set mτ := mass1 fun (p q : Fin P.m) => τ p q with hmτ
  set mφ := mass1 fun (p : Fin P.m) (_ : Fin 1) => φ p with hmφ
  set m := (P.nb : ℝ) * B with hm
  have m0 : 0 ≤ m := by positivity
  have σ0 : 0 ≤ mσ := mass1_nonneg _
  have τ0 : 0 ≤ mτ := mass1_nonneg _
  have φ0 : 0 ≤ mφ := mass1_nonneg _
  have hσm : ∀ p < P.m, ∀ q < P.m, σ p q ≤ mσ := fun p hp q hq => (le_abs_self _).trans (entry_le (fun (p q : Fin P.m) => σ p q) ⟨p, hp⟩ ⟨q, hq⟩)
  have hτm : ∀ p < P.m, ∀ q < P.m, τ p q ≤ mτ := fun p hp q hq => (le_abs_self _).trans (entry_le (fun (p q : Fin P.m) => τ p q) ⟨p, hp⟩ ⟨q, hq⟩)
  have hφm : ∀ p < P.m, φ p ≤ mφ := fun p hp => (le_abs_self _).trans (entry_le (fun (p : Fin P.m) (_ : Fin 1) => φ p) ⟨p, hp⟩ 0)
  set C1 := L * (m * m) + lam * mσ + lam * mτ with hC1
  set C2 := lam * mφ with hC2
  have c10 : 0 ≤ C1 := by positivity
  have c20 : 0 ≤ C2 := by positivity
  refine ⟨C1, C2, c10, c20, fun r S ms ps gr psi' hSum hcomp hpsi data' hr hcol junk ε hKε => ?_⟩
  set K := fitDepth P kd v L with hK
  have hb1 : ∀ k, 0 ≤ r.b ^ k - 1 := fun k => by linarith [one_le_pow₀ r.one_le_b (n := k)]
  have hε : 0 ≤ ε := (hb1 K).trans hKε
  -- the computed data
  set Fm : Nat → ℝ := fun i => ∑ k ∈ range (P.n * size P.t), |data'.at' k i| with hFm
  have idx : ∀ c < P.n, ∀ k < size P.t, size P.t * c + k < P.n * size P.t := fun c hc k hk => by
    calc size P.t * c + k < size P.t * c + size P.t := by omega
      _ = size P.t * (c + 1) := by ring
      _ ≤ size P.t * P.n := Nat.mul_le_mul_left _ hc
      _ = _ := Nat.mul_comm _ _
  obtain ⟨s, s', i1, i2, i3, i4, -, -, i7, i8, -⟩ := assembly_err hSum h.ok hcomp hv hκ data' hr hcol (Fm := Fm) (fun i _ c hc k hk =>
    single_le_sum (f := fun k => |data'.at' k i|) (fun _ _ => abs_nonneg _) (mem_range.2 (idx c hc k hk))) junk
  obtain ⟨s1, e1', e2', _, _, _, hS1, hM1, -⟩ := C102_init P h.ok data' hr hcol junk
  obtain rfl := Res.ok.inj (e1'.symm.trans i1)
  obtain ⟨l', el', hent⟩ := eval_err hB h.eval hpsi
  have es : ∀ p < P.m, ∀ c < P.m, s1.stiff p c = s0.stiff p c := fun p hp c hc => by
    rw [← entry_of_form s1.stiff hp hc, ← entry_of_form s0.stiff hp hc]; exact (hS1 _ _).trans (hS0 _ _).symm
  have em : ∀ p < P.m, ∀ c < P.m, s1.mass p c = s0.mass p c := fun p hp c hc => by
    rw [← entry_of_form s1.mass hp hc, ← entry_of_form s0.mass hp hc]; exact (hM1 _ _).trans (hM0 _ _).symm
  -- entries of the system
  have E00 : ∀ p q, r.Err K C1 (-∑ j ∈ range L, entry l j p * entry l j q) (-S ((List.range L).map fun j => r.rnd (entry l' j p * entry l' j q))) := fun p q => by
    have := (hSum ((List.range L).map fun j => r.rnd (entry l' j p * entry l' j q))).sum_range (m := fun _ => m * m)
      (x := fun j => entry l j p * entry l j q) (k := kd + kd + 1) fun j hj => ((hent j hj p).mul (hent j hj q)).rnd
    refine err_size (this.neg.mono (by rw [hK, fitDepth]; omega)) ?_
    rw [sum_const, card_range, nsmul_eq_mul, hC1]
    nlinarith [mul_nonneg hl.le σ0, mul_nonneg hl.le τ0]
  have Est : ∀ p < P.m, ∀ q < P.m, r.Err K C1 (lam * s0.stiff p q) (r.rnd (lam * s'.stiff p q)) := fun p hp q hq => by
    have := ((err_exact lam 0).mul (i7 p q)).rnd
    rw [es p hp q hq] at this
    refine err_size (this.mono (by rw [hK, fitDepth]; omega)) ?_
    rw [abs_of_pos hl, hC1]
    have := mul_le_mul_of_nonneg_left (hσm p hp q hq) hl.le
    have : 0 ≤ (L : ℝ) * (m * m) := by positivity
    nlinarith [mul_nonneg hl.le τ0]
  have Ema : ∀ p < P.m, ∀ q < P.m, r.Err K C1 (lam * s0.mass p q) (r.rnd (lam * s'.mass p q)) := fun p hp q hq => by
    have := ((err_exact lam 0).mul (i8 p q)).rnd
    rw [em p hp q hq] at this
    refine err_size (this.mono (by rw [hK, fitDepth]; omega)) ?_
    rw [abs_of_pos hl, hC1]
    have := mul_le_mul_of_nonneg_left (hτm p hp q hq) hl.le
    have : 0 ≤ (L : ℝ) * (m * m) := by positivity
    nlinarith [mul_nonneg hl.le σ0]
  have n' : s'.n = P.m := i3.trans e2'
  obtain ⟨A, eA, hA⟩ := make_read P.m (fun p q => -∑ j ∈ range L, entry l j p * entry l j q) (fun p q => lam * s1.stiff q p)
    (fun p q => lam * s1.stiff p q) (fun p q => lam * s1.mass p q)
  obtain ⟨A', eA', hA'⟩ := make_read P.m (fun p q => -S ((List.range L).map fun j => r.rnd (entry l' j p * entry l' j q)))
    (fun p q => r.rnd (lam * s'.stiff q p)) (fun p q => r.rnd (lam * s'.stiff p q)) (fun p q => r.rnd (lam * s'.mass p q))
  have hAQ : ∀ p < P.m + P.m, ∀ c < P.m + P.m, readAll A p c = quadEntry P.m (fun p q => -∑ j ∈ range L, entry l j p * entry l j q)
      (fun p q => lam * s0.stiff q p) (fun p q => lam * s0.stiff p q) (fun p q => lam * s0.mass p q) p c := fun p hp c hc => by
    rw [hA p hp c hc]
    exact quadEntry_congr (fun _ _ _ _ => rfl) (fun p hp q hq => by rw [es q hq p hp]) (fun p hp q hq => by rw [es p hp q hq])
      (fun p hp q hq => by rw [em p hp q hq]) p hp c hc
  have scale : ∀ {z x x' : ℝ}, r.Err K z x x' → |x' - x| ≤ z * ε := fun he => he.2.trans (by
    rw [mul_comm]; exact mul_le_mul_of_nonneg_left hKε he.nonneg)
  refine ⟨s1, s', l', A, A', e1', e2', i2, n', el', hent, eA, eA', hAQ, fun p hp c hc => ?_, fun Y hY0 hf p hp => ?_⟩
  · rw [hA' p hp c hc]
    simp only [quadEntry]
    split_ifs with h1 h2 h2
    · exact scale (E00 _ _)
    · exact scale (Est _ (by omega) _ (by omega))
    · exact scale (Est _ (by omega) _ (by omega))
    · exact scale (Ema _ (by omega) _ (by omega))
  -- the right-hand side
  · obtain ⟨s2, s2', j1, j2, -, -, -, -, -, -, j9⟩ := assembly_err hSum h.ok hcomp hv hκ data' hr hcol (Fm := fun i => if i = 0 then Y else Fm i)
      (fun i _ c hc k hk => by
        by_cases h0 : i = 0
        · subst h0; simp only [if_true]; exact hf _ (idx c hc k hk)
        · simp only [if_neg h0]
          exact single_le_sum (f := fun k => |data'.at' k i|) (fun _ _ => abs_nonneg _) (mem_range.2 (idx c hc k hk))) junk
    obtain rfl := Res.ok.inj (e1'.symm.trans j1)
    obtain rfl := Res.ok.inj (i2.symm.trans j2)
    have := j9 0 (.inl rfl) p hp
    rw [Nat.mul_zero, Nat.zero_add] at this
    have := ((err_exact lam 0).mul this).rnd
    have e : (∑ c ∈ range P.n, ∑ j ∈ range P.nb, if P.dofs c j = p then (∑ k ∈ range (size P.t), |weight ℝ P.t k|) *
        (μ * (if (0 : Nat) = 0 then Y else Fm 0) * P.measure c) else 0) = φ p * Y := by
      rw [hφ]
      dsimp only
      rw [sum_mul]
      refine sum_congr rfl fun c _ => ?_
      refine Eq.trans ?_ (sum_mul _ _ _).symm
      refine sum_congr rfl fun j _ => ?_
      rw [if_pos rfl]
      split_ifs
      · rw [hW]; ring
      · ring
    have := err_size (m' := C2 * Y) (Rounding.Err.mono (k := K) this (by rw [hK, fitDepth]; omega)) (by
      rw [abs_of_pos hl, e, hC2]
      have k1 := mul_le_mul_of_nonneg_left (mul_le_mul_of_nonneg_right (hφm p hp) hY0) hl.le
      linarith)
    exact ⟨this.1, (scale this).trans (le_of_eq (by ring))⟩

/-- Entries of the evaluation matrix. -/
theorem entry_bounds {r : Rounding} {kd K : Nat} {m ε x x' : ℝ} (h : r.Err kd m x x') (hk : kd ≤ K) (hε : r.b ^ K - 1 ≤ ε) : |x| ≤ m ∧ |x' - x| ≤ m * ε :=
  ⟨h.1, (h.mono hk).2.trans (by rw [mul_comm]; exact mul_le_mul_of_nonneg_left hε h.nonneg)⟩

/-- **C169**.  For every problem, locations and parameter there is a number C such that, for all
forcings and observations, whatever the memory held, what the program obtains when measures, gradients, values of the basis, assembly, products of matrices
and linear solver all round, with C ε ≤ 1, ε being the larger of the residual of the solver and of the error of `fitDepth` roundings, differs at no node from
the minimizer, and from the function by which that fails to solve the problem, by more than C ε times the largest of the observations and values of the
forcing. -/
theorem C169_regression (h : FitData P data ids psi l) (hv : Valence P.n P.nb P.dofs v) (lam : ℝ) (hl : 0 < lam) (hB : 0 ≤ B)
    (hκ : ∀ c < P.n, ∀ k < size P.t, weakAbs P.N P.op (size P.t * c + k) 1 1 (fun _ => G) (fun _ => G) ≤ κ) :
    ∃ C : ℝ, 0 ≤ C ∧ ∀ (r : Rounding) (S : List ℝ → ℝ) (ms : Nat → ℝ) (ps : Nat → (Nat → ℝ) → ℝ) (gr : Nat → Nat → (Nat → ℝ) → Nat → ℝ)
      (psi' : Nat → Nat → Nat → ℝ), r.Summation S → P.Computed r kd μ G ms ps gr → PsiErr r kd B P.nb ids psi psi' →
      ∀ (data' : Dense ℝ), P.n * size P.t ≤ data'.rows → 0 < data'.cols →
      ∀ (junk y : Nat → ℝ) (ε : ℝ) (lu lu' : Solver ℝ), r.b ^ fitDepth P kd v ids.length - 1 ≤ ε → C * ε ≤ 1 →
      BackwardLU (P.m + P.m) ε lu → CompleteLU (P.m + P.m) lu → ExactLU (P.m + P.m) lu' → CompleteLU (P.m + P.m) lu' →
      ∃ f g f' g', spatialFitR r S lu (P.withData ms ps gr) data' junk ids psi' lam y = .ok (some (f, g)) ∧
        spatialFit lu' P data' junk ids psi lam y = .ok (some (f', g')) ∧
        ∀ Y, 0 ≤ Y → (∀ j < ids.length, |y j| ≤ Y) → (∀ k < P.n * size P.t, |data'.at' k 0| ≤ Y) →
          ∀ p < P.m, |f p - f' p| ≤ C * ε * Y ∧ |g p - g' p| ≤ C * ε * Y := by
  obtain ⟨s0, e1, e2, _, _, _, hS, hM, -⟩ := C102_init P h.ok data h.rows h.cols fun _ => 0
  have hS' : ∀ u v, Splines.pform P.m s0.stiff u v = P.bilin u v := fun u v => by rw [Splines.pform, hS]
  have hM' : ∀ u v, Splines.pform P.m s0.mass u v = P.l2 u v := fun u v => by rw [Splines.pform, hM]
  have hF : Forms P.m ids.length (entry l) s0.stiff s0.mass :=
    ⟨fun v => by rw [hS']; exact h.coercive v, fun v => by rw [hM']; exact h.mass v, fun u v => by rw [hM', hM', l2_symm], h.located⟩
  set L := ids.length with hL
  set Q := quadEntry P.m (fun p q => -∑ j ∈ range L, entry l j p * entry l j q) (fun p q => lam * s0.stiff q p) (fun p q => lam * s0.stiff p q)
    (fun p q => lam * s0.mass p q) with hQ
  have hdet : (Matrix.of fun i j : Fin (P.m + P.m) => Q i j).det ≠ 0 := quad_det hF hl fun _ _ _ _ => rfl
  set m := (P.nb : ℝ) * B with hm
  have m0 : 0 ≤ m := by positivity
  obtain ⟨C1, C2, c10, c20, hsys⟩ := fit_system h hv lam hl hB hκ (kd := kd) (μ := μ) hS hM
  set C3 := L * m + C2 with hC3
  have c30 : 0 ≤ C3 := by positivity
  obtain ⟨C, hC0, hC⟩ := solve_near (Matrix.of fun i j : Fin (P.m + P.m) => Q i j) hdet c10 c30
  refine ⟨C, hC0, fun r S ms ps gr psi' hSum hcomp hpsi data' hr hcol junk y ε lu lu' hKε hCε b1 b2 z1 z2 => ?_⟩
  obtain ⟨s1, s', l', A, A', e1', e2', i2, n', el', hent, eA, eA', hAQ, hAA', hforce⟩ := hsys r S ms ps gr psi' hSum hcomp hpsi data' hr hcol junk ε hKε
  have hε : 0 ≤ ε := by linarith [one_le_pow₀ r.one_le_b (n := fitDepth P kd v L)]
  set Ac : Matrix (Fin (P.m + P.m)) (Fin (P.m + P.m)) ℝ := Matrix.of fun i j => readAll A' i j with hAc
  have hAA : ∀ i j, |Ac i j - (Matrix.of fun i j : Fin (P.m + P.m) => Q i j) i j| ≤ C1 * ε := fun i j => hAA' i i.2 j j.2
  have hd' : Ac.det ≠ 0 := (hC ε 0 Ac (fun _ => 0) (fun _ => 0) (fun _ => 0) (fun _ => 0) hε le_rfl hCε hAA ⟨by simp, by simp⟩ (by simp) fun _ i => by simp).1
  have hd : (Matrix.of fun i j : Fin (P.m + P.m) => readAll A i j).det ≠ 0 := by
    have : (Matrix.of fun i j : Fin (P.m + P.m) => readAll A i j) = Matrix.of fun i j : Fin (P.m + P.m) => Q i j := by
      ext i j; exact hAQ i i.2 j j.2
    rw [this]; exact hdet
  obtain ⟨F, hFF⟩ := Option.isSome_iff_exists.1 (b2 _ hd')
  obtain ⟨F', hFF'⟩ := Option.isSome_iff_exists.1 (z2 _ hd)
  set b : Nat → ℝ := fun p => if p < P.m then -∑ j ∈ range L, entry l j p * y j else lam * s1.force (p - P.m) with hb
  set b' : Nat → ℝ := fun p => if p < P.m then -S ((List.range L).map fun j => r.rnd (entry l' j p * y j)) else r.rnd (lam * s'.force (p - P.m)) with hb'
  have run' : spatialFit lu' P data' junk ids psi lam y = .ok (some (F' b, fun p => F' b (P.m + p))) := by
    rw [spatialFit, e1', Res.ok_bind, h.eval, Res.ok_bind]
    simp only [e2', ← hL]
    rw [eA, Res.ok_bind, hFF']
  have run : spatialFitR r S lu (P.withData ms ps gr) data' junk ids psi' lam y = .ok (some (F b', fun p => F b' (P.m + p))) := by
    rw [spatialFitR, i2, Res.ok_bind]
    erw [el']
    rw [Res.ok_bind]
    simp only [n', ← hL]
    rw [eA', Res.ok_bind, hFF]
  refine ⟨_, _, _, _, run, run', fun Y hY0 hy hf => ?_⟩
  have nb : Near C3 ε Y (fun i : Fin (P.m + P.m) => b i) fun i => b' i := by
    have k1 : 0 ≤ C2 * Y := by positivity
    have k2 : 0 ≤ L * m * Y := by positivity
    have k3 : 0 ≤ C2 * ε * Y := by positivity
    have k4 : 0 ≤ L * m * ε * Y := by positivity
    have hcase : ∀ i : Fin (P.m + P.m), |b i| ≤ C3 * Y ∧ |b' i - b i| ≤ C3 * ε * Y := fun i => by
      simp only [hb, hb', hC3]
      split_ifs with h1
      · have := (hSum ((List.range L).map fun j => r.rnd (entry l' j i * y j))).sum_range (m := fun _ => m * Y)
          (x := fun j => entry l j i * y j) (k := kd + 0 + 1) fun j hj => ((hent j hj i).mul (err_size (err_exact (y j) 0) (hy j hj))).rnd
        obtain ⟨q1, q2⟩ := entry_bounds this.neg (K := fitDepth P kd v L) (by rw [fitDepth]; omega) hKε
        rw [sum_const, card_range, nsmul_eq_mul] at q1 q2
        exact ⟨q1.trans (by linarith), q2.trans (by linarith)⟩
      · obtain ⟨q1, q2⟩ := hforce Y hY0 hf (i - P.m) (by omega)
        exact ⟨q1.trans (by linarith), q2.trans (by linarith)⟩
    exact ⟨fun i => (hcase i).1, fun i => (hcase i).2⟩
  have key := (hC ε Y Ac _ _ (fun i : Fin (P.m + P.m) => F' b i) (fun i => F b' i) hε hY0 hCε hAA nb
    (fun i => by
      have := z1 _ F' hFF' b i i.2
      rw [sum_range] at this
      rw [← this]
      exact sum_congr rfl fun j _ => by rw [Matrix.of_apply, hAQ i i.2 j j.2])
    fun _ i => by
      have := b1 _ F hFF b' i i.2
      rw [sum_range, sum_range] at this
      exact this).2.diff
  exact fun p hp => ⟨key ⟨p, by omega⟩, key ⟨P.m + p, by omega⟩⟩

end Fdapde.PDE
