import Verif.Splines.PropsSpline
/- C52 : the spline assembler. -/
namespace Fdapde.Splines
set_option linter.unusedSectionVars false
variable {K : Type} [Field K] [LinearOrder K] [IsStrictOrderedRing K]

theorem pairValue_eq {R nk M : Nat} (Q : Nat → Nat → Nat → K) {i j : Nat} (hM : M + R + 1 ≤ nk) (hi : i < M) (hj : j < M) :
    pairValue R nk M Q i j = .ok (∑ k ∈ Finset.Ico j (i + R + 1), Q i j k) := by
  unfold pairValue
  rw [if_pos ⟨hi, hj⟩]
  have key : ∀ len acc, j + len ≤ i + R + 1 ∨ len = 0 →
      foldRes (fun acc k => if k + 1 < nk then .ok (acc + Q i j k) else .ub) acc (List.range' j len) =
        .ok (acc + ∑ k ∈ Finset.Ico j (j + len), Q i j k) := by
    intro len
    induction len with
    | zero => intro acc _; simp
    | succ len ih =>
      intro acc h
      rw [List.range'_concat, foldRes_append, ih acc (by omega), Res.ok_bind, foldRes_cons]
      simp only [one_mul]
      rw [if_pos (by omega), Res.ok_bind, foldRes_nil, ← Nat.add_assoc, Finset.sum_Ico_succ_top (by omega), add_assoc]
  rw [key _ 0 (by omega), zero_add]
  by_cases h : j ≤ i + R + 1
  · rw [show j + (i + R + 1 - j) = i + R + 1 by omega]
  · rw [Finset.Ico_eq_empty (by omega), Finset.Ico_eq_empty (by omega)]

/-- Triplets of one row of the symmetric case. -/
def rowT (R : Nat) (Q : Nat → Nat → Nat → K) (i : Nat) : List (Nat × Nat × K) :=
  (List.range (i + 1)).map fun j => (i, j, ∑ k ∈ Finset.Ico j (i + R + 1), Q i j k)

theorem assembleRow_eq {R nk M : Nat} (Q : Nat → Nat → Nat → K) (hM : M + R + 1 ≤ nk) {i : Nat} (hi : i < M)
    (acc : List (Nat × Nat × K)) : assembleRow true R nk M Q acc i = .ok (acc ++ rowT R Q i) := by
  unfold assembleRow rowT
  simp only [if_true]
  have key : ∀ n ≤ i + 1, foldRes (fun acc j => (fun v => acc ++ [(i, j, v)]) <$> pairValue R nk M Q i j) acc (List.range n) =
      .ok (acc ++ (List.range n).map fun j => (i, j, ∑ k ∈ Finset.Ico j (i + R + 1), Q i j k)) := by
    intro n
    induction n with
    | zero => intro _; simp
    | succ n ih =>
      intro hn
      rw [List.range_succ, foldRes_append, ih (by omega), Res.ok_bind, foldRes_cons, pairValue_eq Q hM hi (by omega)]
      simp
  exact key _ le_rfl

theorem assemble_eq {R nk M : Nat} (Q : Nat → Nat → Nat → K) (hM : M + R + 1 ≤ nk) :
    assemble true R nk M Q = .ok ((List.range M).flatMap (rowT R Q)) := by
  unfold assemble
  have key : ∀ n ≤ M, foldRes (assembleRow true R nk M Q) [] (List.range n) = .ok ((List.range n).flatMap (rowT R Q)) := by
    intro n
    induction n with
    | zero => intro _; simp
    | succ n ih =>
      intro hn
      rw [List.range_succ, foldRes_append, ih (by omega), Res.ok_bind, foldRes_cons, assembleRow_eq Q hM (by omega)]
      simp
  exact key _ le_rfl

theorem entry_append (l l' : List (Nat × Nat × K)) (i j : Nat) : entry (l ++ l') i j = entry l i j + entry l' i j := by
  simp [entry]

theorem entry_row (R : Nat) (Q : Nat → Nat → Nat → K) (i' i j : Nat) :
    entry (rowT R Q i') i j = if i' = i ∧ j ≤ i then ∑ k ∈ Finset.Ico j (i + R + 1), Q i j k else 0 := by
  have key : ∀ n, entry ((List.range n).map fun j => (i', j, ∑ k ∈ Finset.Ico j (i' + R + 1), Q i' j k)) i j =
      if i' = i ∧ j < n then ∑ k ∈ Finset.Ico j (i + R + 1), Q i j k else 0 := by
    intro n
    induction n with
    | zero => simp [entry]
    | succ n ih =>
      rw [List.range_succ, List.map_append, entry_append, ih]
      by_cases h1 : i' = i
      · subst h1
        by_cases h2 : n = j
        · subst h2; simp [entry]
        · simp only [entry, List.map_cons, List.map_nil, List.filter_cons, List.filter_nil, h2, and_false, decide_false,
            true_and]
          by_cases h3 : j < n
          · simp [h3, show j < n + 1 by omega]
          · simp [h3, show ¬ j < n + 1 by omega]
      · simp [entry, h1]
  unfold rowT
  rw [key]
  by_cases h : i' = i
  · subst h; simp only [Nat.lt_succ_iff]
  · simp [h]

theorem entry_rows (R : Nat) (Q : Nat → Nat → Nat → K) (i j : Nat) (hj : j ≤ i) : ∀ M,
    entry ((List.range M).flatMap (rowT R Q)) i j = if i < M then ∑ k ∈ Finset.Ico j (i + R + 1), Q i j k else 0
  | 0 => by simp [entry]
  | M + 1 => by
    rw [List.range_succ, List.flatMap_append, entry_append, entry_rows R Q i j hj M, List.flatMap_singleton, entry_row]
    by_cases h : M = i
    · subst h; simp [hj]
    · by_cases h2 : i < M
      · simp [h, h2, show i < M + 1 by omega]
      · simp [h, h2, show ¬ i < M + 1 by omega]

theorem sum_window {nk R i j : Nat} (hij : j ≤ i) (hn : i + R + 1 < nk) (q : Nat → K)
    (hz : ∀ k, k + 1 < nk → (k < i ∨ j + R < k) → q k = 0) :
    ∑ k ∈ Finset.Ico j (i + R + 1), q k = ∑ k ∈ Finset.range (nk - 1), q k := by
  apply Finset.sum_subset
  · intro k hk
    rw [Finset.mem_Ico] at hk; rw [Finset.mem_range]; omega
  · intro k hk hk'
    rw [Finset.mem_range] at hk
    rw [Finset.mem_Ico] at hk'
    exact hz k (by omega) (by omega)

/-- **C52**, symmetric operators: assembly of a basis of `M` functions over `M + R + 1` knots reads only existing basis
functions and knots, and if the contributions of spans outside the support [i, i + R] of either function are zero, every
entry of the matrix returned, above and below the diagonal, is the sum of the contributions over all spans. -/
theorem C52_symmetric (R M : Nat) (Q : Nat → Nat → Nat → K)
    (hz : ∀ i j k, k + 1 < M + R + 1 → (k < i ∨ i + R < k ∨ k < j ∨ j + R < k) → Q i j k = 0) :
    ∃ l, assemble true R (M + R + 1) M Q = .ok l ∧ ∀ i < M, ∀ j < M,
      matrix true l i j = ∑ k ∈ Finset.range (M + R), Q (max i j) (min i j) k := by
  refine ⟨_, assemble_eq Q le_rfl, ?_⟩
  have low : ∀ i < M, ∀ j ≤ i, entry ((List.range M).flatMap (rowT R Q)) i j = ∑ k ∈ Finset.range (M + R), Q i j k := by
    intro i hi j hj
    rw [entry_rows R Q i j hj, if_pos hi]
    exact sum_window (nk := M + R + 1) hj (by omega) _ (fun k h1 h2 => hz i j k h1 (by omega))
  intro i hi j hj
  unfold matrix
  simp only [if_true]
  split_ifs with h
  · rw [max_eq_left h, min_eq_right h]; exact low i hi j h
  · rw [max_eq_right (by omega), min_eq_left (by omega)]; exact low j hj i (by omega)

/-- A span on which the function vanishes in the interior contributes zero. -/
theorem spanRule_zero {nodes weights : List K} (hn : ∀ q ∈ nodes, -1 < q ∧ q < 1) {a b : K} (hab : a ≤ b) {f : K → K}
    (hf : ∀ y, a < y → y < b → f y = 0) : spanRule nodes weights a b f = 0 := by
  unfold spanRule
  rcases lt_or_eq_of_le hab with h | h
  · have : ∀ (l : List (K × K)), (∀ p ∈ l, -1 < p.1 ∧ p.1 < 1) →
        l.foldl (fun v p => v + f ((b - a) / 2 * p.1 + (b + a) / 2) * p.2) 0 = 0 := by
      intro l
      induction l with
      | nil => intro _; rfl
      | cons p l ih =>
        intro hl
        have hp := hl p (by simp)
        have hd : 0 < (b - a) / 2 := by linarith
        have e : f ((b - a) / 2 * p.1 + (b + a) / 2) = 0 := by
          apply hf <;> nlinarith
        rw [List.foldl_cons, e, zero_mul, add_zero]
        exact ih (fun q hq => hl q (by simp [hq]))
    rw [this _ (fun p hp => hn p.1 (List.of_mem_zip (show (p.1, p.2) ∈ nodes.zip weights from hp)).1), mul_zero]
  · rw [h]; simp

/-- **C52** for the operators of the library: with `f i j = c * D^k psi_i * D^k psi_j` (mass term: k = 0; bilaplacian:
k = 2, c = -1), and a quadrature rule with nodes inside of (-1, 1), every entry of the assembled matrix is the composite
quadrature, over all knot spans, of the weak form. -/
theorem C52_operators_partial (tol : K) (R : Nat) (knots : List K) (g : Good tol knots) (k : Nat) (c : K)
    (nodes weights : List K) (hn : ∀ q ∈ nodes, -1 < q ∧ q < 1) :
    ∃ t, pad R knots = .ok t ∧ ∃ d : Nat → K → K, (∀ i < size R t, ∀ y, derive tol R t k R i y = .ok (d i y)) ∧
      ∃ l, assemble true R t.length (size R t)
          (fun i j s => spanRule nodes weights (t.getD s 0) (t.getD (s + 1) 0) (fun y => c * d i y * d j y)) = .ok l ∧
        ∀ i < size R t, ∀ j < size R t, matrix true l i j =
          ∑ s ∈ Finset.range (t.length - 1), spanRule nodes weights (t.getD s 0) (t.getD (s + 1) 0) (fun y => c * d i y * d j y) := by
  have two := g.two
  have hm := padFn_mono R g.incr (by omega)
  have hs : size R (tab (knots.length + 2 * R) (padFn R knots)) = knots.length + R - 1 := by
    unfold size; rw [tab_length]; omega
  refine ⟨_, pad_eq R knots (by omega), _, fun i hi y => derive_eq tol R _ _ y k R i (by omega), ?_⟩
  have hg : ∀ s, s < knots.length + 2 * R → (tab (knots.length + 2 * R) (padFn R knots)).getD s 0 = padFn R knots s := by
    intro s h
    have h1 := rd_eq (t := tab (knots.length + 2 * R) (padFn R knots)) (i := s) (by rw [tab_length]; exact h)
    rw [rd_tab h] at h1
    exact (Res.ok.inj h1).symm
  have hsup : ∀ i s y, s + 1 < knots.length + 2 * R → (s < i ∨ i + R < s) → padFn R knots s < y → y < padFn R knots (s + 1) →
      cdbD (padFn R knots) (z0 tol R (knots.length + 2 * R) (padFn R knots) y) y k R i = 0 := by
    intro i s y _ h h1 h2
    have hlast := padFn_le_last R g.incr (by omega) (s + 1)
    refine cdbD_support g (Or.inl (h2.le.trans hlast)) k i ?_
    rcases h with h | h
    · exact Or.inl (lt_of_lt_of_le h2 (hm (by omega)))
    · exact Or.inr (lt_of_le_of_lt (hm (by omega)) h1)
  have hlen : (tab (knots.length + 2 * R) (padFn R knots)).length = (knots.length + R - 1) + R + 1 := by rw [tab_length]; omega
  rw [hs, hlen]
  have := C52_symmetric R (knots.length + R - 1) (fun i j s => spanRule nodes weights
      ((tab (knots.length + 2 * R) (padFn R knots)).getD s 0) ((tab (knots.length + 2 * R) (padFn R knots)).getD (s + 1) 0)
      (fun y => c * cdbD (padFn R knots) (z0 tol R (knots.length + 2 * R) (padFn R knots) y) y k R i *
        cdbD (padFn R knots) (z0 tol R (knots.length + 2 * R) (padFn R knots) y) y k R j)) (by
    intro i j s hs1 hs2
    rw [hg s (by omega), hg (s + 1) (by omega)]
    refine spanRule_zero hn (hm (by omega)) (fun y h1 h2 => ?_)
    rcases hs2 with h | h | h | h
    · rw [hsup i s y (by omega) (Or.inl h) h1 h2]; ring
    · rw [hsup i s y (by omega) (Or.inr h) h1 h2]; ring
    · rw [hsup j s y (by omega) (Or.inl h) h1 h2]; ring
    · rw [hsup j s y (by omega) (Or.inr h) h1 h2]; ring)
  obtain ⟨l, hl, hmat⟩ := this
  refine ⟨l, hl, fun i hi j hj => ?_⟩
  rw [hmat i hi j hj, show knots.length + R - 1 + R + 1 - 1 = knots.length + R - 1 + R by omega]
  rcases le_total i j with h | h
  · rw [max_eq_right h, min_eq_left h]
    refine Finset.sum_congr rfl (fun s _ => ?_)
    congr 1; funext y; ring
  · rw [max_eq_left h, min_eq_right h]

/-- For an operator that is not symmetric the inner loop runs to the number of basis functions included: the assembler
reads one basis function past the end, whatever the basis. -/
theorem C52_bug_nonsymmetric (R nk M : Nat) (Q : Nat → Nat → Nat → K) (h : 0 < M) (hM : M + R + 1 ≤ nk) :
    assemble false R nk M Q = .ub := by
  obtain ⟨M, rfl⟩ : ∃ m, M = m + 1 := ⟨M - 1, by omega⟩
  unfold assemble
  rw [List.range_succ_eq_map, foldRes_cons]
  have : assembleRow false R nk (M + 1) Q [] 0 = .ub := by
    unfold assembleRow
    simp only [Bool.false_eq_true, if_false]
    rw [List.range_succ, foldRes_append]
    have key : ∀ n ≤ M + 1, ∃ l, foldRes (fun acc j => (fun v => acc ++ [(0, j, v)]) <$> pairValue R nk (M + 1) Q 0 j) []
        (List.range n) = .ok l := by
      intro n
      induction n with
      | zero => intro _; exact ⟨[], rfl⟩
      | succ n ih =>
        intro hn
        obtain ⟨l, hl⟩ := ih (by omega)
        rw [List.range_succ, foldRes_append, hl, Res.ok_bind, foldRes_cons, pairValue_eq Q hM (by omega) (by omega)]
        exact ⟨_, rfl⟩
    obtain ⟨l, hl⟩ := key (M + 1) le_rfl
    rw [hl, Res.ok_bind, foldRes_cons]
    unfold pairValue
    rw [if_neg (by omega)]
    rfl
  rw [this]; rfl

/-- **C85.**  The evaluation matrix: entry (j, i) is the value of the i-th basis function at the j-th location, every
other entry is zero, so that multiplying it by a coefficient vector gives the basis expansion of C50_expansion. -/
theorem C85_evaluation_matrix (tol : K) (R : Nat) (knots : List K) (h : 0 < knots.length) (locs : List K) (hl : locs ≠ []) :
    ∃ t, pad R knots = .ok t ∧ ∃ l, evalTriplets tol R t locs = .ok l ∧
      ∀ j i, (∀ x, locs[j]? = some x → i < size R t → basisEval tol R t i x = .ok (entry l j i)) ∧
        (locs.length ≤ j ∨ size R t ≤ i → entry l j i = 0) := by
  have hs : size R (tab (knots.length + 2 * R) (padFn R knots)) = knots.length + R - 1 := by
    unfold size; rw [tab_length]; omega
  refine ⟨_, pad_eq R knots h, ?_⟩
  set v : Nat → K → K := fun i x => cdb (padFn R knots) (z0 tol R (knots.length + 2 * R) (padFn R knots) x) x R i with hv
  have hb : ∀ i x, i < knots.length + R - 1 → basisEval tol R (tab (knots.length + 2 * R) (padFn R knots)) i x = .ok (v i x) :=
    fun i x hi => basis_value h hi x
  have inner : ∀ i, i < knots.length + R - 1 → ∀ acc n, n ≤ locs.length →
      foldRes (fun acc j => do
        let x ← rd locs j
        let v ← basisEval tol R (tab (knots.length + 2 * R) (padFn R knots)) i x
        .ok (acc ++ [(j, i, v)])) acc (List.range n) = .ok (acc ++ (List.range n).map fun j => (j, i, v i (locs.getD j 0))) := by
    intro i hi acc n
    induction n with
    | zero => intro _; simp
    | succ n ih =>
      intro hn
      rw [List.range_succ, foldRes_append, ih (by omega), Res.ok_bind, foldRes_cons, rd_eq (show n < locs.length by omega),
        Res.ok_bind, hb i _ hi]
      simp
  have outer : ∀ n, n ≤ knots.length + R - 1 → foldRes (fun acc i =>
      foldRes (fun acc j => do
        let x ← rd locs j
        let v ← basisEval tol R (tab (knots.length + 2 * R) (padFn R knots)) i x
        .ok (acc ++ [(j, i, v)])) acc (List.range locs.length)) [] (List.range n) =
      .ok ((List.range n).flatMap fun i => (List.range locs.length).map fun j => (j, i, v i (locs.getD j 0))) := by
    intro n
    induction n with
    | zero => intro _; simp
    | succ n ih =>
      intro hn
      rw [List.range_succ, foldRes_append, ih (by omega), Res.ok_bind, foldRes_cons, inner n (by omega) _ _ le_rfl]
      simp
  have eCol : ∀ i' j i n, entry ((List.range n).map fun j => (j, i', v i' (locs.getD j 0))) j i =
      if i' = i ∧ j < n then v i (locs.getD j 0) else 0 := by
    intro i' j i n
    induction n with
    | zero => simp [entry]
    | succ n ih =>
      rw [List.range_succ, List.map_append, entry_append, ih]
      by_cases h1 : i' = i
      · subst h1
        by_cases h2 : n = j
        · subst h2; simp [entry]
        · by_cases h3 : j < n
          · simp [entry, h2, h3, show j < n + 1 by omega]
          · simp [entry, h2, h3, show ¬ j < n + 1 by omega]
      · simp [entry, h1]
  have eAll : ∀ j i n, entry ((List.range n).flatMap fun i => (List.range locs.length).map fun j => (j, i, v i (locs.getD j 0))) j i =
      if i < n ∧ j < locs.length then v i (locs.getD j 0) else 0 := by
    intro j i n
    induction n with
    | zero => simp [entry]
    | succ n ih =>
      rw [List.range_succ, List.flatMap_append, entry_append, ih, List.flatMap_singleton, eCol]
      by_cases h1 : n = i
      · subst h1; simp
      · by_cases h2 : i < n
        · simp [h1, h2, show i < n + 1 by omega]
        · simp [h1, h2, show ¬ i < n + 1 by omega]
  refine ⟨_, by rw [evalTriplets, if_neg hl, hs]; exact outer _ le_rfl, fun j i => ⟨fun x hx hi => ?_, fun ho => ?_⟩⟩
  · rw [hs] at hi
    have hj : j < locs.length := by
      by_contra hn
      rw [List.getElem?_eq_none (by omega)] at hx
      exact absurd hx (by simp)
    rw [eAll, if_pos ⟨hi, hj⟩, hb i x hi, List.getD_eq_getElem?_getD, hx, Option.getD_some]
  · rw [eAll, if_neg (by rw [hs] at ho; omega)]

/-- The coordinates of the degrees of freedom returned for a spline basis are one more than the basis functions (the last
knot appears R + 1 times). -/
theorem C85_bug_dofs_coords (R : Nat) (knots : List K) (h : 0 < knots.length) :
    ∃ t, pad R knots = .ok t ∧ (dofsCoords R t).length = size R t + 1 := by
  refine ⟨_, pad_eq R knots h, ?_⟩
  unfold dofsCoords size
  rw [List.length_drop, tab_length]; omega

/-- The three-point rule of the spline integrator has its nodes inside of (-1, 1) (integrator_tables.h:102-104). -/
example : ∀ q ∈ [-774596669241483 / 10 ^ 15, 0, (774596669241483 : ℚ) / 10 ^ 15], -1 < q ∧ q < 1 := by
  intro q hq
  simp only [List.mem_cons, List.not_mem_nil, or_false] at hq
  rcases hq with rfl | rfl | rfl <;> norm_num

end Fdapde.Splines
