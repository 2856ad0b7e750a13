import Verif.LinAlg.PropsFspai
/- C101: which entries enter the pattern of a column. -/
namespace Fdapde.LinAlg
open Matrix
variable {n : Nat}

/-- The largest decrease of the energy xᵀAx that can be had by changing entry `j` of `x` (see `C101_gain`). -/
noncomputable def gain (A : Matrix (Fin n) (Fin n) ℝ) (x : Fin n → ℝ) (j : Fin n) : ℝ := (A *ᵥ x) j ^ 2 / A j j

/-- C101: the value by which candidates are compared is the largest decrease of the energy xᵀAx under changes of entry `j`. -/
theorem C101_gain {A : Matrix (Fin n) (Fin n) ℝ} (hA : SPD A) (x : Fin n → ℝ) (j : Fin n) :
    (∀ t : ℝ, x ⬝ᵥ A *ᵥ x - gain A x j ≤ (x + Pi.single j t) ⬝ᵥ A *ᵥ (x + Pi.single j t)) ∧
      ∃ t : ℝ, (x + Pi.single j t) ⬝ᵥ A *ᵥ (x + Pi.single j t) = x ⬝ᵥ A *ᵥ x - gain A x j := by
  have hd := hA.diag j
  have hs : Aᵀ = A := by ext a b; exact hA.1 b a
  have e : ∀ t : ℝ, (x + Pi.single j t) ⬝ᵥ A *ᵥ (x + Pi.single j t) = x ⬝ᵥ A *ᵥ x + 2 * t * (A *ᵥ x) j + t ^ 2 * A j j := by
    intro t
    have e1 : x ⬝ᵥ A *ᵥ Pi.single j t = t * (A *ᵥ x) j := by
      rw [dotProduct_mulVec, ← mulVec_transpose, hs, dotProduct_single, mul_comm]
    rw [mulVec_add, add_dotProduct, dotProduct_add, dotProduct_add, e1, single_dotProduct, single_dotProduct]
    have e2 : (A *ᵥ Pi.single j t) j = A j j * t := by simp [mulVec, dotProduct_single]
    rw [e2]
    ring
  refine ⟨fun t => ?_, -(A *ᵥ x) j / A j j, ?_⟩
  · rw [e, gain]
    have : 0 ≤ (t * A j j + (A *ᵥ x) j) ^ 2 / A j j := div_nonneg (sq_nonneg _) hd.le
    have e3 : (t * A j j + (A *ᵥ x) j) ^ 2 / A j j = 2 * t * (A *ᵥ x) j + t ^ 2 * A j j + (A *ᵥ x) j ^ 2 / A j j := by
      field_simp; ring
    linarith
  · rw [e, gain]; field_simp; ring

theorem maxEntry_le (e : Fin n × ℝ) (l : List (Fin n × ℝ)) : e.2 ≤ (maxEntry e l).2 ∧ ∀ x ∈ l, x.2 ≤ (maxEntry e l).2 := by
  unfold maxEntry
  induction l generalizing e with
  | nil => exact ⟨le_rfl, fun x hx => absurd hx List.not_mem_nil⟩
  | cons a l ih =>
    rw [List.foldl_cons]
    split
    · rename_i h
      obtain ⟨h1, h2⟩ := ih a
      refine ⟨le_trans h h1, fun x hx => ?_⟩
      rcases List.mem_cons.1 hx with rfl | hx
      · exact h1
      · exact h2 x hx
    · rename_i h
      obtain ⟨h1, h2⟩ := ih e
      refine ⟨h1, fun x hx => ?_⟩
      rcases List.mem_cons.1 hx with rfl | hx
      · exact (not_le.1 h).le.trans h1
      · exact h2 x hx

theorem maxTau_foldl (l : List (Fin n × ℝ)) (m eps : ℝ) :
    open Classical in l.foldl (fun m x => if x.2 > m then x.2 else m) m > eps ↔ m > eps ∨ ∃ x ∈ l, x.2 > eps := by
  classical
  induction l generalizing m with
  | nil => simp
  | cons a l ih =>
    rw [List.foldl_cons]
    have := ih (if a.2 > m then a.2 else m)
    refine this.trans ?_
    split
    · rename_i h
      constructor
      · rintro (h1 | ⟨x, hx, h1⟩)
        · exact Or.inr ⟨a, List.mem_cons_self, h1⟩
        · exact Or.inr ⟨x, List.mem_cons_of_mem _ hx, h1⟩
      · rintro (h1 | ⟨x, hx, h1⟩)
        · exact Or.inl (lt_trans h1 h)
        · rcases List.mem_cons.1 hx with rfl | hx
          · exact Or.inl h1
          · exact Or.inr ⟨x, hx, h1⟩
    · rename_i h
      constructor
      · rintro (h1 | ⟨x, hx, h1⟩)
        · exact Or.inl h1
        · exact Or.inr ⟨x, List.mem_cons_of_mem _ hx, h1⟩
      · rintro (h1 | ⟨x, hx, h1⟩)
        · exact Or.inl h1
        · rcases List.mem_cons.1 hx with rfl | hx
          · exact Or.inl (lt_of_lt_of_le h1 (not_lt.1 h))
          · exact Or.inr ⟨x, hx, h1⟩

/-- The choice of at most `b` entries. -/
theorem select_spec (tau : ℝ) (b : Nat) (hat : List (Fin n × ℝ)) (hn : (hat.map Prod.fst).Nodup) (s : Finset (Fin n) × Finset (Fin n)) :
    ∃ S : Finset (Fin n), selectLoop tau b hat s = (s.1 ∪ S, s.2 ∪ S) ∧ (∀ j ∈ S, j ∈ hat.map Prod.fst) ∧ S.card ≤ b ∧
      (∀ x ∈ hat, x.1 ∈ S → x.2 > tau ∧ ∀ y ∈ hat, y.1 ∉ S → y.2 ≤ x.2) ∧
      ∀ x ∈ hat, x.2 > tau → x.1 ∉ S → S.card = b := by
  induction b generalizing hat s with
  | zero => exact ⟨∅, by simp [selectLoop], by simp, le_rfl, by simp, fun _ _ _ _ => rfl⟩
  | succ b ih =>
    match hat, hn with
    | [], _ => exact ⟨∅, by simp [selectLoop], by simp, by simp, by simp, by simp⟩
    | e :: l, hn =>
      rw [selectLoop]
      set m := maxEntry e (e :: l) with hm
      have hmem : m ∈ e :: l := by
        rcases maxEntry_mem e (e :: l) with h | h
        · rw [hm, h]; simp
        · exact h
      have hle : ∀ x ∈ e :: l, x.2 ≤ m.2 := (maxEntry_le e (e :: l)).2
      have hinj : ∀ x ∈ e :: l, x.1 = m.1 → x = m := fun x hx h => List.inj_on_of_nodup_map hn hx hmem h
      have hn' : (((e :: l).filter fun x => x.1 ≠ m.1).map Prod.fst).Nodup :=
        hn.sublist (List.Sublist.map _ List.filter_sublist)
      have hf : ∀ x, x ∈ (e :: l).filter (fun x => x.1 ≠ m.1) ↔ x ∈ e :: l ∧ x.1 ≠ m.1 := by
        intro x; rw [List.mem_filter]; simp
      by_cases hgt : m.2 > tau
      · rw [if_pos hgt]
        obtain ⟨S, e1, e2, e3, e4, e5⟩ := ih _ hn' (insert m.1 s.1, insert m.1 s.2)
        have hmS : m.1 ∉ S := by
          intro h
          obtain ⟨x, hx, hxm⟩ := List.mem_map.1 (e2 _ h)
          exact ((hf x).1 hx).2 hxm
        refine ⟨insert m.1 S, ?_, ?_, ?_, ?_, ?_⟩
        · rw [e1]
          simp only [Finset.insert_union, Finset.union_insert]
        · intro j hj
          rcases Finset.mem_insert.1 hj with rfl | hj
          · exact List.mem_map.2 ⟨m, hmem, rfl⟩
          · obtain ⟨x, hx, hxj⟩ := List.mem_map.1 (e2 _ hj)
            exact List.mem_map.2 ⟨x, ((hf x).1 hx).1, hxj⟩
        · rw [Finset.card_insert_of_notMem hmS]; omega
        · intro x hx hxS
          rcases Finset.mem_insert.1 hxS with h | h
          · rw [hinj x hx h]
            exact ⟨hgt, fun y hy _ => hle y hy⟩
          · have hne : x.1 ≠ m.1 := fun h' => hmS (h' ▸ h)
            obtain ⟨f1, f2⟩ := e4 x ((hf x).2 ⟨hx, hne⟩) h
            refine ⟨f1, fun y hy hyS => f2 y ((hf y).2 ⟨hy, fun h' => hyS (by rw [h']; exact Finset.mem_insert_self _ _)⟩)
              fun h' => hyS (Finset.mem_insert_of_mem h')⟩
        · intro x hx hxt hxS
          have := e5 x ((hf x).2 ⟨hx, fun h' => hxS (by rw [h']; exact Finset.mem_insert_self _ _)⟩) hxt
            fun h' => hxS (Finset.mem_insert_of_mem h')
          rw [Finset.card_insert_of_notMem hmS, this]
      · rw [if_neg hgt]
        obtain ⟨S, e1, e2, e3, e4, e5⟩ := ih _ hn' s
        have hno : ∀ x ∈ e :: l, ¬ x.2 > tau := fun x hx h => hgt (lt_of_lt_of_le h (hle x hx))
        have hS : S = ∅ := by
          rw [Finset.eq_empty_iff_forall_notMem]
          intro j hj
          obtain ⟨x, hx, hxj⟩ := List.mem_map.1 (e2 _ hj)
          exact hno x ((hf x).1 hx).1 (e4 x hx (hxj ▸ hj)).1
        subst hS
        exact ⟨∅, e1, by simp, by simp, by simp, fun x hx h => absurd h (hno x hx)⟩

/-- C101: a step for column `k`.  The column becomes the best one for the pattern it had; the candidates are those seen before and the
stored entries, below the diagonal, of the rows that entered the pattern in the last step.  Nothing enters if no candidate outside the
pattern decreases the energy by more than `eps`; otherwise, of the candidates that decrease it by more than the average, the best ones
enter, all of them or else `beta` of them. -/
theorem C101_selection (I : FspaiIn n) (hord : ∀ s, (I.ord s).Nodup ∧ ∀ x, x ∈ I.ord s ↔ x ∈ s) (beta : Nat) (eps : ℝ) (heps : 0 ≤ eps)
    (k : Fin n) (s : ColSt n) (hk : k ∈ s.J) (hL : ∀ i, i ∉ s.J → s.Lk i = 0) (hd : s.delta.Nonempty) :
    ((∃ r ∈ s.delta, I.pat r = ∅) → colStep I beta eps k s = .throws) ∧
    ((∀ r ∈ s.delta, I.pat r ≠ ∅) → ∃ s', colStep I beta eps k s = .ok s' ∧ s'.Lk = colOf I k (s.J.erase k) ∧
      (∀ j, j ∈ s'.cand ↔ j ∈ s.cand ∨ k < j ∧ ∃ r ∈ s.delta, j ∈ I.pat r) ∧
      s'.J = s.J ∪ s'.delta ∧ s'.delta ⊆ s'.cand \ s.J ∧ s'.delta.card ≤ beta ∧
      ((∀ j ∈ s'.cand \ s.J, gain I.A s'.Lk j ≤ eps) → s'.delta = ∅) ∧
      ((∃ j ∈ s'.cand \ s.J, eps < gain I.A s'.Lk j) →
        (∀ j ∈ s'.delta, (∑ i ∈ s'.cand \ s.J, gain I.A s'.Lk i) / (s'.cand \ s.J).card < gain I.A s'.Lk j ∧
          ∀ i ∈ s'.cand \ s.J, i ∉ s'.delta → gain I.A s'.Lk i ≤ gain I.A s'.Lk j) ∧
        ∀ j ∈ s'.cand \ s.J, (∑ i ∈ s'.cand \ s.J, gain I.A s'.Lk i) / (s'.cand \ s.J).card < gain I.A s'.Lk j → j ∉ s'.delta →
          s'.delta.card = beta)) := by
  classical
  unfold colStep
  rw [if_neg (Finset.nonempty_iff_ne_empty.1 hd)]
  refine ⟨fun h => by simp [candidates, h], fun h => ?_⟩
  have hc : ¬ ∃ r ∈ s.delta, I.pat r = ∅ := fun ⟨r, hr, e⟩ => h r hr e
  dsimp only
  rw [candidates, if_neg hc]
  dsimp only
  set cand := s.cand ∪ s.delta.biUnion fun r => (I.pat r).filter fun j => k < j with hcand
  have hu : updateInverse I k s.J s.Lk = colOf I k (s.J.erase k) := by
    refine update_eq I k s.J s.Lk fun i hi hik => hL i fun hiJ => hi (Finset.mem_erase.2 ⟨hik, hiJ⟩)
  rw [hu]
  set L := colOf I k (s.J.erase k) with hLdef
  have hsupp : ∀ i, i ∉ s.J → L i = 0 := fun i hi =>
    colOf_supp I (fun h => hi (Finset.mem_of_mem_erase h)) fun h => hi (h ▸ hk)
  have hgain : ∀ j, (∑ i ∈ s.J, I.A j i * L i) ^ 2 / I.A j j = gain I.A L j := by
    intro j
    rw [gain, mulVec, dotProduct, ← Finset.sum_subset (Finset.subset_univ s.J)]
    intro i _ hi
    rw [hsupp i hi, mul_zero]
  have htaus : taus I s.J cand L = (I.ord (cand \ s.J)).map fun j => (j, gain I.A L j) := by
    unfold taus
    simp only [hgain]
  obtain ⟨o1, o2⟩ := hord (cand \ s.J)
  have hsum : ((taus I s.J cand L).map Prod.snd).sum / ((taus I s.J cand L).length : ℝ) =
      (∑ i ∈ cand \ s.J, gain I.A L i) / (cand \ s.J).card := by
    have he : (I.ord (cand \ s.J)).toFinset = cand \ s.J := by ext y; rw [List.mem_toFinset]; exact o2 y
    have h1 : ∑ i ∈ cand \ s.J, gain I.A L i = ((I.ord (cand \ s.J)).map (gain I.A L)).sum := by
      conv_lhs => rw [← he, List.sum_toFinset _ o1]
    have h2 : (cand \ s.J).card = (I.ord (cand \ s.J)).length := by
      conv_lhs => rw [← he, List.toFinset_card_of_nodup o1]
    rw [htaus, List.map_map, List.length_map, h1, h2]
    rfl
  have hmem : ∀ x, x ∈ taus I s.J cand L ↔ x.1 ∈ cand \ s.J ∧ x.2 = gain I.A L x.1 := by
    intro x
    rw [htaus, List.mem_map]
    constructor
    · rintro ⟨j, hj, rfl⟩; exact ⟨(o2 j).1 hj, rfl⟩
    · rintro ⟨h1, h2⟩; exact ⟨x.1, (o2 _).2 h1, by rw [← h2]⟩
  have hmax : maxTau (taus I s.J cand L) > eps ↔ ∃ j ∈ cand \ s.J, eps < gain I.A L j := by
    unfold maxTau
    rw [maxTau_foldl]
    constructor
    · rintro (h1 | ⟨x, hx, h1⟩)
      · exact absurd heps (not_le.2 h1)
      · obtain ⟨a, b⟩ := (hmem x).1 hx
        exact ⟨x.1, a, b ▸ h1⟩
    · rintro ⟨j, hj, h1⟩
      exact Or.inr ⟨(j, gain I.A L j), (hmem _).2 ⟨hj, rfl⟩, h1⟩
  have hnd : ((taus I s.J cand L).map Prod.fst).Nodup := by
    rw [htaus, List.map_map]
    have : (Prod.fst ∘ fun j => (j, gain I.A L j)) = (id : Fin n → Fin n) := rfl
    rw [this, List.map_id]
    exact o1
  refine ⟨_, rfl, rfl, ?_, ?_⟩
  · intro j
    simp only [hcand, Finset.mem_union, Finset.mem_biUnion, Finset.mem_filter]
    constructor
    · rintro (h1 | ⟨r, hr, h1, h2⟩)
      · exact Or.inl h1
      · exact Or.inr ⟨h2, r, hr, h1⟩
    · rintro (h1 | ⟨h2, r, hr, h1⟩)
      · exact Or.inl h1
      · exact Or.inr ⟨r, hr, h1, h2⟩
  · dsimp only
    unfold updatePattern
    by_cases hb : maxTau (taus I s.J cand L) > eps
    · rw [if_pos hb, hsum]
      obtain ⟨S, e1, e2, e3, e4, e5⟩ := select_spec ((∑ i ∈ cand \ s.J, gain I.A L i) / (cand \ s.J).card) beta _ hnd (s.J, ∅)
      rw [e1]
      simp only [Finset.empty_union]
      have hSsub : S ⊆ cand \ s.J := by
        intro j hj
        obtain ⟨x, hx, hxj⟩ := List.mem_map.1 (e2 j hj)
        exact hxj ▸ ((hmem x).1 hx).1
      refine ⟨trivial, hSsub, e3, fun hall => ?_, fun _ => ⟨fun j hj => ?_, fun j hj hjt hjS => ?_⟩⟩
      · obtain ⟨j, hj, hlt⟩ := hmax.1 hb
        exact absurd (hall j hj) (not_le.2 hlt)
      · obtain ⟨f1, f2⟩ := e4 (j, gain I.A L j) ((hmem _).2 ⟨hSsub hj, rfl⟩) hj
        exact ⟨f1, fun i hi hiS => f2 (i, gain I.A L i) ((hmem _).2 ⟨hi, rfl⟩) hiS⟩
      · exact e5 (j, gain I.A L j) ((hmem _).2 ⟨hj, rfl⟩) hjt hjS
    · rw [if_neg hb]
      exact ⟨by simp, by simp, by simp, fun _ => rfl, fun h => absurd (hmax.2 h) hb⟩

/-- The state before the first step of a column meets the hypotheses. -/
example : ∃ s', colStep exIn 1 0 0 ⟨{0}, fun _ => 0, {0}, ∅⟩ = .ok s' ∧ ∀ j, j ∈ s'.cand ↔ j = 1 := by
  obtain ⟨_, h⟩ := C101_selection exIn exIn_ok.ord 1 0 le_rfl 0 ⟨{0}, fun _ => 0, {0}, ∅⟩ (by simp) (fun _ _ => rfl) (by simp)
  obtain ⟨s', e1, _, e3, _⟩ := h (fun r _ => Finset.univ_nonempty.ne_empty)
  refine ⟨s', e1, fun j => ?_⟩
  rw [e3]
  fin_cases j <;> simp [exIn]

end Fdapde.LinAlg
