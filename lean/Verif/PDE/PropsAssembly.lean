import Verif.PDE.Assembly
import Verif.FEM.PropsEval
/- C60, C61 : assembly of operators and forcings. -/
namespace Fdapde.PDE
open Fdapde.FEM
variable {K : Type} [Field K]

/-- Specification: the sum over the cells and the pairs of local functions with dofs `p`, `q`. -/
def fullSum (n nb : Nat) (dofs : Nat → Nat → Nat) (loc : Nat → Nat → Nat → K) (p q : Nat) : K :=
  ∑ c ∈ Finset.range n, ∑ i ∈ Finset.range nb, ∑ j ∈ Finset.range nb, if dofs c i = p ∧ dofs c j = q then loc c i j else 0

theorem foldRes_entries {β : Type} (f : List (Trip K) → β → Res (List (Trip K))) (g : β → Nat → Nat → K)
    (hf : ∀ l b, ∃ l', f l b = .ok l' ∧ ∀ p q, entry l' p q = entry l p q + g b p q) :
    ∀ (bs : List β) (l : List (Trip K)), ∃ l', foldRes f l bs = .ok l' ∧ ∀ p q, entry l' p q = entry l p q + (bs.map fun b => g b p q).sum
  | [], l => ⟨l, rfl, by simp⟩
  | b :: bs, l => by
    obtain ⟨l1, h1, h2⟩ := hf l b
    obtain ⟨l2, h3, h4⟩ := foldRes_entries f g hf bs l1
    refine ⟨l2, by rw [foldRes_cons, h1]; exact h3, fun p q => ?_⟩
    rw [h4, h2, List.map_cons, List.sum_cons, add_assoc]

theorem foldRes_entries_range (n : Nat) (f : List (Trip K) → Nat → Res (List (Trip K))) (g : Nat → Nat → Nat → K)
    (hf : ∀ b < n, ∀ l, ∃ l', f l b = .ok l' ∧ ∀ p q, entry l' p q = entry l p q + g b p q) (l : List (Trip K)) :
    ∃ l', foldRes f l (List.range n) = .ok l' ∧ ∀ p q, entry l' p q = entry l p q + ∑ b ∈ Finset.range n, g b p q := by
  induction n with
  | zero => exact ⟨l, rfl, by simp⟩
  | succ n ih =>
    obtain ⟨l1, h1, h2⟩ := ih (fun b hb => hf b (by omega))
    obtain ⟨l2, h3, h4⟩ := hf n (by omega) l1
    refine ⟨l2, by rw [List.range_succ, foldRes_append, h1, Res.ok_bind, foldRes_cons, h3]; rfl, fun p q => ?_⟩
    rw [h4, h2, Finset.sum_range_succ, add_assoc]

theorem opTriplets_spec (sym : Bool) (n nb N : Nat) (dofs : Nat → Nat → Nat) (loc : Nat → Nat → Nat → K)
    (hN : ∀ c < n, ∀ i < nb, dofs c i < N) :
    ∃ l, opTriplets sym n nb N dofs loc = .ok l ∧ ∀ p q, entry l p q =
      if sym = true ∧ p < q then 0 else fullSum n nb dofs loc p q := by
  have hp : ∀ c < n, ∀ i < nb, ∀ j < nb, ∀ l : List (Trip K), ∃ l', pairStep sym N dofs loc c i l j = .ok l' ∧ ∀ p q,
      entry l' p q = entry l p q + (if (sym = true → q ≤ p) ∧ dofs c i = p ∧ dofs c j = q then loc c i j else 0) := by
    intro c hc i hi j hj l
    have hb : dofs c i < N ∧ dofs c j < N := ⟨hN c hc i hi, hN c hc j hj⟩
    unfold pairStep
    cases sym with
    | false =>
      refine ⟨_, by simp only [Bool.false_eq_true, if_false]; rw [if_pos hb], fun p q => ?_⟩
      rw [entry_append, entry_single]
      simp
    | true =>
      simp only [if_true]
      by_cases hge : dofs c i ≥ dofs c j
      · refine ⟨_, by rw [if_pos hge, if_pos hb], fun p q => ?_⟩
        rw [entry_append, entry_single]
        congr 1
        by_cases h : dofs c i = p ∧ dofs c j = q
        · rw [if_pos h, if_pos ⟨fun _ => by omega, h⟩]
        · rw [if_neg h, if_neg (fun h' => h h'.2)]
      · refine ⟨_, by rw [if_neg hge], fun p q => ?_⟩
        rw [if_neg, add_zero]
        rintro ⟨h1, rfl, rfl⟩
        exact hge (h1 trivial)
  obtain ⟨l, h1, h2⟩ := foldRes_entries_range n _ (fun c p q => ∑ i ∈ Finset.range nb, ∑ j ∈ Finset.range nb,
      (if (sym = true → q ≤ p) ∧ dofs c i = p ∧ dofs c j = q then loc c i j else 0))
    (fun c hc l => foldRes_entries_range nb _ (fun i p q => ∑ j ∈ Finset.range nb,
      (if (sym = true → q ≤ p) ∧ dofs c i = p ∧ dofs c j = q then loc c i j else 0))
      (fun i hi l => foldRes_entries_range nb _ (fun j p q =>
        (if (sym = true → q ≤ p) ∧ dofs c i = p ∧ dofs c j = q then loc c i j else 0)) (fun j hj l => hp c hc i hi j hj l) l) l) []
  refine ⟨l, h1, fun p q => ?_⟩
  rw [h2, entry_nil, zero_add]
  by_cases h : sym = true ∧ p < q
  · rw [if_pos h]
    refine Finset.sum_eq_zero (fun c _ => Finset.sum_eq_zero (fun i _ => Finset.sum_eq_zero (fun j _ => if_neg ?_)))
    rintro ⟨h', _⟩
    have := h' h.1
    omega
  · rw [if_neg h]
    unfold fullSum
    refine Finset.sum_congr rfl (fun c _ => Finset.sum_congr rfl (fun i _ => Finset.sum_congr rfl (fun j _ => ?_)))
    have : (sym = true → q ≤ p) := fun hs => by by_contra hc; exact h ⟨hs, by omega⟩
    by_cases h3 : dofs c i = p ∧ dofs c j = q
    · rw [if_pos h3, if_pos ⟨this, h3⟩]
    · rw [if_neg h3, if_neg (fun h' => h3 h'.2)]

/-- **C61.**  Without the symmetry flag, entry (p, q) of the matrix is the sum over the cells and the pairs of local
functions with dofs p and q of the local integrals. -/
theorem C61_operator (n nb N : Nat) (dofs : Nat → Nat → Nat) (loc : Nat → Nat → Nat → K) (hN : ∀ c < n, ∀ i < nb, dofs c i < N) :
    ∃ A, discretizeOperator false n nb N dofs loc = .ok A ∧ ∀ p q, A p q = fullSum n nb dofs loc p q := by
  obtain ⟨l, h1, h2⟩ := opTriplets_spec false n nb N dofs loc hN
  refine ⟨_, by rw [discretizeOperator, h1, Res.map_ok], fun p q => ?_⟩
  simp [h2]

/-- **C61**, order of the cells: renumbering the cells by a permutation does not change the matrix. -/
theorem C61_cell_order (n nb N : Nat) (dofs : Nat → Nat → Nat) (loc : Nat → Nat → Nat → K) (hN : ∀ c < n, ∀ i < nb, dofs c i < N)
    (σ : Nat → Nat) (hσ : Set.BijOn σ (Set.Iio n) (Set.Iio n)) :
    ∃ A B, discretizeOperator false n nb N dofs loc = .ok A ∧
      discretizeOperator false n nb N (fun c => dofs (σ c)) (fun c => loc (σ c)) = .ok B ∧ ∀ p q, A p q = B p q := by
  obtain ⟨A, h1, h2⟩ := C61_operator n nb N dofs loc hN
  obtain ⟨B, h3, h4⟩ := C61_operator n nb N (fun c => dofs (σ c)) (fun c => loc (σ c)) (fun c hc => hN _ (hσ.mapsTo hc))
  refine ⟨A, B, h1, h3, fun p q => ?_⟩
  rw [h2, h4]
  unfold fullSum
  symm
  refine Finset.sum_nbij σ (fun c hc => ?_) (fun a ha b hb h => ?_) (fun c hc => ?_) (fun c _ => rfl)
  · exact Finset.mem_range.2 (hσ.mapsTo (Finset.mem_range.1 hc))
  · exact hσ.injOn (Finset.mem_range.1 (Finset.mem_coe.1 ha)) (Finset.mem_range.1 (Finset.mem_coe.1 hb)) h
  · obtain ⟨a, ha, rfl⟩ := hσ.surjOn (show c ∈ Set.Iio n from Finset.mem_range.1 (Finset.mem_coe.1 hc))
    exact ⟨a, Finset.mem_coe.2 (Finset.mem_range.2 ha), rfl⟩

/-- **C61**, forcing: entry p is the sum over the cells and the local functions with dof p of the local integrals. -/
theorem C61_forcing (n nb N : Nat) (dofs : Nat → Nat → Nat) (frc : Nat → Nat → K) (hN : ∀ c < n, ∀ i < nb, dofs c i < N) :
    ∃ v, discretizeForcing n nb N dofs frc = .ok v ∧ v.length = N ∧
      ∀ p < N, v[p]? = some (∑ c ∈ Finset.range n, ∑ i ∈ Finset.range nb, if dofs c i = p then frc c i else 0) := by
  have inner : ∀ c < n, ∀ k ≤ nb, ∀ v : List K, v.length = N → ∃ v', foldRes (fun (v : List K) i =>
      if dofs c i < v.length then Res.ok (v.modify (dofs c i) (· + frc c i)) else .ub) v (List.range k) = .ok v' ∧ v'.length = N ∧
      ∀ p < N, v'[p]? = v[p]?.map (· + ∑ i ∈ Finset.range k, if dofs c i = p then frc c i else 0) := by
    intro c hc k
    induction k with
    | zero => intro _ v hv; exact ⟨v, rfl, hv, fun p _ => by simp⟩
    | succ k ih =>
      intro hk v hv
      obtain ⟨v', h1, h2, h3⟩ := ih (by omega) v hv
      have hd := hN c hc k (by omega)
      refine ⟨v'.modify (dofs c k) (· + frc c k), ?_, by simp [h2], fun p hp => ?_⟩
      · rw [List.range_succ, foldRes_append, h1, Res.ok_bind, foldRes_cons, if_pos (by omega)]; rfl
      · rw [List.getElem?_modify, h3 p hp, Finset.sum_range_succ, List.getElem?_eq_getElem (by omega)]
        by_cases h : dofs c k = p
        · simp [h, add_assoc]
        · simp [h]
  have outer : ∀ m ≤ n, ∃ v, foldRes (fun v c => foldRes (fun (v : List K) i =>
      if dofs c i < v.length then Res.ok (v.modify (dofs c i) (· + frc c i)) else .ub) v (List.range nb))
      (List.replicate N 0) (List.range m) = .ok v ∧ v.length = N ∧
      ∀ p < N, v[p]? = some (∑ c ∈ Finset.range m, ∑ i ∈ Finset.range nb, if dofs c i = p then frc c i else 0) := by
    intro m
    induction m with
    | zero => intro _; exact ⟨_, rfl, by simp, fun p hp => by simp [hp]⟩
    | succ m ih =>
      intro hm
      obtain ⟨v, h1, h2, h3⟩ := ih (by omega)
      obtain ⟨v', g1, g2, g3⟩ := inner m (by omega) nb le_rfl v h2
      refine ⟨v', ?_, g2, fun p hp => ?_⟩
      · rw [List.range_succ, foldRes_append, h1, Res.ok_bind, foldRes_cons, g1]; rfl
      · rw [g3 p hp, h3 p hp, Finset.sum_range_succ]; rfl
  exact outer n le_rfl

/-- **C61**, order of the cells: renumbering the cells by a permutation does not change the forcing vector either. -/
theorem C61_forcing_cell_order (n nb N : Nat) (dofs : Nat → Nat → Nat) (frc : Nat → Nat → K) (hN : ∀ c < n, ∀ i < nb, dofs c i < N)
    (σ : Nat → Nat) (hσ : Set.BijOn σ (Set.Iio n) (Set.Iio n)) :
    ∃ v, discretizeForcing n nb N dofs frc = .ok v ∧ discretizeForcing n nb N (fun c => dofs (σ c)) (fun c => frc (σ c)) = .ok v := by
  obtain ⟨v, h1, h2, h3⟩ := C61_forcing n nb N dofs frc hN
  obtain ⟨w, g1, g2, g3⟩ := C61_forcing n nb N (fun c => dofs (σ c)) (fun c => frc (σ c)) (fun c hc => hN _ (hσ.mapsTo hc))
  have hvw : w = v := by
    apply List.ext_getElem?
    intro p
    by_cases hp : p < N
    · rw [h3 p hp, g3 p hp]
      congr 1
      refine Finset.sum_nbij σ (fun c hc => ?_) (fun a ha b hb h => ?_) (fun c hc => ?_) (fun c _ => rfl)
      · exact Finset.mem_range.2 (hσ.mapsTo (Finset.mem_range.1 hc))
      · exact hσ.injOn (Finset.mem_range.1 (Finset.mem_coe.1 ha)) (Finset.mem_range.1 (Finset.mem_coe.1 hb)) h
      · obtain ⟨a, ha, rfl⟩ := hσ.surjOn (show c ∈ Set.Iio n from Finset.mem_range.1 (Finset.mem_coe.1 hc))
        exact ⟨a, Finset.mem_coe.2 (Finset.mem_range.2 ha), rfl⟩
    · rw [List.getElem?_eq_none (by omega), List.getElem?_eq_none (by omega)]
  exact ⟨v, h1, by rw [g1, hvw]⟩

/-- **C60** (partial: the local integrals are symmetric, as the flag promises).  The matrix built with the symmetry flag is
the one accumulated from all the local pairs. -/
theorem C60_same_matrix_partial (n nb N : Nat) (dofs : Nat → Nat → Nat) (loc : Nat → Nat → Nat → K)
    (hN : ∀ c < n, ∀ i < nb, dofs c i < N) (hs : ∀ c < n, ∀ i < nb, ∀ j < nb, loc c i j = loc c j i) :
    ∃ A B, discretizeOperator true n nb N dofs loc = .ok A ∧ discretizeOperator false n nb N dofs loc = .ok B ∧ ∀ p q, A p q = B p q := by
  obtain ⟨l, h1, h2⟩ := opTriplets_spec true n nb N dofs loc hN
  obtain ⟨B, h3, h4⟩ := C61_operator n nb N dofs loc hN
  refine ⟨_, B, by rw [discretizeOperator, h1, Res.map_ok], h3, fun p q => ?_⟩
  have hsym : fullSum n nb dofs loc q p = fullSum n nb dofs loc p q := by
    unfold fullSum
    refine Finset.sum_congr rfl (fun c hc => ?_)
    rw [Finset.sum_comm]
    refine Finset.sum_congr rfl (fun i hi => Finset.sum_congr rfl (fun j hj => ?_))
    rw [hs c (Finset.mem_range.1 hc) i (Finset.mem_range.1 hi) j (Finset.mem_range.1 hj)]
    simp only [and_comm]
  simp only [if_true, h2, h4]
  by_cases h : q ≤ p
  · rw [if_pos h, if_neg (by omega)]
  · rw [if_neg h, if_neg (by omega), hsym]

/-- **C60**, symmetry: with the flag the matrix is symmetric, whatever the local integrals. -/
theorem C60_symmetric (n nb N : Nat) (dofs : Nat → Nat → Nat) (loc : Nat → Nat → Nat → K)
    (hN : ∀ c < n, ∀ i < nb, dofs c i < N) :
    ∃ A, discretizeOperator true n nb N dofs loc = .ok A ∧ ∀ p q, A p q = A q p := by
  obtain ⟨l, h1, h2⟩ := opTriplets_spec true n nb N dofs loc hN
  refine ⟨_, by rw [discretizeOperator, h1, Res.map_ok], fun p q => ?_⟩
  simp only [if_true]
  by_cases h : q ≤ p
  · by_cases h' : p ≤ q
    · have : p = q := by omega
      rw [this]
    · rw [if_pos h, if_neg h']
  · rw [if_neg h, if_pos (by omega)]

example : ∃ dofs : Nat → Nat → Nat, (∀ c < 2, ∀ i < 3, dofs c i < 4) ∧
    discretizeOperator (K := ℚ) true 2 3 4 dofs (fun _ i j => i + j) ≠ .ub := by
  have h : ∀ c < 2, ∀ i < 3, (fun c i => [[0, 1, 2], [3, 2, 1]].getD c [] |>.getD i 0) c i < 4 := by decide
  refine ⟨_, h, ?_⟩
  obtain ⟨A, h1, _⟩ := C60_symmetric (K := ℚ) 2 3 4 _ (fun _ i j => i + j) h
  rw [h1]
  exact fun e => by cases e

/-- The permutation of two cells meets the hypothesis of `C61_cell_order`. -/
example : Set.BijOn (fun c => 1 - c) (Set.Iio 2) (Set.Iio 2) := by
  refine ⟨fun c hc => ?_, fun a ha b hb h => ?_, fun c hc => ?_⟩
  · simp only [Set.mem_Iio] at *; omega
  · simp only [Set.mem_Iio] at *; omega
  · simp only [Set.mem_Iio] at hc
    exact ⟨1 - c, by simp only [Set.mem_Iio]; omega, by simp only; omega⟩

end Fdapde.PDE
