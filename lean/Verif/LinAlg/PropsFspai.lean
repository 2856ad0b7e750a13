import Verif.LinAlg.Fspai
import Mathlib.Algebra.BigOperators.Ring.Finset
import Mathlib.Algebra.Order.BigOperators.Group.Finset
import Mathlib.Data.Matrix.Basic
import Mathlib.LinearAlgebra.Matrix.Notation
import Mathlib.LinearAlgebra.Matrix.NonsingularInverse
import Mathlib.Tactic.Linarith
import Mathlib.Tactic.FieldSimp
import Mathlib.Tactic.FinCases
/- C101: factorized sparse approximate inverse. -/
namespace Fdapde.LinAlg
open Matrix
variable {n : Nat}

/-- Symmetric and positive definite. -/
def SPD (A : Matrix (Fin n) (Fin n) ℝ) : Prop :=
  (∀ i j, A i j = A j i) ∧ ∀ x : Fin n → ℝ, x ≠ 0 → 0 < x ⬝ᵥ A *ᵥ x

/-- The inputs are meaningful: the matrix is symmetric positive definite, its nonzero entries are stored, the visits of a
set meet every element once, and the solver solves systems with a principal submatrix. -/
structure FspaiIn.Ok (I : FspaiIn n) : Prop where
  spd : SPD I.A
  pat : ∀ i j, I.A i j ≠ 0 → j ∈ I.pat i
  ord : ∀ s, (I.ord s).Nodup ∧ ∀ x, x ∈ I.ord s ↔ x ∈ s
  slv : ∀ S k, ∀ i ∈ S, ∑ j ∈ S, I.A i j * I.slv S k j = I.A i k

theorem SPD.diag {A : Matrix (Fin n) (Fin n) ℝ} (h : SPD A) (k : Fin n) : 0 < A k k := by
  have := h.2 (Pi.single k 1) (by intro e; have := congrFun e k; simp at this)
  simpa using this

/-- The vector `e_k - y` with `y` the solution on `S`. -/
noncomputable def rawCol (I : FspaiIn n) (k : Fin n) (S : Finset (Fin n)) : Fin n → ℝ :=
  fun i => if i ∈ S then -I.slv S k i else if i = k then 1 else 0

noncomputable def pivot (I : FspaiIn n) (k : Fin n) (S : Finset (Fin n)) : ℝ := I.A k k - ∑ i ∈ S, I.A i k * I.slv S k i

noncomputable def colOf (I : FspaiIn n) (k : Fin n) (S : Finset (Fin n)) : Fin n → ℝ :=
  fun i => 1 / Real.sqrt (pivot I k S) * rawCol I k S i

theorem mulVec_raw (I : FspaiIn n) {k : Fin n} {S : Finset (Fin n)} (hk : k ∉ S) (i : Fin n) :
    (I.A *ᵥ rawCol I k S) i = I.A i k - ∑ j ∈ S, I.A i j * I.slv S k j := by
  have e : ∀ j, I.A i j * rawCol I k S j =
      (if j = k then I.A i j else 0) - (if j ∈ S then I.A i j * I.slv S k j else 0) := by
    intro j
    unfold rawCol
    by_cases hj : j ∈ S
    · have : j ≠ k := fun h => hk (h ▸ hj)
      simp [hj, this]
    · by_cases hjk : j = k
      · simp [hjk, hk]
      · simp [hj, hjk]
  simp only [mulVec, dotProduct, e, Finset.sum_sub_distrib]
  simp [Finset.sum_ite_mem]

theorem raw_zero {I : FspaiIn n} (hI : I.Ok) {k : Fin n} {S : Finset (Fin n)} (hk : k ∉ S) {i : Fin n} (hi : i ∈ S) :
    (I.A *ᵥ rawCol I k S) i = 0 := by rw [mulVec_raw I hk, hI.slv S k i hi, sub_self]

theorem raw_k {I : FspaiIn n} (hI : I.Ok) {k : Fin n} {S : Finset (Fin n)} (hk : k ∉ S) :
    (I.A *ᵥ rawCol I k S) k = pivot I k S := by
  rw [mulVec_raw I hk, pivot]
  congr 1
  exact Finset.sum_congr rfl fun j _ => by rw [hI.spd.1 k j]

/-- Products with the raw column: only row `k` counts. -/
theorem dot_raw {I : FspaiIn n} (hI : I.Ok) {k : Fin n} {S : Finset (Fin n)} (hk : k ∉ S) (x : Fin n → ℝ)
    (hx : ∀ i, i ∉ S → i ≠ k → x i = 0) : x ⬝ᵥ I.A *ᵥ rawCol I k S = x k * pivot I k S := by
  unfold dotProduct
  rw [Finset.sum_eq_single k]
  · rw [raw_k hI hk]
  · intro i _ hik
    by_cases hi : i ∈ S
    · rw [raw_zero hI hk hi, mul_zero]
    · rw [hx i hi hik, zero_mul]
  · intro h; exact absurd (Finset.mem_univ k) h

theorem raw_self (I : FspaiIn n) {k : Fin n} {S : Finset (Fin n)} (hk : k ∉ S) : rawCol I k S k = 1 := by simp [rawCol, hk]

theorem raw_supp (I : FspaiIn n) {k : Fin n} {S : Finset (Fin n)} {i : Fin n} (hi : i ∉ S) (hik : i ≠ k) :
    rawCol I k S i = 0 := by simp [rawCol, hi, hik]

theorem pivot_pos {I : FspaiIn n} (hI : I.Ok) {k : Fin n} {S : Finset (Fin n)} (hk : k ∉ S) : 0 < pivot I k S := by
  have h := hI.spd.2 (rawCol I k S) (by intro e; have := congrFun e k; rw [raw_self I hk] at this; simp at this)
  rw [dot_raw hI hk _ (fun i hi hik => raw_supp I hi hik), raw_self I hk, one_mul] at h
  exact h

theorem colOf_smul (I : FspaiIn n) (k : Fin n) (S : Finset (Fin n)) :
    colOf I k S = (1 / Real.sqrt (pivot I k S)) • rawCol I k S := by
  funext i; simp [colOf]

theorem colOf_k_pos {I : FspaiIn n} (hI : I.Ok) {k : Fin n} {S : Finset (Fin n)} (hk : k ∉ S) : 0 < colOf I k S k := by
  rw [colOf, raw_self I hk, mul_one]
  exact one_div_pos.2 (Real.sqrt_pos.2 (pivot_pos hI hk))

theorem colOf_zero {I : FspaiIn n} (hI : I.Ok) {k : Fin n} {S : Finset (Fin n)} (hk : k ∉ S) {i : Fin n} (hi : i ∈ S) :
    (I.A *ᵥ colOf I k S) i = 0 := by
  rw [colOf_smul, mulVec_smul, Pi.smul_apply, raw_zero hI hk hi, smul_zero]

theorem colOf_dot {I : FspaiIn n} (hI : I.Ok) {k : Fin n} {S : Finset (Fin n)} (hk : k ∉ S) (x : Fin n → ℝ)
    (hx : ∀ i, i ∉ S → i ≠ k → x i = 0) : (x ⬝ᵥ I.A *ᵥ colOf I k S) * colOf I k S k = x k := by
  have hp := pivot_pos hI hk
  have hs := Real.sqrt_pos.2 hp
  rw [colOf_smul, mulVec_smul, dotProduct_smul, dot_raw hI hk x hx, Pi.smul_apply, raw_self I hk]
  have h2 := Real.mul_self_sqrt hp.le
  simp only [smul_eq_mul, mul_one]
  have hne := hs.ne'
  calc 1 / √(pivot I k S) * (x k * pivot I k S) * (1 / √(pivot I k S))
      = x k * (pivot I k S / (√(pivot I k S) * √(pivot I k S))) := by field_simp
    _ = x k := by rw [h2, div_self hp.ne', mul_one]

theorem colOf_supp (I : FspaiIn n) {k : Fin n} {S : Finset (Fin n)} {i : Fin n} (hi : i ∉ S) (hik : i ≠ k) :
    colOf I k S i = 0 := by rw [colOf, raw_supp I hi hik, mul_zero]

theorem colOf_norm {I : FspaiIn n} (hI : I.Ok) {k : Fin n} {S : Finset (Fin n)} (hk : k ∉ S) :
    colOf I k S ⬝ᵥ I.A *ᵥ colOf I k S = 1 := by
  have h := colOf_dot hI hk (colOf I k S) (fun i hi hik => colOf_supp I hi hik)
  exact mul_right_cancel₀ (colOf_k_pos hI hk).ne' (h.trans (one_mul _).symm)

/-! ### The loop -/

theorem update_eq (I : FspaiIn n) (k : Fin n) (J : Finset (Fin n)) (Lk : Fin n → ℝ)
    (h : ∀ i, i ∉ J.erase k → i ≠ k → Lk i = 0) : updateInverse I k J Lk = colOf I k (J.erase k) := by
  unfold updateInverse
  dsimp only
  split
  · rename_i hS
    funext i
    rw [hS] at h ⊢
    by_cases hi : i = k
    · subst hi
      simp [colOf, rawCol, pivot]
    · rw [Function.update_of_ne hi, h i (by simp) hi]
      simp [colOf, rawCol, hi]
  · funext i
    have hp : I.A k k - ∑ i ∈ J.erase k, I.A i k * I.slv (J.erase k) k i = pivot I k (J.erase k) := rfl
    rw [hp]
    by_cases hi : i ∈ J.erase k
    · rw [if_pos hi, colOf, rawCol, if_pos hi]; ring
    · rw [if_neg hi]
      by_cases hik : i = k
      · rw [if_pos hik, colOf, rawCol, if_neg hi, if_pos hik, mul_one]
      · rw [if_neg hik, h i hi hik, colOf_supp I hi hik]

theorem maxEntry_mem (e : Fin n × ℝ) (l : List (Fin n × ℝ)) : maxEntry e l = e ∨ maxEntry e l ∈ l := by
  unfold maxEntry
  induction l generalizing e with
  | nil => left; rfl
  | cons a l ih =>
    rw [List.foldl_cons]
    split
    · rcases ih a with h | h
      · right; rw [h]; simp
      · right; exact List.mem_cons_of_mem _ h
    · rcases ih e with h | h
      · left; exact h
      · right; exact List.mem_cons_of_mem _ h

theorem select_sub (tau : ℝ) (b : Nat) (hat : List (Fin n × ℝ)) (s : Finset (Fin n) × Finset (Fin n)) :
    (s.1 ⊆ (selectLoop tau b hat s).1) ∧
    ∀ j ∈ (selectLoop tau b hat s).1, j ∈ s.1 ∨ ∃ x ∈ hat, x.1 = j ∧ x.2 > tau := by
  induction b generalizing hat s with
  | zero => exact ⟨Finset.Subset.refl _, fun j hj => Or.inl hj⟩
  | succ b ih =>
    match hat with
    | [] => exact ⟨Finset.Subset.refl _, fun j hj => Or.inl hj⟩
    | e :: l =>
      rw [selectLoop]
      have hm : maxEntry e (e :: l) ∈ e :: l := by
        rcases maxEntry_mem e (e :: l) with h | h
        · rw [h]; simp
        · exact h
      obtain ⟨h1, h2⟩ := ih ((e :: l).filter fun x => x.1 ≠ (maxEntry e (e :: l)).1)
        (if (maxEntry e (e :: l)).2 > tau then (insert (maxEntry e (e :: l)).1 s.1, insert (maxEntry e (e :: l)).1 s.2) else s)
      constructor
      · refine Finset.Subset.trans ?_ h1
        split
        · exact Finset.subset_insert _ _
        · exact Finset.Subset.refl _
      · intro j hj
        rcases h2 j hj with h | ⟨x, hx, hxj⟩
        · split at h
          · rename_i hgt
            rcases Finset.mem_insert.1 h with h | h
            · right; exact ⟨_, hm, h.symm, hgt⟩
            · left; exact h
          · left; exact h
        · right; exact ⟨x, (List.mem_filter.1 hx).1, hxj⟩

/-- What holds of column `k` before the first step and after every step. -/
structure ColInv (I : FspaiIn n) (k : Fin n) (J0 : Finset (Fin n)) (first : Bool) (s : ColSt n) : Prop where
  kJ : k ∈ s.J
  grow : J0 ⊆ s.J
  up : ∀ j ∈ s.J, k ≤ j
  cand : ∀ j ∈ s.cand, k < j
  start : first = true → s.delta.Nonempty ∧ s.Lk = fun _ => 0
  col : first = false → ∃ S, S ⊆ s.J.erase k ∧ J0.erase k ⊆ S ∧ s.Lk = colOf I k S

theorem colInv_step {I : FspaiIn n} (hI : I.Ok) (beta : Nat) (eps : ℝ) {k : Fin n} {J0 : Finset (Fin n)} {first : Bool} {s : ColSt n}
    (h : ColInv I k J0 first s) : ∃ s', colStep I beta eps k s = .ok s' ∧ ColInv I k J0 false s' := by
  unfold colStep
  by_cases hd : s.delta = ∅
  · rw [if_pos hd]
    refine ⟨s, rfl, h.kJ, h.grow, h.up, h.cand, by simp, ?_⟩
    intro _
    cases first with
    | true => have := (h.start rfl).1; rw [hd] at this; simp at this
    | false => exact h.col rfl
  · rw [if_neg hd]
    dsimp only
    have hno : ¬ ∃ r ∈ s.delta, I.pat r = ∅ := by
      rintro ⟨r, _, hr⟩
      have := hI.pat r r (hI.spd.diag r).ne'
      rw [hr] at this; simp at this
    have hL : updateInverse I k s.J s.Lk = colOf I k (s.J.erase k) := by
      apply update_eq
      intro i hi hik
      cases first with
      | true => rw [(h.start rfl).2]
      | false =>
        obtain ⟨S, hS, _, e⟩ := h.col rfl
        rw [e]
        exact colOf_supp I (fun hh => hi (hS hh)) hik
    unfold candidates
    rw [if_neg hno]
    dsimp only
    set cand := s.cand ∪ s.delta.biUnion fun r => (I.pat r).filter fun j => k < j with hcand
    have hc : ∀ j ∈ cand, k < j := by
      intro j hj
      rw [hcand, Finset.mem_union, Finset.mem_biUnion] at hj
      rcases hj with hj | ⟨r, _, hj⟩
      · exact h.cand j hj
      · exact (Finset.mem_filter.1 hj).2
    have hr : s.J ⊆ (updatePattern beta eps (taus I s.J cand (updateInverse I k s.J s.Lk)) s.J).1 ∧
        ∀ j ∈ (updatePattern beta eps (taus I s.J cand (updateInverse I k s.J s.Lk)) s.J).1, j ∈ s.J ∨ k < j := by
      unfold updatePattern
      split
      · obtain ⟨h1, h2⟩ := select_sub (((taus I s.J cand (updateInverse I k s.J s.Lk)).map Prod.snd).sum /
          (taus I s.J cand (updateInverse I k s.J s.Lk)).length) beta (taus I s.J cand (updateInverse I k s.J s.Lk)) (s.J, ∅)
        refine ⟨h1, ?_⟩
        intro j hj
        rcases h2 j hj with h3 | ⟨x, hx, rfl, _⟩
        · left; exact h3
        · right
          obtain ⟨j', hj', rfl⟩ := List.mem_map.1 hx
          exact hc j' (Finset.mem_sdiff.1 (((hI.ord _).2 j').1 hj')).1
      · exact ⟨Finset.Subset.refl _, fun j hj => Or.inl hj⟩
    refine ⟨_, rfl, hr.1 h.kJ, h.grow.trans hr.1, ?_, hc, by simp, ?_⟩
    · intro j hj
      rcases hr.2 j hj with h1 | h1
      · exact h.up j h1
      · exact h1.le
    · intro _
      exact ⟨s.J.erase k, Finset.erase_subset_erase _ hr.1, Finset.erase_subset_erase _ h.grow, hL⟩

theorem column_spec {I : FspaiIn n} (hI : I.Ok) (alpha beta : Nat) (ha : 0 < alpha) (eps : ℝ) (k : Fin n)
    (J delta : Finset (Fin n)) (hk : k ∈ J) (hJ : ∀ j ∈ J, k ≤ j) :
    ∃ c, column I alpha beta eps k J delta = .ok c ∧ ColInv I k J false c := by
  unfold column
  obtain ⟨c, h1, h2⟩ := foldRes_inv (fun (s : ColSt n) (_ : Nat) => colStep I beta eps k s)
    (fun done s => ColInv I k J (decide (done = [])) s) (List.range alpha)
    (by
      intro done x rest s _ hi
      obtain ⟨s', a, b⟩ := colInv_step hI beta eps hi
      refine ⟨s', a, ?_⟩
      simpa using b)
    ⟨J, fun _ => 0, insert k delta, ∅⟩
    (by
      constructor
      · exact hk
      · exact Finset.Subset.refl _
      · exact hJ
      · intro j hj; simp at hj
      · intro _; exact ⟨⟨k, Finset.mem_insert_self _ _⟩, rfl⟩
      · intro h; simp at h)
  refine ⟨c, h1, ?_⟩
  have : decide (List.range alpha = []) = false := by simp; omega
  rw [this] at h2
  exact h2

/-- The patterns left in the object are those of a lower triangular matrix with its diagonal. -/
def LowerPattern (J : Fin n → Finset (Fin n)) : Prop := ∀ k, k ∈ J k ∧ ∀ j ∈ J k, k ≤ j

theorem compute_spec {I : FspaiIn n} (hI : I.Ok) (alpha beta : Nat) (ha : 0 < alpha) (eps : ℝ)
    (J : Fin n → Finset (Fin n)) (hJ : LowerPattern J) (delta : Finset (Fin n)) :
    ∃ s, compute I alpha beta eps J delta = .ok s ∧ LowerPattern s.J ∧
      ∀ k, ∃ S, (∀ j ∈ S, k < j) ∧ S ⊆ s.J k ∧ (J k).erase k ⊆ S ∧ ∀ i, s.L i k = colOf I k S i := by
  obtain ⟨s, h1, h2, _, h3⟩ := foldRes_inv (columnStep I alpha beta eps)
    (fun done s => LowerPattern s.J ∧ (∀ k, J k ⊆ s.J k) ∧
      ∀ k ∈ done, ∃ S, (∀ j ∈ S, k < j) ∧ S ⊆ s.J k ∧ (J k).erase k ⊆ S ∧ ∀ i, s.L i k = colOf I k S i)
    (List.finRange n)
    (by
      intro done k rest s _ hi
      obtain ⟨c, hc, hci⟩ := column_spec hI alpha beta ha eps k (s.J k) s.delta (hi.1 k).1 (hi.1 k).2
      refine ⟨_, by rw [columnStep, hc, Res.map_ok], ?_, ?_, ?_⟩
      · intro k'
        dsimp only
        by_cases hk : k' = k
        · subst hk; rw [Function.update_self]; exact ⟨hci.kJ, hci.up⟩
        · rw [Function.update_of_ne hk]; exact hi.1 k'
      · intro k'
        dsimp only
        by_cases hk : k' = k
        · subst hk; rw [Function.update_self]; exact (hi.2.1 k').trans hci.grow
        · rw [Function.update_of_ne hk]; exact hi.2.1 k'
      · intro k' hk'
        dsimp only
        by_cases hk : k' = k
        · subst hk
          obtain ⟨S, hS, hS', e⟩ := hci.col rfl
          refine ⟨S, ?_, ?_, (Finset.erase_subset_erase _ (hi.2.1 k')).trans hS', ?_⟩
          · intro j hj
            have := Finset.mem_erase.1 (hS hj)
            exact lt_of_le_of_ne (hci.up j this.2) (Ne.symm this.1)
          · rw [Function.update_self]; exact hS.trans (Finset.erase_subset _ _)
          · intro i; rw [if_pos rfl, e]
        · rcases List.mem_append.1 hk' with hk' | hk'
          · obtain ⟨S, a, b, b', c'⟩ := hi.2.2 k' hk'
            refine ⟨S, a, by rw [Function.update_of_ne hk]; exact b, b', fun i => by rw [if_neg hk]; exact c' i⟩
          · simp at hk'; exact absurd hk' hk)
    ⟨J, delta, 0⟩ ⟨hJ, fun _ => Finset.Subset.refl _, by simp⟩
  exact ⟨s, h1, h2, fun k => h3 k (List.mem_finRange k)⟩

/-- C101: for a symmetric positive definite matrix, at least one update step and whatever the other parameters and the
state left by earlier calls, `compute` succeeds.  The factor L is lower triangular with positive diagonal, the diagonal of
LᵀAL is one, and there is a pattern `S` of L (below the diagonal, between the pattern before and the pattern after the call) such that A L vanishes on
it. -/
theorem C101_compute (I : FspaiIn n) (hI : I.Ok) (alpha beta : Nat) (ha : 0 < alpha) (eps : ℝ)
    (J : Fin n → Finset (Fin n)) (hJ : LowerPattern J) (delta : Finset (Fin n)) :
    ∃ s, compute I alpha beta eps J delta = .ok s ∧ LowerPattern s.J ∧
      (∀ i k, i < k → s.L i k = 0) ∧ (∀ k, 0 < s.L k k) ∧ (∀ k, (s.Lᵀ * I.A * s.L) k k = 1) ∧
      ∃ S : Fin n → Finset (Fin n), ∀ k, (∀ i ∈ S k, k < i ∧ i ∈ s.J k) ∧
        (∀ i ∈ J k, i ≠ k → i ∈ S k) ∧ (∀ i, i ≠ k → i ∉ S k → s.L i k = 0) ∧ ∀ i ∈ S k, (I.A * s.L) i k = 0 := by
  obtain ⟨s, h1, h2, h3⟩ := compute_spec hI alpha beta ha eps J hJ delta
  choose S hS using h3
  have hk : ∀ k, k ∉ S k := fun k h => lt_irrefl k ((hS k).1 k h)
  have hcol : ∀ k, (fun i => s.L i k) = colOf I k (S k) := fun k => funext (hS k).2.2.2
  have hmul : ∀ i k, (I.A * s.L) i k = (I.A *ᵥ colOf I k (S k)) i := by
    intro i k; rw [← hcol k]; rfl
  refine ⟨s, h1, h2, ?_, ?_, ?_, S, ?_⟩
  · intro i k hik
    rw [(hS k).2.2.2 i]
    exact colOf_supp I (fun h => absurd ((hS k).1 i h) (not_lt.2 hik.le)) hik.ne
  · intro k; rw [(hS k).2.2.2 k]; exact colOf_k_pos hI (hk k)
  · intro k
    rw [Matrix.mul_assoc, Matrix.mul_apply]
    have := colOf_norm hI (hk k)
    rw [← this]
    unfold dotProduct
    refine Finset.sum_congr rfl fun i _ => ?_
    rw [hmul, Matrix.transpose_apply, (hS k).2.2.2 i]
  · intro k
    refine ⟨fun i hi => ⟨(hS k).1 i hi, (hS k).2.1 hi⟩,
      fun i hi hik => (hS k).2.2.1 (Finset.mem_erase.2 ⟨hik, hi⟩), ?_, ?_⟩
    · intro i hik hi; rw [(hS k).2.2.2 i]; exact colOf_supp I hi hik
    · intro i hi; rw [hmul]; exact colOf_zero hI (hk k) hi

/-- C101 (optimality): column `k` of L is the best among the vectors with its pattern: none has a larger ratio between
the square of entry `k` and the energy xᵀAx, which is the square of the diagonal entry for the column itself.  (This is
the minimisation of the K-condition number of LᵀAL, column by column.) -/
theorem C101_optimal (I : FspaiIn n) (hI : I.Ok) (alpha beta : Nat) (ha : 0 < alpha) (eps : ℝ)
    (J : Fin n → Finset (Fin n)) (hJ : LowerPattern J) (delta : Finset (Fin n)) :
    ∃ s, compute I alpha beta eps J delta = .ok s ∧
      ∀ (k : Fin n) (x : Fin n → ℝ), (∀ i, s.L i k = 0 → x i = 0) →
        x k ^ 2 ≤ s.L k k ^ 2 * (x ⬝ᵥ I.A *ᵥ x) := by
  obtain ⟨s, h1, h2, h3⟩ := compute_spec hI alpha beta ha eps J hJ delta
  refine ⟨s, h1, ?_⟩
  intro k x hx
  obtain ⟨S, hS, _, _, hL⟩ := h3 k
  have hk : k ∉ S := fun h => lt_irrefl k (hS k h)
  have hx' : ∀ i, i ∉ S → i ≠ k → x i = 0 := by
    intro i hi hik
    apply hx
    rw [hL]; exact colOf_supp I hi hik
  rw [hL]
  set c := colOf I k S with hc
  have hdot := colOf_dot hI hk x hx'
  have hnorm := colOf_norm hI hk
  rw [← hc] at hdot hnorm
  set t := x ⬝ᵥ I.A *ᵥ c with ht
  have hsymm : c ⬝ᵥ I.A *ᵥ x = t := by
    have hA : I.Aᵀ = I.A := by ext i j; exact (hI.spd.1 i j).symm
    rw [ht, dotProduct_mulVec, dotProduct_comm, ← mulVec_transpose, hA]
  have hpos : 0 ≤ (x - t • c) ⬝ᵥ I.A *ᵥ (x - t • c) := by
    by_cases h0 : x - t • c = 0
    · rw [h0]; simp
    · exact (hI.spd.2 _ h0).le
  have hexp : (x - t • c) ⬝ᵥ I.A *ᵥ (x - t • c) = x ⬝ᵥ I.A *ᵥ x - t * t := by
    rw [mulVec_sub, mulVec_smul, sub_dotProduct, dotProduct_sub, dotProduct_sub, smul_dotProduct, smul_dotProduct,
      dotProduct_smul, dotProduct_smul, hsymm, hnorm, ← ht]
    simp only [smul_eq_mul]
    ring
  rw [hexp] at hpos
  rw [← hdot, mul_pow, mul_comm]
  have : t ^ 2 ≤ x ⬝ᵥ I.A *ᵥ x := by nlinarith
  exact mul_le_mul_of_nonneg_left this (sq_nonneg _)

/-- C101 (exactness): if the pattern of every column is the full one, or no entry of L below the diagonal vanishes,
`getInverse()` is the inverse of A. -/
theorem C101_exact_inverse (I : FspaiIn n) (hI : I.Ok) (alpha beta : Nat) (ha : 0 < alpha) (eps : ℝ)
    (J : Fin n → Finset (Fin n)) (hJ : LowerPattern J) (delta : Finset (Fin n)) :
    ∃ s, compute I alpha beta eps J delta = .ok s ∧
      ((∀ i k, k < i → i ∈ J k ∨ s.L i k ≠ 0) → s.L * s.Lᵀ * I.A = 1 ∧ I.A * (s.L * s.Lᵀ) = 1) := by
  obtain ⟨s, h1, _, h2, h3, h4, S, h5⟩ := C101_compute I hI alpha beta ha eps J hJ delta
  refine ⟨s, h1, ?_⟩
  intro hfull
  have hAL : ∀ i k, k < i → (I.A * s.L) i k = 0 := by
    intro i k hik
    refine (h5 k).2.2.2 i ?_
    rcases hfull i k hik with h | h
    · exact (h5 k).2.1 i h hik.ne'
    · by_contra h'
      exact h ((h5 k).2.2.1 i hik.ne' h')
  have hlow : ∀ j k, k < j → (s.Lᵀ * I.A * s.L) j k = 0 := by
    intro j k hjk
    rw [Matrix.mul_assoc, Matrix.mul_apply]
    refine Finset.sum_eq_zero fun i _ => ?_
    rw [Matrix.transpose_apply]
    rcases lt_or_ge i j with h | h
    · rw [h2 i j h, zero_mul]
    · rw [hAL i k (lt_of_lt_of_le hjk h), mul_zero]
  have hA : I.Aᵀ = I.A := by ext i j; exact (hI.spd.1 i j).symm
  have hsymm : (s.Lᵀ * I.A * s.L)ᵀ = s.Lᵀ * I.A * s.L := by
    rw [Matrix.transpose_mul, Matrix.transpose_mul, Matrix.transpose_transpose, hA, Matrix.mul_assoc]
  have hone : s.Lᵀ * I.A * s.L = 1 := by
    ext j k
    rcases lt_trichotomy j k with h | h | h
    · rw [← hsymm, Matrix.transpose_apply, hlow k j h, Matrix.one_apply_ne h.ne]
    · subst h; rw [h4, Matrix.one_apply_eq]
    · rw [hlow j k h, Matrix.one_apply_ne h.ne']
  have h6 : s.L * (s.Lᵀ * I.A) = 1 := mul_eq_one_comm.1 hone
  have h7 : s.L * s.Lᵀ * I.A = 1 := by rw [Matrix.mul_assoc]; exact h6
  exact ⟨h7, mul_eq_one_comm.1 h7⟩

/-- C101 (diagonal matrices): the inverse is exact. -/
theorem C101_diagonal (I : FspaiIn n) (hI : I.Ok) (hdiag : ∀ i j, i ≠ j → I.A i j = 0) (alpha beta : Nat) (ha : 0 < alpha)
    (eps : ℝ) (J : Fin n → Finset (Fin n)) (hJ : LowerPattern J) (delta : Finset (Fin n)) :
    ∃ s, compute I alpha beta eps J delta = .ok s ∧ s.L * s.Lᵀ * I.A = 1 := by
  obtain ⟨s, h1, _, h2, h3, h4, S, h5⟩ := C101_compute I hI alpha beta ha eps J hJ delta
  refine ⟨s, h1, ?_⟩
  have hmul : ∀ i k, (I.A * s.L) i k = I.A i i * s.L i k := by
    intro i k
    rw [Matrix.mul_apply]
    exact Finset.sum_eq_single i (fun j _ hj => by rw [hdiag i j hj.symm, zero_mul])
      (fun h => absurd (Finset.mem_univ i) h)
  have hoff : ∀ i k, i ≠ k → s.L i k = 0 := by
    intro i k hik
    by_cases hi : i ∈ S k
    · have := (h5 k).2.2.2 i hi
      rw [hmul] at this
      exact (mul_eq_zero.1 this).resolve_left (hI.spd.diag i).ne'
    · exact (h5 k).2.2.1 i hik hi
  have hone : s.Lᵀ * I.A * s.L = 1 := by
    ext j k
    by_cases hjk : j = k
    · subst hjk; rw [h4, Matrix.one_apply_eq]
    · rw [Matrix.one_apply_ne hjk, Matrix.mul_assoc, Matrix.mul_apply]
      refine Finset.sum_eq_zero fun i _ => ?_
      rw [Matrix.transpose_apply, hmul]
      by_cases hij : i = j
      · subst hij; rw [hoff i k hjk]; simp
      · rw [hoff i j hij, zero_mul]
  rw [Matrix.mul_assoc]
  exact mul_eq_one_comm.1 hone

/-! ### Matrices for which the pattern never grows -/

theorem select_single (eps : ℝ) (beta : Nat) (hat : List (Fin n × ℝ)) (h : hat.length ≤ 1) (J : Finset (Fin n)) :
    updatePattern beta eps hat J = (J, ∅) := by
  unfold updatePattern
  split
  · match hat, h with
    | [], _ => cases beta <;> rfl
    | [x], _ =>
      cases beta with
      | zero => rfl
      | succ b =>
        have hm : maxEntry x [x] = x := by
          rcases maxEntry_mem x [x] with h | h
          · exact h
          · exact List.mem_singleton.1 h
        rw [selectLoop, hm]
        have hf : [x].filter (fun y => decide (y.1 ≠ x.1)) = [] := by simp
        rw [hf, if_neg (by simp)]
        cases b <;> rfl
  · rfl

theorem column_single {I : FspaiIn n} (hI : I.Ok) (k : Fin n) (h : ((I.pat k).filter fun j => k < j).card ≤ 1)
    (alpha beta : Nat) (eps : ℝ) :
    ∃ c, column I alpha beta eps k {k} ∅ = .ok c ∧ c.J = {k} ∧ (0 < alpha → c.delta = ∅) ∧
      ∀ i, i ≠ k → c.Lk i = 0 := by
  have hpat : I.pat k ≠ ∅ := by
    intro e
    have := hI.pat k k (hI.spd.diag k).ne'
    rw [e] at this; simp at this
  unfold column
  obtain ⟨c, h1, h2⟩ := foldRes_inv (fun (s : ColSt n) (_ : Nat) => colStep I beta eps k s)
    (fun done s => s.J = {k} ∧ (∀ i, i ≠ k → s.Lk i = 0) ∧
      (if done = [] then s.delta = {k} ∧ s.cand = ∅ else s.delta = ∅)) (List.range alpha)
    (by
      intro done x rest s _ hi
      obtain ⟨hJ, hL, hd⟩ := hi
      unfold colStep
      by_cases h0 : done = []
      · rw [if_pos h0] at hd
        rw [if_neg (by rw [hd.1]; simp)]
        dsimp only
        have hc : candidates I k s.delta s.cand = .ok ((I.pat k).filter fun j => k < j) := by
          unfold candidates
          rw [if_neg (by rw [hd.1]; simpa using hpat), hd.1, hd.2]
          simp
        rw [hc]
        dsimp only
        have hlen : (taus I s.J ((I.pat k).filter fun j => k < j) (updateInverse I k s.J s.Lk)).length ≤ 1 := by
          unfold taus
          rw [List.length_map]
          have ho := hI.ord (((I.pat k).filter fun j => k < j) \ s.J)
          have he : (I.ord (((I.pat k).filter fun j => k < j) \ s.J)).toFinset = ((I.pat k).filter fun j => k < j) \ s.J := by
            ext y; rw [List.mem_toFinset]; exact ho.2 y
          rw [← List.toFinset_card_of_nodup ho.1, he]
          exact (Finset.card_le_card Finset.sdiff_subset).trans h
        rw [select_single eps beta _ hlen]
        refine ⟨_, rfl, hJ, ?_, by simp⟩
        intro i hi
        dsimp only
        rw [update_eq I k s.J s.Lk (fun i _ hik => hL i hik), hJ]
        exact colOf_supp I (by simp) hi
      · rw [if_neg h0] at hd
        rw [if_pos hd]
        exact ⟨s, rfl, hJ, hL, by simp [hd]⟩)
    ⟨{k}, fun _ => 0, insert k ∅, ∅⟩ ⟨rfl, fun _ _ => rfl, by simp⟩
  refine ⟨c, h1, h2.1, ?_, h2.2.1⟩
  intro ha
  have h3 := h2.2.2
  rwa [if_neg (by simp; omega)] at h3

/-- C101 (finding): candidates enter the pattern only if their value is *strictly* above the average of all candidates,
so a single candidate never does.  If no row has more than one entry right of the diagonal (for instance a tridiagonal
matrix), the factor stays diagonal for every choice of the parameters: raising `alpha` or `beta` or lowering `epsilon`
never improves the approximation. -/
theorem C101_bug_single_candidate (I : FspaiIn n) (hI : I.Ok)
    (hone : ∀ k, ((I.pat k).filter fun j => k < j).card ≤ 1) (alpha beta : Nat) (ha : 0 < alpha) (eps : ℝ) :
    ∃ s, compute I alpha beta eps pattern0 ∅ = .ok s ∧ ∀ i k, i ≠ k → s.L i k = 0 := by
  obtain ⟨s, h1, h2, h3, h4⟩ := foldRes_inv (columnStep I alpha beta eps)
    (fun _ s => s.J = pattern0 ∧ s.delta = ∅ ∧ ∀ i k, i ≠ k → s.L i k = 0) (List.finRange n)
    (by
      intro done k rest s _ hi
      obtain ⟨c, hc, hJ, hd, hL⟩ := column_single hI k (hone k) alpha beta eps
      obtain ⟨h1, h2, h3⟩ := hi
      refine ⟨_, by rw [columnStep, h1, h2, pattern0, hc, Res.map_ok], ?_, hd ha, ?_⟩
      · dsimp only
        rw [hJ]
        exact Function.update_eq_self k pattern0
      · intro i j hij
        dsimp only
        split
        · rename_i hjk; exact hL i (hjk ▸ hij)
        · exact h3 i j hij)
    ⟨pattern0, ∅, 0⟩ ⟨rfl, rfl, fun _ _ _ => rfl⟩
  exact ⟨s, h1, h4⟩

theorem pattern0_lower : LowerPattern (pattern0 : Fin n → Finset (Fin n)) := by
  intro k
  refine ⟨Finset.mem_singleton_self k, ?_⟩
  intro j hj
  rw [Finset.mem_singleton.1 hj]

/-- C101 (finding): with `alpha = 0` the factor is the zero matrix. -/
theorem C101_bug_no_step (I : FspaiIn n) (beta : Nat) (eps : ℝ) (J : Fin n → Finset (Fin n)) (delta : Finset (Fin n)) :
    ∃ s, compute I 0 beta eps J delta = .ok s ∧ s.L = 0 := by
  obtain ⟨s, h1, h2⟩ := foldRes_inv (columnStep I 0 beta eps) (fun _ s => s.L = 0) (List.finRange n)
    (by
      intro done k rest s _ hi
      refine ⟨_, rfl, ?_⟩
      ext i j
      dsimp only
      rw [hi]
      simp)
    ⟨J, delta, 0⟩ rfl
  exact ⟨s, h1, h2⟩

/-! ### The pattern of a column is never complete -/

/-- Every column but the last misses a row below the diagonal. -/
def NotFull (J : Fin n → Finset (Fin n)) : Prop := ∀ k, (∃ j, k < j) → ∃ j, k < j ∧ j ∉ J k

theorem pattern0_notFull : NotFull (pattern0 : Fin n → Finset (Fin n)) := by
  intro k ⟨j, hj⟩
  exact ⟨j, hj, fun h => hj.ne' (Finset.mem_singleton.1 h)⟩

theorem exists_le_avg (l : List (Fin n × ℝ)) (h : l ≠ []) : ∃ x ∈ l, x.2 ≤ (l.map Prod.snd).sum / l.length := by
  by_contra hn
  push Not at hn
  have hpos : (0 : ℝ) < l.length := by exact_mod_cast List.length_pos_iff.2 h
  have key : ∀ (m : List (Fin n × ℝ)) (t : ℝ), (∀ x ∈ m, t < x.2) → m ≠ [] → m.length * t < (m.map Prod.snd).sum := by
    intro m t
    induction m with
    | nil => intro _ h; exact absurd rfl h
    | cons a m ih =>
      intro hm _
      have ha := hm a (by simp)
      by_cases h0 : m = []
      · subst h0; simpa using ha
      · have := ih (fun x hx => hm x (List.mem_cons_of_mem _ hx)) h0
        simp only [List.length_cons, List.map_cons, List.sum_cons, Nat.cast_add, Nat.cast_one]
        linarith
  have := key l _ hn h
  rw [mul_div_cancel₀ _ hpos.ne'] at this
  exact lt_irrefl _ this

/-- The update of the pattern keeps out some row that was out. -/
theorem update_misses (I : FspaiIn n) (beta : Nat) (eps : ℝ) (J cand : Finset (Fin n)) (Lk : Fin n → ℝ)
    (hord : ∀ s x, x ∈ I.ord s ↔ x ∈ s) (k : Fin n) (hc : ∀ j ∈ cand, k < j) (h : ∃ j, k < j ∧ j ∉ J) :
    ∃ j, k < j ∧ j ∉ (updatePattern beta eps (taus I J cand Lk) J).1 := by
  unfold updatePattern
  split
  · obtain ⟨_, h2⟩ := select_sub (((taus I J cand Lk).map Prod.snd).sum / (taus I J cand Lk).length) beta
      (taus I J cand Lk) (J, ∅)
    by_cases hne : taus I J cand Lk = []
    · obtain ⟨j, hj, hJ⟩ := h
      refine ⟨j, hj, fun hm => ?_⟩
      rcases h2 j hm with h3 | ⟨x, hx, _⟩
      · exact hJ h3
      · rw [hne] at hx; simp at hx
    · obtain ⟨x, hx, hle⟩ := exists_le_avg _ hne
      obtain ⟨j, hj, rfl⟩ := List.mem_map.1 hx
      have hj' := Finset.mem_sdiff.1 ((hord _ j).1 hj)
      refine ⟨j, hc j hj'.1, fun hm => ?_⟩
      rcases h2 j hm with h3 | ⟨y, hy, hyj, hgt⟩
      · exact hj'.2 h3
      · obtain ⟨j', _, rfl⟩ := List.mem_map.1 hy
        dsimp only at hyj
        subst hyj
        exact absurd hgt (not_lt.2 hle)
  · exact h

theorem column_misses {I : FspaiIn n} (hI : I.Ok) (alpha beta : Nat) (eps : ℝ) (k : Fin n) (J delta : Finset (Fin n))
    (h : ∃ j, k < j ∧ j ∉ J) (c : ColSt n) (hc : column I alpha beta eps k J delta = .ok c) : ∃ j, k < j ∧ j ∉ c.J := by
  refine (foldRes_ok_inv (fun (s : ColSt n) (_ : Nat) => colStep I beta eps k s)
    (fun _ s => (∀ j ∈ s.cand, k < j) ∧ ∃ j, k < j ∧ j ∉ s.J) ?_ (List.range alpha) ⟨J, fun _ => 0, insert k delta, ∅⟩ c
    ⟨by simp, h⟩ hc).2
  intro done x s s' hi hs
  unfold colStep at hs
  by_cases hd : s.delta = ∅
  · rw [if_pos hd] at hs
    rw [← Res.ok.inj hs]; exact hi
  · rw [if_neg hd] at hs
    dsimp only at hs
    unfold candidates at hs
    by_cases hp : ∃ r ∈ s.delta, I.pat r = ∅
    · rw [if_pos hp] at hs; simp at hs
    · rw [if_neg hp] at hs
      dsimp only at hs
      rw [← Res.ok.inj hs]
      have hcand : ∀ j ∈ s.cand ∪ s.delta.biUnion fun r => (I.pat r).filter fun j => k < j, k < j := by
        intro j hj
        rw [Finset.mem_union, Finset.mem_biUnion] at hj
        rcases hj with hj | ⟨r, _, hj⟩
        · exact hi.1 j hj
        · exact (Finset.mem_filter.1 hj).2
      exact ⟨hcand, update_misses I beta eps s.J _ _ (fun s => (hI.ord s).2) k hcand hi.2⟩

/-- C101 (finding): the average rule never lets the worst candidate in, so the pattern of a column never becomes the whole
lower triangle: for every matrix, all parameters and any number of calls to `compute`, every column of L but the last one
has a zero below the diagonal. -/
theorem C101_bug_never_full (I : FspaiIn n) (hI : I.Ok) (alpha beta : Nat) (ha : 0 < alpha) (eps : ℝ)
    (J : Fin n → Finset (Fin n)) (hJ : LowerPattern J) (hN : NotFull J) (delta : Finset (Fin n)) :
    ∃ s, compute I alpha beta eps J delta = .ok s ∧ LowerPattern s.J ∧ NotFull s.J ∧
      ∀ k, (∃ j, k < j) → ∃ j, k < j ∧ s.L j k = 0 := by
  obtain ⟨s, h1, h2, _, _, _, S, hS⟩ := C101_compute I hI alpha beta ha eps J hJ delta
  have hN' : NotFull s.J := by
    refine foldRes_ok_inv (columnStep I alpha beta eps) (fun _ s => NotFull s.J) ?_ (List.finRange n) ⟨J, delta, 0⟩ s hN h1
    intro done k s s' hi hs
    rw [columnStep, Res.map_eq_ok] at hs
    obtain ⟨c, hc, rfl⟩ := hs
    intro k' hk'
    dsimp only
    by_cases hk : k' = k
    · subst hk
      rw [Function.update_self]
      exact column_misses hI alpha beta eps k' (s.J k') s.delta (hi k' hk') c hc
    · rw [Function.update_of_ne hk]; exact hi k' hk'
  refine ⟨s, h1, h2, hN', ?_⟩
  intro k hk
  obtain ⟨j, hj, hjJ⟩ := hN' k hk
  exact ⟨j, hj, (hS k).2.2.1 j hj.ne' fun h => hjJ ((hS k).1 j h).2⟩

/-- C101 (finding): consequently the approximation is never exact when the last two unknowns are coupled, whatever
`alpha`, `beta` and `epsilon`. -/
theorem C101_bug_never_exact (I : FspaiIn n) (hI : I.Ok) (a b : Fin n) (hab : b < a) (hlast : ∀ j, b < j → j = a)
    (hA : I.A a b ≠ 0) (alpha beta : Nat) (ha : 0 < alpha) (eps : ℝ)
    (J : Fin n → Finset (Fin n)) (hJ : LowerPattern J) (hN : NotFull J) (delta : Finset (Fin n)) :
    ∃ s, compute I alpha beta eps J delta = .ok s ∧ s.L * s.Lᵀ * I.A ≠ 1 := by
  obtain ⟨s, h1, _, _, h2⟩ := C101_bug_never_full I hI alpha beta ha eps J hJ hN delta
  obtain ⟨s', h1', _, hz, hp, _⟩ := C101_compute I hI alpha beta ha eps J hJ delta
  rw [h1] at h1'
  obtain rfl := Res.ok.inj h1'
  refine ⟨s, h1, ?_⟩
  intro h
  rw [Matrix.mul_assoc] at h
  have h3 : s.Lᵀ * I.A * s.L = 1 := mul_eq_one_comm.1 h
  obtain ⟨j, hj, hL⟩ := h2 b ⟨a, hab⟩
  obtain rfl := hlast j hj
  have hb : ∀ i, i ≠ b → s.L i b = 0 := by
    intro i hi
    rcases lt_or_gt_of_ne hi with h | h
    · exact hz i b h
    · rw [hlast i h]; exact hL
  have hjj : ∀ i, i ≠ j → s.L i j = 0 := by
    intro i hi
    rcases lt_or_gt_of_ne hi with h | h
    · exact hz i j h
    · exact absurd (hlast i (hab.trans h)) hi
  have h4 : (s.Lᵀ * I.A * s.L) j b = s.L j j * I.A j b * s.L b b := by
    rw [Matrix.mul_apply, Finset.sum_eq_single b (fun i _ hi => by rw [hb i hi, mul_zero])
      (fun h => absurd (Finset.mem_univ b) h), Matrix.mul_apply,
      Finset.sum_eq_single j (fun i _ hi => by rw [Matrix.transpose_apply, hjj i hi, zero_mul])
      (fun h => absurd (Finset.mem_univ j) h), Matrix.transpose_apply]
  rw [h3, Matrix.one_apply_ne hab.ne'] at h4
  exact mul_ne_zero (mul_ne_zero (hp j).ne' hA) (hp b).ne' h4.symm

/-! ### Cases that meet the hypotheses -/

/-- The matrix with 2 on the diagonal and 1 elsewhere, all entries stored. -/
def exA : Matrix (Fin 2) (Fin 2) ℝ := fun i j => if i = j then 2 else 1

noncomputable def exIn : FspaiIn 2 where
  A := exA
  pat := fun _ => Finset.univ
  ord := fun s => (List.finRange 2).filter fun i => i ∈ s
  slv := fun S k i =>
    if S = {0} then exA 0 k / 2 else if S = {1} then exA 1 k / 2
    else if i = 0 then (2 * exA 0 k - exA 1 k) / 3 else (2 * exA 1 k - exA 0 k) / 3

theorem exA_spd : SPD exA := by
  constructor
  · intro i j; simp [exA, eq_comm]
  · intro x hx
    have e : x ⬝ᵥ exA *ᵥ x = x 0 ^ 2 + x 1 ^ 2 + (x 0 + x 1) ^ 2 := by
      simp [dotProduct, mulVec, exA, Fin.sum_univ_two]; ring
    rw [e]
    by_contra h
    push Not at h
    apply hx
    have h0 : x 0 = 0 := by nlinarith [sq_nonneg (x 0), sq_nonneg (x 1), sq_nonneg (x 0 + x 1)]
    have h1 : x 1 = 0 := by nlinarith [sq_nonneg (x 0), sq_nonneg (x 1), sq_nonneg (x 0 + x 1)]
    funext i
    fin_cases i
    · exact h0
    · exact h1

theorem exIn_ok : exIn.Ok where
  spd := exA_spd
  pat := fun _ _ _ => Finset.mem_univ _
  ord := fun s => ⟨List.Nodup.filter _ (List.nodup_finRange 2), fun x => by simp [exIn]⟩
  slv := by
    have hS : ∀ S : Finset (Fin 2), S = ∅ ∨ S = {0} ∨ S = {1} ∨ S = {0, 1} := by decide
    intro S k i hi
    rcases hS S with rfl | rfl | rfl | rfl
    · simp at hi
    · rw [Finset.mem_singleton.1 hi]
      simp [exIn, exA]; ring
    · rw [Finset.mem_singleton.1 hi]
      simp [exIn, exA]; ring
    · have h1 : ¬ (({0, 1} : Finset (Fin 2)) = {0}) := by decide
      have h2 : ¬ (({0, 1} : Finset (Fin 2)) = {1}) := by decide
      rw [Finset.sum_pair (by decide)]
      simp only [exIn, if_neg h1, if_neg h2]
      fin_cases i <;> fin_cases k <;> norm_num [exA]

/-- The matrix and the patterns of the constructor meet the hypotheses of `C101_compute`, `C101_optimal`,
`C101_bug_single_candidate` and `C101_bug_never_full`. -/
example : exIn.Ok ∧ LowerPattern (pattern0 : Fin 2 → _) ∧ NotFull (pattern0 : Fin 2 → _) ∧
    ∀ k, ((exIn.pat k).filter fun j => k < j).card ≤ 1 := by
  refine ⟨exIn_ok, pattern0_lower, pattern0_notFull, ?_⟩
  intro k
  change ((Finset.univ : Finset (Fin 2)).filter fun j => k < j).card ≤ 1
  revert k; decide

/-- For the matrix with rows (2, 1) and (1, 2) no choice of the parameters gives the inverse. -/
example (alpha beta : Nat) (ha : 0 < alpha) (eps : ℝ) :
    ∃ s, compute exIn alpha beta eps pattern0 ∅ = .ok s ∧ s.L * s.Lᵀ * exA ≠ 1 :=
  C101_bug_never_exact exIn exIn_ok 1 0 (by decide) (by decide) (by simp [exIn, exA]) alpha beta ha eps pattern0
    pattern0_lower pattern0_notFull ∅

/-- With the full triangle as pattern the result is exact: the hypothesis of `C101_exact_inverse` is met. -/
example : ∃ s, compute exIn 1 0 0 (fun k : Fin 2 => Finset.univ.filter (k ≤ ·)) ∅ = .ok s ∧ s.L * s.Lᵀ * exA = 1 := by
  obtain ⟨s, h1, h2⟩ := C101_exact_inverse exIn exIn_ok 1 0 (by decide) 0 (fun k : Fin 2 => Finset.univ.filter (k ≤ ·))
    (fun k => by simp) ∅
  exact ⟨s, h1, (h2 (fun i k h => Or.inl (by simp [h.le]))).1⟩

/-- A diagonal matrix meets the hypotheses of `C101_diagonal`. -/
example : (⟨1, fun i => {i}, fun s => (List.finRange 2).filter fun i => i ∈ s,
    fun _ k i => if i = k then 1 else 0⟩ : FspaiIn 2).Ok where
  spd := by
    constructor
    · intro i j; fin_cases i <;> fin_cases j <;> simp
    · intro x hx
      rw [Matrix.one_mulVec, dotProduct, Fin.sum_univ_two]
      by_contra h
      push Not at h
      apply hx
      have h0 : x 0 = 0 := by nlinarith [mul_self_nonneg (x 0), mul_self_nonneg (x 1)]
      have h1 : x 1 = 0 := by nlinarith [mul_self_nonneg (x 0), mul_self_nonneg (x 1)]
      funext i
      fin_cases i
      · exact h0
      · exact h1
  pat := by
    intro i j h
    by_contra hij
    exact h (Matrix.one_apply_ne fun e => hij (by simp [e]))
  ord := fun s => ⟨List.Nodup.filter _ (List.nodup_finRange 2), fun x => by simp⟩
  slv := by
    intro S k i hi
    simp only [mul_ite, mul_one, mul_zero]
    rw [Finset.sum_ite_eq' S k]
    split
    · rfl
    · rename_i hk
      have hik : i ≠ k := by rintro rfl; exact hk hi
      exact (Matrix.one_apply_ne hik).symm

end Fdapde.LinAlg
