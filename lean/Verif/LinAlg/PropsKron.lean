import Verif.LinAlg.Model
import Mathlib.LinearAlgebra.Matrix.Kronecker
import Mathlib.Logic.Equiv.Fin.Basic
import Mathlib.Data.List.Sort
/- C35 and C36: dense and sparse Kronecker product. -/
namespace Fdapde.LinAlg
open Matrix
variable {R : Type} [CommRing R]

/-! ### C35 -/

/-- A matrix of Mathlib as an operand. -/
def ofMatrix {m n : Nat} (A : Matrix (Fin m) (Fin n) R) : Mat R :=
  ⟨m, n, fun i j => if h : i < m ∧ j < n then A ⟨i, h.1⟩ ⟨j, h.2⟩ else 0⟩

omit [CommRing R] in
theorem ofMatrix_get [CommRing R] {m n : Nat} (A : Matrix (Fin m) (Fin n) R) (i : Fin m) (j : Fin n) :
    (ofMatrix A).get i j = .ok (A i j) := by
  simp [Mat.get, ofMatrix]

/-- Size and coefficients: the block at block position (a, c) is A(a, c) times B. No access is out of range. -/
theorem C35_coefficients (A B : Mat R) (a b c d : Nat) (ha : a < A.rows) (hb : b < B.rows) (hc : c < A.cols) (hd : d < B.cols) :
    kronRows A B = A.rows * B.rows ∧ kronCols A B = A.cols * B.cols ∧
    kronCoeff A B (a * B.rows + b) (c * B.cols + d) = .ok (A.coeff a c * B.coeff b d) := by
  refine ⟨rfl, rfl, ?_⟩
  have h1 : (a * B.rows + b) / B.rows = a := by
    rw [Nat.mul_comm, Nat.mul_add_div (by omega), Nat.div_eq_of_lt hb]; omega
  have h2 : (c * B.cols + d) / B.cols = c := by
    rw [Nat.mul_comm, Nat.mul_add_div (by omega), Nat.div_eq_of_lt hd]; omega
  have h3 : (a * B.rows + b) % B.rows = b := by
    rw [Nat.mul_comm, Nat.mul_add_mod, Nat.mod_eq_of_lt hb]
  have h4 : (c * B.cols + d) % B.cols = d := by
    rw [Nat.mul_comm, Nat.mul_add_mod, Nat.mod_eq_of_lt hd]
  have h0 : ¬ (B.rows = 0 ∨ B.cols = 0) := by omega
  simp only [kronCoeff, h0, if_false, h1, h2, h3, h4, Mat.get, ha, hb, hc, hd, and_self, if_true, Res.ok_bind]

/-- All coefficients in range can be read. -/
theorem kronCoeff_total (A B : Mat R) (i j : Nat) (hi : i < kronRows A B) (hj : j < kronCols A B) :
    kronCoeff A B i j = .ok (A.coeff (i / B.rows) (j / B.cols) * B.coeff (i % B.rows) (j % B.cols)) := by
  unfold kronRows at hi
  unfold kronCols at hj
  have hr : 0 < B.rows := Nat.pos_of_ne_zero (by rintro h; rw [h] at hi; omega)
  have hc : 0 < B.cols := Nat.pos_of_ne_zero (by rintro h; rw [h] at hj; omega)
  have h := (C35_coefficients A B (i / B.rows) (i % B.rows) (j / B.cols) (j % B.cols)
    ((Nat.div_lt_iff_lt_mul hr).2 hi) (Nat.mod_lt _ hr) ((Nat.div_lt_iff_lt_mul hc).2 hj) (Nat.mod_lt _ hc)).2.2
  rw [Nat.mul_comm, Nat.div_add_mod, Nat.mul_comm, Nat.div_add_mod] at h
  exact h

/-- The matrix one gets by reading every coefficient of the expression. -/
def kronEval {m n p q : Nat} (A : Matrix (Fin m) (Fin n) R) (B : Matrix (Fin p) (Fin q) R) :
    Matrix (Fin (m * p)) (Fin (n * q)) R :=
  fun i j => match kronCoeff (ofMatrix A) (ofMatrix B) i j with | .ok x => x | _ => 0

/-- The expression is Mathlib's Kronecker product with rows and columns numbered lexicographically. -/
theorem C35_is_kronecker {m n p q : Nat} (A : Matrix (Fin m) (Fin n) R) (B : Matrix (Fin p) (Fin q) R) :
    (∀ i j, kronCoeff (ofMatrix A) (ofMatrix B) (i : Fin (m * p)) (j : Fin (n * q)) = .ok (kronEval A B i j)) ∧
    kronEval A B = Matrix.reindex finProdFinEquiv finProdFinEquiv (kroneckerMap (· * ·) A B) := by
  have key : ∀ (i : Fin (m * p)) (j : Fin (n * q)), kronCoeff (ofMatrix A) (ofMatrix B) i j =
      .ok (A i.divNat j.divNat * B i.modNat j.modNat) := by
    intro i j
    rw [kronCoeff_total (ofMatrix A) (ofMatrix B) i j (by simpa [kronRows, ofMatrix] using i.2) (by simpa [kronCols, ofMatrix] using j.2)]
    have h1 := ofMatrix_get A i.divNat j.divNat
    have h2 := ofMatrix_get B i.modNat j.modNat
    have e1 : (ofMatrix A).coeff (i.divNat : Fin m) (j.divNat : Fin n) = A i.divNat j.divNat := by
      simp only [ofMatrix]; rw [dif_pos ⟨i.divNat.2, j.divNat.2⟩]
    have e2 : (ofMatrix B).coeff (i.modNat : Fin p) (j.modNat : Fin q) = B i.modNat j.modNat := by
      simp only [ofMatrix]; rw [dif_pos ⟨i.modNat.2, j.modNat.2⟩]
    rw [← e1, ← e2]
    simp [Fin.divNat, Fin.modNat, ofMatrix]
  refine ⟨fun i j => ?_, ?_⟩
  · rw [key, kronEval, key]
  · ext i j
    rw [kronEval, key]
    simp [finProdFinEquiv, kroneckerMap]

/-- Mixed product: (A ⊗ B)(C ⊗ D) = (AC) ⊗ (BD), all sizes. -/
theorem C35_mixed_product {m n l p q r : Nat} (A : Matrix (Fin m) (Fin n) R) (C : Matrix (Fin n) (Fin l) R)
    (B : Matrix (Fin p) (Fin q) R) (D : Matrix (Fin q) (Fin r) R) :
    kronEval A B * kronEval C D = kronEval (A * C) (B * D) := by
  rw [(C35_is_kronecker A B).2, (C35_is_kronecker C D).2, (C35_is_kronecker (A * C) (B * D)).2]
  have := Matrix.mul_kronecker_mul A C B D
  simp only [Matrix.reindex_apply]
  rw [Matrix.submatrix_mul_equiv]
  congr 1
  exact this.symm

example : kronEval !![(1 : ℤ), 2] !![3; 4] = !![3, 6; 4, 8] := by
  ext i j; fin_cases i <;> fin_cases j <;> decide

/-! ### C36 -/

/-- What a column of the product has to contain: for each stored entry of the left column, the right column scaled and
shifted, in order. -/
def kronColSpec (rb : Nat) (la lb : List (Nat × R)) : List (Nat × R) :=
  la.flatMap fun p => lb.map fun q => (p.1 * rb + q.1, p.2 * q.2)

/-- What the iterator still has to deliver when positioned at `lhs`, `rhs` (current element excluded). -/
def KIt.pending (rb : Nat) (it : KIt R) : List (Nat × R) :=
  match it.lhs with
  | [] => []
  | p :: ps => (it.rhs.map fun q => (p.1 * rb + q.1, p.2 * q.2)) ++ kronColSpec rb ps it.rhs0

theorem next_spec (rb : Nat) (it : KIt R) (h0 : it.rhs0 ≠ []) (he : it.rhsEmpty = false) :
    (KIt.next rb it).rhs0 = it.rhs0 ∧ (KIt.next rb it).rhsEmpty = false ∧
    match it.pending rb with
    | [] => (KIt.next rb it).index = -1
    | x :: l => (KIt.next rb it).index = (x.1 : Int) ∧ (KIt.next rb it).value = some x.2 ∧ (KIt.next rb it).pending rb = l := by
  obtain ⟨lhs, rhs, rhs0, idx, val, emp⟩ := it
  simp only at h0 he
  subst he
  cases rhs with
  | cons q qs =>
      cases lhs with
      | nil => simp [KIt.next, KIt.pending]
      | cons p ps => simp [KIt.next, KIt.pending]
  | nil =>
      cases lhs with
      | nil => simp [KIt.next, KIt.pending]
      | cons p ps =>
          cases ps with
          | nil => simp [KIt.next, KIt.pending, kronColSpec]
          | cons p2 ps =>
              cases rhs0 with
              | nil => exact absurd rfl h0
              | cons q qs => simp [KIt.next, KIt.pending, kronColSpec]

theorem collect_spec (rb : Nat) : ∀ (l : List (Nat × R)) (it : KIt R) (f : Nat), it.rhs0 ≠ [] → it.rhsEmpty = false →
    l.length < f → it.pending rb = l →
    KIt.collect rb f (KIt.next rb it) = some (l.map fun x => ((x.1 : Int), some x.2)) := by
  intro l
  induction l with
  | nil =>
      intro it f h0 he hf hp
      obtain ⟨_, _, h⟩ := next_spec rb it h0 he
      rw [hp] at h
      obtain ⟨f, rfl⟩ : ∃ g, f = g + 1 := ⟨f - 1, by simp at hf; omega⟩
      have h : (KIt.next rb it).index = -1 := h
      simp [KIt.collect, h]
  | cons x l ih =>
      intro it f h0 he hf hp
      obtain ⟨h1, h2, h⟩ := next_spec rb it h0 he
      rw [hp] at h
      obtain ⟨f, rfl⟩ : ∃ g, f = g + 1 := ⟨f - 1, by simp at hf; omega⟩
      obtain ⟨h3, h4, h5⟩ := h
      have := ih (KIt.next rb it) f (by rw [h1]; exact h0) h2 (by simp at hf; omega) h5
      simp [KIt.collect, h3, this, h4]

/-- Iterating column `j` visits exactly the products of stored entries of A's column j / cb and B's column j mod cb, with
row index i * rb + k, in the lexicographic order; an empty column of B gives an empty iteration. The hypothesis on A
excludes an out-of-range read in the constructor (C36_bug_empty_column); it holds if A's column is not empty. -/
theorem C36_column_partial (A B : Sp R) (j : Nat) (hB : 0 < B.cols) (hA : A.start (j / B.cols) < A.data.length) :
    ∃ it, KIt.make A B j = .ok it ∧ ∀ f, (A.col (j / B.cols)).length * (B.col (j % B.cols)).length < f →
      KIt.collect B.rows f it =
        some ((kronColSpec B.rows (A.col (j / B.cols)) (B.col (j % B.cols))).map fun x => ((x.1 : Int), some x.2)) := by
  have h0 : ¬ B.cols = 0 := by omega
  refine ⟨_, by simp only [KIt.make, h0, if_false, List.getElem?_eq_getElem hA]; rfl, fun f hf => ?_⟩
  cases hb : B.col (j % B.cols) with
  | nil =>
      obtain ⟨f, rfl⟩ : ∃ g, f = g + 1 := ⟨f - 1, by omega⟩
      have : kronColSpec B.rows (A.col (j / B.cols)) ([] : List (Nat × R)) = [] := by simp [kronColSpec]
      simp [KIt.collect, KIt.next, this]
  | cons q qs =>
      have hlen : ∀ la : List (Nat × R), (kronColSpec B.rows la (q :: qs)).length = la.length * (q :: qs).length := by
        intro la
        induction la with
        | nil => simp [kronColSpec]
        | cons p ps ih =>
            simp only [kronColSpec, List.flatMap_cons, List.length_append, List.length_map] at ih ⊢
            rw [ih]; simp [Nat.add_mul]; omega
      apply collect_spec
      · simp
      · simp
      · rw [hlen]; rw [hb] at hf; exact hf
      · cases ha : A.col (j / B.cols) with
        | nil => simp [KIt.pending, kronColSpec]
        | cons p ps => simp [KIt.pending, kronColSpec]

/-- Rows come out in strictly increasing order if the operands are stored in increasing row order. -/
theorem C36_increasing (rb : Nat) (la lb : List (Nat × R)) (ha : la.Pairwise (fun x y => x.1 < y.1))
    (hb : lb.Pairwise (fun x y => x.1 < y.1)) (hr : ∀ q ∈ lb, q.1 < rb) :
    (kronColSpec rb la lb).Pairwise (fun x y => x.1 < y.1) := by
  induction la with
  | nil => simp [kronColSpec]
  | cons p ps ih =>
      rw [List.pairwise_cons] at ha
      simp only [kronColSpec, List.flatMap_cons]
      rw [List.pairwise_append]
      refine ⟨?_, ih ha.2, ?_⟩
      · rw [List.pairwise_map]
        exact hb.imp (fun h => by simp only; omega)
      · intro x hx y hy
        obtain ⟨q, hq, rfl⟩ := List.mem_map.1 hx
        obtain ⟨p', hp', hy⟩ := List.mem_flatMap.1 hy
        obtain ⟨q', hq', rfl⟩ := List.mem_map.1 hy
        have h1 := ha.1 p' hp'
        have h2 := hr q hq
        have h3 : (p.1 + 1) * rb ≤ p'.1 * rb := Nat.mul_le_mul_right rb h1
        simp only
        rw [Nat.add_mul] at h3
        omega

/-- The value stored in row `i` of a column (zero if none is stored). -/
def lookup (l : List (Nat × R)) (i : Nat) : R := ((l.find? fun p => p.1 == i).map Prod.snd).getD 0

/-- The column that is visited represents the Kronecker product: its entry in row i is the product of the entries of the
operands' columns in rows i / rb and i mod rb, zero where nothing is stored. -/
theorem C36_values (rb : Nat) (hrb : 0 < rb) (la lb : List (Nat × R)) (hr : ∀ q ∈ lb, q.1 < rb) (i : Nat) :
    lookup (kronColSpec rb la lb) i = lookup la (i / rb) * lookup lb (i % rb) := by
  induction la with
  | nil => simp [kronColSpec, lookup]
  | cons p ps ih =>
      have hf : ∀ (lb' : List (Nat × R)), (∀ q ∈ lb', q.1 < rb) →
          ((lb'.map fun q => (p.1 * rb + q.1, p.2 * q.2)).find? fun x => x.1 == i) =
          if p.1 = i / rb then (lb'.find? fun q => q.1 == i % rb).map (fun q => (p.1 * rb + q.1, p.2 * q.2)) else none := by
        intro lb' hlb
        induction lb' with
        | nil => simp
        | cons q qs ihq =>
            have hq := hlb q (by simp)
            have ihq' := ihq (fun q hq => hlb q (by simp [hq]))
            simp only [List.map_cons, List.find?_cons]
            have hiff : (p.1 * rb + q.1 == i) = (decide (p.1 = i / rb) && (q.1 == i % rb)) := by
              rw [Bool.eq_iff_iff]
              simp only [beq_iff_eq, Bool.and_eq_true, decide_eq_true_eq]
              constructor
              · rintro rfl
                rw [Nat.mul_comm, Nat.mul_add_div hrb, Nat.div_eq_of_lt hq, Nat.mul_add_mod, Nat.mod_eq_of_lt hq]
                exact ⟨by omega, rfl⟩
              · rintro ⟨h1, h2⟩
                rw [h1, h2, Nat.mul_comm]; exact Nat.div_add_mod i rb
            rw [hiff, ihq']
            by_cases h1 : p.1 = i / rb
            · by_cases h2 : q.1 = i % rb
              · simp [h1, h2]
              · simp [h1, h2, beq_false_of_ne h2]
            · simp [h1]
      have hsplit : kronColSpec rb (p :: ps) lb = (lb.map fun q => (p.1 * rb + q.1, p.2 * q.2)) ++ kronColSpec rb ps lb := by
        simp [kronColSpec]
      rw [lookup, hsplit, List.find?_append, hf lb hr]
      by_cases h1 : p.1 = i / rb
      · simp only [h1, if_true]
        cases h2 : lb.find? (fun q => q.1 == i % rb) with
        | some q =>
            simp only [Option.map_some, Option.some_or, Option.getD_some]
            simp [lookup, h1, h2]
        | none =>
            simp only [Option.map_none, Option.none_or]
            change lookup (kronColSpec rb ps lb) i = _
            rw [ih]; simp [lookup, h2]
      · simp only [h1, if_false, Option.none_or]
        change lookup (kronColSpec rb ps lb) i = _
        rw [ih]
        have : lookup (p :: ps) (i / rb) = lookup ps (i / rb) := by
          simp [lookup, List.find?_cons, beq_false_of_ne h1]
        rw [this]

/-- 2x2 operands; the second column of the left operand is empty. -/
def demoA : Sp Int := ⟨2, 2, fun j => if j = 0 then 0 else 2, [(0, 2), (1, 3)]⟩
def demoB : Sp Int := ⟨2, 2, fun j => j, [(1, 5), (0, 7)]⟩

example : ∃ it, KIt.make demoA demoB 1 = .ok it ∧ KIt.collect 2 10 it = some [(0, some 14), (2, some 21)] := by
  obtain ⟨it, h1, h2⟩ := C36_column_partial demoA demoB 1 (by decide) (by decide)
  exact ⟨it, h1, (h2 10 (by decide)).trans (by decide)⟩

/-- The entries of a column are those stored from `start j` to before `start (j + 1)`. -/
theorem mem_col (A : Sp R) (j : Nat) (x : Nat × R) :
    x ∈ A.col j ↔ ∃ p, A.start j ≤ p ∧ p < A.start (j + 1) ∧ A.data[p]? = some x := by
  rw [Sp.col, List.mem_iff_getElem?]
  constructor
  · rintro ⟨i, hi⟩
    rw [List.getElem?_take] at hi
    split at hi
    · rw [List.getElem?_drop] at hi
      exact ⟨A.start j + i, by omega, by omega, hi⟩
    · cases hi
  · rintro ⟨p, h1, h2, h3⟩
    refine ⟨p - A.start j, ?_⟩
    rw [List.getElem?_take, if_pos (by omega), List.getElem?_drop, show A.start j + (p - A.start j) = p by omega, h3]

/-- C36: the entries visited in column `j`, in terms of the storage of the operands: (row, value) is visited exactly when it comes from a
stored entry of column j / cb of A and one of column j mod cb of B. -/
theorem C36_entries_partial (A B : Sp R) (j : Nat) (hB : 0 < B.cols) (hA : A.start (j / B.cols) < A.data.length) :
    ∃ it, KIt.make A B j = .ok it ∧ ∀ f, (A.col (j / B.cols)).length * (B.col (j % B.cols)).length < f →
      ∃ l, KIt.collect B.rows f it = some l ∧ ∀ (r : Int) (v : Option R), (r, v) ∈ l ↔
        ∃ p q i a k b, A.start (j / B.cols) ≤ p ∧ p < A.start (j / B.cols + 1) ∧ A.data[p]? = some (i, a) ∧
          B.start (j % B.cols) ≤ q ∧ q < B.start (j % B.cols + 1) ∧ B.data[q]? = some (k, b) ∧
          r = ((i * B.rows + k : Nat) : Int) ∧ v = some (a * b) := by
  obtain ⟨it, h1, h2⟩ := C36_column_partial A B j hB hA
  refine ⟨it, h1, fun f hf => ⟨_, h2 f hf, fun r v => ?_⟩⟩
  simp only [List.mem_map, kronColSpec, List.mem_flatMap]
  constructor
  · rintro ⟨x, ⟨⟨i, a⟩, hp, ⟨k, b⟩, hq, rfl⟩, e⟩
    obtain ⟨p, p1, p2, p3⟩ := (mem_col A _ _).1 hp
    obtain ⟨q, q1, q2, q3⟩ := (mem_col B _ _).1 hq
    obtain ⟨rfl, rfl⟩ := Prod.mk.inj e
    exact ⟨p, q, i, a, k, b, p1, p2, p3, q1, q2, q3, rfl, rfl⟩
  · rintro ⟨p, q, i, a, k, b, p1, p2, p3, q1, q2, q3, rfl, rfl⟩
    exact ⟨_, ⟨(i, a), (mem_col A _ _).2 ⟨p, p1, p2, p3⟩, (k, b), (mem_col B _ _).2 ⟨q, q1, q2, q3⟩, rfl⟩, rfl⟩

/-- When the last columns of the left operand are empty, constructing the iterator reads an inner index past the end of
the storage (`lhs_it.index()` is evaluated before the column is known to be non-empty, line 187). -/
theorem C36_bug_empty_column : KIt.make demoA demoB 2 = .ub ∧ demoA.col (2 / demoB.cols) = [] := by
  constructor <;> rfl

end Fdapde.LinAlg
