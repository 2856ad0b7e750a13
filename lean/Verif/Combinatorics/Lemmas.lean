import Verif.Combinatorics.Model
import Mathlib.Data.Nat.Choose.Basic
import Mathlib.Data.List.Sort
import Mathlib.Data.List.Chain
namespace Fdapde.Combinatorics

theorem ctFactorial_eq (n : Nat) : ctFactorial n = n.factorial := by
  induction n with
  | zero => rfl
  | succ n ih => simp [ctFactorial, Nat.factorial, ih]

theorem ctBinomial_eq (N M : Nat) (h : M ≤ N) : ctBinomial N M = N.choose M := by
  rw [ctBinomial, ctFactorial_eq, ctFactorial_eq, ctFactorial_eq, Nat.choose_eq_factorial_div_factorial h]

/-- All masks of length `n` with `k` bits, in the order of the loop. -/
def masks : Nat → Nat → List (List Bool)
  | n, 0 => [List.replicate n false]
  | 0, _ + 1 => []
  | n + 1, k + 1 => (masks n k).map (true :: ·) ++ (masks n (k + 1)).map (false :: ·)

def firstMask (n k : Nat) : List Bool := List.replicate k true ++ List.replicate (n - k) false
def lastMask (n k : Nat) : List Bool := List.replicate (n - k) false ++ List.replicate k true

theorem masks_empty (n k : Nat) (h : n < k) : masks n k = [] := by
  induction n generalizing k with
  | zero => cases k with
    | zero => omega
    | succ k => rfl
  | succ n ih =>
    cases k with
    | zero => omega
    | succ k => simp [masks, ih k (by omega), ih (k + 1) (by omega)]

theorem lastLess_true_trues (k : Nat) : lastLess true (List.replicate k true) = none := by
  induction k with
  | zero => rfl
  | succ k ih => simp [List.replicate_succ, lastLess, ih]

theorem lastLess_false (l : List Bool) : lastLess false l = none := by
  induction l with
  | nil => rfl
  | cons b bs ih => simp [lastLess, ih]

theorem lastLess_lastMask (a k : Nat) :
    lastLess true (List.replicate (a + 1) false ++ List.replicate k true) = some a := by
  induction a with
  | zero => simp [List.replicate_succ, lastLess, lastLess_true_trues]
  | succ a ih =>
    rw [List.replicate_succ, List.cons_append, lastLess, ih]

theorem prevPerm_falses (a : Nat) : prevPerm (List.replicate a false) = none := by
  induction a with
  | zero => rfl
  | succ a ih => simp [List.replicate_succ, prevPerm, ih, lastLess_false]

theorem prevPerm_trues (a : Nat) : prevPerm (List.replicate a true) = none := by
  induction a with
  | zero => rfl
  | succ a ih => simp [List.replicate_succ, prevPerm, ih, lastLess_true_trues]

theorem prevPerm_last (a k : Nat) : prevPerm (List.replicate a false ++ List.replicate k true) = none := by
  induction a with
  | zero => simpa using prevPerm_trues k
  | succ a ih => simp [List.replicate_succ, prevPerm, ih, lastLess_false]

theorem prevPerm_jump (a k : Nat) :
    prevPerm (true :: (List.replicate (a + 1) false ++ List.replicate k true)) =
      some (false :: (List.replicate (k + 1) true ++ List.replicate a false)) := by
  rw [prevPerm, prevPerm_last]
  simp only [lastLess_lastMask]
  congr 2
  · simp [List.getD_eq_getElem?_getD, List.getElem?_append]
  · have : (List.replicate (a + 1) false ++ List.replicate k true).set a true
        = List.replicate a false ++ List.replicate (k + 1) true := by
      rw [List.set_append_left _ _ (by simp), List.replicate_succ', List.set_append_right _ _ (by simp)]
      simp [List.replicate_succ]
    rw [this]; simp

/-- Consecutive masks are related by `prevPerm`, the first and last are as expected. -/
theorem masks_chain (n : Nat) : ∀ k, k ≤ n →
    ∃ rest, masks n k = firstMask n k :: rest ∧
      List.IsChain (fun a b => prevPerm a = some b) (masks n k) ∧
      (masks n k).getLast? = some (lastMask n k) := by
  induction n with
  | zero =>
    intro k hk
    obtain rfl : k = 0 := by omega
    exact ⟨[], by simp [masks, firstMask], by simp [masks], by simp [masks, lastMask]⟩
  | succ n ih =>
    intro k hk
    cases k with
    | zero => exact ⟨[], by simp [masks, firstMask], by simp [masks], by simp [masks, lastMask]⟩
    | succ k =>
      obtain ⟨r1, h1, h2, h3⟩ := ih k (by omega)
      have hmap : ∀ (b : Bool) (l : List (List Bool)), List.IsChain (fun a b => prevPerm a = some b) l →
          List.IsChain (fun a b => prevPerm a = some b) (l.map (b :: ·)) := by
        intro b l hl
        rw [List.isChain_map]
        refine hl.imp ?_
        intro x y hxy
        simp [prevPerm, hxy]
      simp only [masks]
      by_cases hkn : k + 1 ≤ n
      · obtain ⟨r2, g1, g2, g3⟩ := ih (k + 1) hkn
        refine ⟨r1.map (true :: ·) ++ (masks n (k + 1)).map (false :: ·), ?_, ?_, ?_⟩
        · rw [h1]; simp [firstMask, List.replicate_succ]
        · rw [List.isChain_append]
          refine ⟨hmap _ _ h2, hmap _ _ g2, ?_⟩
          intro x hx y hy
          rw [List.getLast?_map, h3] at hx
          rw [List.head?_map, g1] at hy
          simp at hx hy
          subst hx hy
          obtain ⟨a, rfl⟩ : ∃ a, n = k + 1 + a := ⟨n - (k + 1), by omega⟩
          have e1 : k + 1 + a - k = a + 1 := by omega
          have e2 : k + 1 + a - (k + 1) = a := by omega
          rw [lastMask, firstMask, e1, e2]
          exact prevPerm_jump a k
        · rw [List.getLast?_append, List.getLast?_map, g3]
          have : n + 1 - (k + 1) = (n - (k + 1)) + 1 := by omega
          simp [lastMask, this, List.replicate_succ]
      · obtain rfl : k = n := by omega
        rw [masks_empty k (k + 1) (by omega)]
        refine ⟨r1.map (true :: ·), ?_, ?_, ?_⟩
        · rw [h1]; simp [firstMask, List.replicate_succ]
        · simpa using hmap _ _ h2
        · simp [List.getLast?_map, h3, lastMask, List.replicate_succ]

theorem masks_length (n : Nat) : ∀ k, (masks n k).length = n.choose k := by
  induction n with
  | zero => intro k; cases k <;> simp [masks]
  | succ n ih =>
    intro k
    cases k with
    | zero => simp [masks]
    | succ k => simp [masks, ih, Nat.choose_succ_succ]

theorem rowOf_shift (m : List Bool) : ∀ i, rowOf (i + 1) m = (rowOf i m).map (· + 1) := by
  induction m with
  | nil => intro i; rfl
  | cons b bs ih =>
    intro i
    cases b <;> simp [rowOf, ih]

theorem rowOf_masks_length (n : Nat) : ∀ k, ∀ m ∈ masks n k, (rowOf 0 m).length = k := by
  have hf : ∀ n i, rowOf i (List.replicate n false) = [] := by
    intro n
    induction n with
    | zero => intro i; rfl
    | succ n ih => intro i; simp [List.replicate_succ, rowOf, ih]
  induction n with
  | zero => intro k m hm; cases k <;> simp [masks] at hm; subst hm; rfl
  | succ n ih =>
    intro k m hm
    cases k with
    | zero => simp [masks] at hm; subst hm; simp [hf]
    | succ k =>
      simp only [masks, List.mem_append, List.mem_map] at hm
      rcases hm with ⟨m', hm', rfl⟩ | ⟨m', hm', rfl⟩
      · simp [rowOf, rowOf_shift, ih k m' hm']
      · simp [rowOf, rowOf_shift, ih (k + 1) m' hm']

theorem combLoop_chain (K : Nat) : ∀ (ms : List (List Bool)) (m : List Bool),
    List.IsChain (fun a b => prevPerm a = some b) (m :: ms) →
    (∃ l, (m :: ms).getLast? = some l ∧ prevPerm l = none) →
    (∀ x ∈ m :: ms, (rowOf 0 x).length = K) →
    combLoop K (ms.length + 1) m = .ok ((m :: ms).map (rowOf 0)) := by
  intro ms
  induction ms with
  | nil =>
    intro m _ hl hk
    obtain ⟨l, h1, h2⟩ := hl
    simp at h1
    subst h1
    have := hk m (by simp)
    simp [combLoop, h2, this]
  | cons m' ms ih =>
    intro m hc hl hk
    rw [List.isChain_cons_cons] at hc
    have h := ih m' hc.2 (by simpa using hl) (fun x hx => hk x (List.mem_cons_of_mem _ hx))
    have hm := hk m (by simp)
    rw [List.length_cons, combLoop, if_pos (by omega), hc.1]
    simp only
    rw [h]
    rfl

theorem combinations_eq (K N : Nat) (h : K ≤ N) : combinations K N = .ok ((masks N K).map (rowOf 0)) := by
  obtain ⟨rest, h1, h2, h3⟩ := masks_chain N K h
  have hlen := masks_length N K
  rw [combinations, ctBinomial_eq N K h, ← hlen]
  rw [h1] at h2 h3 ⊢
  have := combLoop_chain K rest (firstMask N K) h2
    ⟨lastMask N K, h3, prevPerm_last _ _⟩
    (fun x hx => rowOf_masks_length N K x (by rw [h1]; exact hx))
  rw [List.length_cons]
  exact this

/-- Rows as a recursive list. -/
def rows : Nat → Nat → List (List Nat)
  | _, 0 => [[]]
  | 0, _ + 1 => []
  | n + 1, k + 1 => (rows n k).map (fun r => 0 :: r.map (· + 1)) ++ (rows n (k + 1)).map (fun r => r.map (· + 1))

theorem masks_rows (n : Nat) : ∀ k, (masks n k).map (rowOf 0) = rows n k := by
  have hf : ∀ n i, rowOf i (List.replicate n false) = [] := by
    intro n
    induction n with
    | zero => intro i; rfl
    | succ n ih => intro i; simp [List.replicate_succ, rowOf, ih]
  induction n with
  | zero => intro k; cases k <;> simp [masks, rows, rowOf]
  | succ n ih =>
    intro k
    cases k with
    | zero => simp [masks, rows, hf]
    | succ k =>
      simp only [masks, rows, ← ih, List.map_append, List.map_map]
      congr 1
      · apply List.map_congr_left; intro m _; simp [rowOf, rowOf_shift]
      · apply List.map_congr_left; intro m _; simp [rowOf, rowOf_shift]

/-- Characterisation of the rows: strictly increasing, `k` entries below `n`. -/
theorem mem_rows (n : Nat) : ∀ k r, r ∈ rows n k ↔ r.length = k ∧ r.Pairwise (· < ·) ∧ ∀ x ∈ r, x < n := by
  induction n with
  | zero =>
    intro k r
    cases k with
    | zero =>
      simp only [rows, List.mem_singleton]
      constructor
      · rintro rfl; simp
      · rintro ⟨h, _⟩; exact List.length_eq_zero_iff.1 h
    | succ k =>
      simp only [rows, List.not_mem_nil, false_iff]
      rintro ⟨h1, _, h3⟩
      cases r with
      | nil => simp at h1
      | cons a r => exact absurd (h3 a (by simp)) (by omega)
  | succ n ih =>
    intro k r
    cases k with
    | zero =>
      simp only [rows, List.mem_singleton]
      constructor
      · rintro rfl; simp
      · rintro ⟨h, _⟩; exact List.length_eq_zero_iff.1 h
    | succ k =>
      have hshift : ∀ r : List Nat, (r.map (· + 1)).Pairwise (· < ·) ↔ r.Pairwise (· < ·) := by
        intro r; rw [List.pairwise_map]; simp
      simp only [rows, List.mem_append, List.mem_map]
      constructor
      · rintro (⟨r', h, rfl⟩ | ⟨r', h, rfl⟩)
        · obtain ⟨h1, h2, h3⟩ := (ih k r').1 h
          refine ⟨by simp [h1], ?_, ?_⟩
          · rw [List.pairwise_cons]
            refine ⟨?_, (hshift r').2 h2⟩
            intro x hx
            obtain ⟨y, _, rfl⟩ := List.mem_map.1 hx
            omega
          · intro x hx
            rcases List.mem_cons.1 hx with rfl | hx
            · omega
            · obtain ⟨y, hy, rfl⟩ := List.mem_map.1 hx
              have := h3 y hy; omega
        · obtain ⟨h1, h2, h3⟩ := (ih (k + 1) r').1 h
          refine ⟨by simp [h1], (hshift r').2 h2, ?_⟩
          intro x hx
          obtain ⟨y, hy, rfl⟩ := List.mem_map.1 hx
          have := h3 y hy; omega
      · rintro ⟨h1, h2, h3⟩
        have hun : ∀ r : List Nat, (∀ x ∈ r, 0 < x) → (r.map (· - 1)).map (· + 1) = r := by
          intro r hr
          rw [List.map_map]
          conv_rhs => rw [← List.map_id r]
          apply List.map_congr_left
          intro x hx
          have := hr x hx
          simp; omega
        cases r with
        | nil => simp at h1
        | cons a r =>
          rw [List.pairwise_cons] at h2
          by_cases ha : a = 0
          · left
            subst ha
            refine ⟨r.map (· - 1), (ih k _).2 ⟨by simpa using h1, ?_, ?_⟩, ?_⟩
            · rw [← hshift, hun r (fun x hx => h2.1 x hx)]; exact h2.2
            · intro x hx
              obtain ⟨y, hy, rfl⟩ := List.mem_map.1 hx
              have := h3 y (List.mem_cons_of_mem _ hy)
              have := h2.1 y hy
              omega
            · rw [hun r (fun x hx => h2.1 x hx)]
          · right
            have hpos : ∀ x ∈ a :: r, 0 < x := by
              intro x hx
              rcases List.mem_cons.1 hx with rfl | hx
              · omega
              · have := h2.1 x hx; omega
            refine ⟨(a :: r).map (· - 1), (ih (k + 1) _).2 ⟨by simpa using h1, ?_, ?_⟩, hun _ hpos⟩
            · rw [← hshift, hun _ hpos, List.pairwise_cons]; exact h2
            · intro x hx
              obtain ⟨y, hy, rfl⟩ := List.mem_map.1 hx
              have := h3 y hy
              have := hpos y hy
              omega

theorem lex_map_succ (a b : List Nat) (h : a < b) : a.map (· + 1) < b.map (· + 1) := by
  induction a generalizing b with
  | nil =>
    cases b with
    | nil => exact absurd h (by simp)
    | cons => simp
  | cons x a ih =>
    cases b with
    | nil => exact absurd h (by simp)
    | cons y b =>
      simp only [List.map_cons, List.cons_lt_cons_iff] at h ⊢
      rcases h with h | ⟨h1, h2⟩
      · left; omega
      · right; exact ⟨by omega, ih b h2⟩

theorem rows_lex (n : Nat) : ∀ k, (rows n k).Pairwise (· < ·) := by
  induction n with
  | zero => intro k; cases k <;> simp [rows]
  | succ n ih =>
    intro k
    cases k with
    | zero => simp [rows]
    | succ k =>
      simp only [rows]
      rw [List.pairwise_append]
      refine ⟨?_, ?_, ?_⟩
      · rw [List.pairwise_map]
        refine (ih k).imp ?_
        intro a b h
        rw [List.cons_lt_cons_iff]
        exact .inr ⟨rfl, lex_map_succ a b h⟩
      · rw [List.pairwise_map]
        exact (ih (k + 1)).imp fun {a b} h => lex_map_succ a b h
      · intro a ha b hb
        obtain ⟨a', _, rfl⟩ := List.mem_map.1 ha
        obtain ⟨b', hb', rfl⟩ := List.mem_map.1 hb
        have := ((mem_rows n (k + 1) b').1 hb').1
        cases b' with
        | nil => simp at this
        | cons y b' => rw [List.map_cons, List.cons_lt_cons_iff]; left; omega

end Fdapde.Combinatorics
