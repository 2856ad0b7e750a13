import Verif.Optim.Spec
import Mathlib.Algebra.Order.Ring.Rat
import Mathlib.Data.Fin.VecNotation

/-!
# Grid search (C64)
-/

set_option linter.unusedSectionVars false

namespace Fdapde.Optim

variable {K : Type} [Field K] [LinearOrder K] {n : Nat} {σ : Type}

theorem isFirstMin_snoc (obj : Vec K n → K) (l : List (Vec K n)) (x y : Vec K n) (v : K) (h : IsFirstMin obj l x v) :
    IsFirstMin obj (l ++ [y]) (if obj y < v then y else x) (if obj y < v then obj y else v) := by
  obtain ⟨j, h1, h2, h3, h4⟩ := h
  have hj : j < l.length := by
    by_contra hc
    rw [List.getElem?_eq_none (by omega)] at h1
    cases h1
  split_ifs with hv
  · refine ⟨l.length, by simp, rfl, fun z hz => ?_, fun i hi z hz => ?_⟩
    · rcases List.mem_append.1 hz with hz | hz
      · exact hv.le.trans (h3 z hz)
      · rw [List.mem_singleton.1 hz]
    · rw [List.getElem?_append_left hi] at hz
      exact lt_of_lt_of_le hv (h3 z (List.mem_of_getElem? hz))
  · refine ⟨j, by rw [List.getElem?_append_left hj, h1], h2, fun z hz => ?_, fun i hi z hz => ?_⟩
    · rcases List.mem_append.1 hz with hz | hz
      · exact h3 z hz
      · rw [List.mem_singleton.1 hz]; exact not_lt.1 hv
    · rw [List.getElem?_append_left (by omega)] at hz
      exact h4 i hi z hz

theorem gridLoop_spec (obj : Vec K n → K) (post : Vec K n → σ → σ × Bool) : ∀ (xs l : List (Vec K n)) (s : GridSt K n σ),
    IsFirstMin obj l s.optimum s.value → s.stop = false →
    ∃ k ≤ xs.length, IsFirstMin obj (l ++ xs.take k) (gridLoop obj post xs s).optimum (gridLoop obj post xs s).value ∧
      (∀ i, i + 1 < k → (answers post xs s.aux)[i]? = some false) ∧
      (k < xs.length → 0 < k ∧ (answers post xs s.aux)[k - 1]? = some true)
  | [], l, s, h, _ => ⟨0, le_refl _, by simpa [gridLoop] using h, by simp, by simp⟩
  | x :: xs, l, s, h, hs => by
    have hsn := isFirstMin_snoc obj l s.optimum x s.value h
    rw [gridLoop, if_neg (by simp [hs])]
    simp only [hs, Bool.false_or]
    set s' : GridSt K n σ := if obj x < s.value then
      { optimum := x, value := obj x, stop := (post x s.aux).2, aux := (post x s.aux).1 }
      else { optimum := s.optimum, value := s.value, stop := (post x s.aux).2, aux := (post x s.aux).1 } with hs'
    have e1 : s'.optimum = if obj x < s.value then x else s.optimum := by rw [hs']; split_ifs <;> rfl
    have e2 : s'.value = if obj x < s.value then obj x else s.value := by rw [hs']; split_ifs <;> rfl
    have e3 : s'.stop = (post x s.aux).2 := by rw [hs']; split_ifs <;> rfl
    have e4 : s'.aux = (post x s.aux).1 := by rw [hs']; split_ifs <;> rfl
    rw [← e1, ← e2] at hsn
    by_cases hb : (post x s.aux).2 = true
    · refine ⟨1, by simp, ?_, by simp, by simp [answers, hb]⟩
      have hst : gridLoop obj post xs s' = s' := by
        cases xs with
        | nil => rfl
        | cons y ys => rw [gridLoop, if_pos (by rw [e3, hb])]
      rw [hst]
      simpa using hsn
    · obtain ⟨k, h1, h2, h3, h4⟩ := gridLoop_spec obj post xs (l ++ [x]) s' hsn (by rw [e3]; simpa using hb)
      refine ⟨k + 1, by simpa using h1, by simpa using h2, fun i hi => ?_, fun hk => ⟨by omega, ?_⟩⟩
      · rw [answers]
        cases i with
        | zero => simpa using hb
        | succ i => rw [List.getElem?_cons_succ, ← e4]; exact h3 i (by omega)
      · obtain ⟨h5, h6⟩ := h4 (by simpa using hk)
        rw [answers, show k + 1 - 1 = (k - 1) + 1 by omega, List.getElem?_cons_succ, ← e4]
        exact h6

/-- **C64**, with callbacks: the grid search visits the first `k` points of the grid, where `k` is the whole grid unless a
callback asks to stop, and then the point at which it does; it returns the first point of smallest value among them,
and that value. -/
theorem C64_visited (obj : Vec K n → K) (post : Vec K n → σ → σ × Bool) (x : Vec K n) (xs : List (Vec K n)) (aux : σ) :
    ∃ s k, gridOptimize obj post (x :: xs) aux = .ok s ∧ k ≤ xs.length ∧
      IsFirstMin obj (x :: xs.take k) s.optimum s.value ∧
      (∀ i, i + 1 < k → (answers post xs aux)[i]? = some false) ∧
      (k < xs.length → 0 < k ∧ (answers post xs aux)[k - 1]? = some true) := by
  obtain ⟨k, h1, h2, h3, h4⟩ := gridLoop_spec obj post xs [x] { optimum := x, value := obj x, stop := false, aux := aux }
    ⟨0, rfl, rfl, by simp, by simp⟩ rfl
  exact ⟨_, k, rfl, h1, by simpa using h2, h3, h4⟩

/-- **C64**, without early stopping: the first point of smallest value of the whole grid, and its value. -/
theorem C64_minimum (obj : Vec K n → K) (post : Vec K n → σ → σ × Bool) (hp : ∀ x a, (post x a).2 = false) (grid : List (Vec K n))
    (hg : grid ≠ []) (aux : σ) : ∃ s, gridOptimize obj post grid aux = .ok s ∧ IsFirstMin obj grid s.optimum s.value := by
  cases grid with
  | nil => exact absurd rfl hg
  | cons x xs =>
    obtain ⟨s, k, h1, h2, h3, h4, h5⟩ := C64_visited obj post x xs aux
    have ha : ∀ (l : List (Vec K n)) a, ∀ b ∈ answers post l a, b = false := by
      intro l
      induction l with
      | nil => simp [answers]
      | cons y l ih =>
        intro a b hb
        rw [answers, List.mem_cons] at hb
        rcases hb with rfl | hb
        · exact hp y a
        · exact ih _ b hb
    have hk : ¬ k < xs.length := fun hk => by
      have := ha xs aux _ (List.mem_of_getElem? (h5 hk).2)
      cases this
    refine ⟨s, h1, ?_⟩
    rwa [List.take_of_length_le (by omega)] at h3

/-- **C64**, an empty grid: row 0 is read out of range. -/
theorem C64_empty (obj : Vec K n → K) (post : Vec K n → σ → σ × Bool) (aux : σ) : gridOptimize obj post [] aux = .ub := rfl

/-- Four points, the minimum attained twice; and a callback which stops at the third point. -/
example : (∃ s, gridOptimize (fun x : Vec ℚ 1 => x 0 * x 0) (fun _ (a : Unit) => (a, false)) [![3], ![-1], ![1], ![2]] () = .ok s ∧
      s.optimum 0 = -1 ∧ s.value = 1) ∧
    ∃ s, gridOptimize (fun x : Vec ℚ 1 => x 0 * x 0) (fun x (a : Unit) => (a, x 0 == 2)) [![3], ![4], ![2], ![0]] () = .ok s ∧
      s.optimum 0 = 2 ∧ s.value = 4 :=
  ⟨⟨_, rfl, by decide +kernel, by decide +kernel⟩, ⟨_, rfl, by decide +kernel, by decide +kernel⟩⟩

end Fdapde.Optim
