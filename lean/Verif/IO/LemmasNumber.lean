import Verif.IO.NumberSpec
import Verif.IO.CsvLemmas
import Mathlib.Tactic.Linarith
import Mathlib.Tactic.NormNum
import Mathlib.Tactic.Positivity
import Mathlib.Tactic.FieldSimp
import Mathlib.Tactic.Ring
namespace Fdapde.IO
open Fdapde.Fp

theorem mem_intercalate {sep : List Char} : ∀ {l : List (List Char)} {t : List Char} {c : Char}, t ∈ l → c ∈ t → c ∈ sep.intercalate l
  | [], _, _, h, _ => absurd h (by simp)
  | [a], t, c, h, hc => by
    have : t = a := by simpa using h
    subst this
    simpa [List.intercalate] using hc
  | a :: b :: l, t, c, h, hc => by
    have e : sep.intercalate (a :: b :: l) = a ++ sep ++ sep.intercalate (b :: l) := by simp [List.intercalate]
    rw [e]
    rcases List.mem_cons.1 h with rfl | h
    · simp [hc]
    · exact List.mem_append_right _ (mem_intercalate h hc)

/-! ### Doubles near a decimal number -/

/-- Different doubles are at least `2⁻⁵³` apart, relatively to each of them. -/
theorem format_apart {a b : ℝ} (ha : Format a) (hb : Format b) (h : a ≠ b) : 2⁻¹ ^ 53 * |b| ≤ |a - b| := by
  obtain ⟨m, e, hm, -, rfl⟩ := ha
  obtain ⟨k, g, hk, -, rfl⟩ := hb
  have hm' : (|m| : ℝ) ≤ 2 ^ 53 - 1 := by
    have : |m| ≤ 2 ^ 53 - 1 := by omega
    have := (Int.cast_le (R := ℝ)).2 this
    push_cast at this
    norm_num
    exact this
  have hk' : (|k| : ℝ) ≤ 2 ^ 53 - 1 := by
    have : |k| ≤ 2 ^ 53 - 1 := by omega
    have := (Int.cast_le (R := ℝ)).2 this
    push_cast at this
    norm_num
    exact this
  rcases le_total g e with hge | hge
  · obtain ⟨n, hn⟩ := Int.eq_ofNat_of_zero_le (sub_nonneg.2 hge)
    have e1 : (2 : ℝ) ^ e = 2 ^ n * 2 ^ g := by
      rw [← zpow_natCast, ← zpow_add₀ (by norm_num)]
      congr 1
      omega
    have hg : (0 : ℝ) < 2 ^ g := by positivity
    have e2 : (m : ℝ) * 2 ^ e - k * 2 ^ g = ((m * 2 ^ n - k : ℤ) : ℝ) * 2 ^ g := by
      rw [e1]; push_cast; ring
    have h0 : m * 2 ^ n - k ≠ 0 := by
      intro h0
      rw [h0] at e2
      exact h (by simpa [sub_eq_zero] using e2)
    have h1 : (1 : ℝ) ≤ |((m * 2 ^ n - k : ℤ) : ℝ)| := by
      rw [← Int.cast_abs]
      exact_mod_cast Int.one_le_abs h0
    rw [e2, abs_mul, abs_mul, abs_of_pos hg]
    have : 2⁻¹ ^ 53 * (|(k : ℝ)| * 2 ^ g) ≤ 1 * 2 ^ g := by
      rw [← mul_assoc]
      refine mul_le_mul_of_nonneg_right ?_ hg.le
      norm_num at hk' ⊢
      linarith
    nlinarith
  · obtain ⟨n, hn⟩ := Int.eq_ofNat_of_zero_le (sub_nonneg.2 hge)
    have e1 : (2 : ℝ) ^ g = 2 ^ n * 2 ^ e := by
      rw [← zpow_natCast, ← zpow_add₀ (by norm_num)]
      congr 1
      omega
    have he : (0 : ℝ) < 2 ^ e := by positivity
    have e2 : (m : ℝ) * 2 ^ e - k * 2 ^ g = ((m - k * 2 ^ n : ℤ) : ℝ) * 2 ^ e := by
      rw [e1]; push_cast; ring
    have h0 : m - k * 2 ^ n ≠ 0 := by
      intro h0
      rw [h0] at e2
      exact h (by simpa [sub_eq_zero] using e2)
    have h1 : (1 : ℝ) ≤ |((m - k * 2 ^ n : ℤ) : ℝ)| := by
      rw [← Int.cast_abs]
      exact_mod_cast Int.one_le_abs h0
    have h2 : (2 : ℝ) ^ e ≤ |(m : ℝ) * 2 ^ e - k * 2 ^ g| := by
      rw [e2, abs_mul, abs_of_pos he]
      nlinarith
    have h3 : |(k : ℝ) * 2 ^ g| - |(m : ℝ) * 2 ^ e| ≤ |(m : ℝ) * 2 ^ e - k * 2 ^ g| := by
      rw [abs_sub_comm]
      exact abs_sub_abs_le_abs_sub _ _
    have h4 : |(m : ℝ) * 2 ^ e| ≤ (2 ^ 53 - 1) * 2 ^ e := by
      rw [abs_mul, abs_of_pos he]
      exact mul_le_mul_of_nonneg_right hm' he.le
    generalize |(k : ℝ) * 2 ^ g| = B at *
    generalize |(m : ℝ) * 2 ^ e| = A at *
    generalize |(m : ℝ) * 2 ^ e - k * 2 ^ g| = D at *
    generalize (2 : ℝ) ^ e = u at *
    norm_num at *
    rcases le_total B (9007199254740992 * u) with h5 | h5 <;> linarith

/-- A number that is closer to a double than half of the distance to the next one is rounded to it. -/
theorem fit_of_close {x q : ℝ} (hx : Format x) (h : |q - x| ≤ 1 / 2 / 10 ^ 16 * |q|) : fit q = x := by
  by_contra hne
  have h1 := format_apart (fit_isFormat q) hx hne
  have h2 := fit_nearest q x hx
  have h3 : |fit q - x| ≤ |fit q - q| + |q - x| := abs_sub_le _ _ _
  rw [abs_sub_comm x q] at h2
  have h4 : |q| ≤ |q - x| + |x| := by
    have := abs_add_le (q - x) x
    simpa using this
  have h5 : 0 ≤ |x| := abs_nonneg x
  have h6 : 0 ≤ |q - x| := abs_nonneg _
  have h7 : 0 ≤ |q| := abs_nonneg _
  have h8 : |x| ≠ 0 := by
    intro h0
    have hx0 : x = 0 := abs_eq_zero.1 h0
    rw [hx0, sub_zero] at h
    have : |q| = 0 := by norm_num at h; linarith
    have : q = 0 := abs_eq_zero.1 this
    rw [this, fit_zero] at hne
    exact hne hx0.symm
  have h9 : 0 < |x| := lt_of_le_of_ne h5 (Ne.symm h8)
  norm_num at h h1
  linarith

/-! ### Digits -/

theorem isDigit_digitChar {d : Nat} (h : d < 10) : (digitChar d).isDigit = true ∧ (digitChar d).toNat - 48 = d := by
  interval_cases d <;> decide

theorem digitsVal_append (l : List Char) (c : Char) : digitsVal (l ++ [c]) = 10 * digitsVal l + (c.toNat - 48) := by
  simp [digitsVal]

theorem digitsVal_text (n : Nat) : digitsVal (digitText n) = n := by
  unfold digitText
  split
  · rename_i h; rw [h]; decide
  · have key : ∀ l : List Nat, (∀ d ∈ l, d < 10) → digitsVal (l.reverse.map digitChar) = Nat.ofDigits 10 l := by
      intro l
      induction l with
      | nil => intro _; rfl
      | cons d l ih =>
        intro h
        rw [List.reverse_cons, List.map_append, List.map_cons, List.map_nil, digitsVal_append, ih fun d hd => h d (by simp [hd]),
          (isDigit_digitChar (h d (by simp))).2, Nat.ofDigits_cons]
        omega
    rw [key _ fun d hd => Nat.digits_lt_base (by decide) hd, Nat.ofDigits_digits]

theorem digitText_digits (n : Nat) : ∀ c ∈ digitText n, c.isDigit = true := by
  unfold digitText
  split
  · decide
  · intro c hc
    obtain ⟨d, hd, rfl⟩ := List.mem_map.1 hc
    exact (isDigit_digitChar (Nat.digits_lt_base (by decide) (List.mem_reverse.1 hd))).1

theorem digitText_ne (n : Nat) : digitText n ≠ [] := by
  unfold digitText
  split
  · simp
  · rename_i h
    simpa using Nat.digits_ne_nil_iff_ne_zero.2 h

theorem takeWhile_digits {x r : List Char} (hx : ∀ c ∈ x, c.isDigit = true) (hr : ∀ c ∈ r.head?, c.isDigit = false) :
    (x ++ r).takeWhile Char.isDigit = x ∧ (x ++ r).dropWhile Char.isDigit = r := by
  have h1 : r.takeWhile Char.isDigit = [] := by
    cases r with
    | nil => rfl
    | cons c r => simp [hr c (by simp)]
  have h2 : r.dropWhile Char.isDigit = r := by
    cases r with
    | nil => rfl
    | cons c r => simp [hr c (by simp)]
  rw [List.takeWhile_append_of_pos hx, List.dropWhile_append_of_pos hx, h1, h2, List.append_nil]
  exact ⟨rfl, rfl⟩

theorem signOf_text {sg : List Char} {b : Bool} (h : SignIs sg b) {r : List Char} (hr : ∀ c ∈ r.head?, c ≠ '+' ∧ c ≠ '-') : signOf (sg ++ r) = (b, r) := by
  cases h with
  | none =>
    cases r with
    | nil => rfl
    | cons c r =>
      have := hr c (by simp)
      rw [List.nil_append]
      unfold signOf
      split
      · rename_i h; exact absurd (List.cons.inj h).1 this.2
      · rename_i h; exact absurd (List.cons.inj h).1 this.1
      · rfl
  | plus => rfl
  | minus => rfl

theorem digit_head {x r : List Char} (hx : ∀ c ∈ x, c.isDigit = true) (hne : x ≠ []) : ∀ c ∈ (x ++ r).head?, c ≠ '+' ∧ c ≠ '-' := by
  cases x with
  | nil => exact absurd rfl hne
  | cons a x =>
    intro c hc
    have : a = c := by simpa using hc
    subst this
    have := hx a (by simp)
    constructor <;> rintro rfl <;> exact absurd this (by decide)

end Fdapde.IO
