import Verif.Float.Round
/-
Doubles with underflow and overflow: the numbers of the format have 53 bits and are multiples of 2^-1074, what does not fit below 2^1024 becomes infinite,
and operations without a result give NaN.  The two zeros are not told apart: they differ in the sign of a division by zero only, and the code that uses this
file does not divide.
-/
namespace Fdapde.Fp
open Classical

/-- Distance of the doubles around `x`: 53 bits, and never less than the smallest number of the format. -/
noncomputable def gap (x : ℝ) : ℝ := (2 : ℝ) ^ max (Int.log 2 |x| - 52) (-1074)

/-- Rounding to nearest even of a number which is not negative, with gradual underflow. -/
noncomputable def fitPos (x : ℝ) : ℝ := nearest (x / gap x) * gap x

/-- Rounding to nearest even with gradual underflow, before overflow is looked at. -/
noncomputable def fit (x : ℝ) : ℝ := if 0 ≤ x then fitPos x else -fitPos (-x)

/-- A `double`. -/
inductive Dbl where
  | fin (r : ℝ)
  | inf (neg : Bool)
  | nan

namespace Dbl

/-- A real number as a double: rounded, infinite when it is out of the range. -/
noncomputable def round (x : ℝ) : Dbl := if |fit x| < 2 ^ 1024 then fin (fit x) else inf (decide (x < 0))

/-- Change of sign. -/
noncomputable def neg : Dbl → Dbl
  | fin a => fin (-a)
  | inf s => inf (!s)
  | nan => nan

/-- Sum. -/
noncomputable def add : Dbl → Dbl → Dbl
  | fin a, fin b => round (a + b)
  | fin _, inf t => inf t
  | inf s, fin _ => inf s
  | inf s, inf t => if s = t then inf s else nan
  | _, _ => nan

/-- Difference. -/
noncomputable def sub (a b : Dbl) : Dbl := add a (neg b)

/-- Product. -/
noncomputable def mul : Dbl → Dbl → Dbl
  | fin a, fin b => round (a * b)
  | fin a, inf t => if a = 0 then nan else inf (xor (decide (a < 0)) t)
  | inf s, fin b => if b = 0 then nan else inf (xor s (decide (b < 0)))
  | inf s, inf t => inf (xor s t)
  | _, _ => nan

/-- `a < b`: false as soon as one of the two is NaN. -/
def Lt : Dbl → Dbl → Prop
  | fin a, fin b => a < b
  | fin _, inf t => t = false
  | inf s, fin _ => s = true
  | inf s, inf t => s = true ∧ t = false
  | _, _ => False

/-- `a <= b`: false as soon as one of the two is NaN. -/
def Le : Dbl → Dbl → Prop
  | fin a, fin b => a ≤ b
  | fin _, inf t => t = false
  | inf s, fin _ => s = true
  | inf s, inf t => s = true ∨ t = false
  | _, _ => False

/-- `std::isinf`. -/
def isInf : Dbl → Bool
  | inf _ => true
  | _ => false

/-- Neither infinite nor NaN. -/
def Finite : Dbl → Prop
  | fin _ => True
  | _ => False

end Dbl

/-- Numbers of the format. -/
def Format (x : ℝ) : Prop := ∃ m e : ℤ, |m| < 2 ^ 53 ∧ -1074 ≤ e ∧ x = m * (2 : ℝ) ^ e

/-- What a variable of type `double` can hold. -/
def Dbl.Ok : Dbl → Prop
  | .fin r => Format r ∧ |r| < 2 ^ 1024
  | _ => True

/-! ## Rounding -/

theorem gap_pos (x : ℝ) : 0 < gap x := by unfold gap; positivity

theorem fitPos_zero : fitPos 0 = 0 := by
  have h := nearest_int 0
  simp only [Int.cast_zero] at h
  simp [fitPos, h]

theorem fit_zero : fit 0 = 0 := by simp [fit, fitPos_zero]

theorem fit_neg (x : ℝ) : fit (-x) = -fit x := by
  unfold fit
  rcases lt_trichotomy x 0 with h | rfl | h
  · rw [if_pos (by linarith), if_neg (by linarith), neg_neg]
  · simp [fitPos_zero]
  · rw [if_neg (by linarith), if_pos h.le, neg_neg]

theorem fit_pos {x : ℝ} (h : 0 ≤ x) : fit x = fitPos x := by rw [fit, if_pos h]

theorem zpow_int {j e : ℤ} (h : e ≤ j) : ∃ n : ℤ, (2 : ℝ) ^ j / (2 : ℝ) ^ e = (n : ℝ) := by
  obtain ⟨k, hk⟩ := Int.eq_ofNat_of_zero_le (a := j - e) (by omega)
  refine ⟨2 ^ k, ?_⟩
  rw [← zpow_sub₀ (by norm_num), hk]
  push_cast
  exact zpow_natCast _ _

theorem fitPos_le_pow {x : ℝ} {j : ℤ} (h0 : 0 ≤ x) (hj : -1074 ≤ j) (h : x ≤ (2 : ℝ) ^ j) : fitPos x ≤ (2 : ℝ) ^ j := by
  rcases h0.eq_or_lt with rfl | h0
  · rw [fitPos_zero]; positivity
  have hl : Int.log 2 |x| ≤ j := by
    rw [abs_of_pos h0]
    have := Int.log_mono_right (b := 2) h0 h
    rwa [show (2 : ℝ) = ((2 : ℕ) : ℝ) by norm_num, Int.log_zpow (by norm_num)] at this
  obtain ⟨n, hn⟩ := zpow_int (j := j) (e := max (Int.log 2 |x| - 52) (-1074)) (by omega)
  have h1 : x / gap x ≤ n := by rw [← hn]; exact div_le_div_of_nonneg_right h (gap_pos x).le
  have h2 := nearest_mono h1
  rw [nearest_int] at h2
  unfold fitPos
  have h3 : (nearest (x / gap x) : ℝ) ≤ n := by exact_mod_cast h2
  calc _ ≤ (n : ℝ) * gap x := mul_le_mul_of_nonneg_right h3 (gap_pos x).le
    _ = _ := by rw [← hn]; unfold gap; field_simp

theorem pow_le_fitPos {x : ℝ} {j : ℤ} (hj : -1074 ≤ j) (h : (2 : ℝ) ^ j ≤ x) : (2 : ℝ) ^ j ≤ fitPos x := by
  have h0 : 0 < x := lt_of_lt_of_le (by positivity) h
  have hl : j ≤ Int.log 2 |x| := by
    rw [abs_of_pos h0]
    have := Int.log_mono_right (b := 2) (by positivity) h
    rwa [show (2 : ℝ) = ((2 : ℕ) : ℝ) by norm_num, Int.log_zpow (by norm_num)] at this
  have h4 : (2 : ℝ) ^ Int.log 2 |x| ≤ x := by
    have := Int.zpow_log_le_self (R := ℝ) (b := 2) (by norm_num) h0
    rw [abs_of_pos h0]
    simpa using this
  obtain ⟨n, hn⟩ := zpow_int (j := Int.log 2 |x|) (e := max (Int.log 2 |x| - 52) (-1074)) (by omega)
  have h1 : (n : ℝ) ≤ x / gap x := by rw [← hn]; exact div_le_div_of_nonneg_right h4 (gap_pos x).le
  have h2 := nearest_mono h1
  rw [nearest_int] at h2
  unfold fitPos
  have h3 : (n : ℝ) ≤ nearest (x / gap x) := by exact_mod_cast h2
  refine (zpow_le_zpow_right₀ (by norm_num) hl).trans ?_
  calc (2 : ℝ) ^ Int.log 2 |x| = (n : ℝ) * gap x := by rw [← hn]; unfold gap; field_simp
    _ ≤ _ := mul_le_mul_of_nonneg_right h3 (gap_pos x).le

theorem fitPos_nonneg {x : ℝ} (h : 0 ≤ x) : 0 ≤ fitPos x := by
  unfold fitPos
  have h1 := nearest_mono (div_nonneg h (gap_pos x).le)
  have e := nearest_int 0
  rw [Int.cast_zero] at e
  rw [e] at h1
  exact mul_nonneg (by exact_mod_cast h1) (gap_pos x).le

theorem fitPos_mono {x y : ℝ} (hx : 0 ≤ x) (h : x ≤ y) : fitPos x ≤ fitPos y := by
  rcases hx.eq_or_lt with rfl | hx
  · rw [fitPos_zero]; exact fitPos_nonneg h
  have hy := hx.trans_le h
  have hl : Int.log 2 |x| ≤ Int.log 2 |y| := by
    rw [abs_of_pos hx, abs_of_pos hy]
    exact Int.log_mono_right hx h
  by_cases e : max (Int.log 2 |x| - 52) (-1074) = max (Int.log 2 |y| - 52) (-1074)
  · have eu : gap x = gap y := by unfold gap; rw [e]
    unfold fitPos
    rw [eu]
    have := nearest_mono (div_le_div_of_nonneg_right h (gap_pos y).le)
    exact mul_le_mul_of_nonneg_right (by exact_mod_cast this) (gap_pos y).le
  · have h1 : (2 : ℝ) ^ Int.log 2 |y| ≤ y := by
      have := Int.zpow_log_le_self (R := ℝ) (b := 2) (by norm_num) hy
      rw [abs_of_pos hy]
      simpa using this
    have h2 : x ≤ (2 : ℝ) ^ Int.log 2 |y| := by
      have := (Int.lt_zpow_succ_log_self (R := ℝ) (b := 2) (by norm_num) x).le
      have h3 : (2 : ℝ) ^ (Int.log 2 x + 1) ≤ (2 : ℝ) ^ Int.log 2 |y| := zpow_le_zpow_right₀ (by norm_num) (by rw [abs_of_pos hx] at hl e; omega)
      refine le_trans ?_ h3
      simpa using this
    exact (fitPos_le_pow hx.le (by omega) h2).trans (pow_le_fitPos (by omega) h1)

theorem fit_nonneg {x : ℝ} (h : 0 ≤ x) : 0 ≤ fit x := by rw [fit_pos h]; exact fitPos_nonneg h

theorem fit_mono : Monotone fit := by
  intro x y h
  unfold fit
  split_ifs with h1 h2 h2
  · exact fitPos_mono h1 h
  · exact absurd (h1.trans h) h2
  · have := fitPos_nonneg (x := -x) (by linarith)
    have := fitPos_nonneg h2
    linarith
  · push Not at h1 h2
    have := fitPos_mono (x := -y) (y := -x) (by linarith) (by linarith)
    linarith

theorem Format.neg {x : ℝ} (h : Format x) : Format (-x) := by
  obtain ⟨m, e, hm, he, rfl⟩ := h
  exact ⟨-m, e, by rwa [abs_neg], he, by push_cast; ring⟩

/-- Numbers of the format are not changed. -/
theorem fit_format {x : ℝ} (h : Format x) : fit x = x := by
  have key : ∀ x : ℝ, 0 < x → Format x → fitPos x = x := by
    intro x h0 ⟨m, e, hm, he, hx⟩
    have hl : Int.log 2 |x| < e + 53 := by
      rw [abs_of_pos h0, ← Int.lt_zpow_iff_log_lt (by norm_num) h0, hx]
      have hm' : (m : ℝ) < 2 ^ 53 := by
        have := (abs_lt.1 hm).2
        exact_mod_cast this
      push_cast
      rw [zpow_add₀ (by norm_num), mul_comm ((2 : ℝ) ^ e)]
      refine mul_lt_mul_of_pos_right ?_ (by positivity)
      exact_mod_cast hm'
    obtain ⟨n, hn⟩ := zpow_int (j := e) (e := max (Int.log 2 |x| - 52) (-1074)) (by omega)
    have h1 : x / gap x = ((m * n : ℤ) : ℝ) := by
      push_cast
      rw [← hn, mul_div_assoc', ← hx]
      rfl
    unfold fitPos
    rw [h1, nearest_int, ← h1]
    field_simp [(gap_pos x).ne']
  rcases lt_trichotomy x 0 with h0 | rfl | h0
  · have := key (-x) (by linarith) h.neg
    rw [fit, if_neg (by linarith), this, neg_neg]
  · exact fit_zero
  · rw [fit_pos h0.le, key x h0 h]

/-- A number not greater than half the smallest number of the format is rounded to zero. -/
theorem fit_tiny {x : ℝ} (h : |x| ≤ (2 : ℝ) ^ (-1075 : ℤ)) : fit x = 0 := by
  have key : ∀ x : ℝ, 0 ≤ x → x ≤ (2 : ℝ) ^ (-1075 : ℤ) → fitPos x = 0 := by
    intro x h0 h
    rcases h0.eq_or_lt with rfl | h0
    · exact fitPos_zero
    have hl : Int.log 2 |x| ≤ -1075 := by
      rw [abs_of_pos h0]
      have := Int.log_mono_right (b := 2) h0 h
      rwa [show (2 : ℝ) = ((2 : ℕ) : ℝ) by norm_num, Int.log_zpow (by norm_num)] at this
    have hg : gap x = (2 : ℝ) ^ (-1074 : ℤ) := by unfold gap; congr 1; omega
    have h1 : x / gap x ≤ 1 / 2 := by
      rw [hg, div_le_iff₀ (by positivity)]
      refine h.trans (le_of_eq ?_)
      rw [show (-1074 : ℤ) = -1075 + 1 by norm_num, zpow_add₀ (by norm_num), zpow_one]
      ring
    have h2 : 0 ≤ x / gap x := div_nonneg h0.le (gap_pos x).le
    have hf : ⌊x / gap x⌋ = 0 := Int.floor_eq_zero_iff.2 ⟨h2, by linarith⟩
    have hn : nearest (x / gap x) = 0 := by
      unfold nearest
      rw [hf, Int.cast_zero, sub_zero]
      split_ifs with a b c
      · rfl
      · linarith
      · rfl
      · exact absurd (by decide) c
    unfold fitPos
    rw [hn, Int.cast_zero, zero_mul]
  obtain ⟨h1, h2⟩ := abs_le.1 h
  unfold fit
  split_ifs with h0
  · exact key x h0 h2
  · rw [key (-x) (by linarith) (by linarith), neg_zero]

theorem format_zpow {e : ℤ} (h : -1074 ≤ e) : Format ((2 : ℝ) ^ e) := ⟨1, e, by norm_num, h, by simp⟩

/-- The result of an operation is a number of the format. -/
theorem fit_isFormat (x : ℝ) : Format (fit x) := by
  have key : ∀ y : ℝ, 0 ≤ y → Format (fitPos y) := by
    intro y hy
    rcases hy.eq_or_lt with rfl | hy
    · exact ⟨0, 0, by norm_num, by norm_num, by simp [fitPos_zero]⟩
    have hg := gap_pos y
    have h0 : 0 ≤ nearest (y / gap y) := by
      have h1 := nearest_mono (div_nonneg hy.le hg.le)
      have e := nearest_int 0
      rw [Int.cast_zero] at e
      rwa [e] at h1
    have h1 : y / gap y ≤ ((2 ^ 53 : ℤ) : ℝ) := by
      rw [div_le_iff₀ hg]
      have := (Int.lt_zpow_succ_log_self (R := ℝ) (b := 2) (by norm_num) y).le
      have h2 : y ≤ (2 : ℝ) ^ (Int.log 2 |y| + 1) := by rw [abs_of_pos hy]; simpa using this
      refine h2.trans ?_
      unfold gap
      have e53 : ((2 ^ 53 : ℤ) : ℝ) = (2 : ℝ) ^ (53 : ℤ) := by norm_num
      rw [e53, ← zpow_add₀ (by norm_num)]
      exact zpow_le_zpow_right₀ (by norm_num) (by omega)
    have h2 := nearest_mono h1
    rw [nearest_int] at h2
    rcases h2.lt_or_eq with h | h
    · exact ⟨nearest (y / gap y), max (Int.log 2 |y| - 52) (-1074), by rwa [abs_of_nonneg h0], by omega, rfl⟩
    · refine ⟨1, 53 + max (Int.log 2 |y| - 52) (-1074), by norm_num, by omega, ?_⟩
      unfold fitPos
      rw [h, zpow_add₀ (by norm_num)]
      unfold gap
      push_cast
      rw [one_mul]
      norm_num
  unfold fit
  split_ifs with h
  · exact key x h
  · exact (key (-x) (by push Not at h; linarith)).neg

/-- Error of the rounding. -/
theorem fit_err {x : ℝ} (h : 0 ≤ x) : |fit x - x| ≤ gap x / 2 := by
  have hg := gap_pos x
  have e : fitPos x - x = (nearest (x / gap x) - x / gap x) * gap x := by unfold fitPos; field_simp
  rw [fit_pos h, e, abs_mul, abs_of_pos hg]
  have := mul_le_mul_of_nonneg_right (nearest_err (x / gap x)) hg.le
  linarith

theorem nearest_of_lt {y : ℝ} {n : ℤ} (h : |y - n| < 1 / 2) : nearest y = n := by
  have h1 := nearest_err y
  have h2 : |((nearest y - n : ℤ) : ℝ)| < 1 := by
    push_cast
    calc |(nearest y : ℝ) - n| = |((nearest y : ℝ) - y) + (y - n)| := by ring_nf
      _ ≤ _ := abs_add_le _ _
      _ < 1 := by linarith
  have h3 : |nearest y - n| < 1 := by exact_mod_cast h2
  have := Int.abs_lt_one_iff.1 h3
  omega

/-- A summand less than half the distance of the doubles is lost. -/
theorem fit_absorb {m e : ℤ} {t : ℝ} (he : -1074 ≤ e) (h1 : (2 : ℝ) ^ (e + 52) ≤ m * (2 : ℝ) ^ e + t) (h2 : m * (2 : ℝ) ^ e + t < (2 : ℝ) ^ (e + 53))
    (ht : |t| < (2 : ℝ) ^ (e - 1)) : fit (m * (2 : ℝ) ^ e + t) = m * (2 : ℝ) ^ e := by
  have h0 : 0 < m * (2 : ℝ) ^ e + t := lt_of_lt_of_le (by positivity) h1
  set x := m * (2 : ℝ) ^ e + t with hx
  have l1 : e + 52 ≤ Int.log 2 |x| := by
    rw [abs_of_pos h0, ← Int.zpow_le_iff_le_log (by norm_num) h0]
    exact_mod_cast h1
  have l2 : Int.log 2 |x| < e + 53 := by
    rw [abs_of_pos h0, ← Int.lt_zpow_iff_log_lt (by norm_num) h0]
    exact_mod_cast h2
  have hg : gap x = (2 : ℝ) ^ e := by unfold gap; congr 1; omega
  have hp : (0 : ℝ) < (2 : ℝ) ^ e := by positivity
  have hn : nearest (x / gap x) = m := by
    apply nearest_of_lt
    rw [hg, hx, add_div, mul_div_assoc, div_self hp.ne', mul_one, add_sub_cancel_left, abs_div, abs_of_pos hp, div_lt_iff₀ hp]
    refine ht.trans_le (le_of_eq ?_)
    rw [zpow_sub₀ (by norm_num)]
    ring
  rw [fit_pos h0.le]
  unfold fitPos
  rw [hn, hg]

/-- Multiples of the smallest number of the format. -/
def Grid (x : ℝ) : Prop := ∃ m : ℤ, x = m * (2 : ℝ) ^ (-1074 : ℤ)

theorem Format.grid {x : ℝ} (h : Format x) : Grid x := by
  obtain ⟨m, e, -, he, rfl⟩ := h
  obtain ⟨n, hn⟩ := zpow_int (j := e) (e := -1074) he
  refine ⟨m * n, ?_⟩
  push_cast
  rw [← hn, mul_assoc, div_mul_cancel₀ _ (by positivity)]

theorem Grid.add {x y : ℝ} (hx : Grid x) (hy : Grid y) : Grid (x + y) := by
  obtain ⟨m, rfl⟩ := hx
  obtain ⟨n, rfl⟩ := hy
  exact ⟨m + n, by push_cast; ring⟩

/-- The sign of a sum of doubles is not changed by the rounding. -/
theorem fit_sign {x : ℝ} (hx : Grid x) (h : 0 ≤ fit x) : 0 ≤ x := by
  by_contra hn
  push Not at hn
  obtain ⟨m, rfl⟩ := hx
  have hp : (0 : ℝ) < (2 : ℝ) ^ (-1074 : ℤ) := by positivity
  have hm : (m : ℝ) < 0 := by
    by_contra h'
    push Not at h'
    exact absurd (mul_nonneg h' hp.le) (not_le.2 hn)
  have hm' : m ≤ -1 := by
    have : m < 0 := by exact_mod_cast hm
    omega
  have h1 : (m : ℝ) * (2 : ℝ) ^ (-1074 : ℤ) ≤ -(2 : ℝ) ^ (-1074 : ℤ) := by
    have : (m : ℝ) ≤ -1 := by exact_mod_cast hm'
    nlinarith
  have h2 := fit_mono h1
  rw [fit_format (format_zpow le_rfl).neg] at h2
  linarith

/-- No number of the format is nearer. -/
theorem fit_nearest (x y : ℝ) (hy : Format y) : |fit x - x| ≤ |y - x| := by
  have key : ∀ x y : ℝ, 0 ≤ x → Format y → |fitPos x - x| ≤ |y - x| := by
    intro x y hx hy
    rcases hx.eq_or_lt with rfl | hx
    · rw [fitPos_zero]; simp
    have hu := gap_pos x
    have e : ∀ k : ℤ, k * gap x - x = (k - x / gap x) * gap x := by intro k; field_simp
    have hk : ∀ k : ℤ, |fitPos x - x| ≤ |k * gap x - x| := by
      intro k
      unfold fitPos
      rw [e, e, abs_mul, abs_mul]
      exact mul_le_mul_of_nonneg_right (nearest_le _ k) (abs_nonneg _)
    obtain ⟨m, ex, hm, hex, rfl⟩ := hy
    rcases le_or_gt (max (Int.log 2 |x| - 52) (-1074)) ex with h | h
    · obtain ⟨n, hn⟩ := zpow_int h
      have e2 : (m : ℝ) * (2 : ℝ) ^ ex = ((m * n : ℤ) : ℝ) * gap x := by
        push_cast
        rw [← hn]
        unfold gap
        field_simp
      rw [e2]
      exact hk _
    · have hg : gap x = (2 : ℝ) ^ (Int.log 2 |x| - 52) := by unfold gap; congr 1; omega
      have h1 : (2 : ℝ) ^ (52 : ℤ) * gap x ≤ x := by
        rw [hg, ← zpow_add₀ (by norm_num), abs_of_pos hx]
        have := Int.zpow_log_le_self (R := ℝ) (b := 2) (by norm_num) hx
        simpa using this
      have e3 : ((2 ^ 52 : ℤ) : ℝ) = (2 : ℝ) ^ (52 : ℤ) := by norm_num
      have h2 := hk (2 ^ 52)
      rw [e3, abs_sub_comm (_ * _) x, abs_of_nonneg (a := x - (2 : ℝ) ^ (52 : ℤ) * gap x) (by linarith)] at h2
      have hm' : |(m : ℝ)| ≤ 2 ^ 53 := by exact_mod_cast hm.le
      have h3 : (m : ℝ) * (2 : ℝ) ^ ex ≤ (2 : ℝ) ^ (52 : ℤ) * gap x := by
        rw [hg]
        calc (m : ℝ) * (2 : ℝ) ^ ex ≤ 2 ^ 53 * (2 : ℝ) ^ ex :=
              mul_le_mul_of_nonneg_right ((le_abs_self _).trans hm') (by positivity)
          _ = (2 : ℝ) ^ ((53 : ℤ) + ex) := by rw [zpow_add₀ (by norm_num)]; norm_num
          _ ≤ (2 : ℝ) ^ ((52 : ℤ) + (Int.log 2 |x| - 52)) := zpow_le_zpow_right₀ (by norm_num) (by omega)
          _ = _ := by rw [zpow_add₀ (by norm_num)]
      rw [abs_sub_comm (_ * _) x]
      exact h2.trans ((by linarith : x - (2 : ℝ) ^ (52 : ℤ) * gap x ≤ x - m * (2 : ℝ) ^ ex).trans (le_abs_self _))
  unfold fit
  split_ifs with h
  · exact key x y h hy
  · push Not at h
    have := key (-x) (-y) (by linarith) hy.neg
    have e1 : -fitPos (-x) - x = -(fitPos (-x) - -x) := by ring
    have e2 : -y - -x = -(y - x) := by ring
    rw [e2, abs_neg] at this
    rw [e1, abs_neg]
    exact this

end Fdapde.Fp
