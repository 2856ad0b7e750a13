import Mathlib.Analysis.SpecialFunctions.Log.Base
import Mathlib.Data.Int.Log
import Mathlib.Tactic.Linarith
import Mathlib.Tactic.Positivity
import Mathlib.Tactic.Ring
import Mathlib.Tactic.FieldSimp
/-
Rounded arithmetic.  The code computes with `double`; here an operation on doubles is the exact operation followed by a
rounding.  `Rounding` collects what the analyses use; `binary64` is rounding to nearest, ties to even, with 53 bits, and
an exponent without bounds: overflow and underflow are left out.
-/
namespace Fdapde.Fp

/-- A rounding of relative error at most `u` which preserves the order and commutes with the change of sign. -/
structure Rounding where
  rnd : ℝ → ℝ
  u : ℝ
  u_pos : 0 ≤ u
  u_lt : u < 1
  err : ∀ x, |rnd x - x| ≤ u * |x|
  mono : Monotone rnd
  odd : ∀ x, rnd (-x) = -rnd x

/-- The four operations of the processor. -/
structure Ops (K : Type) where
  add : K → K → K
  sub : K → K → K
  mul : K → K → K
  div : K → K → K

/-- Exact operations. -/
def Ops.exact (K : Type) [Field K] : Ops K := ⟨(· + ·), (· - ·), (· * ·), (· / ·)⟩

/-- Every operation is the exact one, rounded once: no contraction of a product and a sum into one operation. -/
noncomputable def Rounding.ops (r : Rounding) : Ops ℝ :=
  ⟨fun a b => r.rnd (a + b), fun a b => r.rnd (a - b), fun a b => r.rnd (a * b), fun a b => r.rnd (a / b)⟩

/-- The exact arithmetic is a rounding. -/
noncomputable def Rounding.none : Rounding := ⟨id, 0, le_rfl, one_pos, fun x => by simp, monotone_id, fun _ => rfl⟩

/-! ## binary64 -/

/-- Integer nearest to `y`, the even one in case of a tie. -/
noncomputable def nearest (y : ℝ) : ℤ :=
  if y - ⌊y⌋ < 1 / 2 then ⌊y⌋ else if 1 / 2 < y - ⌊y⌋ then ⌊y⌋ + 1 else if Even ⌊y⌋ then ⌊y⌋ else ⌊y⌋ + 1

/-- Distance of the doubles around `x`: the mantissa has 53 bits. -/
noncomputable def ulp (x : ℝ) : ℝ := (2 : ℝ) ^ (Int.log 2 |x| - 52)

/-- Rounding of a number which is not negative. -/
noncomputable def rndPos (x : ℝ) : ℝ := nearest (x / ulp x) * ulp x

/-- Rounding to nearest even. -/
noncomputable def rnd64 (x : ℝ) : ℝ := if 0 ≤ x then rndPos x else -rndPos (-x)

/-- Numbers of the format. -/
def IsDouble (x : ℝ) : Prop := ∃ m e : ℤ, |m| < 2 ^ 53 ∧ x = m * (2 : ℝ) ^ e

theorem nearest_err (y : ℝ) : |(nearest y : ℝ) - y| ≤ 1 / 2 := by
  have h0 := Int.floor_le y
  have h1 := Int.lt_floor_add_one y
  rw [abs_le]
  unfold nearest
  split_ifs <;> push_cast <;> constructor <;> linarith

theorem nearest_int (n : ℤ) : nearest (n : ℝ) = n := by
  unfold nearest
  rw [Int.floor_intCast, if_pos (by norm_num)]

theorem nearest_mono : Monotone nearest := by
  intro x y h
  have hf := Int.floor_mono h
  by_cases e : ⌊x⌋ = ⌊y⌋
  · unfold nearest
    rw [e]
    split_ifs <;> first | omega | (exfalso; linarith)
  · have h1 : nearest x ≤ ⌊x⌋ + 1 := by unfold nearest; split_ifs <;> omega
    have h2 : ⌊y⌋ ≤ nearest y := by unfold nearest; split_ifs <;> omega
    omega

theorem ulp_pos (x : ℝ) : 0 < ulp x := by unfold ulp; positivity

theorem ulp_le {x : ℝ} (h : 0 < x) : (2 : ℝ) ^ (52 : ℤ) ≤ x / ulp x := by
  rw [le_div_iff₀ (ulp_pos x)]
  unfold ulp
  rw [← zpow_add₀ (by norm_num), abs_of_pos h]
  have := Int.zpow_log_le_self (R := ℝ) (b := 2) (by norm_num) h
  simpa using this

theorem lt_ulp {x : ℝ} (h : 0 < x) : x / ulp x < (2 : ℝ) ^ (53 : ℤ) := by
  rw [div_lt_iff₀ (ulp_pos x)]
  unfold ulp
  rw [← zpow_add₀ (by norm_num), abs_of_pos h]
  have := Int.lt_zpow_succ_log_self (R := ℝ) (b := 2) (by norm_num) x
  have e : (53 : ℤ) + (Int.log 2 x - 52) = Int.log 2 x + 1 := by ring
  rw [e]
  simpa using this

theorem rndPos_zero : rndPos 0 = 0 := by
  have h := nearest_int 0
  simp only [Int.cast_zero] at h
  simp [rndPos, h]

theorem rndPos_err {x : ℝ} (h : 0 ≤ x) : |rndPos x - x| ≤ 2⁻¹ ^ 53 * x := by
  rcases h.eq_or_lt with rfl | h
  · simp [rndPos_zero]
  have hu := ulp_pos x
  have e : rndPos x - x = (nearest (x / ulp x) - x / ulp x) * ulp x := by
    unfold rndPos; field_simp
  rw [e, abs_mul, abs_of_pos hu]
  have h1 := mul_le_mul_of_nonneg_right (nearest_err (x / ulp x)) hu.le
  have h2 := ulp_le h
  rw [le_div_iff₀ hu] at h2
  refine h1.trans ?_
  have e2 : (2⁻¹ : ℝ) ^ 53 = (1 / 2) / (2 : ℝ) ^ (52 : ℤ) := by norm_num
  rw [e2]
  calc 1 / 2 * ulp x = 1 / 2 / (2 : ℝ) ^ (52 : ℤ) * ((2 : ℝ) ^ (52 : ℤ) * ulp x) := by field_simp
    _ ≤ _ := mul_le_mul_of_nonneg_left h2 (by positivity)

theorem rndPos_nonneg {x : ℝ} (h : 0 ≤ x) : 0 ≤ rndPos x := by
  have := rndPos_err h
  rw [abs_le] at this
  have e2 : (2⁻¹ : ℝ) ^ 53 ≤ 1 := by norm_num
  nlinarith [this.1]

theorem rndPos_mono {x y : ℝ} (hx : 0 ≤ x) (h : x ≤ y) : rndPos x ≤ rndPos y := by
  rcases hx.eq_or_lt with rfl | hx
  · rw [rndPos_zero]; exact rndPos_nonneg h
  have hy := hx.trans_le h
  by_cases e : Int.log 2 |x| = Int.log 2 |y|
  · have eu : ulp x = ulp y := by unfold ulp; rw [e]
    unfold rndPos
    rw [eu]
    have := nearest_mono (div_le_div_of_nonneg_right h (ulp_pos y).le)
    exact mul_le_mul_of_nonneg_right (by exact_mod_cast this) (ulp_pos y).le
  · have hl : Int.log 2 |x| ≤ Int.log 2 |y| := by
      rw [abs_of_pos hx, abs_of_pos hy]
      exact Int.log_mono_right hx h
    have hl : Int.log 2 |x| + 1 ≤ Int.log 2 |y| := by omega
    have h1 : rndPos x ≤ (2 : ℝ) ^ (53 : ℤ) * ulp x := by
      unfold rndPos
      refine mul_le_mul_of_nonneg_right ?_ (ulp_pos x).le
      have := nearest_mono (lt_ulp hx).le
      have e := nearest_int (2 ^ 53)
      have e2 : ((2 ^ 53 : ℤ) : ℝ) = (2 : ℝ) ^ (53 : ℤ) := by norm_num
      rw [e2] at e
      rw [e] at this
      rw [← e2]
      exact_mod_cast this
    have h2 : (2 : ℝ) ^ (52 : ℤ) * ulp y ≤ rndPos y := by
      unfold rndPos
      refine mul_le_mul_of_nonneg_right ?_ (ulp_pos y).le
      have := nearest_mono (ulp_le hy)
      have e := nearest_int (2 ^ 52)
      have e2 : ((2 ^ 52 : ℤ) : ℝ) = (2 : ℝ) ^ (52 : ℤ) := by norm_num
      rw [e2] at e
      rw [e] at this
      rw [← e2]
      exact_mod_cast this
    refine h1.trans (le_trans ?_ h2)
    unfold ulp
    rw [← zpow_add₀ (by norm_num), ← zpow_add₀ (by norm_num)]
    exact zpow_le_zpow_right₀ (by norm_num) (by omega)

theorem rnd64_err (x : ℝ) : |rnd64 x - x| ≤ 2⁻¹ ^ 53 * |x| := by
  unfold rnd64
  split_ifs with h
  · rw [abs_of_nonneg h]; exact rndPos_err h
  · push Not at h
    have := rndPos_err (x := -x) (by linarith)
    rw [abs_of_neg h, ← abs_neg]
    have e : -(-rndPos (-x) - x) = rndPos (-x) - -x := by ring
    rw [e]; exact this

theorem rnd64_mono : Monotone rnd64 := by
  intro x y h
  unfold rnd64
  split_ifs with h1 h2 h2
  · exact rndPos_mono h1 h
  · exact absurd (h1.trans h) h2
  · have := rndPos_nonneg (x := -x) (by linarith)
    have := rndPos_nonneg h2
    linarith
  · push Not at h1 h2
    have := rndPos_mono (x := -y) (y := -x) (by linarith) (by linarith)
    linarith

theorem rnd64_neg (x : ℝ) : rnd64 (-x) = -rnd64 x := by
  unfold rnd64
  rcases lt_trichotomy x 0 with h | rfl | h
  · rw [if_pos (by linarith), if_neg (by linarith), neg_neg]
  · simp [rndPos_zero]
  · rw [if_neg (by linarith), if_pos h.le, neg_neg]

/-- Rounding of the processor. -/
noncomputable def binary64 : Rounding where
  rnd := rnd64
  u := 2⁻¹ ^ 53
  u_pos := by positivity
  u_lt := by norm_num
  err := rnd64_err
  mono := rnd64_mono
  odd := rnd64_neg

theorem rndPos_double {x : ℝ} (h : 0 < x) (hd : IsDouble x) : rndPos x = x := by
  obtain ⟨m, e, hm, hx⟩ := hd
  have hl : Int.log 2 |x| < e + 53 := by
    rw [abs_of_pos h, ← Int.lt_zpow_iff_log_lt (by norm_num) h, hx]
    have hm' : (m : ℝ) < 2 ^ 53 := by
      have := (abs_lt.1 hm).2
      exact_mod_cast this
    push_cast
    rw [zpow_add₀ (by norm_num), mul_comm ((2 : ℝ) ^ e)]
    refine mul_lt_mul_of_pos_right ?_ (by positivity)
    exact_mod_cast hm'
  obtain ⟨k, hk⟩ := Int.eq_ofNat_of_zero_le (a := e - (Int.log 2 |x| - 52)) (by omega)
  have h1 : x / ulp x = ((m * 2 ^ k : ℤ) : ℝ) := by
    rw [div_eq_iff (ulp_pos x).ne']
    unfold ulp
    push_cast
    rw [mul_assoc, ← zpow_natCast (2 : ℝ) k, ← zpow_add₀ (by norm_num)]
    conv_lhs => rw [hx]
    congr 2
    omega
  unfold rndPos
  rw [h1, nearest_int, ← h1]
  field_simp [(ulp_pos x).ne']

/-- Numbers of the format are not changed. -/
theorem rnd64_double {x : ℝ} (hd : IsDouble x) : rnd64 x = x := by
  rcases lt_trichotomy x 0 with h | rfl | h
  · have hd' : IsDouble (-x) := by
      obtain ⟨m, e, hm, hx⟩ := hd
      exact ⟨-m, e, by rwa [abs_neg], by rw [hx]; push_cast; ring⟩
    unfold rnd64
    rw [if_neg (by linarith), rndPos_double (by linarith) hd', neg_neg]
  · simp [rnd64, rndPos_zero]
  · unfold rnd64
    rw [if_pos h.le, rndPos_double h hd]

/-- The result of an operation is a number of the format. -/
theorem rnd64_isDouble (x : ℝ) : IsDouble (rnd64 x) := by
  have key : ∀ y : ℝ, 0 ≤ y → IsDouble (rndPos y) := by
    intro y hy
    rcases hy.eq_or_lt with rfl | hy
    · exact ⟨0, 0, by norm_num, by simp [rndPos_zero]⟩
    have h1 := nearest_mono (lt_ulp hy).le
    have h0 := nearest_mono (ulp_le hy)
    have e := nearest_int (2 ^ 53)
    have e' := nearest_int (2 ^ 52)
    have e2 : ((2 ^ 53 : ℤ) : ℝ) = (2 : ℝ) ^ (53 : ℤ) := by norm_num
    have e3 : ((2 ^ 52 : ℤ) : ℝ) = (2 : ℝ) ^ (52 : ℤ) := by norm_num
    rw [e2] at e
    rw [e3] at e'
    rw [e] at h1
    rw [e'] at h0
    rcases h1.lt_or_eq with h | h
    · refine ⟨nearest (y / ulp y), Int.log 2 |y| - 52, ?_, rfl⟩
      rw [abs_of_nonneg (le_trans (by norm_num) h0)]
      exact h
    · refine ⟨1, 53 + (Int.log 2 |y| - 52), by norm_num, ?_⟩
      unfold rndPos
      rw [h, zpow_add₀ (by norm_num), e2]
      unfold ulp
      push_cast
      ring
  unfold rnd64
  split_ifs with h
  · exact key x h
  · obtain ⟨m, e, hm, hx⟩ := key (-x) (by push Not at h; linarith)
    exact ⟨-m, e, by rwa [abs_neg], by rw [hx]; push_cast; ring⟩

theorem nearest_le (y : ℝ) (k : ℤ) : |(nearest y : ℝ) - y| ≤ |(k : ℝ) - y| := by
  have h0 := Int.floor_le y
  have h1 := Int.lt_floor_add_one y
  have h2 := nearest_err y
  rcases le_or_gt k ⌊y⌋ with h | h
  · have h' : (k : ℝ) ≤ ⌊y⌋ := by exact_mod_cast h
    rw [abs_of_nonpos (by linarith : (k : ℝ) - y ≤ 0)]
    unfold nearest at *
    split_ifs at * with a b c <;> push_cast at * <;> rw [abs_le] at * <;> constructor <;> linarith
  · have h' : (⌊y⌋ : ℝ) + 1 ≤ k := by exact_mod_cast h
    rw [abs_of_nonneg (by linarith : 0 ≤ (k : ℝ) - y)]
    unfold nearest at *
    split_ifs at * with a b c <;> push_cast at * <;> rw [abs_le] at * <;> constructor <;> linarith

/-- No number of the format is nearer. -/
theorem rnd64_nearest (x y : ℝ) (hy : IsDouble y) : |rnd64 x - x| ≤ |y - x| := by
  have key : ∀ x y : ℝ, 0 ≤ x → IsDouble y → |rndPos x - x| ≤ |y - x| := by
    intro x y hx hy
    rcases hx.eq_or_lt with rfl | hx
    · rw [rndPos_zero]; simp
    have hu := ulp_pos x
    have e : ∀ k : ℤ, k * ulp x - x = (k - x / ulp x) * ulp x := by intro k; field_simp
    have hk : ∀ k : ℤ, |rndPos x - x| ≤ |k * ulp x - x| := by
      intro k
      unfold rndPos
      rw [e, e, abs_mul, abs_mul]
      exact mul_le_mul_of_nonneg_right (nearest_le _ k) (abs_nonneg _)
    obtain ⟨m, ex, hm, rfl⟩ := hy
    rcases le_or_gt (Int.log 2 |x| - 52) ex with h | h
    · obtain ⟨n, hn⟩ := Int.eq_ofNat_of_zero_le (a := ex - (Int.log 2 |x| - 52)) (by omega)
      have e2 : (m : ℝ) * (2 : ℝ) ^ ex = ((m * 2 ^ n : ℤ) : ℝ) * ulp x := by
        unfold ulp
        push_cast
        rw [mul_assoc, ← zpow_natCast (2 : ℝ) n, ← zpow_add₀ (by norm_num)]
        congr 2
        omega
      rw [e2]
      exact hk _
    · have h1 := ulp_le hx
      rw [le_div_iff₀ hu] at h1
      have e3 : ((2 ^ 52 : ℤ) : ℝ) = (2 : ℝ) ^ (52 : ℤ) := by norm_num
      have h2 := hk (2 ^ 52)
      rw [e3, abs_sub_comm (_ * _) x, abs_of_nonneg (a := x - (2 : ℝ) ^ (52 : ℤ) * ulp x) (by linarith)] at h2
      have hm' : |(m : ℝ)| ≤ 2 ^ 53 := by exact_mod_cast hm.le
      have h3 : (m : ℝ) * (2 : ℝ) ^ ex ≤ (2 : ℝ) ^ (52 : ℤ) * ulp x := by
        unfold ulp
        calc (m : ℝ) * (2 : ℝ) ^ ex ≤ 2 ^ 53 * (2 : ℝ) ^ ex :=
              mul_le_mul_of_nonneg_right ((le_abs_self _).trans hm') (by positivity)
          _ = (2 : ℝ) ^ ((53 : ℤ) + ex) := by rw [zpow_add₀ (by norm_num)]; norm_num
          _ ≤ (2 : ℝ) ^ ((52 : ℤ) + (Int.log 2 |x| - 52)) := zpow_le_zpow_right₀ (by norm_num) (by omega)
          _ = _ := by rw [zpow_add₀ (by norm_num)]
      rw [abs_sub_comm (_ * _) x]
      exact h2.trans ((by linarith : x - (2 : ℝ) ^ (52 : ℤ) * ulp x ≤ x - m * (2 : ℝ) ^ ex).trans (le_abs_self _))
  unfold rnd64
  split_ifs with h
  · exact key x y h hy
  · push Not at h
    obtain ⟨m, ex, hm, rfl⟩ := hy
    have := key (-x) (-(m * (2 : ℝ) ^ ex)) (by linarith) ⟨-m, ex, by rwa [abs_neg], by push_cast; ring⟩
    have e1 : -rndPos (-x) - x = -(rndPos (-x) - -x) := by ring
    have e2 : -(m * (2 : ℝ) ^ ex) - -x = -(m * (2 : ℝ) ^ ex - x) := by ring
    rw [e2, abs_neg] at this
    rw [e1, abs_neg]
    exact this

end Fdapde.Fp
