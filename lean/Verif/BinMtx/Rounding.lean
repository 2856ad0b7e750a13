import Mathlib.Data.Nat.Log
import Mathlib.Tactic.Linarith
import Mathlib.Tactic.Ring
import Verif.BinMtx.Model
/-
The row offset computed in double precision (binary_matrix.h:331).
-/
namespace Fdapde.BinMtx

theorem roundDiv_near (a b : Nat) (hb : 0 < b) :
    2 * (roundDiv a b * b) ≤ 2 * a + b ∧ 2 * a ≤ 2 * (roundDiv a b * b) + b := by
  have h := Nat.div_add_mod a b
  have hr := Nat.mod_lt a hb
  unfold roundDiv
  dsimp only
  rw [Nat.mul_comm] at h
  split_ifs
  · omega
  · rw [Nat.add_mul]; omega
  · omega
  · rw [Nat.add_mul]; omega

theorem roundDiv_exact (q b : Nat) (hb : 0 < b) : roundDiv (q * b) b = q := by
  unfold roundDiv
  dsimp only
  rw [Nat.mul_div_cancel _ hb, Nat.mul_mod_left]
  rw [if_pos (by omega)]

theorem round53_near (p : Nat) :
    2 ^ 53 * round53 p ≤ 2 ^ 53 * p + p ∧ 2 ^ 53 * p ≤ 2 ^ 53 * round53 p + p := by
  unfold round53
  split_ifs with h
  · omega
  · dsimp only
    have hp : p ≠ 0 := by omega
    have h1 : 2 ^ Nat.log2 p ≤ p := Nat.log2_self_le hp
    have h2 : 53 ≤ Nat.log2 p := (Nat.le_log2 hp).2 (by omega)
    obtain ⟨hu, hl⟩ := roundDiv_near p (2 ^ (Nat.log2 p - 52)) (by positivity)
    generalize hX : roundDiv p (2 ^ (Nat.log2 p - 52)) * 2 ^ (Nat.log2 p - 52) = X at hu hl ⊢
    have e : 2 ^ Nat.log2 p = 2 ^ 52 * 2 ^ (Nat.log2 p - 52) := by
      rw [← pow_add]; congr 1; omega
    generalize hT : 2 ^ (Nat.log2 p - 52) = T at hu hl e
    rw [e] at h1
    omega

theorem round53_exact (q t : Nat) (hq : q < 2 ^ 53) : round53 (q * 2 ^ t) = q * 2 ^ t := by
  unfold round53
  split_ifs with h
  · rfl
  · dsimp only
    have hq0 : q ≠ 0 := by rintro rfl; simp at h
    have hp : q * 2 ^ t ≠ 0 := by positivity
    have h1 : Nat.log2 (q * 2 ^ t) < 53 + t := by
      rw [Nat.log2_lt hp, pow_add]
      exact Nat.mul_lt_mul_of_pos_right hq (by positivity)
    obtain ⟨d, hd⟩ : ∃ d, t = (Nat.log2 (q * 2 ^ t) - 52) + d := ⟨t - (Nat.log2 (q * 2 ^ t) - 52), by omega⟩
    have e : q * 2 ^ t = (q * 2 ^ d) * 2 ^ (Nat.log2 (q * 2 ^ t) - 52) := by
      calc q * 2 ^ t = q * 2 ^ ((Nat.log2 (q * 2 ^ t) - 52) + d) := by rw [← hd]
        _ = _ := by rw [pow_add]; ring
    generalize Nat.log2 (q * 2 ^ t) - 52 = s at e
    rw [e, roundDiv_exact _ _ (by positivity)]

theorem fracBits_bounds (n : Nat) (hn : 0 < n) :
    2 ^ 46 * n ≤ 2 ^ fracBits n ∧ 2 ^ fracBits n < 2 ^ 47 * n := by
  unfold fracBits
  split_ifs with h
  · have : n = 1 := by omega
    subst this; norm_num
  · have hp : n - 1 ≠ 0 := by omega
    have h1 : 2 ^ Nat.log2 (n - 1) ≤ n - 1 := Nat.log2_self_le hp
    have h2 : n - 1 < 2 ^ (Nat.log2 (n - 1) + 1) := Nat.lt_log2_self
    rw [pow_succ] at h2
    have e : 2 ^ (46 + (Nat.log2 (n - 1) + 1)) = 2 ^ 47 * 2 ^ Nat.log2 (n - 1) := by
      rw [← pow_add]; congr 1; omega
    rw [e]
    omega

/-- The computed row offset is the quotient `64 i / n`, or one less when `n` divides `64 i`. -/
theorem rowOff_near (i n : Nat) (hn : 0 < n) (hi : i * 64 < 2 ^ 31) :
    rowOff i n = i * 64 / n ∨ ((i * 64) % n = 0 ∧ rowOff i n + 1 = i * 64 / n) := by
  obtain ⟨hs, -⟩ := fracBits_bounds n hn
  unfold rowOff
  generalize hS : 2 ^ fracBits n = S at hs ⊢
  have hS0 : 0 < S := by omega
  obtain ⟨hMu, hMl⟩ := roundDiv_near (64 * S) n hn
  generalize roundDiv (64 * S) n = M at hMu hMl ⊢
  obtain ⟨hPu, hPl⟩ := round53_near (i * M)
  generalize round53 (i * M) = P at hPu hPl ⊢
  have hdm := Nat.div_add_mod (i * 64) n
  have hr := Nat.mod_lt (i * 64) hn
  generalize i * 64 / n = q at hdm ⊢
  generalize (i * 64) % n = r at hdm hr ⊢
  have hi' : i ≤ 2 ^ 25 := by omega
  -- everything multiplied by `n`
  have hA : 2 * (i * M * n) ≤ 128 * (i * S) + i * n := by nlinarith [Nat.mul_le_mul_left i hMu]
  have hB : 128 * (i * S) ≤ 2 * (i * M * n) + i * n := by nlinarith [Nat.mul_le_mul_left i hMl]
  have hin : i * n ≤ 2 ^ 25 * n := Nat.mul_le_mul_right n hi'
  have hiS : i * S ≤ 2 ^ 25 * S := Nat.mul_le_mul_right S hi'
  have hdS : 64 * (i * S) = n * q * S + r * S := by
    have := congrArg (· * S) hdm
    simp only [Nat.add_mul] at this
    linarith only [this]
  have hPu' : 2 ^ 53 * (P * n) ≤ 2 ^ 53 * (i * M * n) + i * M * n := by
    have := Nat.mul_le_mul_right n hPu
    linarith only [this]
  have hPl' : 2 ^ 53 * (i * M * n) ≤ 2 ^ 53 * (P * n) + i * M * n := by
    have := Nat.mul_le_mul_right n hPl
    linarith only [this]
  have hup : P * n < (q + 1) * S * n := by
    have h1 : (r + 1) * S ≤ n * S := Nat.mul_le_mul_right S hr
    have h2 : (q + 1) * S * n = n * q * S + n * S := by ring
    rw [h2]
    rw [Nat.add_mul, one_mul] at h1
    generalize i * M * n = X at *
    generalize P * n = Y at *
    generalize n * q * S = Z at *
    generalize n * S = V at *
    generalize r * S = W at *
    generalize i * n = U at *
    generalize i * S = T at *
    omega
  have hupP : P < (q + 1) * S := Nat.lt_of_mul_lt_mul_right hup
  by_cases hr0 : r = 0
  · subst hr0
    by_cases hq : q * S ≤ P
    · left
      exact Nat.div_eq_of_lt_le (by linarith only [hq]) hupP
    · right
      refine ⟨rfl, ?_⟩
      push Not at hq
      have hq1 : 1 ≤ q := by
        rcases Nat.eq_zero_or_pos q with h | h
        · subst h; simp at hq
        · exact h
      obtain ⟨q', rfl⟩ : ∃ q', q = q' + 1 := ⟨q - 1, by omega⟩
      congr 1
      refine Nat.div_eq_of_lt_le ?_ hq
      have hlow : q' * S * n ≤ P * n := by
        have h2 : n * (q' + 1) * S = q' * S * n + n * S := by ring
        have h3 : S ≤ n * S := Nat.le_mul_of_pos_left S hn
        rw [h2] at hdS
        generalize i * M * n = X at *
        generalize P * n = Y at *
        generalize q' * S * n = Z at *
        generalize n * S = V at *
        generalize i * n = U at *
        generalize i * S = T at *
        omega
      have := Nat.le_of_mul_le_mul_right hlow hn
      linarith only [this]
  · left
    refine Nat.div_eq_of_lt_le ?_ hupP
    have hlow : q * S * n ≤ P * n := by
      have h2 : n * q * S = q * S * n := by ring
      have h3 : S ≤ r * S := Nat.le_mul_of_pos_left S (by omega)
      rw [h2] at hdS
      generalize i * M * n = X at *
      generalize P * n = Y at *
      generalize q * S * n = Z at *
      generalize r * S = V at *
      generalize i * n = U at *
      generalize i * S = T at *
      omega
    have := Nat.le_of_mul_le_mul_right hlow hn
    linarith only [this]

/-- The computed row offset is right when the pack starts inside a row. -/
theorem rowOff_inside (i n : Nat) (hn : 0 < n) (hi : i * 64 < 2 ^ 31) (h : (i * 64) % n ≠ 0) :
    rowOff i n = i * 64 / n := by
  rcases rowOff_near i n hn hi with h1 | h1
  · exact h1
  · exact absurd h1.1 h

/-- The computed row offset is right when the width is a power of two. -/
theorem rowOff_pow (i p : Nat) (hi : i < 2 ^ 53) : rowOff i (2 ^ p) = i * 64 / 2 ^ p := by
  have hf : fracBits (2 ^ p) = 46 + p := by
    obtain ⟨h1, h2⟩ := fracBits_bounds (2 ^ p) (by positivity)
    rw [← pow_add] at h1 h2
    have a := (Nat.pow_le_pow_iff_right (by norm_num : 1 < 2)).1 h1
    have b := (Nat.pow_lt_pow_iff_right (by norm_num : 1 < 2)).1 h2
    omega
  unfold rowOff
  rw [hf]
  have e1 : 64 * 2 ^ (46 + p) = 2 ^ 52 * 2 ^ p := by
    rw [pow_add]; ring
  rw [e1, roundDiv_exact _ _ (by positivity), round53_exact _ _ hi]
  have e2 : i * 2 ^ 52 = (i * 64) * 2 ^ 46 := by ring
  rw [e2, pow_add, Nat.mul_comm (2 ^ 46) (2 ^ p), Nat.mul_div_mul_right _ _ (by positivity)]

end Fdapde.BinMtx
