import Verif.Geometry.Clockwise
import Mathlib.Analysis.SpecialFunctions.Trigonometric.Basic
import Mathlib.Analysis.SpecialFunctions.Complex.Arg
import Mathlib.Data.Prod.Lex
import Mathlib.Order.WithBot
import Mathlib.Tactic.Linarith
import Mathlib.Tactic.Ring
import Mathlib.Tactic.NormNum
import Mathlib.Tactic.Positivity
/- C94: clockwise order of points around a centre. -/
namespace Fdapde.Geometry
open Real

/-- Points in polar coordinates, the angle measured clockwise from the upward direction: one comes before another iff its
angle is smaller, or the angle is the same and it is farther from the centre. -/
theorem C94_polar (c : ℝ × ℝ) (r s α β : ℝ) (hr : 0 < r) (hs : 0 < s) (hα : 0 ≤ α ∧ α < 2 * π) (hβ : 0 ≤ β ∧ β < 2 * π) :
    clockwise c (c.1 + r * sin α, c.2 + r * cos α) (c.1 + s * sin β, c.2 + s * cos β) = true ↔
      α < β ∨ (α = β ∧ s < r) := by
  have pp := Real.pi_pos
  have sgn : ∀ {t θ : ℝ}, 0 < t → 0 ≤ θ ∧ θ < 2 * π → (0 ≤ t * sin θ ↔ θ ≤ π) := by
    intro t θ ht hθ
    rw [mul_nonneg_iff_of_pos_left ht]
    constructor
    · intro h
      by_contra hn
      push Not at hn
      have := sin_neg_of_neg_of_neg_pi_lt (x := θ - 2 * π) (by linarith) (by linarith)
      rw [sin_sub_two_pi] at this
      linarith
    · intro h; exact sin_nonneg_of_nonneg_of_le_pi hθ.1 h
  have zer : ∀ {t θ : ℝ}, 0 < t → 0 ≤ θ ∧ θ < 2 * π → (t * sin θ = 0 ↔ θ = 0 ∨ θ = π) := by
    intro t θ ht hθ
    constructor
    · intro h
      have h0 : sin θ = 0 := by
        rcases mul_eq_zero.1 h with h | h
        · linarith
        · exact h
      by_contra hn
      push Not at hn
      rcases lt_trichotomy θ π with h1 | h1 | h1
      · have := sin_pos_of_pos_of_lt_pi (lt_of_le_of_ne hθ.1 (Ne.symm hn.1)) h1
        linarith
      · exact hn.2 h1
      · have := sin_neg_of_neg_of_neg_pi_lt (x := θ - 2 * π) (by linarith) (by linarith)
        rw [sin_sub_two_pi] at this
        linarith
    · rintro (h | h) <;> simp [h]
  have sA := sgn hr hα
  have sB := sgn hs hβ
  have zA := zer hr hα
  have zB := zer hs hβ
  have cross : (r * sin α) * (s * cos β) - (s * sin β) * (r * cos α) = r * s * sin (α - β) := by
    rw [sin_sub]; ring
  have nA : (r * sin α) * (r * sin α) + (r * cos α) * (r * cos α) = r * r := by
    have := sin_sq_add_cos_sq α; linear_combination r * r * this
  have nB : (s * sin β) * (s * sin β) + (s * cos β) * (s * cos β) = s * s := by
    have := sin_sq_add_cos_sq β; linear_combination s * s * this
  have hrs : 0 < r * s := mul_pos hr hs
  unfold clockwise
  simp only [add_sub_cancel_left, ge_iff_le, gt_iff_lt, cross, nA, nB]
  by_cases hA : α ≤ π <;> by_cases hB : β ≤ π
  · have hA' := sA.2 hA
    have hB' := sB.2 hB
    rw [if_neg (by rintro ⟨_, h⟩; linarith), if_neg (by rintro ⟨_, h⟩; linarith)]
    by_cases hz : r * sin α = 0 ∧ s * sin β = 0
    · rw [if_pos hz]
      rcases zA.1 hz.1 with rfl | rfl <;> rcases zB.1 hz.2 with rfl | rfl
      · simp [hr.le]
      · simp [hr.le, pp]
        linarith
      · have h2 : ¬ π < 0 := by linarith
        have h3 : ¬ π = 0 := by linarith
        simp [hs.le, h2, h3]
        linarith
      · have h1 : ¬ r ≤ 0 := by linarith
        have h2 : ¬ s ≤ 0 := by linarith
        simp only [cos_pi, mul_neg, mul_one, Left.nonneg_neg_iff, h1, h2, or_self, if_false, decide_eq_true_eq,
          lt_irrefl, false_or, true_and]
        constructor <;> intro h <;> linarith
    · rw [if_neg hz]
      have hd : α - β ≠ -π ∧ α - β ≠ π := by
        constructor
        · intro h
          exact hz ⟨zA.2 (Or.inl (by linarith)), zB.2 (Or.inr (by linarith))⟩
        · intro h
          exact hz ⟨zA.2 (Or.inr (by linarith)), zB.2 (Or.inl (by linarith))⟩
      rcases lt_trichotomy α β with h | h | h
      · have : sin (α - β) < 0 := sin_neg_of_neg_of_neg_pi_lt (by linarith)
          (lt_of_le_of_ne (by linarith) (Ne.symm hd.1))
        rw [if_pos (mul_neg_of_pos_of_neg hrs this)]
        simp [h]
      · subst h
        simp only [sub_self, sin_zero, mul_zero, lt_irrefl, if_false, false_or, true_and, decide_eq_true_eq]
        constructor
        · intro h; nlinarith
        · intro h; nlinarith
      · have : 0 < sin (α - β) := sin_pos_of_pos_of_lt_pi (by linarith) (lt_of_le_of_ne (by linarith) hd.2)
        have h2 := mul_pos hrs this
        rw [if_neg (by linarith), if_pos h2]
        simp [not_lt.2 h.le, h.ne']
  · have hA' := sA.2 hA
    have hB' : s * sin β < 0 := not_le.1 fun h => hB (sB.1 h)
    rw [if_pos ⟨hA', hB'⟩]
    have : α < β := by linarith
    simp [this]
  · have hA' : r * sin α < 0 := not_le.1 fun h => hA (sA.1 h)
    have hB' := sB.2 hB
    rw [if_neg (by rintro ⟨h, _⟩; linarith), if_pos ⟨hB', hA'⟩]
    have h1 : ¬ α < β := by linarith
    have h2 : ¬ α = β := by intro h; linarith
    simp [h1, h2]
  · have hA' : r * sin α < 0 := not_le.1 fun h => hA (sA.1 h)
    have hB' : s * sin β < 0 := not_le.1 fun h => hB (sB.1 h)
    rw [if_neg (by rintro ⟨h, _⟩; linarith), if_neg (by rintro ⟨h, _⟩; linarith),
      if_neg (by rintro ⟨h, _⟩; linarith)]
    rcases lt_trichotomy α β with h | h | h
    · have : sin (α - β) < 0 := sin_neg_of_neg_of_neg_pi_lt (by linarith) (by linarith)
      rw [if_pos (mul_neg_of_pos_of_neg hrs this)]
      simp [h]
    · subst h
      simp only [sub_self, sin_zero, mul_zero, lt_irrefl, if_false, false_or, true_and, decide_eq_true_eq]
      constructor
      · intro h; nlinarith
      · intro h; nlinarith
    · have : 0 < sin (α - β) := sin_pos_of_pos_of_lt_pi (by linarith) (by linarith)
      have h2 := mul_pos hrs this
      rw [if_neg (by linarith), if_pos h2]
      simp [not_lt.2 h.le, h.ne']

/-- Every point but the centre has polar coordinates. -/
theorem exists_polar (c p : ℝ × ℝ) (h : p ≠ c) :
    ∃ r α : ℝ, 0 < r ∧ (0 ≤ α ∧ α < 2 * π) ∧ p = (c.1 + r * sin α, c.2 + r * cos α) := by
  set z : ℂ := ⟨p.2 - c.2, p.1 - c.1⟩ with hz
  have hz0 : z ≠ 0 := by
    intro h0
    apply h
    have h1 := congrArg Complex.re h0
    have h2 := congrArg Complex.im h0
    simp [hz] at h1 h2
    ext <;> linarith
  have hn : 0 < ‖z‖ := norm_pos_iff.2 hz0
  have hc := Complex.norm_mul_cos_arg z
  have hs := Complex.norm_mul_sin_arg z
  have hlo := Complex.neg_pi_lt_arg z
  have hhi := Complex.arg_le_pi z
  have pp := Real.pi_pos
  by_cases ha : 0 ≤ z.arg
  · refine ⟨‖z‖, z.arg, hn, ⟨ha, by linarith⟩, ?_⟩
    rw [hc, hs]; ext <;> simp [hz]
  · push Not at ha
    refine ⟨‖z‖, z.arg + 2 * π, hn, ⟨by linarith, by linarith⟩, ?_⟩
    rw [sin_add_two_pi, cos_add_two_pi, hc, hs]; ext <;> simp [hz]

theorem clockwise_self (c : ℝ × ℝ) : clockwise c c c = false := by simp [clockwise]

theorem center_left (c : ℝ × ℝ) (s β : ℝ) (hs : 0 < s) (hβ : 0 ≤ β ∧ β < 2 * π) :
    clockwise c c (c.1 + s * sin β, c.2 + s * cos β) = true ↔ π ≤ β := by
  have pp := Real.pi_pos
  unfold clockwise
  simp only [add_sub_cancel_left, sub_self, ge_iff_le, le_refl, true_and, gt_iff_lt, lt_irrefl, and_false, if_false,
    zero_mul, mul_zero, add_zero]
  rcases lt_trichotomy β π with h | h | h
  · have h1 : 0 ≤ s * sin β := mul_nonneg hs.le (sin_nonneg_of_nonneg_of_le_pi hβ.1 h.le)
    rw [if_neg (by linarith)]
    rcases eq_or_lt_of_le hβ.1 with h0 | h0
    · subst h0
      simp [not_le.2 pp, hs.le]
    · have h2 : 0 < s * sin β := mul_pos hs (sin_pos_of_pos_of_lt_pi h0 h)
      rw [if_neg (by linarith)]
      have h3 : ¬ (s * sin β * (s * sin β) + s * cos β * (s * cos β) < 0) := by
        have := mul_self_nonneg (s * sin β); have := mul_self_nonneg (s * cos β); linarith
      simp [not_le.2 h]
      linarith
  · subst h
    simp [hs]
  · have : sin (β - 2 * π) < 0 := sin_neg_of_neg_of_neg_pi_lt (by linarith) (by linarith)
    rw [sin_sub_two_pi] at this
    rw [if_pos (mul_neg_of_pos_of_neg hs this)]
    simp [h.le]

theorem center_right (c : ℝ × ℝ) (r α : ℝ) (hr : 0 < r) (hα : 0 ≤ α ∧ α < 2 * π) :
    clockwise c (c.1 + r * sin α, c.2 + r * cos α) c = true ↔ α < π := by
  have pp := Real.pi_pos
  unfold clockwise
  simp only [add_sub_cancel_left, sub_self, ge_iff_le, le_refl, true_and, gt_iff_lt, lt_irrefl, and_false, if_false,
    zero_mul, mul_zero, add_zero, and_true]
  rcases lt_trichotomy α π with h | h | h
  · have h1 : 0 ≤ r * sin α := mul_nonneg hr.le (sin_nonneg_of_nonneg_of_le_pi hα.1 h.le)
    rw [if_neg (by linarith)]
    rcases eq_or_lt_of_le hα.1 with h0 | h0
    · subst h0
      simp [pp, hr]
    · have h2 : 0 < r * sin α := mul_pos hr (sin_pos_of_pos_of_lt_pi h0 h)
      rw [if_neg (by linarith)]
      have h3 : 0 < r * sin α * (r * sin α) + r * cos α * (r * cos α) := by
        have := mul_pos h2 h2; have := mul_self_nonneg (r * cos α); linarith
      simp [h, h3]
  · subst h
    simp [hr.le]
  · have : sin (α - 2 * π) < 0 := sin_neg_of_neg_of_neg_pi_lt (by linarith) (by linarith)
    rw [sin_sub_two_pi] at this
    rw [if_pos (mul_neg_of_pos_of_neg hr this)]
    simp [not_lt.2 h.le]

/-- Position of a point in the order: the angle, then the distance from far to near; the centre comes just before the
points straight below it. -/
theorem exists_key (c : ℝ × ℝ) : ∃ key : ℝ × ℝ → ℝ ×ₗ WithBot ℝ, Function.Injective key ∧
    ∀ a b, clockwise c a b = true ↔ key a < key b := by
  classical
  choose R A hR hA hP using exists_polar c
  refine ⟨fun p => if h : p = c then toLex (π, ⊥) else toLex (A p h, ((-(R p h) : ℝ) : WithBot ℝ)), ?_, ?_⟩
  · intro a b h
    by_cases ha : a = c <;> by_cases hb : b = c
    · rw [ha, hb]
    · simp [ha, hb] at h
    · simp [ha, hb] at h
    · simp only [ha, hb, dif_neg, not_false_eq_true] at h
      have h' := Prod.mk.inj (toLex.injective h)
      have h2 : R a ha = R b hb := by have := WithBot.coe_injective h'.2; linarith
      rw [hP a ha, hP b hb, h'.1, h2]
  · intro a b
    by_cases ha : a = c <;> by_cases hb : b = c
    · subst ha hb; simp [clockwise_self]
    · subst ha
      simp only [hb, dif_pos, dif_neg, not_false_eq_true]
      conv_lhs => rw [hP b hb]
      rw [center_left _ _ _ (hR b hb) (hA b hb), Prod.Lex.toLex_lt_toLex]
      simp only [WithBot.bot_lt_coe, and_true]
      exact le_iff_lt_or_eq
    · subst hb
      simp only [ha, dif_pos, dif_neg, not_false_eq_true]
      conv_lhs => rw [hP a ha]
      rw [center_right _ _ _ (hR a ha) (hA a ha), Prod.Lex.toLex_lt_toLex]
      simp
    · simp only [ha, hb, dif_neg, not_false_eq_true]
      conv_lhs => rw [hP a ha, hP b hb]
      rw [C94_polar _ _ _ _ _ (hR a ha) (hR b hb) (hA a ha) (hA b hb), Prod.Lex.toLex_lt_toLex]
      simp

/-- A strict total order on the points of the plane, so sorting with it is well defined and has one result. -/
theorem C94_strict_total (c : ℝ × ℝ) :
    (∀ a, clockwise c a a = false) ∧
    (∀ a b, clockwise c a b = true → clockwise c b a = false) ∧
    (∀ a b d, clockwise c a b = true → clockwise c b d = true → clockwise c a d = true) ∧
    (∀ a b, clockwise c a b = false → clockwise c b a = false → a = b) := by
  obtain ⟨key, hi, hk⟩ := exists_key c
  have hk' : ∀ a b, clockwise c a b = false ↔ key b ≤ key a := by
    intro a b; rw [← not_lt, ← hk, Bool.not_eq_true]
  refine ⟨fun a => (hk' a a).2 le_rfl, fun a b h => (hk' b a).2 ((hk a b).1 h).le, fun a b d h1 h2 => ?_,
    fun a b h1 h2 => hi (le_antisymm ((hk' b a).1 h2) ((hk' a b).1 h1))⟩
  rw [hk] at *
  exact h1.trans h2

/-- Two points of a unit circle, a sixth of a turn apart. -/
example : clockwise (0, 0) (0 + 1 * sin (π / 6), 0 + 1 * cos (π / 6)) (0 + 1 * sin (π / 2), 0 + 1 * cos (π / 2)) = true :=
  (C94_polar (0, 0) 1 1 (π / 6) (π / 2) one_pos one_pos (by constructor <;> linarith [Real.pi_pos])
    (by constructor <;> linarith [Real.pi_pos])).2 (Or.inl (by linarith [Real.pi_pos]))

end Fdapde.Geometry
