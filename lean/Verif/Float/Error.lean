import Verif.Float.Round
/-
Propagation of rounding errors.  `r.b = 1 / (1 - u)`; a quantity touched by `k` roundings is within a factor `b ^ k` of the
exact one if no cancellation occurs (`Rel`), and within `(b ^ k - 1) m` if `m` bounds the sum of the sizes (`Err`).
-/
namespace Fdapde.Fp

variable (r : Rounding)

noncomputable def Rounding.b : ℝ := (1 - r.u)⁻¹

theorem Rounding.a_pos : 0 < 1 - r.u := by linarith [r.u_lt]

theorem Rounding.b_pos : 0 < r.b := inv_pos.2 r.a_pos

theorem Rounding.one_le_b : 1 ≤ r.b := by
  unfold Rounding.b
  rw [one_le_inv₀ r.a_pos]
  linarith [r.u_pos]

theorem Rounding.ab : (1 - r.u) * r.b = 1 := mul_inv_cancel₀ r.a_pos.ne'

theorem Rounding.up_le_b : 1 + r.u ≤ r.b := by
  have h := r.ab
  have := r.a_pos
  have h2 : (1 - r.u) * (1 + r.u) ≤ 1 := by nlinarith [r.u_pos]
  by_contra h3
  push Not at h3
  nlinarith

theorem Rounding.zero : r.rnd 0 = 0 := by
  have := r.err 0
  simpa using this

theorem Rounding.lower {x : ℝ} (h : 0 ≤ x) : (1 - r.u) * x ≤ r.rnd x := by
  have := (abs_le.1 (r.err x)).1
  rw [abs_of_nonneg h] at this
  linarith

theorem Rounding.upper {x : ℝ} (h : 0 ≤ x) : r.rnd x ≤ (1 + r.u) * x := by
  have := (abs_le.1 (r.err x)).2
  rw [abs_of_nonneg h] at this
  linarith

theorem Rounding.nonneg {x : ℝ} (h : 0 ≤ x) : 0 ≤ r.rnd x :=
  (mul_nonneg r.a_pos.le h).trans (r.lower h)

theorem Rounding.eq_zero {x : ℝ} : r.rnd x = 0 ↔ x = 0 := by
  constructor
  · intro h
    have := r.err x
    rw [h, zero_sub, abs_neg] at this
    by_contra hx
    have : 0 < |x| := abs_pos.2 hx
    nlinarith [r.u_lt]
  · rintro rfl; exact r.zero

/-- `x'` is obtained from `x ≥ 0` with `k` roundings, without cancellation. -/
def Rounding.Rel (k : Nat) (x x' : ℝ) : Prop := 0 ≤ x ∧ 0 ≤ x' ∧ x' ≤ r.b ^ k * x ∧ x ≤ r.b ^ k * x'

namespace Rounding.Rel
variable {r} {j k : Nat} {x x' y y' z : ℝ}

theorem refl (h : 0 ≤ x) : r.Rel 0 x x := ⟨h, h, by simp, by simp⟩

theorem mono (h : r.Rel j x x') (hk : j ≤ k) : r.Rel k x x' := by
  have hb := pow_le_pow_right₀ r.one_le_b hk
  exact ⟨h.1, h.2.1, h.2.2.1.trans (mul_le_mul_of_nonneg_right hb h.1), h.2.2.2.trans (mul_le_mul_of_nonneg_right hb h.2.1)⟩

theorem trans (h : r.Rel j x y) (h' : r.Rel k y z) : r.Rel (j + k) x z := by
  have hj := pow_pos r.b_pos j
  have hk := pow_pos r.b_pos k
  refine ⟨h.1, h'.2.1, ?_, ?_⟩
  · calc z ≤ r.b ^ k * y := h'.2.2.1
      _ ≤ r.b ^ k * (r.b ^ j * x) := mul_le_mul_of_nonneg_left h.2.2.1 hk.le
      _ = _ := by rw [pow_add]; ring
  · calc x ≤ r.b ^ j * y := h.2.2.2
      _ ≤ r.b ^ j * (r.b ^ k * z) := mul_le_mul_of_nonneg_left h'.2.2.2 hj.le
      _ = _ := by rw [pow_add]; ring

theorem rnd0 (h : 0 ≤ x) : r.Rel 1 x (r.rnd x) := by
  refine ⟨h, r.nonneg h, ?_, ?_⟩
  · rw [pow_one]
    exact (r.upper h).trans (mul_le_mul_of_nonneg_right r.up_le_b h)
  · rw [pow_one]
    have h1 := mul_le_mul_of_nonneg_left (r.lower h) r.b_pos.le
    rw [← mul_assoc, mul_comm r.b, r.ab, one_mul] at h1
    exact h1

/-- One more rounding. -/
theorem rnd (h : r.Rel k x x') : r.Rel (k + 1) x (r.rnd x') := h.trans (rnd0 h.2.1)

theorem mul (h : r.Rel j x x') (h' : r.Rel k y y') : r.Rel (j + k) (x * y) (x' * y') := by
  have hj := pow_pos r.b_pos j
  have hk := pow_pos r.b_pos k
  refine ⟨mul_nonneg h.1 h'.1, mul_nonneg h.2.1 h'.2.1, ?_, ?_⟩
  · calc x' * y' ≤ (r.b ^ j * x) * (r.b ^ k * y) :=
          mul_le_mul h.2.2.1 h'.2.2.1 h'.2.1 (mul_nonneg hj.le h.1)
      _ = _ := by rw [pow_add]; ring
  · calc x * y ≤ (r.b ^ j * x') * (r.b ^ k * y') :=
          mul_le_mul h.2.2.2 h'.2.2.2 h'.1 (mul_nonneg hj.le h.2.1)
      _ = _ := by rw [pow_add]; ring

theorem add (h : r.Rel k x x') (h' : r.Rel k y y') : r.Rel k (x + y) (x' + y') :=
  ⟨add_nonneg h.1 h'.1, add_nonneg h.2.1 h'.2.1, by rw [mul_add]; exact add_le_add h.2.2.1 h'.2.2.1,
    by rw [mul_add]; exact add_le_add h.2.2.2 h'.2.2.2⟩

theorem eq_zero (h : r.Rel k x x') : x' = 0 ↔ x = 0 := by
  constructor
  · rintro rfl; have := h.2.2.2; rw [mul_zero] at this; exact le_antisymm this h.1
  · rintro rfl; have := h.2.2.1; rw [mul_zero] at this; exact le_antisymm this h.2.1

theorem inv (h : r.Rel k x x') : r.Rel k (1 / x) (1 / x') := by
  rcases h.1.eq_or_lt with e | hx
  · have := h.eq_zero.2 e.symm
    rw [← e, this]; simp [Rounding.Rel]
  have hx' : 0 < x' := lt_of_le_of_ne h.2.1 fun e => hx.ne' (h.eq_zero.1 e.symm)
  refine ⟨by positivity, by positivity, ?_, ?_⟩
  · rw [mul_one_div, div_le_div_iff₀ hx' hx, one_mul]; exact h.2.2.2
  · rw [mul_one_div, div_le_div_iff₀ hx hx', one_mul]; exact h.2.2.1

end Rounding.Rel

/-- `x'` approximates `x` after `k` roundings; `m` is the sum of the sizes of the terms. -/
def Rounding.Err (k : Nat) (m x x' : ℝ) : Prop := |x| ≤ m ∧ |x' - x| ≤ (r.b ^ k - 1) * m

namespace Rounding.Err
variable {r} {j k : Nat} {m n x x' y y' : ℝ}

theorem nonneg (h : r.Err k m x x') : 0 ≤ m := (abs_nonneg x).trans h.1

theorem of_rel (h : r.Rel k x x') : r.Err k x x x' := by
  refine ⟨(abs_of_nonneg h.1).le, ?_⟩
  have hb := one_le_pow₀ r.one_le_b (n := k)
  rw [abs_le]
  constructor
  · have h2 := h.2.2.2
    have : x - x' ≤ (r.b ^ k - 1) * x := by
      have hb0 : 0 < r.b ^ k := pow_pos r.b_pos k
      by_contra h3
      push Not at h3
      have h4 : x' * r.b ^ k < (2 - r.b ^ k) * r.b ^ k * x := by
        have : x' < (2 - r.b ^ k) * x := by linarith
        calc x' * r.b ^ k < (2 - r.b ^ k) * x * r.b ^ k := mul_lt_mul_of_pos_right this hb0
          _ = _ := by ring
      have h5 : (2 - r.b ^ k) * r.b ^ k * x ≤ x := by
        have : (2 - r.b ^ k) * r.b ^ k ≤ 1 := by nlinarith [sq_nonneg (r.b ^ k - 1)]
        nlinarith [h.1]
      linarith
    linarith
  · linarith [h.2.2.1]

theorem exact (x : ℝ) : r.Err 0 |x| x x := ⟨le_rfl, by simp⟩

theorem mono (h : r.Err j m x x') (hk : j ≤ k) : r.Err k m x x' :=
  ⟨h.1, h.2.trans (mul_le_mul_of_nonneg_right (sub_le_sub_right (pow_le_pow_right₀ r.one_le_b hk) 1) h.nonneg)⟩

theorem size (h : r.Err k m x x') : |x'| ≤ r.b ^ k * m := by
  have : x' = x + (x' - x) := by ring
  rw [this]
  calc |x + (x' - x)| ≤ |x| + |x' - x| := abs_add_le _ _
    _ ≤ m + (r.b ^ k - 1) * m := add_le_add h.1 h.2
    _ = _ := by ring

theorem rnd (h : r.Err k m x x') : r.Err (k + 1) m x (r.rnd x') := by
  refine ⟨h.1, ?_⟩
  have e : r.rnd x' - x = (r.rnd x' - x') + (x' - x) := by ring
  have h1 := r.err x'
  have h2 := h.size
  have h3 := mul_le_mul_of_nonneg_left h2 r.u_pos
  have hb := pow_pos r.b_pos k
  rw [e]
  calc |r.rnd x' - x' + (x' - x)| ≤ |r.rnd x' - x'| + |x' - x| := abs_add_le _ _
    _ ≤ r.u * (r.b ^ k * m) + (r.b ^ k - 1) * m := add_le_add (h1.trans h3) h.2
    _ = ((1 + r.u) * r.b ^ k - 1) * m := by ring
    _ ≤ _ := by
      refine mul_le_mul_of_nonneg_right ?_ h.nonneg
      rw [pow_succ']
      have := mul_le_mul_of_nonneg_right r.up_le_b hb.le
      linarith

theorem add (h : r.Err k m x x') (h' : r.Err k n y y') : r.Err k (m + n) (x + y) (x' + y') := by
  refine ⟨(abs_add_le _ _).trans (add_le_add h.1 h'.1), ?_⟩
  have e : x' + y' - (x + y) = (x' - x) + (y' - y) := by ring
  rw [e, mul_add]
  exact (abs_add_le _ _).trans (add_le_add h.2 h'.2)

theorem neg (h : r.Err k m x x') : r.Err k m (-x) (-x') :=
  ⟨by rw [abs_neg]; exact h.1, by rw [← abs_neg, show -(-x' - -x) = x' - x by ring]; exact h.2⟩

theorem sub (h : r.Err k m x x') (h' : r.Err k n y y') : r.Err k (m + n) (x - y) (x' - y') := by
  rw [sub_eq_add_neg, sub_eq_add_neg]; exact h.add h'.neg

theorem mul (h : r.Err j m x x') (h' : r.Err k n y y') : r.Err (j + k) (m * n) (x * y) (x' * y') := by
  refine ⟨by rw [abs_mul]; exact mul_le_mul h.1 h'.1 (abs_nonneg _) h.nonneg, ?_⟩
  have hm := h.nonneg
  have hn := h'.nonneg
  have e : x' * y' - x * y = x' * (y' - y) + (x' - x) * y := by ring
  have hb := pow_pos r.b_pos j
  rw [e]
  calc |x' * (y' - y) + (x' - x) * y| ≤ |x' * (y' - y)| + |(x' - x) * y| := abs_add_le _ _
    _ = |x'| * |y' - y| + |x' - x| * |y| := by rw [abs_mul, abs_mul]
    _ ≤ (r.b ^ j * m) * ((r.b ^ k - 1) * n) + ((r.b ^ j - 1) * m) * n :=
        add_le_add (mul_le_mul h.size h'.2 (abs_nonneg _) (mul_nonneg hb.le hm))
          (mul_le_mul h.2 h'.1 (abs_nonneg _) (mul_nonneg (by linarith [one_le_pow₀ r.one_le_b (n := j)]) hm))
    _ = _ := by rw [pow_add]; ring

end Rounding.Err

/-- `b ^ k - 1` is the usual constant `k u / (1 - k u)` at most. -/
theorem Rounding.gamma (k : Nat) : (r.b ^ k - 1) * (1 - k * r.u) ≤ k * r.u := by
  have h1 : 1 - k * r.u ≤ (1 - r.u) ^ k := by
    have := one_add_mul_le_pow (a := -r.u) (by linarith [r.u_lt]) k
    rw [← sub_eq_add_neg] at this
    linarith
  have h2 : r.b ^ k * (1 - r.u) ^ k = 1 := by rw [← mul_pow, mul_comm r.b, r.ab, one_pow]
  have hb := pow_pos r.b_pos k
  have := mul_le_mul_of_nonneg_left h1 hb.le
  rw [h2] at this
  nlinarith

end Fdapde.Fp
