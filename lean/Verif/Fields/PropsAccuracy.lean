import Verif.Fields.LemmasAccuracy
import Verif.Fields.FloatDerivatives
import Verif.Float.Ieee
import Mathlib.Analysis.Complex.ExponentialBounds
import Mathlib.Analysis.SpecialFunctions.ExpDeriv
/-
C154: the error of numerical derivatives, in exact arithmetic and in floating point.
-/
namespace Fdapde.Fields
open Set Fdapde.Fp
noncomputable section
variable {n : Nat}

/-! ### exact arithmetic -/

theorem bump_update (x : Fin n → ℝ) (i : Fin n) (s d : ℝ) : bump (Function.update x i s) i d = Function.update x i (s + d) := by
  funext k
  by_cases h : k = i
  · subst h; simp [bump]
  · simp [bump, h]

theorem bump_start (x : Fin n → ℝ) (i : Fin n) (d : ℝ) : bump x i d = Function.update x i (x i + d) := by
  conv_lhs => rw [← Function.update_eq_self i x]
  exact bump_update _ _ _ _

theorem gradient_eq (f : (Fin n → ℝ) → ℝ) (h : ℝ) (x : Fin n → ℝ) (i : Fin n) :
    gradient f h x i = (f (Function.update x i (x i + h)) - f (Function.update x i (x i - h))) / (2 * h) := by
  simp only [gradient, partial1, bump_start x, bump_update]
  congr 4
  ring_nf

/-- The derivatives along variable `i`. -/
def alongPd (f : (Fin n → ℝ) → ℝ) (i : Fin n) (x : Fin n → ℝ) (k : Nat) (t : ℝ) : ℝ := ((pd i)^[k] f) (Function.update x i t)

theorem iter_smooth {f : (Fin n → ℝ) → ℝ} (i : Fin n) : ∀ (k m : Nat), ContDiff ℝ ((m + k : Nat) : WithTop ℕ∞) f → ContDiff ℝ ((m : Nat) : WithTop ℕ∞) ((pd i)^[k] f)
  | 0, m, hf => hf
  | k + 1, m, hf => by
    rw [Function.iterate_succ_apply']
    exact pd_smooth (iter_smooth i k (m + 1) (by rwa [show m + 1 + k = m + (k + 1) by omega])) i

theorem along_deriv {f : (Fin n → ℝ) → ℝ} {m : Nat} (hf : ContDiff ℝ ((m : Nat) : WithTop ℕ∞) f) (i : Fin n) (x : Fin n → ℝ) (k : Nat) (hk : k < m) (t : ℝ) :
    HasDerivAt (alongPd f i x k) (alongPd f i x (k + 1) t) t := by
  have h1 : ContDiff ℝ ((m - k : Nat) : WithTop ℕ∞) ((pd i)^[k] f) := iter_smooth i k (m - k) (by rwa [Nat.sub_add_cancel hk.le])
  have h2 : Differentiable ℝ ((pd i)^[k] f) := h1.differentiable (by norm_cast; omega)
  have := pd_along h2 i x t
  unfold alongPd
  rw [Function.iterate_succ_apply']
  exact this

theorem near_update {x y : Fin n → ℝ} {H : ℝ} {i : Fin n} {t : ℝ} (hy : Near x H y) (ht : |t - x i| ≤ H) : Near x H (Function.update y i t) := fun k => by
  by_cases h : k = i
  · subst h; simpa using ht
  · simpa [h] using hy k

theorem near_self {x : Fin n → ℝ} {H : ℝ} (h : 0 ≤ H) : Near x H x := fun k => by simpa using h

/-- **C154**, gradients: the numerical derivative of a function with three derivatives differs from the derivative by at most a sixth of the square of the step
times a bound on the third derivative. -/
theorem C154_gradient (f : (Fin n → ℝ) → ℝ) (hf : ContDiff ℝ 3 f) (i : Fin n) (x : Fin n → ℝ) (h M : ℝ) (hh : 0 < h)
    (hM : ∀ y, Near x h y → |pd i (pd i (pd i f)) y| ≤ M) : |gradient f h x i - pd i f x| ≤ M / 6 * h ^ 2 := by
  have key := central1 (G := alongPd f i x) (x := x i) (h := h) (M := M) (fun k hk t _ => along_deriv (m := 3) hf i x k hk t)
    (fun t ht => hM _ (near_update (near_self hh.le) ht)) hh.le
  have e1 : alongPd f i x 1 (x i) = pd i f x := by
    show pd i f (Function.update x i (x i)) = _
    rw [Function.update_eq_self]
  rw [e1] at key
  rw [gradient_eq]
  have e2 : (f (Function.update x i (x i + h)) - f (Function.update x i (x i - h))) / (2 * h) - pd i f x =
      (alongPd f i x 0 (x i + h) - alongPd f i x 0 (x i - h) - 2 * h * pd i f x) / (2 * h) := by
    simp only [alongPd, Function.iterate_zero, id]
    field_simp
  rw [e2, abs_div, abs_of_pos (by linarith : 0 < 2 * h), div_le_iff₀ (by linarith)]
  refine key.trans (le_of_eq (by ring))

theorem hessian_diag_eq (f : (Fin n → ℝ) → ℝ) (h : ℝ) (x : Fin n → ℝ) (i : Fin n) :
    hessian f h x i i = (-f (Function.update x i (x i + 2 * h)) + 16 * f (Function.update x i (x i + h)) - 30 * f (Function.update x i (x i)) +
      16 * f (Function.update x i (x i - h)) - f (Function.update x i (x i - 2 * h))) / (12 * h * h) := by
  simp only [hessian, partial2, ne_eq, not_true_eq_false, if_false, bump_start x, bump_update]
  rw [show x i + 2 * h + -h = x i + h by ring, show x i + h + -h = x i by ring, show x i + -h = x i - h by ring,
    show x i - h + -h = x i - 2 * h by ring]

/-- **C154**, diagonal of the Hessian: order four for functions with six derivatives. -/
theorem C154_diagonal (f : (Fin n → ℝ) → ℝ) (hf : ContDiff ℝ 6 f) (i : Fin n) (x : Fin n → ℝ) (h M : ℝ) (hh : 0 < h)
    (hM : ∀ y, Near x (2 * h) y → |(pd i)^[6] f y| ≤ M) : |hessian f h x i i - pd i (pd i f) x| ≤ M / 54 * h ^ 4 := by
  have key := central2 (G := alongPd f i x) (x := x i) (h := h) (M := M) (fun k hk t _ => along_deriv (m := 6) hf i x k hk t)
    (fun t ht => hM _ (near_update (near_self (by linarith)) ht)) hh.le
  have e1 : alongPd f i x 2 (x i) = pd i (pd i f) x := by
    show pd i (pd i f) (Function.update x i (x i)) = _
    rw [Function.update_eq_self]
  rw [e1] at key
  rw [hessian_diag_eq]
  simp only [alongPd, Function.iterate_zero, id] at key
  rw [← sub_nonneg] at key ⊢
  have hp : 0 < 12 * h * h := by positivity
  rw [show ∀ a : ℝ, a / (12 * h * h) - pd i (pd i f) x = (a - 12 * h ^ 2 * pd i (pd i f) x) / (12 * h * h) from fun a => by field_simp,
    abs_div, abs_of_pos hp, sub_nonneg, div_le_iff₀ hp]
  refine (sub_nonneg.1 key).trans (le_of_eq (by ring))

theorem hessian_mixed_eq (f : (Fin n → ℝ) → ℝ) (h : ℝ) (x : Fin n → ℝ) {i j : Fin n} (hij : i ≠ j) :
    hessian f h x i j = (f (Function.update (Function.update x j (x j + h)) i (x i + h)) - f (Function.update (Function.update x j (x j - h)) i (x i + h)) +
      f (Function.update (Function.update x j (x j - h)) i (x i - h)) - f (Function.update (Function.update x j (x j + h)) i (x i - h))) / (4 * h * h) := by
  have b1 : bump (bump x i h) j h = Function.update (Function.update x j (x j + h)) i (x i + h) := by
    rw [bump_start x, bump_start, Function.update_of_ne hij.symm, Function.update_comm hij]
  have b2 : ∀ s t d : ℝ, bump (Function.update (Function.update x j s) i t) j d = Function.update (Function.update x j (s + d)) i t := fun s t d => by
    rw [Function.update_comm hij.symm, bump_update, Function.update_comm hij]
  simp only [hessian, partial2, if_pos hij, b1, b2, bump_update]
  rw [show x j + h + -(2 * h) = x j - h by ring, show x i + h + -(2 * h) = x i - h by ring, show x j - h + 2 * h = x j + h by ring]

/-- **C154**, mixed derivatives: order two for functions with four derivatives. -/
theorem C154_mixed (f : (Fin n → ℝ) → ℝ) (hf : ContDiff ℝ 4 f) (i j : Fin n) (hij : i ≠ j) (x : Fin n → ℝ) (h M : ℝ) (hh : 0 < h)
    (hM : ∀ y, Near x h y → |pd j (pd i (pd i (pd i f))) y| ≤ M) (hM' : ∀ y, Near x h y → |pd j (pd j (pd j (pd i f))) y| ≤ M) :
    |hessian f h x i j - pd j (pd i f) x| ≤ M / 3 * h ^ 2 := by
  have hs : ∀ k, k < 4 → ContDiff ℝ ((4 - k : Nat) : WithTop ℕ∞) ((pd i)^[k] f) := fun k hk => iter_smooth i k (4 - k) (by
    rw [Nat.sub_add_cancel hk.le]; exact hf)
  -- the difference in direction `j`, as a function of coordinate `i`, and its derivatives
  let G : Nat → ℝ → ℝ := fun k t => alongPd f i (Function.update x j (x j + h)) k t - alongPd f i (Function.update x j (x j - h)) k t
  have hG : ∀ k < 3, ∀ t, |t - x i| ≤ h → HasDerivAt (G k) (G (k + 1) t) t := fun k hk t _ =>
    (along_deriv (m := 4) hf i _ k (by omega) t).sub (along_deriv (m := 4) hf i _ k (by omega) t)
  have lineJ : ∀ (g : (Fin n → ℝ) → ℝ) (t s : ℝ), g (Function.update (Function.update x j s) i t) = alongPd g j (Function.update x i t) 0 s := fun g t s => by
    show _ = g (Function.update (Function.update x i t) j s)
    rw [Function.update_comm hij]
  have hG3 : ∀ t, |t - x i| ≤ h → |G 3 t| ≤ 2 * h * M := fun t ht => by
    have hd : ∀ s ∈ Icc (x j - h) (x j + h), HasDerivWithinAt (alongPd ((pd i)^[3] f) j (Function.update x i t) 0)
        (alongPd ((pd i)^[3] f) j (Function.update x i t) 1 s) (Icc (x j - h) (x j + h)) s := fun s _ =>
      (along_deriv (m := 1) (hs 3 (by omega)) j (Function.update x i t) 0 (by omega) s).hasDerivWithinAt
    have hb : ∀ s ∈ Icc (x j - h) (x j + h), ‖alongPd ((pd i)^[3] f) j (Function.update x i t) 1 s‖ ≤ M := fun s hs' =>
      hM _ (near_update (near_update (near_self hh.le) ht) (by rw [abs_le]; exact ⟨by linarith [hs'.1], by linarith [hs'.2]⟩))
    have := (convex_Icc (x j - h) (x j + h)).norm_image_sub_le_of_norm_hasDerivWithin_le hd hb (left_mem_Icc.2 (by linarith)) (right_mem_Icc.2 (by linarith))
    rw [Real.norm_eq_abs, Real.norm_eq_abs, show x j + h - (x j - h) = 2 * h by ring, abs_of_pos (by linarith : 0 < 2 * h)] at this
    have e : G 3 t = alongPd ((pd i)^[3] f) j (Function.update x i t) 0 (x j + h) - alongPd ((pd i)^[3] f) j (Function.update x i t) 0 (x j - h) := by
      rw [← lineJ, ← lineJ]; rfl
    rw [e]
    linarith
  have k1 := central1 (G := G) (x := x i) (h := h) hG hG3 hh.le
  have k2 := central1 (G := alongPd (pd i f) j x) (x := x j) (h := h) (M := M)
    (fun k hk t _ => along_deriv (m := 3) (hs 1 (by omega)) j x k hk t) (fun t ht => hM' _ (near_update (near_self hh.le) ht)) hh.le
  have e1 : G 1 (x i) = alongPd (pd i f) j x 0 (x j + h) - alongPd (pd i f) j x 0 (x j - h) := by
    have := lineJ (pd i f) (x i)
    rw [Function.update_eq_self] at this
    rw [← this, ← this]; rfl
  have e2 : alongPd (pd i f) j x 1 (x j) = pd j (pd i f) x := by
    show pd j (pd i f) (Function.update x j (x j)) = _
    rw [Function.update_eq_self]
  rw [e1] at k1
  rw [e2] at k2
  rw [hessian_mixed_eq f h x hij]
  have hp : 0 < 4 * h * h := by positivity
  rw [show ∀ a : ℝ, a / (4 * h * h) - pd j (pd i f) x = (a - 4 * h * h * pd j (pd i f) x) / (4 * h * h) from fun a => by field_simp,
    abs_div, abs_of_pos hp, div_le_iff₀ hp]
  have e3 : f (Function.update (Function.update x j (x j + h)) i (x i + h)) - f (Function.update (Function.update x j (x j - h)) i (x i + h)) +
      f (Function.update (Function.update x j (x j - h)) i (x i - h)) - f (Function.update (Function.update x j (x j + h)) i (x i - h)) -
      4 * h * h * pd j (pd i f) x =
      (G 0 (x i + h) - G 0 (x i - h) - 2 * h * (alongPd (pd i f) j x 0 (x j + h) - alongPd (pd i f) j x 0 (x j - h))) +
      2 * h * (alongPd (pd i f) j x 0 (x j + h) - alongPd (pd i f) j x 0 (x j - h) - 2 * h * pd j (pd i f) x) := by
    simp only [G, alongPd, Function.iterate_zero, id]
    ring
  rw [e3]
  refine (abs_add_le _ _).trans ?_
  rw [abs_mul (2 * h), abs_of_pos (by linarith : 0 < 2 * h)]
  have := mul_le_mul_of_nonneg_left k2 (by linarith : 0 ≤ 2 * h)
  refine (add_le_add k1 this).trans (le_of_eq (by ring))

/-! ### floating point -/

theorem bumpR_update (r : Rounding) (x : Fin n → ℝ) (i : Fin n) (s d : ℝ) : bumpR r (Function.update x i s) i d = Function.update x i (r.rnd (s + d)) := by
  funext k
  by_cases h : k = i
  · subst h; simp [bumpR]
  · simp [bumpR, h]

theorem bumpR_start (r : Rounding) (x : Fin n → ℝ) (i : Fin n) (d : ℝ) : bumpR r x i d = Function.update x i (r.rnd (x i + d)) := by
  conv_lhs => rw [← Function.update_eq_self i x]
  exact bumpR_update _ _ _ _ _

theorem err_size {r : Rounding} {k : Nat} {m m' a a' : ℝ} (h : r.Err k m a a') (hm : m ≤ m') : r.Err k m' a a' :=
  ⟨h.1.trans hm, h.2.trans (mul_le_mul_of_nonneg_left hm (sub_nonneg.2 (one_le_pow₀ r.one_le_b)))⟩

theorem err_within (r : Rounding) {a m : ℝ} (h : |a| ≤ m) : r.Err 0 m a a := err_size (.exact a) h

theorem err_step {r : Rounding} {j k : Nat} {m c a a' d d' : ℝ} (h : r.Err k m a a') (hd : r.Err j c d d') (hj : j ≤ k) : r.Err (k + 1) (m + c) (a + d) (r.rnd (a' + d')) :=
  (h.add (hd.mono hj)).rnd

theorem lipschitz {f : (Fin n → ℝ) → ℝ} (hf : Differentiable ℝ f) {i : Fin n} {x y : Fin n → ℝ} {H M : ℝ} (hM : ∀ z, Near x H z → |pd i f z| ≤ M)
    (hy : Near x H y) {s t : ℝ} (hs : |s - x i| ≤ H) (ht : |t - x i| ≤ H) : |f (Function.update y i s) - f (Function.update y i t)| ≤ M * |s - t| := by
  have mem : ∀ s, |s - x i| ≤ H ↔ s ∈ Icc (x i - H) (x i + H) := fun s => by
    rw [abs_le, mem_Icc]
    constructor <;> rintro ⟨h1, h2⟩ <;> constructor <;> linarith
  exact (convex_Icc (x i - H) (x i + H)).norm_image_sub_le_of_norm_hasDerivWithin_le (fun s _ => (pd_along hf i y s).hasDerivWithinAt)
    (fun s hs => hM _ (near_update hy ((mem s).2 hs))) ((mem t).1 ht) ((mem s).1 hs)

/-- **C154**, gradients in floating point: the error of the central difference, plus the error of the values of the function and that of the points where it is
evaluated, divided by the step, plus three roundings of the result. -/
theorem C154_gradient_rounded (r : Rounding) (f F : (Fin n → ℝ) → ℝ) (hf : ContDiff ℝ 3 f) (i : Fin n) (x : Fin n → ℝ) (h H δ M₁ M₃ : ℝ) (hh : 0 < h)
    (hH : h + (r.b ^ 2 - 1) * (|x i| + 3 * h) ≤ H) (hF : ∀ y, Near x H y → |F y - f y| ≤ δ) (h1 : ∀ y, Near x H y → |pd i f y| ≤ M₁)
    (h3 : ∀ y, Near x H y → |pd i (pd i (pd i f)) y| ≤ M₃) :
    |gradientR r F h x i - pd i f x| ≤ (M₃ / 6 * h ^ 2 + (δ + M₁ * ((r.b ^ 2 - 1) * (|x i| + 3 * h))) / h) +
      (r.b ^ 3 - 1) * (M₁ + (M₃ / 6 * h ^ 2 + (δ + M₁ * ((r.b ^ 2 - 1) * (|x i| + 3 * h))) / h)) := by
  have hd : Differentiable ℝ f := hf.differentiable (by norm_num)
  set e := (r.b ^ 2 - 1) * (|x i| + 3 * h) with he
  have he0 : 0 ≤ e := mul_nonneg (sub_nonneg.2 (one_le_pow₀ r.one_le_b)) (by positivity)
  have hH0 : 0 ≤ H := by linarith
  have hx := near_self (x := x) hH0
  -- the points
  have r2 : r.Err 1 (2 * h) (2 * h) (r.rnd (2 * h)) := .of_rel (.rnd0 (by linarith))
  have q1 : r.Err 1 (|x i| + h) (x i + h) (r.rnd (x i + h)) := err_step (.exact (x i)) (err_within r (abs_of_pos hh).le) le_rfl
  have q2 : r.Err 2 (|x i| + h + 2 * h) (x i + h + -(2 * h)) (r.rnd (r.rnd (x i + h) + -r.rnd (2 * h))) := err_step q1 r2.neg le_rfl
  set s1 := r.rnd (x i + h) with hs1
  set s2 := r.rnd (s1 + -r.rnd (2 * h)) with hs2
  have d1 : |s1 - (x i + h)| ≤ e := (err_size (q1.mono (by omega : 1 ≤ 2)) (by linarith : |x i| + h ≤ |x i| + 3 * h)).2
  have d2 : |s2 - (x i - h)| ≤ e := by
    have := (err_size q2 (by linarith : |x i| + h + 2 * h ≤ |x i| + 3 * h)).2
    rwa [show x i + h + -(2 * h) = x i - h by ring] at this
  have inH : ∀ s c : ℝ, |c| ≤ h → |s - (x i + c)| ≤ e → |s - x i| ≤ H := fun s c hc hs => by
    have : s - x i = (s - (x i + c)) + c := by ring
    rw [this]
    exact (abs_add_le _ _).trans (by linarith)
  have n1 := inH s1 h (abs_of_pos hh).le d1
  have n2 := inH s2 (-h) (by rw [abs_neg, abs_of_pos hh]) (by rwa [← sub_eq_add_neg])
  have m1 := inH (x i + h) h (abs_of_pos hh).le (by simpa using he0)
  have m2 := inH (x i - h) (-h) (by rw [abs_neg, abs_of_pos hh]) (by rw [← sub_eq_add_neg]; simpa using he0)
  -- the values
  have M0 : 0 ≤ M₁ := (abs_nonneg _).trans (h1 x hx)
  have val : ∀ s t : ℝ, |s - x i| ≤ H → |t - x i| ≤ H → |s - t| ≤ e → |F (Function.update x i s) - f (Function.update x i t)| ≤ δ + M₁ * e := fun s t a b c => by
    have v1 := hF _ (near_update hx a)
    have v2 := lipschitz hd h1 hx a b
    have v3 := mul_le_mul_of_nonneg_left c M0
    have : F (Function.update x i s) - f (Function.update x i t) = (F (Function.update x i s) - f (Function.update x i s)) +
      (f (Function.update x i s) - f (Function.update x i t)) := by ring
    rw [this]
    exact (abs_add_le _ _).trans (by linarith)
  have v1 := val s1 (x i + h) n1 m1 d1
  have v2 := val s2 (x i - h) n2 m2 d2
  have hg := C154_gradient f hf i x h M₃ hh (fun y hy => h3 y fun k => (hy k).trans (by linarith))
  rw [gradient_eq] at hg
  set N := F (Function.update x i s1) - F (Function.update x i s2) with hN
  have hQ : |N * (1 / (2 * h)) - pd i f x| ≤ M₃ / 6 * h ^ 2 + (δ + M₁ * e) / h := by
    have e1 : N * (1 / (2 * h)) - pd i f x = ((f (Function.update x i (x i + h)) - f (Function.update x i (x i - h))) / (2 * h) - pd i f x) +
        ((F (Function.update x i s1) - f (Function.update x i (x i + h))) - (F (Function.update x i s2) - f (Function.update x i (x i - h)))) / (2 * h) := by
      rw [hN]; field_simp; ring
    rw [e1]
    refine (abs_add_le _ _).trans (add_le_add hg ?_)
    rw [abs_div, abs_of_pos (by linarith : 0 < 2 * h), div_le_div_iff₀ (by linarith) hh]
    have := mul_le_mul_of_nonneg_right ((abs_sub _ _).trans (add_le_add v1 v2)) hh.le
    refine this.trans (le_of_eq (by ring))
  -- the result
  have hr : gradientR r F h x i = r.rnd (r.rnd N * (1 / r.rnd (2 * h))) := by
    simp only [gradientR, partial1R, bumpR_start r x, bumpR_update]
    rw [← hs1, ← hs2, ← hN, mul_one_div]
  have rN : r.Err 3 (|N| * (1 / (2 * h))) (N * (1 / (2 * h))) (r.rnd (r.rnd N * (1 / r.rnd (2 * h)))) :=
    ((Rounding.Err.exact N).rnd.mul (.of_rel (Rounding.Rel.rnd0 (by linarith : (0 : ℝ) ≤ 2 * h)).inv)).rnd
  have sz : |N| * (1 / (2 * h)) ≤ M₁ + (M₃ / 6 * h ^ 2 + (δ + M₁ * e) / h) := by
    have h2 : |N| * (1 / (2 * h)) = |N * (1 / (2 * h))| := by rw [abs_mul, abs_of_pos (by positivity : 0 < 1 / (2 * h))]
    rw [h2, show N * (1 / (2 * h)) = pd i f x + (N * (1 / (2 * h)) - pd i f x) by ring]
    exact (abs_add_le _ _).trans (add_le_add (h1 x hx) hQ)
  have fin := (err_size rN sz).2
  rw [hr, show r.rnd (r.rnd N * (1 / r.rnd (2 * h))) - pd i f x = (N * (1 / (2 * h)) - pd i f x) + (r.rnd (r.rnd N * (1 / r.rnd (2 * h))) - N * (1 / (2 * h))) by ring]
  exact (abs_add_le _ _).trans (add_le_add hQ fin)

/-- **C154**, diagonal of the Hessian in floating point. -/
theorem C154_diagonal_rounded (r : Rounding) (f F : (Fin n → ℝ) → ℝ) (hf : ContDiff ℝ 6 f) (i : Fin n) (x : Fin n → ℝ) (h H δ B M₁ M₆ : ℝ) (hh : 0 < h)
    (hH : 2 * h + (r.b ^ 6 - 1) * (|x i| + 6 * h) ≤ H) (hF : ∀ y, Near x H y → |F y - f y| ≤ δ) (hB : ∀ y, Near x H y → |F y| ≤ B)
    (h1 : ∀ y, Near x H y → |pd i f y| ≤ M₁) (h6 : ∀ y, Near x H y → |(pd i)^[6] f y| ≤ M₆) :
    |hessianR r F h x i i - pd i (pd i f) x| ≤ M₆ / 54 * h ^ 4 +
      16 / 3 * (δ + M₁ * ((r.b ^ 6 - 1) * (|x i| + 6 * h)) + (r.b ^ 8 - 1) * B) / h ^ 2 := by
  have hd : Differentiable ℝ f := hf.differentiable (by norm_num)
  set e := (r.b ^ 6 - 1) * (|x i| + 6 * h) with he
  have he0 : 0 ≤ e := mul_nonneg (sub_nonneg.2 (one_le_pow₀ r.one_le_b)) (by positivity)
  have hH0 : 0 ≤ H := by linarith
  have hx := near_self (x := x) hH0
  have M0 : 0 ≤ M₁ := (abs_nonneg _).trans (h1 x hx)
  -- the points
  have r2 : r.Err 1 (2 * h) (2 * h) (r.rnd (2 * h)) := .of_rel (.rnd0 (by linarith))
  have rh : r.Err 0 h (-h) (-h) := err_within r (by rw [abs_neg, abs_of_pos hh])
  have q0 := err_step ((Rounding.Err.exact (r := r) (x i)).mono (by omega : 0 ≤ 1)) r2 le_rfl
  have q1 := err_step q0 rh (by omega)
  have q2 := err_step q1 rh (by omega)
  have q3 := err_step q2 rh (by omega)
  have q4 := err_step q3 rh (by omega)
  set s0 := r.rnd (x i + r.rnd (2 * h)) with hs0
  set s1 := r.rnd (s0 + -h) with hs1
  set s2 := r.rnd (s1 + -h) with hs2
  set s3 := r.rnd (s2 + -h) with hs3
  set s4 := r.rnd (s3 + -h) with hs4
  have at' : ∀ {k : Nat} {m a s : ℝ}, r.Err k m a s → k ≤ 6 → m ≤ |x i| + 6 * h → |s - a| ≤ e := fun q hk hm => (err_size (q.mono hk) hm).2
  have d0 := at' q0 (by omega) (by linarith)
  have d1 := at' q1 (by omega) (by linarith)
  have d2 := at' q2 (by omega) (by linarith)
  have d3 := at' q3 (by omega) (by linarith)
  have d4 := at' q4 (by omega) (by linarith)
  rw [show x i + 2 * h + -h = x i + h by ring] at d1
  rw [show x i + 2 * h + -h + -h = x i by ring] at d2
  rw [show x i + 2 * h + -h + -h + -h = x i - h by ring] at d3
  rw [show x i + 2 * h + -h + -h + -h + -h = x i - 2 * h by ring] at d4
  -- the values
  have val : ∀ s t : ℝ, |t - x i| ≤ 2 * h → |s - t| ≤ e → |s - x i| ≤ H ∧ |F (Function.update x i s) - f (Function.update x i t)| ≤ δ + M₁ * e := fun s t b c => by
    have a : |s - x i| ≤ H := by
      rw [show s - x i = (s - t) + (t - x i) by ring]
      exact (abs_add_le _ _).trans (by linarith)
    refine ⟨a, ?_⟩
    have v1 := hF _ (near_update hx a)
    have v2 := lipschitz hd h1 hx a (b.trans (by linarith))
    have v3 := mul_le_mul_of_nonneg_left c M0
    rw [show F (Function.update x i s) - f (Function.update x i t) = (F (Function.update x i s) - f (Function.update x i s)) +
      (f (Function.update x i s) - f (Function.update x i t)) by ring]
    exact (abs_add_le _ _).trans (by linarith)
  obtain ⟨n0, v0⟩ := val s0 (x i + 2 * h) (by rw [add_sub_cancel_left, abs_of_pos (by linarith)]) d0
  obtain ⟨n1, v1⟩ := val s1 (x i + h) (by rw [add_sub_cancel_left, abs_of_pos hh]; linarith) d1
  obtain ⟨n2, v2⟩ := val s2 (x i) (by rw [sub_self, abs_zero]; linarith) d2
  obtain ⟨n3, v3⟩ := val s3 (x i - h) (by rw [sub_sub_cancel_left, abs_neg, abs_of_pos hh]; linarith) d3
  obtain ⟨n4, v4⟩ := val s4 (x i - 2 * h) (by rw [sub_sub_cancel_left, abs_neg, abs_of_pos (by linarith)]) d4
  have b0 := err_within r (hB _ (near_update hx n0))
  have b1 := err_within r (hB _ (near_update hx n1))
  have b2 := err_within r (hB _ (near_update hx n2))
  have b3 := err_within r (hB _ (near_update hx n3))
  have b4 := err_within r (hB _ (near_update hx n4))
  have hg := C154_diagonal f hf i x h M₆ hh (fun y hy => h6 y fun k => (hy k).trans (by linarith))
  rw [hessian_diag_eq] at hg
  set F0 := F (Function.update x i s0)
  set F1 := F (Function.update x i s1)
  set F2 := F (Function.update x i s2)
  set F3 := F (Function.update x i s3)
  set F4 := F (Function.update x i s4)
  have hB0 : 0 ≤ B := b0.nonneg
  have c16 : r.Err 0 16 16 16 := err_within r (by norm_num)
  have c30 : r.Err 0 30 30 30 := err_within r (by norm_num)
  have t1 : r.Err 2 (B + 16 * B) (-F0 + 16 * F1) (r.rnd (-F0 + r.rnd (16 * F1))) := ((b0.neg.mono (by omega : 0 ≤ 1)).add (c16.mul b1).rnd).rnd
  have t2 := ((t1.sub ((c30.mul b2).rnd.mono (by omega : 0 + 0 + 1 ≤ 2)))).rnd
  have t3 := ((t2.add ((c16.mul b3).rnd.mono (by omega : 0 + 0 + 1 ≤ 2 + 1)))).rnd
  have t4 := (t3.sub (b4.mono (by omega : 0 ≤ 2 + 1 + 1))).rnd
  have den : r.Rel 2 (12 * h * h) (r.rnd (r.rnd (12 * h) * h)) :=
    (((Rounding.Rel.refl (r := r) (by linarith : (0 : ℝ) ≤ 12 * h)).rnd.mul (.refl hh.le)).rnd : r.Rel (0 + 1 + 0 + 1) _ _)
  have t5 := (t4.mul (.of_rel den.inv)).rnd
  have hr : hessianR r F h x i i = r.rnd (r.rnd (r.rnd (r.rnd (r.rnd (-F0 + r.rnd (16 * F1)) - r.rnd (30 * F2)) + r.rnd (16 * F3)) - F4) *
      (1 / r.rnd (r.rnd (12 * h) * h))) := by
    simp only [hessianR, partial2R, ne_eq, not_true_eq_false, if_false, bumpR_start r x, bumpR_update]
    rw [← hs0, ← hs1, ← hs2, ← hs3, ← hs4, mul_one_div]
  have fin := (err_size t5 (le_of_eq (show (B + 16 * B + 30 * B + 16 * B + B) * (1 / (12 * h * h)) = 16 / 3 * B / h ^ 2 by field_simp; ring))).2
  rw [← hr] at fin
  have hp : 0 < 12 * h * h := by positivity
  have hQ : |(-F0 + 16 * F1 - 30 * F2 + 16 * F3 - F4) * (1 / (12 * h * h)) - pd i (pd i f) x| ≤ M₆ / 54 * h ^ 4 + 16 / 3 * (δ + M₁ * e) / h ^ 2 := by
    have e1 : (-F0 + 16 * F1 - 30 * F2 + 16 * F3 - F4) * (1 / (12 * h * h)) - pd i (pd i f) x =
        ((-f (Function.update x i (x i + 2 * h)) + 16 * f (Function.update x i (x i + h)) - 30 * f (Function.update x i (x i)) +
          16 * f (Function.update x i (x i - h)) - f (Function.update x i (x i - 2 * h))) / (12 * h * h) - pd i (pd i f) x) +
        (-(F0 - f (Function.update x i (x i + 2 * h))) + 16 * (F1 - f (Function.update x i (x i + h))) - 30 * (F2 - f (Function.update x i (x i))) +
          16 * (F3 - f (Function.update x i (x i - h))) - (F4 - f (Function.update x i (x i - 2 * h)))) / (12 * h * h) := by
      field_simp; ring
    rw [e1]
    refine (abs_add_le _ _).trans (add_le_add hg ?_)
    rw [abs_div, abs_of_pos hp, div_le_iff₀ hp]
    have e2 : 16 / 3 * (δ + M₁ * e) / h ^ 2 * (12 * h * h) = 64 * (δ + M₁ * e) := by field_simp; ring
    rw [e2]
    have a0 := abs_le.1 v0
    have a1 := abs_le.1 v1
    have a2 := abs_le.1 v2
    have a3 := abs_le.1 v3
    have a4 := abs_le.1 v4
    rw [abs_le]
    constructor <;> linarith [a0.1, a0.2, a1.1, a1.2, a2.1, a2.2, a3.1, a3.2, a4.1, a4.2]
  rw [show hessianR r F h x i i - pd i (pd i f) x = ((-F0 + 16 * F1 - 30 * F2 + 16 * F3 - F4) * (1 / (12 * h * h)) - pd i (pd i f) x) +
    (hessianR r F h x i i - (-F0 + 16 * F1 - 30 * F2 + 16 * F3 - F4) * (1 / (12 * h * h))) by ring]
  refine (abs_add_le _ _).trans ((add_le_add hQ fin).trans (le_of_eq ?_))
  ring

/-- **C154**, mixed derivatives in floating point. -/
theorem C154_mixed_rounded (r : Rounding) (f F : (Fin n → ℝ) → ℝ) (hf : ContDiff ℝ 4 f) (i j : Fin n) (hij : i ≠ j) (x : Fin n → ℝ) (h H δ B M₁ M₄ : ℝ) (hh : 0 < h)
    (hH : h + (r.b ^ 3 - 1) * (|x i| + |x j| + 5 * h) ≤ H) (hF : ∀ y, Near x H y → |F y - f y| ≤ δ) (hB : ∀ y, Near x H y → |F y| ≤ B)
    (h1 : ∀ y, Near x H y → |pd i f y| ≤ M₁ ∧ |pd j f y| ≤ M₁)
    (h4 : ∀ y, Near x H y → |pd j (pd i (pd i (pd i f))) y| ≤ M₄ ∧ |pd j (pd j (pd j (pd i f))) y| ≤ M₄) :
    |hessianR r F h x i j - pd j (pd i f) x| ≤ M₄ / 3 * h ^ 2 +
      (δ + 2 * M₁ * ((r.b ^ 3 - 1) * (|x i| + |x j| + 5 * h)) + (r.b ^ 6 - 1) * B) / h ^ 2 := by
  have hd : Differentiable ℝ f := hf.differentiable (by norm_num)
  set e := (r.b ^ 3 - 1) * (|x i| + |x j| + 5 * h) with he
  have he0 : 0 ≤ e := mul_nonneg (sub_nonneg.2 (one_le_pow₀ r.one_le_b)) (by positivity)
  have hH0 : 0 ≤ H := by linarith
  have hx := near_self (x := x) hH0
  have M0 : 0 ≤ M₁ := (abs_nonneg _).trans (h1 x hx).1
  have xi := abs_nonneg (x i)
  have xj := abs_nonneg (x j)
  -- the points
  have r2 : r.Err 1 (2 * h) (2 * h) (r.rnd (2 * h)) := .of_rel (.rnd0 (by linarith))
  have rh : r.Err 0 h h h := err_within r (abs_of_pos hh).le
  have p1 := err_step (Rounding.Err.exact (r := r) (x i)) rh le_rfl
  have p2 := err_step p1 r2.neg le_rfl
  have q1 := err_step (Rounding.Err.exact (r := r) (x j)) rh le_rfl
  have q2 := err_step q1 r2.neg le_rfl
  have q3 := err_step q2 r2 (by omega)
  set a1 := r.rnd (x i + h) with ha1
  set a2 := r.rnd (a1 + -r.rnd (2 * h)) with ha2
  set c1 := r.rnd (x j + h) with hc1
  set c2 := r.rnd (c1 + -r.rnd (2 * h)) with hc2
  set c3 := r.rnd (c2 + r.rnd (2 * h)) with hc3
  have at' : ∀ {k : Nat} {m a s : ℝ}, r.Err k m a s → k ≤ 3 → m ≤ |x i| + |x j| + 5 * h → |s - a| ≤ e := fun q hk hm => (err_size (q.mono hk) hm).2
  have da1 := at' p1 (by omega) (by linarith)
  have da2 := at' p2 (by omega) (by linarith)
  have dc1 := at' q1 (by omega) (by linarith)
  have dc2 := at' q2 (by omega) (by linarith)
  have dc3 := at' q3 (by omega) (by linarith)
  rw [show x i + h + -(2 * h) = x i - h by ring] at da2
  rw [show x j + h + -(2 * h) = x j - h by ring] at dc2
  rw [show x j + h + -(2 * h) + 2 * h = x j + h by ring] at dc3
  -- the values
  have val : ∀ s t s' t' : ℝ, |t - x i| ≤ h → |s - t| ≤ e → |t' - x j| ≤ h → |s' - t'| ≤ e → Near x H (Function.update (Function.update x j s') i s) ∧
      |F (Function.update (Function.update x j s') i s) - f (Function.update (Function.update x j t') i t)| ≤ δ + 2 * M₁ * e := fun s t s' t' b c b' c' => by
    have a : |s - x i| ≤ H := by
      rw [show s - x i = (s - t) + (t - x i) by ring]
      exact (abs_add_le _ _).trans (by linarith)
    have a' : |s' - x j| ≤ H := by
      rw [show s' - x j = (s' - t') + (t' - x j) by ring]
      exact (abs_add_le _ _).trans (by linarith)
    have near := near_update (near_update hx a') a
    refine ⟨near, ?_⟩
    have v1 := hF _ near
    have v2 := lipschitz hd (fun z hz => (h1 z hz).1) (near_update hx a') a (b.trans (by linarith))
    have v2' := lipschitz hd (fun z hz => (h1 z hz).2) (near_update hx (b.trans (by linarith) : |t - x i| ≤ H)) a' (b'.trans (by linarith))
    rw [Function.update_comm hij, Function.update_comm hij] at v2'
    have v3 := mul_le_mul_of_nonneg_left c M0
    have v3' := mul_le_mul_of_nonneg_left c' M0
    rw [show F (Function.update (Function.update x j s') i s) - f (Function.update (Function.update x j t') i t) =
      (F (Function.update (Function.update x j s') i s) - f (Function.update (Function.update x j s') i s)) +
      (f (Function.update (Function.update x j s') i s) - f (Function.update (Function.update x j s') i t)) +
      (f (Function.update (Function.update x j s') i t) - f (Function.update (Function.update x j t') i t)) by ring]
    exact (abs_add_three _ _ _).trans (by linarith)
  have up : ∀ y : ℝ, |y + h - y| ≤ h := fun y => by rw [add_sub_cancel_left, abs_of_pos hh]
  have dn : ∀ y : ℝ, |y - h - y| ≤ h := fun y => by rw [sub_sub_cancel_left, abs_neg, abs_of_pos hh]
  obtain ⟨n1, v1⟩ := val a1 (x i + h) c1 (x j + h) (up _) da1 (up _) dc1
  obtain ⟨n2, v2⟩ := val a1 (x i + h) c2 (x j - h) (up _) da1 (dn _) dc2
  obtain ⟨n3, v3⟩ := val a2 (x i - h) c2 (x j - h) (dn _) da2 (dn _) dc2
  obtain ⟨n4, v4⟩ := val a2 (x i - h) c3 (x j + h) (dn _) da2 (up _) dc3
  have b1 := err_within r (hB _ n1)
  have b2 := err_within r (hB _ n2)
  have b3 := err_within r (hB _ n3)
  have b4 := err_within r (hB _ n4)
  have hg := C154_mixed f hf i j hij x h M₄ hh (fun y hy => (h4 y fun k => (hy k).trans (by linarith)).1) (fun y hy => (h4 y fun k => (hy k).trans (by linarith)).2)
  rw [hessian_mixed_eq f h x hij] at hg
  have z1 : bumpR r (bumpR r x i h) j h = Function.update (Function.update x j c1) i a1 := by
    rw [bumpR_start r x, bumpR_start, Function.update_of_ne hij.symm, Function.update_comm hij]
  have z2 : ∀ s t d : ℝ, bumpR r (Function.update (Function.update x j s) i t) j d = Function.update (Function.update x j (r.rnd (s + d))) i t := fun s t d => by
    rw [Function.update_comm hij.symm, bumpR_update, Function.update_comm hij]
  have hr : hessianR r F h x i j = r.rnd (r.rnd (r.rnd (r.rnd (F (Function.update (Function.update x j c1) i a1) - F (Function.update (Function.update x j c2) i a1)) +
      F (Function.update (Function.update x j c2) i a2)) - F (Function.update (Function.update x j c3) i a2)) * (1 / r.rnd (r.rnd (4 * h) * h))) := by
    simp only [hessianR, partial2R, if_pos hij, z1, z2, bumpR_update]
    rw [← hc2, ← hc3, ← ha2, mul_one_div]
  set F1 := F (Function.update (Function.update x j c1) i a1)
  set F2 := F (Function.update (Function.update x j c2) i a1)
  set F3 := F (Function.update (Function.update x j c2) i a2)
  set F4 := F (Function.update (Function.update x j c3) i a2)
  have t1 := (b1.sub b2).rnd
  have t2 := (t1.add (b3.mono (by omega : 0 ≤ 0 + 1))).rnd
  have t3 := (t2.sub (b4.mono (by omega : 0 ≤ 0 + 1 + 1))).rnd
  have den : r.Rel 2 (4 * h * h) (r.rnd (r.rnd (4 * h) * h)) :=
    (((Rounding.Rel.refl (r := r) (by linarith : (0 : ℝ) ≤ 4 * h)).rnd.mul (.refl hh.le)).rnd : r.Rel (0 + 1 + 0 + 1) _ _)
  have t5 := (t3.mul (.of_rel den.inv)).rnd
  have fin := (err_size t5 (le_of_eq (show (B + B + B + B) * (1 / (4 * h * h)) = B / h ^ 2 by field_simp; ring))).2
  rw [← hr] at fin
  have hp : 0 < 4 * h * h := by positivity
  have hQ : |(F1 - F2 + F3 - F4) * (1 / (4 * h * h)) - pd j (pd i f) x| ≤ M₄ / 3 * h ^ 2 + (δ + 2 * M₁ * e) / h ^ 2 := by
    have e1 : (F1 - F2 + F3 - F4) * (1 / (4 * h * h)) - pd j (pd i f) x =
        ((f (Function.update (Function.update x j (x j + h)) i (x i + h)) - f (Function.update (Function.update x j (x j - h)) i (x i + h)) +
          f (Function.update (Function.update x j (x j - h)) i (x i - h)) - f (Function.update (Function.update x j (x j + h)) i (x i - h))) / (4 * h * h) -
          pd j (pd i f) x) +
        ((F1 - f (Function.update (Function.update x j (x j + h)) i (x i + h))) - (F2 - f (Function.update (Function.update x j (x j - h)) i (x i + h))) +
          (F3 - f (Function.update (Function.update x j (x j - h)) i (x i - h))) - (F4 - f (Function.update (Function.update x j (x j + h)) i (x i - h)))) /
          (4 * h * h) := by
      field_simp; ring
    rw [e1]
    refine (abs_add_le _ _).trans (add_le_add hg ?_)
    rw [abs_div, abs_of_pos hp, div_le_iff₀ hp]
    have e2 : (δ + 2 * M₁ * e) / h ^ 2 * (4 * h * h) = 4 * (δ + 2 * M₁ * e) := by field_simp
    rw [e2]
    have w1 := abs_le.1 v1
    have w2 := abs_le.1 v2
    have w3 := abs_le.1 v3
    have w4 := abs_le.1 v4
    rw [abs_le]
    constructor <;> linarith [w1.1, w1.2, w2.1, w2.2, w3.1, w3.2, w4.1, w4.2]
  rw [show hessianR r F h x i j - pd j (pd i f) x = ((F1 - F2 + F3 - F4) * (1 / (4 * h * h)) - pd j (pd i f) x) +
    (hessianR r F h x i j - (F1 - F2 + F3 - F4) * (1 / (4 * h * h))) by ring]
  refine (abs_add_le _ _).trans ((add_le_add hQ fin).trans (le_of_eq ?_))
  ring

/-! ### large coordinates -/

theorem rnd64_fit {x : ℝ} (h : (2 : ℝ) ^ (-1022 : ℤ) ≤ x) : rnd64 x = fit x := by
  have h0 : 0 < x := lt_of_lt_of_le (by positivity) h
  have hl : -1022 ≤ Int.log 2 |x| := by
    rw [abs_of_pos h0, ← Int.zpow_le_iff_le_log (by norm_num) h0]
    exact_mod_cast h
  have hg : gap x = ulp x := by unfold gap ulp; rw [max_eq_left (by omega)]
  rw [rnd64, if_pos h0.le, fit_pos h0.le, rndPos, fitPos, hg]

theorem absorb_pos {a t : ℝ} (ha : IsDouble a) (h : (2 : ℝ) ^ (46 : ℤ) ≤ a) (ht : |t| < (2 : ℝ) ^ (-8 : ℤ)) : rnd64 (a + t) = a := by
  have a0 : 0 < a := lt_of_lt_of_le (by positivity) h
  obtain ⟨e, he⟩ : ∃ e, e = Int.log 2 |a| - 52 := ⟨_, rfl⟩
  obtain ⟨m, hm⟩ : ∃ m, m = nearest (a / ulp a) := ⟨_, rfl⟩
  have hl : 46 ≤ Int.log 2 |a| := by
    rw [abs_of_pos a0, ← Int.zpow_le_iff_le_log (by norm_num) a0]
    exact_mod_cast h
  have hp : (0 : ℝ) < (2 : ℝ) ^ e := by positivity
  have ea : a = m * (2 : ℝ) ^ e := by
    have := rndPos_double a0 ha
    rw [rndPos, ulp, ← he] at this
    rw [hm, ulp, ← he, this]
  have lo : (2 : ℝ) ^ (e + 52) ≤ a := by
    have := Int.zpow_log_le_self (R := ℝ) (b := 2) (by norm_num) a0
    rw [he, sub_add_cancel, abs_of_pos a0]
    exact_mod_cast this
  have hi : a < (2 : ℝ) ^ (e + 53) := by
    have := Int.lt_zpow_succ_log_self (R := ℝ) (b := 2) (by norm_num) a
    rw [he, show Int.log 2 |a| - 52 + 53 = Int.log 2 |a| + 1 by ring, abs_of_pos a0]
    exact_mod_cast this
  have m1 : (2 : ℤ) ^ 52 ≤ m := by
    rw [ea, zpow_add₀ two_ne_zero, mul_comm ((2 : ℝ) ^ e), mul_le_mul_iff_left₀ hp] at lo
    exact_mod_cast lo
  have m2 : m ≤ (2 : ℤ) ^ 53 - 1 := by
    rw [ea, zpow_add₀ two_ne_zero, mul_comm ((2 : ℝ) ^ e), mul_lt_mul_iff_left₀ hp] at hi
    have : m < (2 : ℤ) ^ 53 := by exact_mod_cast hi
    omega
  have ge : (2 : ℝ) ^ (-6 : ℤ) ≤ (2 : ℝ) ^ e := zpow_le_zpow_right₀ (by norm_num) (by omega)
  have t1 : |t| < (2 : ℝ) ^ e / 4 := by
    refine ht.trans_le ?_
    have : (2 : ℝ) ^ (-8 : ℤ) = (2 : ℝ) ^ (-6 : ℤ) / 4 := by norm_num
    rw [this]
    exact div_le_div_of_nonneg_right ge (by norm_num)
  have t2 := abs_lt.1 t1
  have big : (2 : ℝ) ^ (-1022 : ℤ) ≤ a + t := by
    have : (2 : ℝ) ^ (-1022 : ℤ) ≤ 1 := zpow_le_one_of_nonpos₀ one_le_two (by norm_num)
    have h2 : (2 : ℝ) ^ (-8 : ℤ) ≤ 1 := by norm_num
    have h3 : (2 : ℝ) ≤ (2 : ℝ) ^ (46 : ℤ) := by norm_num
    linarith [(abs_lt.1 ht).1]
  rw [rnd64_fit big]
  have s52 : (2 : ℝ) ^ (e + 52) = 2 ^ 52 * (2 : ℝ) ^ e := by rw [zpow_add₀ two_ne_zero, mul_comm]; norm_cast
  have s53 : (2 : ℝ) ^ (e + 53) = 2 ^ 53 * (2 : ℝ) ^ e := by rw [zpow_add₀ two_ne_zero, mul_comm]; norm_cast
  have s1 : (2 : ℝ) ^ (e - 1) = (2 : ℝ) ^ e / 2 := by rw [zpow_sub₀ two_ne_zero]; norm_num
  have m1' : (2 : ℝ) ^ 52 ≤ m := by exact_mod_cast m1
  have m2' : (m : ℝ) ≤ 2 ^ 53 - 1 := by exact_mod_cast m2
  by_cases ht0 : 0 ≤ t
  · have k := mul_le_mul_of_nonneg_right m2' hp.le
    have := fit_absorb (m := m) (e := e) (t := t) (by omega) (by rw [← ea]; linarith) (by rw [s53]; linarith) (by rw [s1]; linarith)
    rw [← ea] at this
    exact this
  · push Not at ht0
    by_cases hm2 : m = 2 ^ 52
    · have ea' : a = ((2 ^ 53 : ℤ) : ℝ) * (2 : ℝ) ^ (e - 1) := by
        rw [ea, hm2, s1]
        push_cast
        ring
      have s1' : (2 : ℝ) ^ (e - 1 - 1) = (2 : ℝ) ^ e / 4 := by rw [zpow_sub₀ two_ne_zero, s1]; norm_num; ring
      have s51 : (2 : ℝ) ^ (e - 1 + 52) = 2 ^ 52 * ((2 : ℝ) ^ e / 2) := by rw [zpow_add₀ two_ne_zero, s1, mul_comm]; norm_cast
      have s52' : (2 : ℝ) ^ (e - 1 + 53) = a := by
        rw [zpow_add₀ two_ne_zero, ea', mul_comm]; norm_cast
      have := fit_absorb (m := 2 ^ 53) (e := e - 1) (t := t) (by omega)
        (by rw [← ea', s51, ea, hm2]; push_cast; linarith) (by rw [← ea', s52']; linarith) (by rw [s1']; linarith)
      rw [← ea'] at this
      exact this
    · have m3 : (2 : ℝ) ^ 52 + 1 ≤ m := by exact_mod_cast (show (2 : ℤ) ^ 52 + 1 ≤ m by omega)
      have k := mul_le_mul_of_nonneg_right m3 hp.le
      have := fit_absorb (m := m) (e := e) (t := t) (by omega) (by rw [s52]; linarith) (by rw [← ea]; linarith) (by rw [s1]; linarith)
      rw [← ea] at this
      exact this

theorem absorb64 {a t : ℝ} (ha : IsDouble a) (h : (2 : ℝ) ^ (46 : ℤ) ≤ |a|) (ht : |t| < (2 : ℝ) ^ (-8 : ℤ)) : rnd64 (a + t) = a := by
  rcases le_or_gt 0 a with h0 | h0
  · rw [abs_of_nonneg h0] at h
    exact absorb_pos ha h ht
  · rw [abs_of_neg h0] at h
    have hn : IsDouble (-a) := by
      obtain ⟨m, e, h1, h2⟩ := ha
      exact ⟨-m, e, by rwa [abs_neg], by rw [h2]; push_cast; ring⟩
    have := absorb_pos hn h (t := -t) (by rwa [abs_neg])
    rw [← neg_add, rnd64_neg] at this
    linarith

/-- **C154 fails at large coordinates**: in double precision, with the default step 1e-3 or any step less than 2^-9, the numerical derivative with respect to a
coordinate of size 2^46 (7e13) or more is zero, whatever the function. -/
theorem C154_bug_large (F : (Fin n → ℝ) → ℝ) (i : Fin n) (x : Fin n → ℝ) (h : ℝ) (hh : 0 < h) (hs : h < (2 : ℝ) ^ (-9 : ℤ)) (hd : IsDouble h) (hx : IsDouble (x i))
    (hl : (2 : ℝ) ^ (46 : ℤ) ≤ |x i|) : gradientR binary64 F h x i = 0 := by
  have two : rnd64 (2 * h) = 2 * h := rnd64_double (by
    obtain ⟨m, e, h1, h2⟩ := hd
    exact ⟨m, e + 1, h1, by rw [h2, zpow_add₀ two_ne_zero, zpow_one]; ring⟩)
  have h9 : (2 : ℝ) ^ (-8 : ℤ) = 2 * (2 : ℝ) ^ (-9 : ℤ) := by norm_num
  have c1 : rnd64 (x i + h) = x i := absorb64 hx hl (by rw [abs_of_pos hh]; linarith)
  have c2 : rnd64 (x i + -(2 * h)) = x i := absorb64 hx hl (by rw [abs_neg, abs_of_pos (by linarith)]; linarith)
  simp only [gradientR, partial1R, bumpR_start binary64 x, bumpR_update]
  have c1' : binary64.rnd (x i + h) = x i := c1
  have c2' : binary64.rnd (x i + -binary64.rnd (2 * h)) = x i := by
    show rnd64 (x i + -rnd64 (2 * h)) = x i
    rw [two, c2]
  rw [c1', c2', sub_self, Rounding.zero, zero_div, Rounding.zero]

/-- The function `x` at 2^46 has derivative 1; the step is 2^-10, close to the default one. -/
example : gradientR binary64 (fun y : Fin 1 → ℝ => y 0) ((2 : ℝ) ^ (-10 : ℤ)) (fun _ => (2 : ℝ) ^ (46 : ℤ)) 0 = 0 ∧
    pd 0 (fun y : Fin 1 → ℝ => y 0) (fun _ => (2 : ℝ) ^ (46 : ℤ)) = 1 := by
  refine ⟨C154_bug_large _ _ _ _ (by positivity) (by norm_num) ⟨1, -10, by norm_num, by simp⟩ ⟨1, 46, by norm_num, by simp⟩ (le_abs_self _), ?_⟩
  unfold pd
  simp

/-- The exponential function of one variable, with step 1e-3: all the derivatives are at most 3 near 0. -/
example : |gradient (fun y : Fin 1 → ℝ => Real.exp (y 0)) (1 / 1000) (fun _ => 0) 0 - 1| ≤ 3 / 6 * (1 / 1000) ^ 2 := by
  have hpd : pd 0 (fun y : Fin 1 → ℝ => Real.exp (y 0)) = fun y => Real.exp (y 0) := by
    funext y
    unfold pd
    simp
  have := C154_gradient (fun y : Fin 1 → ℝ => Real.exp (y 0)) (Real.contDiff_exp.comp (contDiff_apply ℝ ℝ (0 : Fin 1))) 0 (fun _ => 0) (1 / 1000) 3 (by norm_num)
    (fun y hy => by
      rw [hpd, hpd, hpd, abs_of_pos (Real.exp_pos _)]
      have h1 : y 0 ≤ 1 := by
        have := (abs_le.1 (hy 0)).2
        norm_num at this ⊢
        linarith
      exact (Real.exp_le_exp.2 h1).trans (Real.exp_one_lt_d9.le.trans (by norm_num)))
  rw [hpd] at this
  simpa using this

theorem pd_id : pd 0 (fun y : Fin 1 → ℝ => y 0) = fun _ => 1 := by
  funext y
  unfold pd
  simp

theorem pd_const (c : ℝ) : pd 0 (fun _ : Fin 1 → ℝ => c) = fun _ => 0 := by
  funext y
  unfold pd
  simp

/-- The function `x`, computed without error, in any arithmetic and at any point. -/
example (r : Rounding) (x : Fin 1 → ℝ) (h : ℝ) (hh : 0 < h) : |gradientR r (fun y => y 0) h x 0 - 1| ≤
    (0 / 6 * h ^ 2 + (0 + 1 * ((r.b ^ 2 - 1) * (|x 0| + 3 * h))) / h) + (r.b ^ 3 - 1) * (1 + (0 / 6 * h ^ 2 + (0 + 1 * ((r.b ^ 2 - 1) * (|x 0| + 3 * h))) / h)) := by
  have := C154_gradient_rounded r (fun y : Fin 1 → ℝ => y 0) (fun y => y 0) (contDiff_apply ℝ ℝ (0 : Fin 1)) 0 x h _ 0 1 0 hh le_rfl
    (fun y _ => by simp) (fun y _ => by rw [pd_id]; simp) (fun y _ => by rw [pd_id, pd_const, pd_const]; simp)
  rwa [pd_id] at this

example (r : Rounding) (h : ℝ) (hh : 0 < h) : ∃ C, |hessianR r (fun y : Fin 1 → ℝ => y 0) h (fun _ => 0) 0 0 - 0| ≤ C := by
  have := C154_diagonal_rounded r (fun y : Fin 1 → ℝ => y 0) (fun y => y 0) (contDiff_apply ℝ ℝ (0 : Fin 1)) 0 (fun _ => 0) h _ 0
    (2 * h + (r.b ^ 6 - 1) * (|(0 : ℝ)| + 6 * h)) 1 0 hh le_rfl
    (fun y _ => by simp) (fun y hy => by simpa using hy 0) (fun y _ => by rw [pd_id]; simp)
    (fun y _ => by simp only [Function.iterate_succ, Function.iterate_zero, Function.comp, id]; rw [pd_id, pd_const, pd_const, pd_const, pd_const, pd_const]; simp)
  rw [pd_id, pd_const] at this
  exact ⟨_, this⟩

end
end Fdapde.Fields
