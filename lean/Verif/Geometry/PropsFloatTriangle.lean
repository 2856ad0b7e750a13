import Verif.Geometry.FloatInverse
import Verif.Geometry.PropsFloatSearch
/- C150 : point location in floating point on triangles of the plane, with the inverse as computed. -/
namespace Fdapde.Geometry
open KDTree BinTree Fdapde.Fp Matrix

/-! ### Values of the rounding -/

theorem nearest_eq {y : ℝ} {m : ℤ} (h : |y - m| < 1 / 2 ∨ (|y - m| = 1 / 2 ∧ Even m)) : nearest y = m := by
  have hle : |y - m| ≤ 1 / 2 := by rcases h with h | h; exacts [h.le, h.1.le]
  obtain ⟨l, u⟩ := abs_le.1 hle
  by_cases hy : (m : ℝ) ≤ y
  · have hf : ⌊y⌋ = m := by rw [Int.floor_eq_iff]; constructor <;> linarith
    unfold nearest
    rw [hf]
    rw [abs_of_nonneg (by linarith)] at h
    rcases h with h | ⟨h, e⟩
    · rw [if_pos h]
    · rw [if_neg (by linarith), if_neg (by linarith), if_pos e]
  · push Not at hy
    have hf : ⌊y⌋ = m - 1 := by rw [Int.floor_eq_iff]; push_cast; constructor <;> linarith
    unfold nearest
    rw [hf]
    push_cast
    rw [abs_of_nonpos (by linarith)] at h
    rcases h with h | ⟨h, e⟩
    · rw [if_neg (by linarith), if_pos (by linarith)]; ring
    · have : ¬ Even (m - 1) := by rw [Int.not_even_iff_odd]; exact e.sub_odd odd_one
      rw [if_neg (by linarith), if_neg (by linarith), if_neg this]; ring

/-- The value of the rounding from a mantissa of 53 bits. -/
theorem rnd64_eval {x : ℝ} (m : ℤ) (k : Nat) (h1 : (2 : ℝ) ^ 52 ≤ x * 2 ^ k) (h2 : x * 2 ^ k < (2 : ℝ) ^ 53)
    (h : |x * 2 ^ k - m| < 1 / 2 ∨ (|x * 2 ^ k - m| = 1 / 2 ∧ Even m)) : rnd64 x = m / 2 ^ k := by
  have hk : (0 : ℝ) < 2 ^ k := by positivity
  have hx : 0 < x := by
    by_contra hc
    have : x * 2 ^ k ≤ 0 := mul_nonpos_of_nonpos_of_nonneg (not_lt.1 hc) hk.le
    have : (0 : ℝ) < 2 ^ 52 := by positivity
    linarith
  have e : ∀ j : Nat, (2 : ℝ) ^ ((j : ℤ) - k) = 2 ^ j / 2 ^ k := fun j => by
    rw [zpow_sub₀ (by norm_num), zpow_natCast, zpow_natCast]
  have hl : Int.log 2 |x| = 52 - k := by
    rw [abs_of_pos hx]
    refine le_antisymm ?_ ?_
    · have : Int.log 2 x < 53 - k := by
        rw [← Int.lt_zpow_iff_log_lt (by norm_num) hx]
        have := e 53
        push_cast at this ⊢
        rw [this, lt_div_iff₀ hk]
        exact h2
      omega
    · rw [← Int.zpow_le_iff_le_log (by norm_num) hx]
      have := e 52
      push_cast at this ⊢
      rw [this, div_le_iff₀ hk]
      exact h1
  have hu : ulp x = 1 / 2 ^ k := by
    unfold ulp
    rw [hl, show (52 - (k : ℤ) - 52) = ((0 : Nat) : ℤ) - k by push_cast; ring, e 0, pow_zero]
  unfold rnd64
  rw [if_pos hx.le]
  unfold rndPos
  rw [hu, show x / (1 / 2 ^ k) = x * 2 ^ k by field_simp, nearest_eq h]
  ring

/-! ### Bound of the coordinates -/

section bound
variable (r : Rounding)

/-- The coordinates computed in a cell with sides `(a, b)` and `(c, d)` from the first vertex, for the point at `(v, w)` from it. -/
theorem tri_coords {a b c d v w a' b' c' d' v' w' : ℝ} (ha : r.Err 1 |a| a a') (hb : r.Err 1 |b| b b') (hc : r.Err 1 |c| c c') (hd : r.Err 1 |d| d d')
    (hv : r.Err 1 |v| v v') (hw : r.Err 1 |w| w w') {D' q z1 z2 s : ℝ} (eD : D' = r.rnd (r.rnd (a' * d') - r.rnd (b' * c'))) (eq : q = r.rnd (1 / D'))
    (e1 : z1 = r.rnd (r.rnd (r.rnd (d' * q) * v') + r.rnd (r.rnd (-c' * q) * w')))
    (e2 : z2 = r.rnd (r.rnd (r.rnd (-b' * q) * v') + r.rnd (r.rnd (a' * q) * w'))) (es : s = r.rnd (z1 + z2)) :
    r.Err 4 (|a| * |d| + |b| * |c|) (a * d - b * c) D' ∧ r.Err 5 (|d| * |q| * |v| + |c| * |q| * |w|) (d * q * v + -c * q * w) z1 ∧
      r.Err 5 (|b| * |q| * |v| + |a| * |q| * |w|) (-b * q * v + a * q * w) z2 ∧
      r.Err 6 ((|d| * |q| * |v| + |c| * |q| * |w|) + (|b| * |q| * |v| + |a| * |q| * |w|)) ((d * q * v + -c * q * w) + (-b * q * v + a * q * w)) s := by
  have hq : r.Err 0 |q| q q := .exact q
  have h1 : r.Err 5 (|d| * |q| * |v| + |c| * |q| * |w|) (d * q * v + -c * q * w) z1 := by
    rw [e1]
    have hx : r.Err 4 (|d| * |q| * |v|) (d * q * v) (r.rnd (r.rnd (d' * q) * v')) := ((hd.mul hq).rnd.mul hv).rnd
    have hy : r.Err 4 (|c| * |q| * |w|) (-c * q * w) (r.rnd (r.rnd (-c' * q) * w')) := ((hc.neg.mul hq).rnd.mul hw).rnd
    exact (hx.add hy).rnd
  have h2 : r.Err 5 (|b| * |q| * |v| + |a| * |q| * |w|) (-b * q * v + a * q * w) z2 := by
    rw [e2]
    have hx : r.Err 4 (|b| * |q| * |v|) (-b * q * v) (r.rnd (r.rnd (-b' * q) * v')) := ((hb.neg.mul hq).rnd.mul hv).rnd
    have hy : r.Err 4 (|a| * |q| * |w|) (a * q * w) (r.rnd (r.rnd (a' * q) * w')) := ((ha.mul hq).rnd.mul hw).rnd
    exact (hx.add hy).rnd
  refine ⟨?_, h1, h2, ?_⟩
  · rw [eD]
    have hx : r.Err 3 (|a| * |d|) (a * d) (r.rnd (a' * d')) := (ha.mul hd).rnd
    have hy : r.Err 3 (|b| * |c|) (b * c) (r.rnd (b' * c')) := (hb.mul hc).rnd
    exact (hx.sub hy).rnd
  · rw [es]; exact (h1.add h2).rnd

/-- The reciprocal of the determinant. -/
theorem recip {D D' q M : ℝ} (hD : D ≠ 0) (h : |D' - D| ≤ M) (hM : M < |D|) (eq : q = r.rnd (1 / D')) :
    0 < q * D ∧ q * D * (|D| - M) ≤ (1 + r.u) * |D| := by
  have key : ∀ {D D' q : ℝ}, 0 < D → |D' - D| ≤ M → M < D → q = r.rnd (1 / D') → 0 < q * D ∧ q * D * (D - M) ≤ (1 + r.u) * D := by
    intro D D' q hD h hM eq
    have hD' : D - M ≤ D' := by linarith [(abs_le.1 h).1]
    have hp : 0 < D' := by linarith
    have h1 := r.upper (x := 1 / D') (by positivity)
    have h0 : 0 < q := by
      rw [eq]
      refine lt_of_le_of_ne (r.nonneg (by positivity)) fun e => ?_
      have := r.eq_zero.1 e.symm
      have h2 : 0 < 1 / D' := by positivity
      linarith
    refine ⟨mul_pos h0 hD, ?_⟩
    rw [← eq] at h1
    have h2 : q * (D - M) ≤ 1 + r.u := by
      calc q * (D - M) ≤ q * D' := mul_le_mul_of_nonneg_left hD' h0.le
        _ ≤ (1 + r.u) * (1 / D') * D' := mul_le_mul_of_nonneg_right h1 hp.le
        _ = 1 + r.u := by field_simp
    calc q * D * (D - M) = q * (D - M) * D := by ring
      _ ≤ (1 + r.u) * D := mul_le_mul_of_nonneg_right h2 hD.le
  rcases hD.lt_or_gt with hn | hp
  · have := key (D := -D) (D' := -D') (q := -q) (by linarith) (by rw [← abs_neg]; convert h using 2; ring) (by rw [abs_of_neg hn] at hM; exact hM)
      (by rw [eq, ← r.odd]; congr 1; rw [one_div, one_div, inv_neg])
    rw [abs_of_neg hn]
    exact ⟨by simpa using this.1, by simpa using this.2⟩
  · have := key hp h (by rwa [abs_of_pos hp] at hM) eq
    rw [abs_of_pos hp]
    exact this

/-- A point of a triangle passes the test when the triangle is not too thin. -/
theorem tri_pass {a b c d v w a' b' c' d' v' w' : ℝ} (ha : r.Err 1 |a| a a') (hb : r.Err 1 |b| b b') (hc : r.Err 1 |c| c c') (hd : r.Err 1 |d| d d')
    (hv : r.Err 1 |v| v v') (hw : r.Err 1 |w| w w') {D' q z1 z2 s : ℝ} (eD : D' = r.rnd (r.rnd (a' * d') - r.rnd (b' * c'))) (eq : q = r.rnd (1 / D'))
    (e1 : z1 = r.rnd (r.rnd (r.rnd (d' * q) * v') + r.rnd (r.rnd (-c' * q) * w')))
    (e2 : z2 = r.rnd (r.rnd (r.rnd (-b' * q) * v') + r.rnd (r.rnd (a' * q) * w'))) (es : s = r.rnd (z1 + z2))
    {l1 l2 eps σ : ℝ} (hl1 : 0 ≤ l1) (hl2 : 0 ≤ l2) (hl : l1 + l2 ≤ 1) (ev : v = l1 * a + l2 * c) (ew : w = l1 * b + l2 * d) (heps : 0 ≤ eps)
    (hD0 : a * d - b * c ≠ 0) (s1 : |a| * |d| + |b| * |c| + 2 * (|a| * |b|) ≤ σ) (s2 : |a| * |d| + |b| * |c| + 2 * (|c| * |d|) ≤ σ)
    (H : (1 + r.u) * (|a * d - b * c| + (r.b ^ 6 - 1) * σ) ≤ (1 + eps) * (|a * d - b * c| - (r.b ^ 4 - 1) * (|a| * |d| + |b| * |c|))) :
    -eps ≤ z1 ∧ -eps ≤ z2 ∧ s ≤ 1 + eps := by
  obtain ⟨kD, k1, k2, k3⟩ := tri_coords r ha hb hc hd hv hw eD eq e1 e2 es
  set D := a * d - b * c with hDdef
  set Θ := |a| * |d| + |b| * |c| with hΘ
  have hb1 := r.one_le_b
  have hDp : 0 < |D| := abs_pos.2 hD0
  have hΘ0 : 0 ≤ Θ := by positivity
  have hσ0 : 0 ≤ σ := le_trans (by positivity) s1
  have b4 : 0 ≤ r.b ^ 4 - 1 := by linarith [one_le_pow₀ hb1 (n := 4)]
  have b5 : 0 ≤ r.b ^ 5 - 1 := by linarith [one_le_pow₀ hb1 (n := 5)]
  have b6 : 0 ≤ r.b ^ 6 - 1 := by linarith [one_le_pow₀ hb1 (n := 6)]
  have b56 : r.b ^ 5 ≤ r.b ^ 6 := pow_le_pow_right₀ hb1 (by norm_num)
  set M := (r.b ^ 4 - 1) * Θ with hM
  have hMD : M < |D| := by
    have h1 : 0 < (1 + r.u) * (|D| + (r.b ^ 6 - 1) * σ) := by have := r.u_pos; positivity
    have h2 : 0 < |D| - M := by
      by_contra hc
      have : (1 + eps) * (|D| - M) ≤ 0 := mul_nonpos_of_nonneg_of_nonpos (by linarith) (not_lt.1 hc)
      linarith
    linarith
  obtain ⟨g0, g1⟩ := recip r hD0 kD.2 hMD eq
  set g := q * D with hg
  have habs : |q| * |D| = g := by rw [← abs_mul, abs_of_pos g0]
  have hX : 0 ≤ (r.b ^ 6 - 1) * σ := mul_nonneg b6 hσ0
  have hg' : g * (|D| + (r.b ^ 6 - 1) * σ) ≤ (1 + eps) * |D| := by
    have hDM : 0 < |D| - M := by linarith
    have h1 : g * (|D| - M) * (|D| + (r.b ^ 6 - 1) * σ) ≤ (1 + eps) * |D| * (|D| - M) := by
      calc g * (|D| - M) * (|D| + (r.b ^ 6 - 1) * σ) ≤ (1 + r.u) * |D| * (|D| + (r.b ^ 6 - 1) * σ) :=
            mul_le_mul_of_nonneg_right g1 (by linarith)
        _ = |D| * ((1 + r.u) * (|D| + (r.b ^ 6 - 1) * σ)) := by ring
        _ ≤ |D| * ((1 + eps) * (|D| - M)) := mul_le_mul_of_nonneg_left H hDp.le
        _ = (1 + eps) * |D| * (|D| - M) := by ring
    refine le_of_mul_le_mul_right ?_ hDM
    calc g * (|D| + (r.b ^ 6 - 1) * σ) * (|D| - M) = g * (|D| - M) * (|D| + (r.b ^ 6 - 1) * σ) := by ring
      _ ≤ _ := h1
  have hsmall : g * ((r.b ^ 6 - 1) * σ) ≤ eps * |D| := by
    rcases le_or_gt 1 g with h | h
    · have : |D| ≤ g * |D| := le_mul_of_one_le_left hDp.le h
      have e : g * (|D| + (r.b ^ 6 - 1) * σ) = g * |D| + g * ((r.b ^ 6 - 1) * σ) := by ring
      linarith
    · have h1 : (r.b ^ 6 - 1) * σ ≤ eps * |D| := by
        have h2 : |D| + (r.b ^ 6 - 1) * σ ≤ (1 + r.u) * (|D| + (r.b ^ 6 - 1) * σ) := le_mul_of_one_le_left (by linarith) (by linarith [r.u_pos])
        have h3 : (1 + eps) * (|D| - M) ≤ (1 + eps) * |D| := mul_le_mul_of_nonneg_left (by have := mul_nonneg b4 hΘ0; linarith) (by linarith)
        linarith
      calc g * ((r.b ^ 6 - 1) * σ) ≤ 1 * ((r.b ^ 6 - 1) * σ) := mul_le_mul_of_nonneg_right h.le hX
        _ ≤ _ := by linarith
  -- sizes of the terms
  have hv' : |v| ≤ l1 * |a| + l2 * |c| := by
    rw [ev]
    refine (abs_add_le _ _).trans (le_of_eq ?_)
    rw [abs_mul, abs_mul, abs_of_nonneg hl1, abs_of_nonneg hl2]
  have hw' : |w| ≤ l1 * |b| + l2 * |d| := by
    rw [ew]
    refine (abs_add_le _ _).trans (le_of_eq ?_)
    rw [abs_mul, abs_mul, abs_of_nonneg hl1, abs_of_nonneg hl2]
  have hsum : (|d| * |v| + |c| * |w|) + (|b| * |v| + |a| * |w|) ≤ σ := by
    have t1 := mul_le_mul_of_nonneg_left hv' (abs_nonneg d)
    have t2 := mul_le_mul_of_nonneg_left hw' (abs_nonneg c)
    have t3 := mul_le_mul_of_nonneg_left hv' (abs_nonneg b)
    have t4 := mul_le_mul_of_nonneg_left hw' (abs_nonneg a)
    have u1 := mul_le_mul_of_nonneg_left s1 hl1
    have u2 := mul_le_mul_of_nonneg_left s2 hl2
    have u3 : (l1 + l2) * σ ≤ 1 * σ := mul_le_mul_of_nonneg_right hl hσ0
    have e : |d| * (l1 * |a| + l2 * |c|) + |c| * (l1 * |b| + l2 * |d|) + (|b| * (l1 * |a| + l2 * |c|) + |a| * (l1 * |b| + l2 * |d|)) =
        l1 * (Θ + 2 * (|a| * |b|)) + l2 * (Θ + 2 * (|c| * |d|)) := by rw [hΘ]; ring
    have e' : (l1 + l2) * σ = l1 * σ + l2 * σ := by ring
    linarith
  set M1 := |d| * |v| + |c| * |w| with hM1
  set M2 := |b| * |v| + |a| * |w| with hM2
  have hM10 : 0 ≤ M1 := by positivity
  have hM20 : 0 ≤ M2 := by positivity
  have n1 : d * v - c * w = D * l1 := by rw [ev, ew, hDdef]; ring
  have n2 : -b * v + a * w = D * l2 := by rw [ev, ew, hDdef]; ring
  have c1 : d * q * v + -c * q * w = g * l1 := by
    rw [show d * q * v + -c * q * w = q * (d * v - c * w) by ring, n1, hg]; ring
  have c2 : -b * q * v + a * q * w = g * l2 := by
    rw [show -b * q * v + a * q * w = q * (-b * v + a * w) by ring, n2, hg]; ring
  have m1 : |d| * |q| * |v| + |c| * |q| * |w| = |q| * M1 := by rw [hM1]; ring
  have m2 : |b| * |q| * |v| + |a| * |q| * |w| = |q| * M2 := by rw [hM2]; ring
  rw [c1, m1] at k1
  rw [c2, m2] at k2
  rw [c1, c2, m1, m2] at k3
  -- errors of single coordinates
  have herr : ∀ M' : ℝ, 0 ≤ M' → M' ≤ σ → (r.b ^ 5 - 1) * (|q| * M') ≤ eps := by
    intro M' h0 h1
    refine le_of_mul_le_mul_right (a := |D|) ?_ hDp
    calc (r.b ^ 5 - 1) * (|q| * M') * |D| = (|q| * |D|) * ((r.b ^ 5 - 1) * M') := by ring
      _ = g * ((r.b ^ 5 - 1) * M') := by rw [habs]
      _ ≤ g * ((r.b ^ 6 - 1) * σ) := by
          refine mul_le_mul_of_nonneg_left (mul_le_mul (by linarith) h1 h0 b6) g0.le
      _ ≤ _ := hsmall
  refine ⟨?_, ?_, ?_⟩
  · have := (abs_le.1 k1.2).1
    have h2 := herr M1 hM10 (by linarith)
    have h3 : 0 ≤ g * l1 := mul_nonneg g0.le hl1
    linarith
  · have := (abs_le.1 k2.2).1
    have h2 := herr M2 hM20 (by linarith)
    have h3 : 0 ≤ g * l2 := mul_nonneg g0.le hl2
    linarith
  · have h1 := (abs_le.1 k3.2).2
    have h2 : g * l1 + g * l2 ≤ g := by
      rw [← mul_add]
      exact mul_le_of_le_one_right g0.le hl
    have h3 : (r.b ^ 6 - 1) * (|q| * M1 + |q| * M2) * |D| ≤ g * ((r.b ^ 6 - 1) * σ) := by
      calc (r.b ^ 6 - 1) * (|q| * M1 + |q| * M2) * |D| = (|q| * |D|) * ((r.b ^ 6 - 1) * (M1 + M2)) := by ring
        _ = g * ((r.b ^ 6 - 1) * (M1 + M2)) := by rw [habs]
        _ ≤ _ := mul_le_mul_of_nonneg_left (mul_le_mul_of_nonneg_left hsum b6) g0.le
    have h4 : s ≤ g + (r.b ^ 6 - 1) * (|q| * M1 + |q| * M2) := by linarith
    refine le_of_mul_le_mul_right (a := |D|) ?_ hDp
    have h5 := mul_le_mul_of_nonneg_right h4 hDp.le
    have e : g * (|D| + (r.b ^ 6 - 1) * σ) = g * |D| + g * ((r.b ^ 6 - 1) * σ) := by ring
    have e' : (g + (r.b ^ 6 - 1) * (|q| * M1 + |q| * M2)) * |D| = g * |D| + (r.b ^ 6 - 1) * (|q| * M1 + |q| * M2) * |D| := by ring
    linarith

end bound

/-! ### The property -/

/-- Length of the side from the first vertex to vertex `j`. -/
noncomputable def Simplex.side (S : Simplex 2 2) (j : Fin 3) : ℝ := Real.sqrt (∑ k, (S.coords j k - S.coords 0 k) ^ 2)

/-- The triangle is wide: if α is the angle at the first vertex and ρ ≥ 1 the ratio of the two sides there, `10 + 6 ρ ≤ 18.9 sin α`.  It does not depend on the
position of the triangle, nor on its size. -/
def Simplex.Wide (S : Simplex 2 2) : Prop :=
  0 < S.measure ∧ ∀ j : Fin 3, 10 * (S.side 1 * S.side 2) + 6 * S.side j ^ 2 ≤ 18.9 * (2 * S.measure)

theorem hull_coords (S : Simplex 2 2) {p : Vec 2} (hp : p ∈ convexHull ℝ (Set.range S.coords)) :
    ∃ l1 l2 : ℝ, 0 ≤ l1 ∧ 0 ≤ l2 ∧ l1 + l2 ≤ 1 ∧
      ∀ k, p k - S.coords 0 k = l1 * (S.coords 1 k - S.coords 0 k) + l2 * (S.coords 2 k - S.coords 0 k) := by
  have hsub : convexHull ℝ (Set.range S.coords) ⊆ {p | ∃ l1 l2 : ℝ, 0 ≤ l1 ∧ 0 ≤ l2 ∧ l1 + l2 ≤ 1 ∧
      ∀ k, p k - S.coords 0 k = l1 * (S.coords 1 k - S.coords 0 k) + l2 * (S.coords 2 k - S.coords 0 k)} := by
    refine convexHull_min ?_ ?_
    · rintro x ⟨v, rfl⟩
      fin_cases v
      · exact ⟨0, 0, le_rfl, le_rfl, by norm_num, fun k => by simp⟩
      · exact ⟨1, 0, zero_le_one, le_rfl, by norm_num, fun k => by simp⟩
      · exact ⟨0, 1, le_rfl, zero_le_one, by norm_num, fun k => by simp⟩
    · rintro x ⟨a1, a2, h1, h2, h3, h4⟩ y ⟨b1, b2, g1, g2, g3, g4⟩ s t hs ht hst
      refine ⟨s * a1 + t * b1, s * a2 + t * b2, by positivity, by positivity, ?_, fun k => ?_⟩
      · have e : s * a1 + t * b1 + (s * a2 + t * b2) = s * (a1 + a2) + t * (b1 + b2) := by ring
        rw [e]
        have := mul_le_mul_of_nonneg_left h3 hs
        have := mul_le_mul_of_nonneg_left g3 ht
        linarith
      · simp only [Pi.add_apply, Pi.smul_apply, smul_eq_mul]
        have e : s * x k + t * y k - S.coords 0 k = s * (x k - S.coords 0 k) + t * (y k - S.coords 0 k) := by
          have : S.coords 0 k = (s + t) * S.coords 0 k := by rw [hst, one_mul]
          linear_combination -this
        rw [e, h4 k, g4 k]
        ring
  exact hsub hp

/-- What the test of `contains` looks at. -/
theorem hitR_iff (r : Rounding) (m : SMesh 2 2) (eps : ℝ) (p : Vec 2) (i : Nat) {q z1 z2 s : ℝ}
    (eq : q = r.rnd (1 / r.rnd (r.rnd ((m.cell i).JR r 0 0 * (m.cell i).JR r 1 1) - r.rnd ((m.cell i).JR r 1 0 * (m.cell i).JR r 0 1))))
    (e1 : z1 = r.rnd (r.rnd (r.rnd ((m.cell i).JR r 1 1 * q) * r.rnd (p 0 - (m.cell i).coords 0 0)) +
      r.rnd (r.rnd (-(m.cell i).JR r 0 1 * q) * r.rnd (p 1 - (m.cell i).coords 0 1))))
    (e2 : z2 = r.rnd (r.rnd (r.rnd (-(m.cell i).JR r 1 0 * q) * r.rnd (p 0 - (m.cell i).coords 0 0)) +
      r.rnd (r.rnd ((m.cell i).JR r 0 0 * q) * r.rnd (p 1 - (m.cell i).coords 0 1))))
    (es : s = r.rnd (z1 + z2)) :
    m.hitR r (m.invR r) eps p i = true ↔ -eps ≤ r.rnd (1 - s) ∧ -eps ≤ z1 ∧ -eps ≤ z2 := by
  subst es e1 e2 eq
  simp only [SMesh.hitR, decide_eq_true_eq, not_exists, not_lt]
  rw [Fin.forall_fin_succ, Fin.forall_fin_two]
  exact Iff.rfl

theorem wide_bound {D P Q X Y : ℝ} (hP0 : 0 ≤ P) (hQ0 : 0 ≤ Q) (x1 : X ≤ 6.001 * 2⁻¹ ^ 53 * (P + Q)) (x2 : Y ≤ 4.001 * 2⁻¹ ^ 53 * P)
    (h : 10 * P + 6 * Q ≤ 18.9 * D) : (1 + 2⁻¹ ^ 53) * (D + X) ≤ (1 + 10 * 2⁻¹ ^ 52) * (D - Y) := by
  norm_num at *
  linarith

theorem below_one {s eps : ℝ} (h : s ≤ 1 + eps) : -eps ≤ 1 - s := by linarith

theorem theta_le (a b c d : ℝ) : (|a| * |d| + |b| * |c|) ^ 2 ≤ (a ^ 2 + b ^ 2) * (c ^ 2 + d ^ 2) := by
  have e : (a ^ 2 + b ^ 2) * (c ^ 2 + d ^ 2) = (|a| ^ 2 + |b| ^ 2) * (|c| ^ 2 + |d| ^ 2) := by simp only [sq_abs]
  rw [e]
  nlinarith [sq_nonneg (|a| * |c| - |b| * |d|)]

theorem two_le (a b : ℝ) : 2 * (|a| * |b|) ≤ a ^ 2 + b ^ 2 := by
  have e : a ^ 2 + b ^ 2 = |a| ^ 2 + |b| ^ 2 := by simp only [sq_abs]
  rw [e]
  nlinarith [sq_nonneg (|a| - |b|)]

theorem hitR_of_wide (m : SMesh 2 2) (i : Nat) (hW : (m.cell i).Wide) {p : Vec 2} (hp : p ∈ convexHull ℝ (Set.range (m.cell i).coords)) :
    m.hitR binary64 (m.invR binary64) machineEps p i = true := by
  obtain ⟨l1, l2, h1, h2, h3, h4⟩ := hull_coords _ hp
  rw [hitR_iff binary64 m machineEps p i rfl rfl rfl rfl]
  set S := m.cell i
  have hE : ∀ x : ℝ, binary64.Err 1 |x| x (binary64.rnd x) := fun x => (Rounding.Err.exact x).rnd
  have heps : (0 : ℝ) ≤ machineEps := by unfold machineEps; positivity
  set a := S.coords 1 0 - S.coords 0 0 with ha
  set b := S.coords 1 1 - S.coords 0 1 with hb
  set c := S.coords 2 0 - S.coords 0 0 with hc
  set d := S.coords 2 1 - S.coords 0 1 with hd
  have hdet : S.J.det = a * d - b * c := by
    rw [Matrix.det_fin_two]
    simp only [Simplex.J, Matrix.of_apply, Fin.succ_zero_eq_one, Fin.succ_one_eq_two]
    ring
  have hms : 2 * S.measure = |a * d - b * c| := by
    rw [Simplex.measure, hdet]; norm_num; ring
  obtain ⟨w0, wj⟩ := hW
  rw [hms] at wj
  have hDp : 0 < |a * d - b * c| := by rw [← hms]; linarith
  have q1 : S.side 1 ^ 2 = a ^ 2 + b ^ 2 := by
    rw [Simplex.side, Real.sq_sqrt (by positivity), Fin.sum_univ_two]
  have q2 : S.side 2 ^ 2 = c ^ 2 + d ^ 2 := by
    rw [Simplex.side, Real.sq_sqrt (by positivity), Fin.sum_univ_two]
  have p1 : 0 ≤ S.side 1 := Real.sqrt_nonneg _
  have p2 : 0 ≤ S.side 2 := Real.sqrt_nonneg _
  set P := S.side 1 * S.side 2 with hP
  have hP0 : 0 ≤ P := mul_nonneg p1 p2
  have hΘ : |a| * |d| + |b| * |c| ≤ P := by
    refine abs_le_of_sq_le_sq' ?_ hP0 |>.2
    rw [hP, mul_pow, q1, q2]
    exact theta_le a b c d
  set Q := max (S.side 1 ^ 2) (S.side 2 ^ 2) with hQ
  have hQ0 : 0 ≤ Q := le_max_of_le_left (sq_nonneg _)
  have hwide : 10 * P + 6 * Q ≤ 18.9 * |a * d - b * c| := by
    rcases max_choice (S.side 1 ^ 2) (S.side 2 ^ 2) with h | h <;> rw [hQ, h]
    exacts [wj 1, wj 2]
  have s1 : |a| * |d| + |b| * |c| + 2 * (|a| * |b|) ≤ P + Q := by
    have h5 : S.side 1 ^ 2 ≤ Q := le_max_left _ _
    rw [q1] at h5
    linarith [two_le a b]
  have s2 : |a| * |d| + |b| * |c| + 2 * (|c| * |d|) ≤ P + Q := by
    have h5 : S.side 2 ^ 2 ≤ Q := le_max_right _ _
    rw [q2] at h5
    linarith [two_le c d]
  have hu : binary64.u = 2⁻¹ ^ 53 := rfl
  have g6 := binary64.gamma 6
  have g4 := binary64.gamma 4
  have b6 : binary64.b ^ 6 - 1 ≤ 6.001 * 2⁻¹ ^ 53 := by
    rw [hu] at g6
    norm_num at g6 ⊢
    linarith
  have b4 : binary64.b ^ 4 - 1 ≤ 4.001 * 2⁻¹ ^ 53 := by
    rw [hu] at g4
    norm_num at g4 ⊢
    linarith
  have b40 : 0 ≤ binary64.b ^ 4 - 1 := by linarith [one_le_pow₀ binary64.one_le_b (n := 4)]
  have H : (1 + binary64.u) * (|a * d - b * c| + (binary64.b ^ 6 - 1) * (P + Q)) ≤
      (1 + machineEps) * (|a * d - b * c| - (binary64.b ^ 4 - 1) * (|a| * |d| + |b| * |c|)) := by
    have x1 := mul_le_mul_of_nonneg_right b6 (add_nonneg hP0 hQ0)
    have x2 := (mul_le_mul_of_nonneg_left hΘ b40).trans (mul_le_mul_of_nonneg_right b4 hP0)
    rw [hu, machineEps]
    exact wide_bound hP0 hQ0 x1 x2 hwide
  obtain ⟨r1, r2, r3⟩ := tri_pass binary64 (hE a) (hE b) (hE c) (hE d) (hE (p 0 - S.coords 0 0)) (hE (p 1 - S.coords 0 1)) rfl rfl rfl rfl rfl h1 h2 h3
    (h4 0) (h4 1) heps (abs_pos.1 hDp) s1 s2 H
  refine ⟨?_, r1, r2⟩
  have hdbl : binary64.rnd (-machineEps) = -machineEps := by
    refine rnd64_double ⟨-5, -51, by norm_num, ?_⟩
    unfold machineEps
    norm_num
  rw [← hdbl]
  exact binary64.mono (below_one r3)

/-- **C150**: on a mesh of triangles in the plane, a point that lies in a wide cell is never lost in floating point: locate answers a cell, with no exception and
no undefined behaviour, and the exact barycentric coordinates of the point in that cell are not below zero by more than the tolerance of the code and
the error of the computed coordinates.  The matrix is inverted in floating point too.  What is missing for all meshes is false: `C150_bug_vertex`, `C150_bug_interior`. -/
theorem C150_locate_partial (m : SMesh 2 2) (hm : m.Ok) (nth) (hnth : NthContract nth) (ord : List Nat → List Nat) (hord : ∀ l, (ord l).Perm l)
    (p : Vec 2) (i : Nat) (hi : i < m.n) (hp : p ∈ convexHull ℝ (Set.range (m.cell i).coords)) (hW : (m.cell i).Wide) :
    ∃ j < m.n, m.locateR binary64 (m.invR binary64) nth ord machineEps p = some (.ok (j : Int)) ∧
      ∀ k, -(machineEps + (m.cell j).baryErr binary64 (m.invR binary64 j) p) ≤ (m.cell j).bary p k := by
  obtain ⟨l, h1, h2, h3, h4⟩ := C135_candidates m hm (by norm_num) nth hnth ord hord p
  have hmem : i ∈ l := by
    refine h4 i hi fun k => ?_
    have hb := mem_boundingBox _ p hp k
    obtain ⟨v, _, hv⟩ := Finset.exists_mem_eq_inf' Finset.univ_nonempty (fun v => (m.cell i).coords v k)
    obtain ⟨w, _, hw⟩ := Finset.exists_mem_eq_sup' Finset.univ_nonempty (fun v => (m.cell i).coords v k)
    exact ⟨⟨v, by rw [← hv]; exact hb.1⟩, ⟨w, by rw [← hw]; exact hb.2⟩⟩
  rcases scanFirst_spec (m.hitR binary64 (m.invR binary64) machineEps p) l with ⟨h5, h6⟩ | ⟨j, h5, h6, h7⟩
  · exact absurd (h6 i hmem) (by simp [hitR_of_wide m i hW hp])
  · refine ⟨j, h3 j h5, by simp only [SMesh.locateR, h1, h7], fun k => ?_⟩
    simp only [SMesh.hitR, decide_eq_true_eq, not_exists, not_lt] at h6
    have he := (abs_le.1 (C135_bary binary64 (m.invR binary64 j) (m.cell j) p k)).2
    linarith [h6 k]

/-- **C150**, all_locate: every wide cell that holds the point is among the cells returned. -/
theorem C150_all_locate_partial (m : SMesh 2 2) (hm : m.Ok) (nth) (hnth : NthContract nth) (ord : List Nat → List Nat) (hord : ∀ l, (ord l).Perm l)
    (p : Vec 2) : ∃ l, m.allLocateR binary64 (m.invR binary64) nth ord machineEps p = some (.ok l) ∧ l.Nodup ∧
      ∀ i < m.n, p ∈ convexHull ℝ (Set.range (m.cell i).coords) → (m.cell i).Wide → i ∈ l := by
  obtain ⟨l, h1, h2, h3, h4⟩ := C135_candidates m hm (by norm_num) nth hnth ord hord p
  refine ⟨l.filter (m.hitR binary64 (m.invR binary64) machineEps p), by simp only [SMesh.allLocateR, h1, scanAll_eq, List.nil_append], h2.filter _, fun i hi hp hW => ?_⟩
  rw [List.mem_filter]
  refine ⟨h4 i hi fun k => ?_, hitR_of_wide m i hW hp⟩
  have hb := mem_boundingBox _ p hp k
  obtain ⟨v, _, hv⟩ := Finset.exists_mem_eq_inf' Finset.univ_nonempty (fun v => (m.cell i).coords v k)
  obtain ⟨w, _, hw⟩ := Finset.exists_mem_eq_sup' Finset.univ_nonempty (fun v => (m.cell i).coords v k)
  exact ⟨⟨v, by rw [← hv]; exact hb.1⟩, ⟨w, by rw [← hw]; exact hb.2⟩⟩

/-- **C150**, first vertices: a node that is the first vertex of some cell is located, whatever the shape of the cells. -/
theorem C150_first_vertex (m : SMesh 2 2) (hm : m.Ok) (nth) (hnth : NthContract nth) (ord : List Nat → List Nat) (hord : ∀ l, (ord l).Perm l)
    (i : Nat) (hi : i < m.n) : ∃ j < m.n, m.locateR binary64 (m.invR binary64) nth ord machineEps ((m.cell i).coords 0) = some (.ok (j : Int)) := by
  obtain ⟨l, h1, h2, h3, h4⟩ := C135_candidates m hm (by norm_num) nth hnth ord hord ((m.cell i).coords 0)
  have hmem : i ∈ l := h4 i hi fun k => ⟨⟨0, le_rfl⟩, ⟨0, le_rfl⟩⟩
  have heps : (0 : ℝ) ≤ machineEps := by unfold machineEps; positivity
  have hhit : m.hitR binary64 (m.invR binary64) machineEps ((m.cell i).coords 0) i = true := by
    rw [hitR_iff binary64 m machineEps _ i rfl rfl rfl rfl]
    simp only [sub_self, binary64.zero, mul_zero, add_zero, sub_zero]
    exact ⟨(neg_nonpos.2 heps).trans (binary64.nonneg zero_le_one), by linarith, by linarith⟩
  rcases scanFirst_spec (m.hitR binary64 (m.invR binary64) machineEps ((m.cell i).coords 0)) l with ⟨h5, h6⟩ | ⟨j, h5, h6, h7⟩
  · exact absurd (h6 i hmem) (by simp [hhit])
  · exact ⟨j, h3 j h5, by simp only [SMesh.locateR, h1, h7]⟩

/-! ### Points of the mesh that locate does not find -/

theorem rnd64_rep (m : ℤ) (k : Nat) (h : |m| < 2 ^ 53) : rnd64 (m / 2 ^ k) = m / 2 ^ k :=
  rnd64_double ⟨m, -k, h, by rw [zpow_neg, zpow_natCast, div_eq_mul_inv]⟩

theorem rnd64_lt {x : ℝ} (m : ℤ) (k : Nat) (h1 : (2 : ℝ) ^ 52 ≤ x * 2 ^ k) (h2 : x * 2 ^ k < (2 : ℝ) ^ 53)
    (h3 : m - 1 / 2 < x * 2 ^ k) (h4 : x * 2 ^ k < m + 1 / 2) : rnd64 x = m / 2 ^ k :=
  rnd64_eval m k h1 h2 (Or.inl (by rw [abs_lt]; constructor <;> linarith))

theorem rnd64_tie {x : ℝ} (m : ℤ) (k : Nat) (h1 : (2 : ℝ) ^ 52 ≤ x * 2 ^ k) (h2 : x * 2 ^ k < (2 : ℝ) ^ 53)
    (h3 : x * 2 ^ k = m + 1 / 2 ∨ x * 2 ^ k = m - 1 / 2) (h4 : Even m) : rnd64 x = m / 2 ^ k :=
  rnd64_eval m k h1 h2 (Or.inr ⟨by rcases h3 with h | h <;> rw [h] <;> [rw [abs_of_pos]; rw [abs_of_neg]] <;> norm_num, h4⟩)

theorem rnd64_flip {x y : ℝ} (h : rnd64 (-x) = -y) : rnd64 x = y := by
  rw [rnd64_neg] at h; exact neg_injective h

/-- No cell passes the test: locate answers -1. -/
theorem locateR_none (m : SMesh 2 2) (hm : m.Ok) (nth) (hnth : NthContract nth) (ord : List Nat → List Nat) (hord : ∀ l, (ord l).Perm l) (p : Vec 2)
    (h : ∀ i < m.n, m.hitR binary64 (m.invR binary64) machineEps p i = false) :
    m.locateR binary64 (m.invR binary64) nth ord machineEps p = some (.ok (-1)) := by
  obtain ⟨l, h1, h2, h3, h4⟩ := C135_candidates m hm (by norm_num) nth hnth ord hord p
  rcases scanFirst_spec (m.hitR binary64 (m.invR binary64) machineEps p) l with ⟨h5, h6⟩ | ⟨j, h5, h6, h7⟩
  · simp only [SMesh.locateR, h1, h5]
  · rw [h j (h3 j h5)] at h6
    cases h6

/-- A triangle of the plane. -/
noncomputable def triOf (a b c : Vec 2) : Simplex 2 2 := ⟨![a, b, c]⟩

/-- A mesh of one cell whose third vertex is not found. -/
noncomputable def vertexMesh : SMesh 2 2 := ⟨fun _ => triOf ![0, 0] ![3, 2] ![9, 7], 1, ![0, 0], ![9, 7]⟩

theorem triOf_measure (a b c : Vec 2) :
    (triOf a b c).measure = |(b 0 - a 0) * (c 1 - a 1) - (b 1 - a 1) * (c 0 - a 0)| / 2 := by
  have hdet : (triOf a b c).J.det = (b 0 - a 0) * (c 1 - a 1) - (b 1 - a 1) * (c 0 - a 0) := by
    rw [Matrix.det_fin_two]
    show (b 0 - a 0) * (c 1 - a 1) - (c 0 - a 0) * (b 1 - a 1) = _
    ring
  rw [Simplex.measure, hdet]; norm_num

theorem vertexMesh_ok : vertexMesh.Ok := by
  refine ⟨by simp [vertexMesh], fun k => ?_, fun i _ v k => ?_⟩
  · fin_cases k <;> simp [vertexMesh]
  · fin_cases v <;> fin_cases k <;> simp [vertexMesh, triOf] <;> norm_num

theorem vertexMesh_hit : vertexMesh.hitR binary64 (vertexMesh.invR binary64) machineEps ![9, 7] 0 = false := by
  have r0 : rnd64 3 = 3 := by have := rnd64_rep 3 0 (by norm_num); norm_num at this; exact this
  have r1 : rnd64 2 = 2 := by have := rnd64_rep 2 0 (by norm_num); norm_num at this; exact this
  have r2 : rnd64 9 = 9 := by have := rnd64_rep 9 0 (by norm_num); norm_num at this; exact this
  have r3 : rnd64 7 = 7 := by have := rnd64_rep 7 0 (by norm_num); norm_num at this; exact this
  have r4 : rnd64 (3 * 7) = 21 := by have := rnd64_rep 21 0 (by norm_num); norm_num at this ⊢; exact this
  have r5 : rnd64 (2 * 9) = 18 := by have := rnd64_rep 18 0 (by norm_num); norm_num at this ⊢; exact this
  have r6 : rnd64 (21 - 18) = 3 := by norm_num; exact r0
  have r7 : rnd64 (1 / 3) = (6004799503160661 : ℤ) / 2 ^ 54 := rnd64_lt _ 54 (by norm_num) (by norm_num) (by norm_num) (by norm_num)
  have r8 : rnd64 (7 * ((6004799503160661 : ℤ) / 2 ^ 54)) = (5254199565265578 : ℤ) / 2 ^ 51 :=
    rnd64_lt _ 51 (by norm_num) (by norm_num) (by norm_num) (by norm_num)
  have r9 : rnd64 (-9 * ((6004799503160661 : ℤ) / 2 ^ 54)) = -((6755399441055744 : ℤ) / 2 ^ 51) :=
    rnd64_flip (by rw [neg_neg]; exact rnd64_lt _ 51 (by norm_num) (by norm_num) (by norm_num) (by norm_num))
  have r10 : rnd64 ((5254199565265578 : ℤ) / 2 ^ 51 * 9) = (5910974510923775 : ℤ) / 2 ^ 48 :=
    rnd64_lt _ 48 (by norm_num) (by norm_num) (by norm_num) (by norm_num)
  have r11 : rnd64 (-((6755399441055744 : ℤ) / 2 ^ 51) * 7) = -21 := by
    have := rnd64_rep (-21) 0 (by norm_num); norm_num at this ⊢; exact this
  have r12 : rnd64 ((5910974510923775 : ℤ) / 2 ^ 48 + -21) = -2⁻¹ ^ 48 := by
    have := rnd64_rep (-1) 48 (by norm_num); norm_num at this ⊢; exact this
  rw [Bool.eq_false_iff, ne_eq, hitR_iff binary64 vertexMesh machineEps _ 0 rfl rfl rfl rfl, not_and_or, not_and_or, not_le, not_le]
  refine Or.inr (Or.inl ?_)
  have e00 : (vertexMesh.cell 0).JR binary64 0 0 = 3 := by
    show rnd64 ((3 : ℝ) - 0) = 3; rw [sub_zero, r0]
  have e10 : (vertexMesh.cell 0).JR binary64 1 0 = 2 := by
    show rnd64 ((2 : ℝ) - 0) = 2; rw [sub_zero, r1]
  have e01 : (vertexMesh.cell 0).JR binary64 0 1 = 9 := by
    show rnd64 ((9 : ℝ) - 0) = 9; rw [sub_zero, r2]
  have e11 : (vertexMesh.cell 0).JR binary64 1 1 = 7 := by
    show rnd64 ((7 : ℝ) - 0) = 7; rw [sub_zero, r3]
  rw [e00, e10, e01, e11]
  show rnd64 (rnd64 (rnd64 (7 * rnd64 (1 / rnd64 (rnd64 (3 * 7) - rnd64 (2 * 9)))) * rnd64 ((9 : ℝ) - 0)) +
    rnd64 (rnd64 (-9 * rnd64 (1 / rnd64 (rnd64 (3 * 7) - rnd64 (2 * 9)))) * rnd64 ((7 : ℝ) - 0))) < -machineEps
  rw [sub_zero, sub_zero, r2, r3, r4, r5, r6, r7, r8, r9, r10, r11, r12]
  unfold machineEps
  norm_num

/-- **C150**, negation for triangles that are not wide.  On the mesh with the one cell (0,0), (3,2), (9,7), the node (9,7), which is a vertex of that cell, is not
found: the inverse is rounded, the second coordinate comes out as -2^-48, and the tolerance of the code is ten times 2^-52.  locate answers -1, "outside the domain".  simplex.h:119-123, 186. -/
theorem C150_bug_vertex (nth) (hnth : NthContract nth) (ord : List Nat → List Nat) (hord : ∀ l, (ord l).Perm l) :
    ∃ m : SMesh 2 2, m.Ok ∧ 0 < (m.cell 0).measure ∧ ∃ v, m.locateR binary64 (m.invR binary64) nth ord machineEps ((m.cell 0).coords v) = some (.ok (-1)) := by
  refine ⟨vertexMesh, vertexMesh_ok, ?_, 2, locateR_none _ vertexMesh_ok nth hnth ord hord _ fun i hi => ?_⟩
  · show 0 < (triOf ![0, 0] ![3, 2] ![9, 7]).measure
    rw [triOf_measure]; norm_num
  · have : i = 0 := by simp only [vertexMesh] at hi; omega
    rw [this]
    exact vertexMesh_hit

/-- A mesh of two cells that share the side from (0,0) to (6,6). -/
noncomputable def edgeMesh : SMesh 2 2 :=
  ⟨fun i => if i = 0 then triOf ![-8, -7] ![0, 0] ![6, 6] else triOf ![-7, -8] ![0, 0] ![6, 6], 2, ![-8, -8], ![6, 6]⟩

theorem edgeMesh_ok : edgeMesh.Ok := by
  refine ⟨by simp [edgeMesh], fun k => ?_, fun i _ v k => ?_⟩
  · fin_cases k <;> simp [edgeMesh] <;> norm_num
  · by_cases h : i = 0 <;> fin_cases v <;> fin_cases k <;> simp [edgeMesh, triOf, h] <;> norm_num

theorem edgeMesh_hit (i : Nat) (hi : i < 2) : edgeMesh.hitR binary64 (edgeMesh.invR binary64) machineEps ![3, 3] i = false := by
  have int : ∀ n : ℤ, |n| < 2 ^ 53 → rnd64 n = n := fun n hn => by have := rnd64_rep n 0 hn; simpa using this
  have g8 : rnd64 8 = 8 := by exact_mod_cast int 8 (by norm_num)
  have g7 : rnd64 7 = 7 := by exact_mod_cast int 7 (by norm_num)
  have g14 : rnd64 14 = 14 := by exact_mod_cast int 14 (by norm_num)
  have g13 : rnd64 13 = 13 := by exact_mod_cast int 13 (by norm_num)
  have g11 : rnd64 11 = 11 := by exact_mod_cast int 11 (by norm_num)
  have g10 : rnd64 10 = 10 := by exact_mod_cast int 10 (by norm_num)
  have g104 : rnd64 104 = 104 := by exact_mod_cast int 104 (by norm_num)
  have g98 : rnd64 98 = 98 := by exact_mod_cast int 98 (by norm_num)
  have g6 : rnd64 6 = 6 := by exact_mod_cast int 6 (by norm_num)
  have gq : rnd64 (1 / 6) = (6004799503160661 : ℤ) / 2 ^ 55 := rnd64_lt _ 55 (by norm_num) (by norm_num) (by norm_num) (by norm_num)
  have k13 : rnd64 (13 * ((6004799503160661 : ℤ) / 2 ^ 55)) = (4878899596318037 : ℤ) / 2 ^ 51 :=
    rnd64_lt _ 51 (by norm_num) (by norm_num) (by norm_num) (by norm_num)
  have k14 : rnd64 (14 * ((6004799503160661 : ℤ) / 2 ^ 55)) = (5254199565265578 : ℤ) / 2 ^ 51 :=
    rnd64_lt _ 51 (by norm_num) (by norm_num) (by norm_num) (by norm_num)
  have k7 : rnd64 (7 * ((6004799503160661 : ℤ) / 2 ^ 55)) = (5254199565265578 : ℤ) / 2 ^ 52 :=
    rnd64_lt _ 52 (by norm_num) (by norm_num) (by norm_num) (by norm_num)
  have k8 : rnd64 (8 * ((6004799503160661 : ℤ) / 2 ^ 55)) = (6004799503160661 : ℤ) / 2 ^ 52 :=
    rnd64_lt _ 52 (by norm_num) (by norm_num) (by norm_num) (by norm_num)
  have t0 : rnd64 ((4878899596318037 : ℤ) / 2 ^ 51 * 11) = (6708486944937301 : ℤ) / 2 ^ 48 :=
    rnd64_lt _ 48 (by norm_num) (by norm_num) (by norm_num) (by norm_num)
  have t1 : rnd64 ((5254199565265578 : ℤ) / 2 ^ 51 * 10) = (6567749456581972 : ℤ) / 2 ^ 48 :=
    rnd64_tie _ 48 (by norm_num) (by norm_num) (by norm_num) (by decide)
  have t2 : rnd64 ((5254199565265578 : ℤ) / 2 ^ 52 * 11) = (7224524402240170 : ℤ) / 2 ^ 49 :=
    rnd64_lt _ 49 (by norm_num) (by norm_num) (by norm_num) (by norm_num)
  have t3 : rnd64 ((6004799503160661 : ℤ) / 2 ^ 52 * 10) = (7505999378950826 : ℤ) / 2 ^ 49 :=
    rnd64_lt _ 49 (by norm_num) (by norm_num) (by norm_num) (by norm_num)
  have z1 : rnd64 ((6708486944937301 : ℤ) / 2 ^ 48 + -((6567749456581972 : ℤ) / 2 ^ 48)) = (4503599627370528 : ℤ) / 2 ^ 53 := by
    have := rnd64_rep 4503599627370528 53 (by norm_num); norm_num at this ⊢; exact this
  have z2 : rnd64 (-((7224524402240170 : ℤ) / 2 ^ 49) + (7505999378950826 : ℤ) / 2 ^ 49) = 1 / 2 := by
    have := rnd64_rep 1 1 (by norm_num); norm_num at this ⊢; exact this
  have z3 : rnd64 ((4503599627370528 : ℤ) / 2 ^ 53 + 1 / 2) = (4503599627370512 : ℤ) / 2 ^ 52 := by
    have := rnd64_rep 4503599627370512 52 (by norm_num); norm_num at this ⊢; exact this
  have z0 : rnd64 (1 - (4503599627370512 : ℤ) / 2 ^ 52) = -2⁻¹ ^ 48 := by
    have := rnd64_rep (-1) 48 (by norm_num); norm_num at this ⊢; exact this
  rw [Bool.eq_false_iff, ne_eq, hitR_iff binary64 edgeMesh machineEps _ i rfl rfl rfl rfl, not_and_or, not_le]
  refine Or.inl ?_
  have hfin : (-2⁻¹ ^ 48 : ℝ) < -machineEps := by unfold machineEps; norm_num
  have hcase : i = 0 ∨ i = 1 := by omega
  rcases hcase with rfl | rfl
  · have e00 : (edgeMesh.cell 0).JR binary64 0 0 = 8 := by
      show rnd64 ((0 : ℝ) - -8) = 8; rw [show (0 : ℝ) - -8 = 8 by norm_num, g8]
    have e10 : (edgeMesh.cell 0).JR binary64 1 0 = 7 := by
      show rnd64 ((0 : ℝ) - -7) = 7; rw [show (0 : ℝ) - -7 = 7 by norm_num, g7]
    have e01 : (edgeMesh.cell 0).JR binary64 0 1 = 14 := by
      show rnd64 ((6 : ℝ) - -8) = 14; rw [show (6 : ℝ) - -8 = 14 by norm_num, g14]
    have e11 : (edgeMesh.cell 0).JR binary64 1 1 = 13 := by
      show rnd64 ((6 : ℝ) - -7) = 13; rw [show (6 : ℝ) - -7 = 13 by norm_num, g13]
    have d : rnd64 (1 / rnd64 (rnd64 (8 * 13) - rnd64 (7 * 14))) = (6004799503160661 : ℤ) / 2 ^ 55 := by
      rw [show (8 : ℝ) * 13 = 104 by norm_num, show (7 : ℝ) * 14 = 98 by norm_num, g104, g98, show (104 : ℝ) - 98 = 6 by norm_num, g6, gq]
    rw [e00, e10, e01, e11]
    show rnd64 (1 - rnd64 (rnd64 (rnd64 (rnd64 (13 * rnd64 (1 / rnd64 (rnd64 (8 * 13) - rnd64 (7 * 14)))) * rnd64 ((3 : ℝ) - -8)) +
        rnd64 (rnd64 (-14 * rnd64 (1 / rnd64 (rnd64 (8 * 13) - rnd64 (7 * 14)))) * rnd64 ((3 : ℝ) - -7))) +
      rnd64 (rnd64 (rnd64 (-7 * rnd64 (1 / rnd64 (rnd64 (8 * 13) - rnd64 (7 * 14)))) * rnd64 ((3 : ℝ) - -8)) +
        rnd64 (rnd64 (8 * rnd64 (1 / rnd64 (rnd64 (8 * 13) - rnd64 (7 * 14)))) * rnd64 ((3 : ℝ) - -7))))) < -machineEps
    rw [d, show (3 : ℝ) - -8 = 11 by norm_num, show (3 : ℝ) - -7 = 10 by norm_num, g11, g10, k13, k8, neg_mul, neg_mul, rnd64_neg, rnd64_neg, k14, k7,
      neg_mul, neg_mul, rnd64_neg, rnd64_neg, t0, t1, t2, t3, z1, z2, z3, z0]
    exact hfin
  · have e00 : (edgeMesh.cell 1).JR binary64 0 0 = 7 := by
      show rnd64 ((0 : ℝ) - -7) = 7; rw [show (0 : ℝ) - -7 = 7 by norm_num, g7]
    have e10 : (edgeMesh.cell 1).JR binary64 1 0 = 8 := by
      show rnd64 ((0 : ℝ) - -8) = 8; rw [show (0 : ℝ) - -8 = 8 by norm_num, g8]
    have e01 : (edgeMesh.cell 1).JR binary64 0 1 = 13 := by
      show rnd64 ((6 : ℝ) - -7) = 13; rw [show (6 : ℝ) - -7 = 13 by norm_num, g13]
    have e11 : (edgeMesh.cell 1).JR binary64 1 1 = 14 := by
      show rnd64 ((6 : ℝ) - -8) = 14; rw [show (6 : ℝ) - -8 = 14 by norm_num, g14]
    have d : rnd64 (1 / rnd64 (rnd64 (7 * 14) - rnd64 (8 * 13))) = -((6004799503160661 : ℤ) / 2 ^ 55) := by
      rw [show (8 : ℝ) * 13 = 104 by norm_num, show (7 : ℝ) * 14 = 98 by norm_num, g104, g98, show (98 : ℝ) - 104 = -6 by norm_num, rnd64_neg, g6,
        show (1 : ℝ) / -6 = -(1 / 6) by norm_num, rnd64_neg, gq]
    rw [e00, e10, e01, e11]
    show rnd64 (1 - rnd64 (rnd64 (rnd64 (rnd64 (14 * rnd64 (1 / rnd64 (rnd64 (7 * 14) - rnd64 (8 * 13)))) * rnd64 ((3 : ℝ) - -7)) +
        rnd64 (rnd64 (-13 * rnd64 (1 / rnd64 (rnd64 (7 * 14) - rnd64 (8 * 13)))) * rnd64 ((3 : ℝ) - -8))) +
      rnd64 (rnd64 (rnd64 (-8 * rnd64 (1 / rnd64 (rnd64 (7 * 14) - rnd64 (8 * 13)))) * rnd64 ((3 : ℝ) - -7)) +
        rnd64 (rnd64 (7 * rnd64 (1 / rnd64 (rnd64 (7 * 14) - rnd64 (8 * 13)))) * rnd64 ((3 : ℝ) - -8))))) < -machineEps
    rw [d, show (3 : ℝ) - -8 = 11 by norm_num, show (3 : ℝ) - -7 = 10 by norm_num, g11, g10, neg_mul_neg, neg_mul_neg, mul_neg, mul_neg, rnd64_neg,
      rnd64_neg, k13, k8, k14, k7, neg_mul, neg_mul, rnd64_neg, rnd64_neg, t0, t1, t2, t3, add_comm, add_comm (-_) ((6708486944937301 : ℤ) / 2 ^ 48 : ℝ), z1,
      add_comm ((7505999378950826 : ℤ) / 2 ^ 49 : ℝ), z2, add_comm (1 / 2 : ℝ), z3, z0]
    exact hfin

theorem mem_triOf {a b c p : Vec 2} (l1 l2 : ℝ) (h1 : 0 ≤ l1) (h2 : 0 ≤ l2) (h : l1 + l2 ≤ 1)
    (e : ∀ k, p k = (1 - l1 - l2) * a k + l1 * b k + l2 * c k) : p ∈ convexHull ℝ (Set.range (triOf a b c).coords) := by
  have hv : ∀ v, (triOf a b c).coords v ∈ convexHull ℝ (Set.range (triOf a b c).coords) := fun v => subset_convexHull ℝ _ ⟨v, rfl⟩
  have := (convex_convexHull ℝ (Set.range (triOf a b c).coords)).sum_mem (t := Finset.univ) (w := ![1 - l1 - l2, l1, l2])
    (z := (triOf a b c).coords) (fun v _ => by fin_cases v <;> simp <;> linarith) (by simp [Fin.sum_univ_three]; ring) fun v _ => hv v
  rw [Fin.sum_univ_three] at this
  convert this using 1
  ext k
  simp [e k, triOf]

/-- **C150**, negation inside the domain.  The cells (-8,-7), (0,0), (6,6) and (-7,-8), (0,0), (6,6) share a side.  The point (3,3) in the middle of that side is in the interior
of the domain, and both cells refuse it: the first coordinate comes out as -2^-48 in each.  locate answers -1, so that the domain seems to have a hole there: the
evaluation matrix has a row of zeros for that point, and evaluating an expansion there reads the cell with number -1 (lagrangian_basis.h:189-192, 220).  simplex.h:119-123, 186. -/
theorem C150_bug_interior (nth) (hnth : NthContract nth) (ord : List Nat → List Nat) (hord : ∀ l, (ord l).Perm l) :
    ∃ m : SMesh 2 2, m.Ok ∧ (∀ i < m.n, 0 < (m.cell i).measure) ∧ ∃ p ∈ interior (⋃ i, ⋃ (_ : i < m.n), convexHull ℝ (Set.range (m.cell i).coords)),
      m.locateR binary64 (m.invR binary64) nth ord machineEps p = some (.ok (-1)) := by
  refine ⟨edgeMesh, edgeMesh_ok, fun i hi => ?_, ![3, 3], ?_, locateR_none _ edgeMesh_ok nth hnth ord hord _ edgeMesh_hit⟩
  · have hcase : i = 0 ∨ i = 1 := by simp only [edgeMesh] at hi; omega
    rcases hcase with rfl | rfl
    · show 0 < (triOf ![-8, -7] ![0, 0] ![6, 6]).measure
      rw [triOf_measure]; norm_num
    · show 0 < (triOf ![-7, -8] ![0, 0] ![6, 6]).measure
      rw [triOf_measure]; norm_num
  · rw [mem_interior_iff_mem_nhds, Metric.mem_nhds_iff]
    refine ⟨1 / 10, by norm_num, fun x hx => ?_⟩
    rw [Metric.mem_ball, dist_pi_lt_iff (by norm_num)] at hx
    have a0 : |x 0 - 3| < 1 / 10 := hx 0
    have a1 : |x 1 - 3| < 1 / 10 := hx 1
    rw [abs_lt] at a0 a1
    simp only [Set.mem_iUnion]
    rcases le_total (x 1) (x 0) with h | h
    · refine ⟨1, by simp [edgeMesh], mem_triOf (1 / 2 - 14 / 6 * (x 0 - 3) + 13 / 6 * (x 1 - 3)) (1 / 2 + 8 / 6 * (x 0 - 3) - 7 / 6 * (x 1 - 3))
        (by linarith) (by linarith) (by linarith) fun k => ?_⟩
      fin_cases k <;> simp <;> ring
    · refine ⟨0, by simp [edgeMesh], mem_triOf (1 / 2 + 13 / 6 * (x 0 - 3) - 14 / 6 * (x 1 - 3)) (1 / 2 - 7 / 6 * (x 0 - 3) + 8 / 6 * (x 1 - 3))
        (by linarith) (by linarith) (by linarith) fun k => ?_⟩
      fin_cases k <;> simp <;> ring

/-! ### Cases -/

/-- The right triangle with legs of length one, anywhere in the plane, is wide. -/
example (x y : ℝ) : (triOf ![x, y] ![x + 1, y] ![x, y + 1]).Wide := by
  refine ⟨by rw [triOf_measure]; norm_num, fun j => ?_⟩
  rw [triOf_measure]
  have h1 : (triOf ![x, y] ![x + 1, y] ![x, y + 1]).side 1 = 1 := by
    simp [Simplex.side, Fin.sum_univ_two, triOf]
  have h2 : (triOf ![x, y] ![x + 1, y] ![x, y + 1]).side 2 = 1 := by
    simp [Simplex.side, Fin.sum_univ_two, triOf]
  have h0 : (triOf ![x, y] ![x + 1, y] ![x, y + 1]).side 0 = 0 := by
    simp [Simplex.side]
  fin_cases j
  · norm_num [h0, h1, h2]
  · norm_num [h0, h1, h2]
  · show 10 * (_ * _) + 6 * (triOf ![x, y] ![x + 1, y] ![x, y + 1]).side 2 ^ 2 ≤ _
    norm_num [h0, h1, h2]

/-- The square cut along a diagonal, from the corner at the right angle of each half: the theorem applies to every point of the square. -/
example (nth) (hnth : NthContract nth) (ord : List Nat → List Nat) (hord : ∀ l, (ord l).Perm l) (p : Vec 2) (h0 : ∀ k, 0 ≤ p k) (h1 : ∀ k, p k ≤ 1) :
    ∃ m : SMesh 2 2, m.Ok ∧ ∃ j < m.n, m.locateR binary64 (m.invR binary64) nth ord machineEps p = some (.ok (j : Int)) := by
  set m : SMesh 2 2 := ⟨fun i => if i = 0 then triOf ![0, 0] ![1, 0] ![0, 1] else triOf ![1, 1] ![0, 1] ![1, 0], 2, ![0, 0], ![1, 1]⟩ with hm
  have ok : m.Ok := by
    refine ⟨by simp [hm], fun k => ?_, fun i _ v k => ?_⟩
    · fin_cases k <;> simp [hm]
    · by_cases h : i = 0 <;> fin_cases v <;> fin_cases k <;> simp [hm, triOf, h]
  have a0 := h0 0
  have a1 := h0 1
  have b0 := h1 0
  have b1 := h1 1
  refine ⟨m, ok, ?_⟩
  have w0 : (triOf ![0, 0] ![1, 0] ![0, 1]).Wide := by
    refine ⟨by rw [triOf_measure]; norm_num, fun j => ?_⟩
    rw [triOf_measure]
    fin_cases j <;> simp [Simplex.side, Fin.sum_univ_two, triOf] <;> norm_num
  have w1 : (triOf ![1, 1] ![0, 1] ![1, 0]).Wide := by
    refine ⟨by rw [triOf_measure]; norm_num, fun j => ?_⟩
    rw [triOf_measure]
    fin_cases j <;> simp [Simplex.side, Fin.sum_univ_two, triOf] <;> norm_num
  rcases le_total (p 0 + p 1) 1 with h | h
  · obtain ⟨j, hj, h, _⟩ := C150_locate_partial m ok nth hnth ord hord p 0 (by simp [hm])
      (mem_triOf (p 0) (p 1) a0 a1 h fun k => by fin_cases k <;> simp) w0
    exact ⟨j, hj, h⟩
  · obtain ⟨j, hj, h, _⟩ := C150_locate_partial m ok nth hnth ord hord p 1 (by simp [hm])
      (mem_triOf (1 - p 0) (1 - p 1) (by linarith) (by linarith) (by linarith) fun k => by fin_cases k <;> simp) w1
    exact ⟨j, hj, h⟩

end Fdapde.Geometry
