import Verif.PDE.LemmasNearRounded
import Verif.Splines.PropsFloat
/- Computed quantities that tend to the exact ones as fast as the unit roundoff tends to zero. -/
namespace Fdapde.PDE
open Finset Fdapde.Fp

/-- An arithmetic and an order of summation. -/
abbrev Arith := Rounding × (List ℝ → ℝ)

/-- In the arithmetics with `T`, if the unit roundoff is small, `x'` differs from `x` by at most a multiple of it. -/
def Tame (T : Arith → Prop) (x : ℝ) (x' : Arith → ℝ) : Prop := ∃ C : ℝ, 0 ≤ C ∧ ∀ e, T e → C * e.1.u ≤ 1 → |x' e - x| ≤ C * e.1.u

namespace Tame
variable {T : Arith → Prop} {x y : ℝ} {x' y' : Arith → ℝ}

theorem const (x : ℝ) : Tame T x fun _ => x := ⟨0, le_rfl, fun e _ _ => by simp⟩

theorem rnd (h : Tame T x x') : Tame T x fun e => e.1.rnd (x' e) := by
  obtain ⟨C, c0, hC⟩ := h
  refine ⟨|x| + 1 + C, by positivity, fun e he hu => ?_⟩
  have u0 := e.1.u_pos
  have a0 := abs_nonneg x
  have p1 := mul_nonneg a0 u0
  have p2 := mul_nonneg c0 u0
  have h1 := hC e he (by linarith)
  have h2 : |x' e| ≤ |x| + 1 := by
    have := abs_add_le (x' e - x) x
    rw [sub_add_cancel] at this
    linarith
  have h3 := e.1.err (x' e)
  have h4 := mul_le_mul_of_nonneg_left h2 u0
  have h5 := abs_add_le (e.1.rnd (x' e) - x' e) (x' e - x)
  rw [sub_add_sub_cancel] at h5
  linarith

theorem add (h : Tame T x x') (k : Tame T y y') : Tame T (x + y) fun e => x' e + y' e := by
  obtain ⟨C, c0, hC⟩ := h
  obtain ⟨D, d0, hD⟩ := k
  refine ⟨C + D, by positivity, fun e he hu => ?_⟩
  have p1 := mul_nonneg c0 e.1.u_pos
  have p2 := mul_nonneg d0 e.1.u_pos
  have h1 := hC e he (by linarith)
  have h2 := hD e he (by linarith)
  have := abs_add_le (x' e - x) (y' e - y)
  rw [show x' e - x + (y' e - y) = x' e + y' e - (x + y) by ring] at this
  linarith

theorem neg (h : Tame T x x') : Tame T (-x) fun e => -x' e := by
  obtain ⟨C, c0, hC⟩ := h
  exact ⟨C, c0, fun e he hu => by rw [← abs_neg, show -(-x' e - -x) = x' e - x by ring]; exact hC e he hu⟩

theorem sub (h : Tame T x x') (k : Tame T y y') : Tame T (x - y) fun e => x' e - y' e := by
  simp only [sub_eq_add_neg]
  exact h.add k.neg

theorem mul (h : Tame T x x') (k : Tame T y y') : Tame T (x * y) fun e => x' e * y' e := by
  obtain ⟨C, c0, hC⟩ := h
  obtain ⟨D, d0, hD⟩ := k
  refine ⟨(|x| + 1) * D + C * |y| + C + D, by positivity, fun e he hu => ?_⟩
  have u0 := e.1.u_pos
  have p1 := mul_nonneg c0 u0
  have p2 := mul_nonneg d0 u0
  have p3 : 0 ≤ (|x| + 1) * D * e.1.u := by positivity
  have p4 : 0 ≤ C * |y| * e.1.u := by positivity
  have h1 := hC e he (by linarith)
  have h2 := hD e he (by linarith)
  have h3 : |x' e| ≤ |x| + 1 := by
    have := abs_add_le (x' e - x) x
    rw [sub_add_cancel] at this
    linarith
  have h4 := abs_add_le (x' e * (y' e - y)) ((x' e - x) * y)
  rw [abs_mul, abs_mul, show x' e * (y' e - y) + (x' e - x) * y = x' e * y' e - x * y by ring] at h4
  have h5 := mul_le_mul h3 h2 (abs_nonneg _) (by positivity)
  have h6 := mul_le_mul_of_nonneg_right h1 (abs_nonneg y)
  linarith

/-- Only small unit roundoffs matter. -/
theorem congr (h : Tame T x x') {D : ℝ} (hD : 0 ≤ D) (he : ∀ e, T e → D * e.1.u ≤ 1 → y' e = x' e) : Tame T x y' := by
  obtain ⟨C, c0, hC⟩ := h
  refine ⟨C + D, by positivity, fun e t hu => ?_⟩
  have p1 := mul_nonneg c0 e.1.u_pos
  have p2 := mul_nonneg hD e.1.u_pos
  rw [he e t (by linarith)]
  have := hC e t (by linarith)
  linarith

/-- Powers of the growth of a rounding. -/
theorem pow_le (r : Rounding) (k : Nat) (h : 2 * (k + 1) * r.u ≤ 1) : r.b ^ k - 1 ≤ 2 * k * r.u := by
  have u0 := r.u_pos
  have g := r.gamma k
  have h0 : 0 ≤ r.b ^ k - 1 := sub_nonneg.2 (one_le_pow₀ r.one_le_b)
  have k0 : (0 : ℝ) ≤ k := Nat.cast_nonneg k
  have h1 : 1 / 2 ≤ 1 - k * r.u := by linarith
  have h2 := mul_le_mul_of_nonneg_left h1 h0
  linarith

theorem of_err {k : Nat} {m : ℝ} (h : ∀ e, T e → e.1.Err k m x (x' e)) : Tame T x x' := by
  refine ⟨2 * (k + 1) * (|m| + 1), by positivity, fun e he hu => ?_⟩
  have u0 := e.1.u_pos
  have k0 : (0 : ℝ) ≤ k := Nat.cast_nonneg k
  have a0 := abs_nonneg m
  have p1 : 0 ≤ 2 * (k + 1) * |m| * e.1.u := by positivity
  have h1 := pow_le e.1 k (by linarith)
  have h2 := (h e he).2.trans (mul_le_mul_of_nonneg_right h1 (h e he).nonneg)
  have h3 := mul_le_mul_of_nonneg_left (le_abs_self m) (show 0 ≤ 2 * k * e.1.u by positivity)
  have p2 : 0 ≤ |m| * e.1.u := by positivity
  have p3 : 0 ≤ k * e.1.u := by positivity
  linarith

/-- A common constant. -/
theorem all {n : Nat} {f : Nat → ℝ} {f' : Nat → Arith → ℝ} (h : ∀ i < n, Tame T (f i) (f' i)) :
    ∃ C : ℝ, 0 ≤ C ∧ ∀ e, T e → C * e.1.u ≤ 1 → ∀ i < n, |f' i e - f i| ≤ C * e.1.u := by
  induction n with
  | zero => exact ⟨0, le_rfl, fun _ _ _ i hi => absurd hi (by omega)⟩
  | succ n ih =>
    obtain ⟨C, c0, hC⟩ := ih fun i hi => h i (by omega)
    obtain ⟨D, d0, hD⟩ := h n (by omega)
    refine ⟨C + D, by positivity, fun e he hu i hi => ?_⟩
    have p1 := mul_nonneg c0 e.1.u_pos
    have p2 := mul_nonneg d0 e.1.u_pos
    rcases (by omega : i < n ∨ i = n) with hi | rfl
    · have := hC e he (by linarith) i hi
      linarith
    · have := hD e he (by linarith)
      linarith

/-- Common constant for a matrix. -/
theorem all2 {n m : Nat} {f : Nat → Nat → ℝ} {f' : Nat → Nat → Arith → ℝ} (h : ∀ i < n, ∀ j < m, Tame T (f i j) (f' i j)) :
    ∃ C : ℝ, 0 ≤ C ∧ ∀ e, T e → C * e.1.u ≤ 1 → ∀ i < n, ∀ j < m, |f' i j e - f i j| ≤ C * e.1.u := by
  obtain ⟨C, c0, hC⟩ := all (T := T) (n := n * m) (f := fun k => f (k / m) (k % m)) (f' := fun k => f' (k / m) (k % m)) fun k hk => by
    have hm : 0 < m := Nat.pos_of_ne_zero fun h0 => by subst h0; simp at hk
    exact h _ (Nat.div_lt_of_lt_mul (by rwa [Nat.mul_comm] at hk)) _ (Nat.mod_lt _ hm)
  refine ⟨C, c0, fun e he hu i hi j hj => ?_⟩
  have hm : 0 < m := by omega
  have h1 : (i * m + j) / m = i := by rw [Nat.add_comm, Nat.add_mul_div_right _ _ hm, Nat.div_eq_of_lt hj, Nat.zero_add]
  have h2 : (i * m + j) % m = j := by rw [Nat.add_comm, Nat.add_mul_mod_self_right, Nat.mod_eq_of_lt hj]
  have := hC e he hu (i * m + j) (by
    calc i * m + j < i * m + m := by omega
      _ = (i + 1) * m := by ring
      _ ≤ n * m := Nat.mul_le_mul_right _ hi)
  rwa [h1, h2] at this

/-- Sums made from left to right. -/
theorem fold {α : Type} (L : List α) {f : α → ℝ} {f' : α → Arith → ℝ} (h : ∀ a ∈ L, Tame T (f a) (f' a)) :
    ∀ {x : ℝ} {x' : Arith → ℝ}, Tame T x x' → Tame T (L.foldl (fun v a => v + f a) x) fun e => L.foldl (fun v a => e.1.rnd (v + f' a e)) (x' e) := by
  induction L with
  | nil => intro x x' hx; exact hx
  | cons a L ih =>
    intro x x' hx
    exact ih (fun b hb => h b (List.mem_cons_of_mem _ hb)) (hx.add (h a List.mem_cons_self)).rnd

/-- Products of a row and a column. -/
theorem dot (hT : ∀ e, T e → e.1.Summation e.2) {n : Nat} {f g : Nat → ℝ} {f' g' : Nat → Arith → ℝ} (hf : ∀ i < n, Tame T (f i) (f' i)) (hg : ∀ i < n, Tame T (g i) (g' i)) :
    Tame T (∑ i : Fin n, f i * g i) fun e => dotR e.1 e.2 (fun i : Fin n => f' i e) fun i => g' i e := by
  obtain ⟨C, c0, hC⟩ := all hf
  obtain ⟨D, d0, hD⟩ := all hg
  set mf := C + ∑ i ∈ range n, |f i| with hmf
  set mg := D + ∑ i ∈ range n, |g i| with hmg
  have sf : 0 ≤ ∑ i ∈ range n, |f i| := sum_nonneg fun _ _ => abs_nonneg _
  have sg : 0 ≤ ∑ i ∈ range n, |g i| := sum_nonneg fun _ _ => abs_nonneg _
  have mf0 : 0 ≤ mf := by positivity
  have mg0 : 0 ≤ mg := by positivity
  have n0 : (0 : ℝ) ≤ n := Nat.cast_nonneg n
  set c : ℝ := 2 * (n + 2) with hc
  have c1 : 1 ≤ c := by rw [hc]; linarith
  refine ⟨C + D + c + 8 * n * mf * mg * c, by positivity, fun e he hu => ?_⟩
  have u0 := e.1.u_pos
  have p1 := mul_nonneg c0 u0
  have p2 := mul_nonneg d0 u0
  have p3 : 0 ≤ c * e.1.u := by positivity
  have p4 : 0 ≤ 8 * n * mf * mg * c * e.1.u := by positivity
  have h1 := hC e he (by linarith)
  have h2 := hD e he (by linarith)
  have hp := pow_le e.1 (n + 1) (by push_cast; rw [hc] at p3 hu; linarith)
  push_cast at hp
  have hpc : e.1.b ^ (n + 1) - 1 ≤ c * e.1.u := by rw [hc]; linarith
  have uc : e.1.u ≤ c * e.1.u := le_mul_of_one_le_left u0 c1
  have near : Near mg (c * e.1.u) 1 (fun i : Fin n => g i) fun i => g' i e :=
    ⟨fun i => by
        rw [mul_one, hmg]
        have := single_le_sum (f := fun i => |g i|) (fun _ _ => abs_nonneg _) (mem_range.2 i.2)
        linarith,
     fun i => by
        rw [mul_one]
        refine (h2 i i.2).trans ((mul_le_mul_of_nonneg_left uc d0).trans (mul_le_mul_of_nonneg_right ?_ p3))
        rw [hmg]; linarith⟩
  have := (near.dot (hT e he) (ι := Unit) (M := fun _ i => f i) (M' := fun _ i => f' i e) mg0 mf0 zero_le_one hpc (by linarith)
    (fun _ i => by
      rw [hmf]
      have := single_le_sum (f := fun i => |f i|) (fun _ _ => abs_nonneg _) (mem_range.2 i.2)
      linarith)
    fun _ i => (h1 i i.2).trans ((mul_le_mul_of_nonneg_left uc c0).trans (mul_le_mul_of_nonneg_right (by rw [hmf]; linarith) p3))).diff ()
  rw [mul_one] at this
  linarith
end Tame

/-- A larger bound of the errors. -/
theorem Near.scale {ι : Type} {C c ε W : ℝ} {v v' : ι → ℝ} (h : Near C (c * ε) W v v') (hc : 1 ≤ c) (hC : 0 ≤ C) (hW : 0 ≤ W) : Near (c * C) ε W v v' := by
  refine ⟨fun i => (h.size i).trans (mul_le_mul_of_nonneg_right (le_mul_of_one_le_left hC hc) hW), fun i => (h.diff i).trans (le_of_eq (by ring))⟩

end Fdapde.PDE
