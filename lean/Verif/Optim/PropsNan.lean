import Verif.Optim.FloatGrid
import Verif.Optim.PropsFloat

/-!
# C149: optimizers and objectives that are not numbers somewhere
-/

namespace Fdapde.Optim.Flt
open Fdapde.Fp Fdapde.Fp.Dbl Classical

variable {n : Nat}

theorem le_refl_of {a : Dbl} (h : a ≠ .nan) : a.Le a := by
  cases a with
  | fin r => exact le_rfl
  | inf s => cases s <;> simp [Dbl.Le]
  | nan => exact absurd rfl h

theorem le_trans_dbl {a b c : Dbl} (h1 : a.Le b) (h2 : b.Le c) : a.Le c := by
  cases a with
  | fin r =>
    cases b with
    | fin s =>
      cases c with
      | fin t => exact le_trans (show r ≤ s from h1) (show s ≤ t from h2)
      | inf t => exact h2
      | nan => exact h2
    | inf s =>
      cases c with
      | fin t => simp only [Dbl.Le] at h1 h2; rw [h1] at h2; cases h2
      | inf t => simp only [Dbl.Le] at h1 h2 ⊢; rcases h2 with h2 | h2 <;> simp_all
      | nan => exact h2
    | nan => exact h1.elim
  | inf r =>
    cases b with
    | fin s =>
      cases c with
      | fin t => exact h1
      | inf t => exact .inl h1
      | nan => exact h2
    | inf s =>
      cases c with
      | fin t => simp only [Dbl.Le] at h1 h2 ⊢; rcases h1 with h1 | h1 <;> simp_all
      | inf t => simp only [Dbl.Le] at h1 h2 ⊢; rcases h1 with h1 | h1 <;> rcases h2 with h2 | h2 <;> simp_all
      | nan => exact h2
    | nan => exact h1.elim
  | nan => exact h1.elim

theorem lt_le {a b : Dbl} (h : a.Lt b) : a.Le b := by
  cases a <;> cases b <;> simp only [Dbl.Lt, Dbl.Le] at h ⊢ <;> first | exact h.le | exact h | exact .inl h.1

theorem not_lt_le {a b : Dbl} (ha : a ≠ .nan) (hb : b ≠ .nan) (h : ¬ a.Lt b) : b.Le a := by
  cases a with
  | fin r =>
    cases b with
    | fin s => exact not_lt.1 h
    | inf s => cases s <;> simp [Dbl.Lt, Dbl.Le] at h ⊢
    | nan => exact absurd rfl hb
  | inf r =>
    cases b with
    | fin s => cases r <;> simp [Dbl.Lt, Dbl.Le] at h ⊢
    | inf s => cases r <;> cases s <;> simp [Dbl.Lt, Dbl.Le] at h ⊢
    | nan => exact absurd rfl hb
  | nan => exact absurd rfl ha

theorem le_ne_nan {a b : Dbl} (h : a.Le b) : a ≠ .nan ∧ b ≠ .nan := by
  cases a <;> cases b <;> simp_all [Dbl.Le]

/-- **C149**, grid search: if the objective is a number at the first point of the grid, the point returned is a point of the grid, its value is the value
reported, it is a number and no value that is a number is smaller, whatever the objective is elsewhere. -/
theorem C149_grid_partial (obj : FVec n → Dbl) (x0 : FVec n) (xs : List (FVec n)) (h0 : obj x0 ≠ .nan) :
    (fgridOptimize obj x0 xs).1 ∈ x0 :: xs ∧ (fgridOptimize obj x0 xs).2 = obj (fgridOptimize obj x0 xs).1 ∧
      ∀ x ∈ x0 :: xs, obj x ≠ .nan → (fgridOptimize obj x0 xs).2.Le (obj x) := by
  have key : ∀ (xs : List (FVec n)) (s : FVec n × Dbl), s.2 = obj s.1 → s.2 ≠ .nan →
      ((fgridLoop obj xs s).1 = s.1 ∨ (fgridLoop obj xs s).1 ∈ xs) ∧ (fgridLoop obj xs s).2 = obj (fgridLoop obj xs s).1 ∧
        (fgridLoop obj xs s).2.Le s.2 ∧ ∀ x ∈ xs, obj x ≠ .nan → (fgridLoop obj xs s).2.Le (obj x) := by
    intro xs
    induction xs with
    | nil => exact fun s e hs => ⟨.inl rfl, e, le_refl_of hs, fun x hx => absurd hx (by simp)⟩
    | cons y ys ih =>
      intro s e hs
      rw [fgridLoop]
      split_ifs with hy
      · obtain ⟨i1, i2, i3, i4⟩ := ih (y, obj y) rfl (le_ne_nan (lt_le hy)).1
        refine ⟨.inr ?_, i2, le_trans_dbl i3 (lt_le hy), ?_⟩
        · rcases i1 with i1 | i1
          · rw [i1]; exact List.mem_cons_self
          · exact List.mem_cons_of_mem _ i1
        · intro x hx hn
          rcases List.mem_cons.1 hx with rfl | hx
          · exact i3
          · exact i4 x hx hn
      · obtain ⟨i1, i2, i3, i4⟩ := ih s e hs
        refine ⟨i1.imp_right (List.mem_cons_of_mem _), i2, i3, ?_⟩
        intro x hx hn
        rcases List.mem_cons.1 hx with rfl | hx
        · exact le_trans_dbl i3 (not_lt_le hn hs hy)
        · exact i4 x hx hn
  obtain ⟨k1, k2, k3, k4⟩ := key xs (x0, obj x0) rfl h0
  refine ⟨List.mem_cons.2 k1, k2, fun x hx hn => ?_⟩
  rcases List.mem_cons.1 hx with rfl | hx
  · exact k3
  · exact k4 x hx hn

/-- **C149 fails when the objective is NaN at the first point of the grid**: the first point and NaN are returned, whatever the values at all the other
points, because no comparison with NaN is true. -/
theorem C149_bug_grid (obj : FVec n → Dbl) (x0 : FVec n) (xs : List (FVec n)) (h0 : obj x0 = .nan) : fgridOptimize obj x0 xs = (x0, .nan) := by
  unfold fgridOptimize
  rw [h0]
  induction xs with
  | nil => rfl
  | cons y ys ih =>
    have : ¬ (obj y).Lt .nan := by cases obj y <;> exact id
    rw [fgridLoop, if_neg this, ih]

/-- **C149**, gradient descent: if the objective is a number everywhere and the computed slope is less than zero and finite wherever the method goes on, the
objective at the point returned is not greater than at the starting point: rounding errors never make the result worse than the start. -/
theorem C149_descent_partial (obj : FVec n → Dbl) (hobj : ∀ y, (obj y).Ok) (hnum : ∀ y, obj y ≠ .nan) (grad : FVec n → FVec n) (nrm : FVec n → Dbl) (ord : Order n)
    {a b c : ℝ} (ha : 0 ≤ a) (hok : (Dbl.fin a).Ok) (hb0 : 0 ≤ b) (hb : b ≤ 1) (hc0 : 0 ≤ c) (hc : c ≤ 1) (tol huge : Dbl) (x0 : FVec n)
    (hslope : ∀ y, tol.Lt (nrm (grad y)) ∨ y = x0 → ∃ m < 0, dot (grad y) (fun i => (grad y i).neg) ord = .fin m)
    (maxIter fuel : Nat) {x : FVec n} (e : gdOptimize obj grad nrm ord (.fin a) (.fin b) (.fin c) tol fuel huge maxIter x0 = some x) :
    (obj x).Le (obj x0) := by
  have key : ∀ (k : Nat) (y : FVec n) (err : Dbl), (tol.Lt err → ∃ m < 0, dot (grad y) (fun i => (grad y i).neg) ord = .fin m) →
      ∀ x, gdLoop obj grad nrm ord (.fin a) (.fin b) (.fin c) tol fuel k y (grad y) err = some x → (obj x).Le (obj y) := by
    intro k
    induction k with
    | zero =>
      intro y err _ x e
      obtain rfl := Option.some.inj e
      exact le_refl_of (hnum y)
    | succ k ih =>
      intro y err hm x e
      rw [gdLoop] at e
      split_ifs at e with ht
      · obtain ⟨m, hm0, em⟩ := hm ht
        cases hs : btSearch obj ord (.fin a) (.fin b) (.fin c) y (grad y) (fun i => (grad y i).neg) fuel with
        | none => rw [hs] at e; cases e
        | some h =>
          rw [hs] at e
          have h1 := ih _ _ (fun ht' => hslope _ (.inl ht')) x e
          rcases C148_backtracking_decrease_partial obj hobj ord ha hok hb0 hb hc0 hc y (grad y) _ em hm0 hs with h2 | h2 | h2
          · exact le_trans_dbl h1 h2
          · exact absurd h2 (hnum _)
          · exact absurd h2 (hnum _)
      · obtain rfl := Option.some.inj e
        exact le_refl_of (hnum y)
  exact key maxIter x0 huge (fun _ => hslope x0 (.inr rfl)) x e

/-- An objective defined for numbers that are not negative only. -/
noncomputable def halfLine (v : FVec 1) : Dbl := if (v 0).Lt (.fin 0) then .nan else v 0

/-- Its gradient. -/
noncomputable def halfLineGrad (v : FVec 1) : FVec 1 := fun _ => if (v 0).Lt (.fin 0) then .nan else .fin 1

/-- **C149 fails for gradient descent**: on an objective defined for v ≥ 0 only (as with a logarithm or a square root), with gradient 1, from v = 1 and with the
default parameters of the line search, `optimize()` returns v = -1, where the objective is NaN, after one iteration: the line search accepts the NaN and the
loop ends because the norm of the gradient, NaN, is not greater than the tolerance. -/
theorem C149_bug_gradient_descent (nrm : FVec 1 → Dbl) (hn : ∀ v, v 0 = .nan → nrm v = .nan) (tol huge : Dbl) (ht : tol.Lt huge) (k fuel : Nat) :
    gdOptimize halfLine halfLineGrad nrm (.term 0) (.fin 2) (.fin (1 / 2)) (.fin (1 / 2)) tol fuel huge (k + 1) (fun _ => .fin 1) = some (fun _ => .fin (-1)) ∧
      halfLine (fun _ => .fin 1) = .fin 1 ∧ halfLine (fun _ => .fin (-1)) = .nan := by
  have h1 : halfLine (fun _ => .fin 1) = .fin 1 := by rw [halfLine, if_neg]; norm_num [Dbl.Lt]
  have h2 : halfLine (fun _ => .fin (-1)) = .nan := by rw [halfLine, if_pos]; norm_num [Dbl.Lt]
  have g1 : halfLineGrad (fun _ => .fin 1) = fun _ => .fin 1 := by funext i; rw [halfLineGrad, if_neg]; norm_num [Dbl.Lt]
  have g2 : halfLineGrad (fun _ => .fin (-1)) = fun _ => .nan := by funext i; rw [halfLineGrad, if_pos]; norm_num [Dbl.Lt]
  have hr : ∀ j : ℤ, |j| < 10 → Dbl.round (j : ℝ) = .fin j := fun j hj => by
    have hj' : |(j : ℝ)| < 10 := by exact_mod_cast hj
    exact round_of_format (format_int j (hj.trans (by norm_num))) (hj'.trans (lt_of_lt_of_le (by norm_num : (10 : ℝ) < 2 ^ 4) (pow_le_pow_right₀ (by norm_num) (by norm_num))))
  have hax : axpy (fun _ : Fin 1 => Dbl.fin 1) (.fin 2) (fun _ => .fin (-1)) = fun _ => .fin (-1) := by
    funext i
    rw [axpy, Dbl.mul, show (2 : ℝ) * -1 = ((-2 : ℤ) : ℝ) by norm_num, hr _ (by norm_num), Dbl.add, show (1 : ℝ) + ((-2 : ℤ) : ℝ) = ((-1 : ℤ) : ℝ) by norm_num,
      hr _ (by norm_num)]
    norm_num
  refine ⟨?_, h1, h2⟩
  rw [gdOptimize, g1, gdLoop, if_pos ht]
  simp only [Dbl.neg]
  have hb := (C148_bug_nan halfLine halfLineGrad (.term 0) (.fin 2) (.fin (1 / 2)) (.fin (1 / 2)) (.fin 1) (.fin 1) (fun _ => .fin 1) (fun _ => .fin 1)
    (fun _ => .fin (-1)) fuel (by rw [hax, h2]) (by rw [hax, g2]; rfl)).1
  rw [hb]
  simp only [hax, g2]
  rw [hn _ rfl]
  cases k with
  | zero => rfl
  | succ k =>
    rw [gdLoop, if_neg]
    cases tol <;> exact id

/-- A grid of three points with NaN in the middle. -/
example : ∀ x ∈ [(fun _ => .fin 1 : FVec 1), fun _ => .fin (-1), fun _ => .fin (1 / 2)], halfLine x ≠ .nan →
    (fgridOptimize halfLine (fun _ => .fin 1) [fun _ => .fin (-1), fun _ => .fin (1 / 2)]).2.Le (halfLine x) :=
  (C149_grid_partial halfLine _ _ (by rw [halfLine, if_neg (by norm_num [Dbl.Lt])]; simp)).2.2

/-- Gradient descent on the identity, whose slope is -1 everywhere. -/
example (x : FVec 1) (maxIter : Nat) (e : gdOptimize (fun v : FVec 1 => if (v 0).Ok ∧ v 0 ≠ .nan then v 0 else .inf false) (fun _ _ => .fin 1) (fun _ => .fin 1)
    (.term 0) (.fin 2) (.fin (1 / 2)) (.fin (1 / 2)) (.fin 0) 2100 (.fin 1) maxIter (fun _ => .fin 1) = some x) :
    (if (x 0).Ok ∧ x 0 ≠ .nan then x 0 else .inf false).Le (if (Dbl.fin 1).Ok ∧ Dbl.fin 1 ≠ .nan then .fin 1 else .inf false) := by
  refine C149_descent_partial (fun v : FVec 1 => if (v 0).Ok ∧ v 0 ≠ .nan then v 0 else .inf false) (fun y => ?_) (fun y => ?_) _ _ _ (a := 2) (b := 1 / 2) (c := 1 / 2)
    (by norm_num) ⟨by exact_mod_cast format_int 2 (by norm_num), abs_lt.2 ⟨neg_huge_lt (by norm_num), huge_gt (by norm_num)⟩⟩ (by norm_num) (by norm_num)
    (by norm_num) (by norm_num) _ _ _ (fun y _ => ⟨-1, by norm_num, ?_⟩) maxIter 2100 e
  · split_ifs with h
    · exact h.1
    · trivial
  · split_ifs with h
    · exact h.2
    · simp
  · rw [dot, Dbl.neg, Dbl.mul, show (1 : ℝ) * -1 = ((-1 : ℤ) : ℝ) by norm_num, round_of_format (format_int _ (by norm_num))]
    · norm_num
    · exact abs_lt.2 ⟨neg_huge_lt (by norm_num), huge_gt (by norm_num)⟩

end Fdapde.Optim.Flt
