import Verif.Common.Res
/- Loops over a list of indices with a state, where the body may throw or be undefined. -/
namespace Fdapde

/-- `for x in xs: s = f(s, x)`. -/
def foldRes {σ α : Type} (f : σ → α → Res σ) : σ → List α → Res σ
  | s, [] => .ok s
  | s, x :: xs =>
    match f s x with
    | .ok s' => foldRes f s' xs
    | .throws => .throws
    | .ub => .ub

@[simp] theorem foldRes_nil {σ α : Type} (f : σ → α → Res σ) (s : σ) : foldRes f s [] = .ok s := rfl

theorem foldRes_cons {σ α : Type} (f : σ → α → Res σ) (s : σ) (x : α) (xs : List α) :
    foldRes f s (x :: xs) = (f s x >>= fun s' => foldRes f s' xs) := by
  rw [foldRes]; cases f s x <;> rfl

theorem foldRes_append {σ α : Type} (f : σ → α → Res σ) (s : σ) (xs ys : List α) :
    foldRes f s (xs ++ ys) = (foldRes f s xs >>= fun s' => foldRes f s' ys) := by
  induction xs generalizing s with
  | nil => rfl
  | cons x xs ih =>
    rw [List.cons_append, foldRes_cons, foldRes_cons]
    cases f s x with
    | ok s' => simp [ih]
    | throws => rfl
    | ub => rfl

/-- Nested loops are a loop over the pairs. -/
theorem foldRes_flatMap {σ α β : Type} (f : σ → β → Res σ) (g : α → List β) (s : σ) (xs : List α) :
    foldRes (fun s x => foldRes f s (g x)) s xs = foldRes f s (xs.flatMap g) := by
  induction xs generalizing s with
  | nil => rfl
  | cons x xs ih =>
    rw [List.flatMap_cons, foldRes_append, foldRes_cons]
    cases foldRes f s (g x) with
    | ok s' => simp [ih]
    | throws => rfl
    | ub => rfl

theorem foldRes_map {σ α β : Type} (f : σ → β → Res σ) (g : α → β) (s : σ) (xs : List α) :
    foldRes f s (xs.map g) = foldRes (fun s x => f s (g x)) s xs := by
  induction xs generalizing s with
  | nil => rfl
  | cons x xs ih => rw [List.map_cons, foldRes_cons, foldRes_cons]; simp [ih]

/-- Invariant rule: the invariant may mention the elements already processed. -/
theorem foldRes_inv {σ α : Type} (f : σ → α → Res σ) (Inv : List α → σ → Prop) (l : List α)
    (step : ∀ done x rest s, l = done ++ x :: rest → Inv done s → ∃ s', f s x = .ok s' ∧ Inv (done ++ [x]) s')
    (s : σ) (h0 : Inv [] s) : ∃ s', foldRes f s l = .ok s' ∧ Inv l s' := by
  have key : ∀ rest done s, l = done ++ rest → Inv done s → ∃ s', foldRes f s rest = .ok s' ∧ Inv l s' := by
    intro rest
    induction rest with
    | nil => intro done s hl hi; rw [List.append_nil] at hl; subst hl; exact ⟨s, rfl, hi⟩
    | cons x rest ih =>
      intro done s hl hi
      obtain ⟨s1, h1, h2⟩ := step done x rest s hl hi
      obtain ⟨s', h3, h4⟩ := ih (done ++ [x]) s1 (by simp [hl]) h2
      exact ⟨s', by rw [foldRes_cons, h1]; exact h3, h4⟩
  exact key l [] s rfl h0

/-- Invariant rule for loops that may fail: if the loop returns, the invariant holds. -/
theorem foldRes_ok_inv {σ α : Type} (f : σ → α → Res σ) (Inv : List α → σ → Prop)
    (step : ∀ done x s s', Inv done s → f s x = .ok s' → Inv (done ++ [x]) s')
    (l : List α) (s0 s : σ) (h0 : Inv [] s0) (h : foldRes f s0 l = .ok s) : Inv l s := by
  have key : ∀ rest done s0, Inv done s0 → foldRes f s0 rest = .ok s → Inv (done ++ rest) s := by
    intro rest
    induction rest with
    | nil => intro done s0 hi h; simp at h; subst h; simpa using hi
    | cons x rest ih =>
      intro done s0 hi h
      rw [foldRes_cons, Res.bind_eq_ok] at h
      obtain ⟨s1, h1, h2⟩ := h
      have := ih (done ++ [x]) s1 (step done x s0 s1 hi h1) h2
      simpa using this
  simpa using key l [] s0 h0 h

end Fdapde
