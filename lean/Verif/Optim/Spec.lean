import Verif.Optim.Model
import Mathlib.Algebra.Order.BigOperators.Group.Finset

/-!
# Specification for the optimizers, independent of the model's loops
-/

namespace Fdapde.Optim

variable {K : Type} [Field K] [LinearOrder K] {n : Nat} {σ : Type}

/-- `x` is the first point of smallest value among the points `l`, and `v` its value. -/
def IsFirstMin (obj : Vec K n → K) (l : List (Vec K n)) (x : Vec K n) (v : K) : Prop :=
  ∃ j : Nat, l[j]? = some x ∧ v = obj x ∧ (∀ y ∈ l, v ≤ obj y) ∧ ∀ i < j, ∀ y, l[i]? = some y → v < obj y

/-- The answers (stop or not) of a callback called on the points of a list in turn. -/
def answers (post : Vec K n → σ → σ × Bool) : List (Vec K n) → σ → List Bool
  | [], _ => []
  | x :: xs, a => (post x a).2 :: answers post xs (post x a).1

/-- Symmetric positive definite. -/
def SPD (H : Mat K n) : Prop := H.transpose = H ∧ ∀ v : Vec K n, v ≠ 0 → 0 < dotProduct v (H.mulVec v)

/-- A callback which changes nothing but the step `h` (and its own state): what a line search is. -/
def OnlyStep (c : Callback K n σ) : Prop := ∀ s s' b, c s = some (s', b) → s' = { s with h := s'.h, aux := s'.aux }

/-- A callback which only looks: it changes nothing but its own state. -/
def OnlyLooks (c : Callback K n σ) : Prop := ∀ s s' b, c s = some (s', b) → s' = { s with aux := s'.aux }

/-- A callback which always returns. -/
def Returns (c : Callback K n σ) : Prop := ∀ s, (c s).isSome

/-- Callbacks as the optimizers expect them: before the update they may choose the step, after it they only look. -/
structure Proper (env : Env K n σ) : Prop where
  pre : ∀ c ∈ env.pre, OnlyStep c
  post : ∀ c ∈ env.post, OnlyLooks c
  crit : OnlyLooks env.crit

/-- A callback which never asks to stop. -/
def NeverStops (c : Callback K n σ) : Prop := ∀ s s' b, c s = some (s', b) → b = false

/-- No callback and no criterion asks to stop. -/
structure Quiet (env : Env K n σ) : Prop where
  pre : ∀ c ∈ env.pre, NeverStops c
  post : ∀ c ∈ env.post, NeverStops c
  crit : NeverStops env.crit

/-- The iterates `x 0, ..., x N` of a descent from `x0`: each is the previous one plus a multiple of the direction chosen there. -/
def Descent (dir : Nat → Vec K n) (hs : Nat → K) (x0 : Vec K n) (x : Nat → Vec K n) (N : Nat) : Prop :=
  x 0 = x0 ∧ ∀ k < N, x (k + 1) = x k + hs k • dir k

end Fdapde.Optim
