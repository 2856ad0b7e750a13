import Verif.Combinatorics.Model
/-
Model of fdaPDE/utils/combinatorics.h with its `int`s: a product out of range is reported as `ub` (in a constant expression, such as the
size of the result of `combinations`, the compiler rejects it).
-/
namespace Fdapde.Combinatorics

/-- The result of a product of two `int`s that are not negative. -/
def mul32 (a b : Nat) : Res Nat := if a * b < 2 ^ 31 then .ok (a * b) else .ub

/-- combinatorics.h:29 : `ct_factorial`. -/
def ctFactorial32 : Nat → Res Nat
  | 0 => .ok 1
  | n + 1 => Res.bind (ctFactorial32 n) fun f => mul32 (n + 1) f

/-- combinatorics.h:32-34 : `ct_binomial_coefficient(N, M)`. -/
def ctBinomial32 (N M : Nat) : Res Nat :=
  Res.bind (ctFactorial32 N) fun a => Res.bind (ctFactorial32 M) fun b => Res.bind (ctFactorial32 (N - M)) fun c =>
    Res.bind (mul32 b c) fun d => .ok (a / d)

/-- combinatorics.h:37-51 : `combinations<K, N>()`. -/
def combinations32 (K N : Nat) : Res (List (List Nat)) :=
  Res.bind (ctBinomial32 N K) fun rows => combLoop K rows (List.replicate K true ++ List.replicate (N - K) false)

end Fdapde.Combinatorics
