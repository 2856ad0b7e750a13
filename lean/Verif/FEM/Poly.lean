import Verif.Common.Loop
import Verif.Combinatorics.Model
import Mathlib.Algebra.Field.Basic
/-
Model of fdaPDE/finite_elements/basis/multivariate_polynomial.h.  Scalars are elements of a commutative ring; rounding is
not modelled, `std::pow` with an integer exponent is the power of the ring.
-/
namespace Fdapde.FEM
open Fdapde.Combinatorics

/-- multivariate_polynomial.h:63-75 : the inner loop, from position `i`; `N - i` iterations are left.  Returns the row found
and the next value of `tmp`.  `tmp[++i]++` at the last position writes past the end of the array (an error during constant
evaluation). -/
def nextRow (N R : Nat) : Nat → Nat → List Nat → Res (List Nat × List Nat)
  | 0, _, _ => .ub
  | m + 1, i, tmp =>
    match tmp[i]? with
    | none => .ub
    | some c =>
      if c ≤ R ∧ tmp.sum ≤ R then .ok (tmp, tmp.modify 0 (· + 1))
      else if i + 1 < N then nextRow N R m (i + 1) ((tmp.set i 0).modify (i + 1) (· + 1))
      else .ub

/-- multivariate_polynomial.h:52-79 : the table of exponents.  The outer loop records one row per iteration. -/
def polyExp (N R : Nat) : Res (List (List Nat)) :=
  (fun s => s.1) <$> foldRes (fun (s : List (List Nat) × List Nat) _ =>
    (fun r => (s.1 ++ [r.1], r.2)) <$> nextRow N R N 0 s.2) ([], List.replicate N 0) (List.range (ctBinomial (R + N) R))

/-- multivariate_polynomial.h:103-119 : row of the table of the gradient in direction `i`. -/
def gradRow (i : Nat) (e : Nat → Nat) (z : Nat) : Nat := if i = z then (if e z = 0 then 0 else e z - 1) else e z

variable {K : Type} [CommRing K]

/-- multivariate_polynomial.h:125-139 : `MonomialProduct<n>`. -/
def monomial (p : Nat → K) (v : Nat → Nat) : Nat → K
  | 0 => if v 0 = 0 then 1 else p 0 ^ v 0
  | n + 1 => if v (n + 1) = 0 then monomial p v n else p (n + 1) ^ v (n + 1) * monomial p v n

/-- multivariate_polynomial.h:142-159 : `MonomialSum<I>` for polynomials in `M + 1` variables; `tab m` is row `m`. -/
def monomialSum (c : Nat → K) (p : Nat → K) (tab : Nat → Nat → Nat) (M : Nat) : Nat → K
  | 0 => c 0 * monomial p (tab 0) M
  | n + 1 => c (n + 1) * monomial p (tab (n + 1)) M + monomialSum c p tab M n

/-- multivariate_polynomial.h:172-182 : value of the derivative in direction `i`; `n` monomials in `M + 1` variables. -/
def polyDeriv (c : Nat → K) (p : Nat → K) (tab : Nat → Nat → Nat) (M n i : Nat) : K :=
  (List.range n).foldl (fun v m =>
    if tab m i ≠ 0 then v + c m * (tab m i : K) * monomial p (gradRow i (tab m)) M else v) 0

end Fdapde.FEM
