import Verif.Common.Res
/-
Model of fdaPDE/utils/combinatorics.h and of `ct_array_sum` (fdaPDE/utils/compile_time.h).
`int` is modelled by `Nat`: in the code `ct_factorial(n)` overflows for `n > 12`.
-/
namespace Fdapde.Combinatorics

/-- combinatorics.h:29 : `ct_factorial`. -/
def ctFactorial : Nat → Nat
  | 0 => 1
  | n + 1 => (n + 1) * ctFactorial n

/-- combinatorics.h:32-34 : `ct_binomial_coefficient(N, M)`. -/
def ctBinomial (N M : Nat) : Nat := ctFactorial N / (ctFactorial M * ctFactorial (N - M))

/-- Index of the last element of `xs` that is smaller than `x` (`!b && x` for booleans). -/
def lastLess (x : Bool) : List Bool → Option Nat
  | [] => none
  | b :: bs =>
    match lastLess x bs with
    | some j => some (j + 1)
    | none => if x && !b then some 0 else none

/-- `std::prev_permutation` on a vector of booleans (used in combinatorics.h:48): find the rightmost
position that is greater than some later element (everything after it is then ascending), swap it
with the last smaller element, reverse what follows.  `none`: there is no such position, the function
returns false. -/
def prevPerm : List Bool → Option (List Bool)
  | [] => none
  | x :: xs =>
    match prevPerm xs with
    | some ys => some (x :: ys)
    | none =>
      match lastLess x xs with
      | some j => some (xs.getD j x :: (xs.set j x).reverse)
      | none => none

/-- combinatorics.h:44-46 : the positions of the set bits, from index `i` on. -/
def rowOf : Nat → List Bool → List Nat
  | _, [] => []
  | i, b :: bs => if b then i :: rowOf (i + 1) bs else rowOf (i + 1) bs

/-- combinatorics.h:41-48 : the loop; `rows` rows of the result are left, each of `K` columns.  Writing
past the last row or column is undefined. -/
def combLoop (K : Nat) : Nat → List Bool → Res (List (List Nat))
  | 0, _ => .ub
  | rows + 1, mask =>
    if (rowOf 0 mask).length ≤ K then
      match prevPerm mask with
      | none => .ok [rowOf 0 mask]
      | some mask' =>
        match combLoop K rows mask' with
        | .ok rest => .ok (rowOf 0 mask :: rest)
        | .throws => .throws
        | .ub => .ub
    else .ub

/-- combinatorics.h:37-51 : `combinations<K, N>()` (the rows written). -/
def combinations (K N : Nat) : Res (List (List Nat)) :=
  combLoop K (ctBinomial N K) (List.replicate K true ++ List.replicate (N - K) false)

/-- compile_time.h:26-30 : `ct_array_sum`. -/
def ctArraySum (xs : List Int) : Int := xs.foldl (· + ·) 0

end Fdapde.Combinatorics
