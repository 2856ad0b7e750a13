import Verif.IO.Number
import Verif.IO.CsvSpec
import Mathlib.Data.Nat.Digits.Lemmas
/-
How numbers are written: decimal digits, scientific notation, and a double with 17 significant digits.
-/
namespace Fdapde.IO
open Fdapde.Fp

/-- A digit as a character. -/
def digitChar (d : Nat) : Char := Char.ofNat (48 + d)

/-- The decimal digits of a number. -/
def digitText (n : Nat) : List Char := if n = 0 then ['0'] else (Nat.digits 10 n).reverse.map digitChar

/-- An integer, with a minus sign if it is negative. -/
def intText (z : Int) : List Char := (if z < 0 then ['-'] else []) ++ digitText z.natAbs

/-- Scientific notation of `m * 10 ^ e`, negated if `neg`: the first digit of `m`, a point, the other digits, and the exponent. -/
def scientific (neg : Bool) (m : Nat) (e : Int) : List Char :=
  (if neg then ['-'] else []) ++ (digitText m).take 1 ++ '.' :: (digitText m).drop 1 ++ 'e' :: intText (e + ((digitText m).drop 1).length)

/-- A real number written with 17 significant digits. -/
noncomputable def write17 (x : ℝ) : List Char :=
  if x = 0 then ['0']
  else scientific (x < 0) (nearest (|x| / (10 : ℝ) ^ (Int.log 10 |x| - 16))).toNat (Int.log 10 |x| - 16)

/-- A double as R and most programs write it. -/
noncomputable def writeDouble : Dbl → List Char
  | .fin x => write17 x
  | .inf false => "Inf".toList
  | .inf true => "-Inf".toList
  | .nan => "NaN".toList

/-- Two ways to write a sign. -/
inductive SignIs : List Char → Bool → Prop
  | none : SignIs [] false
  | plus : SignIs ['+'] false
  | minus : SignIs ['-'] true

end Fdapde.IO
