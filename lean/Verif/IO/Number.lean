import Verif.IO.Csv
import Verif.Float.Ieee
/-
The conversion `std::istringstream ss(token); ss >> x` of csv_reader.h:106-107, 145-147, 150-151 for `x` of type `double` and `Eigen::Index`, which `Csv.lean` takes as a
parameter.  It is the standard library's (`num_get::get`): the characters of the longest prefix that may belong to a number are collected and given to `strtod`,
`strtol`; if these do not use all of them, or there are none, 0 is stored; a number out of range stores the largest number of its sign.  Nothing is stored when only
white space is left.  `strtod` rounds to nearest.  The sign of zero is left out.  Locale "C".
-/
namespace Fdapde.IO
open Fdapde.Fp

/-- `isspace`. -/
def isSpace (c : Char) : Bool := c = ' ' || c = '\t' || c = '\n' || c = '\r' || c.toNat = 11 || c.toNat = 12

/-- An optional sign: whether it is a minus, and what follows. -/
def signOf : List Char → Bool × List Char
  | '-' :: s => (true, s)
  | '+' :: s => (false, s)
  | s => (false, s)

/-- The value of a list of digits. -/
def digitsVal (l : List Char) : Nat := l.foldl (fun v c => 10 * v + (c.toNat - 48)) 0

/-- The digits after the decimal point, if there is one, and what follows. -/
def fractionOf : List Char → List Char × List Char
  | '.' :: s => (s.takeWhile Char.isDigit, s.dropWhile Char.isDigit)
  | s => ([], s)

/-- The exponent: 0 without `e`, none if no digits follow an `e`. -/
def exponentOf : List Char → Option Int
  | c :: s =>
    if c = 'e' ∨ c = 'E' then
      let x := (signOf s).2.takeWhile Char.isDigit
      if x = [] then none else some (if (signOf s).1 then -(digitsVal x : Int) else digitsVal x)
    else some 0
  | [] => some 0

/-- The number spelled at the front of a text without white space at its front; `none` if the characters collected are not a number. -/
def number (s : List Char) : Option ℚ :=
  let i := (signOf s).2.takeWhile Char.isDigit
  let f := fractionOf ((signOf s).2.dropWhile Char.isDigit)
  if i ++ f.1 = [] then none
  else (exponentOf f.2).map fun e => (if (signOf s).1 then -1 else 1) * (digitsVal (i ++ f.1) : ℚ) * (10 : ℚ) ^ (e - (f.1.length : Int))

/-- `std::numeric_limits<double>::max()`. -/
noncomputable def largest : ℝ := 2 ^ 1024 - 2 ^ 971

/-- `strtod` on a number, with the largest double instead of infinity. -/
noncomputable def toDouble (q : ℝ) : Dbl := .fin (if |fit q| < 2 ^ 1024 then fit q else if q < 0 then -largest else largest)

/-- `ss >> x` for `double x`. -/
noncomputable def readDouble (s : List Char) : Option Dbl :=
  match s.dropWhile isSpace with
  | [] => none
  | c :: t => some (match number (c :: t) with
    | none => .fin 0
    | some q => toDouble q)

/-- `ss >> x` for `Eigen::Index x`, a signed integer of 64 bits. -/
def readIndex (s : List Char) : Option Int :=
  match s.dropWhile isSpace with
  | [] => none
  | c :: t =>
    let x := (signOf (c :: t)).2.takeWhile Char.isDigit
    let v : Int := if (signOf (c :: t)).1 then -(digitsVal x : Int) else digitsVal x
    some (max (-2 ^ 63) (min (2 ^ 63 - 1) v))

end Fdapde.IO
