import Mathlib.Data.List.Infix
import Verif.IO.Csv

/-!
# CSV files: specification

What the content of a text file is, and which value a field denotes.
-/

namespace Fdapde.IO

/-- `text` is the text with lines `ls`; the last line may or may not be ended by a newline. -/
inductive IsText : List (List Char) → List Char → Prop
  | nil : IsText [] []
  | last (l : List Char) (hl : l ≠ []) (hn : '\n' ∉ l) : IsText [l] l
  | cons (l : List Char) (ls : List (List Char)) (t : List Char) (hn : '\n' ∉ l) (h : IsText ls t) : IsText (l :: ls) (l ++ '\n' :: t)

/-- A line made of the given fields separated by commas. -/
def csvLine (fields : List (List Char)) : List Char := [','].intercalate fields

/-- A field free of commas and newlines. -/
def Plain (t : List Char) : Prop := ',' ∉ t ∧ '\n' ∉ t

/-- A field without its blanks and quotes. -/
def stripped (t : List Char) : List Char := t.filter fun c => c ≠ ' ' ∧ c ≠ '"'

variable {K : Type}

/-- The value denoted by a field: not-a-number for the three markers, the number it spells otherwise. -/
def CellIs (nan : K) (num : List Char → Option K) (t : List Char) (v : K) : Prop :=
  if stripped t = "NA".toList ∨ stripped t = "NaN".toList ∨ stripped t = "nan".toList then v = nan else num (stripped t) = some v

end Fdapde.IO
