import Verif.Model.Jumper
import Verif.Model.Canon

/-!
# Specification: the text of a ranges file
-/

namespace GJ.Spec

/-- A number in decimal notation. -/
def decimal (n : Nat) : Str := (toString n).toList

/-- A range: `10-20`. -/
def rangeText (i : Interval) : Str := decimal i.b ++ ['-'] ++ decimal i.e

/-- A line: `10-20, 30-40`. -/
def rangesLine : List Interval → Str
  | [] => []
  | [i] => rangeText i
  | i :: rest => rangeText i ++ [',', ' '] ++ rangesLine rest

/-- One line per request. -/
def rangesText (rss : List (List Interval)) : Str := rss.flatMap fun rs => rangesLine rs ++ ['\n']

/-- The same file without the newline after its last line. -/
def rangesTextOpen : List (List Interval) → Str
  | [] => []
  | [rs] => rangesLine rs
  | rs :: rest => rangesLine rs ++ ['\n'] ++ rangesTextOpen rest

/-- A text that begins like a whole number, after any blanks. -/
def BeginsWithNumber (s : Str) : Prop :=
  ∃ (blanks sign : Str) (d : Char) (rest : Str), s = blanks ++ sign ++ d :: rest ∧
    (∀ c ∈ blanks, c = ' ' ∨ (9 ≤ c.toNat ∧ c.toNat ≤ 13)) ∧ (sign = [] ∨ sign = ['-'] ∨ sign = ['+']) ∧ d.isDigit = true

end GJ.Spec
