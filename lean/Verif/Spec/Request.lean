/-!
# Field requests

A field is named by key/value pairs.  A request is the text of such pairs; a catalogue entry is a set of them.
-/

namespace GJ.Spec

/-- A name or value that can stand in a request: nonempty, without separators. -/
def Clean (s : List Char) : Prop := s ≠ [] ∧ ',' ∉ s ∧ '=' ∉ s

/-- Pieces joined by commas. -/
def commas : List (List Char) → List Char
  | [] => []
  | [p] => p
  | p :: q :: rest => p ++ ',' :: commas (q :: rest)

/-- `key=value`. -/
def pairText (p : List Char × List Char) : List Char := p.1 ++ '=' :: p.2

/-- The text of a request: some leading words (such as `retrieve`), then the pairs. -/
def requestText (words : List (List Char)) (ps : List (List Char × List Char)) : List Char :=
  commas (words ++ ps.map pairText)

/-- A well-formed set of pairs: clean names and values, every name once. -/
def GoodPairs (ps : List (List Char × List Char)) : Prop :=
  (∀ p ∈ ps, Clean p.1 ∧ Clean p.2) ∧ (ps.map Prod.fst).Nodup

/-- `year` and `month` say nothing new when there is a `date`. -/
def essential (ignoreYearMonth : Bool) (ps : List (List Char × List Char)) : List (List Char × List Char) :=
  if ignoreYearMonth ∧ "date".toList ∈ ps.map Prod.fst then
    ps.filter fun p => p.1 ≠ "year".toList ∧ p.1 ≠ "month".toList
  else ps

/-- A request names the field of a catalogue entry: the same pairs in some order, not counting entries without a value
and redundant year and month. -/
def SameField (ignoreYearMonth : Bool) (request entry : List (List Char × List Char)) : Prop :=
  (essential ignoreYearMonth request).Perm ((essential ignoreYearMonth entry).filter fun p => p.2 ≠ [])

/-- No name is extended by another name with a character below `=` (a digit, for instance). -/
def NamesApart (names : List (List Char)) : Prop :=
  ∀ a ∈ names, ∀ c rest, a ++ c :: rest ∈ names → '='.toNat < c.toNat

/-- Year and month come together with a date, or not at all. -/
def YearMonthTogether (ps : List (List Char × List Char)) : Prop :=
  ("year".toList ∉ ps.map Prod.fst ∧ "month".toList ∉ ps.map Prod.fst) ∨
  ("year".toList ∈ ps.map Prod.fst ∧ "month".toList ∈ ps.map Prod.fst ∧ "date".toList ∈ ps.map Prod.fst)

/-- A well-formed catalogue entry: every name once; names and values that are present are clean. -/
def GoodEntry (e : List (List Char × List Char)) : Prop :=
  (∀ p ∈ e, p.2 ≠ [] → Clean p.1 ∧ Clean p.2) ∧ (e.map Prod.fst).Nodup ∧ NamesApart (e.map Prod.fst)

end GJ.Spec
