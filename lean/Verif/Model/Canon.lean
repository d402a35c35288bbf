import Verif.Model.Sort
import Verif.Model.Map

/-!
# Canonical request strings

Models the string handling in `/repo/src/gribjump/Engine.cc` and `Lister.cc`.  A string is a list of
characters.  `std::string` compares bytes; for UTF-8 this is the order of the characters.
-/

namespace GJ

abbrev Str := List Char

/-- `a <= b` for `std::string`. -/
def strLe : Str → Str → Bool
  | [], _ => true
  | _ :: _, [] => false
  | a :: as, b :: bs => if a.toNat < b.toNat then true else if b.toNat < a.toNat then false else strLe as bs

/-- The pieces of a string between separators, empty ones included. -/
def splitOn (c : Char) : Str → List Str
  | [] => [[]]
  | a :: rest =>
    if a = c then [] :: splitOn c rest
    else match splitOn c rest with
      | [] => [[a]]
      | p :: ps => (a :: p) :: ps

/-- `eckit::StringTools::split`: the tokenizer drops empty pieces. -/
def tokens (c : Char) (s : Str) : List Str := (splitOn c s).filter (fun p => p ≠ [])

/-- `s.find(pat) != npos`. -/
def containsSub (pat : Str) : Str → Bool
  | [] => pat.isEmpty
  | a :: rest => pat.isPrefixOf (a :: rest) || containsSub pat rest

def kYear : Str := ['y', 'e', 'a', 'r']
def kMonth : Str := ['m', 'o', 'n', 't', 'h']
def kDate : Str := ['d', 'a', 't', 'e']

/-- One piece of a request, Engine.cc:58-67: its text, key and value if it is kept. -/
def keepPiece (drop : Bool) (kv : Str) : Option (Str × Str × Str) :=
  match tokens '=' kv with
  | [k, v] => if drop && (decide (k = kYear) || decide (k = kMonth)) then none else some (kv, k, v)
  | _ => none

/-- The loop over the pieces of one request, Engine.cc:53-67. -/
def keptPairs (drop : Bool) (s : Str) : List (Str × Str × Str) := (tokens ',' s).filterMap (keepPiece drop)

/-- The concatenation loop, Engine.cc:71-77: a comma follows every piece that differs from the last one. -/
def joinCanon (sorted : List Str) : Str :=
  sorted.flatMap fun kv => if sorted.getLast? = some kv then kv else kv ++ [',']

/-- The canonical form of a request string, Engine.cc:53-77. -/
def canonString (drop : Bool) (s : Str) : Str :=
  joinCanon (isort strLe ((keptPairs drop s).map fun p => p.1))

/-- Whether a request switches the dropping of year and month on, Engine.cc:48-51. -/
def mentionsYearMonthDate (s : Str) : Bool :=
  containsSub kYear s && containsSub kMonth s && containsSub kDate s

/-- `fdb5::Key`: distinct names with values. -/
abbrev FdbKey := AMap Str Str

/-- The output loop of `fdbkeyToStr`, Lister.cc:71-80: the separator is set after the first entry written. -/
def keyLoop (key : FdbKey) : Bool → List Str → Str
  | _, [] => []
  | sep, k :: ks =>
    match key.find k with
    | none => keyLoop key sep ks
    | some v =>
      if v = [] then keyLoop key sep ks
      else (if sep then [','] else []) ++ k ++ ['='] ++ v ++ keyLoop key true ks

/-- `fdbkeyToStr`, Lister.cc:59-82.  `key.keys()` is a sorted set. -/
def fdbkeyToStr (ignoreYearMonth : Bool) (key : FdbKey) : Str :=
  let keys := isort strLe key.keys
  let keys := if ignoreYearMonth && decide (kDate ∈ keys) then
      keys.filter fun k => decide (k ≠ kYear) && decide (k ≠ kMonth) else keys
  keyLoop key false keys

end GJ
