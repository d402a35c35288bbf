/-!
# JSON objects with text values

A reader for the objects of RFC 8259 whose values are all strings.  Numbers, arrays and nested objects are not read.
-/

namespace GJ.Spec

/-- The value of a hexadecimal digit. -/
def hexDigitValue (c : Char) : Option Nat :=
  if '0'.toNat ≤ c.toNat ∧ c.toNat ≤ '9'.toNat then some (c.toNat - '0'.toNat)
  else if 'a'.toNat ≤ c.toNat ∧ c.toNat ≤ 'f'.toNat then some (c.toNat - 'a'.toNat + 10)
  else if 'A'.toNat ≤ c.toNat ∧ c.toNat ≤ 'F'.toNat then some (c.toNat - 'A'.toNat + 10)
  else none

/-- Four hexadecimal digits, and what follows. -/
def jsonUnit : List Char → Option (Nat × List Char)
  | a :: b :: c :: d :: rest => do
    let a ← hexDigitValue a
    let b ← hexDigitValue b
    let c ← hexDigitValue c
    let d ← hexDigitValue d
    some (a * 4096 + b * 256 + c * 16 + d, rest)
  | _ => none

/-- What stands after `\u`: one unit, or a surrogate pair. -/
def jsonUnicode (s : List Char) : Option (Char × List Char) :=
  match jsonUnit s with
  | none => none
  | some (u, rest) =>
    if 0xD800 ≤ u ∧ u < 0xDC00 then
      match rest with
      | '\\' :: 'u' :: rest => match jsonUnit rest with
        | some (v, rest) =>
          if 0xDC00 ≤ v ∧ v < 0xE000 then some (Char.ofNat (0x10000 + (u - 0xD800) * 0x400 + (v - 0xDC00)), rest)
          else none
        | none => none
      | _ => none
    else if 0xDC00 ≤ u ∧ u < 0xE000 then none
    else some (Char.ofNat u, rest)

/-- One character inside a string, or the closing quote. -/
def jsonChar : List Char → Option (Option Char × List Char)
  | [] => none
  | c :: rest =>
    if c = '"' then some (none, rest)
    else if c = '\\' then
      match rest with
      | [] => none
      | e :: rest =>
        if e = 'u' then (jsonUnicode rest).map fun p => (some p.1, p.2)
        else if e = '"' ∨ e = '\\' ∨ e = '/' then some (some e, rest)
        else if e = 'b' then some (some (Char.ofNat 8), rest)
        else if e = 'f' then some (some (Char.ofNat 12), rest)
        else if e = 'n' then some (some '\n', rest)
        else if e = 'r' then some (some '\r', rest)
        else if e = 't' then some (some '\t', rest)
        else none
    else if c.toNat < 32 then none
    else some (some c, rest)

/-- The rest of a string whose opening quote was read, and what follows it; at most `fuel` characters are read. -/
def jsonChars : Nat → List Char → Option (List Char × List Char)
  | 0, _ => none
  | fuel + 1, s => match jsonChar s with
    | none => none
    | some (none, rest) => some ([], rest)
    | some (some c, rest) => (jsonChars fuel rest).map fun p => (c :: p.1, p.2)

/-- White space is skipped. -/
def jsonSkip : List Char → List Char
  | c :: rest => if c = ' ' ∨ c = '\n' ∨ c = '\r' ∨ c = '\t' then jsonSkip rest else c :: rest
  | [] => []

def jsonString (s : List Char) : Option (List Char × List Char) :=
  match s with
  | '"' :: rest => jsonChars rest.length rest
  | _ => none

/-- `"key" : "value"`, and what follows, without white space. -/
def jsonPair (s : List Char) : Option ((List Char × List Char) × List Char) := do
  let (k, rest) ← jsonString s
  match jsonSkip rest with
  | ':' :: rest => do
    let (v, rest) ← jsonString (jsonSkip rest)
    some ((k, v), jsonSkip rest)
  | _ => none

/-- The pairs up to the closing brace; at most `fuel` of them. -/
def jsonPairs : Nat → List Char → Option (List (List Char × List Char) × List Char)
  | 0, _ => none
  | fuel + 1, s => match jsonPair s with
    | none => none
    | some (p, '}' :: rest) => some ([p], rest)
    | some (p, ',' :: rest) => (jsonPairs fuel (jsonSkip rest)).map fun q => (p :: q.1, q.2)
    | some (_, _) => none

/-- An object of strings, in the order written. -/
def jsonObject (s : List Char) : Option (List (List Char × List Char)) :=
  match jsonSkip s with
  | '{' :: rest => match jsonSkip rest with
    | '}' :: rest => if jsonSkip rest = [] then some [] else none
    | rest => match jsonPairs rest.length rest with
      | some (ps, rest) => if jsonSkip rest = [] then some ps else none
      | none => none
  | _ => none

end GJ.Spec
