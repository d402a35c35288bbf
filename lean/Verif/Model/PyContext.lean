import Verif.Model.PyRequest

/-!
# Python client: the context of a call

Models `merge_default_context` of `/repo/python/pygribjump/src/pygribjump/pygribjump.py` and what `extract` and `axes` do
with its result.  Simplified: the values of a context are texts (as its type says, line 786), and a text is a list of
Unicode scalar values (a Python text may also hold lone surrogates).  `json.dumps` is part of Python; it is modelled as its
documentation describes the default settings (`ensure_ascii`, separators `", "` and `": "`).
-/

namespace GJ

/-- `merge_default_context`, pygribjump.py:786-800. -/
def mergeDefaultContext (ctx : Option (List (Str × Str))) (defaults : List (Str × Str)) : List (Str × Str) :=
  match ctx with
  | none => defaults
  | some ctx => ctx ++ defaults.filter fun kv => !(ctx.map Prod.fst).contains kv.1

/-- `default_context`, pygribjump.py:762-783. -/
def defaultContext (action pyVersion version user host : Str) : List (Str × Str) :=
  [("source".toList, "pygribjump".toList), ("action".toList, action), ("pygribjump_version".toList, pyVersion),
   ("gribjump_version".toList, version), ("user".toList, user), ("hostname".toList, host)]

def hexLower (n : Nat) : Char := if n < 10 then Char.ofNat ('0'.toNat + n) else Char.ofNat ('a'.toNat + (n - 10))

/-- `'\\u{0:04x}'`. -/
def pyUnicodeEscape (n : Nat) : Str :=
  ['\\', 'u', hexLower (n / 4096 % 16), hexLower (n / 256 % 16), hexLower (n / 16 % 16), hexLower (n % 16)]

/-- A character of a text written by `json.dumps`. -/
def pyJsonChar (c : Char) : Str :=
  if c = '"' then ['\\', '"']
  else if c = '\\' then ['\\', '\\']
  else if c = '\n' then ['\\', 'n']
  else if c = '\r' then ['\\', 'r']
  else if c = '\t' then ['\\', 't']
  else if c = Char.ofNat 12 then ['\\', 'f']
  else if c = Char.ofNat 8 then ['\\', 'b']
  else if 32 ≤ c.toNat ∧ c.toNat ≤ 126 then [c]
  else if c.toNat < 0x10000 then pyUnicodeEscape c.toNat
  else pyUnicodeEscape (0xD800 + (c.toNat - 0x10000) / 0x400 % 0x400) ++
    pyUnicodeEscape (0xDC00 + (c.toNat - 0x10000) % 0x400)

def pyJsonText (s : Str) : Str := '"' :: (s.flatMap pyJsonChar ++ ['"'])

def pyJsonPair (kv : Str × Str) : Str := pyJsonText kv.1 ++ ": ".toList ++ pyJsonText kv.2

def pyJsonPairs : List (Str × Str) → Str
  | [] => []
  | [kv] => pyJsonPair kv
  | kv :: rest => pyJsonPair kv ++ ", ".toList ++ pyJsonPairs rest

/-- `json.dumps`. -/
def pyJsonDumps (dic : List (Str × Str)) : Str := '{' :: (pyJsonPairs dic ++ ['}'])

/-- `encode('ascii')`: UnicodeEncodeError for any other character. -/
def pyAscii (s : Str) : Res Str := if s.all (fun c => decide (c.toNat < 128)) then .ok s else throwExn .badValue

/-- The context the C API is given, pygribjump.py:423, 444-445 and 526-528, as C sees it. -/
def pyContext (ctx : Option (List (Str × Str))) (defaults : List (Str × Str)) : Res String := do
  let text ← pyAscii (pyJsonDumps (mergeDefaultContext ctx defaults))
  .ok (String.ofList (cstr text))

end GJ
