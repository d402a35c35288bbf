import Verif.Model.Canon
import Verif.Model.Engine
import Verif.Model.Python

/-!
# Python client: making requests

Models the request classes and the text utilities of `/repo/python/pygribjump/src/pygribjump/pygribjump.py` and the
functions of `/repo/src/gribjump/gribjump_c.cc` they call.  Python integers are unbounded.  Texts are lists of
characters; encoding them as UTF-8 keeps the separators and NUL apart from all other characters and is left out.
-/

namespace GJ

/-! ## Text -/

/-- `sep.join(pieces)`. -/
def pyJoin (sep : Char) : List Str → Str
  | [] => []
  | [p] => p
  | p :: q :: rest => p ++ sep :: pyJoin sep (q :: rest)

/-- `dic_to_request`, pygribjump.py:734-736.  A dictionary is the list of its items, in insertion order. -/
def dicToRequest (dic : List (Str × Str)) : Str := pyJoin ',' (dic.map fun kv => pyJoin '=' [kv.1, kv.2])

/-- A value in a dictionary: a text or a list.  `str` of the list's elements is taken already. -/
inductive PyVal where
  | one (s : Str)
  | many (l : List Str)

/-- What is written for a value, pygribjump.py:743-746. -/
def PyVal.text : PyVal → Str
  | .one s => s
  | .many l => pyJoin '/' l

/-- `multivalued_dic_to_request`, pygribjump.py:739-749: a comma after every item, and the last character removed. -/
def multivaluedDicToRequest (dic : List (Str × PyVal)) : Str :=
  (dic.foldl (fun out kv => out ++ (kv.1 ++ '=' :: kv.2.text ++ [','])) []).dropLast

/-- `str(n)`. -/
def pyStr (n : Int) : Str :=
  if 0 ≤ n then (toString n.toNat).toList else '-' :: (toString (-n).toNat).toList

/-- `list_to_rangestr`, pygribjump.py:727-731. -/
def listToRangestr (rs : List (Int × Int)) : Str := pyJoin ',' (rs.map fun r => pyJoin '-' [pyStr r.1, pyStr r.2])

/-- `int(s)`: blanks around, a sign, groups of digits with single underscores between.  Simplified: digits of other
scripts, which Python accepts, are not. -/
def pyInt (s : Str) : Res Int :=
  let inner := ((s.dropWhile Char.isWhitespace).reverse.dropWhile Char.isWhitespace).reverse
  let neg := inner.head? = some '-'
  let body := if inner.head? = some '-' ∨ inner.head? = some '+' then inner.tail else inner
  let groups := splitOn '_' body
  if groups.all (fun g => g ≠ [] && g.all Char.isDigit) then
    let n : Int := Nat.ofDigitChars 10 groups.flatten 0
    .ok (if neg then -n else n)
  else throwExn .badValue

/-- `rangestr_to_list`, pygribjump.py:719-724: tuples of any length. -/
def rangestrToList (s : Str) : Res (List (List Int)) := (splitOn ',' s).mapM fun r => (splitOn '-' r).mapM pyInt

/-! ## Requests -/

/-- What C code sees of a text: up to the first NUL. -/
def cstr (s : Str) : Str := s.takeWhile fun c => c ≠ Char.ofNat 0

/-- Assignment of a Python integer to a `size_t`: OverflowError if it does not fit. -/
def pyToSizeT (n : Int) : Res Nat := if 0 ≤ n ∧ n < 2 ^ 64 then .ok n.toNat else throwExn .outOfRange

/-- The flat array of ranges, pygribjump.py:156-163 and 240-245: `lo < hi`, else ValueError. -/
def pyFlatRanges : List (Int × Int) → Res (List Nat)
  | [] => .ok []
  | r :: rest =>
    if r.1 < r.2 then do
      let lo ← pyToSizeT r.1
      let hi ← pyToSizeT r.2
      let flat ← pyFlatRanges rest
      .ok (lo :: hi :: flat)
    else throwExn .userError

/-- The flat array of `ExtractionSingleIterator`, pygribjump.py:367-371: no comparison. -/
def pyFlatRangesUnchecked : List (Int × Int) → Res (List Nat)
  | [] => .ok []
  | r :: rest => do
    let lo ← pyToSizeT r.1
    let hi ← pyToSizeT r.2
    let flat ← pyFlatRangesUnchecked rest
    .ok (lo :: hi :: flat)

/-- `std::make_pair(range_arr[i], range_arr[i + 1])`: reading past the array is undefined. -/
def cPair (arr : List Nat) (i : Nat) : Res Interval :=
  match arr[i]?, arr[i + 1]? with
  | some b, some e => .ok ⟨b, e⟩
  | _, _ => undef

/-- The ranges of `gribjump_new_request`, gribjump_c.cc:163-167, 188-192 and 291-296. -/
def cRanges (arr : List Nat) (size : Nat) : Res (List Interval) :=
  if size % 2 = 0 then (List.range (size / 2)).mapM fun i => cPair arr (2 * i) else throwExn .assertFailed

/-- `gridhash ? std::string(gridhash) : ""`, gribjump_c.cc:169. -/
def cHash : Option Str → String
  | none => ""
  | some h => String.ofList (cstr h)

/-- `gribjump_new_request`, gribjump_c.cc:157-179.  `parsing` is metkit's parsing and expansion of the request, if the
option `requestParsing` is set. -/
def cNewRequest (parsing : Option (Str → Res Str)) (reqstr : Str) (arr : List Nat) (size : Nat) (hash : Option Str) :
    Res ExRequest := do
  let ranges ← cRanges arr size
  match parsing with
  | some parse => do
    let text ← parse (cstr reqstr)
    .ok ⟨String.ofList text, ranges, cHash hash⟩
  | none => .ok ⟨String.ofList (cstr reqstr), ranges, cHash hash⟩

/-- `ExtractionRequest`: the request in the library, and the shape. -/
structure PyRequest where
  c : ExRequest
  shape : List Nat

/-- The sizes, pygribjump.py:163. -/
def pySizes (rs : List (Int × Int)) : List Nat := rs.map fun r => (r.2 - r.1).toNat

/-- `ExtractionRequest.__init__`, pygribjump.py:143-167. -/
def pyNewRequest (parsing : Option (Str → Res Str)) (dic : List (Str × Str)) (rs : List (Int × Int))
    (hash : Option Str) : Res PyRequest :=
  if rs = [] then throwExn .userError
  else do
    let flat ← pyFlatRanges rs
    let c ← cNewRequest parsing ("retrieve,".toList ++ dicToRequest dic) flat (rs.length * 2) hash
    .ok ⟨c, pySizes rs⟩

/-- `gribjump_new_request_from_path`, gribjump_c.cc:181-200. -/
def cNewPathRequest (path scheme : Str) (offset : Nat) (host : Str) (port : Int) (arr : List Nat) (size : Nat)
    (hash : Option Str) : Res PathReq := do
  let ranges ← cRanges arr size
  .ok ⟨String.ofList (cstr path), String.ofList (cstr scheme), offset, String.ofList (cstr host), port, ranges, cHash hash⟩

/-- A Python integer as a C `int`. -/
def pyToInt (n : Int) : Res Int := if -2 ^ 31 ≤ n ∧ n < 2 ^ 31 then .ok n else throwExn .outOfRange

/-- `PathExtractionRequest.__init__`, pygribjump.py:221-250. -/
def pyNewPathRequest (path scheme : Str) (offset : Int) (host : Str) (port : Int) (rs : List (Int × Int))
    (hash : Option Str) : Res (PathReq × List Nat) :=
  if rs = [] then throwExn .userError
  else do
    let flat ← pyFlatRanges rs
    let offset ← pyToSizeT offset
    let port ← pyToInt port
    let c ← cNewPathRequest path scheme offset host port flat (rs.length * 2) hash
    .ok (c, pySizes rs)

/-! ## Calls -/

/-- One element of the list given to `GribJump.extract`: dictionary, ranges, grid hash. -/
abbrev PyItem := List (Str × Str) × List (Int × Int) × Option Str

/-- `_unpack_polyrequest`, pygribjump.py:501-513; also `extract_from_ranges`, 489-499. -/
def pyUnpack (parsing : Option (Str → Res Str)) (items : List PyItem) : Res (List PyRequest) :=
  items.mapM fun it => pyNewRequest parsing it.1 it.2.1 it.2.2

/-- `GribJump::extract(requests)`, GribJump.cc:58-65, over an implementation, local or remote. -/
def gjExtract {V : Type} (impl : List ExRequest → Res (List (ExResult V))) (rs : List ExRequest) :
    Res (List (ExResult V)) :=
  if rs = [] then throwExn .userError else impl rs

/-- `GribJump.extract(items).dump_legacy()`, pygribjump.py:409-450 and 311-335: an empty list is a ValueError.  The local
and the remote implementation deliver one result object for each result. -/
def pyExtractDump {V : Type} (zero : V) (parsing : Option (Str → Res Str))
    (impl : List ExRequest → Res (List (ExResult V))) (items : List PyItem) :
    Res (List (List (List (List V × List Nat)))) :=
  if items = [] then throwExn .userError
  else do
    let reqs ← pyUnpack parsing items
    let results ← gjExtract impl (reqs.map PyRequest.c)
    pyDumpLegacy zero results.length (pyIterator (results.map some) (reqs.map PyRequest.shape))

/-- `GribJump.extract_single`, pygribjump.py:358-376 and 458-475, `gribjump_extract_single`, gribjump_c.cc:280-308, and
`GribJump::extract(request, ranges, gridHash)`, GribJump.cc:76-91.  `expand` is metkit: parsing, expansion and flattening
into the texts of single fields. -/
def pySingleRequests (expand : Str → Res (List Str)) (dic : List (Str × PyVal)) (rs : List (Int × Int))
    (hash : Option Str) : Res (List ExRequest) := do
  let flat ← pyFlatRangesUnchecked rs
  let ranges ← cRanges flat (rs.length * 2)
  let texts ← expand (cstr ("retrieve,".toList ++ multivaluedDicToRequest dic))
  .ok (texts.map fun t => ⟨String.ofList t, ranges, cHash hash⟩)

end GJ
