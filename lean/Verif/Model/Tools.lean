import Verif.Model.Canon
import Verif.Model.Client
import Verif.Model.Scan

/-!
# The command-line tools

Models `/repo/src/gribjump/tools/ToolUtils.cc`, `EccodesExtract.cc`, `/repo/src/tools/gribjump-extract.cc`,
`gribjump-validate.cc` and `gribjump-scan-files.cc`.  Option parsing (eckit), the parsing and expansion of MARS requests
(metkit) and the layout of the text printed are left out.
-/

namespace GJ

/-! ## The ranges file -/

/-- `std::isspace` in the C locale. -/
def isSpaceC (c : Char) : Bool := c = ' ' || (decide (9 ≤ c.toNat) && decide (c.toNat ≤ 13))

/-- The sign of a number. -/
def takeSign : Str → Bool × Str
  | [] => (false, [])
  | c :: r => if c = '-' then (true, r) else if c = '+' then (false, r) else (false, c :: r)

/-- `std::stoi`: blanks, a sign, then as many digits as follow; the rest is ignored.  No digit: `std::invalid_argument`,
here `badValue`. -/
def stoi (s : Str) : Res Int :=
  let signed := takeSign (s.dropWhile isSpaceC)
  let ds := signed.2.takeWhile Char.isDigit
  if ds = [] then throwExn .badValue
  else
    let n : Int := Nat.ofDigitChars 10 ds 0
    let v := if signed.1 then -n else n
    if v < -2 ^ 31 ∨ 2 ^ 31 ≤ v then throwExn .outOfRange else .ok v

/-- `int` to `size_t`. -/
def toSizeT (v : Int) : Nat := (v % 2 ^ 64).toNat

/-- The lines `std::getline` delivers: what follows the last newline counts only if it is not empty. -/
def textLines (text : Str) : List Str :=
  let ps := splitOn '\n' text
  if ps.getLast? = some [] then ps.dropLast else ps

/-- One range, ToolUtils.cc:43-45.  If both numbers are bad, which exception is thrown is unspecified. -/
def parseRange (s : Str) : Res Interval :=
  match tokens '-' s with
  | [b, e] => do
    let b ← stoi b
    let e ← stoi e
    .ok ⟨toSizeT b, toSizeT e⟩
  | _ => throwExn .assertFailed

/-- One line, ToolUtils.cc:40-47. -/
def parseRangesLine (line : Str) : Res (List Interval) := (tokens ',' line).mapM parseRange

/-- `parseRangesFile`, ToolUtils.cc:22-51; `none` if the file cannot be opened: the stream then has `failbit` set, but
`bad()` tests `badbit`, so no error is raised and no line is read. -/
def parseRangesFile : Option Str → Res (List (List Interval))
  | none => .ok []
  | some text => (textLines text).mapM parseRangesLine

/-- gribjump-extract.cc:79-85 and gribjump-validate.cc:78-84: a single line applies to all requests. -/
def sharedRanges (n : Nat) (all : List (List Interval)) : List (List Interval) :=
  match all with
  | [rs] => rs :: List.replicate (n - 1) rs
  | _ => all

/-- gribjump-extract.cc:79-86 and gribjump-validate.cc:78-85. -/
def toolRanges (n : Nat) (all : List (List Interval)) : Res (List (List Interval)) :=
  if n = (sharedRanges n all).length then .ok (sharedRanges n all) else throwExn .assertFailed

/-! ## gribjump-extract -/

/-- What the tools call. -/
structure ToolEnv (Req V : Type) where
  /-- `MarsExpansion::flatten` -/
  flatten : Req → List Req
  /-- `MarsRequest::asString` -/
  text : Req → Str
  /-- `GribJump::extract`, all results -/
  extract : List (Str × List Interval) → Res (List (ExResult V))
  /-- the decoded values of the fields of a request, `FDBLister::filesOffsets` and eccodes -/
  fields : Req → Res (List (List V))
  /-- `==` on doubles -/
  same : V → V → Bool

def retrieveVerb : Str := ['r', 'e', 't', 'r', 'i', 'e', 'v', 'e', ',']

/-- gribjump-extract.cc:94-97. -/
def stripVerb (s : Str) : Str := if retrieveVerb.isPrefixOf s then s.drop 9 else s

/-- gribjump-extract.cc:88-101. -/
def polyRequest {Req V : Type} (E : ToolEnv Req V) (reqs : List Req) (all : List (List Interval)) :
    List (Str × List Interval) :=
  (reqs.zip all).flatMap fun p => (E.flatten p.1).map fun q => (stripVerb (E.text q), p.2)

/-- What is printed for one result. -/
structure Printed (Req V : Type) where
  index : Nat
  request : Req
  rows : List (Interval × List V)
  mask : List (List Nat)
  deriving DecidableEq

/-- The output loop, gribjump-extract.cc:115-150.  `requests[i]` and `allRanges[i][k]` are not checked. -/
def printLoop {Req V : Type} (reqs : List Req) (all : List (List Interval)) : Nat → List (ExResult V) →
    Res (List (Printed Req V))
  | _, [] => .ok []
  | i, r :: rest =>
    match reqs[i]?, all[i]? with
    | some q, some rs =>
      if r.values.length ≤ rs.length then do
        let more ← printLoop reqs all (i + 1) rest
        .ok (⟨i, q, rs.zip r.values, r.mask⟩ :: more)
      else undef
    | _, _ => undef

/-- `GribJumpExtract::execute`, gribjump-extract.cc:53-151, after the requests have been read. -/
def toolExtract {Req V : Type} (E : ToolEnv Req V) (reqs : List Req) (ranges : Option Str) :
    Res (List (Printed Req V)) := do
  let all ← parseRangesFile ranges
  let all ← toolRanges reqs.length all
  let results ← E.extract (polyRequest E reqs all)
  printLoop reqs all 0 results

/-! ## gribjump-validate -/

/-- EccodesExtract.cc:67-73: `data[k]` is not checked. -/
def eccodesRange {V : Type} (data : List V) (i : Interval) : Res (List V) :=
  (List.range' i.b (i.e - i.b)).mapM fun k => match data[k]? with
    | some v => .ok v
    | none => undef

/-- `eccodesExtract`, EccodesExtract.cc:26-81. -/
def eccodesExtract {Req V : Type} (E : ToolEnv Req V) (q : Req) (rs : List Interval) : Res (List (List (List V))) := do
  let fields ← E.fields q
  fields.mapM fun data => rs.mapM (eccodesRange data)

/-- gribjump-validate.cc:123-127: the assertions on one range; the values compared. -/
def compareValues {V : Type} (same : V → V → Bool) (ec gj : List V) : Res Nat := do
  cassert (decide (ec.length = gj.length))
  cassert ((ec.zip gj).all fun p => same p.1 p.2)
  .ok ec.length

/-- gribjump-validate.cc:113-128. -/
def compareField {V : Type} (same : V → V → Bool) (ec gj : List (List V)) : Res Nat := do
  cassert (decide (ec.length = gj.length))
  let ns ← (ec.zip gj).mapM fun p => compareValues same p.1 p.2
  .ok ns.sum

/-- One request, gribjump-validate.cc:104-129. -/
def validateOne {Req V : Type} (E : ToolEnv Req V) (q : Req) (rs : List Interval) (r : ExResult V) : Res Nat := do
  let ec ← eccodesExtract E q rs
  match ec with
  | [e] => compareField E.same e r.values
  | _ => throwExn .assertFailed

/-- `CompareEccodes::execute`, gribjump-validate.cc:54-132, after the requests have been read: the number reported with
"All match". -/
def toolValidate {Req V : Type} (E : ToolEnv Req V) (reqs : List Req) (ranges : Option Str) : Res Nat := do
  let all ← parseRangesFile ranges
  let all ← toolRanges reqs.length all
  let results ← E.extract ((reqs.zip all).map fun p => (E.text p.1, p.2))
  cassert (decide (results.length = reqs.length))
  let ns ← (reqs.zip (all.zip results)).mapM fun p => validateOne E p.1 p.2.1 p.2.2
  .ok ns.sum

/-! ## gribjump-scan-files -/

/-- The files to scan, gribjump-scan-files.cc:70-104.  `there` says which files exist.  Whether a file has an index is
decided by a file next to it, whatever the configuration says about the place of index files. -/
def scanSelection (there : String → Bool) (skip : Bool) (files : List String) : Res (List String) :=
  if files.all there then
    let old := files.filter fun f => there (f ++ ".gribjump")
    let new := files.filter fun f => ! there (f ++ ".gribjump")
    .ok (if skip then new else new ++ old)
  else throwExn .userError

/-- `ScanFiles::execute`, gribjump-scan-files.cc:51-126. -/
def toolScanFiles (E : ScanEnv) (c : Cache) (there : String → Bool) (skip dry : Bool) (files : List String)
    (sched : List ScanEv) : Res Cache :=
  if files = [] then .ok c
  else do
    let todo ← scanSelection there skip files
    if todo = [] ∨ dry = true then .ok c
    else do
      let r ← apiScanFiles E c todo sched
      .ok r.2

end GJ
