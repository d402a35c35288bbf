import Verif.Model.Tools
import Verif.Model.Engine

/-!
# Offsets as texts

Inside the engine a place is an `eckit::URI`, whose fragment is a text: `Engine::buildRequestURIsMap` writes the offset of a
request by path there (Engine.cc:134), and `ExtractionItem::offset` (ExtractionItem.h:66-78) and `URIHelper::offset`
(URIHelper.h:22-32) read it back.  In `Engine` the place keeps the number.  Here are the two conversions, and the engine with
them.
-/

namespace GJ

/-- `std::to_string(size_t)`, Engine.cc:134. -/
def offsetText (o : Nat) : Str := (toString o).toList

/-- `std::stoll`, as called in ExtractionItem.h:71, URIHelper.h:26, InfoCache.cc:98 and InfoAggregator.cc:70: blanks, a sign,
then as many digits as follow; the rest is ignored.  No digit: `std::invalid_argument`, which is caught and thrown again as
`eckit::BadValue` (ExtractionItem.h:73-75; the two other callers let it pass).  `std::out_of_range` passes through all of
them. -/
def stoll (s : Str) : Res Int :=
  let signed := takeSign (s.dropWhile isSpaceC)
  let ds := signed.2.takeWhile Char.isDigit
  if ds = [] then throwExn .badValue
  else
    let n : Int := Nat.ofDigitChars 10 ds 0
    let v := if signed.1 then -n else n
    if v < -2 ^ 63 ∨ 2 ^ 63 ≤ v then throwExn .outOfRange else .ok v

/-- The offsets of the items of a task, Task.cc:192-206, from the fragments of their places: items sorted by `offset()`, then
their offsets.  The comparisons and the loop read the texts again and again; each is read at least once by the loop, and a
bad one throws.  If several are bad, which exception is thrown is unspecified; here that of the first. -/
def readOffsets (items : List (String × Str)) : Res (List (String × Int)) := do
  let read ← items.mapM fun i => do
    let v ← stoll i.2
    .ok (i.1, v)
  .ok (isort (fun a b => decide (a.2 ≤ b.2)) read)

/-- The engine with offsets kept as texts: `FileExtractionTask::extract` asks for the metadata at the offsets it has read,
Task.cc:204-208. -/
def ExtEnv.readingTexts (E : ExtEnv) : ExtEnv :=
  { E with
    infos := fun t f os => do
      let read ← os.mapM fun o => stoll (offsetText o)
      E.infos t f (read.map Int.toNat) }

end GJ
