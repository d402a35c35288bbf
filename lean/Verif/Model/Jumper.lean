import Verif.Model.Simple
import Verif.Model.JumpInfo

/-!
# Extraction of intervals from one message

Models `/repo/src/gribjump/jumper/Jumper.cc`, `SimpleJumper.cc` and `JumperFactory.cc`.
-/

namespace GJ

/-- `Interval = std::pair<size_t, size_t>`, Types.h: begin (inclusive), end (exclusive). -/
structure Interval where
  b : Nat
  e : Nat
  deriving DecidableEq, Repr

/-- `size_t` subtraction, which wraps at 64 bits. -/
def wsub (x y : Nat) : Nat := (x + 2 ^ 64 - y) % 2 ^ 64

/-- One 64-bit word of `toBitset`, Jumper.cc:34-39: bit `j` is set when position `64*i+j` exists
and is present. -/
def bitsetWord (bm : List Bool) (i : Nat) : Nat :=
  (List.range 64).foldl
    (fun acc j => if bm[i * 64 + j]? = some true then acc ||| 2 ^ j else acc) 0

/-- `toBitset`, Jumper.cc:30-44. -/
def toBitset (bm : List Bool) : List Nat :=
  (List.range ((bm.length + 63) / 64)).map (bitsetWord bm)

/-- `toRanges`, Jumper.cc:48-55. -/
def toRanges (is : List Interval) : List Block := is.map fun i => ⟨i.b, wsub i.e i.b⟩

/-- The adjacent comparison of `checkIntervals`, Jumper.cc:61-63. -/
def ordered : List Interval → Bool
  | [] => true
  | [_] => true
  | a :: b :: rest => decide (a.e ≤ b.b) && ordered (b :: rest)

/-- `checkIntervals`, Jumper.cc:58-64. -/
def checkIntervals (is : List Interval) : Res Bool := do
  cassert (decide (is.length > 0))
  .ok (ordered is)

/-- `std::vector<T>(n, x)`: a size above the maximum throws `std::length_error`.  Exhaustion of
memory below that size is not modelled. -/
def mkVector {α : Type} (n : Nat) (x : α) : Res (List α) :=
  if n > 2 ^ 60 then throwExn .lengthError else .ok (List.replicate n x)

/-- `ExtractionResult`: values and mask words per interval, ExtractionData.h. -/
structure ExResult (V : Type) where
  values : List (List V)
  mask : List (List Nat)
  deriving DecidableEq, Repr

/-- Floating point side of decoding, kept abstract: NaN, the reference value, and the scaling of a
packed integer. -/
structure Arith (V : Type) where
  nan : V
  ref : JumpInfo → V
  scale : JumpInfo → Nat → V

/-- `Jumper::readBitmap`, Jumper.cc:159-185.  `file` is the content behind the data handle. -/
def readBitmap (file : List UInt8) (offset : Nat) (info : JumpInfo) : Res (List Bool) :=
  let start := offset + info.offsetBeforeBitmap
  let size := (info.numberOfDataPoints + 7) / 8
  if size = 0 then .ok []
  else if info.bitsPerValue = 0 then .ok (List.replicate info.numberOfDataPoints true)
  else
    let bytes := (file.drop start).take size
    if bytes.length ≠ size then throwExn .readError
    else .ok ((List.range info.numberOfDataPoints).map fun i =>
      ((bytes[i / 8]?.getD 0).toNat &&& (1 <<< (7 - i % 8))) != 0)

/-- `ExtendedInterval`, Jumper.cc:194-214 (`isGap` is `type == GAP`; `missing_cum` is computed by
`maskedOut`). -/
structure Ext where
  isGap : Bool
  b : Nat
  e : Nat
  missing : Nat
  bitmap : List Bool
  deriving DecidableEq, Repr

/-- `ExtendedInterval` constructor, Jumper.cc:206-213.  The iterator range
`[begin() + b, begin() + e)` must lie inside the bitmap and not be reversed; otherwise the behaviour
is undefined. -/
def mkExt (bm : List Bool) (isGap : Bool) (b e : Nat) : Res Ext :=
  if b ≤ e ∧ e ≤ bm.length then
    let sub := (bm.drop b).take (e - b)
    .ok { isGap, b, e, missing := sub.count false, bitmap := sub }
  else undef

/-- The gaps, Jumper.cc:223-228: from `pos` to the first interval, then between neighbours. -/
def mkGaps (bm : List Bool) : Nat → List Interval → Res (List Ext)
  | _, [] => .ok []
  | pos, i :: rest => do
    let g ← mkExt bm true pos i.b
    let gs ← mkGaps bm i.e rest
    .ok (g :: gs)

/-- `std::merge` with the comparison `a.begin < b.begin`, Jumper.cc:231-232: the second list is
taken only when strictly smaller. -/
def mergeExt : List Ext → List Ext → List Ext
  | [], gs => gs
  | i :: is, [] => i :: is
  | i :: is, g :: gs =>
    if g.b < i.b then g :: mergeExt (i :: is) gs
    else i :: mergeExt is (g :: gs)
termination_by is gs => is.length + gs.length

/-- The `missing_cum` loop and the collection loop, Jumper.cc:234-245.  `cum` is `missing_cum` of
the current entry. -/
def maskedOut : Nat → List Ext → List (Interval × List Bool)
  | _, [] => []
  | cum, x :: rest =>
    if x.isGap then maskedOut (cum + x.missing) rest
    else (⟨x.b - cum, x.e - cum - x.missing⟩, x.bitmap) :: maskedOut (cum + x.missing) rest

/-- `Jumper::calculateMaskedIntervals`, Jumper.cc:192-248.  An empty list makes
`intervals.front()` undefined.  The subtractions are natural-number subtractions; they never go
below zero on defined inputs (`maskedIntervals_spec`). -/
def calculateMaskedIntervals (is : List Interval) (bm : List Bool) :
    Res (List Interval × List (List Bool)) := do
  if is = [] then undef
  else
    let xs ← is.mapM fun i => mkExt bm false i.b i.e
    let gs ← mkGaps bm 0 is
    let out := maskedOut 0 (mergeExt xs gs)
    .ok (out.map Prod.fst, out.map Prod.snd)

/-- Inner loop of `extractMasked`, Jumper.cc:121-124.  Running out of decoded values is an
out-of-bounds read. -/
def placeValues {V : Type} (nan : V) : List Bool → List V → Res (List V)
  | [], _ => .ok []
  | false :: bs, vs => do
    let r ← placeValues nan bs vs
    .ok (nan :: r)
  | true :: bs, v :: vs => do
    let r ← placeValues nan bs vs
    .ok (v :: r)
  | true :: _, [] => undef

/-- Outer loop of `extractMasked`, Jumper.cc:118-127: interval `i` takes `new_bitmaps[i]` and
`decoded->values()[i]`. -/
def placeAll {V : Type} (nan : V) : List (List Bool) → List (List V) → Res (List (List V))
  | [], _ => .ok []
  | _ :: _, [] => undef
  | bm :: bms, vs :: vss => do
    let r ← placeValues nan bm vs
    let rs ← placeAll nan bms vss
    .ok (r :: rs)

/-- Signature of the virtual `readValues(dh, offset, info, intervals, values)`. -/
abbrev ReadValues (V : Type) := List Interval → Res (List (List V))

/-- `Jumper::extractNoMask`, Jumper.cc:87-100. -/
def extractNoMask {V : Type} (readValues : ReadValues V) (is : List Interval) :
    Res (ExResult V) := do
  let values ← readValues is
  let mask ← is.mapM fun i => do
    let bm ← mkVector (wsub i.e i.b) true
    .ok (toBitset bm)
  .ok ⟨values, mask⟩

/-- `Jumper::extractMasked`, Jumper.cc:102-131.  The outer loop runs over the old intervals;
`new_bitmaps` has one entry for each of them. -/
def extractMasked {V : Type} (A : Arith V) (readValues : ReadValues V) (file : List UInt8)
    (offset : Nat) (info : JumpInfo) (is : List Interval) : Res (ExResult V) := do
  let bm ← readBitmap file offset info
  let (newIs, newBms) ← calculateMaskedIntervals is bm
  let decoded ← readValues newIs
  let values ← placeAll A.nan newBms decoded
  .ok ⟨values, newBms.map toBitset⟩

/-- `Jumper::extractConstant`, Jumper.cc:134-154. -/
def extractConstant {V : Type} (A : Arith V) (info : JumpInfo) (is : List Interval) :
    Res (ExResult V) := do
  let values ← is.mapM fun i => mkVector (wsub i.e i.b) (A.ref info)
  let mask ← is.mapM fun i => do
    let bm ← mkVector (wsub i.e i.b) true
    .ok (toBitset bm)
  .ok ⟨values, mask⟩

/-- `Jumper::extract`, Jumper.cc:73-85. -/
def extract {V : Type} (A : Arith V) (readValues : ReadValues V) (file : List UInt8)
    (offset : Nat) (info : JumpInfo) (is : List Interval) : Res (ExResult V) := do
  let okI ← checkIntervals is
  cassert okI
  cassert (decide (info.sphericalHarmonics = 0))
  if info.bitsPerValue = 0 then extractConstant A info is
  else if info.offsetBeforeBitmap = 0 then extractNoMask readValues is
  else extractMasked A readValues file offset info is

/-- The data section block, SimpleJumper.cc:38-39 and CcsdsJumper.cc:48. -/
def dataSection (offset : Nat) (info : JumpInfo) : Block :=
  ⟨offset + info.offsetBeforeData, info.offsetAfterData - info.offsetBeforeData⟩

/-- `SimpleJumper::readValues`, SimpleJumper.cc:25-50.  The dynamic cast fails for another type of
metadata. -/
def simpleReadValues {V : Type} (A : Arith V) (file : List UInt8) (offset : Nat) :
    Info → ReadValues V
  | .simple info, is =>
    decodeRanges
      (decodeSimple (A.scale info) (A.ref info) info.bitsPerValue
        (fileRead file (dataSection offset info)))
      (toRanges is)
  | _, _ => throwExn .badJumpInfo

end GJ
