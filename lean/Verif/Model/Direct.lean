import Verif.Model.Aec
import Verif.Model.Codec
import Verif.Spec.Bits

/-!
# From a message in a file to a result

Models the construction of metadata (`/repo/src/gribjump/info/InfoFactory.cc`, `JumpInfo.cc`, `CcsdsInfo.cc`,
`SimpleInfo.cc`, `UnsupportedInfo.cc`, `InfoExtractor.cc`), the choice of a jumper (`jumper/JumperFactory.cc`), direct
extraction from a file (`GribJump.cc`, `LocalGribJump.cc`) and the fallback that reads a whole message from the store
(`Task.cc`).  The decoding of a GRIB header by eccodes is a parameter.
-/

namespace GJ

/-- The eccodes keys gribjump reads from a message, JumpInfo.cc:30-60 and CcsdsInfo.cc:26-28.  Keys that may be absent
are optional; for the others eccodes throws when they are absent, and such a message is one that `parse` below does not
accept.  The reference value is kept as a 64-bit pattern. -/
structure Header where
  edition : Nat
  packingType : String
  binaryScaleFactor : Int
  decimalScaleFactor : Int
  bitsPerValue : Nat
  referenceValue : UInt64
  offsetBeforeData : Nat
  offsetAfterData : Nat
  numberOfDataPoints : Nat
  numberOfValues : Nat
  sphericalHarmonics : Option Int
  totalLength : Nat
  md5GridSection : String
  bitmapPresent : Bool
  offsetBeforeBitmap : Nat
  offsetBSection6 : Nat
  ccsdsFlags : Option Nat
  ccsdsBlockSize : Option Nat
  ccsdsRsi : Option Nat
  deriving DecidableEq, Repr

/-- What decoding a message needs from outside. -/
structure Reader (V : Type) where
  /-- eccodes reads one message from the given bytes (`codesHandleFromStream`) and decodes its header -/
  parse : List UInt8 → Option Header
  /-- libaec, the byte order of the machine, and whether libaec reports an offset behind the last block -/
  lib : AecLib
  bigEndian : Bool
  tail : Bool
  /-- the arithmetic of `SimpleDecompressor` and of `CcsdsDecompressor` -/
  simple : Arith V
  ccsds : Arith V

/-! ## Metadata -/

/-- `JumpInfo(CodesHandle, startOffset)`, JumpInfo.cc:28-61. -/
def jumpInfoOf (h : Header) : Res JumpInfo :=
  if h.edition ≠ 1 ∧ h.edition ≠ 2 then throwExn .gribJump
  else .ok {
    version := 1
    referenceValue := h.referenceValue
    binaryScaleFactor := h.binaryScaleFactor
    decimalScaleFactor := h.decimalScaleFactor
    editionNumber := h.edition
    bitsPerValue := h.bitsPerValue
    offsetBeforeData := h.offsetBeforeData
    offsetAfterData := h.offsetAfterData
    offsetBeforeBitmap :=
      if h.bitmapPresent then (if h.edition = 1 then h.offsetBeforeBitmap else h.offsetBSection6 + 6) else 0
    numberOfValues := h.numberOfValues
    numberOfDataPoints := h.numberOfDataPoints
    totalLength := h.totalLength
    sphericalHarmonics := h.sphericalHarmonics.getD 0
    md5GridSection := h.md5GridSection
    packingType := h.packingType }

/-- `InfoFactory::get` and `InfoBuilder::make`, InfoFactory.cc:91-103: the class registered for the packing, or
`UnsupportedInfo`.  `CcsdsInfo(handle, …)`, CcsdsInfo.cc:23-55. -/
def infoOf {V : Type} (R : Reader V) (file : List UInt8) (offset : Nat) (h : Header) : Res Info := do
  let base ← jumpInfoOf h
  if h.packingType = "grid_simple" then .ok (.simple base)
  else if h.packingType = "grid_ccsds" then do
    let flags := h.ccsdsFlags.getD 0
    let blockSize := h.ccsdsBlockSize.getD 0
    let rsi := h.ccsdsRsi.getD 0
    let offsets ← ccsdsInfoOffsets R.lib R.bigEndian R.tail file offset base flags blockSize rsi
    .ok (.ccsds base ⟨flags, blockSize, rsi, offsets⟩)
  else .ok (.unsupported base)

/-- `InfoFactory::build(handle, offset)`, InfoFactory.cc:42-59.  A handle at its end yields no message. -/
def buildInfo {V : Type} (R : Reader V) (file : List UInt8) (offset : Nat) : Res Info :=
  match R.parse (file.drop offset) with
  | none => throwExn .assertFailed
  | some h => infoOf R file offset h

/-- `InfoFactory::build(Message)`, InfoFactory.cc:61-68, with `JumpInfo(Message)`, JumpInfo.cc:63-108, and
`CcsdsInfo(Message)`, CcsdsInfo.cc:57-81: no defaults for the CCSDS keys and no special case for a field without data.
An absent key is reported by eccodes as `EntryNotFound`, here `readError`.  `msg` is the encoded message. -/
def infoOfMessage {V : Type} (R : Reader V) (msg : List UInt8) (h : Header) : Res Info := do
  let base ← jumpInfoOf h
  if h.packingType = "grid_simple" then .ok (.simple base)
  else if h.packingType = "grid_ccsds" then
    match h.ccsdsFlags, h.ccsdsBlockSize, h.ccsdsRsi with
    | some flags, some blockSize, some rsi => do
      let offsets ← ccsdsDecodeOffsets R.lib R.bigEndian R.tail ⟨flags, base.bitsPerValue, blockSize, rsi⟩
        base.numberOfValues
        ((msg.drop base.offsetBeforeData).take (base.offsetAfterData - base.offsetBeforeData))
      .ok (.ccsds base ⟨flags, blockSize, rsi, offsets⟩)
    | _, _, _ => throwExn .readError
  else .ok (.unsupported base)

/-! ## Extraction from one message -/

/-- `JumperFactory::build(info)`, JumperFactory.cc:42-49 and 68-77, then `Jumper::extract`. -/
def jumperExtract {V : Type} (R : Reader V) (file : List UInt8) (offset : Nat) (info : Info) (is : List Interval) :
    Res (ExResult V) :=
  if info.base.packingType = "grid_simple" then
    extract R.simple (simpleReadValues R.simple file offset info) file offset info.base is
  else if info.base.packingType = "grid_ccsds" then
    extract R.ccsds (ccsdsReadValues R.lib R.bigEndian R.ccsds file offset info) file offset info.base is
  else throwExn .seriousBug

/-- Metadata from the message itself, then extraction: one round of LocalGribJump.cc:67-81. -/
def messageExtract {V : Type} (R : Reader V) (file : List UInt8) (offset : Nat) (is : List Interval) :
    Res (ExResult V) := do
  let info ← buildInfo R file offset
  jumperExtract R file offset info is

/-! ## Direct extraction from a file -/

/-- The loop of `LocalGribJump::extract(path, …)`, LocalGribJump.cc:75-83.  `ranges[i]` past the end is undefined. -/
def directLoop {V : Type} (R : Reader V) (file : List UInt8) : List Nat → List Info → List (List Interval) →
    Res (List (ExResult V))
  | o :: os, i :: infos, is :: iss => do
    let r ← jumperExtract R file o i is
    let rs ← directLoop R file os infos iss
    .ok (r :: rs)
  | [], _, _ => .ok []
  | _, _, _ => undef

/-- `LocalGribJump::extract(path, offsets, ranges)`, LocalGribJump.cc:62-87, with `InfoExtractor::extract(path,
offsets)`, InfoExtractor.cc:104-121.  `files` gives the content of the files that can be opened. -/
def directExtract {V : Type} (R : Reader V) (files : String → Option (List UInt8)) (path : String)
    (offsets : List Nat) (ranges : List (List Interval)) : Res (List (ExResult V)) :=
  match files path with
  | none => throwExn .ioError
  | some file => do
    let infos ← offsets.mapM (buildInfo R file)
    directLoop R file offsets infos ranges

/-- `GribJump::extract(path, offsets, ranges)`, GribJump.cc:92-107. -/
def apiExtractPath {V : Type} (R : Reader V) (files : String → Option (List UInt8)) (path : String)
    (offsets : List Nat) (ranges : List (List Interval)) : Res (List (ExResult V)) :=
  if path = "" then throwExn .userError
  else if offsets = [] then throwExn .userError
  else if offsets.length ≠ ranges.length then throwExn .userError
  else directExtract R files path offsets ranges

/-! ## The fallback -/

/-- `while ((read = remoteHandle->read(buffer, toRead)) != 0) toRead -= read;`, Task.cc:308-312.  Every read writes at
the start of the buffer.  The list says what the handle answers to successive reads: `some n` delivers up to `n` more
bytes of `rest`, `none` is an error (`-1`); behind the end of the list the handle has nothing more.  Writing past the
buffer is undefined. -/
def fetchLoop : List (Option Nat) → List UInt8 → List UInt8 → Nat → Res (List UInt8)
  | [], _, buf, _ => .ok buf
  | none :: answers, rest, buf, toRead => fetchLoop answers rest buf (toRead + 1)
  | some n :: answers, rest, buf, toRead =>
    let k := min n (min rest.length toRead)
    if k = 0 then .ok buf
    else if buf.length < k then undef
    else fetchLoop answers (rest.drop k) (rest.take k ++ buf.drop k) (toRead - k)

/-- The store the fallback reads from. -/
structure Store where
  /-- the query `length` of a location, parsed by `stoll`; `none`: absent -/
  length : Uri → Option Nat
  /-- `fdb.read(uri)`: the message behind the handle and the answers to reads -/
  read : Uri → Res (List UInt8 × List (Option Nat))
  /-- a fresh buffer: its content is not specified -/
  fresh : Nat → List UInt8
  fresh_length : ∀ n, (fresh n).length = n

/-- The body of the loop of `InefficientFileExtractionTask::extract`, Task.cc:291-320. -/
def slowExtract {V : Type} (R : Reader V) (S : Store) (u : Uri) (is : List Interval) : Res (ExResult V) :=
  if u.scheme ≠ "fdb" then throwExn .seriousBug
  else
    match S.length u with
    | none => throwExn .assertFailed
    | some n => do
      let handle ← S.read u
      let buffer ← fetchLoop handle.2 handle.1 (S.fresh n) n
      messageExtract R buffer 0 is

end GJ
