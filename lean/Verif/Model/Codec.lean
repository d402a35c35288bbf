import Verif.Model.Stream
import Verif.Model.JumpInfo
import Verif.Model.Jumper

/-!
# Serialisation of metadata, requests and results

Models `encode` and stream constructors of `/repo/src/gribjump/info/JumpInfo.cc`, `CcsdsInfo.cc`,
`SimpleInfo.cc`, `UnsupportedInfo.cc` and `/repo/src/gribjump/ExtractionData.cc`.
-/

namespace GJ

/-! ## Metadata -/

/-- `JumpInfo::encode`, JumpInfo.cc:131-148. -/
def encJumpInfo (j : JumpInfo) : List Tok :=
  [ .u8 j.version, .dbl j.referenceValue, .long j.binaryScaleFactor, .long j.decimalScaleFactor,
    .ulong j.editionNumber, .ulong j.bitsPerValue, .off j.offsetBeforeData, .off j.offsetAfterData,
    .off j.offsetBeforeBitmap, .ulong j.numberOfValues, .ulong j.numberOfDataPoints,
    .off j.totalLength, .long j.sphericalHarmonics, .str j.md5GridSection, .str j.packingType ]

/-- `JumpInfo(Stream&)`, JumpInfo.cc:113-129. -/
def decJumpInfo : Dec JumpInfo := do
  let version ← Dec.u8
  let referenceValue ← Dec.dbl
  let binaryScaleFactor ← Dec.long
  let decimalScaleFactor ← Dec.long
  let editionNumber ← Dec.ulong
  let bitsPerValue ← Dec.ulong
  let offsetBeforeData ← Dec.off
  let offsetAfterData ← Dec.off
  let offsetBeforeBitmap ← Dec.off
  let numberOfValues ← Dec.ulong
  let numberOfDataPoints ← Dec.ulong
  let totalLength ← Dec.off
  let sphericalHarmonics ← Dec.long
  let md5GridSection ← Dec.str
  let packingType ← Dec.str
  pure { version, referenceValue, binaryScaleFactor, decimalScaleFactor, editionNumber, bitsPerValue,
         offsetBeforeData, offsetAfterData, offsetBeforeBitmap, numberOfValues, numberOfDataPoints,
         totalLength, sphericalHarmonics, md5GridSection, packingType }

/-- The members `CcsdsInfo::encode` appends, CcsdsInfo.cc:90-96. -/
def encCcsdsExt (x : CcsdsExt) : List Tok :=
  [.ulong x.flags, .ulong x.blockSize, .ulong x.rsi] ++ encVec (fun n => [.ulong n]) x.offsets

/-- `CcsdsInfo(Stream&)`, CcsdsInfo.cc:83-88. -/
def decCcsdsExt : Dec CcsdsExt := do
  let flags ← Dec.ulong
  let blockSize ← Dec.ulong
  let rsi ← Dec.ulong
  let offsets ← Dec.vec Dec.ulong
  pure { flags, blockSize, rsi, offsets }

/-- `className()`, from the `ClassSpec` definitions: SimpleInfo.cc:36-39, CcsdsInfo.cc:119-122,
UnsupportedInfo.cc:37-40. -/
def Info.className : Info → String
  | .simple _ => "SimpleInfo"
  | .ccsds _ _ => "CcsdsInfo"
  | .unsupported _ => "UnsupportedInfo"

/-- The virtual `encode`. -/
def encInfoBody : Info → List Tok
  | .simple b => encJumpInfo b
  | .ccsds b x => encJumpInfo b ++ encCcsdsExt x
  | .unsupported b => encJumpInfo b

/-- `stream << *info` (eckit `Stream::operator<<(const Streamable&)`): object mark, class name, body,
end mark. -/
def encInfo (i : Info) : List Tok :=
  .objStart :: .str i.className :: (encInfoBody i ++ [.objEnd])

/-- `eckit::Reanimator<JumpInfo>::reanimate`: looks the class name up among the registered
reanimators (SimpleInfo.cc:40, CcsdsInfo.cc:123, UnsupportedInfo.cc:41), builds the object and skips
the end mark.  `none` is the null pointer returned when the stream has no next object. -/
def reanimate : Dec (Option Info) := do
  let more ← Dec.next
  if more then do
    let name ← Dec.str
    let i ← (if name = "SimpleInfo" then do
        let b ← decJumpInfo
        pure (Info.simple b)
      else if name = "CcsdsInfo" then do
        let b ← decJumpInfo
        let x ← decCcsdsExt
        pure (Info.ccsds b x)
      else if name = "UnsupportedInfo" then do
        let b ← decJumpInfo
        pure (Info.unsupported b)
      else Dec.fail .streamError : Dec Info)
    Dec.skipEnd
    pure (some i)
  else pure none

/-! ## Raw vectors -/

/-- A 64-bit word in memory (little endian). -/
def wordBytes (w : Nat) : List Nat := (List.range 8).map fun i => w / 256 ^ i % 256

/-- Reading word `i` through a `size_t*` or `uint64_t*` into a byte buffer. -/
def bytesWord (bs : List Nat) (i : Nat) : Nat :=
  (List.range 8).foldr (fun k acc => bs.getD (8 * i + k) 0 + 256 * acc) 0

/-- `encodeVector<T>` for the 8-byte types `size_t`, `uint64_t`, `double`, ExtractionData.cc:21-27.
A `double` is its bit pattern. -/
def encWords (ws : List Nat) : List Tok := [.ulong ws.length, .blob (ws.flatMap wordBytes)]

/-- `decodeVector<T>`, ExtractionData.cc:29-38.  Reading more words than the blob holds is undefined. -/
def decWords : Dec (List Nat) := do
  let n ← Dec.ulong
  let bs ← Dec.blob
  if bs.length < 8 * n then Dec.ub
  else pure ((List.range n).map (bytesWord bs))

/-- The split loop of `decodeVectorVector` and `decodeMask`, ExtractionData.cc:65-69, 118-127:
sub-vectors of the given sizes.  Reading past the end of `flat` is undefined. -/
def splitSizes {α : Type} (flat : List α) : Nat → List Nat → Res (List (List α))
  | _, [] => .ok []
  | pos, n :: rest =>
    if pos + n > flat.length then undef
    else do
      let tl ← splitSizes flat (pos + n) rest
      .ok ((flat.drop pos).take n :: tl)

/-- `encodeVectorVector` and `encodeMask`, ExtractionData.cc:40-58, 94-113. -/
def encWords2 (vv : List (List Nat)) : List Tok :=
  encWords (vv.map List.length) ++ encWords vv.flatten

/-- `decodeVectorVector` and `decodeMask`, ExtractionData.cc:60-71, 115-131. -/
def decWords2 : Dec (List (List Nat)) := do
  let sizes ← decWords
  let flat ← decWords
  Dec.lift (splitSizes flat 0 sizes)

/-! ## Results and requests -/

/-- `ExtractionResult` on the wire: values are bit patterns of doubles. -/
abbrev WireResult := ExResult UInt64

/-- `ExtractionResult::encode`, ExtractionData.cc:145-148. -/
def encResult (r : WireResult) : List Tok :=
  encWords2 (r.values.map (List.map UInt64.toNat)) ++ encWords2 r.mask

/-- `ExtractionResult(Stream&)`, ExtractionData.cc:140-143. -/
def decResult : Dec WireResult := do
  let values ← decWords2
  let mask ← decWords2
  pure { values := values.map (List.map UInt64.ofNat), mask := mask }

/-- `ExtractionRequest`, ExtractionData.h: request string, ranges and grid hash. -/
structure ExRequest where
  request : String
  ranges : List Interval
  gridHash : String
  deriving DecidableEq, Repr

/-- `encodeRanges`, ExtractionData.cc:73-78: the pairs as raw memory, two words each. -/
def encRanges (rs : List Interval) : List Tok :=
  [.ulong rs.length, .blob (rs.flatMap fun r => wordBytes r.b ++ wordBytes r.e)]

/-- `decodeRanges`, ExtractionData.cc:81-94.  The buffer is allocated for `n` pairs and not cleared; what the received bytes
do not cover is read as it stands, which is undefined.  Simplified: the allocation always succeeds, and eckit's
`operator>>(Buffer&)` accepts fewer bytes than the buffer holds. -/
def decRanges : Dec (List Interval) := do
  let n ← Dec.ulong
  let bs ← Dec.blob
  if bs.length < 16 * n then Dec.ub
  else pure ((List.range n).map fun i => ⟨bytesWord bs (i * 2), bytesWord bs (i * 2 + 1)⟩)

/-- `ExtractionRequest::encode`, ExtractionData.cc:195-199. -/
def encRequest (r : ExRequest) : List Tok :=
  .str r.request :: .str r.gridHash :: encRanges r.ranges

/-- `ExtractionRequest(Stream&)`, ExtractionData.cc:184-188. -/
def decRequest : Dec ExRequest := do
  let request ← Dec.str
  let gridHash ← Dec.str
  let ranges ← decRanges
  pure { request, ranges, gridHash }

end GJ
