import Verif.Model.Jumper
import Verif.Spec.Bits

/-!
# CCSDS packing

Models `/repo/src/gribjump/compression/compressors/Aec.cc`, `Ccsds.cc`, the offsets part of
`info/CcsdsInfo.cc` and `jumper/CcsdsJumper.cc`.  The entropy decoder itself (libaec) is a parameter; the
parts of libaec that gribjump depends on (order of reference sample intervals, recorded offsets, range
decoding) are modelled from its documented interface.  All sizes are `Nat`: products do not wrap.
-/

namespace GJ

/-- Parameters of a coded stream, Aec.h: `AecParams`. -/
structure AecParams where
  flags : Nat
  bitsPerSample : Nat
  blockSize : Nat
  rsi : Nat
  deriving DecidableEq, Repr

/-- The entropy decoder of libaec: decode the first `k` samples of the reference sample interval (RSI) that
starts at the first of the given bits.  `phase` is the position of that bit in its byte (an RSI may be padded
to a byte boundary).  Returns the samples and the number of bits used. -/
abbrev AecLib := AecParams → (phase : Nat) → (bits : List Bool) → (k : Nat) → Option (List Nat × Nat)

/-- Samples per RSI. -/
def AecParams.perRsi (P : AecParams) : Nat := P.rsi * P.blockSize

/-- `aec_decode`: decode `n` samples from bit position `p`, one RSI after the other.  Returns the samples and
the bit position reached. -/
def aecSeq (L : AecLib) (P : AecParams) (bits : List Bool) (p n : Nat) : Option (List Nat × Nat) :=
  if n = 0 then some ([], p)
  else if P.perRsi = 0 then none
  else
    match L P (p % 8) (bits.drop p) (min n P.perRsi) with
    | none => none
    | some (xs, c) =>
      match aecSeq L P bits (p + c) (n - min n P.perRsi) with
      | none => none
      | some (ys, e) => some (xs ++ ys, e)
termination_by n
decreasing_by omega

/-- `aec_decode_get_offsets`: the bit position of every RSI.  `tail` says whether the position after the last
RSI is recorded too when that RSI is full; libaec versions may differ in this. -/
def aecOffsets (L : AecLib) (P : AecParams) (tail : Bool) (bits : List Bool) (p n : Nat) : List Nat :=
  if n = 0 ∨ P.perRsi = 0 ∨ n < P.perRsi then [p]
  else
    match L P (p % 8) (bits.drop p) P.perRsi with
    | none => [p]
    | some (_, c) =>
      if n = P.perRsi then (if tail then [p, p + c] else [p])
      else p :: aecOffsets L P tail bits (p + c) (n - P.perRsi)
termination_by n
decreasing_by omega

/-- Bytes per sample in libaec's output (`aec_decode_init`); flag 2 is `AEC_DATA_3BYTE`. -/
def libBytes (P : AecParams) : Nat :=
  if P.bitsPerSample > 24 then 4
  else if P.bitsPerSample > 16 then (if P.flags.testBit 1 then 3 else 4)
  else if P.bitsPerSample > 8 then 2
  else 1

/-- `aec_decode_range`: find the RSI of byte position `pos`, decode from there, copy `size` bytes.
`size` and `pos` are multiples of the sample size in all calls. -/
def aecDecodeRange (L : AecLib) (P : AecParams) (bytes : List UInt8) (offsets : List Nat) (pos size : Nat) :
    Res (List Nat) :=
  let rsiBytes := P.perRsi * libBytes P
  let i := pos / rsiBytes
  match offsets[i]? with
  | none => throwExn .libraryCall
  | some q =>
    let skip := (pos - i * rsiBytes) / libBytes P
    let n := size / libBytes P
    match aecSeq L P (Spec.bitsOf bytes) q (skip + n) with
    | none => throwExn .libraryCall
    | some (xs, _) => .ok (xs.drop skip)

/-- `modify_aec_flags`, Ccsds.cc:27-35: bit 1 is `AEC_DATA_3BYTE`, bit 2 `AEC_DATA_MSB`. -/
def modifyFlags (bigEndian : Bool) (flags : Nat) : Nat :=
  let f := flags ^^^ (flags &&& 2)
  if bigEndian then f ||| 4 else f ^^^ (f &&& 4)

/-- `nbytes`, Aec.cc:111-114, and `sample_nbytes`, Ccsds.cc:126-132. -/
def sampleBytes (bps : Nat) : Nat :=
  let n := (bps + 7) / 8
  if n = 3 then 4 else n

/-- `validateBitsPerSample`, Aec.cc:171-178; `sz` is `sizeof(ValueType)`. -/
def validateBits (sz bps : Nat) : Res Unit :=
  if sz = 1 ∧ ¬ (0 < bps ∧ bps ≤ 8) then throwExn .badValue
  else if sz = 2 ∧ ¬ (8 < bps ∧ bps ≤ 16) then throwExn .badValue
  else if sz = 4 ∧ ¬ (16 < bps ∧ bps ≤ 32) then throwExn .badValue
  else .ok ()

/-- `AecDecompressor::decode(accessor, range)`, Aec.cc:96-159.  `read` and `eof` are the accessor.  Division by
a zero RSI size is undefined.  Offsets that decrease would make `end - start` or `offset - shift` wrap; the
first is an error here, the second stops at zero. -/
def aecDecodeBlock (L : AecLib) (P : AecParams) (sz : Nat) (offsets : List Nat)
    (read : Block → Res (List UInt8)) (eof : Nat) (r : Block) : Res (List Nat) := do
  validateBits sz P.bitsPerSample
  cassert (!offsets.isEmpty)
  let offBytes := r.off * sz
  let sizeBytes := r.size * sz
  let rsiBytes := P.rsi * P.blockSize * sampleBytes P.bitsPerSample
  if rsiBytes = 0 then undef
  else
    let startIdx := offBytes / rsiBytes
    let endIdx := (offBytes + sizeBytes) / rsiBytes + 1
    cassert (decide (startIdx < endIdx))
    cassert (decide (endIdx ≤ offsets.length))
    match offsets[startIdx]? with
    | none => undef
    | some startBits =>
      let startByte := startBits / 8
      let endByte := if endIdx = offsets.length then eof else (offsets[endIdx]?.getD 0 + 7) / 8
      let shift := startBits >>> 3 <<< 3
      let newOffsets := (offsets.drop startIdx).map fun o => o - shift
      cassert (!newOffsets.isEmpty)
      if endByte < startByte then throwExn .outOfRange
      else do
        let encoded ← read ⟨startByte, endByte - startByte⟩
        aecDecodeRange L P encoded newOffsets (offBytes - rsiBytes * startIdx) sizeBytes

/-- `CcsdsDecompressor::decode(accessor, range)` with `decode_range_`, Ccsds.cc:96-122, 134-154. -/
def decodeCcsds {V : Type} (L : AecLib) (bigEndian : Bool) (P : AecParams) (offsets : List Nat) (scale : Nat → V)
    (read : Block → Res (List UInt8)) (eof : Nat) (r : Block) : Res (List V) :=
  if r.size = 0 then .ok []
  else
    let sz := sampleBytes P.bitsPerSample
    if sz = 1 ∨ sz = 2 ∨ sz = 4 then
      (aecDecodeBlock L { P with flags := modifyFlags bigEndian P.flags } sz offsets read eof r).map (List.map scale)
    else throwExn .seriousBug

/-- `CcsdsDecompressor::decode(in_buf)` with `decode_all_`, Ccsds.cc:66-92, 172-190, and
`AecDecompressor::decode(encoded)`, Aec.cc:61-92: the whole field of `n` values.  Input that ends before `n`
samples is an error here; libaec may leave the rest of the output zero instead. -/
def decodeCcsdsAll {V : Type} (L : AecLib) (bigEndian : Bool) (P : AecParams) (scale : Nat → V) (n : Nat)
    (bytes : List UInt8) : Res (List V) :=
  let sz := sampleBytes P.bitsPerSample
  if sz = 1 ∨ sz = 2 ∨ sz = 4 then do
    let Q := { P with flags := modifyFlags bigEndian P.flags }
    validateBits sz Q.bitsPerSample
    match aecSeq L Q (Spec.bitsOf bytes) 0 n with
    | none => throwExn .libraryCall
    | some (xs, _) => .ok (xs.map scale)
  else throwExn .seriousBug

/-- The stream parameters in the metadata, CcsdsJumper.cc:38-45. -/
def ccsdsParams (info : JumpInfo) (x : CcsdsExt) : AecParams :=
  { flags := x.flags, bitsPerSample := info.bitsPerValue, blockSize := x.blockSize, rsi := x.rsi }

/-- `CcsdsJumper::readValues`, CcsdsJumper.cc:27-58. -/
def ccsdsReadValues {V : Type} (L : AecLib) (bigEndian : Bool) (A : Arith V) (file : List UInt8) (offset : Nat) :
    Info → ReadValues V
  | .ccsds info x, is => do
    cassert (decide (x.offsets.length > 0))
    decodeRanges
      (decodeCcsds L bigEndian (ccsdsParams info x) x.offsets (A.scale info)
        (fileRead file (dataSection offset info)) (dataSection offset info).size)
      (toRanges is)
  | _, _ => throwExn .badJumpInfo

/-- `CcsdsDecompressor::decode_offsets` with `AecDecompressor::decode(buffer)`, Ccsds.cc:47-69, 157-170 and
Aec.cc:61-92. -/
def ccsdsDecodeOffsets (L : AecLib) (bigEndian tail : Bool) (P : AecParams) (n : Nat) (bytes : List UInt8) :
    Res (List Nat) :=
  let sz := sampleBytes P.bitsPerSample
  if sz = 1 ∨ sz = 2 ∨ sz = 4 then do
    let Q := { P with flags := modifyFlags bigEndian P.flags }
    validateBits sz Q.bitsPerSample
    match aecSeq L Q (Spec.bitsOf bytes) 0 n with
    | none => throwExn .libraryCall
    | some _ => .ok (aecOffsets L Q tail (Spec.bitsOf bytes) 0 n)
  else throwExn .seriousBug

/-- The offsets of a new `CcsdsInfo`, CcsdsInfo.cc:23-55.  A short read leaves the rest of the buffer
unspecified; the model reads what is there. -/
def ccsdsInfoOffsets (L : AecLib) (bigEndian tail : Bool) (file : List UInt8) (offset : Nat) (info : JumpInfo)
    (flags blockSize rsi : Nat) : Res (List Nat) :=
  if info.bitsPerValue = 0 ∨ info.offsetAfterData = info.offsetBeforeData then .ok []
  else do
    cassert (decide (info.offsetAfterData > info.offsetBeforeData))
    ccsdsDecodeOffsets L bigEndian tail ⟨flags, info.bitsPerValue, blockSize, rsi⟩ info.numberOfValues
      ((file.drop (offset + info.offsetBeforeData)).take (info.offsetAfterData - info.offsetBeforeData))

end GJ
