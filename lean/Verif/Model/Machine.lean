import Verif.Model.Direct

/-!
# Extraction in 64-bit arithmetic

The other files compute with natural numbers.  Here `size_t` has 64 bits and wraps, and a request for memory that cannot
be met throws: the same functions of `/repo/src/gribjump/compression` and `/repo/src/gribjump/jumper` once more.  `mem` is
the size of the largest block of memory the process can get.
-/

namespace GJ

/-- `size_t` addition and multiplication. -/
def wadd (x y : Nat) : Nat := (x + y) % 2 ^ 64
def wmul (x y : Nat) : Nat := (x * y) % 2 ^ 64

/-- `eckit::Buffer(n)`, `std::vector(n)`: `std::bad_alloc` and `std::length_error` are one exception here. -/
def alloc (mem bytes : Nat) : Res Unit := if bytes > mem then throwExn .lengthError else .ok ()

/-! ## Buckets -/

/-- Second component of `begin_end`, Range.cc:17-20. -/
def Block.stop64 (b : Block) : Nat := wadd b.off b.size

/-- Range.cc:72-75 and 88-91. -/
def Merge.step64 (m : Merge) (subStop : Nat) (b : Bucket) : Merge :=
  let first := min m.block.off b.block.off
  { block := { off := first, size := wsub (max b.block.stop64 subStop) first }
    subs := m.subs ++ b.subs }

/-- Range.cc:64-78. -/
def mergePrev64 (subStart subStop : Nat) : List Bucket → Merge → List Bucket × Merge
  | [], m => ([], m)
  | b :: rest, m =>
    if b.block.stop64 < subStart then (b :: rest, m)
    else mergePrev64 subStart subStop rest (m.step64 subStop b)

/-- Range.cc:81-95. -/
def mergeNext64 (subStop : Nat) : List Bucket → Merge → List Bucket × Merge
  | [], m => ([], m)
  | b :: rest, m =>
    if b.block.off > subStop then (b :: rest, m)
    else mergeNext64 subStop rest (m.step64 subStop b)

/-- Range.cc:48-99. -/
def insertBlock64 (buckets : List Bucket) (r : Block) : List Bucket :=
  let it := lowerBound (fun b : Bucket => decide (b.block.stop64 < r.off)) buckets 0 buckets.length
  let p := mergePrev64 r.off r.stop64 (buckets.take it).reverse { block := r, subs := [r] }
  let n := mergeNext64 r.stop64 (buckets.drop it) p.2
  p.1.reverse ++ { block := n.2.block, subs := n.2.subs } :: n.1

def bucketsOf64 (ranges : List Block) : List Bucket := ranges.foldl insertBlock64 []

/-- NumericCompressor.h:76-85: the slice is copied into a new vector of doubles.  Pointers outside the decoded vector are
undefined, whatever is done with them. -/
def sliceUser64 {α : Type} (mem : Nat) (m : List (Block × Block × List α)) (r : Block) : Res (List α) := do
  let v ← sliceUser m r
  alloc mem (8 * r.size)
  .ok v

/-- NumericCompressor.h:55-86. -/
def decodeRanges64 {α : Type} (mem : Nat) (dec : Block → Res (List α)) (ranges : List Block) : Res (List (List α)) := do
  let m ← decodeBuckets dec (bucketsOf64 ranges) []
  ranges.mapM (sliceUser64 mem m)

/-! ## Reading -/

/-- `GribJumpDataAccessor::read`, GribJumpDataAccessor.h:25-39: the buffer comes first.  Offsets and lengths are signed
there; a section whose size wrapped is negative, and nothing is inside it; a seek to a negative position fails.
`range.first + range.second` does not wrap: the first is below `2^61` (positions are bits divided by eight), the second
is the size of a buffer that was obtained. -/
def fileRead64 (mem : Nat) (file : List UInt8) (sec : Block) (r : Block) : Res (List UInt8) := do
  alloc mem r.size
  if sec.size ≥ 2 ^ 63 then throwExn .outOfRange
  else if sec.off + r.off ≥ 2 ^ 63 then throwExn .ioError
  else fileRead file sec r

/-- `offsetAfterData() - offsetBeforeData()`, SimpleJumper.cc:38-39 and CcsdsJumper.cc:48. -/
def dataSection64 (offset : Nat) (info : JumpInfo) : Block :=
  ⟨wadd offset info.offsetBeforeData, wsub info.offsetAfterData info.offsetBeforeData⟩

/-! ## Simple packing -/

/-- SimplePacking.cc:95-122, with the vector of results. -/
def unpackSimple64 {V : Type} (mem : Nat) (scale : Nat → V) (refValue : V) (bpv : Nat) (n : Nat)
    (encoded : List UInt8) (bitp : Nat) : Res (List V) :=
  if bpv > 64 then throwExn .badValue
  else if n = 0 then .ok []
  else do
    alloc mem (8 * n)
    unpackSimple scale refValue bpv n encoded bitp

/-- Simple.cc:17-44. -/
def decodeSimple64 {V : Type} (mem : Nat) (scale : Nat → V) (refValue : V) (bpv : Nat)
    (read : Block → Res (List UInt8)) (r : Block) : Res (List V) := do
  let startByte := wmul r.off bpv / 8
  let skipBits := wmul r.off bpv % 8
  let endByte := wadd (wmul (wadd r.off r.size) bpv) 7 / 8
  let encoded ← read ⟨startByte, wsub endByte startByte⟩
  unpackSimple64 mem scale refValue bpv r.size encoded skipBits

/-- SimpleJumper.cc:25-50. -/
def simpleReadValues64 {V : Type} (mem : Nat) (A : Arith V) (file : List UInt8) (offset : Nat) :
    Info → ReadValues V
  | .simple info, is =>
    decodeRanges64 mem
      (decodeSimple64 mem (A.scale info) (A.ref info) info.bitsPerValue
        (fileRead64 mem file (dataSection64 offset info)))
      (toRanges is)
  | _, _ => throwExn .badJumpInfo

/-! ## CCSDS packing -/

/-- Aec.cc:96-159.  Products of the stream parameters, which come from the header of the message, do not wrap; offsets
do not decrease (`offset - shift`). -/
def aecDecodeBlock64 (mem : Nat) (L : AecLib) (P : AecParams) (sz : Nat) (offsets : List Nat)
    (read : Block → Res (List UInt8)) (eof : Nat) (r : Block) : Res (List Nat) := do
  validateBits sz P.bitsPerSample
  cassert (!offsets.isEmpty)
  let offBytes := wmul r.off sz
  let sizeBytes := wmul r.size sz
  alloc mem (r.size * sz)
  let rsiBytes := P.rsi * P.blockSize * sampleBytes P.bitsPerSample
  if rsiBytes = 0 then undef
  else
    let startIdx := offBytes / rsiBytes
    let endIdx := (wadd offBytes sizeBytes) / rsiBytes + 1
    cassert (decide (startIdx < endIdx))
    cassert (decide (endIdx ≤ offsets.length))
    match offsets[startIdx]? with
    | none => undef
    | some startBits =>
      let startByte := startBits / 8
      let endByte := if endIdx = offsets.length then eof else (offsets[endIdx]?.getD 0 + 7) / 8
      let shift := startBits >>> 3 <<< 3
      let newOffsets := (offsets.drop startIdx).map fun o => o - shift
      cassert (!newOffsets.isEmpty)
      let encoded ← read ⟨startByte, wsub endByte startByte⟩
      aecDecodeRange L P encoded newOffsets (wsub offBytes (rsiBytes * startIdx)) sizeBytes

/-- Ccsds.cc:96-122, 134-154: the samples are converted into a second vector. -/
def decodeCcsds64 {V : Type} (mem : Nat) (L : AecLib) (bigEndian : Bool) (P : AecParams) (offsets : List Nat)
    (scale : Nat → V) (read : Block → Res (List UInt8)) (eof : Nat) (r : Block) : Res (List V) :=
  if r.size = 0 then .ok []
  else
    let sz := sampleBytes P.bitsPerSample
    if sz = 1 ∨ sz = 2 ∨ sz = 4 then do
      let xs ← aecDecodeBlock64 mem L { P with flags := modifyFlags bigEndian P.flags } sz offsets read eof r
      alloc mem (8 * r.size)
      .ok (xs.map scale)
    else throwExn .seriousBug

/-- CcsdsJumper.cc:27-58. -/
def ccsdsReadValues64 {V : Type} (mem : Nat) (L : AecLib) (bigEndian : Bool) (A : Arith V) (file : List UInt8)
    (offset : Nat) : Info → ReadValues V
  | .ccsds info x, is => do
    cassert (decide (x.offsets.length > 0))
    decodeRanges64 mem
      (decodeCcsds64 mem L bigEndian (ccsdsParams info x) x.offsets (A.scale info)
        (fileRead64 mem file (dataSection64 offset info)) (dataSection64 offset info).size)
      (toRanges is)
  | _, _ => throwExn .badJumpInfo

/-- `Jumper::extract` on the machine.  The rest of the jumper is the same: its sums are positions in a file and its
differences those of `toRanges`, which wrap in both. -/
def machineExtract {V : Type} (mem : Nat) (R : Reader V) (file : List UInt8) (offset : Nat) (info : Info)
    (is : List Interval) : Res (ExResult V) :=
  if info.base.packingType = "grid_simple" then
    extract R.simple (simpleReadValues64 mem R.simple file offset info) file offset info.base is
  else if info.base.packingType = "grid_ccsds" then
    extract R.ccsds (ccsdsReadValues64 mem R.lib R.bigEndian R.ccsds file offset info) file offset info.base is
  else throwExn .seriousBug

end GJ
