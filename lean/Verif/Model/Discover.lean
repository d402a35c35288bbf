import Verif.Model.Jumper

/-!
# Message discovery

Models `findGRIBOffsets` and `InfoExtractor::offsets` of `/repo/src/gribjump/info/InfoExtractor.cc`.
-/

namespace GJ

/-- The pattern `"GRIB"`, InfoExtractor.cc:35. -/
def gribMark : List UInt8 := [0x47, 0x52, 0x49, 0x42]

/-- `std::memcmp(&buffer[i], pattern.data(), plen) == 0`, InfoExtractor.cc:60. -/
def markAt (buf : List UInt8) (i : Nat) : Bool := (buf.drop i).take 4 == gribMark

/-- The search loop over a buffer that holds the three bytes carried over and the bytes just read,
InfoExtractor.cc:59-63.  `i <= bytesRead + OVERLAP - plen` leaves `bytesRead` positions; the offset
`filePos + i - OVERLAP` is a `size_t`. -/
def searchBuf (buf : List UInt8) (filePos : Nat) : List Nat :=
  ((List.range (buf.length - 3)).filter (markAt buf)).map fun i => wsub (filePos + i) 3

/-- The read loop, InfoExtractor.cc:47-72.  The list holds what the successive reads deliver: some bytes, or an
error (`none`).  When it is used up the file is at its end. -/
def findLoop : List (Option (List UInt8)) → (carry : List UInt8) → (filePos : Nat) → (acc : List Nat) → Res (List Nat)
  | [], _, _, acc => .ok acc
  | none :: _, _, _, _ => throwExn .seriousBug
  | some [] :: _, _, _, acc => .ok acc
  | some (b :: bs) :: rest, carry, filePos, acc =>
    let chunk := b :: bs
    let buf := carry ++ chunk
    let acc := acc ++ searchBuf buf filePos
    if chunk.length ≥ 3 then findLoop rest (buf.drop chunk.length) (filePos + chunk.length) acc
    else .ok acc

/-- `findGRIBOffsets`, InfoExtractor.cc:34-80: the last offset is removed. -/
def findGribOffsets (reads : List (Option (List UInt8))) : Res (List Nat) :=
  (findLoop reads [0, 0, 0] 0 []).map List.dropLast

/-- What reading a regular file in blocks of `n` bytes delivers (`eckit::FileHandle::read` is `fread`). -/
def readsOf (n : Nat) (file : List UInt8) : List (List UInt8) :=
  if h : n = 0 ∨ file = [] then [] else file.take n :: readsOf n (file.drop n)
termination_by file.length
decreasing_by
  have : 0 < file.length := List.length_pos_iff.mpr (fun e => h (.inr e))
  simp only [List.length_drop]; omega

/-- `BUFFER_SIZE`, InfoExtractor.cc:37. -/
def discoverBuffer : Nat := 1024 * 1024

/-- `InfoExtractor::offsets`, InfoExtractor.cc:141-167.  `eccodes` is the answer of
`codes_extract_offsets_malloc`: the offsets, or an error (`none`). -/
def messageOffsets (scanCorrupted : Bool) (eccodes : Option (List Nat)) (file : List UInt8) : Res (List Nat) :=
  match eccodes with
  | some os => .ok os
  | none =>
    if scanCorrupted then findGribOffsets ((readsOf discoverBuffer file).map some)
    else throwExn .assertFailed

end GJ
