import Verif.Model.Range

/-!
# Simple packing

Models `/repo/src/gribjump/compression/compressors/SimplePacking.cc`, `Simple.cc` and the data
accessors.  The floating point formula is a parameter `scale` applied to each unpacked integer;
`Verif/Model/Scaling.lean` models the formula itself.
-/

namespace GJ

/-- A byte source with a size check: `MemoryAccessor::read`, compression/DataAccessor.h:40-48.
`offset + size` is computed without wrapping. -/
def memRead (sec : List UInt8) (r : Block) : Res (List UInt8) :=
  if r.off + r.size > sec.length then throwExn .outOfRange
  else .ok ((sec.drop r.off).take r.size)

/-- `GribJumpDataAccessor::read`, GribJumpDataAccessor.h:25-39.  `file` is the content behind the
data handle, `sec` the data section block.  A seek past the end succeeds and the following read is
short, which throws; offsets are not negative. -/
def fileRead (file : List UInt8) (sec : Block) (r : Block) : Res (List UInt8) :=
  if r.off + r.size > sec.size then throwExn .outOfRange
  else
    let got := (file.drop (sec.off + r.off)).take r.size
    if got.length = r.size then .ok got else throwExn .ioError

/-- `while (bitsToRead > 0)` of `decode_array`, SimplePacking.cc:62-68.  `lv` is the 64-bit
`lvalue`; a read outside the buffer is undefined behaviour.  Returns `lvalue`, `pi`, `bitsToRead`. -/
def readLoop (p : List UInt8) (bitsToRead : Int) (useful : Nat) (pi lv : Nat) :
    Res (Nat × Nat × Int) :=
  if bitsToRead > 0 then
    match h : p[pi]? with
    | none => undef
    | some b => readLoop p (bitsToRead - useful) 8 (pi + 1) ((lv * 256 + b.toNat) % 2 ^ 64)
  else .ok (lv, pi, bitsToRead)
termination_by p.length - pi
decreasing_by
  have := (List.getElem?_eq_some_iff.mp h).1
  omega

/-- The general branch of `decode_array`, SimplePacking.cc:56-86, without the scaling at 83-84.
The arguments are `n_vals`, `pi` and `usefulBitsInByte`. -/
def decodeBits (p : List UInt8) (bpv : Nat) : Nat → Nat → Nat → Res (List Nat)
  | 0, _, _ => .ok []
  | n + 1, pi, useful => do
    let (lv, pi', rem) ← readLoop p bpv useful pi 0
    let excess := (-rem).toNat
    let v := (lv / 2 ^ excess) % 2 ^ bpv
    let rest ← if excess > 0 then decodeBits p bpv n (pi' - 1) excess
               else decodeBits p bpv n pi' 8
    .ok (v :: rest)

/-- Inner loop of the whole-byte branch, SimplePacking.cc:45-48: `k` more bytes from position `o`. -/
def readWhole (p : List UInt8) : Nat → Nat → Nat → Res (Nat × Nat)
  | 0, o, lv => .ok (lv, o)
  | k + 1, o, lv =>
    match p[o]? with
    | none => undef
    | some b => readWhole p k (o + 1) ((lv * 256 + b.toNat) % 2 ^ 64)

/-- The whole-byte branch of `decode_array`, SimplePacking.cc:33-53.  The first byte is read
unconditionally, then `l - 1` more.  `bitp` is not used by this branch. -/
def decodeWhole (p : List UInt8) (l : Nat) : Nat → Nat → Res (List Nat)
  | 0, _ => .ok []
  | n + 1, o => do
    let (lv, o') ← readWhole p (1 + (l - 1)) o 0
    let rest ← decodeWhole p l n o'
    .ok (lv :: rest)

/-- `decode_array`, SimplePacking.cc:24-87: the unpacked integers. -/
def decodeArray (p : List UInt8) (bpv n bitp : Nat) : Res (List Nat) :=
  if bpv % 8 = 0 then decodeWhole p (bpv / 8) n 0
  else decodeBits p bpv n (bitp / 8) (8 - bitp % 8)

/-- `SimplePacking::unpack`, SimplePacking.cc:95-122. -/
def unpackSimple {V : Type} (scale : Nat → V) (refValue : V) (bpv : Nat) (n : Nat)
    (encoded : List UInt8) (bitp : Nat) : Res (List V) :=
  if bpv > 64 then throwExn .badValue
  else if n = 0 then .ok []
  else if bpv = 0 then .ok (List.replicate n refValue)
  else (decodeArray encoded bpv n bitp).map (List.map scale)

/-- `SimpleDecompressor::decode(accessor, range)`, Simple.cc:17-44.  `read` is the accessor.
The products `offset * bits_per_value` do not wrap in the model. -/
def decodeSimple {V : Type} (scale : Nat → V) (refValue : V) (bpv : Nat)
    (read : Block → Res (List UInt8)) (r : Block) : Res (List V) := do
  let startByte := r.off * bpv / 8
  let skipBits := r.off * bpv % 8
  let endByte := ((r.off + r.size) * bpv + 7) / 8
  let encoded ← read ⟨startByte, endByte - startByte⟩
  unpackSimple scale refValue bpv r.size encoded skipBits

end GJ
