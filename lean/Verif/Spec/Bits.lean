import Verif.Spec.Field

/-!
# Specification vocabulary: big-endian bit strings

The GRIB standard packs unsigned integers of a fixed width back to back, most significant bit first.
-/

namespace GJ.Spec

/-- The bits of a byte, most significant first. -/
def byteBits (b : UInt8) : List Bool := [7, 6, 5, 4, 3, 2, 1, 0].map fun k => b.toNat.testBit k

/-- The bits of a byte string in transmission order. -/
def bitsOf (bytes : List UInt8) : List Bool := bytes.flatMap byteBits

/-- The unsigned integer written by a bit string, most significant bit first. -/
def bitsValue (bits : List Bool) : Nat := bits.foldl (fun acc b => 2 * acc + b.toNat) 0

/-- The `i`-th integer of width `w` in a byte string. -/
def packedInt (bytes : List UInt8) (w i : Nat) : Nat := bitsValue (slice (bitsOf bytes) (i * w) w)

/-- The first `n` integers of width `w`. -/
def packedInts (bytes : List UInt8) (w n : Nat) : List Nat := (List.range n).map (packedInt bytes w)

end GJ.Spec
