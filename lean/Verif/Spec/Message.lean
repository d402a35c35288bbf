import Verif.Spec.Bits
import Verif.Spec.Scaling

/-!
# Specification: full decoding of a simple-packed message by the GRIB definition

A message is a byte string with a data section and, possibly, a bitmap section.  A missing point has
value `none`.
-/

namespace GJ.Spec

/-- What the GRIB headers of one simple-packed message say. -/
structure Message where
  /-- number of grid points -/
  points : Nat
  /-- bits per packed value -/
  width : Nat
  /-- reference value, binary and decimal scale factors -/
  R : Rat
  E : Int
  D : Int
  /-- bytes of the bitmap section, if there is one -/
  bitmap : Option (List UInt8)
  /-- bytes of the data section -/
  data : List UInt8

/-- Which grid points are present. -/
def Message.present (m : Message) : List Bool :=
  match m.bitmap with
  | none => List.replicate m.points true
  | some bytes => (bitsOf bytes).take m.points

/-- The stored values, one per present point.  Width 0 stores nothing: all values are `R * 10^-D`. -/
def Message.stored (m : Message) : List Rat :=
  (List.range (countTrue m.present)).map fun i => gribValue m.R m.E m.D (packedInt m.data m.width i)

/-- The value at every grid point. -/
def Message.field (m : Message) : List (Option Rat) :=
  spread none m.present (m.stored.map some)

end GJ.Spec
