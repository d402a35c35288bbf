/-!
# Messages in a file
-/

namespace GJ.Spec

/-- The four bytes `GRIB` stand at position `o` of the file. -/
def MarkerAt (file : List UInt8) (o : Nat) : Prop :=
  file[o]? = some 0x47 ∧ file[o + 1]? = some 0x52 ∧ file[o + 2]? = some 0x49 ∧ file[o + 3]? = some 0x42

/-- Where messages that follow each other start. -/
def startsFrom : Nat → List (List UInt8) → List Nat
  | _, [] => []
  | o, m :: rest => o :: startsFrom (o + m.length) rest

end GJ.Spec
