/-! # Specification: the GRIB value formula -/

namespace GJ.Spec

/-- `(R + X * 2^E) * 10^-D`, the formula of the GRIB standard (data representation templates 5.0
and 5.42). -/
def gribValue (r : Rat) (e d : Int) (x : Nat) : Rat := (r + x * (2 : Rat) ^ e) * (10 : Rat) ^ (-d)

end GJ.Spec
