import Verif.Model.Scaling

/-!
# Scaling of packed integers in rounded arithmetic

The same code as in `Model/Scaling.lean`, with every arithmetic operation on `double` followed by `fl`, the rounding of
the processor.  Simplification: results are rationals, so infinities and NaN do not occur; the theorems keep every
intermediate result within range.  A compiler may contract `x * s + r` into one operation with one rounding; the product
is exact whenever the theorems apply, so this makes no difference to them.
-/

namespace GJ

/-- `while (s < 0) { divisor /= n; s++; }`, NumericCompressor.h:98-101, `k` iterations. -/
def divLoopR (fl : Rat → Rat) (n : Rat) : Nat → Rat → Rat
  | 0, d => d
  | k + 1, d => divLoopR fl n k (fl (d / n))

/-- `while (s > 0) { divisor *= n; s--; }`, NumericCompressor.h:102-105, `k` iterations. -/
def mulLoopR (fl : Rat → Rat) (n : Rat) : Nat → Rat → Rat
  | 0, d => d
  | k + 1, d => mulLoopR fl n k (fl (d * n))

/-- `codes_power<double>(s, n)`, NumericCompressor.h:91-107. -/
def codesPowerR (fl : Rat → Rat) (s n : Int) : Rat :=
  if s = 0 then 1
  else if s = 1 then n
  else mulLoopR fl n s.toNat (divLoopR fl n (-s).toNat 1)

/-- Value of a packed integer under simple packing: SimplePacking.cc:114-115 and 51 or 83.  The integer is converted to
`double` first. -/
def scaleSimpleR (fl : Rat → Rat) (ref : Rat) (bsf dsf : Int) (x : Nat) : Rat :=
  fl (fl (fl (fl x * codesPowerR fl bsf 2) + ref) * codesPowerR fl (-dsf) 10)

/-- Value of a packed integer under CCSDS packing: Ccsds.cc:101-102 and 150, and the same expression in `decode_all_`. -/
def scaleCcsdsR (fl : Rat → Rat) (ref : Rat) (bsf dsf : Int) (x : Nat) : Rat :=
  fl (fl (fl (fl x * codesPowerR fl bsf 2) + ref) * codesPowerR fl dsf (-10))

end GJ
