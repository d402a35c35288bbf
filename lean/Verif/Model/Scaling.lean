/-!
# Scaling of packed integers

Models `codes_power` and the value formula of both packings over exact rationals.
Simplification: the code computes in `double`; rounding is not modelled.
-/

namespace GJ

/-- `while (s < 0) { divisor /= n; s++; }`, NumericCompressor.h:98-101, `k` iterations. -/
def divLoop (n : Rat) : Nat → Rat → Rat
  | 0, d => d
  | k + 1, d => divLoop n k (d / n)

/-- `while (s > 0) { divisor *= n; s--; }`, NumericCompressor.h:102-105, `k` iterations. -/
def mulLoop (n : Rat) : Nat → Rat → Rat
  | 0, d => d
  | k + 1, d => mulLoop n k (d * n)

/-- `codes_power<double>(s, n)`, NumericCompressor.h:91-107. -/
def codesPower (s n : Int) : Rat :=
  if s = 0 then 1
  else if s = 1 then n
  else mulLoop n s.toNat (divLoop n (-s).toNat 1)

/-- Value of a packed integer under simple packing: SimplePacking.cc:114-115 and 51 or 83. -/
def scaleSimple (ref : Rat) (bsf dsf : Int) (x : Nat) : Rat :=
  (x * codesPower bsf 2 + ref) * codesPower (-dsf) 10

/-- Value of a packed integer under CCSDS packing: Ccsds.cc:101-102 and 150 (the same expression in
`decode_all_`).  The base is `-10` and the exponent is the decimal scale factor itself. -/
def scaleCcsds (ref : Rat) (bsf dsf : Int) (x : Nat) : Rat :=
  (x * codesPower bsf 2 + ref) * codesPower dsf (-10)

end GJ
