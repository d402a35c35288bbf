import Mathlib.Data.Int.Log
import Mathlib.Data.Rat.Floor

/-!
# Specification: double-precision numbers and rounding to nearest

Written from IEEE 754 binary64, independently of the code.
-/

namespace GJ.Spec

/-- The finite double-precision numbers: a 53-bit significand times a power of two between the smallest subnormal
exponent and the largest one. -/
def IsDouble (q : Rat) : Prop := ∃ m k : Int, |m| < 2 ^ 53 ∧ -1074 ≤ k ∧ k ≤ 971 ∧ q = m * (2 : Rat) ^ k

/-- The numbers that round to a finite double. -/
def InDoubleRange (q : Rat) : Prop := |q| < 2 ^ (1024 : Int) - 2 ^ (970 : Int)

/-- `d` is a double, and no double is closer to `q`. -/
def Closest (d q : Rat) : Prop := IsDouble d ∧ ∀ d', IsDouble d' → |d - q| ≤ |d' - q|

/-- A rounding function of the processor: what an arithmetic operation returns, as a function of the exact result.
Results too large for a double are left open, and so is the choice between two equally close doubles. -/
def Rounding (fl : Rat → Rat) : Prop := ∀ q, InDoubleRange q → Closest (fl q) q

/-- Round to nearest, ties to even, for exact results that do not overflow. -/
def ieee (q : Rat) : Rat :=
  let k := max (Int.log 2 |q| - 52) (-1074)
  let y := q / (2 : Rat) ^ k
  let f := ⌊y⌋
  let m := if y - f < 1 / 2 then f else if 1 / 2 < y - f then f + 1 else if f % 2 = 0 then f else f + 1
  m * (2 : Rat) ^ k

/-- Zero, or of a size at which doubles have full precision, with `s` binary orders of magnitude to spare on both
sides. -/
def FullPrecision (s : Int) (q : Rat) : Prop := q = 0 ∨ ((2 : Rat) ^ (s - 1022) ≤ |q| ∧ |q| ≤ (2 : Rat) ^ (1023 - s))

end GJ.Spec
