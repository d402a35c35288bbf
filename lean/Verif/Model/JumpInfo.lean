import Verif.Model.Basic

/-!
# Message metadata

Models the data members of `/repo/src/gribjump/info/JumpInfo.h`, `CcsdsInfo.h`, `SimpleInfo.h` and
`UnsupportedInfo.h`.
-/

namespace GJ

/-- `JumpInfo`, info/JumpInfo.h:70-86.  A `double` is kept as its 64-bit pattern.  Offsets and
lengths (`long long` in eckit) are natural numbers: eccodes reports non-negative values. -/
structure JumpInfo where
  version : Nat
  referenceValue : UInt64
  binaryScaleFactor : Int
  decimalScaleFactor : Int
  editionNumber : Nat
  bitsPerValue : Nat
  offsetBeforeData : Nat
  offsetAfterData : Nat
  offsetBeforeBitmap : Nat
  numberOfValues : Nat
  numberOfDataPoints : Nat
  totalLength : Nat
  sphericalHarmonics : Int
  md5GridSection : String
  packingType : String
  deriving DecidableEq, Repr

/-- Extra members of `CcsdsInfo`, info/CcsdsInfo.h. -/
structure CcsdsExt where
  flags : Nat
  blockSize : Nat
  rsi : Nat
  offsets : List Nat
  deriving DecidableEq, Repr

/-- The dynamic type of a `JumpInfo`: `SimpleInfo`, `CcsdsInfo` or `UnsupportedInfo`. -/
inductive Info where
  | simple (base : JumpInfo)
  | ccsds (base : JumpInfo) (ext : CcsdsExt)
  | unsupported (base : JumpInfo)
  deriving DecidableEq, Repr

/-- The `JumpInfo` part of any metadata object. -/
def Info.base : Info → JumpInfo
  | .simple b => b
  | .ccsds b _ => b
  | .unsupported b => b

end GJ
