import Verif.Model.JumpInfo

/-!
# When two entries of an index look the same
-/

namespace GJ.Spec

/-- The same but for the reference value, which looks the same. -/
def BaseAlike (shown : UInt64 → List Char) (a b : JumpInfo) : Prop :=
  shown a.referenceValue = shown b.referenceValue ∧ a = { b with referenceValue := a.referenceValue }

/-- The same class and members; of the offsets of the blocks only the number. -/
def Alike (shown : UInt64 → List Char) : Info → Info → Prop
  | .simple a, .simple b => BaseAlike shown a b
  | .unsupported a, .unsupported b => BaseAlike shown a b
  | .ccsds a x, .ccsds b y => BaseAlike shown a b ∧ x.flags = y.flags ∧ x.blockSize = y.blockSize ∧ x.rsi = y.rsi ∧
      x.offsets.length = y.offsets.length
  | _, _ => False

/-- Nothing in both, or entries that look the same. -/
def AlikeOpt (shown : UInt64 → List Char) : Option Info → Option Info → Prop
  | none, none => True
  | some i, some j => Alike shown i j
  | _, _ => False

/-- The texts in an entry have no comma and no new line, as names of packings and checksums have none. -/
def PlainInfo (i : Info) : Prop :=
  ∀ c ∈ i.base.md5GridSection.toList ++ i.base.packingType.toList, c ≠ ',' ∧ c ≠ '\n'

end GJ.Spec
