import Verif.Model.JumpInfo

/-!
# Content of an index
-/

namespace GJ.Spec

open GJ

/-- The metadata recorded for an offset by a sequence of batches: the first one recorded. -/
def recorded (batches : List (List (Nat × Info))) (o : Nat) : Option Info :=
  (batches.flatten.find? fun p => p.1 == o).map (·.2)

/-- Some batch records `i` for `o`. -/
def mentions (batches : List (List (Nat × Info))) (o : Nat) (i : Info) : Prop :=
  ∃ b ∈ batches, (o, i) ∈ b

end GJ.Spec
