/-!
# Selecting fields
-/

namespace GJ.Spec

/-- The selection (names with patterns) selects a field: for every name the field has a value, which matches the
pattern.  `rx pattern value` says that a value matches. -/
def Selects (rx : List Char → List Char → Bool) (sel : List (List Char × List Char))
    (field : List (List Char × List Char)) : Prop :=
  ∀ p ∈ sel, ∃ v, (p.1, v) ∈ field ∧ rx p.2 v = true

end GJ.Spec
