import Verif.Model.Basic
import Verif.Spec.Request

/-!
# Requests made in Python

Ranges are pairs of Python integers; dictionaries are lists of their items.
-/

namespace GJ.Spec

/-- Ranges that can be asked for: at least one, each of at least one point, numbered from 0 and below `2 ^ 64`. -/
def AskableRanges (rs : List (Int × Int)) : Prop :=
  rs ≠ [] ∧ ∀ r ∈ rs, 0 ≤ r.1 ∧ r.1 < r.2 ∧ r.2 < 2 ^ 64

/-- A dictionary that names a field: not empty, well-formed names and values, no NUL. -/
def FieldDict (dic : List (List Char × List Char)) : Prop :=
  dic ≠ [] ∧ GoodPairs dic ∧ YearMonthTogether dic ∧ ∀ p ∈ dic, Char.ofNat 0 ∉ p.1 ∧ Char.ofNat 0 ∉ p.2

end GJ.Spec
