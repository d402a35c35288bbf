/-!
# Specification vocabulary: a field is a list of values, extraction is slicing
-/

namespace GJ.Spec

/-- Positions `off, ..., off + size - 1` of a field. -/
def slice {α : Type} (field : List α) (off size : Nat) : List α := (field.drop off).take size

/-- Number of `true` flags. -/
def countTrue (l : List Bool) : Nat := l.countP id

/-- The value at every grid point of a field with a presence bitmap: the k-th present point takes
the k-th stored value, a missing point takes `nan`.  `stored` must be long enough; a present point
without stored value is dropped, so the result is shorter than the bitmap exactly in that case. -/
def spread {α : Type} (nan : α) : List Bool → List α → List α
  | [], _ => []
  | false :: bs, vs => nan :: spread nan bs vs
  | true :: bs, v :: vs => v :: spread nan bs vs
  | true :: _, [] => []

/-- A point lies in the half-open interval that starts at `off` and has `size` points. -/
def covers (off size p : Nat) : Prop := off ≤ p ∧ p < off + size

end GJ.Spec
