/-!
# Points selected by a mask
-/

namespace GJ.Spec

/-- `field[mask]` of numpy: the elements at the positions where the mask is true, in order. -/
def selected {α : Type} : List α → List Bool → List α
  | v :: vs, b :: bs => if b then v :: selected vs bs else selected vs bs
  | _, _ => []

end GJ.Spec
