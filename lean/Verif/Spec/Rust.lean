import Verif.Spec.Field

/-!
# What a Rust user sees
-/

namespace GJ.Spec

/-- The values at the points that are present. -/
def presentValues {α : Type} : List α → List Bool → List α
  | v :: vs, b :: bs => if b then v :: presentValues vs bs else presentValues vs bs
  | _, _ => []

end GJ.Spec
