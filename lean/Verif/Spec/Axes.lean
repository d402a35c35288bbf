import Verif.Model.Map

/-!
# Axes

What a user of an axes query expects: the names FDB lists, and for each its values as a set.
-/

namespace GJ.Spec

/-- Text that survives a C string and ASCII: no NUL, no character above 127. -/
def PlainText (s : String) : Prop := ∀ c ∈ s.toList, c ≠ Char.ofNat 0 ∧ c.toNat < 128

/-- All names and values are plain. -/
def PlainAxes (a : List (String × List String)) : Prop := ∀ e ∈ a, PlainText e.1 ∧ ∀ v ∈ e.2, PlainText v

/-- `a` has the names of the listing, each once, and for each the listed values, each once. -/
def AxesOfListing (listing a : List (String × List String)) : Prop :=
  (a.map Prod.fst).Nodup ∧ (∀ k, k ∈ a.map Prod.fst ↔ k ∈ listing.map Prod.fst) ∧
    ∀ k vs ws, (k, vs) ∈ a → (k, ws) ∈ listing → vs.Nodup ∧ ∀ v, v ∈ vs ↔ v ∈ ws

end GJ.Spec
