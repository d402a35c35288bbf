/-! # Specification: an iterator is the list of results not yet handed out -/

namespace GJ.Spec

/-- Operations a user can call. -/
inductive IterOp where
  | hasNext
  | next
  | dump

/-- Observations. -/
inductive IterObs (R : Type) where
  | more (b : Bool)
  | item (x : Option R)
  | rest (xs : List R)

/-- What the operations should observe: `next` gives the head of the remaining list, or nothing when
it is empty; `dump` gives all of it. -/
def iterSpec {R : Type} : List R → List IterOp → List (IterObs R)
  | _, [] => []
  | rem, .hasNext :: ops => .more (!rem.isEmpty) :: iterSpec rem ops
  | rem, .next :: ops => .item rem.head? :: iterSpec rem.tail ops
  | rem, .dump :: ops => .rest rem :: iterSpec [] ops

end GJ.Spec
