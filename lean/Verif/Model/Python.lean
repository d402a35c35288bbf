import Verif.Model.Client

/-!
# Python client: iteration over results and unpacking

Models `/repo/python/pygribjump/src/pygribjump/pygribjump.py`.  Python integers are unbounded; range ends are not below
their begins here, so sizes are natural numbers.
-/

namespace GJ

/-! ## Iteration -/

/-- `ExtractionIterator` (pygribjump.py:277-309) or `ExtractionSingleIterator` (355-387), with the generators made from it.
`shapeOf i` is `self._shapes[i]` (none: IndexError), or `self.__shape` whatever `i`.  Each `iter()` call makes a generator
with its own counter, `some i`; a generator that has ended is `none`.  All read the one C iterator. -/
structure PyIter (R : Type) where
  src : VecSource R
  shapeOf : Nat → Option (List Nat)
  gens : List (Option Nat)

/-- `iter(it)`, or the start of a `for` loop; `next` on the `g`-th generator made. -/
inductive PyOp where
  | iter
  | next (g : Nat)

/-- What a step gives: a generator, a result object (the C result and the shape it will be unpacked with), the end of the
loop, or an IndexError. -/
inductive PySeen (R : Type) where
  | started
  | item (r : R) (shape : List Nat)
  | stop
  | indexError
  deriving DecidableEq, Repr

/-- One step of `__iter__`, pygribjump.py:300-309 and 379-387.  A generator that has ended, by completion or by an
exception, only stops. -/
def PyIter.step {R : Type} (s : PyIter R) (op : PyOp) : PySeen R × PyIter R :=
  match op with
  | .iter => (.started, { s with gens := s.gens ++ [some 0] })
  | .next g =>
    match (s.gens[g]?).join with
    | none => (.stop, s)
    | some i =>
      match cIterNext s.src with
      | (none, src) => (.stop, { s with src := src, gens := s.gens.set g none })
      | (some r, src) =>
        match s.shapeOf i with
        | none => (.indexError, { s with src := src, gens := s.gens.set g none })
        | some sh => (.item r sh, { s with src := src, gens := s.gens.set g (some (i + 1)) })

/-- A sequence of such steps. -/
def PyIter.run {R : Type} : PyIter R → List PyOp → List (PySeen R)
  | _, [] => []
  | s, op :: ops => let (o, s') := s.step op; o :: s'.run ops

/-- `ExtractionIterator` on a fresh C iterator, pygribjump.py:289-298. -/
def pyIterator {R : Type} (data : List (Option R)) (shapes : List (List Nat)) : PyIter R :=
  ⟨⟨data, 0⟩, fun i => shapes[i]?, []⟩

/-- `ExtractionSingleIterator` on a fresh C iterator, pygribjump.py:357-378. -/
def pySingleIterator {R : Type} (data : List (Option R)) (shape : List Nat) : PyIter R :=
  ⟨⟨data, 0⟩, fun _ => some shape, []⟩

/-! ## Unpacking -/

/-- The shape recorded with a request, pygribjump.py:158-163, 240-245 and 369-372. -/
def pyShape (rs : List Interval) : List Nat := rs.map fun r => r.e - r.b

/-- `itertools.accumulate`. -/
def pyAccumulate : Nat → List Nat → List Nat
  | _, [] => []
  | t, x :: xs => (t + x) :: pyAccumulate (t + x) xs

/-- `np.split(view, list(accumulate(shape))[:-1])`, pygribjump.py:679-680 and 713-714: the pieces between the division
points, the first starting at 0 and the last ending at the end of the array. -/
def npSplit {α : Type} (flat : List α) (shape : List Nat) : List (List α) :=
  let inner := (pyAccumulate 0 shape).dropLast
  (List.zip (0 :: inner) (inner ++ [flat.length])).map fun p => (flat.drop p.1).take (p.2 - p.1)

/-- `ExtractionResult.values`, pygribjump.py:592-596 and 648-680; `zero` is what `ffi.new` fills the buffer with. -/
def pyValues {V : Type} (zero : V) (r : ExResult V) (shape : List Nat) : Res (List (List V)) := do
  let flat ← cResultValues r (List.replicate shape.sum zero) shape.sum
  .ok (npSplit flat shape)

/-- `self.__mask_shape`, pygribjump.py:576. -/
def pyMaskShape (shape : List Nat) : List Nat := shape.map fun size => (size + 63) / 64

/-- `ExtractionResult.masks`, pygribjump.py:599-603 and 682-714. -/
def pyMasks {V : Type} (r : ExResult V) (shape : List Nat) : Res (List (List Nat)) := do
  let flat ← cResultMask r (List.replicate (pyMaskShape shape).sum 0) (pyMaskShape shape).sum
  .ok (npSplit flat (pyMaskShape shape))

/-- `compute_bool_masks`, pygribjump.py:619-640: `self.__shape[i]` for every mask, then the positions of each, and an
assertion on the number of positions set. -/
def pyBoolMasks (masks : List (List Nat)) (shape : List Nat) : Res (List (List Bool)) :=
  if shape.length < masks.length then throwExn .outOfRange
  else do
    let out := (masks.zip shape).map fun p =>
      (List.range (p.1.length * 64)).foldl (pyMaskStep p.1 p.2) (List.replicate p.2 false)
    cassert (decide (((masks.zip shape).map fun p => min p.2 (p.1.length * 64)).sum = shape.sum))
    .ok out

/-- The result object, with its shape, that an observation hands out, pygribjump.py:307 and 386. -/
def PySeen.object {R : Type} : PySeen R → Option (R × List Nat)
  | .item r sh => some (r, sh)
  | _ => none

/-- The result objects of one complete `for` loop over a fresh iterator, pygribjump.py:324 and 338; `fuel` bounds the
loop. -/
def pyLoop {R : Type} (fuel : Nat) (it : PyIter R) : List (R × List Nat) :=
  (it.run (.iter :: List.replicate fuel (.next 0))).filterMap PySeen.object

/-- `dump_legacy`, pygribjump.py:311-335: per request, one field, and in it the pair of values and mask of each range. -/
def pyDumpLegacy {V : Type} (zero : V) (fuel : Nat) (it : PyIter (ExResult V)) :
    Res (List (List (List (List V × List Nat)))) :=
  (pyLoop fuel it).mapM fun p => do
    let values ← pyValues zero p.1 p.2
    let masks ← pyMasks p.1 p.2
    .ok [values.zip masks]

/-- `dump_values`, pygribjump.py:337-338. -/
def pyDumpValues {V : Type} (zero : V) (fuel : Nat) (it : PyIter (ExResult V)) : Res (List (List (List V))) :=
  (pyLoop fuel it).mapM fun p => pyValues zero p.1 p.2

end GJ
