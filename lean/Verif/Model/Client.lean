import Verif.Model.Jumper

/-!
# Client side: C, Python and Rust APIs

Models parts of `/repo/src/gribjump/gribjump_c.cc`,
`/repo/python/pygribjump/src/pygribjump/pygribjump.py` and `/repo/rust/crates/gribjump/src`.
-/

namespace GJ

/-! ## C API buffers -/

/-- `(*buf)[count++] = x` for each element of a list; `buf` is the caller's memory of `buf.length`
elements.  A write outside it is undefined behaviour. -/
def writeAll {α : Type} : List α → List α → Nat → Res (List α × Nat)
  | buf, [], count => .ok (buf, count)
  | buf, x :: xs, count =>
    if count < buf.length then writeAll (buf.set count x) xs (count + 1) else undef

/-- The two nested copy loops: gribjump_c.cc:232-236 and 248-252. -/
def writeRows {α : Type} : List α → List (List α) → Nat → Res (List α × Nat)
  | buf, [], count => .ok (buf, count)
  | buf, row :: rows, count => do
    let (buf', count') ← writeAll buf row count
    writeRows buf' rows count'

/-- `gribjump_result_values`, gribjump_c.cc:226-239.  `total_values()` is the sum of the row sizes.
`buf` is the caller's memory and `nvalues` the size the caller states. -/
def cResultValues {V : Type} (r : ExResult V) (buf : List V) (nvalues : Nat) : Res (List V) := do
  cassert (decide ((r.values.map List.length).sum = nvalues))
  let (buf', count) ← writeRows buf r.values 0
  cassert (decide (count = nvalues))
  .ok buf'

/-- `gribjump_result_mask`, gribjump_c.cc:243-255: the size is checked after the copy. -/
def cResultMask {V : Type} (r : ExResult V) (buf : List Nat) (nmasks : Nat) : Res (List Nat) := do
  let (buf', count) ← writeRows buf r.mask 0
  cassert (decide (count = nmasks))
  .ok buf'

/-! ## Python -/

/-- One assignment of `compute_bool_masks`, pygribjump.py:631-635 (`break` skips the position). -/
def pyMaskStep (words : List Nat) (n : Nat) (acc : List Bool) (bp : Nat) : List Bool :=
  if bp ≥ n then acc else acc.set bp (((words[bp / 64]?.getD 0) >>> (bp % 64)) % 2 == 1)

/-- `compute_bool_masks` for one range, pygribjump.py:625-637.  The positions `bp = j*64 + k` are
visited in order; `count` is the number of visited positions below `n` and is asserted (per range;
the code asserts the sum over all ranges). -/
def pyBoolMask (words : List Nat) (n : Nat) : Res (List Bool) := do
  let m := (List.range (words.length * 64)).foldl (pyMaskStep words n) (List.replicate n false)
  cassert (decide (min n (words.length * 64) = n))
  .ok m

/-- `np.diff` on integers. -/
def npDiff : List Int → List Int
  | a :: b :: rest => (b - a) :: npDiff (b :: rest)
  | _ => []

/-- `np.where(d == x)[0]`, indices counted from `k`. -/
def npWhere (x : Int) : Nat → List Int → List Nat
  | _, [] => []
  | k, a :: rest => if a = x then k :: npWhere x (k + 1) rest else npWhere x (k + 1) rest

def boolInt (b : Bool) : Int := if b then 1 else 0

/-- The ranges computed by `ExtractionRequest.from_mask`, pygribjump.py:172-189.  An all-False mask
raises `ValueError`. -/
def pyFromMask (m : List Bool) : Res (List Interval) :=
  if m.any id = false then throwExn .userError
  else
    let d := npDiff (boolInt false :: (m.map boolInt ++ [boolInt false]))
    .ok (((npWhere 1 0 d).zip (npWhere (-1) 0 d)).map fun p => ⟨p.1, p.2⟩)

/-- `ExtractionRequest.indices`, pygribjump.py:214-221. -/
def pyIndices (rs : List Interval) : List Nat := rs.flatMap fun r => List.range' r.b (r.e - r.b)

/-- The range check of `ExtractionRequest.__init__`, pygribjump.py:143-163: at least one range, and
`lo < hi` in each. -/
def pyCheckRanges (rs : List Interval) : Res (List Interval) :=
  if rs = [] then throwExn .userError
  else if rs.all (fun r => decide (r.b < r.e)) then .ok rs else throwExn .userError

/-- `ExtractionRequest.from_indices`, pygribjump.py:191-197. -/
def pyFromIndices (ps : List Nat) : Res (List Interval) :=
  pyCheckRanges (ps.map fun p => ⟨p, p + 1⟩)

/-! ## Rust -/

/-- `RangeView::is_valid` and `RangeResult::is_valid`, result.rs:191-204 and 239-252. -/
def rustIsValid (masks : List Nat) (index : Nat) : Bool :=
  if masks = [] then true
  else if index / 64 ≥ masks.length then true
  else ((masks[index / 64]?.getD 0) &&& (1 <<< (index % 64))) != 0

/-- `FileExtractionData` of the bridge: offsets, flat ranges, start of each message's ranges. -/
structure FlatData where
  offsets : List Nat
  ranges : List Interval
  starts : List Nat
  deriving DecidableEq, Repr

/-- `FileExtraction::to_cxx`, request.rs:275-294: the loop over messages. -/
def rustFlatten (msgs : List (Nat × List Interval)) : FlatData :=
  msgs.foldl (fun d m => ⟨d.offsets ++ [m.1], d.ranges ++ m.2, d.starts ++ [d.ranges.length]⟩) ⟨[], [], []⟩

/-- The loop `for j in start..end`, gribjump_bridge.cpp:229-231.  Indexing past the end of the flat
list is out of range (rust::Vec operator[] is unchecked, so undefined behaviour). -/
def takeRanges (ranges : List Interval) (start stop : Nat) : Res (List Interval) :=
  (List.range' start (stop - start)).mapM fun j =>
    match ranges[j]? with
    | some r => .ok r
    | none => undef

/-- Unflattening in `extract_from_file`, gribjump_bridge.cpp:208-234.  A start above the end makes
`reserve` throw `std::length_error`. -/
def cxxUnflatten (d : FlatData) : Res (List Nat × List (List Interval)) := do
  let per ← (List.range d.starts.length).mapM fun i => do
    let start := d.starts[i]?.getD 0
    let stop := (d.starts[i + 1]?).getD d.ranges.length
    if stop < start then throwExn .lengthError else takeRanges d.ranges start stop
  .ok (d.offsets, per)

/-! ## Result iterator -/

/-- `VectorSource`, ExtractionIterator.h:29-50.  An entry is `none` when the `unique_ptr` is null:
moved from, or never filled. -/
structure VecSource (R : Type) where
  data : List (Option R)
  index : Nat

/-- `hasNext`, ExtractionIterator.h:34. -/
def VecSource.hasNext {R : Type} (s : VecSource R) : Bool := decide (s.index < s.data.length)

/-- `next`, ExtractionIterator.h:36-41. -/
def VecSource.next {R : Type} (s : VecSource R) : Option R × VecSource R :=
  if s.hasNext then ((s.data[s.index]?).join, ⟨s.data.set s.index none, s.index + 1⟩)
  else (none, s)

/-- `dumpVector`, ExtractionIterator.h:62-68; `fuel` bounds the loop and is the number of remaining
entries. -/
def VecSource.dumpLoop {R : Type} : Nat → VecSource R → List (Option R) × VecSource R
  | 0, s => ([], s)
  | n + 1, s =>
    if s.hasNext then
      let (x, s1) := s.next
      let (xs, s2) := dumpLoop n s1
      (x :: xs, s2)
    else ([], s)

def VecSource.dump {R : Type} (s : VecSource R) : List (Option R) × VecSource R :=
  VecSource.dumpLoop (s.data.length + 1) s

/-- Status of `gribjump_extractioniterator_next`, gribjump_c.cc:388-403 (non-null iterator):
`some r` is SUCCESS with result `r`, `none` is COMPLETE. -/
def cIterNext {R : Type} (s : VecSource R) : Option R × VecSource R := s.next

/-- Python `for result in iterator`, pygribjump.py:382-384 and `ExtractionIterator.__iter__`: stops
at the first status that is not SUCCESS.  `fuel` bounds the loop. -/
def pyIterate {R : Type} : Nat → VecSource R → List R
  | 0, _ => []
  | n + 1, s =>
    match cIterNext s with
    | (some r, s') => r :: pyIterate n s'
    | (none, _) => []

end GJ
