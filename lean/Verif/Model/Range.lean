import Verif.Model.Basic

/-!
# Range buckets

Models `/repo/src/gribjump/compression/Range.{h,cc}` and the range-list decoder of
`/repo/src/gribjump/compression/NumericCompressor.h`.
-/

namespace GJ

/-- `mc::Block = std::pair<size_t, size_t>` = (offset, size).  Range.h:21.
Simplification: `size_t` is `Nat`, so `offset + size` does not wrap. -/
structure Block where
  off : Nat
  size : Nat
  deriving DecidableEq, Repr

/-- Second component of `begin_end`, Range.cc:17-20 (the first component is `off`). -/
def Block.stop (b : Block) : Nat := b.off + b.size

/-- `BlockBucket = std::pair<Block, SubBlocks>`.  Range.h:36. -/
structure Bucket where
  block : Block
  subs : List Block
  deriving DecidableEq, Repr

/-- `std::lower_bound` as the standard binary search: halve the length, move right when the
probe satisfies the predicate.  Called at Range.cc:54-58.  `first` and `len` are the two loop
variables.  A probe outside the list cannot happen when `first + len ≤ l.length`; it is treated as
not satisfying the predicate. -/
def lowerBound {α : Type} (p : α → Bool) (l : List α) (first len : Nat) : Nat :=
  if len = 0 then first
  else
    let half := len / 2
    match l[first + half]? with
    | some x =>
      if p x then lowerBound p l (first + half + 1) (len - half - 1)
      else lowerBound p l first half
    | none => first
termination_by len
decreasing_by all_goals omega

/-- State of the merge: `merged_range` and `merged_subranges`, Range.cc:60-61. -/
structure Merge where
  block : Block
  subs : List Block
  deriving DecidableEq, Repr

/-- One merge with bucket `b`: Range.cc:72-75 and (the same code) 88-91.  `subStop` is `sub_end`.
The end of the merged range is the maximum of this bucket's end and `sub_end` (not of the previous
merged end), exactly as written. -/
def Merge.step (m : Merge) (subStop : Nat) (b : Bucket) : Merge :=
  let first := min m.block.off b.block.off
  { block := { off := first, size := max b.block.stop subStop - first }
    subs := m.subs ++ b.subs }

/-- First while loop, Range.cc:64-78.  The list holds the buckets before `it`, nearest first.
Returns the remaining buckets (nearest first) and the merge state. -/
def mergePrev (subStart subStop : Nat) : List Bucket → Merge → List Bucket × Merge
  | [], m => ([], m)
  | b :: rest, m =>
    if b.block.stop < subStart then (b :: rest, m)
    else mergePrev subStart subStop rest (m.step subStop b)

/-- Second while loop, Range.cc:81-95.  The list holds the buckets from `it` on. -/
def mergeNext (subStop : Nat) : List Bucket → Merge → List Bucket × Merge
  | [], m => ([], m)
  | b :: rest, m =>
    if b.block.off > subStop then (b :: rest, m)
    else mergeNext subStop rest (m.step subStop b)

/-- `BlockBuckets& operator<<(BlockBuckets&, const Block&)`, Range.cc:48-99. -/
def insertBlock (buckets : List Bucket) (r : Block) : List Bucket :=
  let it := lowerBound (fun b : Bucket => decide (b.block.stop < r.off)) buckets 0 buckets.length
  let p := mergePrev r.off r.stop (buckets.take it).reverse { block := r, subs := [r] }
  let n := mergeNext r.stop (buckets.drop it) p.2
  p.1.reverse ++ { block := n.2.block, subs := n.2.subs } :: n.1

/-- Bucketing loop of the range-list decoder, NumericCompressor.h:62-65. -/
def bucketsOf (ranges : List Block) : List Bucket := ranges.foldl insertBlock []

/-- The `ranges_map` after NumericCompressor.h:68-73, as the list of assignments
`ranges_map[sub] = (bucket, decoded)` in the order they are made, most recent first.
`dec` is the virtual single-block decode (line 69); it may throw. -/
def decodeBuckets {α : Type} (dec : Block → Res (List α)) :
    List Bucket → List (Block × Block × List α) → Res (List (Block × Block × List α))
  | [], acc => .ok acc
  | b :: rest, acc => do
    let d ← dec b.block
    decodeBuckets dec rest ((b.subs.map fun s => (s, b.block, d)).reverse ++ acc)

/-- The slice of one user range, NumericCompressor.h:76-85.  A key that is absent from
`ranges_map` gives a null `decoded` pointer (undefined behaviour); so does a slice that leaves the
decoded vector.  `user_off - bucket_off` is modelled with the precondition `bucket_off ≤ user_off`;
otherwise the pointer would lie before the vector. -/
def sliceUser {α : Type} (m : List (Block × Block × List α)) (r : Block) : Res (List α) :=
  match m.find? (fun e => e.1 == r) with
  | none => undef
  | some (_, bucket, d) =>
    if bucket.off ≤ r.off ∧ r.off - bucket.off + r.size ≤ d.length then
      .ok ((d.drop (r.off - bucket.off)).take r.size)
    else undef

/-- `NumericDecompressor::decode(accessor, ranges, result)`, NumericCompressor.h:55-86. -/
def decodeRanges {α : Type} (dec : Block → Res (List α)) (ranges : List Block) :
    Res (List (List α)) := do
  let m ← decodeBuckets dec (bucketsOf ranges) []
  ranges.mapM (sliceUser m)

end GJ
