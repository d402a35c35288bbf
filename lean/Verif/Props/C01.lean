import Verif.Lemmas.Range

/-!
# C01 and C02: decoding a list of ranges

C01: the result for a list of ranges is, range by range and in request order, the slice of the
decoded field, whatever the order, overlap, adjacency or repetition of the ranges.
C02: the buckets are in order, separated, cover exactly the requested points, and hold every
requested range inside exactly one bucket.
-/

namespace GJ

/-- C01.  `dec` is the packing's single-block decoder.  If it returns the right slice for every
block inside the field, every list of in-bounds ranges gives exactly its slices. -/
theorem C01_batched_ranges {α : Type} (field : List α) (dec : Block → Res (List α))
    (correct : ∀ b, b.off + b.size ≤ field.length → dec b = .ok (Spec.slice field b.off b.size))
    (ranges : List Block) (inBounds : ∀ r ∈ ranges, r.off + r.size ≤ field.length) :
    decodeRanges dec ranges = .ok (ranges.map fun r => Spec.slice field r.off r.size) := by
  obtain ⟨m, hm⟩ := decodeBuckets_ok dec (bucketsOf ranges) []
    (fun b hb => ⟨_, correct b.block (bucketsOf_bound ranges _ inBounds b hb)⟩)
  have key := decodeRanges_slices field dec ranges m hm
    (fun b hb => ⟨bucketsOf_bound ranges _ inBounds b hb,
      correct b.block (bucketsOf_bound ranges _ inBounds b hb)⟩)
  rw [decodeRanges, hm]
  exact mapM_ok _ _ _ fun r hr => (key r hr).1

/-- C01, failure side.  If the single-block decoder never returns a wrong slice, then a call that
returns at all returns the requested slices, and all requested ranges were in bounds. -/
theorem C01_batched_ranges_sound {α : Type} (field : List α) (dec : Block → Res (List α))
    (sound : ∀ b v, dec b = .ok v →
      b.off + b.size ≤ field.length ∧ v = Spec.slice field b.off b.size)
    (ranges : List Block) (out : List (List α)) (h : decodeRanges dec ranges = .ok out) :
    out = ranges.map (fun r => Spec.slice field r.off r.size) ∧
      ∀ r ∈ ranges, r.off + r.size ≤ field.length := by
  cases hm : decodeBuckets dec (bucketsOf ranges) [] with
  | error f => rw [decodeRanges, hm] at h; cases h
  | ok m =>
    obtain ⟨_, _, _, h4⟩ := decodeBuckets_mem dec _ _ _ hm
    have key := decodeRanges_slices field dec ranges m hm (fun b hb => by
      obtain ⟨d, hd⟩ := h4 b hb
      have := sound _ _ hd
      exact ⟨this.1, by rw [hd, this.2]⟩)
    rw [decodeRanges, hm] at h
    have e := mapM_ok (sliceUser m) _ ranges (fun r hr => (key r hr).1)
    have h' : ranges.mapM (sliceUser m) = .ok out := h
    rw [e] at h'
    cases h'
    exact ⟨rfl, fun r hr => (key r hr).2⟩

/-- C01, failure side.  A failing call reports a failure of the single-block decoder; the slicing
itself never dereferences a missing entry or leaves a decoded vector. -/
theorem C01_batched_ranges_fault {α : Type} (field : List α) (dec : Block → Res (List α))
    (sound : ∀ b v, dec b = .ok v →
      b.off + b.size ≤ field.length ∧ v = Spec.slice field b.off b.size)
    (ranges : List Block) (f : Fault) (h : decodeRanges dec ranges = .error f) :
    ∃ b, dec b = .error f := by
  cases hm : decodeBuckets dec (bucketsOf ranges) [] with
  | error g =>
    rw [decodeRanges, hm] at h
    cases h
    obtain ⟨b, _, hb⟩ := decodeBuckets_error dec _ _ _ hm
    exact ⟨b.block, hb⟩
  | ok m =>
    obtain ⟨_, _, _, h4⟩ := decodeBuckets_mem dec _ _ _ hm
    have key := decodeRanges_slices field dec ranges m hm (fun b hb => by
      obtain ⟨d, hd⟩ := h4 b hb
      have := sound _ _ hd
      exact ⟨this.1, by rw [hd, this.2]⟩)
    rw [decodeRanges, hm] at h
    have e := mapM_ok (sliceUser m) _ ranges (fun r hr => (key r hr).1)
    have h' : ranges.mapM (sliceUser m) = .error f := h
    rw [e] at h'
    cases h'

/-- Non-vacuity of C01: overlapping, unordered, repeated, touching and empty ranges. -/
example : decodeRanges (fun b => if b.off + b.size ≤ 10 then .ok (Spec.slice [0,1,2,3,4,5,6,7,8,9] b.off b.size)
      else throwExn .outOfRange) [⟨7, 2⟩, ⟨1, 3⟩, ⟨4, 2⟩, ⟨2, 1⟩, ⟨7, 2⟩, ⟨9, 0⟩] =
    .ok [[7, 8], [1, 2, 3], [4, 5], [2], [7, 8], []] := by decide +kernel

/-- C02.  The buckets are in increasing order with a gap between neighbours; every requested range
lies inside exactly one bucket, as often as it was requested; and the buckets cover the requested
points and nothing else. -/
theorem C02_bucket_invariants (ranges : List Block) :
    (bucketsOf ranges).Pairwise (fun a b => a.block.off + a.block.size < b.block.off) ∧
    (∀ b ∈ bucketsOf ranges, b.subs ≠ [] ∧
      ∀ s ∈ b.subs, b.block.off ≤ s.off ∧ s.off + s.size ≤ b.block.off + b.block.size) ∧
    ((bucketsOf ranges).flatMap Bucket.subs).Perm ranges ∧
    (∀ p, (∃ b ∈ bucketsOf ranges, b.block.off ≤ p ∧ p < b.block.off + b.block.size) ↔
      ∃ r ∈ ranges, r.off ≤ p ∧ p < r.off + r.size) := by
  have inv := bucketsOf_inv ranges
  exact ⟨inv.sep, fun b hb => ⟨inv.nonempty b hb, inv.inside b hb⟩, inv.perm, inv.cover⟩

/-- C02, consequence for cost: no point is decoded twice. -/
theorem C02_no_point_twice (ranges : List Block) (i j : Nat) (a b : Bucket) (p : Nat)
    (hi : (bucketsOf ranges)[i]? = some a) (hj : (bucketsOf ranges)[j]? = some b)
    (ha : a.block.off ≤ p ∧ p < a.block.off + a.block.size)
    (hb : b.block.off ≤ p ∧ p < b.block.off + b.block.size) : i = j := by
  have sep := (C02_bucket_invariants ranges).1
  have hl := List.pairwise_iff_getElem.mp sep
  obtain ⟨hi1, hi2⟩ := List.getElem?_eq_some_iff.mp hi
  obtain ⟨hj1, hj2⟩ := List.getElem?_eq_some_iff.mp hj
  rcases Nat.lt_trichotomy i j with h | h | h
  · have := hl i j hi1 hj1 h
    rw [hi2, hj2] at this
    omega
  · exact h
  · have := hl j i hj1 hi1 h
    rw [hi2, hj2] at this
    omega

/-- Non-vacuity of C02: three of five ranges merge into one bucket. -/
example : (bucketsOf [⟨10, 5⟩, ⟨0, 3⟩, ⟨15, 2⟩, ⟨8, 4⟩, ⟨20, 0⟩]).map Bucket.block =
    [⟨0, 3⟩, ⟨8, 9⟩, ⟨20, 0⟩] := by decide +kernel

end GJ
