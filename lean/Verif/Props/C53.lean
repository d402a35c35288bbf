import Verif.Lemmas.MachineSafe

/-!
# C53, C54: extraction in 64-bit arithmetic

`jumperExtract` computes with natural numbers, `machineExtract` with `size_t` and limited memory.  C53: they agree as long
as intervals end below `2^58`; beyond that the machine may return values of other points.  C54: forward intervals of any
magnitude do nothing undefined.
-/

namespace GJ
open Spec

/-- C53.  For intervals `b ≤ e < 2^58` (with a bitmap: for any intervals, the field having fewer than `2^58` points) the
machine returns only what extraction in natural numbers returns, whatever memory it has; with memory for the values and
the packed section it returns all of it; and it does nothing undefined that the other does not. -/
theorem C53_machine_agrees_partial {V : Type} (mem N : Nat) (R : Reader V) (file : List UInt8) (offset : Nat)
    (info : Info) (is : List Interval) (small : N < 2 ^ 58)
    (sectionForward : info.base.offsetBeforeData ≤ info.base.offsetAfterData)
    (sectionPlaced : offset + info.base.offsetAfterData < 2 ^ 63)
    (offsets64 : ∀ i x, info = .ccsds i x → ∀ o ∈ x.offsets, o < 2 ^ 64)
    (intervals : info.base.offsetBeforeBitmap = 0 → ∀ i ∈ is, i.b ≤ i.e ∧ i.e ≤ N)
    (points : info.base.offsetBeforeBitmap ≠ 0 → info.base.numberOfDataPoints ≤ N) :
    (∀ r, machineExtract mem R file offset info is = .ok r → jumperExtract R file offset info is = .ok r) ∧
    (8 * N ≤ mem → info.base.offsetAfterData - info.base.offsetBeforeData ≤ mem →
      ∀ r, jumperExtract R file offset info is = .ok r → machineExtract mem R file offset info is = .ok r) ∧
    (machineExtract mem R file offset info is = undef → jumperExtract R file offset info is = undef) := by
  have h := machineExtract_follows
    (P := 8 * N ≤ mem ∧ info.base.offsetAfterData - info.base.offsetBeforeData ≤ mem)
    (R := R) (file := file) small sectionForward sectionPlaced offsets64 intervals points id
  refine ⟨?_, ?_, ?_⟩
  · intro r hr
    rcases h with h | ⟨⟨e, he⟩, _⟩
    · rw [← h]; exact hr
    · rw [he] at hr; cases hr
  · intro h1 h2 r hr
    rcases h with h | ⟨_, hn⟩
    · rw [h]; exact hr
    · exact absurd hr (hn ⟨h1, h2⟩ r)
  · intro hu
    rcases h with h | ⟨⟨e, he⟩, _⟩
    · rw [← h]; exact hu
    · rw [he] at hu; cases hu

/-- The natural-number reader of the examples: values are the packed integers. -/
def plainReader : Reader Nat :=
  ⟨fun _ => none, unaryLib, false, false, ⟨999, fun _ => 0, fun _ x => x⟩, ⟨999, fun _ => 0, fun _ x => x⟩⟩

/-- Non-vacuity of C53: five values of 8 bits; two intervals; enough memory, and too little. -/
example : machineExtract 100 plainReader [9, 9, 10, 11, 12, 13, 14, 9, 9] 0 (.simple sampleInfo) [⟨0, 2⟩, ⟨3, 5⟩] =
      .ok ⟨[[10, 11], [13, 14]], [[3], [3]]⟩ ∧
    machineExtract 15 plainReader [9, 9, 10, 11, 12, 13, 14, 9, 9] 0 (.simple sampleInfo) [⟨0, 2⟩, ⟨3, 5⟩] =
      throwExn .lengthError := by
  decide +kernel

/-! ## Beyond `2^58` -/

theorem decodeRanges64_single {α : Type} {mem : Nat} (dec : Block → Res (List α)) (off n : Nat) (h : off + n < 2 ^ 64) :
    decodeRanges64 mem dec [⟨off, n⟩] = dec ⟨off, n⟩ >>= fun d =>
      if n ≤ d.length then alloc mem (8 * n) >>= fun _ => .ok [d.take n] else undef := by
  generalize hr : (⟨off, n⟩ : Block) = r
  obtain rfl : n = r.size := by rw [← hr]
  have h : r.stop < 2 ^ 64 := by rw [← hr]; exact h
  unfold decodeRanges64
  rw [bucketsOf64_eq r.stop h (by intro q hq; rw [List.mem_singleton.mp hq]; exact Nat.le_refl _)]
  have hb : bucketsOf [r] = [⟨r, [r]⟩] := by
    simp [bucketsOf, insertBlock, lowerBound, mergePrev, mergeNext]
  rw [hb, decodeBuckets]
  cases hd : dec r with
  | error f => rfl
  | ok d =>
    rw [ok_bind, ok_bind, decodeBuckets, ok_bind]
    simp only [List.map_cons, List.map_nil, List.reverse_singleton, List.append_nil, List.mapM_cons, List.mapM_nil]
    unfold sliceUser64 sliceUser
    simp only [List.find?_cons, beq_self_eq_true, Nat.sub_self, Nat.zero_add, Nat.le_refl, true_and, List.drop_zero]
    split
    · rw [ok_bind]
      unfold alloc
      split <;> rfl
    · rfl

theorem wmul_shift61 (k bpv : Nat) (h8 : bpv % 8 = 0) : wmul (2 ^ 61 + k) bpv = wmul k bpv := by
  obtain ⟨w, rfl⟩ : ∃ w, bpv = 8 * w := ⟨bpv / 8, by omega⟩
  have : (2 ^ 61 + k) * (8 * w) = k * (8 * w) + 2 ^ 64 * w := by
    rw [Nat.add_mul, ← Nat.mul_assoc (2 ^ 61), Nat.add_comm]
  unfold wmul
  rw [this, Nat.add_mul_mod_self_left]

theorem decodeSimple64_shift {V : Type} (mem : Nat) (scale : Nat → V) (ref : V) (bpv : Nat)
    (read : Block → Res (List UInt8)) (k n : Nat) (h8 : bpv % 8 = 0) (h : 2 ^ 61 + k + n < 2 ^ 64) :
    decodeSimple64 mem scale ref bpv read ⟨2 ^ 61 + k, n⟩ = decodeSimple64 mem scale ref bpv read ⟨k, n⟩ := by
  have e1 : wadd (2 ^ 61 + k) n = 2 ^ 61 + (k + n) := by rw [wadd_eq h, Nat.add_assoc]
  have e2 : wadd k n = k + n := wadd_eq (by omega)
  unfold decodeSimple64
  simp only [e1, e2, wmul_shift61 _ _ h8]

theorem wsub_add (b n : Nat) (h : b + n < 2 ^ 64) : wsub (b + n) b = n := by
  rw [wsub_eq _ _ (by omega) h]; omega

theorem extract_single {V : Type} (A : Arith V) (rv : ReadValues V) (file : List UInt8) (offset : Nat) (info : JumpInfo)
    (b n : Nat) (h : b + n < 2 ^ 64) (noBitmap : info.offsetBeforeBitmap = 0) (notConstant : info.bitsPerValue ≠ 0) :
    extract A rv file offset info [⟨b, b + n⟩] =
      if info.sphericalHarmonics = 0 then rv [⟨b, b + n⟩] >>= fun vs =>
        mkVector n true >>= fun bm => .ok ⟨vs, [toBitset bm]⟩
      else throwExn .assertFailed := by
  unfold extract checkIntervals
  rw [cassert_of (by simp), ok_bind, ok_bind, cassert_of (c := ordered _) rfl, ok_bind]
  by_cases hs : info.sphericalHarmonics = 0
  · rw [if_pos hs, cassert_of (by simp [hs]), ok_bind, if_neg notConstant, if_pos noBitmap]
    unfold extractNoMask
    congr 1
    funext vs
    simp only [List.mapM_cons, List.mapM_nil, wsub_add b n h]
    cases mkVector n true <;> rfl
  · rw [if_neg hs]
    have : cassert (decide (info.sphericalHarmonics = 0)) = throwExn .assertFailed := by simp [cassert, hs]
    rw [this]
    rfl

/-- C53 does not hold beyond: in a field of whole-byte values (8, 16, 24 or 32 bits) without bitmap, an interval that
starts at point `2^61 + k` succeeds and returns the values of the points from `k` on, marked as present. -/
theorem C53_huge_interval_wrong_values {V : Type} (mem : Nat) (R : Reader V) (file : List UInt8) (offset : Nat)
    (info : JumpInfo) (k n : Nat) (simple : info.packingType = "grid_simple") (wholeBytes : info.bitsPerValue % 8 = 0)
    (notConstant : info.bitsPerValue ≠ 0) (noBitmap : info.offsetBeforeBitmap = 0) (fits : 2 ^ 61 + k + n < 2 ^ 64) :
    machineExtract mem R file offset (.simple info) [⟨2 ^ 61 + k, 2 ^ 61 + k + n⟩] =
      machineExtract mem R file offset (.simple info) [⟨k, k + n⟩] := by
  have hk : k + n < 2 ^ 64 := by omega
  have hrv : simpleReadValues64 mem R.simple file offset (.simple info) [⟨2 ^ 61 + k, 2 ^ 61 + k + n⟩] =
      simpleReadValues64 mem R.simple file offset (.simple info) [⟨k, k + n⟩] := by
    unfold simpleReadValues64 toRanges
    simp only [List.map_cons, List.map_nil, wsub_add _ _ fits, wsub_add _ _ hk]
    rw [decodeRanges64_single _ _ _ fits, decodeRanges64_single _ _ _ hk,
      decodeSimple64_shift _ _ _ _ _ _ _ wholeBytes fits]
  unfold machineExtract
  have hs : (Info.simple info).base.packingType = "grid_simple" := simple
  rw [if_pos hs, if_pos hs]
  show extract R.simple _ file offset info _ = extract R.simple _ file offset info _
  rw [extract_single _ _ _ _ _ _ _ fits noBitmap notConstant, extract_single _ _ _ _ _ _ _ hk noBitmap notConstant, hrv]

/-- The wrong values in a concrete field of five points; in natural numbers the same request is rejected. -/
theorem C53_huge_interval_witness :
    machineExtract 100 plainReader [9, 9, 10, 11, 12, 13, 14, 9, 9] 0 (.simple sampleInfo)
      [⟨2 ^ 61 + 1, 2 ^ 61 + 1 + 2⟩] = .ok ⟨[[11, 12]], [[3]]⟩ ∧
    jumperExtract plainReader [9, 9, 10, 11, 12, 13, 14, 9, 9] 0 (.simple sampleInfo)
      [⟨2 ^ 61 + 1, 2 ^ 61 + 1 + 2⟩] = throwExn .outOfRange := by
  constructor
  · rw [C53_huge_interval_wrong_values _ _ _ _ _ _ _ rfl rfl (by decide) rfl (by decide)]
    decide +kernel
  · decide +kernel

theorem wmul_shift62 (k : Nat) : wmul (2 ^ 62 + k) 4 = wmul k 4 := by
  have : (2 ^ 62 + k) * 4 = k * 4 + 2 ^ 64 := by omega
  unfold wmul
  rw [this, Nat.add_mod_right]

/-- The same for CCSDS packing with 17 to 32 bits, at `2^62`. -/
theorem C53_huge_interval_wrong_values_ccsds {V : Type} (mem : Nat) (R : Reader V) (file : List UInt8) (offset : Nat)
    (info : JumpInfo) (x : CcsdsExt) (k n : Nat) (ccsds : info.packingType = "grid_ccsds")
    (wide : sampleBytes info.bitsPerValue = 4)
    (noBitmap : info.offsetBeforeBitmap = 0) (fits : 2 ^ 62 + k + n < 2 ^ 64) :
    machineExtract mem R file offset (.ccsds info x) [⟨2 ^ 62 + k, 2 ^ 62 + k + n⟩] =
      machineExtract mem R file offset (.ccsds info x) [⟨k, k + n⟩] := by
  have hk : k + n < 2 ^ 64 := by omega
  have notConstant : info.bitsPerValue ≠ 0 := by
    intro h
    rw [h] at wide
    exact absurd wide (by decide)
  have hdec : ∀ (P : AecParams) (offs : List Nat) (scale : Nat → V) (read : Block → Res (List UInt8)) (eof : Nat),
      sampleBytes P.bitsPerSample = 4 →
      decodeCcsds64 mem R.lib R.bigEndian P offs scale read eof ⟨2 ^ 62 + k, n⟩ =
        decodeCcsds64 mem R.lib R.bigEndian P offs scale read eof ⟨k, n⟩ := by
    intro P offs scale read eof hw
    unfold decodeCcsds64
    simp only [hw]
    unfold aecDecodeBlock64
    simp only [wmul_shift62]
  have hrv : ccsdsReadValues64 mem R.lib R.bigEndian R.ccsds file offset (.ccsds info x) [⟨2 ^ 62 + k, 2 ^ 62 + k + n⟩] =
      ccsdsReadValues64 mem R.lib R.bigEndian R.ccsds file offset (.ccsds info x) [⟨k, k + n⟩] := by
    unfold ccsdsReadValues64 toRanges
    simp only [List.map_cons, List.map_nil, wsub_add _ _ fits, wsub_add _ _ hk]
    rw [decodeRanges64_single _ _ _ fits, decodeRanges64_single _ _ _ hk, hdec _ _ _ _ _ wide]
  unfold machineExtract
  have hs : (Info.ccsds info x).base.packingType = "grid_ccsds" := ccsds
  have hne : ¬ (Info.ccsds info x).base.packingType = "grid_simple" := by rw [hs]; decide
  rw [if_neg hne, if_neg hne, if_pos hs, if_pos hs]
  show extract R.ccsds _ file offset info _ = extract R.ccsds _ file offset info _
  rw [extract_single _ _ _ _ _ _ _ fits noBitmap notConstant, extract_single _ _ _ _ _ _ _ hk noBitmap notConstant, hrv]

/-! ## C54 -/

/-- C54.  Intervals that do not run backwards, of any magnitude, do nothing undefined: extraction returns as many values
for each interval as it has points, or throws.  With a bitmap they must lie inside the field (`C11`: otherwise the
behaviour is undefined); libaec returns as many samples as asked (`AecContract`); the block parameters of CCSDS metadata
are not zero. -/
theorem C54_forward_intervals_defined_partial {V : Type} (mem : Nat) (R : Reader V) (C : AecContract R.lib)
    (file : List UInt8) (offset : Nat) (info : Info) (is : List Interval) (memory : mem ≤ 2 ^ 60)
    (blocks : ∀ i x, info = .ccsds i x → x.rsi * x.blockSize ≠ 0)
    (forward : ∀ i ∈ is, i.b ≤ i.e ∧ i.e < 2 ^ 64)
    (inside : info.base.bitsPerValue ≠ 0 → info.base.offsetBeforeBitmap ≠ 0 → ∀ i ∈ is, i.e ≤ info.base.numberOfDataPoints) :
    machineExtract mem R file offset info is ≠ undef ∧
    ∀ r, machineExtract mem R file offset info is = .ok r → r.values.length = is.length ∧
      ∀ (j : Nat) i v, is[j]? = some i → r.values[j]? = some v → v.length = i.e - i.b :=
  machineExtract_safe C memory blocks forward inside

/-- Non-vacuity of C54: an interval far behind the field is rejected. -/
example : machineExtract (2 ^ 40) plainReader [9, 9, 10, 11, 12, 13, 14, 9, 9] 0 (.simple sampleInfo)
      [⟨1, 3⟩, ⟨7, 100000⟩] = throwExn .outOfRange ∧
    AecContract plainReader.lib := ⟨by decide +kernel, unary_contract⟩

/-- An interval that runs backwards, before one that covers its ends, passes the check of the intervals; the slice of the
first is taken outside the decoded values. -/
theorem C54_backward_interval_undefined :
    machineExtract 1000 plainReader (List.replicate 30 7) 0
      (.simple { sampleInfo with offsetAfterData := 28, numberOfValues := 26 }) [⟨10, 5⟩, ⟨5, 20⟩] = undef := by
  decide +kernel

end GJ
