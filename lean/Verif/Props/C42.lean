import Verif.Props.C06
import Verif.Props.C03
import Verif.Props.C40

/-!
# C42: extraction from a CCSDS-packed message equals slicing the whole decoded field
-/

namespace GJ
open Spec

/-- Exact arithmetic of the CCSDS decompressor with `none` for NaN. -/
def ratArithCcsds (dbl : UInt64 → Rat) : Arith (Option Rat) where
  nan := none
  ref i := some (dbl i.referenceValue)
  scale i x := some (scaleCcsds (dbl i.referenceValue) i.binaryScaleFactor i.decimalScaleFactor x)

/-- Scaling commutes with decoding. -/
theorem decodeCcsdsAll_scale {V : Type} {L : AecLib} {be : Bool} {P : AecParams} (scale : Nat → V) {N : Nat}
    {sec : List UInt8} {xs : List Nat} (h : decodeCcsdsAll L be P id N sec = .ok xs) :
    decodeCcsdsAll L be P scale N sec = .ok (xs.map scale) := by
  obtain ⟨hval, ys, e, hx, rfl⟩ := decodeCcsdsAll_inv h
  unfold decodeCcsdsAll
  simp only
  rw [if_pos hval.1, hval.2, ok_bind, hx]
  simp

theorem decodeCcsdsAll_length {L : AecLib} (C : AecContract L) {be : Bool} {P : AecParams} {N : Nat}
    {sec : List UInt8} {xs : List Nat} (h : decodeCcsdsAll L be P id N sec = .ok xs) : xs.length = N := by
  obtain ⟨-, ys, e, hx, rfl⟩ := decodeCcsdsAll_inv h
  rw [List.length_map]
  exact (aecSeq_size C _ hx).1

/-- The CCSDS reader returns slices of the stored values. -/
theorem ccsdsReader_stored {V : Type} (L : AecLib) (C : AecContract L) (be tail : Bool) (A : Arith V)
    (file : List UInt8) (offset : Nat) (info : JumpInfo) (x : CcsdsExt)
    (order : info.offsetBeforeData ≤ info.offsetAfterData)
    (avail : offset + info.offsetAfterData ≤ file.length)
    (N : Nat) (small : N < 2 ^ 64) (samples : List Nat)
    (whole : decodeCcsdsAll L be (ccsdsParams info x) id N
      (slice file (offset + info.offsetBeforeData) (info.offsetAfterData - info.offsetBeforeData)) = .ok samples)
    (index : ccsdsDecodeOffsets L be tail (ccsdsParams info x) N
      (slice file (offset + info.offsetBeforeData) (info.offsetAfterData - info.offsetBeforeData)) = .ok x.offsets)
    (edge : tail = true ∨ N % (x.rsi * x.blockSize) ≠ 0)
    (js : List Interval) (hjs : ∀ j ∈ js, j.b ≤ j.e ∧ j.e ≤ N) :
    ccsdsReadValues L be A file offset (.ccsds info x) js =
      .ok (js.map fun j => slice (samples.map (A.scale info)) j.b (j.e - j.b)) := by
  have hlen := decodeCcsdsAll_length C whole
  have hr : toRanges js = js.map fun j => ⟨j.b, j.e - j.b⟩ := by
    simp only [toRanges]
    apply List.map_congr_left
    intro j hj
    rw [wsub_eq j.e j.b (hjs j hj).1 (by have := (hjs j hj).2; omega)]
  have hfull : (dataSection offset info).off + (dataSection offset info).size ≤ file.length := by
    simp only [dataSection]; omega
  have hsl : (slice file (dataSection offset info).off (dataSection offset info).size).length =
      info.offsetAfterData - info.offsetBeforeData := slice_length _ _ _ hfull
  have hne : 0 < x.offsets.length := by
    have h := ccsdsDecodeOffsets_inv index
    rw [h, aecOffsets]
    split
    · simp
    · split
      · simp
      · split
        · split <;> simp
        · simp
  simp only [ccsdsReadValues]
  rw [cassert_of (decide_eq_true hne), ok_bind, hr, C01_batched_ranges (samples.map (A.scale info))]
  · rw [List.map_map]; rfl
  · intro b hb
    rw [List.length_map, hlen] at hb
    have hsz : (dataSection offset info).size =
        (slice file (dataSection offset info).off (dataSection offset info).size).length := by rw [hsl]; rfl
    have := C06_ccsds_range_is_slice_partial L C be tail (ccsdsParams info x) (A.scale info) N
      (slice file (dataSection offset info).off (dataSection offset info).size) (samples.map (A.scale info)) x.offsets
      (decodeCcsdsAll_scale _ whole) index (fileRead file (dataSection offset info))
      (fun b' hb' => by
        rw [hsl] at hb'
        exact fileRead_ok file _ hfull b' hb')
      b.off b.size hb (edge.imp_right Or.inr)
    rw [← hsz] at this
    exact this
  · intro r hrm
    obtain ⟨j, hj, rfl⟩ := List.mem_map.mp hrm
    have := hjs j hj
    rw [List.length_map, hlen]
    simp only
    omega

/-- C42.  Take a CCSDS-packed message whose data section decodes as a whole to the integers `samples`, one per
present point, and whose block offsets were recorded when it was indexed.  Then extraction of ordered intervals
returns, per interval, the slice of the field in which every present point has the GRIB value of its integer and
every missing point is NaN; the masks tell which points are present.  Missing from the full property: a nonzero
decimal scale factor (false, see `C05_ccsds_wrong_for_nonzero_scale`); without a recorded trailing offset, fields
of full blocks (false for ranges that reach the end, see `C06_last_block_rejected`).  Floating point rounding is
not modelled. -/
theorem C42_ccsds_end_to_end_partial (L : AecLib) (C : AecContract L) (be tail : Bool) (dbl : UInt64 → Rat)
    (file : List UInt8) (offset : Nat) (info : JumpInfo) (x : CcsdsExt)
    (gridded : info.sphericalHarmonics = 0) (notConstant : info.bitsPerValue ≠ 0)
    (unscaled : info.decimalScaleFactor = 0) (points : info.numberOfDataPoints ≤ 2 ^ 60)
    (order : info.offsetBeforeData < info.offsetAfterData)
    (dataAvailable : offset + info.offsetAfterData ≤ file.length)
    (bitmapAvailable : info.offsetBeforeBitmap ≠ 0 →
      offset + info.offsetBeforeBitmap + (info.numberOfDataPoints + 7) / 8 ≤ file.length)
    (counts : info.numberOfValues = countTrue (messageAt dbl file offset info).present)
    (samples : List Nat)
    (whole : decodeCcsdsAll L be (ccsdsParams info x) id info.numberOfValues (messageAt dbl file offset info).data =
      .ok samples)
    (index : ccsdsInfoOffsets L be tail file offset info x.flags x.blockSize x.rsi = .ok x.offsets)
    (edge : tail = true ∨ info.numberOfValues % (x.rsi * x.blockSize) ≠ 0)
    (is : List Interval) (nonempty : is ≠ []) (sorted : is.Pairwise (fun a b => a.e ≤ b.b))
    (inside : ∀ i ∈ is, i.b ≤ i.e ∧ i.e ≤ info.numberOfDataPoints) :
    extract (ratArithCcsds dbl) (ccsdsReadValues L be (ratArithCcsds dbl) file offset (.ccsds info x)) file offset
        info is =
      .ok ⟨is.map fun i => slice (spread none (messageAt dbl file offset info).present
              (samples.map fun k => some (gribValue (dbl info.referenceValue) info.binaryScaleFactor
                info.decimalScaleFactor k))) i.b (i.e - i.b),
           is.map fun i => toBitset (slice (messageAt dbl file offset info).present i.b (i.e - i.b))⟩ := by
  have hscale : (samples.map fun k => some (gribValue (dbl info.referenceValue) info.binaryScaleFactor
      info.decimalScaleFactor k)) = samples.map ((ratArithCcsds dbl).scale info) := by
    apply List.map_congr_left
    intro k _
    simp only [ratArithCcsds]
    rw [unscaled, C05_scaling_ccsds_partial]
  rw [hscale]
  have hN := decodeCcsdsAll_length C whole
  have index' : ccsdsDecodeOffsets L be tail (ccsdsParams info x) info.numberOfValues
      (slice file (offset + info.offsetBeforeData) (info.offsetAfterData - info.offsetBeforeData)) =
      .ok x.offsets := by
    unfold ccsdsInfoOffsets at index
    rw [if_neg (by omega), cassert_of (decide_eq_true order), ok_bind] at index
    exact index
  have hle : (messageAt dbl file offset info).present.length = info.numberOfDataPoints := by
    by_cases hbm : info.offsetBeforeBitmap = 0
    · simp only [Message.present, messageAt, if_pos hbm, List.length_replicate]
    · exact (readBitmap_present dbl file offset info notConstant hbm (bitmapAvailable hbm)).2
  have hcle : info.numberOfValues ≤ info.numberOfDataPoints := by
    rw [counts, ← hle, countTrue_eq]; exact List.count_le_length
  have reader := ccsdsReader_stored L C be tail (ratArithCcsds dbl) file offset info x (by omega) dataAvailable
    info.numberOfValues (by omega) samples whole index' edge
  by_cases hbm : info.offsetBeforeBitmap = 0
  · have hpres : (messageAt dbl file offset info).present = List.replicate info.numberOfDataPoints true := by
      simp only [Message.present, messageAt, if_pos hbm]
    have hNe : info.numberOfValues = info.numberOfDataPoints := by rw [counts, hpres, countTrue_replicate]
    have hfield : spread none (messageAt dbl file offset info).present
        (samples.map ((ratArithCcsds dbl).scale info)) = samples.map ((ratArithCcsds dbl).scale info) := by
      have := spread_all none (samples.map ((ratArithCcsds dbl).scale info))
      rw [List.length_map, hN, hNe] at this
      rw [hpres]
      exact this
    rw [extract_checked _ _ _ _ _ is nonempty sorted gridded, if_neg notConstant, if_pos hbm, extractNoMask,
      reader is (fun i hi => by have := inside i hi; omega), ok_bind,
      mapM_ok _ (fun i : Interval => toBitset (List.replicate (i.e - i.b) true)) is, ok_bind, hfield]
    · congr 2
      apply List.map_congr_left
      intro i hi
      rw [hpres, slice_replicate _ _ _ _ (by have := inside i hi; omega)]
    · intro i hi
      have := inside i hi
      rw [wsub_eq i.e i.b this.1 (by omega), mkVector, if_neg (by omega), ok_bind]
  · obtain ⟨hread, -⟩ := readBitmap_present dbl file offset info notConstant hbm (bitmapAvailable hbm)
    have hlen : (samples.map ((ratArithCcsds dbl).scale info)).length = info.numberOfValues := by
      rw [List.length_map, hN]
    exact C07_masked_extraction (ratArithCcsds dbl) _ file offset info _ _ notConstant hbm gridded hread
      (by rw [hlen, counts]; exact Nat.le_refl _)
      (fun js hjs => reader js (by rw [hlen] at hjs; exact hjs))
      is nonempty sorted (by rw [hle]; exact inside)

/-- The message of the C42 example: bitmap `1101001000`, four values. -/
def c42Info : JumpInfo :=
  { sampleInfo with offsetBeforeBitmap := 1, offsetBeforeData := 3, offsetAfterData := 5, numberOfValues := 4 }

/-- Non-vacuity of C42: all hypotheses hold for a message with bitmap, and the result is not trivial. -/
example : (let file := [9, 0xD2, 0x00, 0x31, 0x40]
    c42Info.numberOfValues = countTrue (messageAt (fun _ => 5) file 0 c42Info).present ∧
    decodeCcsdsAll unaryLib false (ccsdsParams c42Info ⟨0, 1, 2, [0, 4, 10]⟩) id 4
      (messageAt (fun _ => 5) file 0 c42Info).data = .ok [2, 0, 3, 1] ∧
    ccsdsInfoOffsets unaryLib false true file 0 c42Info 0 1 2 = .ok [0, 4, 10] ∧
    extract (ratArithCcsds fun _ => 5) (ccsdsReadValues unaryLib false (ratArithCcsds fun _ => 5) file 0
      (.ccsds c42Info ⟨0, 1, 2, [0, 4, 10]⟩)) file 0 c42Info [⟨1, 4⟩, ⟨5, 7⟩] =
      .ok ⟨[[some 5, none, some 8], [none, some 6]], [[5], [2]]⟩) := by
  decide +kernel

end GJ
