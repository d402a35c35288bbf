import Verif.Props.C07
import Verif.Lemmas.Scaling
import Verif.Spec.Message

/-!
# C40: extraction from a simple-packed message equals the reference decoder
-/

namespace GJ
open Spec

/-- The message that metadata `info` describes at `offset` of a file.  `dbl` reads a `double` bit
pattern as a rational. -/
def messageAt (dbl : UInt64 → Rat) (file : List UInt8) (offset : Nat) (info : JumpInfo) : Message where
  points := info.numberOfDataPoints
  width := info.bitsPerValue
  R := dbl info.referenceValue
  E := info.binaryScaleFactor
  D := info.decimalScaleFactor
  bitmap := if info.offsetBeforeBitmap = 0 then none
    else some (slice file (offset + info.offsetBeforeBitmap) ((info.numberOfDataPoints + 7) / 8))
  data := slice file (offset + info.offsetBeforeData) (info.offsetAfterData - info.offsetBeforeData)

/-- Exact arithmetic with `none` for NaN. -/
def ratArith (dbl : UInt64 → Rat) : Arith (Option Rat) where
  nan := none
  ref i := some (dbl i.referenceValue)
  scale i x := some (scaleSimple (dbl i.referenceValue) i.binaryScaleFactor i.decimalScaleFactor x)

theorem bitsOf_getElem? (bytes : List UInt8) (i : Nat) :
    (bitsOf bytes)[i]? = bytes[i / 8]?.map fun b => b.toNat.testBit (7 - i % 8) := by
  induction bytes generalizing i with
  | nil => simp [bitsOf]
  | cons b rest ih =>
    have hb : (byteBits b).length = 8 := rfl
    have : bitsOf (b :: rest) = byteBits b ++ bitsOf rest := by simp [bitsOf]
    rw [this]
    by_cases h : i < 8
    · rw [List.getElem?_append_left (by omega)]
      have hi : i / 8 = 0 := by omega
      rw [hi, List.getElem?_cons_zero, Option.map_some]
      have : i = 0 ∨ i = 1 ∨ i = 2 ∨ i = 3 ∨ i = 4 ∨ i = 5 ∨ i = 6 ∨ i = 7 := by omega
      rcases this with h | h | h | h | h | h | h | h <;> subst h <;> rfl
    · rw [List.getElem?_append_right (by omega), hb, ih]
      have h1 : i / 8 = (i - 8) / 8 + 1 := by omega
      have h2 : (i - 8) % 8 = i % 8 := by omega
      rw [h1, List.getElem?_cons_succ, h2]

theorem readBitmap_present (dbl : UInt64 → Rat) (file : List UInt8) (offset : Nat) (info : JumpInfo)
    (notConstant : info.bitsPerValue ≠ 0) (hasBitmap : info.offsetBeforeBitmap ≠ 0)
    (available : offset + info.offsetBeforeBitmap + (info.numberOfDataPoints + 7) / 8 ≤ file.length) :
    readBitmap file offset info = .ok (messageAt dbl file offset info).present ∧
      (messageAt dbl file offset info).present.length = info.numberOfDataPoints := by
  obtain ⟨bm, h1, h2, h3⟩ := C09_bitmap_flags file offset info notConstant available
  have hp : (messageAt dbl file offset info).present =
      (bitsOf (slice file (offset + info.offsetBeforeBitmap)
        ((info.numberOfDataPoints + 7) / 8))).take info.numberOfDataPoints := by
    simp only [Message.present, messageAt, if_neg hasBitmap]
  have he : bm = (messageAt dbl file offset info).present := by
    rw [hp]
    apply List.ext_getElem?
    intro i
    by_cases hi : i < info.numberOfDataPoints
    · have hlt : offset + info.offsetBeforeBitmap + i / 8 < file.length := by omega
      rw [h3 i _ hi (List.getElem?_eq_getElem hlt), List.getElem?_take, if_pos hi, bitsOf_getElem?]
      simp only [slice]
      rw [List.getElem?_take, if_pos (by omega), List.getElem?_drop, List.getElem?_eq_getElem hlt]
      rfl
    · rw [List.getElem?_eq_none (by omega), List.getElem?_take, if_neg hi]
  exact ⟨by rw [h1, he], by rw [← he, h2]⟩

theorem spread_all {V : Type} (nan : V) (vs : List V) :
    spread nan (List.replicate vs.length true) vs = vs := by
  induction vs with
  | nil => rfl
  | cons v rest ih => simp [List.replicate_succ, spread, ih]

theorem countTrue_replicate (n : Nat) : countTrue (List.replicate n true) = n := by
  rw [countTrue_eq, List.count_replicate_self]

theorem slice_replicate {α : Type} (n b k : Nat) (x : α) (h : b + k ≤ n) :
    slice (List.replicate n x) b k = List.replicate k x := by
  simp only [slice, List.drop_replicate, List.take_replicate]
  congr 1; omega

/-- The simple reader returns slices of the stored values. -/
theorem simpleReader_stored (dbl : UInt64 → Rat) (file : List UInt8) (offset : Nat) (info : JumpInfo)
    (hb : 0 < info.bitsPerValue)
    (width : info.bitsPerValue ≤ 58 ∨ info.bitsPerValue = 60 ∨ info.bitsPerValue = 64)
    (order : info.offsetBeforeData ≤ info.offsetAfterData)
    (avail : offset + info.offsetAfterData ≤ file.length)
    (data : countTrue (messageAt dbl file offset info).present * info.bitsPerValue ≤
      8 * (info.offsetAfterData - info.offsetBeforeData))
    (points : countTrue (messageAt dbl file offset info).present < 2 ^ 64)
    (js : List Interval)
    (hjs : ∀ j ∈ js, j.b ≤ j.e ∧ j.e ≤ countTrue (messageAt dbl file offset info).present) :
    simpleReadValues (ratArith dbl) file offset (.simple info) js =
      .ok (js.map fun j => slice ((messageAt dbl file offset info).stored.map some) j.b (j.e - j.b)) := by
  have hlen : ((messageAt dbl file offset info).stored.map some).length =
      countTrue (messageAt dbl file offset info).present := by
    simp [Message.stored]
  have hr : toRanges js = js.map fun j => ⟨j.b, j.e - j.b⟩ := by
    simp only [toRanges]
    apply List.map_congr_left
    intro j hj
    rw [wsub_eq j.e j.b (hjs j hj).1 (by have := (hjs j hj).2; omega)]
  have hfull : (dataSection offset info).off + (dataSection offset info).size ≤ file.length := by
    simp only [dataSection]; omega
  simp only [simpleReadValues]
  rw [hr, C01_batched_ranges ((messageAt dbl file offset info).stored.map some)]
  · rw [List.map_map]; rfl
  · intro b hbnd
    rw [hlen] at hbnd
    have hmul : (b.off + b.size) * info.bitsPerValue ≤
        countTrue (messageAt dbl file offset info).present * info.bitsPerValue :=
      Nat.mul_le_mul_right _ hbnd
    have hmono : b.off * info.bitsPerValue ≤ (b.off + b.size) * info.bitsPerValue :=
      Nat.mul_le_mul_right _ (by omega)
    have hsl : (slice file (dataSection offset info).off (dataSection offset info).size).length =
        info.offsetAfterData - info.offsetBeforeData := slice_length _ _ _ hfull
    rw [decodeSimple_law _ _ _ hb (by omega)
      (slice file (dataSection offset info).off (dataSection offset info).size) _ b
      (fileRead_ok file _ hfull _ (by simp only [dataSection]; omega)) (by rw [hsl]; omega)]
    congr 1
    apply List.ext_getElem
    · rw [slice_length _ _ _ (by rw [hlen]; exact hbnd)]; simp
    · intro i h1 h2
      simp only [List.getElem_map, List.getElem_range, slice, List.getElem_take, List.getElem_drop,
        Message.stored, ratArith]
      rw [readerInt_exact _ _ _ width]
      congr 1
      simp only [scaleSimple, gribValue, messageAt, dataSection, slice]
      rw [codesPower_eq _ 2 (by decide), codesPower_eq _ 10 (by decide), Rat.add_comm]
      rfl
  · intro r hrm
    obtain ⟨j, hj, rfl⟩ := List.mem_map.mp hrm
    have := hjs j hj
    rw [hlen]
    simp only
    omega

/-- C40.  Extraction from a simple-packed message equals decoding the whole message by the GRIB
definition and slicing, and the masks tell which points are present.  Missing from the full
property: widths 59, 61, 62, 63 (false, see C04); constant fields with a bitmap (false, see C12);
constant fields with a non-zero decimal scale factor (false, `C40_constant_unscaled`).  Floating
point rounding is not modelled. -/
theorem C40_end_to_end_partial (dbl : UInt64 → Rat) (file : List UInt8) (offset : Nat)
    (info : JumpInfo) (gridded : info.sphericalHarmonics = 0)
    (width : info.bitsPerValue ≤ 58 ∨ info.bitsPerValue = 60 ∨ info.bitsPerValue = 64)
    (constant : info.bitsPerValue = 0 →
      info.offsetBeforeBitmap = 0 ∧ info.decimalScaleFactor = 0)
    (points : info.numberOfDataPoints ≤ 2 ^ 60)
    (order : info.offsetBeforeData ≤ info.offsetAfterData)
    (dataAvailable : offset + info.offsetAfterData ≤ file.length)
    (bitmapAvailable : info.offsetBeforeBitmap ≠ 0 →
      offset + info.offsetBeforeBitmap + (info.numberOfDataPoints + 7) / 8 ≤ file.length)
    (dataComplete : countTrue (messageAt dbl file offset info).present * info.bitsPerValue ≤
      8 * (info.offsetAfterData - info.offsetBeforeData))
    (is : List Interval) (nonempty : is ≠ []) (sorted : is.Pairwise (fun a b => a.e ≤ b.b))
    (inside : ∀ i ∈ is, i.b ≤ i.e ∧ i.e ≤ info.numberOfDataPoints) :
    extract (ratArith dbl) (simpleReadValues (ratArith dbl) file offset (.simple info)) file offset
        info is =
      .ok ⟨is.map fun i => slice (messageAt dbl file offset info).field i.b (i.e - i.b),
           is.map fun i => toBitset (slice (messageAt dbl file offset info).present i.b (i.e - i.b))⟩ := by
  by_cases hbm : info.offsetBeforeBitmap = 0
  · have hpres : (messageAt dbl file offset info).present =
        List.replicate info.numberOfDataPoints true := by
      simp only [Message.present, messageAt, if_pos hbm]
    have hst : (messageAt dbl file offset info).stored.length = info.numberOfDataPoints := by
      simp [Message.stored, hpres, countTrue_replicate]
    have hfield : (messageAt dbl file offset info).field =
        (messageAt dbl file offset info).stored.map some := by
      simp only [Message.field, hpres]
      have := spread_all none ((messageAt dbl file offset info).stored.map some)
      rwa [List.length_map, hst] at this
    have hmasks : ∀ i ∈ is, slice (messageAt dbl file offset info).present i.b (i.e - i.b) =
        List.replicate (i.e - i.b) true := by
      intro i hi
      rw [hpres, slice_replicate _ _ _ _ (by have := inside i hi; omega)]
    by_cases hz : info.bitsPerValue = 0
    · rw [C12_constant_field_partial _ _ _ _ _ hz gridded is nonempty sorted
        (fun i hi => ⟨(inside i hi).1, by have := inside i hi; omega⟩)]
      have hcst : (messageAt dbl file offset info).stored =
          List.replicate info.numberOfDataPoints (dbl info.referenceValue) := by
        simp only [Message.stored, hpres, countTrue_replicate]
        apply List.ext_getElem
        · simp
        · intro k h1 h2
          have hp0 : ∀ bytes : List UInt8, packedInt bytes 0 k = 0 := by
            intro bytes; simp [packedInt, slice, bitsValue]
          simp only [List.getElem_map, List.getElem_range, List.getElem_replicate, messageAt, hz, hp0,
            gribValue, (constant hz).2]
          simp [Rat.add_zero]
      congr 2
      · apply List.map_congr_left
        intro i hi
        rw [hfield, hcst, List.map_replicate, slice_replicate _ _ _ _ (by have := inside i hi; omega)]
        rfl
      · apply List.map_congr_left
        intro i hi
        rw [hmasks i hi]
    · have hcount : countTrue (messageAt dbl file offset info).present = info.numberOfDataPoints := by
        rw [hpres, countTrue_replicate]
      rw [extract_checked _ _ _ _ _ is nonempty sorted gridded, if_neg hz, if_pos hbm, extractNoMask,
        simpleReader_stored dbl file offset info (by omega) width order dataAvailable dataComplete
          (by omega) is (by rw [hcount]; exact inside), ok_bind,
        mapM_ok _ (fun i : Interval => toBitset (List.replicate (i.e - i.b) true)) is, ok_bind]
      · rw [hfield]
        congr 2
        apply List.map_congr_left
        intro i hi
        rw [hmasks i hi]
      · intro i hi
        have := inside i hi
        rw [wsub_eq i.e i.b this.1 (by omega), mkVector, if_neg (by omega), ok_bind]
  · have hz : info.bitsPerValue ≠ 0 := fun h => hbm (constant h).1
    obtain ⟨hread, hlen⟩ := readBitmap_present dbl file offset info hz hbm (bitmapAvailable hbm)
    have hst : ((messageAt dbl file offset info).stored.map some).length =
        countTrue (messageAt dbl file offset info).present := by
      simp [Message.stored]
    have hle : countTrue (messageAt dbl file offset info).present ≤ info.numberOfDataPoints := by
      rw [← hlen, countTrue_eq]; exact List.count_le_length
    exact C07_masked_extraction (ratArith dbl) _ file offset info _
      ((messageAt dbl file offset info).stored.map some) hz hbm gridded hread (by rw [hst]; exact Nat.le_refl _)
      (fun js hjs => simpleReader_stored dbl file offset info (by omega) width order dataAvailable
        dataComplete (by omega) js (by rw [hst] at hjs; exact hjs))
      is nonempty sorted (by rw [hlen]; exact inside)

/-- C40 is false for a constant field with decimal scale factor 1: the reference value 20 comes back
unscaled, where the GRIB formula gives 2. -/
theorem C40_constant_unscaled :
    extract (ratArith fun _ => 20) (fun _ => undef) [] 0
      { sampleInfo with bitsPerValue := 0, decimalScaleFactor := 1 } [⟨0, 1⟩] = .ok ⟨[[some 20]], [[1]]⟩ ∧
    slice (messageAt (fun _ => 20) [] 0
      { sampleInfo with bitsPerValue := 0, decimalScaleFactor := 1 }).field 0 1 = [some 2] := by
  constructor <;> decide +kernel

/-- The message of the C40 example: bitmap `1101001011`, six 8-bit values, scale `10^-1`. -/
def c40Info : JumpInfo :=
  { sampleInfo with offsetBeforeBitmap := 1, offsetBeforeData := 3, offsetAfterData := 9,
                    decimalScaleFactor := 1, numberOfValues := 6 }

/-- Non-vacuity of C40: all hypotheses hold for a message with bitmap and two intervals, and the
result is not trivial. -/
example : (let m := messageAt (fun _ => 0) [9, 0xD2, 0xC0, 10, 11, 12, 13, 14, 15] 0 c40Info
    countTrue m.present * 8 ≤ 8 * (9 - 3) ∧
    slice m.field 1 4 = [some ((11 : Rat) / 10), none, some ((12 : Rat) / 10), none]) := by
  decide +kernel

end GJ
