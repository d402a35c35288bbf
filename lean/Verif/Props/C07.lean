import Verif.Lemmas.Client
import Verif.Lemmas.Bits
import Verif.Props.C01

/-!
# C07 to C13: extraction of intervals from one message
-/

namespace GJ
open Spec

theorem countTrue_eq (l : List Bool) : countTrue l = l.count true := by
  simp only [countTrue, List.count]
  congr 1
  funext b
  cases b <;> rfl

theorem pairwise_ordered {is : List Interval} (h : is.Pairwise (fun a b => a.e ≤ b.b)) :
    ordered is = true := by
  induction is with
  | nil => rfl
  | cons a rest ih =>
    obtain ⟨h1, h2⟩ := List.pairwise_cons.mp h
    cases rest with
    | nil => rfl
    | cons b rest => simp [ordered, h1 b (by simp), ih h2]

theorem ordered_pairwise {is : List Interval} (h : ordered is = true)
    (hw : ∀ i ∈ is, i.b ≤ i.e) : is.Pairwise (fun a b => a.e ≤ b.b) := by
  induction is with
  | nil => exact .nil
  | cons a rest ih =>
    cases rest with
    | nil => simp
    | cons b rest =>
      simp only [ordered, Bool.and_eq_true, decide_eq_true_eq] at h
      have hp := ih h.2 (fun i hi => hw i (by simp [hi]))
      refine List.pairwise_cons.mpr ⟨fun c hc => ?_, hp⟩
      rcases List.mem_cons.mp hc with rfl | hc
      · exact h.1
      · have h1 := (List.pairwise_cons.mp hp).1 c hc
        have h2 := hw b (by simp)
        omega

theorem checkIntervals_ok {is : List Interval} (hne : is ≠ []) (h : is.Pairwise (fun a b => a.e ≤ b.b)) :
    checkIntervals is = .ok true := by
  have : is.length > 0 := List.length_pos_iff.mpr hne
  rw [checkIntervals, pairwise_ordered h]
  simp [cassert, this, ok_bind]

theorem extract_checked {V : Type} (A : Arith V) (rv : ReadValues V) (file : List UInt8)
    (offset : Nat) (info : JumpInfo) (is : List Interval) (hne : is ≠ [])
    (h : is.Pairwise (fun a b => a.e ≤ b.b)) (hsh : info.sphericalHarmonics = 0) :
    extract A rv file offset info is =
      if info.bitsPerValue = 0 then extractConstant A info is
      else if info.offsetBeforeBitmap = 0 then extractNoMask rv is
      else extractMasked A rv file offset info is := by
  rw [extract, checkIntervals_ok hne h, ok_bind]
  simp [cassert, hsh, ok_bind]

theorem placeAll_ok {V : Type} (nan : V) : ∀ (bms : List (List Bool)) (vss : List (List V)),
    bms.length = vss.length → (∀ p ∈ bms.zip vss, p.1.count true ≤ p.2.length) →
    placeAll nan bms vss = .ok ((bms.zip vss).map fun p => spread nan p.1 p.2) := by
  intro bms
  induction bms with
  | nil => intro vss _ _; rfl
  | cons bm rest ih =>
    intro vss hl hc
    cases vss with
    | nil => simp at hl
    | cons vs vss =>
      rw [placeAll, placeValues_ok nan bm vs (hc (bm, vs) (by simp)), ok_bind,
        ih vss (by simpa using hl) (fun p hp => hc p (by simp [hp])), ok_bind]
      rfl

/-- C07.  A field has the bitmap `bm`; `stored` are the decoded values of its present points; the
packing's `readValues` returns slices of `stored`.  For every sorted, non-overlapping list of
intervals inside the field, extraction returns for each interval the slice of the field in which the
k-th present point has the k-th stored value and missing points are NaN, with masks of the same
points. -/
theorem C07_masked_extraction {V : Type} (A : Arith V) (readValues : ReadValues V)
    (file : List UInt8) (offset : Nat) (info : JumpInfo) (bm : List Bool) (stored : List V)
    (notConstant : info.bitsPerValue ≠ 0) (hasBitmap : info.offsetBeforeBitmap ≠ 0)
    (gridded : info.sphericalHarmonics = 0)
    (bitmap : readBitmap file offset info = .ok bm)
    (enough : countTrue bm ≤ stored.length)
    (correct : ∀ js : List Interval, (∀ j ∈ js, j.b ≤ j.e ∧ j.e ≤ stored.length) →
      readValues js = .ok (js.map fun j => slice stored j.b (j.e - j.b)))
    (is : List Interval) (nonempty : is ≠ []) (sorted : is.Pairwise (fun a b => a.e ≤ b.b))
    (inside : ∀ i ∈ is, i.b ≤ i.e ∧ i.e ≤ bm.length) :
    extract A readValues file offset info is =
      .ok ⟨is.map fun i => slice (spread A.nan bm stored) i.b (i.e - i.b),
           is.map fun i => toBitset (slice bm i.b (i.e - i.b))⟩ := by
  rw [countTrue_eq] at enough
  rw [extract_checked A _ file offset info is nonempty sorted gridded, if_neg notConstant,
    if_neg hasBitmap, extractMasked, bitmap, ok_bind,
    maskedIntervals_spec bm is nonempty (ordered_chain _ _ (pairwise_ordered sorted) inside), ok_bind]
  simp only
  have hcnt : ∀ i ∈ is, (bm.take i.b).count true ≤ (bm.take i.e).count true ∧
      (bm.take i.e).count true ≤ stored.length ∧
      (bm.take i.e).count true - (bm.take i.b).count true = (slice bm i.b (i.e - i.b)).count true := by
    intro i hi
    have h1 := count_take_add bm true i.b i.e (inside i hi).1
    have h2 := count_drop_le bm i.e
    simp only [slice]
    omega
  rw [correct]
  · rw [ok_bind, placeAll_ok]
    · rw [ok_bind]
      congr 2
      · rw [List.map_map, List.zip_map', List.map_map]
        apply List.map_congr_left
        intro i hi
        simp only [Function.comp]
        rw [(hcnt i hi).2.2]
        exact spread_slice A.nan bm stored i.b (i.e - i.b) enough
      · rw [List.map_map]; rfl
    · simp
    · intro p hp
      rw [List.map_map, List.zip_map'] at hp
      obtain ⟨i, hi, rfl⟩ := List.mem_map.mp hp
      simp only [Function.comp]
      rw [(hcnt i hi).2.2, slice_length]
      · exact Nat.le_refl _
      · have := hcnt i hi; omega
  · intro j hj
    obtain ⟨i, hi, rfl⟩ := List.mem_map.mp hj
    exact ⟨(hcnt i hi).1, (hcnt i hi).2.1⟩

/-- C07, pointwise reading of the field used in `C07_masked_extraction`: point `p` is NaN if
missing, and otherwise has the stored value whose index is the number of present points before
`p`. -/
theorem C07_field_pointwise {V : Type} (nan : V) (bm : List Bool) (stored : List V)
    (enough : countTrue bm ≤ stored.length) (p : Nat) (hp : p < bm.length) :
    (spread nan bm stored)[p]? =
      if bm[p] then stored[countTrue (bm.take p)]? else some nan := by
  induction bm generalizing stored p with
  | nil => simp at hp
  | cons b rest ih =>
    cases b with
    | false =>
      have hr : countTrue rest ≤ stored.length := by simpa [countTrue] using enough
      cases p with
      | zero => simp [spread]
      | succ p =>
        have := ih stored hr p (by simpa using hp)
        simpa [spread, countTrue] using this
    | true =>
      cases stored with
      | nil => simp [countTrue] at enough
      | cons v vs =>
        have hr : countTrue rest ≤ vs.length := by simpa [countTrue] using enough
        cases p with
        | zero => simp [spread, countTrue]
        | succ p =>
          have := ih vs hr p (by simpa using hp)
          simpa [spread, countTrue] using this

/-- C08. -/
theorem C08_packed_positions (bm : List Bool) (is : List Interval) (nonempty : is ≠ [])
    (sorted : is.Pairwise (fun a b => a.e ≤ b.b))
    (inside : ∀ i ∈ is, i.b ≤ i.e ∧ i.e ≤ bm.length) :
    ∃ js bms, calculateMaskedIntervals is bm = .ok (js, bms) ∧
      js = is.map (fun i => ⟨countTrue (bm.take i.b),
        countTrue (bm.take i.b) + countTrue (slice bm i.b (i.e - i.b))⟩) ∧
      bms = is.map (fun i => slice bm i.b (i.e - i.b)) := by
  refine ⟨_, _, maskedIntervals_spec bm is nonempty
    (ordered_chain _ _ (pairwise_ordered sorted) inside), ?_, rfl⟩
  apply List.map_congr_left
  intro i hi
  simp only [countTrue_eq, slice]
  rw [count_take_add bm true i.b i.e (inside i hi).1]

/-- Non-vacuity of C08: a gap, touching intervals and an empty interval. -/
example : calculateMaskedIntervals [⟨1, 4⟩, ⟨4, 4⟩, ⟨4, 6⟩, ⟨8, 10⟩]
    [true, false, true, true, false, true, true, false, true, true] =
    .ok ([⟨1, 3⟩, ⟨3, 3⟩, ⟨3, 4⟩, ⟨5, 7⟩],
      [[false, true, true], [], [false, true], [true, true]]) := by decide +kernel

/-- C09.  If the file holds the whole bitmap section, there is one flag per grid point and flag `i`
is bit `7 - i mod 8` of byte `i / 8` of the section (so padding bits play no role). -/
theorem C09_bitmap_flags (file : List UInt8) (offset : Nat) (info : JumpInfo)
    (notConstant : info.bitsPerValue ≠ 0)
    (available : offset + info.offsetBeforeBitmap + (info.numberOfDataPoints + 7) / 8 ≤ file.length) :
    ∃ bm, readBitmap file offset info = .ok bm ∧ bm.length = info.numberOfDataPoints ∧
      ∀ i byte, i < info.numberOfDataPoints →
        file[offset + info.offsetBeforeBitmap + i / 8]? = some byte →
        bm[i]? = some (byte.toNat.testBit (7 - i % 8)) := by
  simp only [readBitmap]
  by_cases hz : (info.numberOfDataPoints + 7) / 8 = 0
  · rw [if_pos hz]
    exact ⟨[], rfl, by simp only [List.length_nil]; omega, fun i _ hi => by omega⟩
  · rw [if_neg hz, if_neg notConstant]
    have hl : (List.take ((info.numberOfDataPoints + 7) / 8)
        (List.drop (offset + info.offsetBeforeBitmap) file)).length =
        (info.numberOfDataPoints + 7) / 8 := by
      rw [List.length_take, List.length_drop]; omega
    rw [if_neg (by simpa using hl)]
    refine ⟨_, rfl, by simp, fun i byte hi hb => ?_⟩
    rw [List.getElem?_map, List.getElem?_range hi, Option.map_some]
    rw [List.getElem?_take, if_pos (by omega), List.getElem?_drop, hb, Option.getD_some,
      and_shift_testBit]

/-- C09, error side: a file that ends inside the bitmap section gives a read error. -/
theorem C09_short_read (file : List UInt8) (offset : Nat) (info : JumpInfo)
    (notConstant : info.bitsPerValue ≠ 0) (hpos : 0 < info.numberOfDataPoints)
    (short : file.length < offset + info.offsetBeforeBitmap + (info.numberOfDataPoints + 7) / 8) :
    readBitmap file offset info = .error (.exn .readError) := by
  simp only [readBitmap]
  rw [if_neg (by omega), if_neg notConstant, if_pos (by rw [List.length_take, List.length_drop]; omega),
    throwExn]

/-- A record used in the examples. -/
def sampleInfo : JumpInfo where
  version := 4
  referenceValue := 0
  binaryScaleFactor := 0
  decimalScaleFactor := 0
  editionNumber := 2
  bitsPerValue := 8
  offsetBeforeData := 2
  offsetAfterData := 7
  offsetBeforeBitmap := 0
  numberOfValues := 5
  numberOfDataPoints := 10
  totalLength := 9
  sphericalHarmonics := 0
  md5GridSection := "h"
  packingType := "grid_simple"

/-- Non-vacuity of C09: ten points, six padding bits set. -/
example : readBitmap [9, 0xA5, 0xFF] 0 { sampleInfo with offsetBeforeBitmap := 1 } =
    .ok [true, false, true, false, false, true, false, true, true, true] := by decide +kernel

/-- C10.  For flags `bm` of a range of `n` points: `ceil(n/64)` words of 64 bits; bit `k` of word
`j` is set exactly when position `64*j+k` exists and is present. -/
theorem C10_mask_words (bm : List Bool) :
    (toBitset bm).length = (bm.length + 63) / 64 ∧
    ∀ j w, (toBitset bm)[j]? = some w → w < 2 ^ 64 ∧
      ∀ k, k < 64 → w.testBit k = (bm[64 * j + k]? == some true) := by
  refine ⟨toBitset_length bm, fun j w hw => ?_⟩
  rw [toBitset_getElem?] at hw
  split at hw
  · cases hw
    refine ⟨?_, fun k hk => ?_⟩
    · apply Nat.lt_pow_two_of_testBit
      intro i hi
      rw [bitsetWord_testBit]
      simp [show ¬ i < 64 by omega]
    · rw [bitsetWord_testBit, Nat.mul_comm]
      simp only [hk, decide_true, Bool.true_and]
      cases bm[64 * j + k]? with
      | none => rfl
      | some b => cases b <;> rfl
  · cases hw

/-- C10, Python client: the boolean mask rebuilt from the words is the flags. -/
theorem C10_python_roundtrip (bm : List Bool) :
    pyBoolMask (toBitset bm) bm.length = .ok bm := by
  have hlen : bm.length ≤ (toBitset bm).length * 64 := by rw [toBitset_length]; omega
  simp only [pyBoolMask, cassert]
  rw [if_pos (by simp; omega), ok_bind]
  congr 1
  have key := foldl_set (fun bp => (((toBitset bm)[bp / 64]?.getD 0) >>> (bp % 64)) % 2 == 1)
    bm.length (List.range ((toBitset bm).length * 64)) (List.replicate bm.length false) (by simp)
  obtain ⟨k1, k2⟩ := key
  have e : pyMaskStep (toBitset bm) bm.length = (fun acc bp => if bp ≥ bm.length then acc else
      acc.set bp (((toBitset bm)[bp / 64]?.getD 0) >>> (bp % 64) % 2 == 1)) := rfl
  rw [e]
  apply List.ext_getElem?
  intro i
  by_cases hi : i < bm.length
  · rw [k2 i hi, if_pos (by simp; omega), mod_two_testBit, toBitset_bit bm i hi,
      List.getElem?_eq_getElem hi]
  · rw [List.getElem?_eq_none (by rw [k1]; omega), List.getElem?_eq_none (by omega)]

/-- C10, Rust client: `is_valid(i)` is the flag of position `i`. -/
theorem C10_rust_roundtrip (bm : List Bool) (i : Nat) (h : i < bm.length) :
    rustIsValid (toBitset bm) i = bm[i] := by
  have hl := toBitset_length bm
  have hne : toBitset bm ≠ [] := by
    intro hc; rw [hc] at hl; simp at hl; omega
  rw [rustIsValid, if_neg hne, if_neg (by omega), and_shift_testBit, toBitset_bit bm i h]

/-- C10.  The Rust reader takes every point as valid when there is no mask. -/
theorem C10_rust_no_mask (i : Nat) : rustIsValid [] i = true := rfl

/-- Non-vacuity of C10: 66 flags need two words. -/
example : toBitset (List.replicate 64 false ++ [false, true]) = [0, 2] := by decide +kernel

/-- C11, the part that holds: an empty list, or a list in which some interval begins before its
predecessor ends, is rejected with an assertion failure on every kind of field.  Missing from the
full property: reversed intervals and intervals past the end, see the negations below. -/
theorem C11_malformed_rejected_partial {V : Type} (A : Arith V) (readValues : ReadValues V)
    (file : List UInt8) (offset : Nat) (info : JumpInfo) (is : List Interval)
    (bad : is = [] ∨ ∃ k a b, is[k]? = some a ∧ is[k + 1]? = some b ∧ b.b < a.e) :
    extract A readValues file offset info is = .error (.exn .assertFailed) := by
  have hgen : ∀ (is : List Interval) (k : Nat) (a b : Interval), is[k]? = some a →
      is[k + 1]? = some b → b.b < a.e → ordered is = false := by
    intro is
    induction is with
    | nil => intro k a b h; simp at h
    | cons x rest ih =>
      intro k a b ha hb hlt
      cases rest with
      | nil => simp at hb
      | cons y rest =>
        cases k with
        | zero =>
          simp at ha hb
          subst ha hb
          simp [ordered]
          intro h; omega
        | succ k =>
          have := ih k a b (by simpa using ha) (by simpa using hb) hlt
          simp [ordered, this]
  rcases bad with rfl | ⟨k, a, b, ha, hb, hlt⟩
  · rfl
  · have ho := hgen is k a b ha hb hlt
    have hpos : is.length > 0 := by
      cases is with
      | nil => simp at ha
      | cons => simp
    simp only [extract, checkIntervals, cassert, hpos, decide_true, if_true, ok_bind, ho]
    rfl

/-- C11, spherical harmonics are rejected with an assertion failure. -/
theorem C11_spherical_harmonics_rejected {V : Type} (A : Arith V) (readValues : ReadValues V)
    (file : List UInt8) (offset : Nat) (info : JumpInfo) (is : List Interval)
    (sh : info.sphericalHarmonics ≠ 0) :
    extract A readValues file offset info is = .error (.exn .assertFailed) := by
  simp only [extract, checkIntervals, cassert]
  split
  · rw [ok_bind, ok_bind]
    split
    · rw [ok_bind]; simp [sh, throwExn]; rfl
    · rfl
  · rfl

/-- C11 is false for an interval past the end of a constant field: ten points, interval `[0,20)`
returns twenty values. -/
theorem C11_past_end_accepted_constant :
    ∃ r, extract (V := Nat) ⟨0, fun _ => 7, fun _ x => x⟩ (fun _ => undef) [] 0
      { sampleInfo with bitsPerValue := 0 } [⟨0, 20⟩] = .ok r ∧
      (r.values.map List.length) = [20] ∧ sampleInfo.numberOfDataPoints = 10 := by
  exact ⟨⟨[List.replicate 20 7], [[2 ^ 20 - 1]]⟩, by decide +kernel⟩

/-- C11 is false for a reversed interval on a constant field: begin `2^64-1`, end `3` returns four
values. -/
theorem C11_reversed_accepted_constant :
    ∃ r, extract (V := Nat) ⟨0, fun _ => 7, fun _ x => x⟩ (fun _ => undef) [] 0
      { sampleInfo with bitsPerValue := 0 } [⟨2 ^ 64 - 1, 3⟩] = .ok r ∧
      (r.values.map List.length) = [4] := by
  have hw : wsub 3 (2 ^ 64 - 1) = 4 := by simp [wsub]
  refine ⟨⟨[List.replicate 4 7], [[15]]⟩, ?_, rfl⟩
  rw [extract_checked _ _ _ _ _ _ (by simp) (by simp) rfl, if_pos rfl]
  simp only [extractConstant, List.mapM_cons, List.mapM_nil, hw]
  decide +kernel

/-- C11 is false for an interval past the end of an unmasked simple-packed field whose last byte has
padding bits: ten one-bit points in two bytes, interval `[0,16)` returns sixteen values. -/
theorem C11_past_end_accepted_padding :
    ∃ r, extract (V := Nat) ⟨0, fun _ => 0, fun _ x => x⟩
      (simpleReadValues ⟨0, fun _ => 0, fun _ x => x⟩ [0xFF, 0xC0] 0
        (.simple { sampleInfo with bitsPerValue := 1, offsetBeforeData := 0, offsetAfterData := 2 }))
      [0xFF, 0xC0] 0
      { sampleInfo with bitsPerValue := 1, offsetBeforeData := 0, offsetAfterData := 2 }
      [⟨0, 16⟩] = .ok r ∧ (r.values.map List.length) = [16] ∧
      sampleInfo.numberOfDataPoints = 10 := by
  exact ⟨⟨[List.replicate 10 1 ++ List.replicate 6 0], [[2 ^ 16 - 1]]⟩, by decide +kernel⟩

theorem mapM_mkExt_bad (bm : List Bool) (is : List Interval)
    (bad : ∃ i ∈ is, i.e < i.b ∨ bm.length < i.e) :
    is.mapM (fun i => mkExt bm false i.b i.e) = undef := by
  induction is with
  | nil => simp at bad
  | cons i rest ih =>
    rw [List.mapM_cons]
    by_cases h : i.b ≤ i.e ∧ i.e ≤ bm.length
    · rw [mkExt_ok bm false i.b i.e h.1 h.2, ok_bind, ih]
      · rfl
      · obtain ⟨j, hj, hb⟩ := bad
        rcases List.mem_cons.mp hj with rfl | hj
        · omega
        · exact ⟨j, hj, hb⟩
    · rw [mkExt, if_neg h]; rfl

/-- C11 is false for a field with a bitmap: a reversed interval, or one past the end, is not
rejected; it makes the code build an iterator range outside the bitmap, which is undefined
behaviour. -/
theorem C11_masked_bad_interval_undefined {V : Type} (A : Arith V) (readValues : ReadValues V)
    (file : List UInt8) (offset : Nat) (info : JumpInfo) (bm : List Bool)
    (notConstant : info.bitsPerValue ≠ 0) (hasBitmap : info.offsetBeforeBitmap ≠ 0)
    (gridded : info.sphericalHarmonics = 0)
    (bitmap : readBitmap file offset info = .ok bm)
    (is : List Interval) (nonempty : is ≠ []) (sorted : is.Pairwise (fun a b => a.e ≤ b.b))
    (bad : ∃ i ∈ is, i.e < i.b ∨ bm.length < i.e) :
    extract A readValues file offset info is = .error .ub := by
  rw [extract_checked A _ file offset info is nonempty sorted gridded, if_neg notConstant,
    if_neg hasBitmap, extractMasked, bitmap, ok_bind, calculateMaskedIntervals, if_neg nonempty,
    mapM_mkExt_bad bm is bad]
  rfl

/-- C12, fields without bitmap: every requested point has the reference value and is flagged
present.  Missing from the full property: constant fields with a bitmap, see
`C12_bitmap_ignored`. -/
theorem C12_constant_field_partial {V : Type} (A : Arith V) (readValues : ReadValues V)
    (file : List UInt8) (offset : Nat) (info : JumpInfo)
    (constant : info.bitsPerValue = 0) (gridded : info.sphericalHarmonics = 0)
    (is : List Interval) (nonempty : is ≠ []) (sorted : is.Pairwise (fun a b => a.e ≤ b.b))
    (sizes : ∀ i ∈ is, i.b ≤ i.e ∧ i.e ≤ 2 ^ 60) :
    extract A readValues file offset info is =
      .ok ⟨is.map fun i => List.replicate (i.e - i.b) (A.ref info),
           is.map fun i => toBitset (List.replicate (i.e - i.b) true)⟩ := by
  rw [extract_checked A _ file offset info is nonempty sorted gridded, if_pos constant,
    extractConstant]
  have hw : ∀ i ∈ is, wsub i.e i.b = i.e - i.b := fun i hi => by
    have := sizes i hi
    exact wsub_eq _ _ this.1 (by omega)
  rw [mapM_ok _ (fun i : Interval => List.replicate (i.e - i.b) (A.ref info)) is, ok_bind,
    mapM_ok _ (fun i : Interval => toBitset (List.replicate (i.e - i.b) true)) is, ok_bind]
  · intro i hi
    have := sizes i hi
    simp only [hw i hi, mkVector]
    rw [if_neg (by omega), ok_bind]
  · intro i hi
    have := sizes i hi
    simp only [hw i hi, mkVector]
    rw [if_neg (by omega)]

/-- C12 is false with a bitmap: two points, both marked missing by the bitmap section, come back as
the reference value and flagged present. -/
theorem C12_bitmap_ignored :
    ∃ (file : List UInt8) (info : JumpInfo),
      info.bitsPerValue = 0 ∧ info.offsetBeforeBitmap = 1 ∧ info.numberOfDataPoints = 2 ∧
      (bitsOf (file.drop 1)).take 2 = [false, false] ∧
      extract (V := Option Nat) ⟨none, fun _ => some 7, fun _ x => some x⟩ (fun _ => undef) file 0
        info [⟨0, 2⟩] = .ok ⟨[[some 7, some 7]], [[3]]⟩ :=
  ⟨[0, 0x00], { sampleInfo with bitsPerValue := 0, offsetBeforeBitmap := 1, numberOfDataPoints := 2 },
    by decide +kernel⟩

/-- C13.  A successful extraction over intervals with `begin ≤ end < 2^64` returns one value array
and one mask array per interval, in request order, with `end - begin` values and enough mask words.
`readValues` is any packing reader that returns one array of the right length per interval. -/
theorem C13_result_shape {V : Type} (A : Arith V) (readValues : ReadValues V)
    (shape : ∀ (js : List Interval) (out : List (List V)), (∀ j ∈ js, j.b ≤ j.e ∧ j.e < 2 ^ 64) →
      readValues js = .ok out → out.map List.length = js.map fun j => j.e - j.b)
    (file : List UInt8) (offset : Nat) (info : JumpInfo) (is : List Interval)
    (wf : ∀ i ∈ is, i.b ≤ i.e ∧ i.e < 2 ^ 64) (r : ExResult V) (h : extract A readValues file offset info is = .ok r) :
    r.values.map List.length = is.map (fun i => i.e - i.b) ∧
    r.mask.map List.length = is.map (fun i => (i.e - i.b + 63) / 64) := by
  have hw : ∀ i ∈ is, wsub i.e i.b = i.e - i.b := fun i hi => wsub_eq _ _ (wf i hi).1 (wf i hi).2
  have hmask : ∀ m, (is.mapM fun i => do
      let bm ← mkVector (wsub i.e i.b) true
      Except.ok (toBitset bm) : Res (List (List Nat))) = .ok m →
      m.map List.length = is.map (fun i => (i.e - i.b + 63) / 64) := by
    intro m hm
    clear h wf
    induction is generalizing m with
    | nil => cases hm; rfl
    | cons i rest ih =>
      rw [List.mapM_cons] at hm
      have hwi := hw i (by simp)
      rw [hwi, mkVector] at hm
      split at hm
      · cases hm
      · rw [ok_bind, ok_bind] at hm
        cases hr : (rest.mapM fun i => do
            let bm ← mkVector (wsub i.e i.b) true
            Except.ok (toBitset bm) : Res (List (List Nat))) with
        | error f => rw [hr] at hm; cases hm
        | ok m' =>
          rw [hr, ok_bind] at hm
          cases hm
          rw [List.map_cons, List.map_cons, ih (fun i hi => hw i (by simp [hi])) m' hr,
            toBitset_length, List.length_replicate]
  have hconst : ∀ m, (is.mapM fun i => mkVector (wsub i.e i.b) (A.ref info) : Res (List (List V))) =
      .ok m → m.map List.length = is.map (fun i => i.e - i.b) := by
    intro m hm
    clear h wf hmask
    induction is generalizing m with
    | nil => cases hm; rfl
    | cons i rest ih =>
      rw [List.mapM_cons] at hm
      have hwi := hw i (by simp)
      rw [hwi, mkVector] at hm
      split at hm
      · cases hm
      · rw [ok_bind] at hm
        cases hr : (rest.mapM fun i => mkVector (wsub i.e i.b) (A.ref info) : Res (List (List V))) with
        | error f => rw [hr] at hm; cases hm
        | ok m' =>
          rw [hr, ok_bind] at hm
          cases hm
          rw [List.map_cons, List.map_cons, ih (fun i hi => hw i (by simp [hi])) m' hr,
            List.length_replicate]
  have hne : is ≠ [] := by
    rintro rfl
    cases h
  have ho : ordered is = true := by
    cases ho : ordered is with
    | true => rfl
    | false =>
      have hpos : is.length > 0 := List.length_pos_iff.mpr hne
      simp only [extract, checkIntervals, cassert, hpos, decide_true, if_true, ok_bind, ho] at h
      cases h
  have hsh : info.sphericalHarmonics = 0 := by
    refine Decidable.byContradiction fun hn => ?_
    rw [C11_spherical_harmonics_rejected A readValues file offset info is hn] at h
    cases h
  have hp := ordered_pairwise ho (fun i hi => (wf i hi).1)
  rw [extract_checked A _ file offset info is hne hp hsh] at h
  split at h
  · rw [extractConstant] at h
    cases hv : (is.mapM fun i => mkVector (wsub i.e i.b) (A.ref info) : Res (List (List V))) with
    | error f => rw [hv] at h; cases h
    | ok vs =>
      rw [hv, ok_bind] at h
      cases hm : (is.mapM fun i => do
          let bm ← mkVector (wsub i.e i.b) true
          Except.ok (toBitset bm) : Res (List (List Nat))) with
      | error f => rw [hm] at h; cases h
      | ok ms =>
        rw [hm, ok_bind] at h
        cases h
        exact ⟨hconst _ hv, hmask _ hm⟩
  · split at h
    · rw [extractNoMask] at h
      cases hv : readValues is with
      | error f => rw [hv] at h; cases h
      | ok vs =>
        rw [hv, ok_bind] at h
        cases hm : (is.mapM fun i => do
            let bm ← mkVector (wsub i.e i.b) true
            Except.ok (toBitset bm) : Res (List (List Nat))) with
        | error f => rw [hm] at h; cases h
        | ok ms =>
          rw [hm, ok_bind] at h
          cases h
          exact ⟨shape is vs wf hv, hmask _ hm⟩
    · rename_i hb0 hbm0
      rw [extractMasked] at h
      cases hbm : readBitmap file offset info with
      | error f => rw [hbm] at h; cases h
      | ok bm =>
        have hin : ∀ i ∈ is, i.b ≤ i.e ∧ i.e ≤ bm.length := by
          refine Decidable.byContradiction fun hn => ?_
          have bad : ∃ i ∈ is, i.e < i.b ∨ bm.length < i.e := by
            refine Classical.byContradiction fun hc => hn fun i hi => ⟨(wf i hi).1, ?_⟩
            rcases Nat.lt_or_ge bm.length i.e with h | h
            · exact absurd ⟨i, hi, Or.inr h⟩ hc
            · exact h
          rw [hbm, ok_bind, calculateMaskedIntervals, if_neg hne, mapM_mkExt_bad bm is bad] at h
          cases h
        rw [hbm, ok_bind, maskedIntervals_spec bm is hne (ordered_chain _ _ ho hin), ok_bind] at h
        simp only at h
        cases hd : readValues (is.map fun i => ⟨(bm.take i.b).count true, (bm.take i.e).count true⟩) with
        | error f => rw [hd] at h; cases h
        | ok dec =>
          rw [hd, ok_bind] at h
          have hs := shape _ dec (by
            intro j hj
            obtain ⟨i, hi, rfl⟩ := List.mem_map.mp hj
            have h1 := count_take_add bm true i.b i.e (hin i hi).1
            have h2 : (bm.take i.e).count true ≤ (bm.take i.e).length := List.count_le_length
            rw [List.length_take] at h2
            have h3 := (wf i hi).2
            simp only
            omega) hd
          have hplace : ∀ (l : List Interval) (dec : List (List V)) (vs : List (List V)),
              (∀ i ∈ l, i.b ≤ i.e ∧ i.e ≤ bm.length) →
              placeAll A.nan (l.map fun i => (bm.drop i.b).take (i.e - i.b)) dec = .ok vs →
              vs.map List.length = l.map fun i => i.e - i.b := by
            intro l
            induction l with
            | nil => intro dec vs _ h; cases h; rfl
            | cons i rest ih =>
              intro dec vs hl hv
              cases dec with
              | nil => cases hv
              | cons d dec =>
                rw [List.map_cons, placeAll] at hv
                cases hpv : placeValues A.nan ((bm.drop i.b).take (i.e - i.b)) d with
                | error f => rw [hpv] at hv; cases hv
                | ok v =>
                  rw [hpv, ok_bind] at hv
                  cases hpr : placeAll A.nan (rest.map fun i => (bm.drop i.b).take (i.e - i.b)) dec with
                  | error f => rw [hpr] at hv; cases hv
                  | ok vs' =>
                    rw [hpr, ok_bind] at hv
                    cases hv
                    rw [List.map_cons, List.map_cons, ih dec vs' (fun i hi => hl i (by simp [hi])) hpr]
                    congr 1
                    have hlen : ∀ (b : List Bool) (d v : List V), placeValues A.nan b d = .ok v →
                        v.length = b.length := by
                      intro b
                      induction b with
                      | nil => intro d v h; cases h; rfl
                      | cons x xs ihb =>
                        intro d v h
                        cases x with
                        | false =>
                          rw [placeValues] at h
                          cases hq : placeValues A.nan xs d with
                          | error f => rw [hq] at h; cases h
                          | ok q => rw [hq, ok_bind] at h; cases h; simp [ihb d q hq]
                        | true =>
                          cases d with
                          | nil => cases h
                          | cons d0 d =>
                            rw [placeValues] at h
                            cases hq : placeValues A.nan xs d with
                            | error f => rw [hq] at h; cases h
                            | ok q => rw [hq, ok_bind] at h; cases h; simp [ihb d q hq]
                    rw [hlen _ _ _ hpv, List.length_take, List.length_drop]
                    have := hl i (by simp)
                    omega
          cases hpa : placeAll A.nan (is.map fun i => (bm.drop i.b).take (i.e - i.b)) dec with
          | error f => rw [hpa] at h; cases h
          | ok vs =>
            rw [hpa, ok_bind] at h
            cases h
            refine ⟨hplace is dec vs hin hpa, ?_⟩
            simp only [List.map_map]
            apply List.map_congr_left
            intro i hi
            have := hin i hi
            simp only [Function.comp, toBitset_length, List.length_take, List.length_drop]
            congr 2
            omega

/-- C13 for simple packing: the shape hypothesis of `C13_result_shape` holds for the simple reader
on any file content. -/
theorem C13_simple_reader_shape {V : Type} (A : Arith V) (file : List UInt8) (offset : Nat)
    (info : JumpInfo) (notConstant : 0 < info.bitsPerValue) (js : List Interval)
    (out : List (List V)) (wf : ∀ j ∈ js, j.b ≤ j.e ∧ j.e < 2 ^ 64)
    (h : simpleReadValues A file offset (.simple info) js = .ok out) :
    out.map List.length = js.map fun j => j.e - j.b := by
  simp only [simpleReadValues] at h
  obtain ⟨h1, h2⟩ := C01_batched_ranges_sound
    (simpleField (A.scale info) info.bitsPerValue (padSection file (dataSection offset info))) _
    (fun b v hb => decodeSimple_sound (A.scale info) (A.ref info) info.bitsPerValue notConstant _ _
      (fileRead_sound file (dataSection offset info)) b v hb) _ _ h
  have hr : toRanges js = js.map fun j => ⟨j.b, j.e - j.b⟩ := by
    simp only [toRanges]
    apply List.map_congr_left
    intro j hj
    rw [wsub_eq j.e j.b (wf j hj).1 (wf j hj).2]
  rw [hr] at h1 h2
  rw [h1, List.map_map, List.map_map]
  apply List.map_congr_left
  intro j hj
  exact slice_length _ _ _ (h2 ⟨j.b, j.e - j.b⟩ (List.mem_map.mpr ⟨j, hj, rfl⟩))

/-- Non-vacuity of C07 and C13: a simple-packed field with bitmap `1101 0010 11`, values 10..15, two
intervals. -/
example : extract (V := Option Nat) ⟨none, fun _ => none, fun _ x => some x⟩
    (simpleReadValues ⟨none, fun _ => none, fun _ x => some x⟩ [9, 0xD2, 0xC0, 10, 11, 12, 13, 14, 15] 0
      (.simple { sampleInfo with offsetBeforeBitmap := 1, offsetBeforeData := 3, offsetAfterData := 9 }))
    [9, 0xD2, 0xC0, 10, 11, 12, 13, 14, 15] 0
    { sampleInfo with offsetBeforeBitmap := 1, offsetBeforeData := 3, offsetAfterData := 9 }
    [⟨1, 5⟩, ⟨6, 9⟩] =
    .ok ⟨[[some 11, none, some 12, none], [some 13, none, some 14]], [[5], [5]]⟩ := by decide +kernel

end GJ
