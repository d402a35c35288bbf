import Verif.Props.C46
import Verif.Props.C42

/-!
# C47: extraction straight from a file by offsets
-/

namespace GJ
open Spec

theorem mapM_res_cons {α β : Type} (f : α → Res β) (a : α) (as : List α) :
    (a :: as).mapM f = (do let b ← f a; let bs ← as.mapM f; .ok (b :: bs)) := by
  rw [List.mapM_cons]; rfl

/-- The two loops succeed exactly when every round does. -/
theorem direct_ok_iff {V : Type} (R : Reader V) (file : List UInt8) : ∀ (offsets : List Nat)
    (ranges : List (List Interval)) (rs : List (ExResult V)), offsets.length = ranges.length →
    ((do let infos ← offsets.mapM (buildInfo R file)
         directLoop R file offsets infos ranges) = .ok rs ↔
      rs.length = offsets.length ∧ ∀ (k : Nat) o is, offsets[k]? = some o → ranges[k]? = some is →
        ∃ r, rs[k]? = some r ∧ messageExtract R file o is = .ok r) := by
  intro offsets
  induction offsets with
  | nil =>
    intro ranges rs hl
    rw [List.mapM_nil]
    constructor
    · intro h
      rw [show (pure [] : Res (List Info)) = .ok [] from rfl, ok_bind, directLoop] at h
      cases h
      exact ⟨rfl, fun k o is h => by simp at h⟩
    · intro h
      rw [show (pure [] : Res (List Info)) = .ok [] from rfl, ok_bind, directLoop]
      rw [List.length_eq_zero_iff.mp h.1]
  | cons o os ih =>
    intro ranges rs hl
    cases ranges with
    | nil => cases hl
    | cons is iss =>
      have hl' : os.length = iss.length := by simpa using hl
      rw [mapM_res_cons]
      constructor
      · intro h
        obtain ⟨infos, hi, h⟩ := res_bind_inv h
        obtain ⟨i, hb, hi⟩ := res_bind_inv hi
        obtain ⟨infos', hbs, hi⟩ := res_bind_inv hi
        cases hi
        rw [directLoop] at h
        obtain ⟨r, hr, h⟩ := res_bind_inv h
        obtain ⟨rs', hrs, h⟩ := res_bind_inv h
        cases h
        obtain ⟨h1, h2⟩ := (ih iss rs' hl').mp (by rw [hbs, ok_bind]; exact hrs)
        refine ⟨by simp [h1], ?_⟩
        intro k o' is' ho his
        cases k with
        | zero =>
          simp only [List.getElem?_cons_zero, Option.some.injEq] at ho his ⊢
          subst ho; subst his
          exact ⟨r, rfl, by unfold messageExtract; rw [hb, ok_bind]; exact hr⟩
        | succ k => exact h2 k o' is' (by simpa using ho) (by simpa using his)
      · rintro ⟨h1, h2⟩
        cases rs with
        | nil => cases h1
        | cons r rs =>
          obtain ⟨r', hr', hm⟩ := h2 0 o is rfl rfl
          simp only [List.getElem?_cons_zero, Option.some.injEq] at hr'
          subst hr'
          unfold messageExtract at hm
          obtain ⟨i, hb, hx⟩ := res_bind_inv hm
          have := (ih iss rs hl').mpr ⟨by simpa using h1, fun k o' is' ho his => by
            obtain ⟨r'', e, m⟩ := h2 (k + 1) o' is' (by simpa using ho) (by simpa using his)
            exact ⟨r'', by simpa using e, m⟩⟩
          obtain ⟨infos, hbs, hd⟩ := res_bind_inv this
          rw [hb, ok_bind, hbs, ok_bind, ok_bind, directLoop, hx, ok_bind, hd, ok_bind]

/-- C47.  A call that passes the checks of its arguments succeeds exactly when extraction from every one of the
messages succeeds, and then returns one result per offset, in the order of the offsets: the result at position `k` is
the extraction of the ranges at position `k` from the message at the offset at position `k`.  Offsets may repeat and be
in any order. -/
theorem C47_one_result_per_offset {V : Type} (R : Reader V) (files : String → Option (List UInt8)) (path : String)
    (file : List UInt8) (offsets : List Nat) (ranges : List (List Interval)) (rs : List (ExResult V))
    (named : path ≠ "") (opened : files path = some file) (some_offset : offsets ≠ [])
    (same : offsets.length = ranges.length) :
    apiExtractPath R files path offsets ranges = .ok rs ↔
      rs.length = offsets.length ∧ ∀ (k : Nat) o is, offsets[k]? = some o → ranges[k]? = some is →
        ∃ r, rs[k]? = some r ∧ messageExtract R file o is = .ok r := by
  unfold apiExtractPath
  rw [if_neg named, if_neg some_offset, if_neg (fun h => h same)]
  unfold directExtract
  rw [opened]
  exact direct_ok_iff R file offsets ranges rs same

/-- C47.  Empty paths, empty lists of offsets and lists of different lengths are refused as errors of the user; a file
that cannot be opened is an error.  Nothing is returned in these cases. -/
theorem C47_arguments_checked {V : Type} (R : Reader V) (files : String → Option (List UInt8)) (path : String)
    (offsets : List Nat) (ranges : List (List Interval)) :
    ((path = "" ∨ offsets = [] ∨ offsets.length ≠ ranges.length) →
      apiExtractPath R files path offsets ranges = throwExn .userError) ∧
    (path ≠ "" → offsets ≠ [] → offsets.length = ranges.length → files path = none →
      apiExtractPath R files path offsets ranges = throwExn .ioError) := by
  constructor
  · intro h
    unfold apiExtractPath
    by_cases h1 : path = ""
    · rw [if_pos h1]
    · rw [if_neg h1]
      by_cases h2 : offsets = []
      · rw [if_pos h2]
      · rw [if_neg h2, if_pos (h.resolve_left h1 |>.resolve_left h2)]
  · intro h1 h2 h3 h4
    unfold apiExtractPath directExtract
    rw [if_neg h1, if_neg h2, if_neg (fun h => h h3), h4]

/-- A call that cannot answer for one message returns nothing at all. -/
theorem C47_all_or_nothing {V : Type} (R : Reader V) (files : String → Option (List UInt8)) (path : String)
    (file : List UInt8) (offsets : List Nat) (ranges : List (List Interval))
    (named : path ≠ "") (opened : files path = some file) (same : offsets.length = ranges.length)
    (k : Nat) (o : Nat) (is : List Interval) (ho : offsets[k]? = some o) (his : ranges[k]? = some is) (e : Fault)
    (bad : messageExtract R file o is = .error e) :
    ∃ e', apiExtractPath R files path offsets ranges = .error e' := by
  have hne : offsets ≠ [] := by intro h; subst h; simp at ho
  cases hr : apiExtractPath R files path offsets ranges with
  | error e' => exact ⟨e', rfl⟩
  | ok rs =>
    obtain ⟨r, -, h⟩ := ((C47_one_result_per_offset R files path file offsets ranges rs named opened hne same).mp
      hr).2 k o is ho his
    rw [bad] at h; cases h

/-- The reader with exact arithmetic. -/
def ratReader (dbl : UInt64 → Rat) (parse : List UInt8 → Option Header) (L : AecLib) (be tail : Bool) :
    Reader (Option Rat) :=
  ⟨parse, L, be, tail, ratArith dbl, ratArithCcsds dbl⟩

/-- The metadata of a message, from its header. -/
def headerInfo (h : Header) : JumpInfo := (jumpInfoOf h).toOption.getD
  ⟨0, 0, 0, 0, 0, 0, 0, 0, 0, 0, 0, 0, 0, "", ""⟩

theorem headerInfo_ok {h : Header} (e : h.edition = 1 ∨ h.edition = 2) : jumpInfoOf h = .ok (headerInfo h) := by
  unfold headerInfo jumpInfoOf
  rw [if_neg (by omega)]
  rfl

theorem headerInfo_more {h : Header} (e : h.edition = 1 ∨ h.edition = 2) :
    (headerInfo h).sphericalHarmonics = h.sphericalHarmonics.getD 0 ∧
    (headerInfo h).decimalScaleFactor = h.decimalScaleFactor ∧
    (headerInfo h).binaryScaleFactor = h.binaryScaleFactor ∧ (headerInfo h).referenceValue = h.referenceValue := by
  unfold headerInfo jumpInfoOf
  rw [if_neg (by omega)]
  exact ⟨rfl, rfl, rfl, rfl⟩

/-- The metadata describe the message the header describes. -/
theorem messageAt_header (dbl : UInt64 → Rat) (file : List UInt8) (offset : Nat) {h : Header}
    (e : h.edition = 1 ∨ h.edition = 2) (place : h.bitmapPresent = true → 0 < bitmapStart h) :
    messageAt dbl file offset (headerInfo h) = headerMessage dbl file offset h := by
  obtain ⟨-, h1, h2, h3, h4, h5, h6, h7⟩ := jumpInfoOf_inv (headerInfo_ok e)
  obtain ⟨h8, h9, h10, h11⟩ := headerInfo_more e
  unfold messageAt headerMessage
  rw [h1, h2, h3, h5, h9, h10, h11, h7]
  by_cases hp : h.bitmapPresent = true
  · have := place hp
    simp only [if_pos hp, if_neg (show ¬ bitmapStart h = 0 by omega)]
  · simp only [if_neg hp, if_true]

/-- C47.  From the header of a simple-packed message to values: extraction from the file by offset returns the slices
of the field the message defines, with the masks.  Missing from the full property: as for C40. -/
theorem C47_simple_values_partial (dbl : UInt64 → Rat) (parse : List UInt8 → Option Header) (L : AecLib)
    (be tail : Bool) (file : List UInt8) (offset : Nat) (h : Header)
    (header : parse (file.drop offset) = some h) (edition : h.edition = 1 ∨ h.edition = 2)
    (packing : h.packingType = "grid_simple") (gridded : h.sphericalHarmonics.getD 0 = 0)
    (width : h.bitsPerValue ≤ 58 ∨ h.bitsPerValue = 60 ∨ h.bitsPerValue = 64)
    (constant : h.bitsPerValue = 0 → h.bitmapPresent = false ∧ h.decimalScaleFactor = 0)
    (points : h.numberOfDataPoints ≤ 2 ^ 60) (order : h.offsetBeforeData ≤ h.offsetAfterData)
    (dataAvailable : offset + h.offsetAfterData ≤ file.length)
    (bitmapAvailable : h.bitmapPresent = true →
      0 < bitmapStart h ∧ offset + bitmapStart h + (h.numberOfDataPoints + 7) / 8 ≤ file.length)
    (dataComplete : countTrue (headerMessage dbl file offset h).present * h.bitsPerValue ≤
      8 * (h.offsetAfterData - h.offsetBeforeData))
    (is : List Interval) (nonempty : is ≠ []) (sorted : is.Pairwise (fun a b => a.e ≤ b.b))
    (inside : ∀ i ∈ is, i.b ≤ i.e ∧ i.e ≤ h.numberOfDataPoints) :
    messageExtract (ratReader dbl parse L be tail) file offset is =
      .ok ⟨is.map fun i => slice (headerMessage dbl file offset h).field i.b (i.e - i.b),
           is.map fun i => toBitset (slice (headerMessage dbl file offset h).present i.b (i.e - i.b))⟩ := by
  have hj := headerInfo_ok edition
  obtain ⟨-, h1, h2, h3, h4, h5, h6, h7⟩ := jumpInfoOf_inv hj
  obtain ⟨h8, h9, h10, h11⟩ := headerInfo_more edition
  rw [← messageAt_header dbl file offset edition (fun hp => (bitmapAvailable hp).1)] at *
  have hb : buildInfo (ratReader dbl parse L be tail) file offset = .ok (.simple (headerInfo h)) := by
    unfold buildInfo
    rw [show (ratReader dbl parse L be tail).parse = parse from rfl, header]
    simp only [infoOf]
    rw [hj, ok_bind, if_pos packing]
  unfold messageExtract
  rw [hb, ok_bind]
  unfold jumperExtract
  rw [if_pos (show (Info.simple (headerInfo h)).base.packingType = "grid_simple" from h6.trans packing)]
  refine C40_end_to_end_partial dbl file offset (headerInfo h) (h8.trans gridded) (by rw [h5]; exact width) ?_
    (by rw [h3]; exact points) (by rw [h1, h2]; exact order) (by rw [h2]; exact dataAvailable) ?_
    (by rw [h5, h1, h2]; exact dataComplete) is nonempty sorted (by rw [h3]; exact inside)
  · intro h0
    rw [h5] at h0
    obtain ⟨c1, c2⟩ := constant h0
    rw [h7, c1, h9, c2]
    exact ⟨rfl, rfl⟩
  · intro hn
    rw [h7] at hn ⊢
    by_cases hp : h.bitmapPresent = true
    · rw [if_pos hp, h3]; exact (bitmapAvailable hp).2
    · rw [if_neg hp] at hn; exact absurd rfl hn

/-- C47.  From the header of a CCSDS-packed message to values, with the block offsets found by reading the message
itself.  Missing from the full property: as for C42. -/
theorem C47_ccsds_values_partial (L : AecLib) (C : AecContract L) (be tail : Bool) (dbl : UInt64 → Rat)
    (parse : List UInt8 → Option Header) (file : List UInt8) (offset : Nat) (h : Header)
    (header : parse (file.drop offset) = some h) (edition : h.edition = 1 ∨ h.edition = 2)
    (packing : h.packingType = "grid_ccsds") (gridded : h.sphericalHarmonics.getD 0 = 0)
    (notConstant : h.bitsPerValue ≠ 0) (unscaled : h.decimalScaleFactor = 0)
    (points : h.numberOfDataPoints ≤ 2 ^ 60) (order : h.offsetBeforeData < h.offsetAfterData)
    (dataAvailable : offset + h.offsetAfterData ≤ file.length)
    (bitmapAvailable : h.bitmapPresent = true →
      0 < bitmapStart h ∧ offset + bitmapStart h + (h.numberOfDataPoints + 7) / 8 ≤ file.length)
    (counts : h.numberOfValues = countTrue (headerMessage dbl file offset h).present)
    (flags blockSize rsi : Nat) (hf : h.ccsdsFlags = some flags) (hbs : h.ccsdsBlockSize = some blockSize)
    (hrsi : h.ccsdsRsi = some rsi) (samples : List Nat)
    (whole : decodeCcsdsAll L be ⟨flags, h.bitsPerValue, blockSize, rsi⟩ id h.numberOfValues
      (headerMessage dbl file offset h).data = .ok samples)
    (edge : tail = true ∨ h.numberOfValues % (rsi * blockSize) ≠ 0)
    (is : List Interval) (nonempty : is ≠ []) (sorted : is.Pairwise (fun a b => a.e ≤ b.b))
    (inside : ∀ i ∈ is, i.b ≤ i.e ∧ i.e ≤ h.numberOfDataPoints) :
    messageExtract (ratReader dbl parse L be tail) file offset is =
      .ok ⟨is.map fun i => slice (spread none (headerMessage dbl file offset h).present
              (samples.map fun k => some (gribValue (dbl h.referenceValue) h.binaryScaleFactor
                h.decimalScaleFactor k))) i.b (i.e - i.b),
           is.map fun i => toBitset (slice (headerMessage dbl file offset h).present i.b (i.e - i.b))⟩ := by
  have hj := headerInfo_ok edition
  obtain ⟨-, h1, h2, h3, h4, h5, h6, h7⟩ := jumpInfoOf_inv hj
  obtain ⟨h8, h9, h10, h11⟩ := headerInfo_more edition
  rw [← messageAt_header dbl file offset edition (fun hp => (bitmapAvailable hp).1)] at *
  have hdata : (messageAt dbl file offset (headerInfo h)).data =
      (file.drop (offset + (headerInfo h).offsetBeforeData)).take
        ((headerInfo h).offsetAfterData - (headerInfo h).offsetBeforeData) := rfl
  -- the whole decodes, so the offsets are found
  have hoff : ∃ offs, ccsdsInfoOffsets L be tail file offset (headerInfo h) flags blockSize rsi = .ok offs := by
    unfold ccsdsInfoOffsets
    rw [if_neg (by rw [h5, h1, h2]; omega), cassert_of (decide_eq_true (by rw [h1, h2]; exact order)), ok_bind,
      ← hdata, h5, h4]
    obtain ⟨hval, ys, e, hx, -⟩ := decodeCcsdsAll_inv whole
    unfold ccsdsDecodeOffsets
    simp only
    rw [if_pos hval.1, hval.2, ok_bind, hx]
    exact ⟨_, rfl⟩
  obtain ⟨offs, hoff⟩ := hoff
  have hb : buildInfo (ratReader dbl parse L be tail) file offset =
      .ok (.ccsds (headerInfo h) ⟨flags, blockSize, rsi, offs⟩) := by
    unfold buildInfo
    rw [show (ratReader dbl parse L be tail).parse = parse from rfl, header]
    simp only [infoOf]
    rw [hj, ok_bind, if_neg (by rw [packing]; decide), if_pos packing, hf, hbs, hrsi]
    simp only [Option.getD_some]
    rw [show (ratReader dbl parse L be tail).lib = L from rfl,
      show (ratReader dbl parse L be tail).bigEndian = be from rfl,
      show (ratReader dbl parse L be tail).tail = tail from rfl, hoff, ok_bind]
  unfold messageExtract
  rw [hb, ok_bind]
  unfold jumperExtract
  rw [if_neg (show ¬ (Info.ccsds (headerInfo h) ⟨flags, blockSize, rsi, offs⟩).base.packingType = "grid_simple" from
      fun e => absurd ((h6.trans packing).symm.trans e) (by decide)),
    if_pos (show (Info.ccsds (headerInfo h) ⟨flags, blockSize, rsi, offs⟩).base.packingType = "grid_ccsds" from
      h6.trans packing)]
  have := C42_ccsds_end_to_end_partial L C be tail dbl file offset (headerInfo h) ⟨flags, blockSize, rsi, offs⟩
    (h8.trans gridded) (by rw [h5]; exact notConstant) (h9.trans unscaled) (by rw [h3]; exact points)
    (by rw [h1, h2]; exact order) (by rw [h2]; exact dataAvailable)
    (by
      intro hn
      rw [h7] at hn ⊢
      by_cases hp : h.bitmapPresent = true
      · rw [if_pos hp, h3]; exact (bitmapAvailable hp).2
      · rw [if_neg hp] at hn; exact absurd rfl hn)
    (by rw [h4]; exact counts) samples (by rw [h4]; unfold ccsdsParams; rw [h5]; exact whole) hoff
    (by rw [h4]; exact edge) is nonempty sorted (by rw [h3]; exact inside)
  rw [h9, h10, h11] at this
  exact this

/-! ## Examples -/

/-- Two messages in a file, asked for in the opposite order and one of them twice. -/
example : apiExtractPath toyReader (fun p => if p = "f" then some ([1] ++ toyMessage ++ [0x47, 2, 7, 8]) else none)
    "f" [7, 1, 7] [[⟨0, 1⟩], [⟨1, 4⟩], [⟨0, 1⟩, ⟨1, 2⟩]] =
      .ok [⟨[[7]], [[1]]⟩, ⟨[[11, 12, 13]], [[7]]⟩, ⟨[[7], [8]], [[1], [1]]⟩] := by
  decide +kernel

/-- A range list that is not ordered makes the whole call fail. -/
example : apiExtractPath toyReader (fun _ => some (toyMessage ++ [0x47, 2, 7, 8])) "f" [0, 6] [[⟨1, 2⟩, ⟨0, 1⟩], [⟨0, 1⟩]] =
    throwExn .assertFailed := by
  decide +kernel

/-- Non-vacuity of the value theorems: the toy message as a simple-packed message of four values. -/
example : messageExtract (ratReader (fun _ => 5) toyParse (fun _ _ _ _ => none) false false)
    ([1] ++ toyMessage) 1 [⟨1, 3⟩] = .ok ⟨[[some 16, some 17]], [[3]]⟩ ∧
    countTrue (headerMessage (fun _ => 5) ([1] ++ toyMessage) 1
      ((toyParse toyMessage).get (by decide))).present = 4 := by
  decide +kernel

/-- The header of the CCSDS-packed message of the C42 example. -/
def c47Header : Header :=
  { edition := 1, packingType := "grid_ccsds", binaryScaleFactor := 0, decimalScaleFactor := 0, bitsPerValue := 8,
    referenceValue := 0, offsetBeforeData := 3, offsetAfterData := 5, numberOfDataPoints := 10, numberOfValues := 4,
    sphericalHarmonics := none, totalLength := 5, md5GridSection := "g", bitmapPresent := true,
    offsetBeforeBitmap := 1, offsetBSection6 := 0, ccsdsFlags := some 0, ccsdsBlockSize := some 1, ccsdsRsi := some 2 }

/-- Non-vacuity for CCSDS packing: bitmap `1101001000`, four values, found from the header alone. -/
example : c47Header.numberOfValues =
      countTrue (headerMessage (fun _ => 5) [9, 0xD2, 0x00, 0x31, 0x40] 0 c47Header).present ∧
    decodeCcsdsAll unaryLib false ⟨0, 8, 1, 2⟩ id 4
      (headerMessage (fun _ => 5) [9, 0xD2, 0x00, 0x31, 0x40] 0 c47Header).data = .ok [2, 0, 3, 1] ∧
    messageExtract (ratReader (fun _ => 5) (fun _ => some c47Header) unaryLib false true)
      [9, 0xD2, 0x00, 0x31, 0x40] 0 [⟨1, 4⟩, ⟨5, 7⟩] =
      .ok ⟨[[some 5, none, some 8], [none, some 6]], [[5], [2]]⟩ := by
  decide +kernel

end GJ
