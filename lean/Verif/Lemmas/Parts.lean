import Verif.Props.C47
import Verif.Props.C13

/-!
# Parts of a field that is extracted as a whole
-/

namespace GJ
open Spec

/-- Decoding the first `N` positions, at most `lim`, makes all ranges inside them decode, to slices. -/
def DecodesParts {V : Type} (lim : Nat) (dec : Block → Res (List V)) : Prop :=
  ∀ N st, N ≤ lim → dec ⟨0, N⟩ = .ok st →
    st.length = N ∧ ∀ b : Block, b.off + b.size ≤ N → dec b = .ok (slice st b.off b.size)

theorem bucketsOf_one (r : Block) : bucketsOf [r] = [⟨r, [r]⟩] := by
  rw [bucketsOf, List.foldl_cons, List.foldl_nil, insertBlock]
  simp [mergePrev, mergeNext, lowerBound]

theorem decodeRanges_one {V : Type} {dec : Block → Res (List V)} {r : Block} {out : List (List V)}
    (h : decodeRanges dec [r] = .ok out) : ∃ st, dec r = .ok st := by
  rw [decodeRanges, bucketsOf_one, decodeBuckets] at h
  obtain ⟨m, h1, -⟩ := res_bind_inv h
  obtain ⟨st, h2, -⟩ := res_bind_inv h1
  exact ⟨st, h2⟩

theorem toRanges_eq {js : List Interval} (h : ∀ j ∈ js, j.b ≤ j.e ∧ j.e < 2 ^ 64) :
    toRanges js = js.map fun j => ⟨j.b, j.e - j.b⟩ := by
  simp only [toRanges]
  apply List.map_congr_left
  intro j hj
  rw [wsub_eq j.e j.b (h j hj).1 (h j hj).2]

theorem slice_whole {α : Type} (l : List α) : slice l 0 l.length = l := by
  simp [slice]

/-- Reading the first `N` values, at most `lim`, makes all intervals inside them readable, to slices. -/
def ReadsParts {V : Type} (lim : Nat) (rv : ReadValues V) : Prop :=
  ∀ N out, N < 2 ^ 64 → N ≤ lim → rv [⟨0, N⟩] = .ok out → ∃ st, out = [st] ∧ st.length = N ∧
    ∀ js : List Interval, (∀ j ∈ js, j.b ≤ j.e ∧ j.e ≤ N) → rv js = .ok (js.map fun j => slice st j.b (j.e - j.b))

theorem decodes_reads {V : Type} {dec : Block → Res (List V)} {lim : Nat} (h : DecodesParts lim dec) :
    ReadsParts lim fun is => decodeRanges dec (toRanges is) := by
  intro N out hN hlim hr
  have h1 : toRanges [⟨0, N⟩] = [⟨0, N⟩] := by
    rw [toRanges_eq (by simpa using hN)]; rfl
  simp only at hr ⊢
  have hr' := hr
  rw [h1] at hr'
  obtain ⟨st, h2⟩ := decodeRanges_one hr'
  obtain ⟨h3, h4⟩ := h N st hlim h2
  have all : ∀ js : List Interval, (∀ j ∈ js, j.b ≤ j.e ∧ j.e ≤ N) →
      decodeRanges dec (toRanges js) = .ok (js.map fun j => slice st j.b (j.e - j.b)) := by
    intro js hjs
    rw [toRanges_eq fun j hj => ⟨(hjs j hj).1, by have := (hjs j hj).2; omega⟩, C01_batched_ranges st]
    · rw [List.map_map]; rfl
    · intro b hb
      exact h4 b (by omega)
    · intro r hrm
      obtain ⟨j, hj, rfl⟩ := List.mem_map.mp hrm
      have := hjs j hj
      rw [h3]
      simp only
      omega
  refine ⟨st, ?_, h3, all⟩
  have h5 := all [⟨0, N⟩] (by simp)
  rw [h5] at hr
  have e := (Except.ok.inj hr).symm
  rw [e]
  simp only [List.map_cons, List.map_nil, Nat.sub_zero]
  rw [← h3, slice_whole]

/-! ## Simple packing -/

theorem simple_parts {V : Type} (scale : Nat → V) (ref : V) (bpv : Nat) (file : List UInt8) (sec : Block)
    (lim : Nat) : DecodesParts lim (decodeSimple scale ref bpv (fileRead file sec)) := by
  intro N st _ h
  have h' := h
  simp only [decodeSimple] at h'
  obtain ⟨enc, hr, -⟩ := res_bind_inv h'
  simp only [Nat.zero_mul, Nat.zero_div, Nat.zero_add, Nat.sub_zero] at hr
  -- the bytes of the first `N` values are there
  have hin : (N * bpv + 7) / 8 ≤ sec.size ∧
      (slice file sec.off ((N * bpv + 7) / 8)).length = (N * bpv + 7) / 8 := by
    simp only [fileRead, Nat.zero_add, Nat.add_zero] at hr
    split at hr
    · cases hr
    · split at hr
      · rename_i a b
        exact ⟨by omega, b⟩
      · cases hr
  have hread : ∀ b : Block, b.off + b.size ≤ (slice file sec.off ((N * bpv + 7) / 8)).length →
      fileRead file sec b = .ok (slice (slice file sec.off ((N * bpv + 7) / 8)) b.off b.size) := by
    intro b hb
    rw [hin.2] at hb
    have hlen := hin.2
    rw [slice_length_le] at hlen
    rw [slice_slice _ _ _ _ _ hb]
    simp only [fileRead]
    rw [if_neg (by omega)]
    by_cases hz : b.size = 0
    · simp [hz, slice]
    · rw [if_pos]
      · rfl
      · exact slice_length _ _ _ (by omega)
  have key := fun o n (hon : o + n ≤ N) => C03_partial_decode_is_slice scale ref bpv
    (slice file sec.off ((N * bpv + 7) / 8)) (fileRead file sec) hread N o n (by rw [hin.2]; omega) hon
  have hst : st.length = N := by
    have hs : unpackSimple scale ref bpv N enc 0 = .ok st := by
      rw [decodeSimple] at h
      simp only [Nat.zero_mul, Nat.zero_div, Nat.zero_mod, Nat.zero_add, Nat.sub_zero] at h
      rw [hr, ok_bind] at h
      exact h
    rw [unpackSimple] at hs
    split at hs
    · cases hs
    · split at hs
      · rename_i hn
        cases hs
        exact hn.symm
      · split at hs
        · cases hs; simp
        · rename_i h64 hn hz
          have hd := decodeSimple_sound scale ref bpv (by omega) _ _ (fileRead_sound file sec) ⟨0, N⟩ st h
          rw [hd.2, slice_length _ _ _ hd.1]
  refine ⟨hst, fun b hb => ?_⟩
  have := key b.off b.size hb
  rw [h] at this
  exact this

/-! ## CCSDS packing -/

theorem ccsds_parts {V : Type} {L : AecLib} (C : AecContract L) (be tail : Bool) (P : AecParams) (scale : Nat → V)
    (nv : Nat) (file : List UInt8) (sec : Block) (there : sec.off + sec.size ≤ file.length) (offsets : List Nat)
    (index : ccsdsDecodeOffsets L be tail P nv (slice file sec.off sec.size) = .ok offsets) :
    DecodesParts nv (decodeCcsds L be P offsets scale (fileRead file sec) sec.size) := by
  intro N st few h
  have hsl : (slice file sec.off sec.size).length = sec.size := slice_length _ _ _ there
  have hread : ∀ b : Block, b.off + b.size ≤ (slice file sec.off sec.size).length →
      fileRead file sec b = .ok (slice (slice file sec.off sec.size) b.off b.size) := by
    intro b hb
    rw [hsl] at hb
    exact fileRead_ok file sec there b hb
  -- the offsets were found, so all values decode
  obtain ⟨field, whole⟩ : ∃ field, decodeCcsdsAll L be P scale nv (slice file sec.off sec.size) = .ok field := by
    have index' := index
    unfold ccsdsDecodeOffsets at index'
    unfold decodeCcsdsAll
    simp only at index' ⊢
    split at index'
    · rename_i hs
      rw [if_pos hs]
      obtain ⟨⟨⟩, h1, h2⟩ := res_bind_inv index'
      rw [h1, ok_bind]
      split at h2
      · cases h2
      · rename_i p hp
        rw [hp]
        exact ⟨_, rfl⟩
    · cases index'
  have hfl : field.length = nv := by
    obtain ⟨-, ys, e, hx, rfl⟩ := decodeCcsdsAll_inv whole
    rw [List.length_map]
    exact (aecSeq_size C _ hx).1
  have hst : st = slice field 0 N := by
    have := C06_never_a_wrong_slice L C be tail P scale nv _ field offsets whole index (fileRead file sec) hread 0 N
      (by omega) st (by rw [hsl]; exact h)
    exact this
  have hlen : st.length = N := by rw [hst, slice_length _ _ _ (by omega)]
  refine ⟨hlen, fun b hb => ?_⟩
  by_cases hz : b.size = 0
  · rw [decodeCcsds, if_pos hz, hz]; simp [slice]
  have edge : tail = true ∨ b.off + b.size < nv ∨ nv % (P.rsi * P.blockSize) ≠ 0 := by
    refine Classical.byContradiction fun hc => ?_
    have ht : tail = false := by cases tail <;> simp_all
    have hf : nv % (P.rsi * P.blockSize) = 0 := Classical.byContradiction fun h => hc (Or.inr (Or.inr h))
    have hb2 : ¬ b.off + b.size < nv := fun h => hc (Or.inr (Or.inl h))
    have hN : N = nv := by omega
    subst ht
    rw [C06_last_block_rejected L C be P scale nv _ field offsets whole index (fileRead file sec) sec.size 0 N
      (by omega) (by omega) hf] at h
    cases h
  have := C06_ccsds_range_is_slice_partial L C be tail P scale nv _ field offsets whole index (fileRead file sec) hread
    b.off b.size (by omega) edge
  rw [hsl] at this
  rw [show b = ⟨b.off, b.size⟩ from rfl, this, hst, slice_slice _ _ _ _ _ hb, Nat.zero_add]

/-! ## Extraction -/

/-- Intervals that can be asked for of the first `n` points. -/
structure AskedOf (n : Nat) (is : List Interval) : Prop where
  some : is ≠ []
  ordered : is.Pairwise fun a b => a.e ≤ b.b
  inside : ∀ i ∈ is, i.b ≤ i.e ∧ i.e ≤ n

theorem askedOf_one {n : Nat} : AskedOf n [⟨0, n⟩] := ⟨by simp, by simp, by simp⟩

/-- The field and the presence of its points answer every extraction inside the first `n` points. -/
structure PartAnswers {V : Type} (ex : List Interval → Res (ExResult V)) (n : Nat) (field : List V) (present : List Bool) :
    Prop where
  values : field.length = n
  flags : present.length = n
  parts : ∀ is, AskedOf n is → ex is =
    .ok ⟨is.map fun i => slice field i.b (i.e - i.b), is.map fun i => toBitset (slice present i.b (i.e - i.b))⟩

theorem slice_take {α : Type} (l : List α) (n b e : Nat) (h : e ≤ n) :
    slice (l.take n) b (e - b) = slice l b (e - b) := by
  simp only [slice, List.drop_take, List.take_take]
  congr 1
  omega

theorem slices_replicate {α : Type} {n : Nat} {is : List Interval} (h : ∀ i ∈ is, i.b ≤ i.e ∧ i.e ≤ n) (x : α) :
    (is.map fun i => slice (List.replicate n x) i.b (i.e - i.b)) = is.map fun i => List.replicate (i.e - i.b) x := by
  apply List.map_congr_left
  intro i hi
  rw [slice_replicate _ _ _ _ (by have := h i hi; omega)]

theorem slices_replicate' {n : Nat} {is : List Interval} (h : ∀ i ∈ is, i.b ≤ i.e ∧ i.e ≤ n) :
    (is.map fun i => toBitset (slice (List.replicate n true) i.b (i.e - i.b))) =
      is.map fun i => toBitset (List.replicate (i.e - i.b) true) := by
  apply List.map_congr_left
  intro i hi
  rw [slice_replicate _ _ _ _ (by have := h i hi; omega)]

theorem readBitmap_masked {V : Type} {A : Arith V} {rv : ReadValues V} {file : List UInt8} {offset : Nat}
    {info : JumpInfo} {n : Nat} {r : ExResult V} (h : extractMasked A rv file offset info [⟨0, n⟩] = .ok r) :
    ∃ bm out, readBitmap file offset info = .ok bm ∧ n ≤ bm.length ∧ rv [⟨0, (bm.take n).count true⟩] = .ok out := by
  rw [extractMasked] at h
  obtain ⟨bm, h1, h⟩ := res_bind_inv h
  obtain ⟨p, h2, h⟩ := res_bind_inv h
  have hn : n ≤ bm.length := by
    rw [calculateMaskedIntervals, if_neg (by simp)] at h2
    obtain ⟨xs, h3, -⟩ := res_bind_inv h2
    rw [List.mapM_cons] at h3
    obtain ⟨x, h4, -⟩ := res_bind_inv h3
    rw [mkExt] at h4
    split at h4
    · rename_i hc; exact hc.2
    · cases h4
  rw [maskedIntervals_spec bm _ (by simp) (ordered_chain _ _ rfl (by simpa using hn))] at h2
  cases h2
  obtain ⟨out, h3, -⟩ := res_bind_inv h
  exact ⟨bm, out, h1, hn, by simpa using h3⟩

theorem extract_parts {V : Type} {A : Arith V} {rv : ReadValues V} {file : List UInt8} {offset : Nat} {info : JumpInfo}
    {lim n : Nat} (reads : ReadsParts lim rv) (small : n < 2 ^ 64)
    (few : info.bitsPerValue ≠ 0 → info.offsetBeforeBitmap = 0 → n ≤ lim)
    (fewPresent : ∀ bm, info.bitsPerValue ≠ 0 → info.offsetBeforeBitmap ≠ 0 → readBitmap file offset info = .ok bm →
      (bm.take n).count true ≤ lim)
    {r : ExResult V} (h : extract A rv file offset info [⟨0, n⟩] = .ok r) :
    ∃ field present, PartAnswers (extract A rv file offset info) n field present := by
  have hsh : info.sphericalHarmonics = 0 := by
    rw [extract] at h
    obtain ⟨b, -, h⟩ := res_bind_inv h
    obtain ⟨⟨⟩, -, h⟩ := res_bind_inv h
    obtain ⟨⟨⟩, h1, -⟩ := res_bind_inv h
    rw [cassert] at h1
    split at h1
    · rename_i hc; exact of_decide_eq_true hc
    · cases h1
  rw [extract_checked A rv file offset info _ (by simp) (by simp) hsh] at h
  by_cases hz : info.bitsPerValue = 0
  · rw [if_pos hz, extractConstant] at h
    obtain ⟨vs, h1, -⟩ := res_bind_inv h
    rw [List.mapM_cons] at h1
    obtain ⟨v, h2, -⟩ := res_bind_inv h1
    have hn : n ≤ 2 ^ 60 := by
      rw [wsub_eq _ _ (Nat.zero_le _) small, mkVector] at h2
      split at h2
      · cases h2
      · omega
    refine ⟨List.replicate n (A.ref info), List.replicate n true, by simp, by simp, fun is his => ?_⟩
    rw [C12_constant_field_partial A rv file offset info hz hsh is his.some his.ordered
      fun i hi => ⟨(his.inside i hi).1, by have := (his.inside i hi).2; omega⟩,
      slices_replicate his.inside (A.ref info), slices_replicate' his.inside]
  rw [if_neg hz] at h
  by_cases hbm : info.offsetBeforeBitmap = 0
  · rw [if_pos hbm, extractNoMask] at h
    obtain ⟨out, h1, h⟩ := res_bind_inv h
    obtain ⟨mask, h2, -⟩ := res_bind_inv h
    have hn : n ≤ 2 ^ 60 := by
      rw [List.mapM_cons] at h2
      obtain ⟨m, h3, -⟩ := res_bind_inv h2
      obtain ⟨b, h4, -⟩ := res_bind_inv h3
      rw [wsub_eq _ _ (Nat.zero_le _) small, mkVector] at h4
      split at h4
      · cases h4
      · omega
    obtain ⟨st, -, hlen, hall⟩ := reads n out small (few hz hbm) h1
    refine ⟨st, List.replicate n true, hlen, by simp, fun is his => ?_⟩
    rw [extract_checked A rv file offset info is his.some his.ordered hsh, if_neg hz, if_pos hbm, extractNoMask,
      hall is his.inside, ok_bind, mapM_ok _ (fun i : Interval => toBitset (List.replicate (i.e - i.b) true)) is, ok_bind,
      slices_replicate' his.inside]
    · intro i hi
      have := his.inside i hi
      rw [wsub_eq i.e i.b this.1 (by omega), mkVector, if_neg (by omega), ok_bind]
  · rw [if_neg hbm] at h
    obtain ⟨bm, out, hr, hn, h1⟩ := readBitmap_masked h
    have hc : (bm.take n).count true < 2 ^ 64 := by
      have := List.count_le_length (a := true) (l := bm.take n)
      rw [List.length_take] at this
      omega
    obtain ⟨st, -, hlen, hall⟩ := reads _ out hc (fewPresent bm hz hbm hr) h1
    have htn : (bm.take n).length = n := by rw [List.length_take]; omega
    have hcnt : ∀ b e, b ≤ e → e ≤ n → (bm.take b).count true ≤ (bm.take e).count true ∧
        (bm.take e).count true ≤ st.length ∧
        (bm.take e).count true - (bm.take b).count true = (slice bm b (e - b)).count true := by
      intro b e h1 h2
      have a1 := count_take_add bm true b e h1
      have a2 := count_take_add bm true e n h2
      simp only [slice]
      omega
    have hsp : (spread A.nan (bm.take n) st).length = n := by
      have h2 := spread_length A.nan (bm.take n) st (by rw [hlen]; exact Nat.le_refl _)
      rw [h2, htn]
    refine ⟨spread A.nan (bm.take n) st, bm.take n, hsp, htn, fun is his => ?_⟩
    rw [extract_checked A rv file offset info is his.some his.ordered hsh, if_neg hz, if_neg hbm, extractMasked, hr,
      ok_bind, maskedIntervals_spec bm is his.some (ordered_chain _ _ (pairwise_ordered his.ordered)
        fun i hi => ⟨(his.inside i hi).1, by have := (his.inside i hi).2; omega⟩), ok_bind]
    simp only
    rw [hall]
    · rw [ok_bind, placeAll_ok]
      · rw [ok_bind]
        congr 2
        · rw [List.map_map, List.zip_map', List.map_map]
          apply List.map_congr_left
          intro i hi
          have a := his.inside i hi
          simp only [Function.comp]
          rw [(hcnt i.b i.e a.1 a.2).2.2]
          have b1 := spread_slice A.nan (bm.take n) st i.b (i.e - i.b) (by rw [hlen]; exact Nat.le_refl _)
          rw [slice_take bm n i.b i.e a.2, List.take_take, Nat.min_eq_left (by omega)] at b1
          exact b1
        · rw [List.map_map]
          apply List.map_congr_left
          intro i hi
          rw [slice_take bm n i.b i.e (his.inside i hi).2]
          rfl
      · simp
      · intro p hp
        rw [List.map_map, List.zip_map'] at hp
        obtain ⟨i, hi, rfl⟩ := List.mem_map.mp hp
        have a := his.inside i hi
        simp only [Function.comp]
        have b1 := hcnt i.b i.e a.1 a.2
        rw [b1.2.2, slice_length]
        · exact Nat.le_refl _
        · omega
    · intro j hj
      obtain ⟨i, hi, rfl⟩ := List.mem_map.mp hj
      have a := his.inside i hi
      have b1 := hcnt i.b i.e a.1 a.2
      have b2 := hcnt i.e n a.2 (Nat.le_refl _)
      exact ⟨b1.1, b2.1⟩

/-! ## Messages -/

theorem simple_message_parts {V : Type} {R : Reader V} {file : List UInt8} {offset : Nat} {h : Header}
    (header : R.parse (file.drop offset) = some h) (packing : h.packingType = "grid_simple") {n : Nat}
    (small : n < 2 ^ 64) {r : ExResult V} (whole : messageExtract R file offset [⟨0, n⟩] = .ok r) :
    ∃ field present, PartAnswers (messageExtract R file offset) n field present := by
  rw [messageExtract] at whole
  obtain ⟨info, hb, hx⟩ := res_bind_inv whole
  have hi := hb
  rw [buildInfo, header] at hi
  obtain ⟨base, hj, hi⟩ := res_bind_inv (show (jumpInfoOf h >>= fun base => _) = _ from hi)
  rw [if_pos packing] at hi
  cases hi
  have hp : base.packingType = "grid_simple" := (jumpInfoOf_inv hj).2.2.2.2.2.2.1.trans packing
  have hje : ∀ is, jumperExtract R file offset (.simple base) is =
      extract R.simple (simpleReadValues R.simple file offset (.simple base)) file offset base is := fun is => by
    rw [jumperExtract, if_pos (show (Info.simple base).base.packingType = "grid_simple" from hp)]
    rfl
  rw [hje] at hx
  have reads : ReadsParts (2 ^ 64) (simpleReadValues R.simple file offset (.simple base)) :=
    decodes_reads (simple_parts (R.simple.scale base) (R.simple.ref base) base.bitsPerValue file (dataSection offset base) _)
  obtain ⟨field, present, hA⟩ := extract_parts reads small (fun _ _ => by omega)
    (fun bm _ _ _ => by
      have := List.count_le_length (a := true) (l := bm.take n)
      rw [List.length_take] at this
      omega) hx
  refine ⟨field, present, hA.values, hA.flags, fun is his => ?_⟩
  rw [messageExtract, hb, ok_bind, hje, hA.parts is his]

theorem ccsds_message_parts {V : Type} {R : Reader V} (contract : AecContract R.lib) {file : List UInt8} {offset : Nat}
    {h : Header} (header : R.parse (file.drop offset) = some h) (packing : h.packingType = "grid_ccsds")
    (complete : offset + h.offsetAfterData ≤ file.length) (place : h.bitmapPresent = true → 0 < bitmapStart h)
    (counts : countTrue (headerMessage (fun _ => 0) file offset h).present ≤ h.numberOfValues) {n : Nat}
    (small : n < 2 ^ 64) (points : n ≤ h.numberOfDataPoints) {r : ExResult V}
    (whole : messageExtract R file offset [⟨0, n⟩] = .ok r) :
    ∃ field present, PartAnswers (messageExtract R file offset) n field present := by
  rw [messageExtract] at whole
  obtain ⟨info, hb, hx⟩ := res_bind_inv whole
  have hi := hb
  rw [buildInfo, header] at hi
  obtain ⟨base, hj, hi⟩ := res_bind_inv (show (jumpInfoOf h >>= fun base => _) = _ from hi)
  rw [if_neg (by rw [packing]; decide), if_pos packing] at hi
  obtain ⟨offs, ho, hi⟩ := res_bind_inv hi
  cases hi
  obtain ⟨he, h1, h2, h3, h4, h5, h6, h7⟩ := jumpInfoOf_inv hj
  have hbase : headerInfo h = base := by
    have := headerInfo_ok he
    rw [hj] at this
    exact (Except.ok.inj this).symm
  rw [← messageAt_header _ file offset he place, hbase] at counts
  have hje : ∀ is, jumperExtract R file offset
      (.ccsds base ⟨h.ccsdsFlags.getD 0, h.ccsdsBlockSize.getD 0, h.ccsdsRsi.getD 0, offs⟩) is =
      extract R.ccsds (ccsdsReadValues R.lib R.bigEndian R.ccsds file offset
        (.ccsds base ⟨h.ccsdsFlags.getD 0, h.ccsdsBlockSize.getD 0, h.ccsdsRsi.getD 0, offs⟩)) file offset base is :=
      fun is => by
    rw [jumperExtract, if_neg, if_pos]
    · rfl
    · exact h6.trans packing
    · intro e
      exact absurd ((h6.trans packing).symm.trans e) (by decide)
  rw [hje] at hx
  have reads : ReadsParts base.numberOfValues (ccsdsReadValues R.lib R.bigEndian R.ccsds file offset
      (.ccsds base ⟨h.ccsdsFlags.getD 0, h.ccsdsBlockSize.getD 0, h.ccsdsRsi.getD 0, offs⟩)) := by
    unfold ccsdsInfoOffsets at ho
    by_cases hz : base.bitsPerValue = 0 ∨ base.offsetAfterData = base.offsetBeforeData
    · rw [if_pos hz] at ho
      cases ho
      intro N out _ _ hr
      cases hr
    · rw [if_neg hz] at ho
      obtain ⟨⟨⟩, hlt, ho⟩ := res_bind_inv ho
      intro N out hN hl hr
      rw [ccsdsReadValues] at hr
      obtain ⟨⟨⟩, hne, hr⟩ := res_bind_inv hr
      have hlt' : base.offsetBeforeData < base.offsetAfterData := by
        rw [cassert] at hlt
        split at hlt
        · rename_i hc; exact of_decide_eq_true hc
        · cases hlt
      have hparts := ccsds_parts contract R.bigEndian R.tail
        (ccsdsParams base ⟨h.ccsdsFlags.getD 0, h.ccsdsBlockSize.getD 0, h.ccsdsRsi.getD 0, offs⟩) (R.ccsds.scale base)
        base.numberOfValues file (dataSection offset base) (by simp only [dataSection]; omega) offs ho
      obtain ⟨st, e1, e2, e3⟩ := decodes_reads hparts N out hN hl hr
      refine ⟨st, e1, e2, fun js hjs => ?_⟩
      rw [ccsdsReadValues, hne, ok_bind]
      exact e3 js hjs
  obtain ⟨field, present, hA⟩ := extract_parts reads small
    (fun hz hbm => by
      simp only [Message.present, messageAt, if_pos hbm, countTrue_replicate] at counts
      omega)
    (fun bm hz hbm hr => by
      have hav : offset + base.offsetBeforeBitmap + (base.numberOfDataPoints + 7) / 8 ≤ file.length ∨ bm = [] := by
        rw [readBitmap] at hr
        simp only at hr
        split at hr
        · cases hr; exact Or.inr rfl
        · split at hr
          · cases hr
          · rename_i hs hl
            left
            have hl := Classical.not_not.mp hl
            rw [List.length_take, List.length_drop] at hl
            omega
      rcases hav with hav | hav
      · obtain ⟨e1, -⟩ := readBitmap_present (fun _ => 0) file offset base hz hbm hav
        rw [hr] at e1
        have e2 := Except.ok.inj e1
        rw [← e2, countTrue_eq] at counts
        have := List.Sublist.count_le true (List.take_sublist n bm)
        omega
      · subst hav; simp) hx
  refine ⟨field, present, hA.values, hA.flags, fun is his => ?_⟩
  rw [messageExtract, hb, ok_bind, hje, hA.parts is his]

end GJ
