import Verif.Props.C47

/-!
# C48: metadata fits the message, and messages that cannot be handled are refused
-/

namespace GJ
open Spec

/-- C48.  The metadata the plugin builds from the archived bytes is the metadata a scan of the file builds at the place
where the bytes were written, and it extracts from the file what extraction from the message alone would give. -/
theorem C48_archived_equals_scanned {V : Type} (R : Reader V) (msg : List UInt8) (h : Header)
    (good : GoodMessage R msg h) (file : List UInt8) (o : Nat) (written : HasMessage file o msg) :
    buildInfo R msg 0 = buildInfo R file o ∧
    ∀ info, buildInfo R msg 0 = .ok info → ∀ is,
      jumperExtract R file o info is = messageExtract R msg 0 is := by
  obtain ⟨h1, h2⟩ := C46_place_does_not_matter R msg h good msg file 0 o ⟨[], [], by simp, rfl⟩ written
  refine ⟨h1, fun info hi is => ?_⟩
  rw [← h2 info hi is]
  unfold messageExtract
  rw [hi, ok_bind]

/-- C48.  A message packed in any other way than the two supported ones can be indexed, but every extraction from it is
refused before anything is read; it never yields values. -/
theorem C48_unsupported_packing_refused {V : Type} (R : Reader V) (file : List UInt8) (o : Nat) (h : Header)
    (header : R.parse (file.drop o) = some h) (edition : h.edition = 1 ∨ h.edition = 2)
    (packing : h.packingType ≠ "grid_simple" ∧ h.packingType ≠ "grid_ccsds") :
    (∃ info, buildInfo R file o = .ok info ∧ info.base.packingType = h.packingType) ∧
    ∀ is, messageExtract R file o is = throwExn .seriousBug := by
  have hj := headerInfo_ok edition
  have hp : (headerInfo h).packingType = h.packingType := (jumpInfoOf_inv hj).2.2.2.2.2.2.1
  have hb : buildInfo R file o = .ok (.unsupported (headerInfo h)) := by
    unfold buildInfo
    rw [header]
    simp only [infoOf]
    rw [hj, ok_bind, if_neg packing.1, if_neg packing.2]
  refine ⟨⟨_, hb, hp⟩, fun is => ?_⟩
  unfold messageExtract
  rw [hb, ok_bind]
  unfold jumperExtract
  show (if (headerInfo h).packingType = "grid_simple" then _ else
    if (headerInfo h).packingType = "grid_ccsds" then _ else _) = _
  rw [if_neg (fun e => packing.1 (hp.symm.trans e)), if_neg (fun e => packing.2 (hp.symm.trans e))]

/-- C48.  Messages of other GRIB editions, and places where there is no message, give no metadata and no values. -/
theorem C48_other_editions_refused {V : Type} (R : Reader V) (file : List UInt8) (o : Nat) :
    (∀ h, R.parse (file.drop o) = some h → h.edition ≠ 1 → h.edition ≠ 2 →
      buildInfo R file o = throwExn .gribJump ∧ ∀ is, messageExtract R file o is = throwExn .gribJump) ∧
    (R.parse (file.drop o) = none →
      buildInfo R file o = throwExn .assertFailed ∧ ∀ is, messageExtract R file o is = throwExn .assertFailed) := by
  constructor
  · intro h hh e1 e2
    have hb : buildInfo R file o = throwExn .gribJump := by
      unfold buildInfo
      rw [hh]
      simp only [infoOf, jumpInfoOf]
      rw [if_pos ⟨e1, e2⟩, error_bind]
    exact ⟨hb, fun is => by unfold messageExtract; rw [hb, error_bind]⟩
  · intro hh
    have hb : buildInfo R file o = throwExn .assertFailed := by
      unfold buildInfo
      rw [hh]
    exact ⟨hb, fun is => by unfold messageExtract; rw [hb, error_bind]⟩

/-- C48.  Metadata that was built states what the header of the message states. -/
theorem C48_metadata_as_stated {V : Type} (R : Reader V) (file : List UInt8) (o : Nat) (info : Info)
    (built : buildInfo R file o = .ok info) :
    ∃ h, R.parse (file.drop o) = some h ∧ info.base.md5GridSection = h.md5GridSection ∧
      info.base.totalLength = h.totalLength ∧ info.base.numberOfDataPoints = h.numberOfDataPoints ∧
      info.base.numberOfValues = h.numberOfValues ∧ info.base.editionNumber = h.edition ∧
      info.base.packingType = h.packingType ∧ info.base.bitsPerValue = h.bitsPerValue ∧
      info.base.referenceValue = h.referenceValue ∧ info.base.binaryScaleFactor = h.binaryScaleFactor ∧
      info.base.decimalScaleFactor = h.decimalScaleFactor := by
  unfold buildInfo at built
  split at built
  · cases built
  · rename_i h hp
    refine ⟨h, hp, ?_⟩
    have hj := infoOf_base built
    unfold jumpInfoOf at hj
    split at hj
    · cases hj
    · have := (Except.ok.inj hj).symm
      rw [this]
      exact ⟨rfl, rfl, rfl, rfl, rfl, rfl, rfl, rfl, rfl, rfl⟩

/-- C48.  The class of the metadata always fits the packing by which the jumper is chosen, so metadata that was built
is never rejected as the wrong class. -/
theorem C48_class_fits_packing {V : Type} (R : Reader V) (file : List UInt8) (o : Nat) (info : Info)
    (built : buildInfo R file o = .ok info) :
    (info.base.packingType = "grid_simple" → ∃ b, info = .simple b) ∧
    (info.base.packingType = "grid_ccsds" → ∃ b x, info = .ccsds b x) := by
  unfold buildInfo at built
  split at built
  · cases built
  · rename_i h _
    unfold infoOf at built
    obtain ⟨b, hj, built⟩ := res_bind_inv built
    have hp : b.packingType = h.packingType := (jumpInfoOf_inv hj).2.2.2.2.2.2.1
    by_cases h1 : h.packingType = "grid_simple"
    · rw [if_pos h1] at built
      cases built
      refine ⟨fun _ => ⟨b, rfl⟩, fun e => absurd ((hp.trans h1).symm.trans e) (by decide)⟩
    · rw [if_neg h1] at built
      by_cases h2 : h.packingType = "grid_ccsds"
      · rw [if_pos h2] at built
        obtain ⟨offs, -, built⟩ := res_bind_inv built
        cases built
        exact ⟨fun e => absurd ((hp.trans h2).symm.trans e) (by decide), fun _ => ⟨_, _, rfl⟩⟩
      · rw [if_neg h2] at built
        cases built
        exact ⟨fun e => absurd (hp.symm.trans e) h1, fun e => absurd (hp.symm.trans e) h2⟩

theorem bind_defined {α β : Type} {x : Res α} {f : α → Res β} (hx : x ≠ undef) (hf : ∀ a, f a ≠ undef) :
    (x >>= f) ≠ undef := by
  cases x with
  | ok a => rw [ok_bind]; exact hf a
  | error e => rw [error_bind]; intro h; exact hx (by cases h; rfl)

theorem cassert_defined (b : Bool) : cassert b ≠ undef := by
  unfold cassert; split <;> (intro h; cases h)

theorem validateBits_defined (sz bps : Nat) : validateBits sz bps ≠ undef := by
  unfold validateBits
  split
  · intro h; cases h
  · split
    · intro h; cases h
    · split <;> (intro h; cases h)

/-- Building metadata never runs into undefined behaviour. -/
theorem buildInfo_defined {V : Type} (R : Reader V) (file : List UInt8) (o : Nat) : buildInfo R file o ≠ undef := by
  unfold buildInfo
  split
  · intro h; cases h
  · unfold infoOf
    refine bind_defined ?_ fun b => ?_
    · unfold jumpInfoOf
      split <;> (intro h; cases h)
    · split
      · intro h; cases h
      · split
        · refine bind_defined ?_ fun offs h => by cases h
          unfold ccsdsInfoOffsets
          split
          · intro h; cases h
          · refine bind_defined (cassert_defined _) fun _ => ?_
            unfold ccsdsDecodeOffsets
            simp only
            split
            · refine bind_defined (validateBits_defined _ _) fun _ => ?_
              split <;> (intro h; cases h)
            · intro h; cases h
        · intro h; cases h

/-- C48.  Building metadata is defined for every file and every offset: it ends with metadata or an exception. -/
theorem C48_always_defined {V : Type} (R : Reader V) (file : List UInt8) (o : Nat) :
    (∃ info, buildInfo R file o = .ok info) ∨ ∃ e, buildInfo R file o = throwExn e := by
  cases h : buildInfo R file o with
  | ok i => exact Or.inl ⟨i, rfl⟩
  | error f =>
    cases f with
    | exn e => exact Or.inr ⟨e, rfl⟩
    | ub => exact absurd h (buildInfo_defined R file o)

/-! ## Metadata from a message object -/

/-- C48.  The second way to build metadata, from a message object, gives the same for a message that is not
CCSDS-packed, and for a CCSDS-packed one that states all its parameters and has data.  Missing from the full property:
CCSDS-packed messages of constant fields (false, see `C48_constant_ccsds_message_fails`) and with unstated
parameters. -/
theorem C48_message_object_partial {V : Type} (R : Reader V) (msg : List UInt8) (h : Header)
    (header : R.parse msg = some h)
    (stated : h.packingType = "grid_ccsds" → h.ccsdsFlags ≠ none ∧ h.ccsdsBlockSize ≠ none ∧ h.ccsdsRsi ≠ none ∧
      h.bitsPerValue ≠ 0 ∧ h.offsetBeforeData < h.offsetAfterData) :
    infoOfMessage R msg h = buildInfo R msg 0 := by
  unfold buildInfo
  rw [List.drop_zero, header]
  simp only
  unfold infoOfMessage infoOf
  cases hj : jumpInfoOf h with
  | error e => rfl
  | ok b =>
    obtain ⟨-, h1, h2, -, -, h5, -⟩ := jumpInfoOf_inv hj
    rw [ok_bind, ok_bind]
    by_cases hs : h.packingType = "grid_simple"
    · rw [if_pos hs, if_pos hs]
    · rw [if_neg hs, if_neg hs]
      by_cases hc : h.packingType = "grid_ccsds"
      · rw [if_pos hc, if_pos hc]
        obtain ⟨c1, c2, c3, c4, c5⟩ := stated hc
        obtain ⟨f, hf⟩ := Option.ne_none_iff_exists'.mp c1
        obtain ⟨bs, hbs⟩ := Option.ne_none_iff_exists'.mp c2
        obtain ⟨rsi, hrsi⟩ := Option.ne_none_iff_exists'.mp c3
        rw [hf, hbs, hrsi]
        simp only [Option.getD_some]
        unfold ccsdsInfoOffsets
        rw [if_neg (by omega), cassert_of (decide_eq_true (by omega)), ok_bind, Nat.zero_add]
      · rw [if_neg hc, if_neg hc]

/-- The header of a constant field with CCSDS packing. -/
def constHeader : Header :=
  { c47Header with bitsPerValue := 0, offsetBeforeData := 5, offsetAfterData := 5, bitmapPresent := false }

/-- Disagreement with C48: metadata of a constant CCSDS-packed field can be built from the file, not from a message
object, which throws. -/
theorem C48_constant_ccsds_message_fails {V : Type} (R : Reader V) (msg : List UInt8)
    (header : R.parse msg = some constHeader) :
    (∃ info, buildInfo R msg 0 = .ok info) ∧ infoOfMessage R msg constHeader = throwExn .seriousBug := by
  constructor
  · unfold buildInfo
    rw [List.drop_zero, header]
    exact ⟨_, rfl⟩
  · rfl

/-! ## Examples -/

/-- Non-vacuity: an archived message found again in a file; metadata of a spectral packing, and its refusal. -/
example : buildInfo toyReader toyMessage 0 = buildInfo toyReader ([5] ++ toyMessage) 1 ∧
    (buildInfo toyReader toyMessage 0).map (fun i => i.base.numberOfDataPoints) = .ok 4 ∧
    (let R : Reader UInt64 := { toyReader with parse := fun bs => (toyParse bs).map fun h =>
        { h with packingType := "spectral_complex" } }
     messageExtract R toyMessage 0 [⟨0, 1⟩] = throwExn .seriousBug ∧
      (buildInfo R toyMessage 0).map (fun i => i.base.packingType) = .ok "spectral_complex") := by
  decide +kernel

end GJ
