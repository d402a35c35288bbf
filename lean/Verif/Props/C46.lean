import Verif.Lemmas.Direct

/-!
# C46: it does not matter where a message is or by which way it is read
-/

namespace GJ
open Spec

/-- C46.  The same message at two places: the metadata built from it is the same, and metadata built at either place
extracts the same from both. -/
theorem C46_place_does_not_matter {V : Type} (R : Reader V) (msg : List UInt8) (h : Header)
    (good : GoodMessage R msg h) (file₁ file₂ : List UInt8) (o₁ o₂ : Nat) (at₁ : HasMessage file₁ o₁ msg)
    (at₂ : HasMessage file₂ o₂ msg) :
    buildInfo R file₁ o₁ = buildInfo R file₂ o₂ ∧
    ∀ info, buildInfo R file₁ o₁ = .ok info → ∀ is,
      jumperExtract R file₁ o₁ info is = jumperExtract R file₂ o₂ info is := by
  obtain ⟨b₁, x₁⟩ := moved R good at₁
  obtain ⟨b₂, x₂⟩ := moved R good at₂
  refine ⟨b₁.trans b₂.symm, fun info hi is => ?_⟩
  have hb : jumpInfoOf h = .ok info.base := infoOf_base (b₁ ▸ hi)
  rw [x₁ info hb is, x₂ info hb is]

/-- A whole round, metadata and values, gives the same at both places. -/
theorem C46_same_results {V : Type} (R : Reader V) (msg : List UInt8) (h : Header)
    (good : GoodMessage R msg h) (file₁ file₂ : List UInt8) (o₁ o₂ : Nat) (at₁ : HasMessage file₁ o₁ msg)
    (at₂ : HasMessage file₂ o₂ msg) (is : List Interval) :
    messageExtract R file₁ o₁ is = messageExtract R file₂ o₂ is := by
  obtain ⟨hb, hx⟩ := C46_place_does_not_matter R msg h good file₁ file₂ o₁ o₂ at₁ at₂
  unfold messageExtract
  rw [← hb]
  cases hi : buildInfo R file₁ o₁ with
  | error e => rfl
  | ok info => exact hx info hi is

/-- C46.  The fallback through the store gives what direct extraction from a file holding the message gives, when the
location states the length of the message and the handle delivers it in one read.  Missing from the full property:
delivery in several reads (false, see `C46_chunks_give_wrong_values`) and incomplete delivery (undetected, see
`C46_short_delivery_undetected`). -/
theorem C46_fallback_equals_file_partial {V : Type} (R : Reader V) (S : Store) (u : Uri) (msg : List UInt8) (h : Header)
    (good : GoodMessage R msg h) (scheme : u.scheme = "fdb") (stated : S.length u = some msg.length)
    (answers : List (Option Nat)) (delivered : S.read u = .ok (msg, answers)) (once : AtOnce msg answers)
    (file : List UInt8) (o : Nat) (atFile : HasMessage file o msg) (is : List Interval) :
    slowExtract R S u is = messageExtract R file o is := by
  unfold slowExtract
  rw [if_neg (by rw [scheme]; exact fun h => h rfl), stated]
  simp only
  rw [delivered, ok_bind]
  simp only
  rw [fetchLoop_once msg _ answers once (S.fresh_length _), ok_bind]
  exact C46_same_results R msg h good msg file 0 o ⟨[], [], by simp, rfl⟩ atFile is

/-- A location that is not in the store, or that does not state a length, is refused. -/
theorem C46_other_locations_refused {V : Type} (R : Reader V) (S : Store) (u : Uri) (is : List Interval) :
    (u.scheme ≠ "fdb" → slowExtract R S u is = throwExn .seriousBug) ∧
    (u.scheme = "fdb" → S.length u = none → slowExtract R S u is = throwExn .assertFailed) := by
  constructor
  · intro h; unfold slowExtract; rw [if_pos h]
  · intro h hl; unfold slowExtract; rw [if_neg (fun hn => hn h), hl]

/-- Whatever the handle answers, a message no longer than the buffer is never written past its end. -/
theorem C46_no_overrun (answers : List (Option Nat)) : ∀ (msg buf : List UInt8) (n : Nat),
    msg.length ≤ buf.length →
    ∃ buf', fetchLoop answers msg buf n = .ok buf' ∧ buf'.length = buf.length := by
  induction answers with
  | nil => intro msg buf n _; exact ⟨buf, rfl, rfl⟩
  | cons a as ih =>
    intro msg buf n hl
    cases a with
    | none => exact ih msg buf (n + 1) hl
    | some m =>
      unfold fetchLoop
      simp only
      split
      · exact ⟨buf, rfl, rfl⟩
      · rw [if_neg (by omega)]
        obtain ⟨buf', h1, h2⟩ := ih (msg.drop (min m (min msg.length n)))
          (msg.take (min m (min msg.length n)) ++ buf.drop (min m (min msg.length n))) (n - min m (min msg.length n))
          (by rw [List.length_drop, List.length_append, List.length_take, List.length_drop]; omega)
        refine ⟨buf', h1, ?_⟩
        rw [h2, List.length_append, List.length_take, List.length_drop]
        omega

/-! ## What goes wrong -/

/-- A toy message: the byte `0x47`, a count, and that many 8-bit values. -/
def toyParse : List UInt8 → Option Header
  | 0x47 :: n :: rest =>
    if n.toNat ≤ rest.length then
      some { edition := 2, packingType := "grid_simple", binaryScaleFactor := 0, decimalScaleFactor := 0,
             bitsPerValue := 8, referenceValue := 0, offsetBeforeData := 2, offsetAfterData := 2 + n.toNat,
             numberOfDataPoints := n.toNat, numberOfValues := n.toNat, sphericalHarmonics := none,
             totalLength := 2 + n.toNat, md5GridSection := "g", bitmapPresent := false, offsetBeforeBitmap := 0,
             offsetBSection6 := 0, ccsdsFlags := none, ccsdsBlockSize := none, ccsdsRsi := none }
    else none
  | _ => none

def toyReader : Reader UInt64 where
  parse := toyParse
  lib := fun _ _ _ _ => none
  bigEndian := false
  tail := false
  simple := ⟨0, fun i => i.referenceValue, fun _ x => UInt64.ofNat x⟩
  ccsds := ⟨0, fun i => i.referenceValue, fun _ x => UInt64.ofNat x⟩

/-- A store with one message, whose handle answers as given; fresh buffers are zero. -/
def toyStore (msg : List UInt8) (stated : Nat) (answers : List (Option Nat)) : Store where
  length _ := some stated
  read _ := .ok (msg, answers)
  fresh n := List.replicate n 0
  fresh_length n := List.length_replicate

def toyMessage : List UInt8 := [0x47, 4, 10, 11, 12, 13]
def toyUri : Uri := ⟨"fdb", "", -1, "x", 0⟩

/-- The second of two reads overwrites the first.  The message's own bytes look like a message at the point where the
second read starts, and the values returned are wrong without any error. -/
theorem C46_chunks_give_wrong_values :
    slowExtract toyReader (toyStore [0x47, 4, 0x47, 2, 7, 9] 6 [some 2, some 4]) toyUri [⟨0, 2⟩] =
      .ok ⟨[[7, 9]], [[3]]⟩ ∧
    messageExtract toyReader [0x47, 4, 0x47, 2, 7, 9] 0 [⟨0, 2⟩] = .ok ⟨[[0x47, 2]], [[3]]⟩ := by
  decide +kernel

/-- Delivery in two reads destroys every message: afterwards the buffer starts with the second part. -/
theorem C46_second_read_overwrites (a b buf : List UInt8) (ha : a ≠ []) (hb : b ≠ [])
    (hl : buf.length = a.length + b.length) :
    fetchLoop [some a.length, some b.length] (a ++ b) buf (a.length + b.length) =
      .ok (b ++ (a ++ buf.drop a.length).drop b.length) := by
  have ha' : 0 < a.length := List.length_pos_iff.mpr ha
  have hb' : 0 < b.length := List.length_pos_iff.mpr hb
  have k1 : min a.length (min (a ++ b).length (a.length + b.length)) = a.length := by
    rw [List.length_append]; omega
  rw [fetchLoop]
  simp only [k1]
  rw [if_neg (by omega), if_neg (by omega), List.drop_left, List.take_left, Nat.add_sub_cancel_left, fetchLoop]
  have k2 : min b.length (min b.length b.length) = b.length := by omega
  simp only [k2]
  rw [if_neg (by omega), if_neg (by rw [List.length_append, List.length_drop]; omega), fetchLoop, List.take_length]

/-- The handle ends early, after four of six bytes: the rest of the buffer is what was in memory before, and it is
returned as values. -/
theorem C46_short_delivery_undetected :
    slowExtract toyReader (toyStore (toyMessage.take 4) 6 [some 4]) toyUri [⟨0, 4⟩] =
      .ok ⟨[[10, 11, 0, 0]], [[15]]⟩ := by
  decide +kernel

/-! ## Examples -/

/-- The toy message is complete. -/
theorem toyGood : GoodMessage toyReader toyMessage ((toyParse toyMessage).get (by decide)) where
  framed post := by simp [toyReader, toyParse, toyMessage]
  data := by decide
  bitmap h := by revert h; decide

/-- Non-vacuity of C46: the message inside a larger file, and delivered by the store at once; the values are right. -/
example : HasMessage ([1, 2, 3] ++ toyMessage ++ [9, 9]) 3 toyMessage ∧ AtOnce toyMessage [some 100] ∧
    messageExtract toyReader ([1, 2, 3] ++ toyMessage ++ [9, 9]) 3 [⟨1, 3⟩] = .ok ⟨[[11, 12]], [[3]]⟩ ∧
    slowExtract toyReader (toyStore toyMessage 6 [some 100]) toyUri [⟨1, 3⟩] = .ok ⟨[[11, 12]], [[3]]⟩ := by
  refine ⟨⟨[1, 2, 3], [9, 9], by simp, rfl⟩, ⟨100, [], rfl, by decide, by simp⟩, ?_, ?_⟩ <;> decide +kernel

end GJ
