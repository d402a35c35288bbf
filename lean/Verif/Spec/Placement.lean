import Verif.Model.Direct
import Verif.Spec.Message

/-!
# Messages in files
-/

namespace GJ.Spec

open GJ

/-- The bytes of `msg` are at `offset` of the file. -/
def HasMessage (file : List UInt8) (offset : Nat) (msg : List UInt8) : Prop :=
  ∃ pre post, file = pre ++ (msg ++ post) ∧ pre.length = offset

/-- Where the bitmap starts in a message that has one.  In GRIB edition 2 section 6 starts with its length (4 octets),
its number (1) and the bitmap indicator (1). -/
def bitmapStart (h : Header) : Nat := if h.edition = 1 then h.offsetBeforeBitmap else h.offsetBSection6 + (4 + 1 + 1)

/-- The message a header describes at `offset` of a file.  `dbl` reads a `double` bit pattern as a rational. -/
def headerMessage (dbl : UInt64 → Rat) (file : List UInt8) (offset : Nat) (h : Header) : Message where
  points := h.numberOfDataPoints
  width := h.bitsPerValue
  R := dbl h.referenceValue
  E := h.binaryScaleFactor
  D := h.decimalScaleFactor
  bitmap := if h.bitmapPresent then some (slice file (offset + bitmapStart h) ((h.numberOfDataPoints + 7) / 8)) else none
  data := slice file (offset + h.offsetBeforeData) (h.offsetAfterData - h.offsetBeforeData)

/-- A complete message with header `h`: the decoder of headers reads exactly this message whatever follows it, and the
data section and the bitmap the header points to are inside the message. -/
structure GoodMessage {V : Type} (R : Reader V) (msg : List UInt8) (h : Header) : Prop where
  framed : ∀ post, R.parse (msg ++ post) = some h
  data : h.offsetAfterData ≤ msg.length
  bitmap : h.bitmapPresent = true → bitmapStart h + (h.numberOfDataPoints + 7) / 8 ≤ msg.length

/-- A handle that delivers the whole message in the first read. -/
def AtOnce (msg : List UInt8) (answers : List (Option Nat)) : Prop :=
  ∃ n rest, answers = some n :: rest ∧ msg.length ≤ n ∧ ∀ a ∈ rest, a ≠ none

/-- The decoder of headers accepts only complete messages, which are not empty, whatever follows them. -/
def SoundReader {V : Type} (R : Reader V) : Prop :=
  ∀ bytes h, R.parse bytes = some h → ∃ msg rest, msg ≠ [] ∧ bytes = msg ++ rest ∧ GoodMessage R msg h

end GJ.Spec
