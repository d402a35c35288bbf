import Verif.Spec.Placement
import Verif.Lemmas.Engine

/-!
# Reading a message wherever it is
-/

namespace GJ
open Spec

theorem window (pre msg post : List UInt8) (a n : Nat) (h : n = 0 ∨ a + n ≤ msg.length) :
    ((pre ++ (msg ++ post)).drop (pre.length + a)).take n = (msg.drop a).take n := by
  rcases h with rfl | h
  · simp
  · rw [List.drop_append]
    rw [List.drop_eq_nil_of_le (by omega), List.nil_append, Nat.add_sub_cancel_left, List.drop_append_of_le_length
      (by omega), List.take_append_of_le_length (by rw [List.length_drop]; omega)]

theorem fileRead_moved (pre msg post : List UInt8) (info : JumpInfo) (h : info.offsetAfterData ≤ msg.length)
    (r : Block) :
    fileRead (pre ++ (msg ++ post)) (dataSection pre.length info) r = fileRead msg (dataSection 0 info) r := by
  have hsz : (dataSection pre.length info).size = (dataSection 0 info).size := rfl
  by_cases hr : r.off + r.size > (dataSection 0 info).size
  · unfold fileRead
    rw [if_pos (by rw [hsz]; exact hr), if_pos hr]
  · have hw : ((pre ++ (msg ++ post)).drop ((dataSection pre.length info).off + r.off)).take r.size =
        (msg.drop ((dataSection 0 info).off + r.off)).take r.size := by
      simp only [dataSection, Nat.zero_add] at hr ⊢
      rw [Nat.add_assoc, window pre msg post _ _ (by omega)]
    unfold fileRead
    rw [if_neg (by rw [hsz]; exact hr), if_neg hr]
    simp only [hw]

theorem readBitmap_moved (pre msg post : List UInt8) (info : JumpInfo)
    (h : info.offsetBeforeBitmap ≠ 0 → info.offsetBeforeBitmap + (info.numberOfDataPoints + 7) / 8 ≤ msg.length)
    (hb : info.offsetBeforeBitmap ≠ 0) :
    readBitmap (pre ++ (msg ++ post)) pre.length info = readBitmap msg 0 info := by
  unfold readBitmap
  simp only [Nat.zero_add]
  rw [window pre msg post _ _ (Or.inr (h hb))]

/-- Extraction that reads the same things gives the same. -/
theorem extract_congr {V : Type} (A : Arith V) (rv rv' : ReadValues V) (f f' : List UInt8) (o o' : Nat)
    (info : JumpInfo) (hrv : rv = rv')
    (hbm : info.offsetBeforeBitmap ≠ 0 → readBitmap f o info = readBitmap f' o' info) (is : List Interval) :
    extract A rv f o info is = extract A rv' f' o' info is := by
  subst hrv
  unfold extract
  by_cases hb : info.offsetBeforeBitmap = 0
  · simp only [if_pos hb]
  · simp only [extractMasked, hbm hb]

theorem jumperExtract_moved {V : Type} (R : Reader V) (pre msg post : List UInt8) (info : Info)
    (hd : info.base.offsetAfterData ≤ msg.length)
    (hb : info.base.offsetBeforeBitmap ≠ 0 →
      info.base.offsetBeforeBitmap + (info.base.numberOfDataPoints + 7) / 8 ≤ msg.length) (is : List Interval) :
    jumperExtract R (pre ++ (msg ++ post)) pre.length info is = jumperExtract R msg 0 info is := by
  have hs : simpleReadValues R.simple (pre ++ (msg ++ post)) pre.length info =
      simpleReadValues R.simple msg 0 info := by
    funext js
    cases info with
    | simple b =>
      simp only [simpleReadValues]
      rw [show fileRead (pre ++ (msg ++ post)) (dataSection pre.length b) = fileRead msg (dataSection 0 b) from
        funext (fileRead_moved pre msg post b hd)]
    | ccsds b x => rfl
    | unsupported b => rfl
  have hc : ccsdsReadValues R.lib R.bigEndian R.ccsds (pre ++ (msg ++ post)) pre.length info =
      ccsdsReadValues R.lib R.bigEndian R.ccsds msg 0 info := by
    funext js
    cases info with
    | ccsds b x =>
      simp only [ccsdsReadValues]
      rw [show fileRead (pre ++ (msg ++ post)) (dataSection pre.length b) = fileRead msg (dataSection 0 b) from
        funext (fileRead_moved pre msg post b hd)]
      rfl
    | simple b => rfl
    | unsupported b => rfl
  unfold jumperExtract
  rw [extract_congr R.simple _ _ _ _ _ _ info.base hs (readBitmap_moved pre msg post info.base hb) is,
    extract_congr R.ccsds _ _ _ _ _ _ info.base hc (readBitmap_moved pre msg post info.base hb) is]

theorem jumpInfoOf_inv {h : Header} {b : JumpInfo} (e : jumpInfoOf h = .ok b) :
    (h.edition = 1 ∨ h.edition = 2) ∧ b.offsetBeforeData = h.offsetBeforeData ∧
      b.offsetAfterData = h.offsetAfterData ∧ b.numberOfDataPoints = h.numberOfDataPoints ∧
      b.numberOfValues = h.numberOfValues ∧
      b.bitsPerValue = h.bitsPerValue ∧ b.packingType = h.packingType ∧
      b.offsetBeforeBitmap = (if h.bitmapPresent then bitmapStart h else 0) := by
  unfold jumpInfoOf at e
  split at e
  · cases e
  · cases e
    refine ⟨by omega, rfl, rfl, rfl, rfl, rfl, rfl, rfl⟩

theorem infoOf_base {V : Type} {R : Reader V} {file : List UInt8} {o : Nat} {h : Header} {i : Info}
    (e : infoOf R file o h = .ok i) : jumpInfoOf h = .ok i.base := by
  unfold infoOf at e
  obtain ⟨b, hb, e⟩ := res_bind_inv e
  rw [hb]
  split at e
  · cases e; rfl
  · split at e
    · obtain ⟨offs, -, e⟩ := res_bind_inv e
      cases e; rfl
    · cases e; rfl

theorem infoOf_moved {V : Type} (R : Reader V) (pre msg post : List UInt8) (h : Header)
    (hd : h.offsetAfterData ≤ msg.length) :
    infoOf R (pre ++ (msg ++ post)) pre.length h = infoOf R msg 0 h := by
  unfold infoOf
  cases hb : jumpInfoOf h with
  | error e => rfl
  | ok b =>
    obtain ⟨-, h1, h2, -⟩ := jumpInfoOf_inv hb
    rw [ok_bind, ok_bind]
    split
    · rfl
    · split
      · have : ccsdsInfoOffsets R.lib R.bigEndian R.tail (pre ++ (msg ++ post)) pre.length b =
            ccsdsInfoOffsets R.lib R.bigEndian R.tail msg 0 b := by
          funext f bs rsi
          unfold ccsdsInfoOffsets
          rw [Nat.zero_add, window pre msg post _ _ (by omega)]
        rw [this]
      · rfl

/-- Moving a message: metadata and results stay. -/
theorem moved {V : Type} (R : Reader V) {file : List UInt8} {o : Nat} {msg : List UInt8} {h : Header}
    (g : GoodMessage R msg h) (hm : HasMessage file o msg) :
    buildInfo R file o = infoOf R msg 0 h ∧
    ∀ i, jumpInfoOf h = .ok i.base → ∀ is, jumperExtract R file o i is = jumperExtract R msg 0 i is := by
  obtain ⟨pre, post, rfl, rfl⟩ := hm
  constructor
  · unfold buildInfo
    rw [List.drop_left, g.framed]
    exact infoOf_moved R pre msg post h g.data
  · intro i hi is
    obtain ⟨-, h1, h2, h3, -, -, -, h4⟩ := jumpInfoOf_inv hi
    refine jumperExtract_moved R pre msg post i (by rw [h2]; exact g.data) (fun hb => ?_) is
    rw [h4] at hb ⊢
    by_cases hp : h.bitmapPresent = true
    · rw [if_pos hp] at hb ⊢
      rw [h3]; exact g.bitmap hp
    · rw [if_neg hp] at hb; exact absurd rfl hb

/-- One read that delivers everything fills the buffer with the message. -/
theorem fetchLoop_once (msg buf : List UInt8) (answers : List (Option Nat)) (h : AtOnce msg answers)
    (hl : buf.length = msg.length) : fetchLoop answers msg buf msg.length = .ok msg := by
  obtain ⟨n, rest, rfl, hn, hr⟩ := h
  have hk : min n (min msg.length msg.length) = msg.length := by omega
  unfold fetchLoop
  simp only [hk]
  by_cases h0 : msg.length = 0
  · rw [if_pos h0]
    rw [List.length_eq_zero_iff] at h0
    subst h0
    have : buf = [] := List.length_eq_zero_iff.mp hl
    rw [this]
  · rw [if_neg h0, if_neg (by omega), List.drop_eq_nil_of_le (Nat.le_refl _), List.take_length,
      List.drop_eq_nil_of_le (by omega), List.append_nil, Nat.sub_self]
    cases rest with
    | nil => rfl
    | cons a as =>
      cases a with
      | none => exact absurd rfl (hr none (List.mem_cons_self ..))
      | some m =>
        rw [fetchLoop]
        simp

end GJ
