import Verif.Lemmas.Bits
import Verif.Lemmas.Scaling

/-!
# C03, C04, C05: simple packing and scaling
-/

namespace GJ
open Spec

/-- C03.  Decoding positions `o .. o+n-1` equals decoding the whole field of `N` values and slicing,
for every bit width, offset and length, whatever the alignment.  `read` is any accessor that returns
the bytes of the section `sec`. -/
theorem C03_partial_decode_is_slice {V : Type} (scale : Nat → V) (ref : V) (bpv : Nat)
    (sec : List UInt8) (read : Block → Res (List UInt8))
    (hread : ∀ b, b.off + b.size ≤ sec.length → read b = .ok (slice sec b.off b.size))
    (N o n : Nat) (hN : N * bpv ≤ 8 * sec.length) (hon : o + n ≤ N) :
    decodeSimple scale ref bpv read ⟨o, n⟩ =
      (decodeSimple scale ref bpv read ⟨0, N⟩).map (fun field => slice field o n) := by
  have hle : (o + n) * bpv ≤ 8 * sec.length :=
    Nat.le_trans (Nat.mul_le_mul_right _ hon) hN
  rcases Nat.eq_zero_or_pos bpv with hz | hpos
  · subst hz
    simp only [decodeSimple, Nat.mul_zero]
    have h0 := hread ⟨0, 0⟩ (by simp)
    simp only [Nat.zero_div, Nat.zero_mod, Nat.reduceDiv, Nat.zero_add, Nat.sub_zero]
    rw [h0, ok_bind, ok_bind]
    simp only [unpackSimple]
    by_cases hn : n = 0
    · subst hn
      by_cases hN0 : N = 0 <;> simp [hN0, Except.map, slice]
    · have hN0 : N ≠ 0 := by omega
      simp [hn, hN0, Except.map, slice]
      omega
  · by_cases h64 : bpv ≤ 64
    · have hmono : o * bpv ≤ (o + n) * bpv := Nat.mul_le_mul_right _ (by omega)
      rw [decodeSimple_law scale ref bpv hpos h64 sec read ⟨o, n⟩ (hread _ (by simp only; omega)) hle,
        decodeSimple_law scale ref bpv hpos h64 sec read ⟨0, N⟩
          (hread _ (by simp only [Nat.zero_mul, Nat.zero_add]; omega)) (by simpa using hN)]
      simp only [Except.map, Nat.zero_add]
      congr 1
      apply List.ext_getElem
      · rw [slice_length]
        · simp
        · simpa using hon
      · intro i h1 h2
        simp [slice, List.getElem_take, List.getElem_drop]
    · simp only [decodeSimple]
      have hmono : o * bpv ≤ (o + n) * bpv := Nat.mul_le_mul_right _ (by omega)
      rw [hread _ (by simp only; omega), hread _ (by simp only; simp; omega), ok_bind, ok_bind]
      simp [unpackSimple, Nat.lt_of_not_le h64, Except.map]

/-- C03, bytes touched.  The result depends on the section only through the bytes from
`⌊o*bpv/8⌋` up to `⌈(o+n)*bpv/8⌉`. -/
theorem C03_reads_only_needed_bytes {V : Type} (scale : Nat → V) (ref : V) (bpv o n : Nat)
    (sec sec' : List UInt8) (hlen : sec.length = sec'.length)
    (agree : ∀ k, o * bpv / 8 ≤ k → k < ((o + n) * bpv + 7) / 8 → sec[k]? = sec'[k]?) :
    decodeSimple scale ref bpv (memRead sec) ⟨o, n⟩ =
      decodeSimple scale ref bpv (memRead sec') ⟨o, n⟩ := by
  simp only [decodeSimple, memRead, hlen]
  split
  · rfl
  · have : List.take (((o + n) * bpv + 7) / 8 - o * bpv / 8) (List.drop (o * bpv / 8) sec) =
        List.take (((o + n) * bpv + 7) / 8 - o * bpv / 8) (List.drop (o * bpv / 8) sec') := by
      apply List.ext_getElem?
      intro i
      rw [List.getElem?_take, List.getElem?_take, List.getElem?_drop, List.getElem?_drop]
      split
      · exact agree _ (by omega) (by omega)
      · rfl
    rw [this]

/-- Non-vacuity of C03: width 5, a value that straddles two bytes. -/
example : decodeSimple id 0 5 (memRead [0xAB, 0xCD, 0xEF, 0x01, 0x23]) ⟨1, 3⟩ = .ok [15, 6, 30] ∧
    decodeSimple id 0 5 (memRead [0xAB, 0xCD, 0xEF, 0x01, 0x23]) ⟨0, 8⟩ =
      .ok [21, 15, 6, 30, 30, 0, 9, 3] := by decide +kernel

/-- Non-vacuity of C03: a memory accessor meets the accessor hypothesis. -/
example (sec : List UInt8) : ∀ b : Block, b.off + b.size ≤ sec.length →
    memRead sec b = .ok (slice sec b.off b.size) := memRead_ok sec

/-- C04, for the widths at which the reader's 64-bit accumulator is wide enough: 1 to 58, 60 and 64
bits.  Missing from the full property: widths 59, 61, 62 and 63, for which it is false, see
`C04_wide_values_truncated`.  Value `i` of the range is the GRIB formula applied to the `bpv`-bit
integer at bit `(o+i)*bpv`. -/
theorem C04_packed_integers_partial (R : Rat) (E D : Int) (bpv : Nat)
    (hb : 0 < bpv) (width : bpv ≤ 58 ∨ bpv = 60 ∨ bpv = 64)
    (sec : List UInt8) (o n : Nat) (h : (o + n) * bpv ≤ 8 * sec.length) :
    decodeSimple (scaleSimple R E D) R bpv (memRead sec) ⟨o, n⟩ =
      .ok ((List.range n).map fun i => gribValue R E D (packedInt sec bpv (o + i))) := by
  have hmono : o * bpv ≤ (o + n) * bpv := Nat.mul_le_mul_right _ (by omega)
  rw [decodeSimple_law _ R bpv hb (by omega) sec (memRead sec) ⟨o, n⟩
    (memRead_ok sec _ (by simp only; omega)) h]
  congr 1
  apply List.map_congr_left
  intro i _
  simp only [scaleSimple, gribValue]
  rw [readerInt_exact _ _ _ width, codesPower_eq E 2 (by decide), codesPower_eq (-D) 10 (by decide),
    Rat.add_comm]
  rfl

/-- C04, exact behaviour at every width up to 64: value `i` keeps the low `64 - e` bits of the
stored integer, `e` being the number of unused bits in the last byte that holds it (whole-byte
widths keep everything). -/
theorem C04_reader_exact_law (bpv : Nat) (hb : 0 < bpv) (h64 : bpv ≤ 64)
    (sec : List UInt8) (o n : Nat) (h : (o + n) * bpv ≤ 8 * sec.length) :
    decodeSimple id 0 bpv (memRead sec) ⟨o, n⟩ =
      .ok ((List.range n).map fun i =>
        if bpv % 8 = 0 then packedInt sec bpv (o + i)
        else packedInt sec bpv (o + i) %
          2 ^ (64 - (8 * (((o + i + 1) * bpv + 7) / 8) - (o + i + 1) * bpv))) := by
  have hmono : o * bpv ≤ (o + n) * bpv := Nat.mul_le_mul_right _ (by omega)
  rw [decodeSimple_law _ 0 bpv hb h64 sec (memRead sec) ⟨o, n⟩
    (memRead_ok sec _ (by simp only; omega)) h]
  rfl

/-- C04 is false at width 59: three values of 59 one-bits decode to `2^59-1`, `2^59-1`, `2^57-1`.
The same loss occurs at 61, 62 and 63 bits. -/
theorem C04_wide_values_truncated :
    decodeSimple id 0 59 (memRead (List.replicate 23 0xFF)) ⟨0, 3⟩ =
      .ok [2 ^ 59 - 1, 2 ^ 59 - 1, 2 ^ 57 - 1] ∧
    packedInt (List.replicate 23 0xFF) 59 2 = 2 ^ 59 - 1 ∧
    (∀ w ∈ [59, 61, 62, 63], ∃ n, decodeSimple id 0 w (memRead (List.replicate (8 * w) 0xFF)) ⟨0, n⟩ ≠
      .ok (packedInts (List.replicate (8 * w) 0xFF) w n)) := by
  refine ⟨by decide +kernel, by decide +kernel, ?_⟩
  intro w hw
  have h : ∀ w ∈ [59, 61, 62, 63],
      decodeSimple id 0 w (memRead (List.replicate (8 * w) 0xFF)) ⟨0, 8⟩ ≠
      .ok (packedInts (List.replicate (8 * w) 0xFF) w 8) := by decide +kernel
  exact ⟨8, h w hw⟩

/-- C04, error branch: more than 64 bits per value is an error. -/
theorem C04_too_wide_rejected {V : Type} (scale : Nat → V) (ref : V) (bpv : Nat) (h : 64 < bpv)
    (sec : List UInt8) (r : Block) (v : List V) :
    decodeSimple scale ref bpv (memRead sec) r ≠ .ok v := by
  intro hc
  simp only [decodeSimple, memRead] at hc
  split at hc
  · cases hc
  · rw [ok_bind, unpackSimple, if_pos h] at hc; cases hc

/-- C04, error branch: a range that needs bytes outside the section is an error, never a value. -/
theorem C04_outside_section_rejected {V : Type} (scale : Nat → V) (ref : V) (bpv : Nat)
    (sec : List UInt8) (o n : Nat) (h : 8 * sec.length < (o + n) * bpv) :
    decodeSimple scale ref bpv (memRead sec) ⟨o, n⟩ = throwExn .outOfRange := by
  have hmono : o * bpv ≤ (o + n) * bpv := Nat.mul_le_mul_right _ (by omega)
  simp only [decodeSimple, memRead]
  rw [if_pos (by omega), error_bind]

/-- C04.  With zero bits per value every value is the reference value, and no byte is read. -/
theorem C04_zero_width {V : Type} (scale : Nat → V) (ref : V) (sec : List UInt8) (o n : Nat) :
    decodeSimple scale ref 0 (memRead sec) ⟨o, n⟩ = .ok (List.replicate n ref) := by
  simp only [decodeSimple, Nat.mul_zero, Nat.zero_div, Nat.zero_mod, Nat.zero_add, Nat.sub_zero]
  rw [show (7 / 8 : Nat) = 0 from rfl, memRead_ok sec ⟨0, 0⟩ (by simp), ok_bind, unpackSimple, if_neg (by omega)]
  by_cases hn : n = 0
  · subst hn; rfl
  · rw [if_neg hn, if_pos rfl]

/-- Non-vacuity of C04: two 12-bit values, R=1, E=1, D=1. -/
example : decodeSimple (scaleSimple 1 1 1) 1 12 (memRead [0x12, 0x34, 0x56]) ⟨0, 2⟩ =
    .ok [(1 + 0x123 * 2) / 10, (1 + 0x456 * 2) / 10] := by decide +kernel

/-- C05, simple packing: the GRIB formula for every `R`, `E`, `D` and packed integer. -/
theorem C05_scaling_simple (R : Rat) (E D : Int) (x : Nat) :
    scaleSimple R E D x = gribValue R E D x := by
  simp only [scaleSimple, gribValue]
  rw [codesPower_eq E 2 (by decide), codesPower_eq (-D) 10 (by decide), Rat.add_comm]
  rfl

/-- C05, CCSDS packing, decimal scale factor 0 only.  Missing from the full property: every other
decimal scale factor, for which it is false, see `C05_ccsds_wrong_for_nonzero_scale`. -/
theorem C05_scaling_ccsds_partial (R : Rat) (E : Int) (x : Nat) :
    scaleCcsds R E 0 x = gribValue R E 0 x := by
  simp only [scaleCcsds, gribValue]
  rw [codesPower_eq E 2 (by decide), codesPower_eq 0 (-10) (by decide), Rat.add_comm]
  rfl

/-- C05, what CCSDS decoding computes: the decimal factor is `(-10)^D`. -/
theorem C05_ccsds_actual (R : Rat) (E D : Int) (x : Nat) :
    scaleCcsds R E D x = (R + x * (2 : Rat) ^ E) * (-10 : Rat) ^ D := by
  simp only [scaleCcsds]
  rw [codesPower_eq E 2 (by decide), codesPower_eq D (-10) (by decide), Rat.add_comm]
  rfl

theorem neg_ten_pow_ne (D : Int) (hD : D ≠ 0) : (-10 : Rat) ^ D ≠ (10 : Rat) ^ (-D) := by
  have key : ∀ n : Nat, n ≠ 0 → (-10 : Rat) ^ n * (10 : Rat) ^ n ≠ 1 := by
    intro n hn h
    have hc : (((-10) ^ n * 10 ^ n : Int) : Rat) = ((1 : Int) : Rat) := by
      rw [Rat.intCast_mul, Rat.intCast_pow, Rat.intCast_pow]
      exact h
    have hi : ((-10) ^ n * 10 ^ n : Int) = 1 := Rat.intCast_inj.mp hc
    have ha := congrArg Int.natAbs hi
    rw [Int.natAbs_mul, Int.natAbs_pow, Int.natAbs_pow] at ha
    have : 1 < (10 : Nat) ^ n := Nat.one_lt_pow hn (by omega)
    have h1 := Nat.eq_one_of_mul_eq_one_left ha
    have h2 : (10 : Nat) ^ n = 1 := h1
    omega
  have hne : ∀ n : Nat, (10 : Rat) ^ n ≠ 0 := fun n => by
    have := Rat.pow_pos (a := 10) (n := n) (by decide)
    intro h; rw [h] at this; exact absurd this (by decide)
  have hne' : ∀ n : Nat, n ≠ 0 → (-10 : Rat) ^ n ≠ 0 := fun n hn h => by
    have hc : (((-10) ^ n : Int) : Rat) = ((0 : Int) : Rat) := by
      rw [Rat.intCast_pow]; exact h
    have hi := Rat.intCast_inj.mp hc
    have ha := congrArg Int.natAbs hi
    rw [Int.natAbs_pow] at ha
    have : 0 < (10 : Nat) ^ n := Nat.pow_pos (by omega)
    have h2 : (10 : Nat) ^ n = 0 := ha
    omega
  intro h
  rcases Int.le_total D 0 with hneg | hpos
  · obtain ⟨n, hn⟩ : ∃ n : Nat, D = -(n : Int) := ⟨D.natAbs, by omega⟩
    subst hn
    have hn0 : n ≠ 0 := by omega
    rw [Int.neg_neg, Rat.zpow_neg, Rat.zpow_natCast, Rat.zpow_natCast] at h
    apply key n hn0
    rw [← h, Rat.mul_inv_cancel _ (hne' n hn0)]
  · obtain ⟨n, hn⟩ : ∃ n : Nat, D = (n : Int) := ⟨D.natAbs, by omega⟩
    subst hn
    have hn0 : n ≠ 0 := by omega
    rw [Rat.zpow_neg, Rat.zpow_natCast, Rat.zpow_natCast] at h
    apply key n hn0
    rw [h, Rat.inv_mul_cancel _ (hne n)]

/-- C05 is false for CCSDS at every nonzero decimal scale factor: every value whose unscaled part
is not zero comes back wrong. -/
theorem C05_ccsds_wrong_for_nonzero_scale (R : Rat) (E D : Int) (x : Nat) (hD : D ≠ 0)
    (hv : R + x * (2 : Rat) ^ E ≠ 0) : scaleCcsds R E D x ≠ gribValue R E D x := by
  rw [C05_ccsds_actual, gribValue]
  intro h
  apply neg_ten_pow_ne D hD
  have h2 := congrArg (fun y => (R + x * (2 : Rat) ^ E)⁻¹ * y) h
  simp only [← Rat.mul_assoc] at h2
  rw [Rat.inv_mul_cancel _ hv, Rat.one_mul, Rat.one_mul] at h2
  exact h2

/-- Non-vacuity of C05: a packed 7 with R=3, E=2, D=1 is 3.1 in simple packing, -310 in CCSDS. -/
example : scaleSimple 3 2 1 7 = 31 / 10 ∧ scaleCcsds 3 2 1 7 = -310 ∧ gribValue 3 2 1 7 = 31 / 10 := by
  decide +kernel

end GJ
