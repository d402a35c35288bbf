import Verif.Lemmas.Rounding
import Verif.Props.C03

/-!
# C56: extracted values in double precision

The value formula of GRIB, computed by the code in double precision, against the formula itself.
-/

namespace GJ
open Spec

theorem gribValue_eq (R : Rat) (E D : Int) (X : Nat) :
    gribValue R E D X = ((X : Rat) * (2 : Rat) ^ E + R) * (10 : Rat) ^ (-D) := by
  rw [add_comm]
  rfl

theorem scaled_product {fl : Rat → Rat} (hf : Rounding fl) (E : Int) (hE : -1074 ≤ E ∧ E ≤ 971) (X : Nat)
    (hX : X < 2 ^ 53) : fl (fl X * codesPowerR fl E 2) = (X : Rat) * (2 : Rat) ^ E := by
  rw [hf.exact (isDouble_nat X hX), codesPowerR_two hf E hE.1 hE.2, hf.exact (isDouble_scaled X hX E hE.1 hE.2)]

/-- **C56.**  Simple packing: whatever the rounding of the processor, the value returned for a packed integer differs
from the value the GRIB standard gives it by at most `|D| + 3` units of `2^-53`, relative to that value.  Missing from the
full property: integers of more than 53 bits, decimal scale factors beyond 300, values below `2^-1021` in size other than
zero, and values that overflow. -/
theorem C56_error_bound_partial (fl : Rat → Rat) (hf : Rounding fl) (R : Rat) (hR : IsDouble R) (E D : Int)
    (hE : -1074 ≤ E ∧ E ≤ 971) (hD : D.natAbs ≤ 300) (X : Nat) (hX : X < 2 ^ 53)
    (hS : |R + X * (2 : Rat) ^ E| ≤ (2 : Rat) ^ (1023 : Int)) (hT : FullPrecision 1 (gribValue R E D X)) :
    |scaleSimpleR fl R E D X - gribValue R E D X| ≤
      (D.natAbs + 3) * (2 : Rat) ^ (-53 : Int) * |gribValue R E D X| := by
  rw [scaleSimpleR, scaled_product hf E hE X hX]
  rw [gribValue_eq] at hT ⊢
  rw [add_comm] at hS
  have h1 := hf.near_add (isDouble_scaled X hX E hE.1 hE.2) hR hS
  have h2 := codesPowerR_ten hf (-D) (by rw [Int.natAbs_neg]; exact hD)
  have h3 := h1.mul h2
  rw [Int.natAbs_neg] at h3
  have h4 := (hf.near (h3.range (by omega) hT)).trans h3
  have h5 := h4.error (by omega)
  refine le_trans h5 (le_of_eq ?_)
  rw [ulpHalf]
  push_cast
  ring

/-- **C56.**  Decimal scale factor 0, simple packing: the value returned is a double closest to the value of the
standard.  No range condition is needed except that the value fits a double. -/
theorem C56_correctly_rounded_simple (fl : Rat → Rat) (hf : Rounding fl) (R : Rat) (E : Int)
    (hE : -1074 ≤ E ∧ E ≤ 971) (X : Nat) (hX : X < 2 ^ 53) (hS : InDoubleRange (gribValue R E 0 X)) :
    Closest (scaleSimpleR fl R E 0 X) (gribValue R E 0 X) := by
  have e : gribValue R E 0 X = (X : Rat) * (2 : Rat) ^ E + R := by
    rw [gribValue_eq, neg_zero, zpow_zero, mul_one]
  rw [e] at hS ⊢
  have h1 := hf _ hS
  have e2 : scaleSimpleR fl R E 0 X = fl ((X : Rat) * (2 : Rat) ^ E + R) := by
    rw [scaleSimpleR, scaled_product hf E hE X hX]
    have : codesPowerR fl (-0) 10 = 1 := rfl
    rw [this, mul_one, hf.exact h1.1]
  rw [e2]
  exact h1

/-- **C56.**  The same for CCSDS packing; for other decimal scale factors see `C05_ccsds_wrong_for_nonzero_scale`. -/
theorem C56_correctly_rounded_ccsds_partial (fl : Rat → Rat) (hf : Rounding fl) (R : Rat) (E : Int)
    (hE : -1074 ≤ E ∧ E ≤ 971) (X : Nat) (hX : X < 2 ^ 53) (hS : InDoubleRange (gribValue R E 0 X)) :
    Closest (scaleCcsdsR fl R E 0 X) (gribValue R E 0 X) := by
  have h := C56_correctly_rounded_simple fl hf R E hE X hX hS
  exact h

/-- C56 is false of CCSDS packing with another decimal scale factor, whatever the rounding: a packed 1 with decimal factor
1, which stands for 0.1, is returned as -10. -/
theorem C56_ccsds_decimal_factor_wrong (fl : Rat → Rat) (hf : Rounding fl) :
    scaleCcsdsR fl 0 0 1 1 = -10 ∧ gribValue 0 0 1 1 = 1 / 10 := by
  refine ⟨?_, by decide +kernel⟩
  have h1 := scaled_product hf 0 (by norm_num) 1 (by norm_num)
  have h2 : codesPowerR fl 1 (-10) = -10 := rfl
  have h3 : IsDouble (1 : Rat) := ⟨1, 0, by norm_num, by norm_num, by norm_num, by norm_num⟩
  have h4 : IsDouble (-10 : Rat) := ⟨-10, 0, by norm_num, by norm_num, by norm_num, by norm_num⟩
  rw [scaleCcsdsR, h1, h2]
  have e : ((1 : Nat) : Rat) * (2 : Rat) ^ (0 : Int) + 0 = 1 := by norm_num
  rw [e, hf.exact h3, one_mul, hf.exact h4]

/-- **C56.**  Values that are doubles come back exactly when the decimal scale factor is 0. -/
theorem C56_exact_when_representable (fl : Rat → Rat) (hf : Rounding fl) (R : Rat) (E : Int)
    (hE : -1074 ≤ E ∧ E ≤ 971) (X : Nat) (hX : X < 2 ^ 53) (hS : IsDouble (gribValue R E 0 X)) :
    scaleSimpleR fl R E 0 X = gribValue R E 0 X ∧ scaleCcsdsR fl R E 0 X = gribValue R E 0 X := by
  have h := C56_correctly_rounded_simple fl hf R E hE X hX (IsDouble.finite hS)
  have h1 := h.2 _ hS
  rw [sub_self, abs_zero] at h1
  have h2 := sub_eq_zero.mp (abs_eq_zero.mp (le_antisymm h1 (abs_nonneg _)))
  exact ⟨h2, h2⟩

theorem codesPowerR_ten_pos {fl : Rat → Rat} (hf : Rounding fl) (s : Int) (hs : s.natAbs ≤ 300) :
    0 < codesPowerR fl s 10 := by
  obtain ⟨t, h, h1, -⟩ := codesPowerR_ten hf s hs
  rw [h]
  have hu1 := ulpHalf_lt
  have h0 : 0 < 1 - ulpHalf := by linarith [show (1 : Rat) / 2 ^ 50 < 1 by norm_num]
  exact mul_pos (zpow_pos (by norm_num) s) (lt_of_lt_of_le (pow_pos h0 _) h1)

/-- **C56.**  Rounding never reverses the order of two values of a simple-packed field. -/
theorem C56_order_kept (fl : Rat → Rat) (hf : Rounding fl) (R : Rat) (hR : IsDouble R) (E D : Int)
    (hE : -1074 ≤ E ∧ E ≤ 971) (hD : D.natAbs ≤ 300) (X Y : Nat) (hXY : X ≤ Y) (hY : Y < 2 ^ 53)
    (hS : ∀ Z, Z = X ∨ Z = Y → |R + Z * (2 : Rat) ^ E| ≤ (2 : Rat) ^ (1023 : Int))
    (hT : ∀ Z, Z = X ∨ Z = Y → FullPrecision 1 (gribValue R E D Z)) :
    scaleSimpleR fl R E D X ≤ scaleSimpleR fl R E D Y := by
  have hX : X < 2 ^ 53 := by omega
  have hin : ∀ Z, Z = X ∨ Z = Y → Z < 2 ^ 53 → InDoubleRange ((Z : Rat) * (2 : Rat) ^ E + R) ∧
      InDoubleRange (fl ((Z : Rat) * (2 : Rat) ^ E + R) * codesPowerR fl (-D) 10) := by
    intro Z hZ hZ53
    have hS' := hS Z hZ
    rw [add_comm] at hS'
    refine ⟨inRange_of_le hS', ?_⟩
    have h1 := hf.near_add (isDouble_scaled Z hZ53 E hE.1 hE.2) hR hS'
    have h2 := codesPowerR_ten hf (-D) (by rw [Int.natAbs_neg]; exact hD)
    have h3 := h1.mul h2
    rw [Int.natAbs_neg] at h3
    have hT' := hT Z hZ
    rw [gribValue_eq] at hT'
    rcases h3.range (by omega) hT' with h | h
    · rw [h]; exact IsDouble.finite isDouble_zero
    · exact inRange_of_le h.2
  rw [scaleSimpleR, scaleSimpleR, scaled_product hf E hE X hX, scaled_product hf E hE Y hY]
  refine hf.mono ?_ (hin X (.inl rfl) hX).2 (hin Y (.inr rfl) hY).2
  refine mul_le_mul_of_nonneg_right ?_ (le_of_lt (codesPowerR_ten_pos hf (-D) (by rw [Int.natAbs_neg]; exact hD)))
  refine hf.mono ?_ (hin X (.inl rfl) hX).1 (hin Y (.inr rfl) hY).1
  have : (X : Rat) ≤ (Y : Rat) := by exact_mod_cast hXY
  linarith [mul_le_mul_of_nonneg_right this (le_of_lt (two_zpow_pos E))]

/-- **C56, for the decoder.**  Decoding positions `o .. o+n-1` of a simple-packed field of up to 53 bits per value
returns, at each position, a number within the stated distance of the value the standard gives the integer stored there. -/
theorem C56_decoded_values_partial (fl : Rat → Rat) (hf : Rounding fl) (R : Rat) (hR : IsDouble R) (E D : Int)
    (hE : -1074 ≤ E ∧ E ≤ 971) (hD : D.natAbs ≤ 300) (bpv : Nat) (hb : 0 < bpv) (h53 : bpv ≤ 53) (sec : List UInt8)
    (o n : Nat) (h : (o + n) * bpv ≤ 8 * sec.length)
    (hS : ∀ i < n, |R + packedInt sec bpv (o + i) * (2 : Rat) ^ E| ≤ (2 : Rat) ^ (1023 : Int))
    (hT : ∀ i < n, FullPrecision 1 (gribValue R E D (packedInt sec bpv (o + i)))) :
    ∃ vs : List Rat, decodeSimple (scaleSimpleR fl R E D) R bpv (memRead sec) ⟨o, n⟩ = .ok vs ∧ vs.length = n ∧
      ∀ (i : Nat) (v : Rat), vs[i]? = some v →
        |v - gribValue R E D (packedInt sec bpv (o + i))| ≤
          (D.natAbs + 3) * (2 : Rat) ^ (-53 : Int) * |gribValue R E D (packedInt sec bpv (o + i))| := by
  have hmono : o * bpv ≤ (o + n) * bpv := Nat.mul_le_mul_right _ (by omega)
  rw [decodeSimple_law _ R bpv hb (by omega) sec (memRead sec) ⟨o, n⟩
    (memRead_ok sec _ (by simp only; omega)) h]
  refine ⟨_, rfl, by simp, ?_⟩
  intro i v hv
  rw [List.getElem?_map] at hv
  obtain ⟨j, hj, hjv⟩ := Option.map_eq_some_iff.mp hv
  have hi : i < n := by
    by_contra hc
    rw [List.getElem?_eq_none (by simp; omega)] at hj
    cases hj
  rw [List.getElem?_range hi] at hj
  have e := Option.some.inj hj
  subst e
  rw [← hjv, readerInt_exact sec bpv (o + i) (.inl (by omega))]
  have hlt : packedInt sec bpv (o + i) < 2 ^ 53 := by
    have h1 : packedInt sec bpv (o + i) < 2 ^ bpv := packedInt_lt sec bpv (o + i)
    exact lt_of_lt_of_le h1 (Nat.pow_le_pow_right (by norm_num) h53)
  exact C56_error_bound_partial fl hf R hR E D hE hD _ hlt (hS i hi) (hT i hi)

/-- Values need not be the closest double when the decimal scale factor is not 0: a packed 3 with factor 1 is returned as
0.30000000000000004 although 0.3 lies nearer to another double. -/
theorem C56_not_always_closest :
    Rounding ieee ∧ scaleSimpleR ieee 0 0 1 3 = 5404319552844596 / 2 ^ 54 ∧
    ¬ Closest (scaleSimpleR ieee 0 0 1 3) (gribValue 0 0 1 3) := by
  have e : scaleSimpleR ieee 0 0 1 3 = 5404319552844596 / 2 ^ 54 := by decide +kernel
  refine ⟨ieee_rounding, e, ?_⟩
  intro h
  have h1 := h.2 (5404319552844595 * (2 : Rat) ^ (-54 : Int))
    ⟨5404319552844595, -54, by norm_num, by norm_num, by norm_num, by norm_num⟩
  rw [e] at h1
  have h2 : gribValue 0 0 1 3 = 3 / 10 := by decide +kernel
  rw [h2] at h1
  exact absurd h1 (by decide +kernel)

/-- Non-vacuity of C56: reference value 1/2, binary factor -10, decimal factor 2 and the packed integer 1234 meet the
conditions, with the rounding of the processor; so do two packed integers of a section. -/
example : Rounding ieee ∧ IsDouble (1 / 2) ∧ |(1 / 2 : Rat) + (1234 : Nat) * (2 : Rat) ^ (-10 : Int)| ≤ (2 : Rat) ^ (1023 : Int) ∧
    FullPrecision 1 (gribValue (1 / 2) (-10) 2 1234) ∧ scaleSimpleR ieee (1 / 2) (-10) 2 1234 ≠ gribValue (1 / 2) (-10) 2 1234 :=
  ⟨ieee_rounding, ⟨1, -1, by norm_num, by norm_num, by norm_num, by norm_num⟩, by decide +kernel,
    .inr ⟨by decide +kernel, by decide +kernel⟩, by decide +kernel⟩

example : ∀ i < 2, |(1 : Rat) + packedInt [0x12, 0x34, 0x56] 12 (0 + i) * (2 : Rat) ^ (1 : Int)| ≤ (2 : Rat) ^ (1023 : Int) ∧
    FullPrecision 1 (gribValue 1 1 1 (packedInt [0x12, 0x34, 0x56] 12 (0 + i))) := by
  intro i hi
  have : i = 0 ∨ i = 1 := by omega
  rcases this with rfl | rfl
  · exact ⟨by decide +kernel, .inr ⟨by decide +kernel, by decide +kernel⟩⟩
  · exact ⟨by decide +kernel, .inr ⟨by decide +kernel, by decide +kernel⟩⟩

/-- A value that fits a double but is not one, with decimal factor 0: the hypotheses of the rounding theorem hold and
rounding does happen. -/
example : InDoubleRange (gribValue (1 / 2 ^ 60) 0 0 1) ∧ scaleSimpleR ieee (1 / 2 ^ 60) 0 0 1 = 1 ∧
    scaleCcsdsR ieee (1 / 2 ^ 60) 0 0 1 = 1 := by
  refine ⟨?_, by decide +kernel, by decide +kernel⟩
  rw [InDoubleRange]
  decide +kernel

end GJ
