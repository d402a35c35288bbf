import Verif.Model.Rounding
import Verif.Spec.Rounding
import Verif.Lemmas.Scaling
import Mathlib.Tactic.Linarith
import Mathlib.Tactic.Positivity
import Mathlib.Tactic.Ring
import Mathlib.Tactic.FieldSimp
import Mathlib.Tactic.NormNum

/-! # Facts about rounding to double precision -/

namespace GJ
open Spec

theorem two_zpow_pos (k : Int) : (0 : Rat) < (2 : Rat) ^ k := zpow_pos (by norm_num) k

theorem two_zpow_succ (k : Int) : (2 : Rat) ^ (k + 1) = 2 * (2 : Rat) ^ k := by
  rw [zpow_add₀ (by norm_num : (2 : Rat) ≠ 0), zpow_one, mul_comm]

theorem two_zpow_le {a b : Int} (h : a ≤ b) : (2 : Rat) ^ a ≤ (2 : Rat) ^ b :=
  zpow_le_zpow_right₀ (by norm_num) h

theorem two_zpow_add (a b : Int) : (2 : Rat) ^ (a + b) = (2 : Rat) ^ a * (2 : Rat) ^ b :=
  zpow_add₀ (by norm_num) a b

theorem two_zpow_lt_iff {a b : Int} : (2 : Rat) ^ a < (2 : Rat) ^ b ↔ a < b :=
  zpow_lt_zpow_iff_right₀ (by norm_num)

theorem two_1024 : (2 : Rat) ^ (1024 : Int) = 2 ^ 54 * (2 : Rat) ^ (970 : Int) := by
  rw [show (1024 : Int) = 54 + 970 by norm_num, two_zpow_add]
  congr 1

theorem two_971 : (2 : Rat) ^ (971 : Int) = 2 * (2 : Rat) ^ (970 : Int) := two_zpow_succ 970

/-- Every double rounds to a finite double. -/
theorem IsDouble.finite {q : Rat} (h : IsDouble q) : InDoubleRange q := by
  obtain ⟨m, k, hm, -, hk, rfl⟩ := h
  have h1 : |((m : Int) : Rat)| ≤ 2 ^ 53 - 1 := by
    have : |m| ≤ 2 ^ 53 - 1 := by omega
    calc |((m : Int) : Rat)| = ((|m| : Int) : Rat) := by push_cast; rfl
      _ ≤ ((2 ^ 53 - 1 : Int) : Rat) := by exact_mod_cast this
      _ = 2 ^ 53 - 1 := by norm_num
  have h2 : (2 : Rat) ^ k ≤ (2 : Rat) ^ (971 : Int) := two_zpow_le hk
  rw [InDoubleRange, abs_mul, abs_of_pos (two_zpow_pos k), two_1024]
  have h5 := two_zpow_pos 970
  have h6 : |((m : Int) : Rat)| * (2 : Rat) ^ k ≤ (2 ^ 53 - 1) * (2 : Rat) ^ (971 : Int) :=
    mul_le_mul h1 h2 (le_of_lt (two_zpow_pos k)) (by norm_num)
  rw [two_971] at h6
  generalize (2 : Rat) ^ (970 : Int) = A at h5 h6 ⊢
  linarith

/-- Rounding leaves doubles alone. -/
theorem Spec.Rounding.exact {fl : Rat → Rat} (hf : Rounding fl) {q : Rat} (h : IsDouble q) : fl q = q := by
  have h1 := (hf q (IsDouble.finite h)).2 q h
  rw [sub_self, abs_zero] at h1
  exact sub_eq_zero.mp (abs_eq_zero.mp (le_antisymm h1 (abs_nonneg _)))

/-- The exponent of the spacing of doubles around `q`. -/
def spacing (q : Rat) : Int := max (Int.log 2 |q| - 52) (-1074)

theorem spacing_ge (q : Rat) : -1074 ≤ spacing q := le_max_right _ _

theorem log_le {q : Rat} (hq : q ≠ 0) : (2 : Rat) ^ (Int.log 2 |q|) ≤ |q| := by
  exact_mod_cast Int.zpow_log_le_self (b := 2) (by norm_num) (abs_pos.mpr hq)

theorem lt_log (q : Rat) : |q| < (2 : Rat) ^ (Int.log 2 |q| + 1) := by
  exact_mod_cast Int.lt_zpow_succ_log_self (b := 2) (by norm_num) |q|

theorem scaled_lt (q : Rat) : |q / (2 : Rat) ^ spacing q| < 2 ^ 53 := by
  rw [abs_div, abs_of_pos (two_zpow_pos _), div_lt_iff₀ (two_zpow_pos _)]
  have h1 := lt_log q
  have h2 : (2 : Rat) ^ (Int.log 2 |q| + 1) ≤ (2 : Rat) ^ (53 + spacing q) :=
    two_zpow_le (by have := le_max_left (Int.log 2 |q| - 52) (-1074); rw [spacing]; omega)
  rw [two_zpow_add 53] at h2
  exact lt_of_lt_of_le h1 h2

theorem spacing_le {q : Rat} (hq : q ≠ 0) (hf : InDoubleRange q) : spacing q ≤ 971 := by
  have h1 := log_le hq
  have h2 : (2 : Rat) ^ (Int.log 2 |q|) < (2 : Rat) ^ (1024 : Int) := by
    have := two_zpow_pos 970
    have h3 : |q| < (2 : Rat) ^ (1024 : Int) - (2 : Rat) ^ (970 : Int) := hf
    generalize (2 : Rat) ^ (970 : Int) = A at this h3
    generalize (2 : Rat) ^ (1024 : Int) = B at h3 ⊢
    linarith
  have h3 := two_zpow_lt_iff.mp h2
  rw [spacing]
  omega

/-- A number closest to `q` among the multiples of the spacing is a double. -/
theorem grid_isDouble {q : Rat} (hq : q ≠ 0) (hf : InDoubleRange q) (m : Int)
    (hm : |(m : Rat) - q / (2 : Rat) ^ spacing q| ≤ 1 / 2) : IsDouble (m * (2 : Rat) ^ spacing q) := by
  have hk := spacing_le hq hf
  have hk0 := spacing_ge q
  have hy := scaled_lt q
  have hfin : |q| < (2 : Rat) ^ (1024 : Int) - (2 : Rat) ^ (970 : Int) := hf
  have habs : |(m : Rat)| ≤ |q / (2 : Rat) ^ spacing q| + 1 / 2 := by
    have h1 := abs_add_le ((m : Rat) - q / (2 : Rat) ^ spacing q) (q / (2 : Rat) ^ spacing q)
    rw [sub_add_cancel] at h1
    linarith
  have hmi : |m| ≤ 2 ^ 53 := by
    have h1 : |(m : Rat)| < 2 ^ 53 + 1 := by linarith
    have h3 : |m| < 2 ^ 53 + 1 := by exact_mod_cast h1
    omega
  rcases lt_or_eq_of_le hmi with h | h
  · exact ⟨m, spacing q, h, hk0, hk, rfl⟩
  · rcases lt_or_eq_of_le hk with h1 | h1
    · refine ⟨m / 2, spacing q + 1, ?_, by omega, by omega, ?_⟩
      · rcases abs_eq (by norm_num : (0 : Int) ≤ 2 ^ 53) |>.mp h with e | e <;> rw [e] <;> norm_num
      · have e : (m : Rat) = 2 * ((m / 2 : Int) : Rat) := by
          have : m = 2 * (m / 2) := by
            rcases abs_eq (by norm_num : (0 : Int) ≤ 2 ^ 53) |>.mp h with e | e <;> rw [e] <;> norm_num
          exact_mod_cast this
        generalize m / 2 = j at e
        rw [two_zpow_succ, e]
        ring
    · exfalso
      rw [h1] at habs
      have h2 : |q / (2 : Rat) ^ (971 : Int)| < 2 ^ 53 - 1 / 2 := by
        rw [abs_div, abs_of_pos (two_zpow_pos _), div_lt_iff₀ (two_zpow_pos _)]
        rw [two_1024] at hfin
        rw [two_971]
        generalize (2 : Rat) ^ (970 : Int) = A at hfin ⊢
        linarith
      have h3 : |(m : Rat)| = 2 ^ 53 := by
        have : ((|m| : Int) : Rat) = ((2 ^ 53 : Int) : Rat) := by rw [h]
        push_cast at this
        exact this
      rw [h3] at habs
      linarith

/-- Standard error bound of one rounding, in the range of full precision. -/
theorem Spec.Rounding.error {fl : Rat → Rat} (hr : Rounding fl) {q : Rat} (hf : InDoubleRange q)
    (hn : (2 : Rat) ^ (-1022 : Int) ≤ |q|) : |fl q - q| ≤ (2 : Rat) ^ (-53 : Int) * |q| := by
  have hq : q ≠ 0 := by
    rintro rfl
    have := two_zpow_pos (-1022)
    rw [abs_zero] at hn
    linarith
  have hlog : -1022 ≤ Int.log 2 |q| := by
    have h1 := lt_of_le_of_lt hn (lt_log q)
    have := two_zpow_lt_iff.mp h1
    omega
  have hs : spacing q = Int.log 2 |q| - 52 := max_eq_left (by omega)
  have hm := abs_sub_round (q / (2 : Rat) ^ spacing q)
  rw [abs_sub_comm] at hm
  have h1 := (hr q hf).2 _ (grid_isDouble hq hf _ hm)
  refine le_trans h1 ?_
  have hp := two_zpow_pos (spacing q)
  have e : (round (q / (2 : Rat) ^ spacing q) : Rat) * (2 : Rat) ^ spacing q - q =
      ((round (q / (2 : Rat) ^ spacing q) : Rat) - q / (2 : Rat) ^ spacing q) * (2 : Rat) ^ spacing q := by
    rw [sub_mul, div_mul_cancel₀ _ (ne_of_gt hp)]
  rw [e, abs_mul, abs_of_pos hp]
  have h2 := log_le hq
  have h3 : (1 / 2 : Rat) * (2 : Rat) ^ spacing q = (2 : Rat) ^ (-53 : Int) * (2 : Rat) ^ (Int.log 2 |q|) := by
    rw [hs, ← two_zpow_add, show Int.log 2 |q| - 52 = (-53 + Int.log 2 |q|) + 1 by ring, two_zpow_succ]
    ring
  calc |(round (q / (2 : Rat) ^ spacing q) : Rat) - q / (2 : Rat) ^ spacing q| * (2 : Rat) ^ spacing q
      ≤ 1 / 2 * (2 : Rat) ^ spacing q := mul_le_mul_of_nonneg_right hm (le_of_lt hp)
    _ = (2 : Rat) ^ (-53 : Int) * (2 : Rat) ^ (Int.log 2 |q|) := h3
    _ ≤ (2 : Rat) ^ (-53 : Int) * |q| := mul_le_mul_of_nonneg_left h2 (le_of_lt (two_zpow_pos _))

/-- Round to nearest, ties to even, is a rounding function. -/
theorem ieee_rounding : Rounding ieee := by
  intro q hf
  by_cases hq : q = 0
  · subst hq
    have e : ieee 0 = 0 := by decide +kernel
    rw [e]
    exact ⟨⟨0, 0, by norm_num, by norm_num, by norm_num, by norm_num⟩, fun d' _ => by rw [sub_self, abs_zero]; exact abs_nonneg _⟩
  · obtain ⟨y, hy⟩ : ∃ y, y = q / (2 : Rat) ^ spacing q := ⟨_, rfl⟩
    obtain ⟨m, hm, hie⟩ : ∃ m : Int, |(m : Rat) - y| ≤ 1 / 2 ∧ ieee q = m * (2 : Rat) ^ spacing q := by
      refine ⟨_, ?_, rfl⟩
      have h0 : q / (2 : Rat) ^ (max (Int.log 2 |q| - 52) (-1074)) = y := hy.symm
      rw [h0]
      have h1 := Int.floor_le y
      have h2 := Int.lt_floor_add_one y
      split
      · rw [abs_le]; constructor <;> linarith
      · split
        · push_cast; rw [abs_le]; constructor <;> linarith
        · split
          · rw [abs_le]; constructor <;> linarith
          · push_cast; rw [abs_le]; constructor <;> linarith
    have hp := two_zpow_pos (spacing q)
    rw [hie]
    refine ⟨grid_isDouble hq hf m (by rw [← hy]; exact hm), ?_⟩
    have hqy : q = y * (2 : Rat) ^ spacing q := by rw [hy, div_mul_cancel₀ _ (ne_of_gt hp)]
    have hgrid : ∀ j : Int, |(m : Rat) * (2 : Rat) ^ spacing q - q| ≤ |(j : Rat) * (2 : Rat) ^ spacing q - q| := by
      intro j
      have e1 : ∀ a : Int, |(a : Rat) * (2 : Rat) ^ spacing q - q| = |(a : Rat) - y| * (2 : Rat) ^ spacing q := by
        intro a
        rw [← abs_of_pos hp, ← abs_mul, abs_of_pos hp, sub_mul, ← hqy]
      rw [e1, e1]
      apply mul_le_mul_of_nonneg_right _ (le_of_lt hp)
      by_cases hj : j = m
      · rw [hj]
      · have h1 : (1 : Rat) ≤ |(j : Rat) - m| := by
          have : 1 ≤ |j - m| := Int.one_le_abs (sub_ne_zero.mpr hj)
          exact_mod_cast this
        have h2 := abs_sub_le (j : Rat) y m
        rw [abs_sub_comm y (m : Rat)] at h2
        linarith
    intro d' hd'
    obtain ⟨m', k', hm', hk0', hk', rfl⟩ := hd'
    by_cases hkk : spacing q ≤ k'
    · have h1 := hgrid (m' * 2 ^ (k' - spacing q).toNat)
      have e : ((m' * 2 ^ (k' - spacing q).toNat : Int) : Rat) * (2 : Rat) ^ spacing q = m' * (2 : Rat) ^ k' := by
        push_cast
        rw [mul_assoc, ← zpow_natCast, ← two_zpow_add]
        congr 2
        omega
      rw [e] at h1
      exact h1
    · have hs : spacing q = Int.log 2 |q| - 52 := by
        rcases max_choice (Int.log 2 |q| - 52) (-1074) with h | h
        · exact h
        · have : spacing q = -1074 := h
          omega
      have hlog := log_le hq
      have hd : |(m' : Rat) * (2 : Rat) ^ k'| < (2 : Rat) ^ (Int.log 2 |q|) := by
        rw [abs_mul, abs_of_pos (two_zpow_pos k')]
        have h1 : |(m' : Rat)| < (2 : Rat) ^ (53 : Int) := by
          have : ((|m'| : Int) : Rat) < ((2 ^ 53 : Int) : Rat) := by exact_mod_cast hm'
          push_cast at this
          rw [show ((2 : Rat) ^ (53 : Int)) = 2 ^ 53 by norm_num]
          exact this
        calc |(m' : Rat)| * (2 : Rat) ^ k' < (2 : Rat) ^ (53 : Int) * (2 : Rat) ^ k' :=
              mul_lt_mul_of_pos_right h1 (two_zpow_pos _)
          _ = (2 : Rat) ^ (53 + k') := (two_zpow_add _ _).symm
          _ ≤ (2 : Rat) ^ (Int.log 2 |q|) := two_zpow_le (by omega)
      have hpow : (2 : Rat) ^ (Int.log 2 |q|) = 2 ^ 52 * (2 : Rat) ^ spacing q := by
        rw [hs, show Int.log 2 |q| = 52 + (Int.log 2 |q| - 52) by ring, two_zpow_add]
        norm_num
      generalize (m' : Rat) * (2 : Rat) ^ k' = d at hd ⊢
      generalize (2 : Rat) ^ (Int.log 2 |q|) = w at hlog hd hpow
      rcases le_or_gt 0 q with h | h
      · have h1 := hgrid (2 ^ 52)
        have e : (((2 ^ 52 : Int)) : Rat) * (2 : Rat) ^ spacing q = w := by rw [hpow]; norm_num
        rw [e] at h1
        refine le_trans h1 ?_
        rw [abs_of_nonneg h] at hlog
        rw [abs_sub_comm w, abs_of_nonneg (by linarith), abs_sub_comm d]
        have := le_abs_self d
        exact le_trans (by linarith) (le_abs_self (q - d))
      · have h1 := hgrid (-(2 ^ 52))
        have e : (((-(2 ^ 52) : Int)) : Rat) * (2 : Rat) ^ spacing q = -w := by rw [hpow]; norm_num
        rw [e] at h1
        refine le_trans h1 ?_
        rw [abs_of_neg h] at hlog
        rw [abs_of_nonneg (by linarith)]
        have := neg_abs_le d
        exact le_trans (by linarith) (le_abs_self (d - q))

/-- The relative size of one rounding error. -/
def ulpHalf : Rat := (2 : Rat) ^ (-53 : Int)

theorem ulpHalf_pos : 0 < ulpHalf := two_zpow_pos _

theorem ulpHalf_eq : ulpHalf = 1 / 2 ^ 53 := by
  rw [ulpHalf, zpow_neg, one_div]
  rfl

theorem ulpHalf_lt : ulpHalf < 1 / 2 ^ 50 := by rw [ulpHalf_eq]; norm_num

/-- `a` is `b` up to the error of `n` roundings. -/
def Near (n : Nat) (a b : Rat) : Prop := ∃ t : Rat, a = b * t ∧ (1 - ulpHalf) ^ n ≤ t ∧ t ≤ (1 + ulpHalf) ^ n

theorem Near.refl (a : Rat) : Near 0 a a := ⟨1, by ring, by simp, by simp⟩

theorem Near.mul {n m : Nat} {a b c d : Rat} (h : Near n a b) (g : Near m c d) : Near (n + m) (a * c) (b * d) := by
  obtain ⟨t, rfl, h1, h2⟩ := h
  obtain ⟨r, rfl, g1, g2⟩ := g
  have hu := ulpHalf_pos
  have hu1 := ulpHalf_lt
  have h0 : 0 ≤ 1 - ulpHalf := by linarith [show (1 : Rat) / 2 ^ 50 ≤ 1 by norm_num]
  have hr : 0 ≤ r := le_trans (pow_nonneg h0 m) g1
  refine ⟨t * r, by ring, ?_, ?_⟩
  · rw [pow_add]
    exact mul_le_mul h1 g1 (pow_nonneg h0 m) (le_trans (pow_nonneg h0 n) h1)
  · rw [pow_add]
    exact mul_le_mul h2 g2 hr (pow_nonneg (by linarith) n)

theorem Near.trans {n m : Nat} {a b c : Rat} (h : Near n a b) (g : Near m b c) : Near (m + n) a c := by
  obtain ⟨t, rfl, h1, h2⟩ := h
  have := Near.mul g (⟨t, by ring, h1, h2⟩ : Near n t 1)
  rwa [mul_one] at this

theorem Near.mul_left {n : Nat} {a b : Rat} (h : Near n a b) (c : Rat) : Near n (a * c) (b * c) := by
  have := h.mul (Near.refl c)
  rwa [Nat.add_zero] at this

theorem Near.weaken {n m : Nat} {a b : Rat} (h : Near n a b) (hm : n ≤ m) : Near m a b := by
  have hu := ulpHalf_pos
  have hu1 := ulpHalf_lt
  obtain ⟨t, rfl, h1, h2⟩ := h
  refine ⟨t, rfl, le_trans (pow_le_pow_of_le_one ?_ ?_ hm) h1, le_trans h2 (pow_le_pow_right₀ ?_ hm)⟩
  · linarith [show (1 : Rat) / 2 ^ 50 ≤ 1 by norm_num]
  · linarith
  · linarith

theorem one_add_pow_le : ∀ n : Nat, n ≤ 2 ^ 20 → (1 + ulpHalf) ^ n ≤ 1 + n * ulpHalf + (n * ulpHalf) ^ 2 := by
  intro n
  have hu := ulpHalf_pos
  have hu1 := ulpHalf_lt
  induction n with
  | zero => intro _; simp
  | succ n ih =>
    intro hn
    have h1 := ih (by omega)
    have hc : ((n : Nat) : Rat) ≤ 2 ^ 20 := by exact_mod_cast (by omega : n ≤ 2 ^ 20)
    have hc0 : (0 : Rat) ≤ (n : Rat) := by exact_mod_cast Nat.zero_le n
    have h2 : (n : Rat) * ulpHalf ≤ 1 := by
      calc (n : Rat) * ulpHalf ≤ 2 ^ 20 * (1 / 2 ^ 50) := mul_le_mul hc (le_of_lt hu1) (le_of_lt hu) (by norm_num)
        _ ≤ 1 := by norm_num
    have h3 : (n : Rat) * n * ulpHalf ≤ n := by
      have := mul_le_mul_of_nonneg_left h2 hc0
      linarith [this]
    have hsq : 0 < ulpHalf ^ 2 := by positivity
    have h4 : (n : Rat) * n * ulpHalf * ulpHalf ^ 2 ≤ n * ulpHalf ^ 2 := mul_le_mul_of_nonneg_right h3 (le_of_lt hsq)
    push_cast
    calc (1 + ulpHalf) ^ (n + 1) = (1 + ulpHalf) ^ n * (1 + ulpHalf) := pow_succ _ _
      _ ≤ (1 + n * ulpHalf + (n * ulpHalf) ^ 2) * (1 + ulpHalf) := mul_le_mul_of_nonneg_right h1 (by linarith)
      _ = 1 + (n + 1) * ulpHalf + (n * n * ulpHalf ^ 2 + n * ulpHalf ^ 2) + n * n * ulpHalf * ulpHalf ^ 2 := by ring
      _ ≤ 1 + (n + 1) * ulpHalf + (n * n * ulpHalf ^ 2 + n * ulpHalf ^ 2) + n * ulpHalf ^ 2 := by linarith
      _ ≤ 1 + (n + 1) * ulpHalf + ((n + 1) * ulpHalf) ^ 2 := by
        have : ((n + 1) * ulpHalf) ^ 2 = n * n * ulpHalf ^ 2 + 2 * (n * ulpHalf ^ 2) + ulpHalf ^ 2 := by ring
        rw [this]
        linarith

theorem one_add_pow_bound (n : Nat) (hn : n ≤ 2 ^ 20) : (1 + ulpHalf) ^ n ≤ 1 + (n + 1) * ulpHalf := by
  have hu := ulpHalf_pos
  have hu1 := ulpHalf_lt
  have hc : ((n : Nat) : Rat) ≤ 2 ^ 20 := by exact_mod_cast hn
  have hc0 : (0 : Rat) ≤ (n : Rat) := by exact_mod_cast Nat.zero_le n
  have h1 : (n : Rat) * n * ulpHalf ≤ 1 := by
    calc (n : Rat) * n * ulpHalf ≤ (2 ^ 20 * 2 ^ 20) * (1 / 2 ^ 50) :=
          mul_le_mul (mul_le_mul hc hc hc0 (by norm_num)) (le_of_lt hu1) (le_of_lt hu) (by norm_num)
      _ ≤ 1 := by norm_num
  have h2 : (n * ulpHalf) ^ 2 ≤ ulpHalf := by
    have := mul_le_mul_of_nonneg_right h1 (le_of_lt hu)
    calc (n * ulpHalf) ^ 2 = n * n * ulpHalf * ulpHalf := by ring
      _ ≤ 1 * ulpHalf := this
      _ = ulpHalf := by ring
  linarith [one_add_pow_le n hn]

theorem one_sub_pow_bound (n : Nat) : 1 - n * ulpHalf ≤ (1 - ulpHalf) ^ n := by
  have hu := ulpHalf_pos
  have hu1 := ulpHalf_lt
  have h0 : 0 ≤ 1 - ulpHalf := by linarith [show (1 : Rat) / 2 ^ 50 ≤ 1 by norm_num]
  induction n with
  | zero => simp
  | succ n ih =>
    have hc0 : (0 : Rat) ≤ (n : Rat) := by exact_mod_cast Nat.zero_le n
    push_cast
    have h1 := mul_le_mul_of_nonneg_right ih h0
    rw [pow_succ]
    have h2 : 0 ≤ (n : Rat) * ulpHalf * ulpHalf := by positivity
    linarith

/-- The error, as a relative error. -/
theorem Near.error {n : Nat} {a b : Rat} (h : Near n a b) (hn : n ≤ 2 ^ 20) : |a - b| ≤ (n + 1) * ulpHalf * |b| := by
  obtain ⟨t, rfl, h1, h2⟩ := h
  have hu := ulpHalf_pos
  have e : b * t - b = (t - 1) * b := by ring
  rw [e, abs_mul]
  apply mul_le_mul_of_nonneg_right _ (abs_nonneg b)
  have h3 := one_add_pow_bound n hn
  have h4 := one_sub_pow_bound n
  rw [abs_le]
  constructor <;> linarith

/-- A number within a few hundred roundings of one with precision to spare has full precision. -/
theorem Near.range {n : Nat} {a b : Rat} (h : Near n a b) (hn : n ≤ 2 ^ 20) (hb : FullPrecision 1 b) : FullPrecision 0 a := by
  obtain ⟨t, rfl, h1, h2⟩ := h
  rcases hb with rfl | ⟨g1, g2⟩
  · left; rw [zero_mul]
  · right
    have hu := ulpHalf_pos
    have hu1 := ulpHalf_lt
    have hc : ((n : Nat) : Rat) ≤ 2 ^ 20 := by exact_mod_cast hn
    have hc0 : (0 : Rat) ≤ (n : Rat) := by exact_mod_cast Nat.zero_le n
    have h5 : ((n : Rat) + 1) * ulpHalf ≤ 1 / 2 := by
      calc ((n : Rat) + 1) * ulpHalf ≤ (2 ^ 20 + 1) * (1 / 2 ^ 50) :=
            mul_le_mul (by linarith) (le_of_lt hu1) (le_of_lt hu) (by norm_num)
        _ ≤ 1 / 2 := by norm_num
    have h3 : t ≤ 2 := by linarith [one_add_pow_bound n hn]
    have h4 : 1 / 2 ≤ t := by linarith [one_sub_pow_bound n]
    rw [abs_mul, abs_of_pos (by linarith : 0 < t)]
    have e1 : (2 : Rat) ^ ((1 : Int) - 1022) = 2 * (2 : Rat) ^ ((0 : Int) - 1022) := by
      rw [← two_zpow_succ]; congr 1
    have e2 : (2 : Rat) ^ ((1023 : Int) - 0) = 2 * (2 : Rat) ^ ((1023 : Int) - 1) := by
      rw [← two_zpow_succ]; congr 1
    rw [e1] at g1
    rw [e2]
    have hp := two_zpow_pos (0 - 1022)
    generalize (2 : Rat) ^ ((0 : Int) - 1022) = A at g1 hp ⊢
    generalize (2 : Rat) ^ ((1023 : Int) - 1) = B at g2 ⊢
    constructor
    · calc A = (2 * A) * (1 / 2) := by ring
        _ ≤ |b| * t := mul_le_mul g1 h4 (by norm_num) (abs_nonneg b)
    · calc |b| * t ≤ B * 2 := mul_le_mul g2 h3 (by linarith) (le_trans (abs_nonneg b) g2)
        _ = 2 * B := by ring

theorem inRange_of_le {q : Rat} (h : |q| ≤ (2 : Rat) ^ (1023 : Int)) : InDoubleRange q := by
  have e : (2 : Rat) ^ (1023 : Int) = 2 ^ 53 * (2 : Rat) ^ (970 : Int) := by
    rw [show (1023 : Int) = 53 + 970 by norm_num, two_zpow_add]
    congr 1
  rw [e] at h
  rw [InDoubleRange, two_1024]
  have hp := two_zpow_pos 970
  generalize (2 : Rat) ^ (970 : Int) = A at h hp ⊢
  linarith

theorem isDouble_zero : IsDouble 0 := ⟨0, 0, by norm_num, by norm_num, by norm_num, by norm_num⟩

theorem near_one_of_error {a q : Rat} (hq : q ≠ 0) (h : |a - q| ≤ ulpHalf * |q|) : Near 1 a q := by
  refine ⟨a / q, by rw [mul_div_cancel₀ _ hq], ?_, ?_⟩ <;> rw [pow_one]
  all_goals
    have hp := abs_pos.mpr hq
    have e : |a / q - 1| ≤ ulpHalf := by
      have : a / q - 1 = (a - q) / q := by rw [sub_div, div_self hq]
      rw [this, abs_div, div_le_iff₀ hp]
      exact h
    have := abs_le.mp e
    linarith

/-- One rounding at full precision. -/
theorem Spec.Rounding.near {fl : Rat → Rat} (hr : Rounding fl) {q : Rat} (h : FullPrecision 0 q) : Near 1 (fl q) q := by
  rcases h with rfl | ⟨h1, h2⟩
  · rw [hr.exact isDouble_zero]
    exact (Near.refl 0).weaken (by omega)
  · have h3 : |q| ≤ (2 : Rat) ^ (1023 : Int) := h2
    have h4 : (2 : Rat) ^ (-1022 : Int) ≤ |q| := h1
    have hq : q ≠ 0 := by
      intro e
      rw [e, abs_zero] at h4
      exact absurd (two_zpow_pos (-1022)) (not_lt.mpr h4)
    exact near_one_of_error hq (hr.error (inRange_of_le h3) h4)

/-- A double is a multiple of the smallest one. -/
theorem IsDouble.multiple {q : Rat} (h : IsDouble q) : ∃ j : Int, q = j * (2 : Rat) ^ (-1074 : Int) := by
  obtain ⟨m, k, -, hk, -, rfl⟩ := h
  refine ⟨m * 2 ^ (k + 1074).toNat, ?_⟩
  rw [Int.cast_mul, Int.cast_pow, Int.cast_ofNat, mul_assoc, ← zpow_natCast, ← two_zpow_add]
  congr 2
  omega

/-- The sum of two doubles is rounded with full relative precision, however small it is. -/
theorem Spec.Rounding.near_add {fl : Rat → Rat} (hr : Rounding fl) {a b : Rat} (ha : IsDouble a) (hb : IsDouble b)
    (h : |a + b| ≤ (2 : Rat) ^ (1023 : Int)) : Near 1 (fl (a + b)) (a + b) := by
  by_cases hn : (2 : Rat) ^ (-1022 : Int) ≤ |a + b|
  · exact hr.near (.inr ⟨hn, h⟩)
  · obtain ⟨i, hi⟩ := IsDouble.multiple ha
    obtain ⟨j, hj⟩ := IsDouble.multiple hb
    have hd : IsDouble (a + b) := by
      refine ⟨i + j, -1074, ?_, by norm_num, by norm_num, ?_⟩
      · rw [not_le] at hn
        have e : a + b = ((i + j : Int) : Rat) * (2 : Rat) ^ (-1074 : Int) := by rw [hi, hj, Int.cast_add, add_mul]
        rw [e, abs_mul, abs_of_pos (two_zpow_pos _)] at hn
        have e2 : (2 : Rat) ^ (-1022 : Int) = 2 ^ 52 * (2 : Rat) ^ (-1074 : Int) := by
          rw [show (-1022 : Int) = 52 + -1074 by norm_num, two_zpow_add]
          congr 1
        rw [e2] at hn
        have h2 := lt_of_mul_lt_mul_right hn (le_of_lt (two_zpow_pos _))
        have h3 : |i + j| < 2 ^ 52 := by exact_mod_cast h2
        omega
      · rw [hi, hj, Int.cast_add, add_mul]
    rw [hr.exact hd]
    exact (Near.refl _).weaken (by omega)

theorem isDouble_two (k : Int) (h1 : -1074 ≤ k) (h2 : k ≤ 971) : IsDouble ((2 : Rat) ^ k) :=
  ⟨1, k, by norm_num, h1, h2, by norm_num⟩

theorem divLoopR_two {fl : Rat → Rat} (hr : Rounding fl) : ∀ (k : Nat) (j : Int), -1074 ≤ j - k → j ≤ 971 →
    divLoopR fl 2 k ((2 : Rat) ^ j) = (2 : Rat) ^ (j - k) := by
  intro k
  induction k with
  | zero => intro j _ _; simp [divLoopR]
  | succ k ih =>
    intro j h1 h2
    have e : (2 : Rat) ^ j / 2 = (2 : Rat) ^ (j - 1) := by
      rw [zpow_sub₀ (by norm_num : (2 : Rat) ≠ 0), zpow_one]
    rw [divLoopR, e, hr.exact (isDouble_two _ (by omega) (by omega)), ih _ (by omega) (by omega)]
    congr 1
    push_cast
    ring

theorem mulLoopR_two {fl : Rat → Rat} (hr : Rounding fl) : ∀ (k : Nat) (j : Int), -1074 ≤ j → j + k ≤ 971 →
    mulLoopR fl 2 k ((2 : Rat) ^ j) = (2 : Rat) ^ (j + k) := by
  intro k
  induction k with
  | zero => intro j _ _; simp [mulLoopR]
  | succ k ih =>
    intro j h1 h2
    have e : (2 : Rat) ^ j * 2 = (2 : Rat) ^ (j + 1) := by rw [two_zpow_succ]; ring
    rw [mulLoopR, e, hr.exact (isDouble_two _ (by omega) (by omega)), ih _ (by omega) (by omega)]
    congr 1
    push_cast
    ring

/-- The binary factor is exact. -/
theorem codesPowerR_two {fl : Rat → Rat} (hr : Rounding fl) (E : Int) (h1 : -1074 ≤ E) (h2 : E ≤ 971) :
    codesPowerR fl E 2 = (2 : Rat) ^ E := by
  rw [codesPowerR]
  split
  · rename_i h; rw [h, zpow_zero]
  · split
    · rename_i h; rw [h, zpow_one]; rfl
    · have e0 := divLoopR_two hr (-E).toNat 0 (by omega) (by omega)
      rw [zpow_zero] at e0
      show mulLoopR fl 2 E.toNat (divLoopR fl 2 (-E).toNat 1) = _
      rw [e0, mulLoopR_two hr _ _ (by omega) (by omega)]
      congr 1
      omega

theorem ten_range (j : Int) (h1 : -300 ≤ j) (h2 : j ≤ 300) : FullPrecision 1 ((10 : Rat) ^ j) := by
  right
  have hp : (0 : Rat) < (10 : Rat) ^ j := zpow_pos (by norm_num) j
  rw [abs_of_pos hp]
  have l : (10 : Rat) ^ (-300 : Int) ≤ (10 : Rat) ^ j := zpow_le_zpow_right₀ (by norm_num) h1
  have u : (10 : Rat) ^ j ≤ (10 : Rat) ^ (300 : Int) := zpow_le_zpow_right₀ (by norm_num) h2
  have l1 : (2 : Rat) ^ (-1021 : Int) ≤ (10 : Rat) ^ (-300 : Int) := by decide +kernel
  have u1 : (10 : Rat) ^ (300 : Int) ≤ (2 : Rat) ^ (1022 : Int) := by decide +kernel
  exact ⟨le_trans l1 l, le_trans u u1⟩

theorem divLoopR_ten {fl : Rat → Rat} (hr : Rounding fl) : ∀ (k j : Nat) (d : Rat), j + k ≤ 300 →
    Near j d ((10 : Rat) ^ (-(j : Int))) → Near (j + k) (divLoopR fl 10 k d) ((10 : Rat) ^ (-((j + k : Nat) : Int))) := by
  intro k
  induction k with
  | zero => intro j d _ h; simpa [divLoopR] using h
  | succ k ih =>
    intro j d hj h
    have e : (10 : Rat) ^ (-(j : Int)) * (10)⁻¹ = (10 : Rat) ^ (-((j + 1 : Nat) : Int)) := by
      rw [show -((j + 1 : Nat) : Int) = -(j : Int) - 1 by push_cast; ring,
        zpow_sub₀ (by norm_num : (10 : Rat) ≠ 0), zpow_one, div_eq_mul_inv]
    have h1 := h.mul_left (10)⁻¹
    rw [e, ← div_eq_mul_inv] at h1
    have h2 := h1.range (by omega) (ten_range _ (by omega) (by omega))
    have h3 := (hr.near h2).trans h1
    have h4 := ih (j + 1) _ (by omega) h3
    rw [show j + 1 + k = j + (k + 1) by omega] at h4
    exact h4

theorem mulLoopR_ten {fl : Rat → Rat} (hr : Rounding fl) : ∀ (k j : Nat) (d : Rat), j + k ≤ 300 →
    Near j d ((10 : Rat) ^ (j : Int)) → Near (j + k) (mulLoopR fl 10 k d) ((10 : Rat) ^ ((j + k : Nat) : Int)) := by
  intro k
  induction k with
  | zero => intro j d _ h; simpa [mulLoopR] using h
  | succ k ih =>
    intro j d hj h
    have e : (10 : Rat) ^ (j : Int) * 10 = (10 : Rat) ^ ((j + 1 : Nat) : Int) := by
      rw [show ((j + 1 : Nat) : Int) = (j : Int) + 1 by push_cast; ring,
        zpow_add₀ (by norm_num : (10 : Rat) ≠ 0), zpow_one]
    have h1 := h.mul_left 10
    rw [e] at h1
    have h2 := h1.range (by omega) (ten_range _ (by omega) (by omega))
    have h3 := (hr.near h2).trans h1
    have h4 := ih (j + 1) _ (by omega) h3
    rw [show j + 1 + k = j + (k + 1) by omega] at h4
    exact h4

/-- The decimal factor carries at most one rounding error per power of ten. -/
theorem codesPowerR_ten {fl : Rat → Rat} (hr : Rounding fl) (s : Int) (hs : s.natAbs ≤ 300) :
    Near s.natAbs (codesPowerR fl s 10) ((10 : Rat) ^ s) := by
  rw [codesPowerR]
  split
  · rename_i h; rw [h, zpow_zero]; exact Near.refl 1
  · split
    · rename_i h; rw [h, zpow_one]; exact (Near.refl 10).weaken (by omega)
    · show Near _ (mulLoopR fl 10 s.toNat (divLoopR fl 10 (-s).toNat 1)) _
      rcases le_total 0 s with h | h
      · have e1 : (-s).toNat = 0 := by omega
        have e2 : s.natAbs = s.toNat := by omega
        have := mulLoopR_ten hr s.toNat 0 1 (by omega) (by simpa using Near.refl 1)
        rw [Nat.zero_add] at this
        rw [e1, e2]
        have e3 : ((s.toNat : Nat) : Int) = s := by omega
        rw [e3] at this
        exact this
      · have e1 : s.toNat = 0 := by omega
        have e2 : s.natAbs = (-s).toNat := by omega
        have := divLoopR_ten hr (-s).toNat 0 1 (by omega) (by simpa using Near.refl 1)
        rw [Nat.zero_add] at this
        rw [e1, e2]
        have e3 : -(((-s).toNat : Nat) : Int) = s := by omega
        rw [e3] at this
        exact this

theorem isDouble_nat (X : Nat) (h : X < 2 ^ 53) : IsDouble (X : Rat) :=
  ⟨X, 0, by rw [abs_of_nonneg (by omega)]; exact_mod_cast h, by norm_num, by norm_num, by norm_num⟩

theorem isDouble_scaled (X : Nat) (h : X < 2 ^ 53) (E : Int) (h1 : -1074 ≤ E) (h2 : E ≤ 971) :
    IsDouble ((X : Rat) * (2 : Rat) ^ E) :=
  ⟨X, E, by rw [abs_of_nonneg (by omega)]; exact_mod_cast h, h1, h2, by norm_num⟩

/-- Rounding preserves order. -/
theorem Spec.Rounding.mono {fl : Rat → Rat} (hr : Rounding fl) {p q : Rat} (h : p ≤ q) (hp : InDoubleRange p)
    (hq : InDoubleRange q) : fl p ≤ fl q := by
  rcases eq_or_lt_of_le h with rfl | hlt
  · exact le_refl _
  · by_contra hc
    rw [not_le] at hc
    have h1 := (hr p hp).2 _ (hr q hq).1
    have h2 := (hr q hq).2 _ (hr p hp).1
    generalize fl p = a at h1 h2 hc
    generalize fl q = b at h1 h2 hc
    have s1 := sq_le_sq.mpr h1
    have s2 := sq_le_sq.mpr h2
    nlinarith

end GJ
