import Verif.Model.Scaling
import Verif.Spec.Scaling

namespace GJ

theorem mulLoop_eq (n : Rat) : ∀ (k : Nat) (d : Rat), mulLoop n k d = d * n ^ k := by
  intro k
  induction k with
  | zero => intro d; simp [mulLoop]
  | succ k ih =>
    intro d
    rw [mulLoop, ih, Rat.pow_succ, Rat.mul_assoc, Rat.mul_comm n]

theorem divLoop_eq (n : Rat) : ∀ (k : Nat) (d : Rat), divLoop n k d = d * (n⁻¹) ^ k := by
  intro k
  induction k with
  | zero => intro d; simp [divLoop]
  | succ k ih =>
    intro d
    rw [divLoop, ih, Rat.pow_succ, Rat.div_def, Rat.mul_assoc, Rat.mul_comm (n⁻¹)]

theorem inv_pow (n : Rat) (hn : n ≠ 0) (k : Nat) : (n⁻¹) ^ k = n ^ (-(k : Int)) := by
  induction k with
  | zero => simp
  | succ k ih =>
    have e : (-((k + 1 : Nat) : Int)) = -(k : Int) + (-1 : Int) := by omega
    have h1 : n ^ (-1 : Int) = n⁻¹ := by
      rw [Rat.zpow_neg]; congr 1
      have : ((1 : Int)) = ((1 : Nat) : Int) := rfl
      rw [this, Rat.zpow_natCast, Rat.pow_succ, Rat.pow_zero, Rat.one_mul]
    rw [Rat.pow_succ, ih, e, Rat.zpow_add hn, h1]

/-- `codes_power(s, n)` is `n ^ s`. -/
theorem codesPower_eq (s n : Int) (hn : (n : Rat) ≠ 0) : codesPower s n = (n : Rat) ^ s := by
  simp only [codesPower]
  split
  · rename_i h; rw [h]; simp
  · split
    · rename_i h
      rw [h]
      have : ((1 : Int)) = ((1 : Nat) : Int) := rfl
      rw [this, Rat.zpow_natCast, Rat.pow_succ, Rat.pow_zero, Rat.one_mul]
    · rw [mulLoop_eq, divLoop_eq, Rat.one_mul]
      rcases Int.le_total 0 s with h | h
      · have h1 : (-s).toNat = 0 := by omega
        rw [h1, Rat.pow_zero, Rat.one_mul, ← Rat.zpow_natCast]
        congr 1; omega
      · have h1 : s.toNat = 0 := by omega
        rw [h1, Rat.pow_zero, Rat.mul_one, inv_pow _ hn]
        congr 1; omega

end GJ
