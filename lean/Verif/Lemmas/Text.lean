namespace GJ

theorem toString_nat_digits (n : Nat) : ∀ c ∈ (toString n).toList, c.isDigit = true := by
  intro c hc
  rw [show toString n = Nat.repr n from rfl, Nat.toList_repr] at hc
  exact Nat.isDigit_of_mem_toDigits (b := 10) (by decide) (by decide) hc

theorem toString_nat_inj (n m : Nat) (h : (toString n).toList = (toString m).toList) : n = m := by
  rw [show toString n = Nat.repr n from rfl, show toString m = Nat.repr m from rfl, Nat.toList_repr,
    Nat.toList_repr] at h
  rw [← Nat.ofDigitChars_toDigits (b := 10) (n := n) (by decide) (by decide), h,
    Nat.ofDigitChars_toDigits (by decide) (by decide)]

end GJ
