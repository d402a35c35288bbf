import Verif.Model.Aec
import Verif.Lemmas.Bits

/-!
# Decoding a window of a CCSDS stream
-/

namespace GJ

open Spec

/-- What gribjump assumes of libaec's decoder for one RSI. -/
structure AecContract (L : AecLib) : Prop where
  /-- it returns as many samples as asked, from bits it was given -/
  size : ∀ {P ph bs k xs c}, L P ph bs k = some (xs, c) → xs.length = k ∧ c ≤ bs.length
  /-- the result depends only on the bits used -/
  window : ∀ {P ph bs k xs c}, L P ph bs k = some (xs, c) → ∀ bs', c ≤ bs'.length → bs'.take c = bs.take c →
    L P ph bs' k = some (xs, c)
  /-- decoding fewer samples of the same RSI gives a prefix and uses no more bits -/
  fewer : ∀ {P ph bs k xs c}, L P ph bs k = some (xs, c) → ∀ k', k' ≤ k →
    ∃ c', c' ≤ c ∧ L P ph bs k' = some (xs.take k', c')

theorem cassert_of {c : Bool} (h : c = true) : cassert c = .ok () := by rw [h]; rfl

variable {L : AecLib} {P : AecParams}

theorem aecSeq_zero (bits : List Bool) (p : Nat) : aecSeq L P bits p 0 = some ([], p) := by
  rw [aecSeq, if_pos rfl]

/-- One step of `aecSeq`. -/
theorem aecSeq_step {bits : List Bool} {p n : Nat} (hn : n ≠ 0) {xs : List Nat} {e : Nat}
    (h : aecSeq L P bits p n = some (xs, e)) :
    P.perRsi ≠ 0 ∧ ∃ ys c zs, L P (p % 8) (bits.drop p) (min n P.perRsi) = some (ys, c) ∧
      aecSeq L P bits (p + c) (n - min n P.perRsi) = some (zs, e) ∧ xs = ys ++ zs := by
  rw [aecSeq, if_neg hn] at h
  split at h
  · cases h
  · rename_i hS
    refine ⟨hS, ?_⟩
    split at h
    · cases h
    · rename_i ys c h1
      split at h
      · cases h
      · rename_i zs e' h2
        cases h
        exact ⟨ys, c, zs, h1, h2, rfl⟩

theorem aecSeq_intro {bits : List Bool} {p n : Nat} (hn : n ≠ 0) (hS : P.perRsi ≠ 0) {ys zs : List Nat} {c e : Nat}
    (h1 : L P (p % 8) (bits.drop p) (min n P.perRsi) = some (ys, c))
    (h2 : aecSeq L P bits (p + c) (n - min n P.perRsi) = some (zs, e)) :
    aecSeq L P bits p n = some (ys ++ zs, e) := by
  rw [aecSeq, if_neg hn, if_neg hS, h1]
  simp only
  rw [h2]

theorem aecSeq_size (C : AecContract L) (n : Nat) : ∀ {bits : List Bool} {p : Nat} {xs : List Nat} {e : Nat},
    aecSeq L P bits p n = some (xs, e) → xs.length = n ∧ p ≤ e ∧ (p ≤ bits.length → e ≤ bits.length) := by
  induction n using Nat.strongRecOn with
  | _ n ih =>
    intro bits p xs e h
    by_cases hn : n = 0
    · subst hn
      rw [aecSeq_zero] at h
      cases h
      exact ⟨rfl, Nat.le_refl _, id⟩
    · obtain ⟨hS, ys, c, zs, h1, h2, rfl⟩ := aecSeq_step hn h
      obtain ⟨a, b⟩ := C.size h1
      obtain ⟨a2, b2, c2⟩ := ih _ (by omega) h2
      rw [List.length_drop] at b
      refine ⟨by rw [List.length_append]; omega, by omega, fun hp => c2 (by omega)⟩

/-- The decoder only looks at the bits it uses. -/
theorem aecSeq_window (C : AecContract L) (n : Nat) : ∀ {bits bits' : List Bool} {p p' : Nat} {xs : List Nat} {e : Nat},
    aecSeq L P bits p n = some (xs, e) → p' % 8 = p % 8 → e - p ≤ (bits'.drop p').length →
    (bits'.drop p').take (e - p) = (bits.drop p).take (e - p) →
    aecSeq L P bits' p' n = some (xs, p' + (e - p)) := by
  induction n using Nat.strongRecOn with
  | _ n ih =>
    intro bits bits' p p' xs e h hph hlen hag
    by_cases hn : n = 0
    · subst hn
      rw [aecSeq_zero] at h ⊢
      cases h
      simp
    · obtain ⟨hS, ys, c, zs, h1, h2, rfl⟩ := aecSeq_step hn h
      obtain ⟨-, hce, -⟩ := aecSeq_size C _ h2
      have hc : c ≤ e - p := by omega
      have h1' : L P (p' % 8) (bits'.drop p') (min n P.perRsi) = some (ys, c) := by
        rw [hph]
        refine C.window h1 _ (by omega) ?_
        have := congrArg (List.take c) hag
        rw [List.take_take, List.take_take, Nat.min_eq_left hc] at this
        exact this
      have h2' : aecSeq L P bits' (p' + c) (n - min n P.perRsi) = some (zs, p' + c + (e - (p + c))) := by
        refine ih _ (by omega) h2 (by omega) ?_ ?_
        · rw [List.length_drop] at hlen ⊢
          omega
        · have := congrArg (List.drop c) hag
          rw [List.drop_take, List.drop_take, List.drop_drop, List.drop_drop] at this
          rw [show e - (p + c) = e - p - c from by omega]
          exact this
      rw [aecSeq_intro hn hS h1' h2']
      congr 2
      omega

/-- Decoding fewer samples gives a prefix and stops no later. -/
theorem aecSeq_prefix (C : AecContract L) (n : Nat) : ∀ {bits : List Bool} {p : Nat} {xs : List Nat} {e : Nat},
    aecSeq L P bits p n = some (xs, e) → ∀ m, m ≤ n →
    ∃ e', e' ≤ e ∧ aecSeq L P bits p m = some (xs.take m, e') := by
  induction n using Nat.strongRecOn with
  | _ n ih =>
    intro bits p xs e h m hm
    have hpe := (aecSeq_size C _ h).2.1
    by_cases hm0 : m = 0
    · subst hm0
      exact ⟨p, hpe, by rw [aecSeq_zero, List.take_zero]⟩
    · obtain ⟨hS, ys, c, zs, h1, h2, rfl⟩ := aecSeq_step (by omega) h
      obtain ⟨-, hce, -⟩ := aecSeq_size C _ h2
      have hys := (C.size h1).1
      by_cases hmS : P.perRsi ≤ m
      · have e1 : min n P.perRsi = P.perRsi := by omega
        have e2 : min m P.perRsi = P.perRsi := by omega
        rw [e1] at h1 h2 hys
        obtain ⟨e', he', h3⟩ := ih _ (by omega) h2 (m - P.perRsi) (by omega)
        refine ⟨e', he', ?_⟩
        rw [aecSeq_intro hm0 hS (by rw [e2]; exact h1) (by rw [e2]; exact h3)]
        rw [List.take_append, hys, List.take_of_length_le (l := ys) (by omega)]
      · obtain ⟨c', hc', h3⟩ := C.fewer h1 m (by omega)
        have e2 : min m P.perRsi = m := by omega
        refine ⟨p + c', by omega, ?_⟩
        rw [aecSeq_intro hm0 hS (by rw [e2]; exact h3) (by rw [e2, Nat.sub_self, aecSeq_zero])]
        rw [List.take_append, List.append_nil, show m - ys.length = 0 from by omega, List.take_zero, List.append_nil]

/-- Decoding splits at RSI boundaries. -/
theorem aecSeq_split (C : AecContract L) (i m : Nat) : ∀ {bits : List Bool} {p : Nat} {xs : List Nat} {e : Nat},
    aecSeq L P bits p (i * P.perRsi + m) = some (xs, e) →
    ∃ mid, aecSeq L P bits p (i * P.perRsi) = some (xs.take (i * P.perRsi), mid) ∧
      aecSeq L P bits mid m = some (xs.drop (i * P.perRsi), e) := by
  induction i with
  | zero =>
    intro bits p xs e h
    rw [Nat.zero_mul, Nat.zero_add] at h
    refine ⟨p, ?_, ?_⟩
    · rw [Nat.zero_mul, aecSeq_zero, List.take_zero]
    · rw [Nat.zero_mul, List.drop_zero]; exact h
  | succ i ih =>
    intro bits p xs e h
    by_cases hS0 : P.perRsi = 0
    · rw [hS0, Nat.mul_zero, Nat.zero_add] at h
      refine ⟨p, ?_, ?_⟩
      · rw [hS0, Nat.mul_zero, aecSeq_zero, List.take_zero]
      · rw [hS0, Nat.mul_zero, List.drop_zero]; exact h
    · have hmul : (i + 1) * P.perRsi = P.perRsi + i * P.perRsi := by rw [Nat.succ_mul]; omega
      have hne : (i + 1) * P.perRsi + m ≠ 0 := by omega
      obtain ⟨hS, ys, c, zs, h1, h2, rfl⟩ := aecSeq_step hne h
      have e1 : min ((i + 1) * P.perRsi + m) P.perRsi = P.perRsi := by omega
      rw [e1] at h1 h2
      rw [show (i + 1) * P.perRsi + m - P.perRsi = i * P.perRsi + m from by omega] at h2
      obtain ⟨mid, h3, h4⟩ := ih h2
      have hys := (C.size h1).1
      refine ⟨mid, ?_, ?_⟩
      · have e2 : min ((i + 1) * P.perRsi) P.perRsi = P.perRsi := by omega
        rw [aecSeq_intro (by omega) hS (by rw [e2]; exact h1)
          (by rw [e2, show (i + 1) * P.perRsi - P.perRsi = i * P.perRsi from by omega]; exact h3)]
        rw [List.take_append, hys, List.take_of_length_le (l := ys) (by omega)]
        rw [show (i + 1) * P.perRsi - P.perRsi = i * P.perRsi from by omega]
      · rw [List.drop_append, hys, List.drop_of_length_le (by omega), List.nil_append]
        rw [show (i + 1) * P.perRsi - P.perRsi = i * P.perRsi from by omega]
        exact h4

/-- Number of recorded offsets. -/
def rsiCount (S n : Nat) (tail : Bool) : Nat := if tail then n / S + 1 else (n - 1) / S + 1

theorem aecOffsets_spec (C : AecContract L) (tail : Bool) (hS : 0 < P.perRsi) (n : Nat) :
    ∀ {bits : List Bool} {p : Nat} {xs : List Nat} {e : Nat}, aecSeq L P bits p n = some (xs, e) →
    (aecOffsets L P tail bits p n).length = rsiCount P.perRsi n tail ∧
    ∀ i q, (aecOffsets L P tail bits p n)[i]? = some q →
      i * P.perRsi ≤ n ∧ aecSeq L P bits p (i * P.perRsi) = some (xs.take (i * P.perRsi), q) := by
  induction n using Nat.strongRecOn with
  | _ n ih =>
    intro bits p xs e h
    have first : ∀ i q, ([p] : List Nat)[i]? = some q →
        i * P.perRsi ≤ n ∧ aecSeq L P bits p (i * P.perRsi) = some (xs.take (i * P.perRsi), q) := by
      intro i q hq
      cases i with
      | zero =>
        cases hq
        rw [Nat.zero_mul, aecSeq_zero, List.take_zero]
        exact ⟨Nat.zero_le _, rfl⟩
      | succ i => cases hq
    rw [aecOffsets]
    by_cases hsmall : n = 0 ∨ P.perRsi = 0 ∨ n < P.perRsi
    · rw [if_pos hsmall]
      refine ⟨?_, first⟩
      have hlt : n < P.perRsi := by omega
      rw [rsiCount, Nat.div_eq_of_lt hlt, Nat.div_eq_of_lt (by omega)]
      split <;> rfl
    · rw [if_neg hsmall]
      have hn : n ≠ 0 := fun e => hsmall (Or.inl e)
      have hge : P.perRsi ≤ n := by omega
      obtain ⟨-, ys, c, zs, h1, h2, rfl⟩ := aecSeq_step hn h
      have e1 : min n P.perRsi = P.perRsi := by omega
      rw [e1] at h1 h2
      rw [h1]
      simp only
      have hys := (C.size h1).1
      have hone : aecSeq L P bits p (1 * P.perRsi) = some ((ys ++ zs).take (1 * P.perRsi), p + c) := by
        rw [Nat.one_mul]
        rw [aecSeq_intro (by omega) (by omega) (by rw [Nat.min_self]; exact h1)
          (by rw [Nat.min_self, Nat.sub_self, aecSeq_zero])]
        rw [List.append_nil, List.take_append, hys, Nat.sub_self, List.take_zero, List.append_nil,
          List.take_of_length_le (l := ys) (by omega)]
      by_cases heq : n = P.perRsi
      · rw [if_pos heq]
        cases tail with
        | false =>
          refine ⟨?_, first⟩
          rw [rsiCount, heq, if_neg (by decide), Nat.div_eq_of_lt (a := P.perRsi - 1) (by omega)]
          rfl
        | true =>
          refine ⟨?_, ?_⟩
          · rw [rsiCount, heq, if_pos rfl, Nat.div_self hS]
            rfl
          · intro i q hq
            cases i with
            | zero => exact first 0 q hq
            | succ i =>
              cases i with
              | zero =>
                cases hq
                exact ⟨by omega, hone⟩
              | succ i => cases hq
      · rw [if_neg heq]
        obtain ⟨hl, hi⟩ := ih _ (by omega) h2
        refine ⟨?_, ?_⟩
        · rw [List.length_cons, hl, rsiCount, rsiCount]
          have a1 : n / P.perRsi = (n - P.perRsi) / P.perRsi + 1 := by
            rw [← Nat.add_div_right _ hS]; congr 1; omega
          have a2 : (n - 1) / P.perRsi = (n - P.perRsi - 1) / P.perRsi + 1 := by
            rw [← Nat.add_div_right _ hS]; congr 1; omega
          split <;> omega
        · intro i q hq
          cases i with
          | zero => exact first 0 q hq
          | succ i =>
            rw [List.getElem?_cons_succ] at hq
            obtain ⟨b1, b2⟩ := hi i q hq
            have hmul : (i + 1) * P.perRsi = P.perRsi + i * P.perRsi := by rw [Nat.succ_mul]; omega
            refine ⟨by omega, ?_⟩
            have e2 : min ((i + 1) * P.perRsi) P.perRsi = P.perRsi := by omega
            rw [aecSeq_intro (by omega) (by omega) (by rw [e2]; exact h1)
              (by rw [e2, show (i + 1) * P.perRsi - P.perRsi = i * P.perRsi from by omega]; exact b2)]
            rw [List.take_append, hys, List.take_of_length_le (l := ys) (by omega)]
            rw [show (i + 1) * P.perRsi - P.perRsi = i * P.perRsi from by omega]

end GJ
