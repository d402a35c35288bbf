import Verif.Model.Client
import Verif.Lemmas.Jumper

namespace GJ
open Spec

theorem toBitset_length (bm : List Bool) : (toBitset bm).length = (bm.length + 63) / 64 := by
  simp [toBitset]

theorem toBitset_getElem? (bm : List Bool) (j : Nat) :
    (toBitset bm)[j]? = if j < (bm.length + 63) / 64 then some (bitsetWord bm j) else none := by
  simp only [toBitset, List.getElem?_map]
  by_cases h : j < (bm.length + 63) / 64
  · rw [if_pos h, List.getElem?_eq_getElem (by simpa using h)]; simp
  · rw [if_neg h, List.getElem?_eq_none (by simpa using h)]; rfl

/-- Reading the mask word of position `i` gives the flag of position `i`. -/
theorem toBitset_bit (bm : List Bool) (i : Nat) (h : i < bm.length) :
    ((toBitset bm)[i / 64]?.getD 0).testBit (i % 64) = bm[i] := by
  rw [toBitset_getElem?, if_pos (by omega)]
  simp only [Option.getD_some]
  rw [bitsetWord_testBit]
  have e : i / 64 * 64 + i % 64 = i := by omega
  rw [e, List.getElem?_eq_getElem h]
  have : i % 64 < 64 := Nat.mod_lt _ (by omega)
  simp [this]

theorem foldl_set (f : Nat → Bool) (n : Nat) : ∀ (l : List Nat) (acc : List Bool), acc.length = n →
    (l.foldl (fun acc bp => if bp ≥ n then acc else acc.set bp (f bp)) acc).length = n ∧
    ∀ i, i < n → (l.foldl (fun acc bp => if bp ≥ n then acc else acc.set bp (f bp)) acc)[i]? =
      if i ∈ l then some (f i) else acc[i]? := by
  intro l
  induction l with
  | nil => intro acc h; exact ⟨h, by simp⟩
  | cons a rest ih =>
    intro acc h
    rw [List.foldl_cons]
    by_cases ha : a ≥ n
    · rw [if_pos ha]
      obtain ⟨h1, h2⟩ := ih acc h
      refine ⟨h1, fun i hi => ?_⟩
      rw [h2 i hi]
      have : (i ∈ a :: rest) ↔ i ∈ rest := by
        simp only [List.mem_cons]
        constructor
        · rintro (h | h)
          · omega
          · exact h
        · exact Or.inr
      simp only [this]
    · rw [if_neg ha]
      obtain ⟨h1, h2⟩ := ih (acc.set a (f a)) (by simpa using h)
      refine ⟨h1, fun i hi => ?_⟩
      rw [h2 i hi]
      by_cases hir : i ∈ rest
      · simp [hir]
      · by_cases hia : i = a
        · subst hia; simp [hir, List.getElem?_set, h, hi]
        · have : a ≠ i := fun h => hia h.symm
          simp [hir, hia, List.getElem?_set, this]

theorem mod_two_testBit (x k : Nat) : ((x >>> k) % 2 == 1) = x.testBit k := by
  rw [Nat.testBit_eq_decide_div_mod_eq, Nat.shiftRight_eq_div_pow]
  cases h : decide (x / 2 ^ k % 2 = 1) with
  | true => simpa using h
  | false => simpa using h

theorem and_shift_testBit (x k : Nat) : ((x &&& (1 <<< k)) != 0) = x.testBit k := by
  rw [Nat.one_shiftLeft]
  by_cases h : x.testBit k = true
  · rw [h]
    have : x &&& 2 ^ k ≠ 0 := by
      intro hc
      have := congrArg (fun y => y.testBit k) hc
      simp [Nat.testBit_and, h] at this
    simpa using this
  · have hf : x.testBit k = false := by simpa using h
    rw [hf]
    have : x &&& 2 ^ k = 0 := by
      apply Nat.eq_of_testBit_eq
      intro i
      rw [Nat.testBit_and, Nat.testBit_two_pow]
      by_cases hik : k = i
      · subst hik; simp [hf]
      · simp [hik]
    simp [this]

/-! ### Copy loops -/

theorem writeAll_ok {α : Type} : ∀ (xs buf : List α) (count : Nat), count + xs.length ≤ buf.length →
    writeAll buf xs count =
      .ok (buf.take count ++ xs ++ buf.drop (count + xs.length), count + xs.length) := by
  intro xs
  induction xs with
  | nil => intro buf count h; simp [writeAll]
  | cons x rest ih =>
    intro buf count h
    rw [List.length_cons] at h
    rw [writeAll, if_pos (by omega), ih _ _ (by rw [List.length_set]; omega)]
    have h1 : (buf.set count x).take (count + 1) = buf.take count ++ [x] := by
      have hm : min count buf.length = count := by omega
      rw [List.take_set, List.take_succ_eq_append_getElem (by omega), List.set_append_right]
      · simp [hm]
      · simp [hm]
    have h2 : (buf.set count x).drop (count + 1 + rest.length) = buf.drop (count + 1 + rest.length) := by
      rw [List.drop_set]; simp; omega
    rw [h1, h2]
    have h3 : count + 1 + rest.length = count + (x :: rest).length := by rw [List.length_cons]; omega
    rw [h3]
    simp

theorem writeAll_ub {α : Type} : ∀ (xs buf : List α) (count : Nat), count ≤ buf.length →
    buf.length < count + xs.length → writeAll buf xs count = undef := by
  intro xs
  induction xs with
  | nil => intro buf count h h2; simp at h2; omega
  | cons x rest ih =>
    intro buf count h h2
    rw [List.length_cons] at h2
    rw [writeAll]
    by_cases hc : count < buf.length
    · rw [if_pos hc]
      exact ih _ _ (by rw [List.length_set]; omega) (by rw [List.length_set]; omega)
    · rw [if_neg hc]

theorem writeRows_ok {α : Type} : ∀ (rows : List (List α)) (buf : List α) (count : Nat),
    count + rows.flatten.length ≤ buf.length →
    writeRows buf rows count =
      .ok (buf.take count ++ rows.flatten ++ buf.drop (count + rows.flatten.length),
        count + rows.flatten.length) := by
  intro rows
  induction rows with
  | nil => intro buf count h; simp [writeRows]
  | cons row rest ih =>
    intro buf count h
    rw [List.flatten_cons, List.length_append] at h
    rw [writeRows, writeAll_ok row buf count (by omega), ok_bind]
    have hlen : (buf.take count ++ row ++ buf.drop (count + row.length)).length = buf.length := by
      simp only [List.length_append, List.length_take, List.length_drop]; omega
    have hpre : (buf.take count ++ row).length = count + row.length := by
      simp only [List.length_append, List.length_take]; omega
    simp only
    rw [ih _ _ (by rw [hlen]; omega), List.take_left' hpre]
    have hd : (buf.take count ++ row ++ buf.drop (count + row.length)).drop
        (count + row.length + rest.flatten.length) =
        buf.drop (count + row.length + rest.flatten.length) := by
      rw [List.drop_append, hpre, List.drop_of_length_le (by rw [hpre]; omega), List.nil_append,
        List.drop_drop]
      congr 1; omega
    rw [hd, List.flatten_cons, List.length_append]
    simp only [List.append_assoc]
    rw [← Nat.add_assoc]

theorem writeRows_ub {α : Type} : ∀ (rows : List (List α)) (buf : List α) (count : Nat),
    count ≤ buf.length → buf.length < count + rows.flatten.length →
    writeRows buf rows count = undef := by
  intro rows
  induction rows with
  | nil => intro buf count h h2; simp at h2; omega
  | cons row rest ih =>
    intro buf count h h2
    rw [List.flatten_cons, List.length_append] at h2
    rw [writeRows]
    by_cases hc : count + row.length ≤ buf.length
    · rw [writeAll_ok row buf count hc, ok_bind]
      have hlen : (buf.take count ++ row ++ buf.drop (count + row.length)).length = buf.length := by
        simp only [List.length_append, List.length_take, List.length_drop]; omega
      exact ih _ _ (by rw [hlen]; omega) (by rw [hlen]; omega)
    · rw [writeAll_ub row buf count h (by omega)]; rfl

/-! ### Runs of a mask -/

mutual
/-- Runs of `true`, previous flag false. -/
def runsF : Nat → List Bool → List (Nat × Nat)
  | _, [] => []
  | k, false :: r => runsF (k + 1) r
  | k, true :: r => (k, (runsT (k + 1) r).1) :: (runsT (k + 1) r).2
/-- End of the current run and the remaining runs, previous flag true. -/
def runsT : Nat → List Bool → Nat × List (Nat × Nat)
  | k, [] => (k, [])
  | k, true :: r => runsT (k + 1) r
  | k, false :: r => (k, runsF (k + 1) r)
end

theorem diff_runs : ∀ (m : List Bool) (k : Nat),
    (npWhere 1 k (npDiff (boolInt false :: (m.map boolInt ++ [boolInt false]))) = (runsF k m).map Prod.fst ∧
     npWhere (-1) k (npDiff (boolInt false :: (m.map boolInt ++ [boolInt false]))) = (runsF k m).map Prod.snd) ∧
    (npWhere 1 k (npDiff (boolInt true :: (m.map boolInt ++ [boolInt false]))) = (runsT k m).2.map Prod.fst ∧
     npWhere (-1) k (npDiff (boolInt true :: (m.map boolInt ++ [boolInt false]))) =
      (runsT k m).1 :: (runsT k m).2.map Prod.snd) := by
  intro m
  induction m with
  | nil => intro k; simp [npDiff, npWhere, runsF, runsT, boolInt]
  | cons b r ih =>
    intro k
    obtain ⟨⟨a1, a2⟩, a3, a4⟩ := ih (k + 1)
    cases b with
    | false =>
      simp only [List.map_cons, List.cons_append, npDiff, npWhere, runsF, runsT, a1, a2]
      simp [boolInt]
    | true =>
      simp only [List.map_cons, List.cons_append, npDiff, npWhere, runsF, runsT, a3, a4]
      simp [boolInt]

/-- Positions of `true`, counted from `k`. -/
def truesFrom : Nat → List Bool → List Nat
  | _, [] => []
  | k, true :: r => k :: truesFrom (k + 1) r
  | k, false :: r => truesFrom (k + 1) r

theorem runs_trues : ∀ (m : List Bool) (k : Nat),
    ((runsF k m).flatMap (fun p => List.range' p.1 (p.2 - p.1)) = truesFrom k m ∧
      (∀ p ∈ runsF k m, k ≤ p.1 ∧ p.1 < p.2 ∧ p.2 ≤ k + m.length) ∧
      (runsF k m).Pairwise (fun a b => a.2 < b.1)) ∧
    (k ≤ (runsT k m).1 ∧ (runsT k m).1 ≤ k + m.length ∧
      List.range' k ((runsT k m).1 - k) ++ (runsT k m).2.flatMap (fun p => List.range' p.1 (p.2 - p.1)) =
        truesFrom k m ∧
      (∀ p ∈ (runsT k m).2, (runsT k m).1 < p.1 ∧ p.1 < p.2 ∧ p.2 ≤ k + m.length) ∧
      (runsT k m).2.Pairwise (fun a b => a.2 < b.1)) := by
  intro m
  induction m with
  | nil => intro k; simp [runsF, runsT, truesFrom]
  | cons b r ih =>
    intro k
    obtain ⟨⟨f1, f2, f3⟩, t1, t2, t3, t4, t5⟩ := ih (k + 1)
    cases b with
    | false =>
      simp only [runsF, runsT, truesFrom, List.length_cons]
      refine ⟨⟨f1, ?_, f3⟩, Nat.le_refl _, by omega, ?_, ?_, f3⟩
      · intro p hp; have := f2 p hp; omega
      · simp [f1]
      · intro p hp; have := f2 p hp; omega
    | true =>
      have hr : List.range' k ((runsT (k + 1) r).1 - k) =
          k :: List.range' (k + 1) ((runsT (k + 1) r).1 - (k + 1)) := by
        have : (runsT (k + 1) r).1 - k = ((runsT (k + 1) r).1 - (k + 1)) + 1 := by omega
        rw [this, List.range'_succ]
      simp only [runsF, runsT, truesFrom, List.length_cons]
      refine ⟨⟨?_, ?_, ?_⟩, by omega, by omega, ?_, ?_, t5⟩
      · rw [List.flatMap_cons]
        simp only [hr, List.cons_append, t3]
      · intro p hp
        rcases List.mem_cons.mp hp with rfl | hp
        · simp only; omega
        · have := t4 p hp; omega
      · exact List.pairwise_cons.mpr ⟨fun p hp => (t4 p hp).1, t5⟩
      · rw [hr, List.cons_append, t3]
      · intro p hp; have := t4 p hp; omega

theorem truesFrom_eq (m : List Bool) : ∀ k, truesFrom k m =
    ((List.range m.length).filter (fun i => m[i]?.getD false)).map (fun i => k + i) := by
  induction m with
  | nil => intro k; rfl
  | cons b r ih =>
    intro k
    rw [List.length_cons, List.range_succ_eq_map, List.filter_cons, List.filter_map]
    cases b with
    | false =>
      simp only [truesFrom, ih (k + 1)]
      simp
      congr 1
      funext i; simp only [Function.comp]; omega
    | true =>
      simp only [truesFrom, ih (k + 1)]
      simp
      congr 1
      funext i; simp only [Function.comp]; omega

end GJ
