import Verif.Model.Discover
import Verif.Spec.Discover
import Verif.Lemmas.Jumper

/-!
# C32: finding the messages of a file
-/

namespace GJ

open Spec

theorem markAt_iff (l : List UInt8) (o : Nat) : markAt l o = true ↔ MarkerAt l o := by
  simp only [markAt, gribMark, MarkerAt, beq_iff_eq]
  constructor
  · intro h
    have g : ∀ k, k < 4 → l[o + k]? = ([0x47, 0x52, 0x49, 0x42] : List UInt8)[k]? := by
      intro k hk
      rw [← h, List.getElem?_take, if_pos hk, List.getElem?_drop]
    exact ⟨g 0 (by omega), g 1 (by omega), g 2 (by omega), g 3 (by omega)⟩
  · rintro ⟨h0, h1, h2, h3⟩
    apply List.ext_getElem?
    intro k
    rw [List.getElem?_take]
    split
    · rename_i hk
      rw [List.getElem?_drop]
      rcases k with _ | _ | _ | _ | k
      · exact h0
      · exact h1
      · exact h2
      · exact h3
      · omega
    · rename_i hk
      symm
      apply List.getElem?_eq_none
      simp only [List.length_cons, List.length_nil]; omega

theorem markAt_append (l r : List UInt8) (i : Nat) (h : i + 4 ≤ l.length) : markAt (l ++ r) i = markAt l i := by
  simp only [markAt]
  rw [List.drop_append_of_le_length (by omega), List.take_append_of_le_length (by rw [List.length_drop]; omega)]

theorem markAt_drop (l : List UInt8) (n i : Nat) : markAt (l.drop n) i = markAt l (n + i) := by
  simp only [markAt, List.drop_drop]

/-- The positions found so far, in a file preceded by three zero bytes. -/
def padMarks (pre : List UInt8) : List Nat :=
  ((List.range pre.length).filter (markAt ([0, 0, 0] ++ pre))).map fun i => wsub i 3

theorem padMarks_append (pre chunk : List UInt8) :
    padMarks (pre ++ chunk) = padMarks pre ++ searchBuf (([0, 0, 0] ++ pre).drop pre.length ++ chunk) pre.length := by
  have hb : ([0, 0, 0] ++ pre).drop pre.length ++ chunk = ([0, 0, 0] ++ (pre ++ chunk)).drop pre.length := by
    rw [← List.append_assoc, List.drop_append_of_le_length (l₁ := [0, 0, 0] ++ pre)
      (by rw [List.length_append]; omega)]
  have hl : (([0, 0, 0] ++ (pre ++ chunk)).drop pre.length).length - 3 = chunk.length := by
    simp only [List.length_drop, List.length_append, List.length_cons, List.length_nil]; omega
  rw [hb, searchBuf, hl, padMarks, padMarks, List.length_append, List.range_add, List.filter_append, List.map_append]
  refine congr (congrArg _ ?_) ?_
  · apply congrArg
    apply List.filter_congr
    intro i hi
    rw [← List.append_assoc]
    apply markAt_append
    simp only [List.mem_range] at hi
    simp only [List.length_append, List.length_cons, List.length_nil]; omega
  · rw [List.filter_map, List.map_map]
    have : (markAt ([0, 0, 0] ++ (pre ++ chunk)) ∘ fun x => pre.length + x) =
        markAt (([0, 0, 0] ++ (pre ++ chunk)).drop pre.length) := by
      funext i
      simp only [Function.comp, markAt_drop]
    rw [this]; rfl

theorem findLoop_ok (chunks : List (List UInt8)) : ∀ (pre : List UInt8),
    (∀ c ∈ chunks.dropLast, 3 ≤ c.length) →
    findLoop (chunks.map some) (([0, 0, 0] ++ pre).drop pre.length) pre.length (padMarks pre) =
      .ok (padMarks (pre ++ chunks.flatten)) := by
  induction chunks with
  | nil => intro pre _; simp [findLoop]
  | cons c rest ih =>
    intro pre h
    rcases c with _ | ⟨b, bs⟩
    · rcases rest with _ | ⟨c2, rest⟩
      · simp [findLoop]
      · exact absurd (h [] (by simp)) (by simp)
    · rw [List.map_cons, findLoop]
      rw [← padMarks_append pre (b :: bs)]
      by_cases hc : (b :: bs).length ≥ 3
      · rw [if_pos hc]
        have := ih (pre ++ (b :: bs)) (fun c hc' => h c (by
          rcases rest with _ | ⟨c2, rest⟩
          · simp at hc'
          · simp only [List.dropLast_cons_cons, List.mem_cons]; exact .inr hc'))
        rw [List.flatten_cons, ← List.append_assoc, ← this, List.length_append]
        congr 1
        rw [← List.append_assoc, ← List.drop_drop]
        rw [List.drop_append_of_le_length (l₁ := [0, 0, 0] ++ pre) (by rw [List.length_append]; omega)]
      · rw [if_neg hc]
        rcases rest with _ | ⟨c2, rest⟩
        · simp
        · exact absurd (h (b :: bs) (by simp)) hc

theorem mem_padMarks (file : List UInt8) (hlen : file.length < 2 ^ 64) (o : Nat) :
    o ∈ padMarks file ↔ MarkerAt file o := by
  have shift : ∀ i, markAt ([0, 0, 0] ++ file) i = true ↔ 3 ≤ i ∧ MarkerAt file (i - 3) := by
    intro i
    by_cases hi : 3 ≤ i
    · obtain ⟨k, rfl⟩ : ∃ k, i = 3 + k := ⟨i - 3, by omega⟩
      rw [← markAt_drop, show (([0, 0, 0] : List UInt8) ++ file).drop 3 = file from rfl, markAt_iff, Nat.add_sub_cancel_left]
      exact ⟨fun h => ⟨by omega, h⟩, fun h => h.2⟩
    · constructor
      · intro h
        rw [markAt_iff] at h
        have h0 := h.1
        rcases i with _ | _ | _ | i
        · simp at h0
        · simp at h0
        · simp at h0
        · omega
      · intro h; exact absurd h.1 hi
  simp only [padMarks, List.mem_map, List.mem_filter, List.mem_range]
  constructor
  · rintro ⟨i, ⟨hi, hm⟩, rfl⟩
    obtain ⟨h3, hm⟩ := (shift i).mp hm
    rw [wsub_eq i 3 h3 (by omega)]
    exact hm
  · intro h
    have hb : o + 3 < file.length := (List.getElem?_eq_some_iff.mp h.2.2.2).1
    refine ⟨o + 3, ⟨hb, (shift _).mpr ⟨by omega, by simpa using h⟩⟩, ?_⟩
    rw [wsub_eq _ 3 (by omega) (by omega)]; omega

theorem padMarks_sorted (file : List UInt8) (hlen : file.length < 2 ^ 64) : (padMarks file).Pairwise (· < ·) := by
  have key : ∀ i ∈ (List.range file.length).filter (markAt ([0, 0, 0] ++ file)), 3 ≤ i ∧ i < 2 ^ 64 := by
    intro i hi
    simp only [List.mem_filter, List.mem_range] at hi
    refine ⟨?_, by omega⟩
    have h0 := ((markAt_iff _ _).mp hi.2).1
    rcases i with _ | _ | _ | i
    · simp at h0
    · simp at h0
    · simp at h0
    · omega
  rw [padMarks, List.pairwise_map]
  have hs : ((List.range file.length).filter (markAt ([0, 0, 0] ++ file))).Pairwise (· < ·) :=
    List.Pairwise.filter _ List.pairwise_lt_range
  refine List.Pairwise.imp_of_mem ?_ hs
  intro a b ha hb hab
  rw [wsub_eq a 3 (key a ha).1 (key a ha).2, wsub_eq b 3 (key b hb).1 (key b hb).2]
  have := (key a ha).1
  omega

theorem mem_dropLast_sorted (l : List Nat) (h : l.Pairwise (· < ·)) (o : Nat) :
    o ∈ l.dropLast ↔ o ∈ l ∧ ∃ o' ∈ l, o < o' := by
  induction l with
  | nil => simp
  | cons a rest ih =>
    rw [List.pairwise_cons] at h
    rcases rest with _ | ⟨b, rest⟩
    · constructor
      · intro h; cases h
      · rintro ⟨hm, o', ho', hlt⟩
        rw [List.mem_singleton] at hm ho'
        omega
    · rw [List.dropLast_cons_cons, List.mem_cons, ih h.2]
      constructor
      · rintro (rfl | ⟨hm, o', ho', hlt⟩)
        · exact ⟨by simp, b, by simp, h.1 b (by simp)⟩
        · exact ⟨.tail _ hm, o', .tail _ ho', hlt⟩
      · rintro ⟨hm, o', ho', hlt⟩
        rcases List.mem_cons.mp hm with rfl | hm2
        · exact .inl rfl
        · rcases List.mem_cons.mp ho' with rfl | ho'
          · exact absurd (h.1 o hm2) (by omega)
          · exact .inr ⟨hm2, o', ho', hlt⟩

/-- C32, search of a damaged file.  However the file is cut into reads (each but the last of three bytes or more), the
offsets reported are in increasing order and are exactly the positions of a `GRIB` marker after which another one
follows.  Missing from the full property: the message at the last marker, which is never reported (see
`C32_last_message_dropped`), and markers that are not the start of a message, which are reported (see
`C32_marker_inside_message_reported`). -/
theorem C32_markers_found_partial (file : List UInt8) (small : file.length < 2 ^ 64) (chunks : List (List UInt8))
    (cut : chunks.flatten = file) (long : ∀ c ∈ chunks.dropLast, 3 ≤ c.length) :
    ∃ found, findGribOffsets (chunks.map some) = .ok found ∧ found.Pairwise (· < ·) ∧
      ∀ o, o ∈ found ↔ MarkerAt file o ∧ ∃ o', o < o' ∧ MarkerAt file o' := by
  have h := findLoop_ok chunks [] long
  rw [List.nil_append, cut] at h
  refine ⟨(padMarks file).dropLast, ?_, ?_, fun o => ?_⟩
  · rw [findGribOffsets]
    have e : findLoop (chunks.map some) [0, 0, 0] 0 [] = .ok (padMarks file) := h
    rw [e]; rfl
  · exact List.Pairwise.sublist (List.dropLast_sublist _) (padMarks_sorted file small)
  · rw [mem_dropLast_sorted _ (padMarks_sorted file small), mem_padMarks file small]
    constructor
    · rintro ⟨h, o', ho', hlt⟩
      exact ⟨h, o', hlt, (mem_padMarks file small o').mp ho'⟩
    · rintro ⟨h, o', hlt, ho'⟩
      exact ⟨h, o', (mem_padMarks file small o').mpr ho', hlt⟩

theorem readsOf_spec (n : Nat) (hn : 3 ≤ n) (file : List UInt8) :
    (readsOf n file).flatten = file ∧ ∀ c ∈ (readsOf n file).dropLast, 3 ≤ c.length := by
  induction hk : file.length using Nat.strongRecOn generalizing file with
  | _ k ih =>
    rw [readsOf]
    by_cases hf : file = []
    · subst hf; simp
    · have hpos := List.length_pos_iff.mpr hf
      rw [dif_neg (by simp only [hf, or_false]; omega)]
      obtain ⟨h1, h2⟩ := ih (file.drop n).length (by rw [List.length_drop]; omega) (file.drop n) rfl
      refine ⟨by rw [List.flatten_cons, h1, List.take_append_drop], ?_⟩
      intro c hc
      by_cases hd : file.drop n = []
      · rw [hd, readsOf, dif_pos (.inr rfl)] at hc; simp at hc
      · have hne : readsOf n (file.drop n) ≠ [] := by
          rw [readsOf, dif_neg (by simp only [hd, or_false]; omega)]; simp
        rw [List.dropLast_cons_of_ne_nil hne, List.mem_cons] at hc
        rcases hc with rfl | hc
        · have := List.length_pos_iff.mpr hd
          rw [List.length_drop] at this
          rw [List.length_take]; omega
        · exact h2 c hc

theorem sorted_ext {l l' : List Nat} (h : l.Pairwise (· < ·)) (h' : l'.Pairwise (· < ·))
    (hm : ∀ x, x ∈ l ↔ x ∈ l') : l = l' := by
  apply List.Perm.eq_of_pairwise (le := fun a b => a < b)
  · intro a b _ _ h1 h2; omega
  · exact h
  · exact h'
  · exact (List.perm_ext_iff_of_nodup (h.imp (fun h => Nat.ne_of_lt h)) (h'.imp (fun h => Nat.ne_of_lt h))).mpr hm

theorem startsFrom_ge (ms : List (List UInt8)) : ∀ (k : Nat), ∀ o ∈ startsFrom k ms, k ≤ o := by
  induction ms with
  | nil => intro k o h; cases h
  | cons m rest ih =>
    intro k o h
    rw [startsFrom, List.mem_cons] at h
    rcases h with rfl | h
    · omega
    · have := ih _ o h; omega

theorem startsFrom_sorted (ms : List (List UInt8)) (hne : ∀ m ∈ ms, m ≠ []) : ∀ (k : Nat),
    (startsFrom k ms).Pairwise (· < ·) := by
  induction ms with
  | nil => intro k; exact .nil
  | cons m rest ih =>
    intro k
    rw [startsFrom, List.pairwise_cons]
    refine ⟨fun o ho => ?_, ih (fun m hm => hne m (.tail _ hm)) _⟩
    have := startsFrom_ge rest _ o ho
    have := List.length_pos_iff.mpr (hne m (.head _))
    omega

/-- C32, search of a damaged file made of messages one after the other, in which `GRIB` stands only at the start of a
message: all of them are found but the last.  (The reads are those of a regular file.)  Missing from the full property:
the last message. -/
theorem C32_messages_found_partial (msgs : List (List UInt8)) (small : msgs.flatten.length < 2 ^ 64)
    (nonempty : ∀ m ∈ msgs, m ≠ [])
    (marked : ∀ o, MarkerAt msgs.flatten o ↔ o ∈ startsFrom 0 msgs) :
    messageOffsets true none msgs.flatten = .ok (startsFrom 0 msgs).dropLast := by
  obtain ⟨cut, long⟩ := readsOf_spec discoverBuffer (by decide) msgs.flatten
  obtain ⟨found, hf, hs, hm⟩ := C32_markers_found_partial _ small _ cut long
  have hss := startsFrom_sorted msgs nonempty 0
  show findGribOffsets ((readsOf discoverBuffer msgs.flatten).map some) = _
  rw [hf]
  congr 1
  apply sorted_ext hs (List.Pairwise.sublist (List.dropLast_sublist _) hss)
  intro o
  rw [hm, mem_dropLast_sorted _ hss, marked]
  constructor
  · rintro ⟨h, o', hlt, ho'⟩
    exact ⟨h, o', (marked o').mp ho', hlt⟩
  · rintro ⟨h, o', ho', hlt⟩
    exact ⟨h, o', hlt, (marked o').mpr ho'⟩

/-- C32, undamaged files: the offsets are those eccodes finds. -/
theorem C32_undamaged_file (scanCorrupted : Bool) (os : List Nat) (file : List UInt8) :
    messageOffsets scanCorrupted (some os) file = .ok os := rfl

/-- C32: a damaged file is an error unless the search is switched on. -/
theorem C32_damaged_file_reported (file : List UInt8) :
    messageOffsets false none file = throwExn .assertFailed := rfl

/-- C32: a read error is reported, wherever it happens; no offsets are returned. -/
theorem C32_read_error_reported (chunks : List (List UInt8)) (rest : List (Option (List UInt8)))
    (long : ∀ c ∈ chunks, 3 ≤ c.length) :
    findGribOffsets (chunks.map some ++ none :: rest) = throwExn .seriousBug := by
  have gen : ∀ (carry : List UInt8) (pos : Nat) (acc : List Nat),
      findLoop (chunks.map some ++ none :: rest) carry pos acc = throwExn .seriousBug := by
    induction chunks with
    | nil => intro carry pos acc; rfl
    | cons c cs ih =>
      intro carry pos acc
      have hc := long c (.head _)
      rcases c with _ | ⟨b, bs⟩
      · simp at hc
      · rw [List.map_cons, List.cons_append, findLoop, if_pos hc]
        exact ih (fun c hc => long c (.tail _ hc)) _ _ _
  rw [findGribOffsets, gen]; rfl

/-- A message of eight bytes, for the examples. -/
def c32Msg (x : UInt8) : List UInt8 := [0x47, 0x52, 0x49, 0x42, x, x, x, x]

/-- Disagreement with C32: a complete last message is not found, whatever damage precedes it. -/
theorem C32_last_message_dropped (junk : List UInt8) (small : junk.length < 2 ^ 32)
    (clean : ∀ o, ¬ MarkerAt (junk ++ c32Msg 1) o ∨ o = junk.length) :
    messageOffsets true none (junk ++ c32Msg 1) = .ok [] := by
  obtain ⟨cut, long⟩ := readsOf_spec discoverBuffer (by decide) (junk ++ c32Msg 1)
  obtain ⟨found, hf, hs, hm⟩ := C32_markers_found_partial _ (by simp [c32Msg]; omega) _ cut long
  show findGribOffsets ((readsOf discoverBuffer (junk ++ c32Msg 1)).map some) = _
  rw [hf]
  congr 1
  rw [List.eq_nil_iff_forall_not_mem]
  intro o ho
  obtain ⟨h, o', hlt, ho'⟩ := (hm o).mp ho
  rcases clean o with h1 | h1
  · exact h1 h
  · rcases clean o' with h2 | h2
    · exact h2 ho'
    · omega

/-- Non-vacuity of `C32_last_message_dropped`: two damaged bytes, then a complete message. -/
example : messageOffsets true none ([9, 9] ++ c32Msg 1) = .ok [] :=
  C32_last_message_dropped [9, 9] (by decide) (fun o => by
    rw [← markAt_iff]
    have small : ∀ o < 10, ¬ markAt ([9, 9] ++ c32Msg 1) o = true ∨ o = 2 := by decide
    by_cases h : o < 10
    · exact small o h
    · exact .inl (fun hm => h (List.getElem?_eq_some_iff.mp ((markAt_iff _ _).mp hm).1).1))

/-- Disagreement with C32: `GRIB` inside the data of a message is reported as a message. -/
theorem C32_marker_inside_message_reported :
    ∃ file found, findGribOffsets [some file] = .ok found ∧ 6 ∈ found ∧
      file = [0x47, 0x52, 0x49, 0x42, 0, 0] ++ gribMark ++ c32Msg 2 :=
  ⟨_, [0, 6], by decide +kernel, by decide, rfl⟩

/-- Disagreement with C32: the search ends at a read of fewer than three bytes, even if more would follow. -/
theorem C32_short_read_ends_search :
    findGribOffsets [some [0x47, 0x52], some ([0x49, 0x42] ++ c32Msg 1 ++ c32Msg 2)] = .ok [] ∧
    findGribOffsets [some ([0x47, 0x52] ++ [0x49, 0x42] ++ c32Msg 1 ++ c32Msg 2)] = .ok [0, 4] := by
  decide +kernel

/-- Non-vacuity of C32: three messages, cut inside the second marker. -/
example : findGribOffsets ([c32Msg 1 ++ [0x47, 0x52], [0x49, 0x42, 7, 7, 7, 7], c32Msg 3].map some) = .ok [0, 8] ∧
    [c32Msg 1 ++ [0x47, 0x52], [0x49, 0x42, 7, 7, 7, 7], c32Msg 3].flatten = c32Msg 1 ++ c32Msg 7 ++ c32Msg 3 ∧
    startsFrom 0 [c32Msg 1, c32Msg 7, c32Msg 3] = [0, 8, 16] := by
  decide +kernel

/-- Non-vacuity of `C32_messages_found_partial`: its conclusion on two messages, with its hypothesis on the markers. -/
example : messageOffsets true none [c32Msg 1, c32Msg 7].flatten = .ok [0] :=
  C32_messages_found_partial [c32Msg 1, c32Msg 7] (by decide) (by decide) (fun o => by
    rw [← markAt_iff]
    have small : ∀ o < 16, markAt [c32Msg 1, c32Msg 7].flatten o = true ↔ o ∈ startsFrom 0 [c32Msg 1, c32Msg 7] := by
      decide
    by_cases h : o < 16
    · exact small o h
    · constructor
      · intro hm
        have := (List.getElem?_eq_some_iff.mp ((markAt_iff _ _).mp hm).1).1
        exact absurd this h
      · intro hm
        have : startsFrom 0 [c32Msg 1, c32Msg 7] = [0, 8] := by decide
        rw [this] at hm
        simp only [List.mem_cons, List.not_mem_nil, or_false] at hm
        omega)

end GJ
