import Verif.Lemmas.Client
import Verif.Spec.Iter

/-!
# C35 to C38: iterator, C API buffers, Python masks, Rust bridge
-/

namespace GJ
open Spec

/-- Running user operations on the iterator; `dump` returns the non-null results it collected and
`none` entries would be dropped pointers. -/
def runIter {R : Type} : VecSource R → List IterOp → List (IterObs (Option R))
  | _, [] => []
  | s, .hasNext :: ops => .more s.hasNext :: runIter s ops
  | s, .next :: ops => .item (some s.next.1) :: runIter s.next.2 ops
  | s, .dump :: ops => .rest s.dump.1 :: runIter s.dump.2 ops

/-- The same observation in the vocabulary of the specification: a null pointer from `next` is "no
result". -/
def obsMap {R : Type} : IterObs R → IterObs (Option R)
  | .more b => .more b
  | .item x => .item (some x)
  | .rest xs => .rest (xs.map some)

/-- A source and the list it still has to yield. -/
def Yields {R : Type} (s : VecSource R) (rem : List R) : Prop :=
  s.index ≤ s.data.length ∧ s.data.drop s.index = rem.map some

theorem yields_next {R : Type} (s : VecSource R) (rem : List R) (h : Yields s rem) :
    s.hasNext = !rem.isEmpty ∧ s.next.1 = rem.head? ∧ Yields s.next.2 rem.tail := by
  obtain ⟨hi, hd⟩ := h
  cases rem with
  | nil =>
    have hlen : s.data.length ≤ s.index := by
      have := congrArg List.length hd; simp at this; omega
    have hn : s.hasNext = false := by simp [VecSource.hasNext]; omega
    refine ⟨by simp [hn], by simp [VecSource.next, hn], ?_⟩
    simp only [VecSource.next, hn]
    exact ⟨hi, hd⟩
  | cons r rest =>
    have hlt : s.index < s.data.length := by
      have := congrArg List.length hd; simp at this; omega
    have hn : s.hasNext = true := by simp [VecSource.hasNext, hlt]
    have hget : s.data[s.index]? = some (some r) := by
      have := congrArg (fun l => l[0]?) hd
      simpa [List.getElem?_drop] using this
    refine ⟨by simp [hn], by simp [VecSource.next, hn, hget], ?_⟩
    simp only [VecSource.next, hn, if_true, Yields, List.length_set]
    refine ⟨hlt, ?_⟩
    rw [List.drop_set]
    simp only [show s.index < s.index + 1 by omega, if_true]
    have := congrArg (List.drop 1) hd
    simpa [List.drop_drop] using this

theorem yields_dumpLoop {R : Type} : ∀ (n : Nat) (s : VecSource R) (rem : List R), Yields s rem →
    rem.length < n → (s.dumpLoop n).1 = rem.map some ∧ Yields (s.dumpLoop n).2 [] := by
  intro n
  induction n with
  | zero => intro s rem _ h; omega
  | succ n ih =>
    intro s rem h hl
    obtain ⟨h1, h2, h3⟩ := yields_next s rem h
    cases rem with
    | nil =>
      simp only [VecSource.dumpLoop]
      rw [h1]
      simpa using h
    | cons r rest =>
      obtain ⟨i1, i2⟩ := ih s.next.2 rest h3 (by simp at hl; omega)
      simp only [VecSource.dumpLoop]
      rw [h1]
      simp only [List.isEmpty_cons, Bool.not_false, if_true, h2, i1, List.head?_cons, List.map_cons]
      exact ⟨trivial, i2⟩

/-- C35.  Any sequence of `hasNext`, `next` and `dump` calls observes the results once each, in order; after the last
one `hasNext` is false and `next` gives nothing, for ever; `dump` after `k` steps gives the remaining ones.  All entries
are there: `collect_results` asserts it (LocalGribJump.cc:98-99, 114-115), direct extraction sets every result
(Jumper.cc:98, 129, 152), and results from a server are allocated as they are read (Protocol.cc:122). -/
theorem C35_iterator {R : Type} (results : List R) (ops : List IterOp) :
    runIter ⟨results.map some, 0⟩ ops = (iterSpec results ops).map obsMap := by
  have gen : ∀ (ops : List IterOp) (s : VecSource R) (rem : List R), Yields s rem →
      runIter s ops = (iterSpec rem ops).map obsMap := by
    intro ops
    induction ops with
    | nil => intros; rfl
    | cons op ops ih =>
      intro s rem h
      obtain ⟨h1, h2, h3⟩ := yields_next s rem h
      cases op with
      | hasNext => simp only [runIter, iterSpec, List.map_cons, obsMap, h1, ih s rem h]
      | next => simp only [runIter, iterSpec, List.map_cons, obsMap, h2, ih _ _ h3]
      | dump =>
        have hl : rem.length < s.data.length + 1 := by
          have := congrArg List.length h.2; simp at this; omega
        obtain ⟨d1, d2⟩ := yields_dumpLoop (s.data.length + 1) s rem h hl
        simp only [runIter, iterSpec, List.map_cons, obsMap, VecSource.dump, d1, ih _ _ d2]
  exact gen ops ⟨results.map some, 0⟩ results ⟨by simp, by simp⟩

/-- C35 for the Python loop over the C iterator: all results, once each, in order. -/
theorem C35_python_loop {R : Type} (results : List R) (fuel : Nat)
    (enough : results.length < fuel) :
    pyIterate fuel ⟨results.map some, 0⟩ = results := by
  have gen : ∀ (n : Nat) (s : VecSource R) (rem : List R), Yields s rem → rem.length < n →
      pyIterate n s = rem := by
    intro n
    induction n with
    | zero => intro s rem _ h; omega
    | succ n ih =>
      intro s rem h hl
      obtain ⟨h1, h2, h3⟩ := yields_next s rem h
      have hpair : s.next = (rem.head?, s.next.2) := Prod.ext h2 rfl
      rw [pyIterate, cIterNext, hpair]
      cases rem with
      | nil => rfl
      | cons r rest =>
        simp only [List.head?_cons]
        rw [ih _ _ h3 (by simp at hl ⊢; omega)]
        rfl
  exact gen fuel ⟨results.map some, 0⟩ results ⟨by simp, by simp⟩ enough

/-- A null entry, which no source of results makes, would end the Python loop early: the C iterator would report completion
although a later result is still there. -/
theorem null_entry_would_hide_later_ones :
    pyIterate 10 (⟨[some 1, none, some 3], 0⟩ : VecSource Nat) = [1] ∧
    runIter (⟨[some 1, none, some 3], 0⟩ : VecSource Nat) [.next, .next, .hasNext, .next] =
      [.item (some (some 1)), .item (some none), .more true, .item (some (some 3))] := by
  constructor <;> rfl

/-- Non-vacuity of C35. -/
example : runIter (⟨[some 1, some 2, some 3], 0⟩ : VecSource Nat)
    [.hasNext, .next, .dump, .hasNext, .next] =
    [.more true, .item (some (some 1)), .rest [some 2, some 3], .more false, .item (some none)] := rfl

/-- C36 for values: the caller's memory has exactly the stated size.  Either the result has exactly
that many values and the buffer then holds all of them in order, or the call fails; it never writes
outside the buffer. -/
theorem C36_values_never_overrun {V : Type} (r : ExResult V) (buf : List V) :
    (r.values.flatten.length = buf.length ∧ cResultValues r buf buf.length = .ok r.values.flatten) ∨
    (r.values.flatten.length ≠ buf.length ∧
      cResultValues r buf buf.length = .error (.exn .assertFailed)) := by
  have hs : (r.values.map List.length).sum = r.values.flatten.length := by rw [List.length_flatten]
  by_cases h : r.values.flatten.length = buf.length
  · left
    refine ⟨h, ?_⟩
    simp only [cResultValues, cassert]
    rw [hs, if_pos (by simpa using h), ok_bind, writeRows_ok _ _ _ (by omega), ok_bind]
    simp only
    rw [if_pos (by simpa using h), ok_bind]
    simp [h]
  · right
    refine ⟨h, ?_⟩
    simp only [cResultValues, cassert]
    rw [hs, if_neg (by simpa using h)]
    rfl

/-- C36 for masks, when the stated size is not smaller than the number of words.  Missing from the
full property: a smaller stated size, see `C36_mask_overrun`. -/
theorem C36_masks_partial {V : Type} (r : ExResult V) (buf : List Nat)
    (fits : r.mask.flatten.length ≤ buf.length) :
    (r.mask.flatten.length = buf.length ∧ cResultMask r buf buf.length = .ok r.mask.flatten) ∨
    (r.mask.flatten.length ≠ buf.length ∧
      cResultMask r buf buf.length = .error (.exn .assertFailed)) := by
  simp only [cResultMask]
  rw [writeRows_ok _ _ _ (by omega), ok_bind]
  simp only [cassert]
  by_cases h : r.mask.flatten.length = buf.length
  · left
    refine ⟨h, ?_⟩
    rw [if_pos (by simpa using h), ok_bind]
    simp [h]
  · right
    refine ⟨h, ?_⟩
    rw [if_neg (by simpa using h)]
    rfl

/-- C36 is false for masks: whenever the stated size is smaller than the number of mask words, the
copy writes outside the buffer before the size check is reached. -/
theorem C36_mask_overrun {V : Type} (r : ExResult V) (buf : List Nat)
    (small : buf.length < r.mask.flatten.length) :
    cResultMask r buf buf.length = .error .ub := by
  simp only [cResultMask]
  rw [writeRows_ub _ _ _ (by omega) (by omega)]
  rfl

/-- Non-vacuity of C36. -/
example : cResultValues (⟨[[1, 2], [], [3]], []⟩ : ExResult Nat) [0, 0, 0] 3 = .ok [1, 2, 3] ∧
    cResultMask (⟨[], [[1, 2], [3]]⟩ : ExResult Nat) [0, 0] 2 = .error .ub := by decide

/-- C37.  Ranges are accepted as they are if there is one, and none is empty or reversed. -/
theorem C37_ranges_checked (rs out : List Interval) :
    pyCheckRanges rs = .ok out ↔ out = rs ∧ rs ≠ [] ∧ ∀ r ∈ rs, r.b < r.e := by
  rw [pyCheckRanges]
  by_cases h : rs = []
  · rw [if_pos h]
    exact ⟨fun e => (by cases e), fun e => absurd h e.2.1⟩
  · rw [if_neg h]
    by_cases ha : rs.all (fun r => decide (r.b < r.e)) = true
    · rw [if_pos ha]
      have ha' : ∀ r ∈ rs, r.b < r.e := by simpa using ha
      exact ⟨fun e => (by cases e; exact ⟨rfl, h, ha'⟩), fun e => by rw [e.1]⟩
    · rw [if_neg ha]
      refine ⟨fun e => (by cases e), fun e => absurd ?_ ha⟩
      simpa using e.2.2

/-- C37.  A non-empty list of points gives one range per point, selecting exactly the points, in order. -/
theorem C37_from_indices (ps : List Nat) (some : ps ≠ []) :
    ∃ rs, pyFromIndices ps = .ok rs ∧ rs.length = ps.length ∧ pyIndices rs = ps := by
  refine ⟨ps.map fun p => ⟨p, p + 1⟩, (C37_ranges_checked _ _).mpr ⟨rfl, by simpa using some, ?_⟩, by simp, ?_⟩
  · intro r hr
    obtain ⟨p, -, rfl⟩ := List.mem_map.mp hr
    exact Nat.lt_succ_self p
  · clear some
    induction ps with
    | nil => rfl
    | cons p ps ih =>
      simp only [pyIndices, List.map_cons, List.flatMap_cons] at ih ⊢
      rw [ih]
      simp [List.range']

/-- Non-vacuity of C37. -/
example : pyFromIndices [3, 3, 1] = .ok [⟨3, 4⟩, ⟨3, 4⟩, ⟨1, 2⟩] ∧ pyCheckRanges [⟨1, 1⟩] = .error (.exn .userError) := by
  decide

/-- C37.  For every mask with a True position, `from_mask` returns non-empty ranges inside the mask,
in increasing order and separated by at least one False position; listing the ranges' points gives
exactly the True positions in increasing order, so value `j` of the result belongs to the `j`-th True
position.  A mask without True positions is refused. -/
theorem C37_from_mask (m : List Bool) :
    (true ∉ m ∧ pyFromMask m = .error (.exn .userError)) ∨
    (true ∈ m ∧ ∃ rs, pyFromMask m = .ok rs ∧
      (∀ r ∈ rs, r.b < r.e ∧ r.e ≤ m.length) ∧
      rs.Pairwise (fun r s => r.e < s.b) ∧
      pyIndices rs = (List.range m.length).filter (fun i => m[i]?.getD false) ∧
      pyCheckRanges rs = .ok rs) := by
  by_cases hm : true ∈ m
  · right
    refine ⟨hm, ?_⟩
    have hany : ¬ m.any id = false := by simpa using hm
    obtain ⟨⟨d1, d2⟩, _⟩ := diff_runs m 0
    obtain ⟨⟨f1, f2, f3⟩, _⟩ := runs_trues m 0
    have hz : ((runsF 0 m).map Prod.fst).zip ((runsF 0 m).map Prod.snd) = runsF 0 m := by
      rw [List.zip_map']
      have : (fun p : Nat × Nat => (p.1, p.2)) = id := rfl
      rw [this, List.map_id]
    refine ⟨(runsF 0 m).map fun p => ⟨p.1, p.2⟩, ?_, ?_, ?_, ?_, ?_⟩
    · rw [pyFromMask, if_neg hany]
      simp only [d1, d2, hz]
    · intro r hr
      obtain ⟨p, hp, rfl⟩ := List.mem_map.mp hr
      have := f2 p hp
      simp only
      omega
    · exact List.pairwise_map.mpr f3
    · rw [pyIndices, List.flatMap_map, f1, truesFrom_eq]
      simp
    · have hne : runsF 0 m ≠ [] := by
        intro hc
        rw [hc] at f1
        have : truesFrom 0 m = [] := by rw [← f1]; rfl
        rw [truesFrom_eq] at this
        simp only [List.map_eq_nil_iff, List.filter_eq_nil_iff, List.mem_range] at this
        obtain ⟨i, hi, hget⟩ := List.mem_iff_getElem.mp hm
        have := this i hi
        rw [List.getElem?_eq_getElem hi, hget] at this
        simp at this
      rw [pyCheckRanges, if_neg (by simpa using hne), if_pos]
      rw [List.all_eq_true]
      intro r hr
      obtain ⟨p, hp, rfl⟩ := List.mem_map.mp hr
      have := f2 p hp
      simp only [decide_eq_true_eq]
      omega
  · left
    refine ⟨hm, ?_⟩
    have : m.any id = false := by
      rw [List.any_eq_false]
      intro x hx
      cases x
      · simp
      · exact absurd hx hm
    rw [pyFromMask, if_pos this, throwExn]

/-- Non-vacuity of C37: runs at both ends. -/
example : pyFromMask [true, true, false, true, false, false, true] =
    .ok [⟨0, 2⟩, ⟨3, 4⟩, ⟨6, 7⟩] := by decide

theorem takeRanges_ok (pre mid post : List Interval) :
    takeRanges (pre ++ mid ++ post) pre.length (pre.length + mid.length) = .ok mid := by
  simp only [takeRanges, Nat.add_sub_cancel_left]
  have : ∀ (mid pre : List Interval) (post : List Interval),
      (List.range' pre.length mid.length).mapM (fun j =>
        match (pre ++ mid ++ post)[j]? with
        | some r => (.ok r : Res Interval)
        | none => undef) = .ok mid := by
    intro mid
    induction mid with
    | nil => intros; rfl
    | cons x rest ih =>
      intro pre post
      rw [List.length_cons, List.range'_succ, List.mapM_cons]
      have hx : (pre ++ x :: rest ++ post)[pre.length]? = some x := by simp
      have hrw : pre ++ x :: rest ++ post = (pre ++ [x]) ++ rest ++ post := by simp
      rw [hx, ok_bind, hrw]
      have := ih (pre ++ [x]) post
      rw [List.length_append, List.length_singleton] at this
      rw [this]
      rfl
  exact this mid pre post

/-- Start index of each message's ranges. -/
def startsOf : Nat → List (List Interval) → List Nat
  | _, [] => []
  | k, rs :: rest => k :: startsOf (k + rs.length) rest

theorem rustFlatten_eq (msgs : List (Nat × List Interval)) :
    rustFlatten msgs = ⟨msgs.map Prod.fst, (msgs.map Prod.snd).flatten, startsOf 0 (msgs.map Prod.snd)⟩ := by
  have gen : ∀ (msgs : List (Nat × List Interval)) (d : FlatData),
      msgs.foldl (fun d m => (⟨d.offsets ++ [m.1], d.ranges ++ m.2, d.starts ++ [d.ranges.length]⟩ : FlatData)) d =
      ⟨d.offsets ++ msgs.map Prod.fst, d.ranges ++ (msgs.map Prod.snd).flatten,
        d.starts ++ startsOf d.ranges.length (msgs.map Prod.snd)⟩ := by
    intro msgs
    induction msgs with
    | nil => intro d; simp [startsOf]
    | cons m rest ih =>
      intro d
      rw [List.foldl_cons, ih]
      simp [startsOf]
  rw [rustFlatten, gen]
  simp

theorem startsOf_length (k : Nat) (ms : List (List Interval)) : (startsOf k ms).length = ms.length := by
  induction ms generalizing k with
  | nil => rfl
  | cons m rest ih => simp [startsOf, ih]

theorem startsOf_getElem? (ms : List (List Interval)) : ∀ (k i : Nat),
    (startsOf k ms)[i]? = if i < ms.length then some (k + ((ms.take i).flatten).length) else none := by
  induction ms with
  | nil => intro k i; simp [startsOf]
  | cons m rest ih =>
    intro k i
    cases i with
    | zero => simp [startsOf]
    | succ i =>
      simp only [startsOf, List.getElem?_cons_succ, ih, List.length_cons, List.take_succ_cons,
        List.flatten_cons, List.length_append]
      by_cases h : i < rest.length
      · rw [if_pos h, if_pos (by omega)]; congr 1; omega
      · rw [if_neg h, if_neg (by omega)]

/-- C38.  The offsets and per-message ranges given to the Rust API reach the C++ call unchanged. -/
theorem C38_ranges_survive_bridge (msgs : List (Nat × List Interval)) :
    cxxUnflatten (rustFlatten msgs) = .ok (msgs.map Prod.fst, msgs.map Prod.snd) := by
  rw [rustFlatten_eq, cxxUnflatten]
  simp only [startsOf_length]
  generalize msgs.map Prod.snd = ms
  have key : (List.range ms.length).mapM (fun i => (do
      let start := (startsOf 0 ms)[i]?.getD 0
      let stop := ((startsOf 0 ms)[i + 1]?).getD ms.flatten.length
      if stop < start then throwExn .lengthError else takeRanges ms.flatten start stop : Res (List Interval))) =
      .ok ms := by
    rw [mapM_ok _ (fun i => ms[i]?.getD []) (List.range ms.length)]
    · congr 1
      apply List.ext_getElem
      · simp
      · intro i h1 h2
        simp [List.getElem?_eq_getElem h2]
    · intro i hi
      rw [List.mem_range] at hi
      have hstart : (startsOf 0 ms)[i]?.getD 0 = (ms.take i).flatten.length := by
        rw [startsOf_getElem?, if_pos hi]; simp
      have hsplit : ms.flatten = (ms.take i).flatten ++ ms[i] ++ (ms.drop (i + 1)).flatten := by
        have := congrArg List.flatten (List.take_append_drop i ms)
        rw [List.flatten_append, List.drop_eq_getElem_cons hi, List.flatten_cons] at this
        rw [← this, List.append_assoc]
      have hstop : ((startsOf 0 ms)[i + 1]?).getD ms.flatten.length =
          (ms.take i).flatten.length + ms[i].length := by
        rw [startsOf_getElem?]
        by_cases h : i + 1 < ms.length
        · rw [if_pos h, List.take_succ_eq_append_getElem hi, Option.getD_some, List.flatten_append,
            List.length_append, Nat.zero_add]
          simp
        · rw [if_neg h]
          have : ms.drop (i + 1) = [] := List.drop_of_length_le (by omega)
          rw [Option.getD_none, hsplit, this]; simp
      simp only [hstart, hstop]
      rw [if_neg (by omega), hsplit, takeRanges_ok, List.getElem?_eq_getElem hi, Option.getD_some]
  simp only at key ⊢
  rw [key, ok_bind]

/-- Non-vacuity of C38: a message without ranges in the middle and at the end. -/
example : rustFlatten [(100, [⟨0, 2⟩, ⟨5, 6⟩]), (200, []), (300, [⟨1, 4⟩]), (400, [])] =
    ⟨[100, 200, 300, 400], [⟨0, 2⟩, ⟨5, 6⟩, ⟨1, 4⟩], [0, 2, 2, 3]⟩ := by decide

end GJ
