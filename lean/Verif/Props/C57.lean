import Verif.Model.Python
import Verif.Props.C13
import Verif.Props.C35
import Verif.Props.C49

/-!
# C57: a Python user gets every result unpacked by the ranges of its own request
-/

namespace GJ
open Spec

/-! ## One loop -/

theorem py_loop_from {R : Type} (shapes : List (List Nat)) (gens : List (Option Nat)) (g : Nat) :
    ∀ (m : Nat) (s : VecSource R) (rem : List R) (i : Nat), Yields s rem → gens.length > g →
      ∀ gs : List (Option Nat), gs = gens.set g (some i) → i + rem.length ≤ shapes.length →
      PyIter.run ⟨s, fun j => shapes[j]?, gs⟩ (List.replicate m (.next g)) =
        ((rem.zip (shapes.drop i)).take m).map (fun p => .item p.1 p.2) ++ List.replicate (m - rem.length) .stop := by
  intro m
  induction m with
  | zero => intro s rem i _ _ gs _ _; simp [PyIter.run]
  | succ m ih =>
    intro s rem i hy hg gs hgs hi
    obtain ⟨-, h2, h3⟩ := yields_next s rem hy
    have hpair : cIterNext s = (rem.head?, s.next.2) := Prod.ext h2 rfl
    have hgen : (gs[g]?).join = some i := by rw [hgs, List.getElem?_set_self hg]; rfl
    rw [List.replicate_succ, PyIter.run]
    simp only [PyIter.step, hgen]
    rw [hpair]
    cases rem with
    | nil =>
      simp only [List.head?_nil, List.zip_nil_left, List.take_nil, List.map_nil, List.nil_append, List.length_nil,
        Nat.sub_zero, List.replicate_succ]
      congr 1
      have hstop : ∀ (k : Nat) (src : VecSource R), PyIter.run ⟨src, fun j => shapes[j]?, gs.set g none⟩
          (List.replicate k (.next g)) = List.replicate k (.stop : PySeen R) := by
        intro k
        induction k with
        | zero => intro src; rfl
        | succ k ihk =>
          intro src
          have hg2 : (((gs.set g none)[g]?).join) = (none : Option Nat) := by
            rw [List.getElem?_set_self (by rw [hgs, List.length_set]; exact hg)]; rfl
          rw [List.replicate_succ, PyIter.run]
          simp only [PyIter.step, hg2]
          rw [ihk, List.replicate_succ]
      exact hstop m _
    | cons x rest =>
      have hlt : i < shapes.length := by simp at hi; omega
      simp only [List.head?_cons, List.getElem?_eq_getElem hlt]
      rw [ih s.next.2 rest (i + 1) h3 hg (gs.set g (some (i + 1))) (by rw [hgs, List.set_set]) (by simp at hi; omega)]
      rw [List.drop_eq_getElem_cons hlt, List.zip_cons_cons, List.take_succ_cons, List.map_cons, List.length_cons,
        Nat.add_sub_add_right]
      rfl

/-- **C57, iteration.**  The first loop over an extraction yields the results in order, each with the shape of its own
request, and then ends, however long it is continued.  Missing from the full property: loops started after some results
were already taken, see `C57_second_loop_uses_wrong_shapes`. -/
theorem C57_first_loop_partial {R : Type} (results : List R) (shapes : List (List Nat))
    (same : results.length = shapes.length) (m : Nat) :
    (pyIterator (results.map some) shapes).run (.iter :: List.replicate m (.next 0)) =
      .started :: (((results.zip shapes).take m).map fun p => .item p.1 p.2) ++
        List.replicate (m - results.length) .stop := by
  have h := py_loop_from shapes [some 0] 0 m ⟨results.map some, 0⟩ results 0 ⟨by simp, by simp⟩ (by simp) [some 0] rfl
    (by omega)
  rw [List.drop_zero] at h
  rw [PyIter.run]
  simp only [PyIter.step, pyIterator, List.nil_append]
  rw [h]
  rfl

theorem filterMap_items {R : Type} (l : List (R × List Nat)) (k : Nat) :
    ((l.map fun p => PySeen.item p.1 p.2) ++ List.replicate k (PySeen.stop : PySeen R)).filterMap PySeen.object = l := by
  rw [List.filterMap_append]
  have h1 : (List.replicate k (.stop : PySeen R)).filterMap PySeen.object = [] := by
    induction k with
    | zero => rfl
    | succ k ih => rw [List.replicate_succ, List.filterMap_cons, ih]; rfl
  rw [h1, List.append_nil]
  induction l with
  | nil => rfl
  | cons x xs ih => rw [List.map_cons, List.filterMap_cons, ih]; rfl

theorem pyLoop_all {R : Type} (results : List R) (shapes : List (List Nat)) (same : results.length = shapes.length)
    (fuel : Nat) (enough : results.length ≤ fuel) :
    pyLoop fuel (pyIterator (results.map some) shapes) = results.zip shapes := by
  rw [pyLoop, C57_first_loop_partial results shapes same, List.take_of_length_le (by simp; omega), List.cons_append,
    List.filterMap_cons]
  exact filterMap_items _ _

/-- **C57, iteration over one request of any cardinality.**  However loops are started, abandoned and restarted, the
results come out in order, each once, and always with the shape of the request. -/
theorem C57_single_request {R : Type} (results : List R) (shape : List Nat) (ops : List PyOp) :
    ∃ k, ((pySingleIterator (results.map some) shape).run ops).filterMap PySeen.object =
      (results.take k).map (fun r => (r, shape)) := by
  have gen : ∀ (ops : List PyOp) (s : VecSource R) (rem : List R) (gs : List (Option Nat)), Yields s rem →
      ∃ k, (PyIter.run ⟨s, fun _ => some shape, gs⟩ ops).filterMap PySeen.object =
        (rem.take k).map (fun r => (r, shape)) := by
    intro ops
    induction ops with
    | nil => intro s rem gs _; exact ⟨0, by simp [PyIter.run]⟩
    | cons op ops ih =>
      intro s rem gs hy
      rw [PyIter.run]
      cases op with
      | iter =>
        simp only [PyIter.step]
        rw [List.filterMap_cons]
        exact ih s rem _ hy
      | next g =>
        simp only [PyIter.step]
        cases (gs[g]?).join with
        | none =>
          simp only
          rw [List.filterMap_cons]
          exact ih s rem _ hy
        | some i =>
          obtain ⟨-, h2, h3⟩ := yields_next s rem hy
          have hpair : cIterNext s = (rem.head?, s.next.2) := Prod.ext h2 rfl
          simp only
          rw [hpair]
          cases rem with
          | nil =>
            simp only [List.head?_nil]
            rw [List.filterMap_cons]
            exact ih _ [] _ h3
          | cons x rest =>
            simp only [List.head?_cons]
            rw [List.filterMap_cons]
            obtain ⟨k, hk⟩ := ih s.next.2 rest (gs.set g (some (i + 1))) h3
            refine ⟨k + 1, ?_⟩
            rw [List.take_succ_cons, List.map_cons, hk]
            rfl
  exact gen ops ⟨results.map some, 0⟩ results [] ⟨by simp, by simp⟩

/-! ## Unpacking -/

theorem split_rows {α : Type} : ∀ (rows : List (List α)) (pre : List α), rows ≠ [] →
    let inner := (pyAccumulate pre.length (rows.map List.length)).dropLast
    (List.zip (pre.length :: inner) (inner ++ [(pre ++ rows.flatten).length])).map
      (fun p => ((pre ++ rows.flatten).drop p.1).take (p.2 - p.1)) = rows := by
  intro rows
  induction rows with
  | nil => intro pre h; exact absurd rfl h
  | cons row rest ih =>
    intro pre _
    cases rest with
    | nil =>
      simp only [List.map_cons, List.map_nil, pyAccumulate, List.dropLast_singleton, List.nil_append, List.zip_cons_cons,
        List.zip_nil_left, List.flatten_cons, List.flatten_nil, List.append_nil]
      rw [List.drop_left, List.length_append, Nat.add_sub_cancel_left, List.take_length]
    | cons row2 rest2 =>
      have h := ih (pre ++ row) (by simp)
      have hacc : (pyAccumulate pre.length ((row :: row2 :: rest2).map List.length)).dropLast =
          (pre.length + row.length) :: (pyAccumulate (pre.length + row.length) ((row2 :: rest2).map List.length)).dropLast := by
        simp only [List.map_cons, pyAccumulate, List.dropLast_cons_cons]
      simp only at h ⊢
      rw [hacc]
      rw [List.length_append, List.append_assoc] at h
      rw [List.flatten_cons, List.cons_append, List.zip_cons_cons, List.map_cons, h]
      congr 1
      rw [List.drop_left, Nat.add_sub_cancel_left, List.take_left]

/-- Splitting the concatenation of rows by their lengths gives the rows back. -/
theorem npSplit_rows {α : Type} (rows : List (List α)) (some : rows ≠ []) :
    npSplit rows.flatten (rows.map List.length) = rows := by
  have h := split_rows rows [] some
  simp only [List.length_nil, List.nil_append] at h
  rw [npSplit]
  exact h

/-- **C57, values.**  A result with the shape of its request is unpacked into exactly its value arrays. -/
theorem C57_values_unpacked {V : Type} (zero : V) (r : ExResult V) (rs : List Interval) (some : rs ≠ [])
    (shape : r.values.map List.length = rs.map fun i => i.e - i.b) :
    pyValues zero r (pyShape rs) = .ok r.values := by
  have hs : pyShape rs = r.values.map List.length := shape.symm
  have hsum : (pyShape rs).sum = r.values.flatten.length := by rw [hs, List.length_flatten]
  rw [pyValues]
  rcases C36_values_never_overrun r (List.replicate (pyShape rs).sum zero) with ⟨-, h⟩ | ⟨h, -⟩
  · rw [List.length_replicate] at h
    rw [h, ok_bind, hs, npSplit_rows]
    intro hc
    rw [hc] at shape
    cases rs with
    | nil => exact some rfl
    | cons a b => simp at shape
  · rw [List.length_replicate] at h
    exact absurd hsum.symm h

/-- **C57, masks.**  The mask words are unpacked into exactly the mask arrays, without writing outside the buffer. -/
theorem C57_masks_unpacked {V : Type} (r : ExResult V) (rs : List Interval) (some : rs ≠ [])
    (shape : r.mask.map List.length = rs.map fun i => (i.e - i.b + 63) / 64) :
    pyMasks r (pyShape rs) = .ok r.mask := by
  have hs : pyMaskShape (pyShape rs) = r.mask.map List.length := by
    rw [shape, pyMaskShape, pyShape, List.map_map]; rfl
  have hsum : (pyMaskShape (pyShape rs)).sum = r.mask.flatten.length := by rw [hs, List.length_flatten]
  rw [pyMasks]
  rcases C36_masks_partial r (List.replicate (pyMaskShape (pyShape rs)).sum 0) (by simp [hsum]) with ⟨-, h⟩ | ⟨h, -⟩
  · rw [List.length_replicate] at h
    rw [h, ok_bind, hs, npSplit_rows]
    intro hc
    rw [hc] at shape
    cases rs with
    | nil => exact some rfl
    | cons a b => simp at shape
  · rw [List.length_replicate] at h
    exact absurd hsum.symm h

theorem boolMask_raw (bm : List Bool) :
    (List.range ((toBitset bm).length * 64)).foldl (pyMaskStep (toBitset bm) bm.length) (List.replicate bm.length false) =
      bm := by
  have h := C10_python_roundtrip bm
  rw [pyBoolMask] at h
  simp only [cassert] at h
  split at h
  · rw [ok_bind] at h
    exact Except.ok.inj h
  · cases h

/-- **C57, boolean masks.**  The boolean masks computed from the words of presence flags are the flags. -/
theorem C57_bool_masks (flags : List (List Bool)) :
    pyBoolMasks (flags.map toBitset) (flags.map List.length) = .ok flags := by
  have hz : (flags.map toBitset).zip (flags.map List.length) = flags.map fun bm => (toBitset bm, bm.length) := by
    rw [List.zip_map']
  rw [pyBoolMasks, if_neg (by simp)]
  simp only [hz, List.map_map]
  have hsum : (flags.map ((fun p : List Nat × Nat => min p.2 (p.1.length * 64)) ∘ fun bm => (toBitset bm, bm.length))) =
      flags.map List.length := by
    apply List.map_congr_left
    intro bm _
    simp only [Function.comp, toBitset_length]
    omega
  rw [hsum]
  simp only [cassert, decide_true, if_true, ok_bind]
  congr 1
  have : ∀ bm ∈ flags, ((fun p : List Nat × Nat => (List.range (p.1.length * 64)).foldl (pyMaskStep p.1 p.2)
      (List.replicate p.2 false)) ∘ fun bm => (toBitset bm, bm.length)) bm = id bm := fun bm _ => boolMask_raw bm
  rw [List.map_congr_left this, List.map_id]

/-- **C57, whole extraction.**  When every result has the shape of its request, dumping a fresh iterator gives, per
request, the values and masks of each range, in request order. -/
theorem C57_dump {V : Type} (zero : V) (reqs : List (List Interval)) (results : List (ExResult V))
    (some : ∀ rs ∈ reqs, rs ≠ []) (same : results.length = reqs.length)
    (shape : ∀ (i : Nat) (r : ExResult V) (rs : List Interval), results[i]? = .some r → reqs[i]? = .some rs →
      r.values.map List.length = rs.map (fun i => i.e - i.b) ∧
      r.mask.map List.length = rs.map fun i => (i.e - i.b + 63) / 64)
    (fuel : Nat) (enough : results.length ≤ fuel) :
    pyDumpValues zero fuel (pyIterator (results.map .some) (reqs.map pyShape)) = .ok (results.map ExResult.values) ∧
    pyDumpLegacy zero fuel (pyIterator (results.map .some) (reqs.map pyShape)) =
      .ok (results.map fun r => [r.values.zip r.mask]) := by
  have hloop := pyLoop_all results (reqs.map pyShape) (by simpa using same) fuel enough
  have hmem : ∀ p ∈ results.zip (reqs.map pyShape), pyValues zero p.1 p.2 = .ok p.1.values ∧
      pyMasks p.1 p.2 = .ok p.1.mask := by
    intro p hp
    obtain ⟨i, hi⟩ := List.mem_iff_getElem?.mp hp
    rw [List.getElem?_zip_eq_some] at hi
    obtain ⟨h1, h2⟩ := hi
    rw [List.getElem?_map] at h2
    obtain ⟨rs, h3, h4⟩ := Option.map_eq_some_iff.mp h2
    obtain ⟨s1, s2⟩ := shape i p.1 rs h1 h3
    have hne := some rs (List.mem_of_getElem? h3)
    rw [← h4]
    exact ⟨C57_values_unpacked zero p.1 rs hne s1, C57_masks_unpacked p.1 rs hne s2⟩
  have hfst : ∀ (f : ExResult V → List (List V)), (results.zip (reqs.map pyShape)).map (fun p => f p.1) = results.map f := by
    intro f
    have e : (results.zip (reqs.map pyShape)).map (fun p => f p.1) = ((results.zip (reqs.map pyShape)).map Prod.fst).map f := by
      rw [List.map_map]; rfl
    rw [e, List.map_fst_zip (by simp [same])]
  have hfst' : (results.zip (reqs.map pyShape)).map (fun p => [p.1.values.zip p.1.mask]) =
      results.map fun r => [r.values.zip r.mask] := by
    have e : (results.zip (reqs.map pyShape)).map (fun p => [p.1.values.zip p.1.mask]) =
        ((results.zip (reqs.map pyShape)).map Prod.fst).map fun r => [r.values.zip r.mask] := by
      rw [List.map_map]; rfl
    rw [e, List.map_fst_zip (by simp [same])]
  constructor
  · rw [pyDumpValues, hloop, mapM_ok _ (fun p => p.1.values) _ (fun p hp => (hmem p hp).1), hfst]
  · rw [pyDumpLegacy, hloop, mapM_ok _ (fun p => [p.1.values.zip p.1.mask]) _ ?_, hfst']
    intro p hp
    rw [(hmem p hp).1, ok_bind, (hmem p hp).2, ok_bind]

/-- **C57, from the message to the user.**  The values and masks that a Python user unpacks are those extracted from the
messages, range by range. -/
theorem C57_extracted_reach_python {V : Type} (zero : V) (R : Reader V)
    (reqs : List (List UInt8 × Nat × List Interval)) (results : List (ExResult V))
    (some : ∀ q ∈ reqs, q.2.2 ≠ []) (wf : ∀ q ∈ reqs, ∀ i ∈ q.2.2, i.b ≤ i.e ∧ i.e < 2 ^ 64)
    (extracted : reqs.mapM (fun q => messageExtract R q.1 q.2.1 q.2.2) = .ok results) :
    pyDumpLegacy zero results.length (pyIterator (results.map .some) (reqs.map fun q => pyShape q.2.2)) =
      .ok (results.map fun r => [r.values.zip r.mask]) := by
  have hlen := mapM_length extracted
  have hmap : (reqs.map fun q => pyShape q.2.2) = (reqs.map fun q => q.2.2).map pyShape := by rw [List.map_map]; rfl
  rw [hmap]
  refine (C57_dump zero (reqs.map fun q => q.2.2) results ?_ (by simpa using hlen) ?_ _ (Nat.le_refl _)).2
  · intro rs hrs
    obtain ⟨q, hq, rfl⟩ := List.mem_map.mp hrs
    exact some q hq
  · intro i r rs hr hrs
    rw [List.getElem?_map] at hrs
    obtain ⟨q, hq, rfl⟩ := Option.map_eq_some_iff.mp hrs
    have h := mapM_getElem extracted hq hr
    exact C13_message_shape R _ _ _ (wf q (List.mem_of_getElem? hq)) _ h

/-! ## Second loops -/

/-- C57 is false for a loop started after `k` results were taken by another one: it goes on with the remaining results,
but unpacks them with the shapes of the first requests. -/
theorem C57_second_loop_uses_wrong_shapes {R : Type} (results : List R) (shapes : List (List Nat))
    (same : results.length = shapes.length) (k m : Nat) (hk : k ≤ results.length) :
    (pyIterator (results.map some) shapes).run (.iter :: (List.replicate k (.next 0) ++ .iter :: List.replicate m (.next 1))) =
      .started :: (((results.zip shapes).take k).map (fun p => .item p.1 p.2) ++
        .started :: ((((results.drop k).zip shapes).take m).map (fun p => .item p.1 p.2) ++
          List.replicate (m - (results.length - k)) .stop)) := by
  have gen : ∀ (k : Nat) (s : VecSource R) (rem : List R) (i : Nat), Yields s rem → i + rem.length ≤ shapes.length →
      k ≤ rem.length →
      PyIter.run ⟨s, fun j => shapes[j]?, [some i]⟩ (List.replicate k (.next 0) ++ .iter :: List.replicate m (.next 1)) =
        ((rem.zip (shapes.drop i)).take k).map (fun p => .item p.1 p.2) ++
        .started :: ((((rem.drop k).zip shapes).take m).map (fun p => .item p.1 p.2) ++
          List.replicate (m - (rem.length - k)) .stop) := by
    intro k
    induction k with
    | zero =>
      intro s rem i hy hi _
      rw [List.replicate_zero, List.nil_append, PyIter.run]
      simp only [PyIter.step, List.take_zero, List.map_nil, List.nil_append, List.drop_zero, Nat.sub_zero]
      have h := py_loop_from shapes [some i, none] 1 m s rem 0 hy (by simp) [some i, some 0] rfl (by omega)
      rw [List.drop_zero] at h
      congr 1
    | succ k ih =>
      intro s rem i hy hi hk
      cases rem with
      | nil => simp at hk
      | cons x rest =>
        obtain ⟨-, h2, h3⟩ := yields_next s (x :: rest) hy
        have hpair : cIterNext s = (some x, s.next.2) := Prod.ext h2 rfl
        have hlt : i < shapes.length := by simp at hi; omega
        rw [List.replicate_succ, List.cons_append, PyIter.run]
        have hg : (([some i] : List (Option Nat))[0]?).join = some i := rfl
        simp only [PyIter.step, hg]
        rw [hpair]
        simp only [List.getElem?_eq_getElem hlt]
        have h := ih s.next.2 rest (i + 1) h3 (by simp at hi; omega) (by simp at hk; omega)
        have hset : ([some i] : List (Option Nat)).set 0 (some (i + 1)) = [some (i + 1)] := rfl
        rw [hset, h, List.drop_eq_getElem_cons hlt, List.zip_cons_cons, List.take_succ_cons, List.map_cons,
          List.drop_succ_cons, List.length_cons, Nat.add_sub_add_right]
        rfl
  rw [PyIter.run]
  simp only [PyIter.step, pyIterator, List.nil_append]
  have h := gen k ⟨results.map some, 0⟩ results 0 ⟨by simp, by simp⟩ (by omega) hk
  rw [List.drop_zero] at h
  rw [h]

/-- The consequences: with ranges of 1 and 2 points in one request and 2 and 1 in the next, the second result is split at
the wrong place without an error; with 1 point in one request and 65 in the next, reading its mask writes outside the
buffer. -/
theorem C57_second_loop_consequences :
    let r1 : ExResult Nat := ⟨[[10], [11, 12]], [[1], [3]]⟩
    let r2 : ExResult Nat := ⟨[[20, 21], [22]], [[3], [1]]⟩
    let long : ExResult Nat := ⟨[List.replicate 65 7], [[0, 0]]⟩
    (pyIterator [some r1, some r2] [pyShape [⟨0, 1⟩, ⟨5, 7⟩], pyShape [⟨0, 2⟩, ⟨5, 6⟩]]).run [.iter, .next 0, .iter, .next 1] =
      [.started, .item r1 [1, 2], .started, .item r2 [1, 2]] ∧
    pyValues 0 r2 [1, 2] = .ok [[20], [21, 22]] ∧
    (pyIterator [some r1, some long] [pyShape [⟨0, 1⟩], pyShape [⟨0, 65⟩]]).run [.iter, .next 0, .iter, .next 1] =
      [.started, .item r1 [1], .started, .item long [1]] ∧
    pyMasks long [1] = undef := by decide +kernel

/-- A request without ranges, which `extract_single` does not refuse, is unpacked into one empty array instead of none. -/
theorem C57_no_ranges_one_array : pyValues 0 (⟨[], []⟩ : ExResult Nat) (pyShape []) = .ok [[]] := by decide +kernel

/-- Non-vacuity of C57. -/
example : pyDumpLegacy 0 5 (pyIterator [some (⟨[[1], [2, 3]], [[1], [3]]⟩ : ExResult Nat), some ⟨[[4]], [[0]]⟩]
      [pyShape [⟨0, 1⟩, ⟨5, 7⟩], pyShape [⟨9, 10⟩]]) = .ok [[[([1], [1]), ([2, 3], [3])]], [[([4], [0])]]] ∧
    pyBoolMasks [[1], [2]] [1, 2] = .ok [[true], [false, true]] := by decide +kernel

end GJ
