import Verif.Lemmas.Cut
import Verif.Props.C16
import Verif.Props.C18

/-!
# C45: damaged index files

An index file that was cut off (a crash while appending, a full disk), possibly appended to afterwards, of another format
version, or not an index at all.
-/

namespace GJ

open Spec

/-! ## Not an index -/

/-- C45.  An index of another format version is refused, whatever it holds. -/
theorem C45_other_version_refused (fs : FS) (path : String) (v : Nat) (rest : List Tok) (hv : v ≠ 1)
    (h : fs.find path = some (.u8 v :: rest)) : loadIndex fs path = throwExn .assertFailed := by
  rw [loadIndex, h]
  simp only
  rw [decIndex, Dec.bind_ok (show Dec.u8 _ = .ok (v, rest) from rfl)]
  have : Dec.lift (cassert (decide (v = indexVersion))) rest = throwExn .assertFailed := by
    rw [decide_eq_false (show ¬ v = indexVersion from hv)]; rfl
  rw [Dec.bind_error this]

/-- C45.  A file that does not begin like an index, in particular an empty one, is refused. -/
theorem C45_foreign_file_refused (fs : FS) (path : String) (toks : List Tok) (h : fs.find path = some toks)
    (foreign : ∀ v rest, toks ≠ .u8 v :: rest) : ∃ e, loadIndex fs path = throwExn e := by
  rw [loadIndex, h]
  simp only
  have : ∃ e, Dec.u8 toks = throwExn e := by
    unfold Dec.u8
    split
    · exact absurd rfl (foreign _ _)
    · unfold Dec.mismatch
      split <;> exact ⟨_, rfl⟩
  obtain ⟨e, he⟩ := this
  rw [decIndex, Dec.bind_error he]
  exact ⟨e, rfl⟩

/-! ## Cut off -/

/-- What `reanimate` does once an object has started. -/
def reanimateBody : Dec (Option Info) := do
  let name ← Dec.str
  let i ← (if name = "SimpleInfo" then do
      let b ← decJumpInfo
      pure (Info.simple b)
    else if name = "CcsdsInfo" then do
      let b ← decJumpInfo
      let x ← decCcsdsExt
      pure (Info.ccsds b x)
    else if name = "UnsupportedInfo" then do
      let b ← decJumpInfo
      pure (Info.unsupported b)
    else Dec.fail .streamError : Dec Info)
  Dec.skipEnd
  pure (some i)

theorem reanimate_start (s : List Tok) : reanimate (.objStart :: s) = reanimateBody s := by
  rw [reanimate, Dec.bind_ok (show Dec.next _ = .ok (true, s) from rfl), if_pos rfl]; rfl

theorem reanimateBody_local : Dec.Local reanimateBody :=
  Dec.Local.str.bind fun _ => (Dec.Local.ite (decJumpInfo_local.bind fun _ => .pure _)
    (Dec.Local.ite (decJumpInfo_local.bind fun _ => decCcsdsExt_local.bind fun _ => .pure _)
      (Dec.Local.ite (decJumpInfo_local.bind fun _ => .pure _) (.fail _)))).bind fun _ =>
    Dec.Local.skipEnd.bind fun _ => .pure _

/-- Metadata cut off inside, followed by nothing or by an object. -/
theorem reanimate_cut (i : Info) (p q : List Tok) (h : encInfo i = .objStart :: (p ++ q)) (hq : q ≠ []) (t : List Tok)
    (ht : Stuck t) : ∃ e, reanimate (.objStart :: (p ++ t)) = throwExn e := by
  have h1 := C20_metadata_roundtrip i []
  rw [h, List.append_nil, reanimate_start] at h1
  obtain ⟨u, hu, -, hc⟩ := reanimateBody_local _ _ _ h1
  rw [List.append_nil] at hu
  exact ⟨_, by rw [reanimate_start]; exact hc p q hu.symm hq t ht⟩

theorem stuck_entries (c : List (Nat × Info)) : Stuck (entryToks c) := by
  cases c with
  | nil => trivial
  | cons p c => exact trivial

theorem next_start (pend : Bool) (s : List Tok) :
    Dec.next ((if pend then [Tok.objEnd] else []) ++ .objStart :: s) = .ok (true, s) := by
  cases pend <;> rfl

/-- The reader's loop on entries cut off after `k` items and followed by complete entries. -/
theorem decEntries_cut (es c : List (Nat × Info)) (k : Nat) (pend : Bool) (m : InfoMap) (n : Nat)
    (hn : ((entryToks es).take k).length + c.length < n) :
    (∃ e, decEntries n m ((if pend then [Tok.objEnd] else []) ++ ((entryToks es).take k ++ entryToks c)) = throwExn e) ∨
    ∃ j m', j ≤ es.length ∧ ((entryToks es).take k).length ≤ (entryToks (es.take j)).length + 2 ∧
      decEntries n m ((if pend then [Tok.objEnd] else []) ++ ((entryToks es).take k ++ entryToks c)) = .ok (m', []) ∧
      ∀ o, indexFind m' o = indexFind (insertAll m (es.take j ++ c)) o := by
  induction es generalizing k pend m n with
  | nil =>
    right
    refine ⟨0, _, Nat.le_refl _, by cases k <;> exact Nat.zero_le _, ?_, fun _ => rfl⟩
    have : (entryToks []).take k = [] := by cases k <;> rfl
    rw [this, List.nil_append, decEntries_ok c pend m n (by rw [this] at hn; simpa using hn)]
    rfl
  | cons x es ih =>
    obtain ⟨o, i⟩ := x
    obtain ⟨n, rfl⟩ : ∃ k, n = k + 1 := ⟨n - 1, by omega⟩
    have etoks : entryToks ((o, i) :: es) = .objStart :: .off o :: (encInfo i ++ .objEnd :: entryToks es) := by
      show encEntry o i ++ entryToks es = _
      simp [encEntry, List.append_assoc]
    rw [etoks] at hn ⊢
    match k with
    | 0 =>
      right
      refine ⟨0, _, Nat.zero_le _, Nat.zero_le _, ?_, fun _ => rfl⟩
      rw [List.take_zero, List.nil_append, decEntries_ok c pend m (n + 1) (by omega)]
      rfl
    | 1 =>
      left
      show ∃ e, decEntries (n + 1) m (_ ++ .objStart :: entryToks c) = _
      refine ⟨.streamError, ?_⟩
      rw [decEntries, Dec.bind_ok (next_start pend _), if_pos rfl]
      cases c with
      | nil => rfl
      | cons y c => rfl
    | k + 2 =>
      have hn2 : ((encInfo i ++ .objEnd :: entryToks es).take k).length + 2 + c.length < n + 1 := hn
      have e2 : (Tok.objStart :: .off o :: (encInfo i ++ .objEnd :: entryToks es)).take (k + 2) ++ entryToks c
          = .objStart :: .off o :: ((encInfo i ++ .objEnd :: entryToks es).take k ++ entryToks c) := rfl
      have e3 : (Tok.objStart :: .off o :: (encInfo i ++ .objEnd :: entryToks es)).take (k + 2)
          = .objStart :: .off o :: (encInfo i ++ .objEnd :: entryToks es).take k := rfl
      rw [e2, decEntries, Dec.bind_ok (next_start pend _), if_pos rfl,
        Dec.bind_ok (show Dec.off _ = .ok (o, _) from rfl)]
      by_cases hk : (encInfo i).length ≤ k
      · -- the metadata is complete
        rw [List.take_append, List.take_of_length_le hk, List.append_assoc,
          Dec.bind_ok (C20_metadata_roundtrip i _)]
        rw [List.take_append, List.length_append] at hn2
        generalize hr : k - (encInfo i).length = r at hn2 ⊢
        cases r with
        | zero =>
          right
          refine ⟨1, _, by simp, ?_, ?_, fun _ => rfl⟩
          · show _ ≤ (encEntry o i ++ []).length + 2
            rw [List.append_nil, e3, List.length_cons, List.length_cons, List.take_append, List.length_append, hr]
            simp only [List.take_zero, List.length_nil, List.length_cons, List.length_append, encEntry, List.length_take]
            omega
          have := decEntries_ok c false (m.insert o (some i)) n (by omega)
          rw [List.take_zero, List.nil_append]
          exact this
        | succ r =>
          rw [List.take_succ_cons, List.length_cons] at hn2
          rcases ih r true (m.insert o (some i)) n (by omega) with ⟨e, he⟩ | ⟨j, m', hj, hl, he, hf⟩
          · exact .inl ⟨e, he⟩
          · right
            refine ⟨j + 1, m', by simpa using hj, ?_, he, hf⟩
            show _ ≤ (encEntry o i ++ entryToks (es.take j)).length + 2
            rw [e3, List.length_cons, List.length_cons, List.take_append, List.length_append, hr, List.take_succ_cons]
            simp only [List.length_cons, List.length_nil, List.length_append, encEntry] at hl ⊢
            rw [List.length_take]
            omega
      · have hk' : k < (encInfo i).length := Nat.lt_of_not_le hk
        have hz : k - (encInfo i).length = 0 := by omega
        rw [List.take_append, hz, List.take_zero, List.append_nil]
        have ei : encInfo i = .objStart :: (.str i.className :: (encInfoBody i ++ [.objEnd])) := rfl
        cases k with
        | zero =>
          rw [List.take_zero, List.nil_append]
          cases c with
          | nil =>
            -- a null pointer is stored, which lookups treat as absent
            right
            obtain ⟨n, rfl⟩ : ∃ k, n = k + 1 := ⟨n - 1, by omega⟩
            refine ⟨0, m.insert o none, Nat.zero_le _, Nat.le_refl _, rfl, ?_⟩
            intro o'
            show indexFind _ o' = indexFind m o'
            rw [indexFind, indexFind, AMap.find_insert]
            by_cases ho : o = o'
            · subst ho
              rw [if_pos rfl]
              cases AMap.find m o <;> rfl
            · rw [if_neg ho]
          | cons y c =>
            left
            exact ⟨.streamError, rfl⟩
        | succ k =>
          left
          rw [ei, List.take_succ_cons]
          obtain ⟨e, he⟩ := reanimate_cut i ((Tok.str i.className :: (encInfoBody i ++ [.objEnd])).take k)
            ((Tok.str i.className :: (encInfoBody i ++ [.objEnd])).drop k) (by rw [List.take_append_drop]; exact ei)
            (by
              intro h0
              have := congrArg List.length h0
              rw [List.length_drop] at this
              rw [ei] at hk'
              simp only [List.length_cons, List.length_nil] at hk' this
              omega) (entryToks c) (stuck_entries c)
          exact ⟨e, by rw [List.cons_append, Dec.bind_error he]⟩

theorem encEntry_long (o : Nat) (i : Info) : 2 < (encEntry o i).length := by
  simp only [encEntry, encInfo, List.length_cons, List.length_append, List.length_nil]; omega

theorem complete_kept (es a : List (Nat × Info)) (j k : Nat) (b : List (Nat × Info)) (h : es = a ++ b)
    (hk : (entryToks a).length ≤ k)
    (hl : ((entryToks es).take k).length ≤ (entryToks (es.take j)).length + 2) : a.length ≤ j := by
  rcases Nat.lt_or_ge j a.length with hj | hj
  · exfalso
    subst h
    rw [List.take_append_of_le_length (Nat.le_of_lt hj), entryToks_append, List.length_take, List.length_append] at hl
    have : a = a.take j ++ (a[j] :: a.drop (j + 1)) := by
      rw [← List.drop_eq_getElem_cons hj, List.take_append_drop]
    have h2 := congrArg (fun l => (entryToks l).length) this
    simp only [entryToks_append, List.length_append] at h2
    have h3 : (entryToks (a[j] :: a.drop (j + 1))).length
        = (encEntry a[j].1 a[j].2).length + (entryToks (a.drop (j + 1))).length := by
      show (encEntry a[j].1 a[j].2 ++ entryToks (a.drop (j + 1))).length = _
      rw [List.length_append]
    have := encEntry_long a[j].1 a[j].2
    omega
  · exact hj

/-- C45.  An index cut off after any number of items, then possibly appended to: loading it throws, or gives for every
offset what the first `j` entries, followed by the entries appended later, record for it; these `j` entries include all
that were complete before the cut.  Never anything else. -/
theorem C45_cut_index_never_wrong (fs : FS) (path : String) (es later : List (Nat × Info)) (k : Nat)
    (h : fs.find path = some ((Tok.u8 1 :: entryToks es).take k ++ entryToks later)) :
    (∃ e, loadIndex fs path = throwExn e) ∨
    ∃ j m, loadIndex fs path = .ok m ∧ (∀ o, indexFind m o = recorded [es.take j, later] o) ∧
      ∀ a b, es = a ++ b → (Tok.u8 1 :: entryToks a).length ≤ k → a.length ≤ j := by
  cases k with
  | zero =>
    left
    refine C45_foreign_file_refused fs path _ h ?_
    intro v rest
    rw [List.take_zero, List.nil_append]
    cases later with
    | nil => exact fun e => (by cases e)
    | cons y c => exact fun e => (by cases e)
  | succ k =>
    rw [List.take_succ_cons, List.cons_append] at h
    have hd : ∀ s, decIndex (.u8 1 :: s) = decEntries (s.length + 1) [] s := by
      intro s
      rw [decIndex, Dec.bind_ok (show Dec.u8 _ = .ok (1, s) from rfl),
        Dec.bind_ok (lift_cassert (decide_eq_true (show 1 = indexVersion from rfl)) _), decAllEntries]
    rcases decEntries_cut es later k false [] (((entryToks es).take k ++ entryToks later).length + 1) (by
        have := entryToks_length later
        rw [List.length_append]; omega) with ⟨e, he⟩ | ⟨j, m, -, hl, he, hf⟩
    · left
      rw [if_neg (by decide), List.nil_append] at he
      refine ⟨e, ?_⟩
      rw [loadIndex, h]
      simp only
      rw [hd, he]
    · right
      rw [if_neg (by decide), List.nil_append] at he
      refine ⟨j, m, ?_, ?_, ?_⟩
      · rw [loadIndex, h]
        simp only
        rw [hd, he]
      · intro o
        rw [hf, indexFind_insertAll, ← find_eq_recorded]
        simp [AMap.find]
      · intro a b hab hk
        exact complete_kept es a j k b hab (by simpa using hk) hl

/-- C17, C45.  A process stops at any point while appending to a complete index, and other processes may append after that:
the index can no longer be loaded, or it gives the old entries, those of the new ones up to some point, and what was
appended later.  No lookup gives wrong metadata. -/
theorem C45_crash_while_appending (fs : FS) (path : String) (es new later : List (Nat × Info)) (k : Nat)
    (h : fs.find path = some (.u8 1 :: entryToks es)) :
    let crashed := runOps fs ((appendOps path (entryToks new)).take k)
    ∃ after, appendIndex crashed path (noNull later) = .ok after ∧
      ((∃ e, loadIndex after path = throwExn e) ∨
       ∃ j m, loadIndex after path = .ok m ∧ ∀ o, indexFind m o = recorded [es, new.take j, later] o) := by
  intro crashed
  have hc : crashed.find path = some (.u8 1 :: entryToks es ++ (entryToks new).take k) := by
    show (runOps fs (((entryToks new).map (.put path)).take k)).find path = _
    rw [← List.map_take, runOps_puts _ _ _ _ h]
  refine ⟨crashed.set path (.u8 1 :: entryToks es ++ (entryToks new).take k ++ entryToks later), ?_, ?_⟩
  · rw [appendIndex, hc]
    simp only
    rw [encEntries_ok, ok_bind]
  · have e : (Tok.u8 1 :: entryToks es) ++ (entryToks new).take k
        = (Tok.u8 1 :: entryToks (es ++ new)).take ((Tok.u8 1 :: entryToks es).length + k) := by
      rw [entryToks_append, ← List.cons_append, List.take_length_add_append]
    rcases C45_cut_index_never_wrong
      (crashed.set path (.u8 1 :: entryToks es ++ (entryToks new).take k ++ entryToks later)) path (es ++ new) later
      ((Tok.u8 1 :: entryToks es).length + k) (by rw [AMap.find_set, if_pos rfl, e]) with h | ⟨j, m, hm, hf, hk⟩
    · exact .inl h
    · right
      have hj := hk es new rfl (Nat.le_add_right _ _)
      refine ⟨j - es.length, m, hm, ?_⟩
      intro o
      rw [hf, recorded, recorded]
      have : [(es ++ new).take j, later].flatten = [es, new.take (j - es.length), later].flatten := by
        rw [List.take_append, List.take_of_length_le hj]
        simp
      rw [this]

/-! ## Foreign content -/

theorem decEntries_prefix (es : List (Nat × Info)) (rest : List Tok) (pend : Bool) (m : InfoMap) (n : Nat) :
    ∃ pend' : Bool, decEntries (n + es.length) m ((if pend then [Tok.objEnd] else []) ++ (entryToks es ++ rest))
      = decEntries n (insertAll m es) ((if pend' then [Tok.objEnd] else []) ++ rest) := by
  induction es generalizing pend m with
  | nil => exact ⟨pend, rfl⟩
  | cons p es ih =>
    obtain ⟨pend', h⟩ := ih true (m.insert p.1 (some p.2))
    refine ⟨pend', ?_⟩
    rw [show n + (p :: es).length = (n + es.length) + 1 from rfl, decEntries,
      show entryToks (p :: es) = encEntry p.1 p.2 ++ entryToks es from rfl, List.append_assoc,
      Dec.bind_ok (next_entry pend p.1 p.2 _), if_pos rfl,
      Dec.bind_ok (show Dec.off _ = .ok (p.1, _) from rfl),
      Dec.bind_ok (C20_metadata_roundtrip p.2 _)]
    exact h

theorem loadIndex_prefix (fs : FS) (path : String) (es : List (Nat × Info)) (x : Tok) (rest : List Tok)
    (h : fs.find path = some (.u8 1 :: (entryToks es ++ x :: rest)))
    (bad : ∀ n m (pend : Bool), ∃ e, decEntries (n + 1) m ((if pend then [Tok.objEnd] else []) ++ x :: rest) = throwExn e) :
    ∃ e, loadIndex fs path = throwExn e := by
  have hl : (entryToks es ++ x :: rest).length + 1
      = ((entryToks es).length - es.length + rest.length + 1 + 1) + es.length := by
    have := entryToks_length es
    rw [List.length_append, List.length_cons]; omega
  obtain ⟨pend', hp⟩ := decEntries_prefix es (x :: rest) false []
    ((entryToks es).length - es.length + rest.length + 1 + 1)
  obtain ⟨e, he⟩ := bad ((entryToks es).length - es.length + rest.length + 1) (insertAll [] es) pend'
  rw [if_neg (by decide), List.nil_append, ← hl, he] at hp
  refine ⟨e, ?_⟩
  rw [loadIndex, h]
  simp only
  rw [decIndex, Dec.bind_ok (show Dec.u8 _ = .ok (1, _) from rfl),
    Dec.bind_ok (lift_cassert (decide_eq_true (show 1 = indexVersion from rfl)) _), decAllEntries, hp]

/-- C45.  An index in which something other than an entry follows the entries is refused. -/
theorem C45_foreign_item_refused (fs : FS) (path : String) (es : List (Nat × Info)) (x : Tok) (rest : List Tok)
    (h : fs.find path = some (.u8 1 :: (entryToks es ++ x :: rest))) (hx : x ≠ .objStart) (hx' : x ≠ .objEnd) :
    ∃ e, loadIndex fs path = throwExn e := by
  refine loadIndex_prefix fs path es x rest h ?_
  intro n m pend
  have hm : ∀ s : List Tok, ∃ e, (Dec.mismatch s : Res (Bool × List Tok)) = throwExn e := by
    intro s
    unfold Dec.mismatch
    split <;> exact ⟨_, rfl⟩
  have : ∃ e, Dec.next ((if pend then [Tok.objEnd] else []) ++ x :: rest) = throwExn e := by
    unfold Dec.next
    cases pend <;> (split <;> first | exact hm _ | simp_all)
  obtain ⟨e, he⟩ := this
  exact ⟨e, by rw [decEntries, Dec.bind_error he]⟩

/-- C45.  An index with metadata of an unknown class is refused. -/
theorem C45_unknown_class_refused (fs : FS) (path : String) (es : List (Nat × Info)) (o : Nat) (name : String)
    (rest : List Tok)
    (h : fs.find path = some (.u8 1 :: (entryToks es ++ .objStart :: .off o :: .objStart :: .str name :: rest)))
    (hn : name ≠ "SimpleInfo" ∧ name ≠ "CcsdsInfo" ∧ name ≠ "UnsupportedInfo") :
    ∃ e, loadIndex fs path = throwExn e := by
  refine loadIndex_prefix fs path es .objStart _ h ?_
  intro n m pend
  refine ⟨.streamError, ?_⟩
  rw [decEntries, Dec.bind_ok (next_start pend _), if_pos rfl, Dec.bind_ok (show Dec.off _ = .ok (o, _) from rfl)]
  apply Dec.bind_error
  rw [reanimate, Dec.bind_ok (show Dec.next _ = .ok (true, _) from rfl), if_pos rfl,
    Dec.bind_ok (show Dec.str _ = .ok (name, _) from rfl), if_neg hn.1, if_neg hn.2.1, if_neg hn.2.2]
  rfl

/-! ## Examples -/

/-- Cut inside the second entry: refused; cut before its end mark: both entries; cut behind its offset: the first entry. -/
example :
    let whole := Tok.u8 1 :: entryToks [(0, .simple sampleBase), (204, .unsupported sampleBase)]
    let load := fun k => loadIndex [("/d/a.gribjump", whole.take k)] "/d/a.gribjump"
    load (whole.length - 3) = throwExn .streamError ∧
    (load (whole.length - 1)).map (indexFind · 204) = .ok (some (.unsupported sampleBase)) ∧
    (load 24).map (fun m => (indexFind m 0, indexFind m 204)) = .ok (some (.simple sampleBase), none) := by
  decide +kernel

end GJ
