import Verif.Model.InfoCache
import Verif.Lemmas.Codec
import Verif.Props.C21

namespace GJ

/-! ## Entries as tokens -/

/-- Tokens of a list of entries. -/
def entryToks (es : List (Nat × Info)) : List Tok := es.flatMap fun p => encEntry p.1 p.2

theorem entryToks_append (a b : List (Nat × Info)) : entryToks (a ++ b) = entryToks a ++ entryToks b := by
  simp [entryToks]

/-- A map without null pointers. -/
def noNull (es : List (Nat × Info)) : InfoMap := es.map fun p => (p.1, some p.2)

theorem encEntries_ok (es : List (Nat × Info)) : encEntries (noNull es) = .ok (entryToks es) := by
  induction es with
  | nil => rfl
  | cons p es ih =>
    show encEntries ((p.1, some p.2) :: noNull es) = _
    rw [encEntries, ih, ok_bind]; rfl

theorem encIndex_ok (es : List (Nat × Info)) : encIndex (noNull es) = .ok (.u8 1 :: entryToks es) := by
  rw [encIndex, encEntries_ok, ok_bind]; rfl

theorem exists_noNull (m : InfoMap) (h : ∀ p ∈ m, p.2 ≠ none) : ∃ es, m = noNull es := by
  induction m with
  | nil => exact ⟨[], rfl⟩
  | cons p m ih =>
    obtain ⟨es, rfl⟩ := ih (fun q hq => h q (List.mem_cons_of_mem _ hq))
    obtain ⟨o, i⟩ := p
    cases i with
    | none => exact absurd rfl (h (o, none) List.mem_cons_self)
    | some i => exact ⟨(o, i) :: es, rfl⟩

theorem encEntry_length (o : Nat) (i : Info) : 0 < (encEntry o i).length := by simp [encEntry]

theorem entryToks_length (es : List (Nat × Info)) : es.length ≤ (entryToks es).length := by
  induction es with
  | nil => simp
  | cons p es ih =>
    have := encEntry_length p.1 p.2
    show es.length + 1 ≤ (encEntry p.1 p.2 ++ entryToks es).length
    rw [List.length_append]; omega

theorem next_entry (pend : Bool) (o : Nat) (i : Info) (r : List Tok) :
    Dec.next ((if pend then [Tok.objEnd] else []) ++ (encEntry o i ++ r))
      = .ok (true, .off o :: (encInfo i ++ (.objEnd :: r))) := by
  have e : encEntry o i ++ r = .objStart :: .off o :: (encInfo i ++ (.objEnd :: r)) := by
    simp [encEntry, List.append_assoc]
  rw [e]
  cases pend <;> rfl

theorem next_end (pend : Bool) : Dec.next (if pend then [Tok.objEnd] else []) = .ok (false, []) := by
  cases pend <;> rfl

theorem decEntries_ok (es : List (Nat × Info)) (pend : Bool) (m : InfoMap) (n : Nat) (hn : es.length < n) :
    decEntries n m ((if pend then [Tok.objEnd] else []) ++ entryToks es) = .ok (insertAll m es, []) := by
  induction es generalizing pend m n with
  | nil =>
    obtain ⟨n, rfl⟩ : ∃ k, n = k + 1 := ⟨n - 1, by simp at hn; omega⟩
    rw [decEntries, show entryToks [] = [] from rfl, List.append_nil, Dec.bind_ok (next_end pend)]
    rfl
  | cons p es ih =>
    obtain ⟨n, rfl⟩ : ∃ k, n = k + 1 := ⟨n - 1, by simp at hn; omega⟩
    have hn' : es.length < n := by simpa using hn
    rw [decEntries, show entryToks (p :: es) = encEntry p.1 p.2 ++ entryToks es from rfl,
      Dec.bind_ok (next_entry pend p.1 p.2 _), if_pos rfl,
      Dec.bind_ok (show Dec.off _ = .ok (p.1, _) from rfl),
      Dec.bind_ok (C20_metadata_roundtrip p.2 _)]
    exact ih true _ n hn'

theorem decIndex_ok (es : List (Nat × Info)) :
    decIndex (.u8 1 :: entryToks es) = .ok (insertAll [] es, []) := by
  rw [decIndex, Dec.bind_ok (show Dec.u8 _ = .ok (1, _) from rfl),
    Dec.bind_ok (lift_cassert (decide_eq_true (show 1 = indexVersion from rfl)) _), decAllEntries]
  have := decEntries_ok es false [] ((entryToks es).length + 1) (by have := entryToks_length es; omega)
  simpa using this

/-! ## Content of maps -/

theorem find_insertAll (es : List (Nat × Info)) (m : InfoMap) (o : Nat) :
    (insertAll m es).find o = match m.find o with
      | some x => some x
      | none => (AMap.find es o).map some := by
  induction es generalizing m with
  | nil =>
    show AMap.find m o = _
    cases AMap.find m o <;> rfl
  | cons p es ih =>
    obtain ⟨k, i⟩ := p
    show AMap.find (insertAll (AMap.insert m k (some i)) es) o = _
    rw [ih, AMap.find_insert]
    by_cases h : k = o
    · subst h
      rw [if_pos rfl]
      simp only
      cases hm : AMap.find m k with
      | none => simp [AMap.find]
      | some x => simp
    · rw [if_neg h, AMap.find, if_neg h]

theorem nodup_insertAll (es : List (Nat × Info)) (m : InfoMap) (h : m.keys.Nodup) :
    (insertAll m es).keys.Nodup := by
  induction es generalizing m with
  | nil => exact h
  | cons p es ih => exact ih _ (AMap.nodup_insert m _ _ h)

theorem insertAll_new (m es : List (Nat × Info)) (h : (AMap.keys m ++ AMap.keys es).Nodup) :
    insertAll (noNull m) es = noNull (m ++ es) := by
  induction es generalizing m with
  | nil => rw [List.append_nil]; rfl
  | cons p es ih =>
    obtain ⟨k, i⟩ := p
    have hk : k ∉ AMap.keys (noNull m) := by
      intro hm
      rw [List.nodup_append] at h
      refine h.2.2 k ?_ k (by simp [AMap.keys]) rfl
      simpa [AMap.keys, noNull, Function.comp_def] using hm
    have hins : AMap.insert (noNull m) k (some i) = noNull (m ++ [(k, i)]) := by
      have : ∀ (l : InfoMap) (x : Nat) (y : Option Info), x ∉ l.keys → l.insert x y = l ++ [(x, y)] := by
        intro l x y
        induction l with
        | nil => intro _; rfl
        | cons q l ih =>
          obtain ⟨a, b⟩ := q
          intro hx
          simp only [AMap.keys, List.map_cons, List.mem_cons, not_or] at hx
          rw [AMap.insert, if_neg (fun e => hx.1 e.symm), ih hx.2]; rfl
      rw [this _ _ _ hk]; simp [noNull]
    show insertAll (AMap.insert (noNull m) k (some i)) es = _
    rw [hins, ih _ (by simpa [AMap.keys] using h), List.append_assoc]; rfl

theorem rebuild_noNull (es : List (Nat × Info)) (h : (AMap.keys es).Nodup) :
    insertAll [] es = noNull es := by
  have := insertAll_new [] es (by simpa [AMap.keys] using h)
  simpa [noNull] using this

theorem find_noNull (es : List (Nat × Info)) (o : Nat) :
    AMap.find (noNull es) o = (AMap.find es o).map some := by
  induction es with
  | nil => rfl
  | cons p es ih =>
    show AMap.find ((p.1, some p.2) :: noNull es) o = _
    obtain ⟨k, i⟩ := p
    simp only [AMap.find]
    split
    · rfl
    · exact ih

theorem keys_noNull (es : List (Nat × Info)) : AMap.keys (noNull es) = AMap.keys es := by
  simp [AMap.keys, noNull, Function.comp_def]

/-! ## Every decoded map has distinct keys -/

theorem decEntries_nodup (n : Nat) (m m' : InfoMap) (s r : List Tok) (h : m.keys.Nodup)
    (hd : decEntries n m s = .ok (m', r)) : m'.keys.Nodup := by
  induction n generalizing m s with
  | zero => cases hd
  | succ n ih =>
    rw [decEntries] at hd
    obtain ⟨b, s1, -, hd⟩ := dec_bind_inv hd
    cases b with
    | false => cases hd; exact h
    | true =>
      rw [if_pos rfl] at hd
      obtain ⟨o, s2, -, hd⟩ := dec_bind_inv hd
      obtain ⟨i, s3, -, hd⟩ := dec_bind_inv hd
      exact ih _ _ (AMap.nodup_insert m _ _ h) hd

theorem loadIndex_nodup (fs : FS) (p : String) (m : InfoMap) (h : loadIndex fs p = .ok m) :
    m.keys.Nodup := by
  unfold loadIndex at h
  split at h
  · cases h; exact List.nodup_nil
  · rename_i toks _
    cases hd : decIndex toks with
    | error e => rw [hd] at h; cases h
    | ok q =>
      obtain ⟨m', r⟩ := q
      rw [hd] at h
      cases h
      rw [decIndex] at hd
      obtain ⟨v, s1, -, hd⟩ := dec_bind_inv hd
      obtain ⟨u, s2, -, hd⟩ := dec_bind_inv hd
      exact decEntries_nodup _ [] _ _ _ List.nodup_nil hd

theorem loadIndex_written (fs : FS) (p : String) (es : List (Nat × Info)) (h : (AMap.keys es).Nodup) :
    loadIndex (fs.set p (.u8 1 :: entryToks es)) p = .ok (noNull es) := by
  rw [loadIndex, AMap.find_set, if_pos rfl]
  simp only
  rw [decIndex_ok, rebuild_noNull es h]

end GJ
