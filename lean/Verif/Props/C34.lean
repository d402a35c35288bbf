import Verif.Model.Plugin
import Verif.Spec.Plugin
import Verif.Spec.Request
import Verif.Lemmas.Canon

/-!
# C34: which fields the plugin selects
-/

namespace GJ

open Spec

theorem matchLoop_true_iff (E : PlugEnv) (e : Fault) (habs : E.absent = .error e) (key : FdbKey)
    (hk : key.keys.Nodup) (l : List (Str × Str)) :
    matchLoop E key l = .ok true ↔ Selects E.rx l key := by
  induction l with
  | nil => simp [matchLoop, Selects]
  | cons p rest ih =>
    obtain ⟨k, pat⟩ := p
    rw [matchLoop]
    cases hf : key.find k with
    | none =>
      simp only [habs]
      rw [error_bind]
      constructor
      · intro h; cases h
      · intro h
        obtain ⟨v, hv, -⟩ := h (k, pat) (.head _)
        rw [(AMap.mem_iff_find key hk k v).mp hv] at hf
        cases hf
    | some v =>
      simp only
      rw [ok_bind]
      by_cases hr : E.rx pat v = true
      · rw [if_pos hr, ih]
        constructor
        · intro h p hp
          rcases List.mem_cons.mp hp with rfl | hp
          · exact ⟨v, (AMap.mem_iff_find key hk k v).mpr hf, hr⟩
          · exact h p hp
        · intro h p hp; exact h p (.tail _ hp)
      · rw [if_neg hr]
        constructor
        · intro h; cases h
        · intro h
          obtain ⟨w, hw, hr'⟩ := h (k, pat) (.head _)
          rw [(AMap.mem_iff_find key hk k w).mp hw] at hf
          cases hf
          exact absurd hr' hr

theorem matchLoop_bool (E : PlugEnv) (key : FdbKey) (l : List (Str × Str))
    (h : ∀ p ∈ l, (key.find p.1).isSome = true) : ∃ b, matchLoop E key l = .ok b := by
  induction l with
  | nil => exact ⟨true, rfl⟩
  | cons p rest ih =>
    obtain ⟨k, pat⟩ := p
    rw [matchLoop]
    have := h (k, pat) (.head _)
    cases hf : key.find k with
    | none => rw [hf] at this; cases this
    | some v =>
      simp only
      rw [ok_bind]
      split
      · exact ih (fun p hp => h p (.tail _ hp))
      · exact ⟨false, rfl⟩

theorem Selects_perm {rx : Str → Str → Bool} {l l' : List (Str × Str)} (h : l.Perm l') (key : List (Str × Str)) :
    Selects rx l key ↔ Selects rx l' key :=
  ⟨fun hs p hp => hs p (h.mem_iff.mpr hp), fun hs p hp => hs p (h.mem_iff.mp hp)⟩

theorem matchesKey_true_iff (E : PlugEnv) (e : Fault) (habs : E.absent = .error e) (sel : List (Str × Str))
    (hne : sel ≠ []) (key : FdbKey) (hk : key.keys.Nodup) :
    matchesKey E sel key = .ok true ↔ Selects E.rx sel key := by
  rw [matchesKey, if_neg hne, matchLoop_true_iff E e habs key hk]
  exact Selects_perm (isort_perm _ sel) key

theorem parseLoop_ok (E : PlugEnv) (ps : List (Str × Str)) : ∀ (d : AMap Str Str),
    (∀ p ∈ ps, Clean p.1 ∧ Clean p.2) → (AMap.keys d ++ ps.map Prod.fst).Nodup → (∀ p ∈ ps, E.compiles p.2 = true) →
    parseLoop E d (ps.map pairText) = (d ++ ps, .ok ()) := by
  induction ps with
  | nil => intro d _ _ _; simp [parseLoop]
  | cons p rest ih =>
    intro d hc hn hv
    obtain ⟨k, v⟩ := p
    have hkv := hc (k, v) (.head _)
    rw [List.map_cons, parseLoop, tokens_pair k v hkv.1 hkv.2]
    simp only
    have hnk : k ∉ AMap.keys d := fun h => by
      rw [List.map_cons, List.nodup_append] at hn
      exact hn.2.2 k h k (.head _) rfl
    have hf : AMap.find d k = none := (AMap.find_eq_none_iff d k).mpr hnk
    rw [hf, if_neg (by simp), if_pos (hv (k, v) (.head _))]
    have hset : AMap.set d k v = d ++ [(k, v)] := by
      clear ih hn
      induction d with
      | nil => rfl
      | cons q d ihd =>
        obtain ⟨k', v'⟩ := q
        have hne : k' ≠ k := fun e => hnk (by simp [AMap.keys, e])
        rw [AMap.set, if_neg hne, List.cons_append, ihd]
        · intro h; exact hnk (by simp only [AMap.keys, List.map_cons, List.mem_cons]; exact .inr h)
        · rw [AMap.find, if_neg hne] at hf; exact hf
    rw [hset, ih (d ++ [(k, v)]) (fun p hp => hc p (.tail _ hp)) ?_ (fun p hp => hv p (.tail _ hp))]
    · simp
    · simp only [AMap.keys, List.map_append, List.map_cons, List.map_nil, List.append_assoc, List.singleton_append] at hn ⊢
      exact hn

/-- C34.  A selection of distinct names with patterns, written as `name=pattern` pieces separated by commas, is accepted;
a field is then selected exactly if for every name it has a value that matches the pattern.  An empty selection selects
nothing.  (`absent`: looking up a name that the field does not have throws.) -/
theorem C34_selected_iff (E : PlugEnv) (e : Fault) (absent : E.absent = .error e) (sel : List (Str × Str))
    (good : GoodPairs sel) (patterns : ∀ p ∈ sel, E.compiles p.2 = true) :
    (parseConfig E (commas (sel.map pairText)) .new).2 = .ok () ∧
    ∀ (key : FdbKey), key.keys.Nodup →
      (matchesKey E (parseConfig E (commas (sel.map pairText)) .new).1.dict key = .ok true ↔
        sel ≠ [] ∧ Selects E.rx sel key) := by
  have ht : tokens ',' (commas (sel.map pairText)) = sel.map pairText :=
    tokens_commas _ (fun p hp => by
      obtain ⟨q, hq, rfl⟩ := List.mem_map.mp hp
      exact pairText_ok q (good.1 q hq).1 (good.1 q hq).2)
  have hp := parseLoop_ok E sel [] good.1 (by simpa [AMap.keys] using good.2) patterns
  have hpc : parseConfig E (commas (sel.map pairText)) .new = (⟨true, sel⟩, .ok ()) := by
    simp only [parseConfig, PlugConf.new, ht, hp, List.nil_append, Bool.false_eq_true, if_false]
  rw [hpc]
  refine ⟨rfl, fun key hk => ?_⟩
  by_cases hne : sel = []
  · subst hne; simp [matchesKey]
  · rw [matchesKey_true_iff E e absent sel hne key hk]
    exact ⟨fun h => ⟨hne, h⟩, fun h => h.2⟩

/-- C34.  For a field that has all the selected names the answer is yes or no, never an error. -/
theorem C34_answer_for_complete_keys (E : PlugEnv) (sel : List (Str × Str)) (key : FdbKey)
    (complete : ∀ p ∈ sel, p.1 ∈ key.keys) : ∃ b, matchesKey E sel key = .ok b := by
  rw [matchesKey]
  split
  · exact ⟨false, rfl⟩
  · apply matchLoop_bool
    intro p hp
    rw [← AMap.mem_keys_iff]
    exact complete p ((isort_perm _ sel).mem_iff.mp hp)

theorem parseLoop_bad (E : PlugEnv) (pre : List (Str × Str)) (bad : Str) (post : List Str) : ∀ (d : AMap Str Str),
    (∀ p ∈ pre, Clean p.1 ∧ Clean p.2) → (AMap.keys d ++ pre.map Prod.fst).Nodup → (∀ p ∈ pre, E.compiles p.2 = true) →
    (∀ d', (AMap.keys d' = AMap.keys d ++ pre.map Prod.fst) → parseLoop E d' (bad :: post) = (d', throwExn .userError)) →
    parseLoop E d (pre.map pairText ++ bad :: post) = (d ++ pre, throwExn .userError) := by
  induction pre with
  | nil => intro d _ _ _ hb; rw [List.map_nil, List.nil_append, List.append_nil]; exact hb d (by simp)
  | cons p rest ih =>
    intro d hc hn hv hb
    obtain ⟨k, v⟩ := p
    have hkv := hc (k, v) (.head _)
    have h1 := parseLoop_ok E [(k, v)] d (fun p hp => hc p (by simp at hp; simp [hp]))
      (by
        rw [List.map_cons, List.nodup_append] at hn
        rw [List.nodup_append]
        refine ⟨hn.1, by simp, fun a ha b hb' => hn.2.2 a ha b ?_⟩
        simp at hb'; simp [hb']) (fun p hp => hv p (by simp at hp; simp [hp]))
    rw [List.map_cons, List.cons_append, parseLoop, tokens_pair k v hkv.1 hkv.2]
    rw [List.map_cons, List.map_nil, parseLoop, tokens_pair k v hkv.1 hkv.2] at h1
    simp only at h1 ⊢
    have hnk : k ∉ AMap.keys d := fun h => by
      rw [List.map_cons, List.nodup_append] at hn
      exact hn.2.2 k h k (.head _) rfl
    have hf : AMap.find d k = none := (AMap.find_eq_none_iff d k).mpr hnk
    rw [hf, if_neg (by simp), if_pos (hv (k, v) (.head _))] at h1 ⊢
    rw [parseLoop] at h1
    have hset : AMap.set d k v = d ++ [(k, v)] := (Prod.mk.inj h1).1
    rw [hset, ih (d ++ [(k, v)]) (fun p hp => hc p (.tail _ hp)) ?_ (fun p hp => hv p (.tail _ hp)) ?_]
    · simp
    · simp only [AMap.keys, List.map_append, List.map_cons, List.map_nil, List.append_assoc, List.singleton_append] at hn ⊢
      exact hn
    · intro d' hd'
      apply hb
      rw [hd']
      simp [AMap.keys]

/-- C34.  A selection with a piece that is not a pair, or with a name given twice, is rejected when the first FDB object is
made.  Missing from the full property: later FDB objects of the process, see `C34_invalid_selection_used_later`. -/
theorem C34_invalid_rejected_partial (E : PlugEnv) (pre : List (Str × Str)) (bad : Str) (post : List Str)
    (good : GoodPairs pre) (patterns : ∀ p ∈ pre, E.compiles p.2 = true)
    (pieces : ∀ q ∈ bad :: post, q ≠ [] ∧ ',' ∉ q)
    (invalid : Clean bad ∨ ∃ k v, bad = pairText (k, v) ∧ Clean k ∧ Clean v ∧ k ∈ pre.map Prod.fst) :
    parseConfig E (commas (pre.map pairText ++ bad :: post)) .new = (⟨true, pre⟩, throwExn .userError) := by
  have ht : tokens ',' (commas (pre.map pairText ++ bad :: post)) = pre.map pairText ++ bad :: post :=
    tokens_commas _ (fun p hp => by
      rcases List.mem_append.mp hp with hp | hp
      · obtain ⟨q, hq, rfl⟩ := List.mem_map.mp hp
        exact pairText_ok q (good.1 q hq).1 (good.1 q hq).2
      · exact pieces p hp)
  have hp := parseLoop_bad E pre bad post [] good.1 (by simpa [AMap.keys] using good.2) patterns (by
    intro d' hd'
    rw [parseLoop]
    rcases invalid with hb | ⟨k, v, rfl, hk, hv, hm⟩
    · rw [tokens_word bad hb]
    · rw [tokens_pair k v hk hv]
      simp only
      have : (AMap.find d' k).isSome = true := by
        rw [← AMap.mem_keys_iff, hd']
        exact List.mem_append_right _ hm
      rw [if_pos this])
  simp only [parseConfig, PlugConf.new, ht, hp, List.nil_append, Bool.false_eq_true, if_false]

/-- Disagreement with C34: after the selection was rejected once, the next FDB object of the process accepts it, and
selects by the pieces read before the bad one. -/
theorem C34_invalid_selection_used_later (E : PlugEnv) (pre : List (Str × Str)) (bad : Str) (post : List Str)
    (good : GoodPairs pre) (patterns : ∀ p ∈ pre, E.compiles p.2 = true)
    (pieces : ∀ q ∈ bad :: post, q ≠ [] ∧ ',' ∉ q) (invalid : Clean bad) :
    parseConfig E (commas (pre.map pairText ++ bad :: post))
        (parseConfig E (commas (pre.map pairText ++ bad :: post)) .new).1 = (⟨true, pre⟩, .ok ()) := by
  rw [C34_invalid_rejected_partial E pre bad post good patterns pieces (.inl invalid)]
  rfl

/-- Disagreement with C34: archiving a field without a selected name throws, instead of leaving the field out
(if the other selected names match). -/
theorem C34_absent_name_throws (E : PlugEnv) (e : Fault) (absent : E.absent = .error e) (k pat : Str) (key : FdbKey)
    (without : k ∉ key.keys) : matchesKey E [(k, pat)] key = .error e := by
  rw [matchesKey, if_neg (by simp)]
  show matchLoop E key [(k, pat)] = _
  rw [matchLoop, (AMap.find_eq_none_iff key k).mpr without]
  simp only [absent]
  rfl

/-- Disagreement with C34: `a==b` is read as `a=b`. -/
theorem C34_doubled_sign_accepted (E : PlugEnv) (h : E.compiles ['b'] = true) :
    parseConfig E ['a', '=', '=', 'b'] .new = (⟨true, [(['a'], ['b'])]⟩, .ok ()) := by
  have ht : tokens ',' ['a', '=', '=', 'b'] = [['a', '=', '=', 'b']] := by decide +kernel
  have ht2 : tokens '=' ['a', '=', '=', 'b'] = [['a'], ['b']] := by decide +kernel
  simp only [parseConfig, PlugConf.new, ht, parseLoop, ht2, AMap.find, h]
  rfl

/-- For the examples: a pattern matches the value equal to it. -/
def c34Env : PlugEnv := ⟨fun _ => true, fun p v => p == v, throwExn .seriousBug, fun _ => throwExn .badValue⟩

def c34Sel : List (Str × Str) := [(['c'], ['o', 'd']), (['t'], ['a'])]

/-- Non-vacuity of C34: `c=od,t=a` selects a field with these values and another key, not one with `t=b`; `c=od,t` is
refused. -/
example : GoodPairs c34Sel ∧ commas (c34Sel.map pairText) = ['c', '=', 'o', 'd', ',', 't', '=', 'a'] ∧
    matchesKey c34Env c34Sel [(['t'], ['a']), (['x'], []), (['c'], ['o', 'd'])] = .ok true ∧
    matchesKey c34Env c34Sel [(['t'], ['b']), (['c'], ['o', 'd'])] = .ok false ∧
    (parseConfig c34Env ['c', '=', 'o', 'd', ',', 't'] .new).2 = throwExn .userError := by
  refine ⟨⟨?_, by decide⟩, by decide, by decide +kernel, by decide +kernel, by decide +kernel⟩
  simp only [c34Sel, Clean]
  decide

end GJ
