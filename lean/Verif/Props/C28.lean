import Verif.Lemmas.EngineMap

/-!
# C28: requests and catalogue entries meet exactly when they name the same field
-/

namespace GJ

open Spec

theorem Spec.GoodPairs.essential {ps : List (Str × Str)} (h : GoodPairs ps) (ig : Bool) :
    GoodPairs (essential ig ps) := by
  rw [Spec.essential]
  split
  · exact h.filter _
  · exact h

theorem Spec.GoodEntry.pairs {e : List (Str × Str)} (h : GoodEntry e) (ig : Bool) :
    GoodPairs ((essential ig e).filter fun p => p.2 ≠ []) := by
  have hsub : (essential ig e).Sublist e := by
    rw [essential]
    split
    · exact List.filter_sublist
    · exact List.Sublist.refl _
  constructor
  · intro p hp
    rw [List.mem_filter, decide_eq_true_iff] at hp
    exact h.1 p (hsub.subset hp.1) hp.2
  · exact h.2.1.sublist (List.Sublist.map _ (List.filter_sublist.trans hsub))

/-- The text a well-formed request is rewritten to. -/
theorem canon_request (ig d : Bool) (words : List Str) (ps : List (Str × Str)) (hw : ∀ w ∈ words, Clean w)
    (hp : GoodPairs ps) (hy : YearMonthTogether ps) (hd : d = true → ig = true) :
    canonString (d || (ig && mentionsYearMonthDate (requestText words ps))) (requestText words ps) =
      commas (isort strLe ((essential ig ps).map pairText)) := by
  rw [canonString_text _ words ps hw hp, kept_essential ig d words ps hy hd]

theorem ofList_inj {a b : Str} (h : String.ofList a = String.ofList b) : a = b := by
  have := congrArg String.toList h
  rwa [String.toList_ofList, String.toList_ofList] at this

/-- The requests of a call, written as pairs. -/
structure WrittenRequest where
  words : List Str
  pairs : List (Str × Str)

/-- `rs` are the texts of `ws`, and all are well formed. -/
def Written (rs : List ExRequest) (ws : List WrittenRequest) : Prop :=
  rs.map ExRequest.request = ws.map (fun w => String.ofList (requestText w.words w.pairs)) ∧
  ∀ w ∈ ws, (∀ x ∈ w.words, Clean x) ∧ GoodPairs w.pairs ∧ YearMonthTogether w.pairs

theorem written_get {rs : List ExRequest} {ws : List WrittenRequest} (h : Written rs ws) (i : Nat)
    (hi : i < rs.length) (hj : i < ws.length) :
    rs[i].request.toList = requestText ws[i].words ws[i].pairs := by
  have h1 := congrArg (fun l => l[i]?) h.1
  simp only [List.getElem?_map, List.getElem?_eq_getElem hi, List.getElem?_eq_getElem hj, Option.map_some,
    Option.some.injEq] at h1
  rw [h1, String.toList_ofList]

theorem written_length {rs : List ExRequest} {ws : List WrittenRequest} (h : Written rs ws) : ws.length = rs.length := by
  have := congrArg List.length h.1
  simpa using this.symm

theorem canonAll_written (ig : Bool) {rs : List ExRequest} {ws : List WrittenRequest} (h : Written rs ws) (i : Nat)
    (hi : i < rs.length) (hj : i < ws.length) :
    (canonAll ig false rs)[i]? = some { rs[i] with
      request := String.ofList (commas (isort strLe ((essential ig ws[i].pairs).map pairText))) } := by
  obtain ⟨d, hd, e⟩ := canonAll_get ig false rs i hi
  have hw := h.2 ws[i] (List.getElem_mem hj)
  rw [e, written_get h i hi hj, canon_request ig d _ _ hw.1 hw.2.1 hw.2.2]
  intro h1
  rcases hd h1 with h2 | h2
  · cases h2
  · exact h2

/-- **C28.** In a call with well-formed requests, a request is matched with a catalogue entry (the entry's text is the
request's rewritten text) if and only if both name the same field.  The order of the pairs, the leading words and the
other requests of the call do not matter.  Missing from the full property: names that extend one another by a character
below `=` (`NamesApart`), and requests with a year or month but not the full date (`YearMonthTogether`); there the code
fails, see below. -/
theorem C28_match_iff_same_field_partial (ig : Bool) (rs rs' : List ExRequest) (u : Union) (m : ItemMap)
    (ws : List WrittenRequest) (hw : Written rs ws) (h : buildRequestMap ig rs = .ok (rs', u, m))
    (i : Nat) (hi : i < rs'.length) (hj : i < ws.length) (entry : FdbKey) (he : GoodEntry entry) :
    rs'[i].request = String.ofList (fdbkeyToStr ig entry) ↔ SameField ig ws[i].pairs entry := by
  rw [buildRequestMap_eq] at h
  split at h
  · have e := (Prod.mk.inj (Except.ok.inj h)).1
    subst e
    have hi' : i < rs.length := by rwa [canonAll_length] at hi
    have hc := canonAll_written ig hw i hi' hj
    rw [List.getElem?_eq_getElem hi, Option.some.injEq] at hc
    rw [hc, fdbkeyToStr_eq ig entry he.2.1 he.2.2]
    have hgood := (hw.2 ws[i] (List.getElem_mem hj)).2.1
    rw [SameField, ← sortedTexts_inj (hgood.essential ig) (he.pairs ig)]
    constructor
    · intro h1; exact ofList_inj h1
    · intro h1
      show String.ofList _ = _
      rw [h1]
  · cases h

/-- **C28.** Rewriting keeps the ranges and grid hash of every request, and the order of the requests. -/
theorem C28_rest_of_request_kept (ig : Bool) (rs rs' : List ExRequest) (u : Union) (m : ItemMap)
    (h : buildRequestMap ig rs = .ok (rs', u, m)) :
    rs'.map (fun r => (r.ranges, r.gridHash)) = rs.map (fun r => (r.ranges, r.gridHash)) := by
  rw [buildRequestMap_eq] at h
  split at h
  · have e := (Prod.mk.inj (Except.ok.inj h)).1
    subst e
    rename_i hnd
    clear h hnd
    generalize false = d
    induction rs generalizing d with
    | nil => rfl
    | cons r rs ih => simp only [canonAll, List.map_cons, ih]
  · cases h

/-- **C28.** A call is accepted exactly when no two of its requests name the same field; otherwise it fails with an
error and nothing is extracted. -/
theorem C28_duplicates_rejected (ig : Bool) (rs : List ExRequest) (ws : List WrittenRequest) (hw : Written rs ws) :
    ((∃ r, buildRequestMap ig rs = .ok r) ∨ buildRequestMap ig rs = throwExn .seriousBug) ∧
    ((∃ r, buildRequestMap ig rs = .ok r) ↔
      ws.Pairwise fun a b => ¬ (essential ig a.pairs).Perm (essential ig b.pairs)) := by
  have hlist : (canonAll ig false rs).map ExRequest.request =
      ws.map fun w => String.ofList (commas (isort strLe ((essential ig w.pairs).map pairText))) := by
    apply List.ext_getElem?
    intro i
    rw [List.getElem?_map, List.getElem?_map]
    by_cases hi : i < rs.length
    · have hj : i < ws.length := by rw [written_length hw]; exact hi
      rw [canonAll_written ig hw i hi hj, List.getElem?_eq_getElem hj]
      rfl
    · rw [List.getElem?_eq_none (by rw [canonAll_length]; omega),
        List.getElem?_eq_none (by rw [written_length hw]; omega)]
      rfl
  have hnd : ((canonAll ig false rs).map ExRequest.request).Nodup ↔
      ws.Pairwise fun a b => ¬ (essential ig a.pairs).Perm (essential ig b.pairs) := by
    rw [hlist, List.Nodup, List.pairwise_map]
    have key : ∀ a ∈ ws, ∀ b ∈ ws, (String.ofList (commas (isort strLe ((essential ig a.pairs).map pairText))) ≠
        String.ofList (commas (isort strLe ((essential ig b.pairs).map pairText))) ↔
        ¬ (essential ig a.pairs).Perm (essential ig b.pairs)) := by
      intro a ha b hb
      rw [← sortedTexts_inj ((hw.2 a ha).2.1.essential ig) ((hw.2 b hb).2.1.essential ig)]
      exact ⟨fun h e => h (by rw [e]), fun h e => h (ofList_inj e)⟩
    constructor
    · intro h
      exact List.Pairwise.imp_of_mem (fun ha hb hab => (key _ ha _ hb).mp hab) h
    · intro h
      exact List.Pairwise.imp_of_mem (fun ha hb hab => (key _ ha _ hb).mpr hab) h
  rw [buildRequestMap_eq]
  constructor
  · split
    · exact Or.inl ⟨_, rfl⟩
    · exact Or.inr rfl
  · rw [← hnd]
    constructor
    · rintro ⟨r, hr⟩
      split at hr
      · assumption
      · cases hr
    · intro h
      exact ⟨_, if_pos h⟩

/-! ## A case -/

def c28Pairs : List (Str × Str) :=
  [("step".toList, "6".toList), ("date".toList, "20250101".toList), ("year".toList, "2025".toList),
   ("month".toList, "1".toList)]

def c28Entry : FdbKey :=
  [("date".toList, "20250101".toList), ("number".toList, []), ("step".toList, "6".toList)]

def c28Request : ExRequest := ⟨"retrieve,step=6,date=20250101,year=2025,month=1", [⟨0, 4⟩], "h"⟩

/-- The hypotheses hold in a case with words, year and month, an empty value and another order, and the field is
found. -/
example : Written [c28Request] [⟨["retrieve".toList], c28Pairs⟩] ∧ GoodEntry c28Entry ∧
    SameField true c28Pairs c28Entry ∧
    (buildRequestMap true [c28Request]).map (fun r => r.1.map ExRequest.request) = .ok ["date=20250101,step=6"] := by
  have hc : ∀ s : Str, (s ≠ [] ∧ ',' ∉ s ∧ '=' ∉ s) → Clean s := fun s h => h
  refine ⟨⟨by decide +kernel, ?_⟩, ⟨?_, by decide +kernel, ?_⟩, ?_, by decide +kernel⟩
  · intro w hw
    rw [List.mem_singleton] at hw
    subst hw
    refine ⟨?_, ⟨?_, by decide +kernel⟩, Or.inr (by decide +kernel)⟩
    · intro x hx
      exact hc x (by revert x; decide +kernel)
    · intro p hp
      exact ⟨hc _ (by revert p; decide +kernel), hc _ (by revert p; decide +kernel)⟩
  · intro p hp hv
    exact ⟨hc _ (by revert p; decide +kernel), hc _ (by revert p; decide +kernel)⟩
  · intro a ha c rest hm
    exfalso
    have hd : (∀ a ∈ c28Entry.map Prod.fst, ∀ b ∈ c28Entry.map Prod.fst, a.isPrefixOf b = true → a = b) := by
      decide +kernel
    have := hd a ha _ hm (by rw [List.isPrefixOf_iff_prefix]; exact List.prefix_append _ _)
    have := congrArg List.length this
    simp at this
  · rw [SameField]
    have : (essential true c28Entry).filter (fun p => p.2 ≠ []) =
      [("date".toList, "20250101".toList), ("step".toList, "6".toList)] := by decide +kernel
    rw [this, show essential true c28Pairs =
      [("step".toList, "6".toList), ("date".toList, "20250101".toList)] by decide +kernel]
    exact List.Perm.swap _ _ _

/-! ## Where the code differs -/

/-- **Disagreement.** A pair written twice: the separator between the copies is lost, and the request no longer has the
text of the field it names. -/
theorem C28_repeated_pair_garbled :
    canonString false "a=1,b=2,b=2".toList = "a=1,b=2b=2".toList ∧
    fdbkeyToStr false [("a".toList, "1".toList), ("b".toList, "2".toList)] = "a=1,b=2".toList := by
  decide +kernel

/-- **Disagreement.** Names that extend one another by a digit are sorted differently on the two sides, so that a
request for exactly an entry's pairs does not match the entry. -/
theorem C28_digit_names_do_not_match :
    canonString false "a=1,a1=2".toList ≠ fdbkeyToStr false [("a".toList, "1".toList), ("a1".toList, "2".toList)] := by
  decide +kernel

def c28Plain : ExRequest := ⟨"retrieve,param=1,year=2025", [], ""⟩

/-- **Disagreement.** Dropping the year and month, once switched on by a request, stays on for the requests after it:
what a request is matched with depends on the requests before it. -/
theorem C28_depends_on_earlier_requests :
    (buildRequestMap true [c28Plain, c28Request]).map (fun r => r.1.map ExRequest.request) =
      .ok ["param=1,year=2025", "date=20250101,step=6"] ∧
    (buildRequestMap true [c28Request, c28Plain]).map (fun r => r.1.map ExRequest.request) =
      .ok ["date=20250101,step=6", "param=1"] := by
  decide +kernel

/-- **Disagreement.** The words are looked for anywhere in the text: a value or a longer name that contains them
switches dropping on for a request without a date, which is then matched with another field. -/
theorem C28_words_found_inside_values :
    (buildRequestMap true [⟨"retrieve,param=1,year=2025,month=3,update=1", [], ""⟩]).map
      (fun r => r.1.map ExRequest.request) = .ok ["param=1,update=1"] ∧
    fdbkeyToStr true [("param".toList, "1".toList), ("year".toList, "2025".toList), ("month".toList, "3".toList),
      ("update".toList, "1".toList)] = "month=3,param=1,update=1,year=2025".toList := by
  decide +kernel

/-- **Disagreement.** A request with a date and a year but no month keeps its year, which the entry's text lacks. -/
theorem C28_year_without_month_does_not_match :
    SameField true [("date".toList, "20250101".toList), ("year".toList, "2025".toList)]
      [("date".toList, "20250101".toList), ("year".toList, "2025".toList)] ∧
    (buildRequestMap true [⟨"date=20250101,year=2025", [], ""⟩]).map (fun r => r.1.map ExRequest.request) =
      .ok ["date=20250101,year=2025"] ∧
    fdbkeyToStr true [("date".toList, "20250101".toList), ("year".toList, "2025".toList)] =
      "date=20250101".toList := by
  refine ⟨?_, by decide +kernel, by decide +kernel⟩
  rw [SameField]
  exact List.Perm.of_eq (by decide +kernel)

end GJ
