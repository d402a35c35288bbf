import Verif.Props.C27

/-!
# C27, C29, C30, C39: a case, and where the code differs
-/

namespace GJ

open Spec

/-! ## A case

Three fields in two files; two are asked for, in another order than they are stored. -/

def c27Base (hash : String) : JumpInfo :=
  { version := 1, referenceValue := 0, binaryScaleFactor := 0, decimalScaleFactor := 0, editionNumber := 2,
    bitsPerValue := 8, offsetBeforeData := 100, offsetAfterData := 200, offsetBeforeBitmap := 0,
    numberOfValues := 100, numberOfDataPoints := 100, totalLength := 204, sphericalHarmonics := 0,
    md5GridSection := hash, packingType := "grid_simple" }

def c27Info (_ : String) (_ : Nat) : Info := .simple (c27Base "h")

/-- The values tell the file, the offset and the ranges. -/
def c27Content (u : Uri) (rs : List Interval) : WireResult :=
  ⟨[(u.path.toList.map fun c => c.toNat.toUInt64) ++ [u.offset.toUInt64] ++ rs.map fun r => r.1.toUInt64], []⟩

def c27Env (L : List (FdbKey × Uri)) : ExtEnv where
  list _ := .ok L
  infos _ f offs := .ok (offs.map (c27Info f))
  jump _ f o _ rs := .ok (c27Content ⟨"file", "", 0, f, o⟩ rs)
  fetch _ u rs := .ok (c27Content u rs)
  forward _ _ fm := .ok (fm.map fun f => (f.1, f.2.map fun i =>
    { i with result := some (c27Content i.uri i.request.ranges) }))

def c27Conf : EngineConf := ⟨true, false, false, false, false, []⟩

def c27Key (step : String) : FdbKey :=
  [("date".toList, "20250101".toList), ("number".toList, []), ("step".toList, step.toList)]

def c27Cat : List (FdbKey × Uri) :=
  [(c27Key "0", ⟨"file", "", 0, "b", 40⟩), (c27Key "12", ⟨"file", "", 0, "a", 7⟩), (c27Key "6", ⟨"file", "", 0, "b", 3⟩)]

def c27Pairs (step : String) : List (Str × Str) := [("step".toList, step.toList), ("date".toList, "20250101".toList)]

def c27Reqs : List ExRequest :=
  [⟨"retrieve,step=6,date=20250101", [⟨0, 4⟩], "h"⟩, ⟨"retrieve,step=12,date=20250101", [⟨1, 2⟩, ⟨5, 9⟩], "h"⟩,
   ⟨"retrieve,step=0,date=20250101", [⟨8, 9⟩], "h"⟩]

def c27Written : List WrittenRequest :=
  [⟨["retrieve".toList], c27Pairs "6"⟩, ⟨["retrieve".toList], c27Pairs "12"⟩, ⟨["retrieve".toList], c27Pairs "0"⟩]

theorem c27_written : Written c27Reqs c27Written := by
  refine ⟨by decide +kernel, ?_⟩
  intro w hw
  have h : (∀ x ∈ w.words, x ≠ [] ∧ ',' ∉ x ∧ '=' ∉ x) ∧
      ((∀ p ∈ w.pairs, (p.1 ≠ [] ∧ ',' ∉ p.1 ∧ '=' ∉ p.1) ∧ (p.2 ≠ [] ∧ ',' ∉ p.2 ∧ '=' ∉ p.2)) ∧
        (w.pairs.map Prod.fst).Nodup) ∧
      ("year".toList ∉ w.pairs.map Prod.fst ∧ "month".toList ∉ w.pairs.map Prod.fst) := by
    rcases List.mem_cons.mp hw with rfl | hw
    · decide +kernel
    rcases List.mem_cons.mp hw with rfl | hw
    · decide +kernel
    rw [List.mem_singleton] at hw
    subst hw
    decide +kernel
  exact ⟨h.1, h.2.1, Or.inl h.2.2⟩

/-- A checkable form of `GoodEntry`. -/
def entryCheck (e : List (Str × Str)) : Bool :=
  decide ((∀ p ∈ e, p.2 ≠ [] → (p.1 ≠ [] ∧ ',' ∉ p.1 ∧ '=' ∉ p.1) ∧ (p.2 ≠ [] ∧ ',' ∉ p.2 ∧ '=' ∉ p.2)) ∧
      (e.map Prod.fst).Nodup ∧
      (∀ a ∈ e.map Prod.fst, ∀ b ∈ e.map Prod.fst, a.isPrefixOf b = true → a = b))

/-- A checkable form of `Catalogue`. -/
theorem catalogue_of {cat : List (FdbKey × Uri)} (h : ∀ e ∈ cat, entryCheck e.1 = true)
    (hi : ∀ a ∈ cat, ∀ b ∈ cat, entryText true a = entryText true b → a = b)
    (hp : ∀ a ∈ cat, ∀ b ∈ cat, a.2.path = b.2.path →
      a.2.scheme = b.2.scheme ∧ a.2.host = b.2.host ∧ a.2.port = b.2.port) : Catalogue true cat := by
  have hgood : ∀ e ∈ cat, GoodEntry e.1 := by
    intro e he
    have h := of_decide_eq_true (h e he)
    refine ⟨h.1, h.2.1, ?_⟩
    intro a ha c rest hm
    exfalso
    have := h.2.2 a ha _ hm (by rw [List.isPrefixOf_iff_prefix]; exact List.prefix_append _ _)
    have := congrArg List.length this
    simp at this
  refine ⟨hgood, ?_, hp⟩
  intro a ha b hb h
  apply hi a ha b hb
  rw [entryText, entryText]
  rw [fdbkeyToStr_eq true a.1 (hgood a ha).2.1 (hgood a ha).2.2,
    fdbkeyToStr_eq true b.1 (hgood b hb).2.1 (hgood b hb).2.2,
    (sortedTexts_inj ((hgood a ha).pairs true) ((hgood b hb).pairs true)).mpr h]

theorem c27_catalogue : Catalogue true c27Cat := catalogue_of (by decide +kernel) (by decide +kernel) (by decide +kernel)

theorem c27_honest (L : List (FdbKey × Uri)) (C : EngineConf) :
    Honest (c27Env L) C c27Info c27Content := by
  refine ⟨?_, ?_, ?_, ?_⟩
  · intro t f offs is h
    exact (Except.ok.inj h).symm
  · intro t u rs r _ h
    exact (Except.ok.inj h).symm
  · intro t u rs r h
    exact (Except.ok.inj h).symm
  · intro t server fm back hn h f items hm
    have h := (Except.ok.inj h).symm
    subst h
    refine ⟨items.map fun i => { i with result := some (c27Content i.uri i.request.ranges) }, ?_, List.length_map .., ?_⟩
    · apply (AMap.mem_iff_find _ (by simpa [AMap.keys, List.map_map, Function.comp_def] using hn.files) _ _).mp
      exact List.mem_map.mpr ⟨(f, items), hm, rfl⟩
    · intro j i i' r hi hi' hr
      rw [List.getElem?_map, hi, Option.map_some, Option.some.injEq] at hi'
      subst hi'
      exact (Option.some.inj hr).symm

/-- Non-vacuity of C27, C29, C30 and C39: all hypotheses hold, the call succeeds and its results are told apart. -/
example : Honest (c27Env c27Cat) c27Conf c27Info c27Content ∧ Written c27Reqs c27Written ∧ Catalogue true c27Cat ∧ ListsOnly (c27Env c27Cat) c27Cat ∧
    ListsAll true (c27Env c27Cat) c27Cat ∧
    (∀ i (_ : i < c27Reqs.length) (hj : i < c27Written.length), ∃ e ∈ c27Cat, SameField true c27Written[i].pairs e.1) ∧
    (∀ e ∈ c27Cat, e.2.scheme ≠ "fdb") ∧
    localExtract (c27Env c27Cat) c27Conf [1, 0, 1, 0, 0, 1] c27Reqs =
      .ok [⟨[[98, 3, 0]], []⟩, ⟨[[97, 7, 1, 5]], []⟩, ⟨[[98, 40, 8]], []⟩] := by
  refine ⟨c27_honest _ _, c27_written, c27_catalogue, ?_, ?_, ?_, by decide +kernel, by decide +kernel⟩
  · intro u L h
    have := Except.ok.inj h
    subst this
    exact ⟨fun e he => he, by decide +kernel⟩
  · intro u
    exact ⟨c27Cat, rfl, fun e he _ => he⟩
  · intro i hi hj
    match i, hj with
    | 0, _ => exact ⟨_, List.mem_cons_of_mem _ (List.mem_cons_of_mem _ (List.mem_cons_self ..)), (show SameField true (c27Pairs "6") (c27Key "6") by rw [SameField]; decide +kernel)⟩
    | 1, _ => exact ⟨_, List.mem_cons_of_mem _ (List.mem_cons_self ..), (show SameField true (c27Pairs "12") (c27Key "12") by rw [SameField]; decide +kernel)⟩
    | 2, _ => exact ⟨_, List.mem_cons_self .., (show SameField true (c27Pairs "0") (c27Key "0") by rw [SameField]; decide +kernel)⟩

/-! ## Where the code differs -/

/-- **Disagreement (C29).** The check counts listed entries: a field listed twice makes up for one that is missing, and
the call succeeds with an empty result for the missing field.  (Here steps 6 and 0 are asked for; step 6 is listed
twice.) -/
theorem C29_duplicate_masks_missing :
    localExtract (c27Env [(c27Key "6", ⟨"file", "", 0, "b", 3⟩), (c27Key "6", ⟨"file", "", 0, "b", 3⟩)]) c27Conf []
      [⟨"step=6,date=20250101", [⟨0, 4⟩], "h"⟩, ⟨"step=0,date=20250101", [⟨8, 9⟩], "h"⟩] =
      .ok [⟨[[98, 3, 0]], []⟩, emptyResult] := by
  decide +kernel

/-- **Disagreement (C39).** Fields behind a remote store are extracted without any look at the grid hash: here the
request has none, although grid checks are on. -/
theorem C39_inefficient_path_unchecked :
    localExtract (c27Env [(c27Key "6", ⟨"fdb", "host", 1, "b", 3⟩)]) { c27Conf with inefficient := true } []
      [⟨"step=6,date=20250101", [⟨0, 4⟩], ""⟩] = .ok [⟨[[98, 3, 0]], []⟩] := by
  decide +kernel

end GJ
