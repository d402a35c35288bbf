import Verif.Props.C58
import Verif.Props.C51
import Verif.Props.C13

/-!
# C59–C61: the extract, validate and scan-files tools
-/

namespace GJ
open Spec

/-! ## gribjump-extract -/

theorem printLoop_ok {Req V : Type} (reqs : List Req) (all : List (List Interval)) :
    ∀ (results : List (ExResult V)) (i : Nat), i + results.length ≤ reqs.length → i + results.length ≤ all.length →
      (∀ (j : Nat) (rs : List Interval) (r : ExResult V), all[i + j]? = some rs → results[j]? = some r →
        r.values.length ≤ rs.length) →
      ∃ out, printLoop reqs all i results = .ok out ∧ out.length = results.length ∧
        ∀ (j : Nat) (q : Req) (rs : List Interval) (r : ExResult V), reqs[i + j]? = some q → all[i + j]? = some rs →
          results[j]? = some r → out[j]? = some ⟨i + j, q, rs.zip r.values, r.mask⟩ := by
  intro results
  induction results with
  | nil => intro i _ _ _; exact ⟨[], rfl, rfl, fun j q rs r _ _ h => by simp at h⟩
  | cons r rest ih =>
    intro i h1 h2 h3
    simp only [List.length_cons] at h1 h2
    have hq : reqs[i]? = some reqs[i] := List.getElem?_eq_getElem (by omega)
    have ha : all[i]? = some all[i] := List.getElem?_eq_getElem (by omega)
    obtain ⟨out, ho, hl, hs⟩ := ih (i + 1) (by omega) (by omega) (by
      intro j rs r' hrs hr
      exact h3 (j + 1) rs r' (by rw [← hrs]; congr 1; omega) (by simpa using hr))
    refine ⟨⟨i, reqs[i], all[i].zip r.values, r.mask⟩ :: out, ?_, by simp [hl], ?_⟩
    · rw [printLoop, hq, ha]
      simp only
      rw [if_pos (h3 0 all[i] r (by simpa using ha) rfl), ho, ok_bind]
    · intro j q rs r' h4 h5 h6
      cases j with
      | zero =>
        rw [Nat.add_zero] at h4 h5
        rw [hq] at h4
        rw [ha] at h5
        have e1 := Option.some.inj h4
        have e2 := Option.some.inj h5
        have e3 := Option.some.inj h6
        rw [← e1, ← e2, ← e3]
        rfl
      | succ j =>
        have := hs j q rs r' (by rw [← h4]; congr 1; omega) (by rw [← h5]; congr 1; omega) (by simpa using h6)
        rw [List.getElem?_cons_succ, this]
        congr 2
        omega

theorem printLoop_overrun {Req V : Type} (reqs : List Req) (all : List (List Interval)) :
    ∀ (results : List (ExResult V)) (i : Nat), results ≠ [] → reqs.length < i + results.length →
      printLoop reqs all i results = undef := by
  intro results
  induction results with
  | nil => intro i h; exact absurd rfl h
  | cons r rest ih =>
    intro i _ h
    rw [printLoop]
    split
    · rename_i q rs hq hrs
      split
      · have hi : i < reqs.length := by
          have := (List.getElem?_eq_some_iff.mp hq).1
          exact this
        rw [ih (i + 1) (by rintro rfl; simp at h; omega) (by simp at h; omega)]
        rfl
      · rfl
    · rfl

theorem stripVerb_text (s : Str) : stripVerb ("retrieve,".toList ++ s) = s := by
  rw [stripVerb, show "retrieve,".toList = retrieveVerb by decide +kernel, if_pos (by simp)]
  exact List.drop_left' (by decide)

/-- **C59.**  If every request names one field, the tool extracts the request without its verb, and prints for every
request, in order, its own ranges with the values extracted for them.  Missing from the full property: requests that name several fields, see
`C59_several_fields_undefined`. -/
theorem C59_printed_partial {Req V : Type} (E : ToolEnv Req V) (reqs : List Req) (rss all : List (List Interval))
    (written : ∀ rs ∈ rss, ∀ i ∈ rs, i.b < 2 ^ 31 ∧ i.e < 2 ^ 31) (paired : toolRanges reqs.length rss = .ok all)
    (field : Req → Req) (single : ∀ q ∈ reqs, E.flatten q = [field q]) (asked : Req → Str)
    (verb : ∀ q ∈ reqs, E.text (field q) = "retrieve,".toList ++ asked q) (results : List (ExResult V))
    (extracted : E.extract ((reqs.zip all).map fun p => (asked p.1, p.2)) = .ok results)
    (each : results.length = reqs.length)
    (shape : ∀ (i : Nat) (rs : List Interval) (r : ExResult V), all[i]? = some rs → results[i]? = some r →
      r.values.length ≤ rs.length) :
    ∃ out, toolExtract E reqs (some (rangesText rss)) = .ok out ∧ out.length = reqs.length ∧
      ∀ (i : Nat) (q : Req) (rs : List Interval) (r : ExResult V), reqs[i]? = some q → all[i]? = some rs →
        results[i]? = some r → out[i]? = some ⟨i, q, rs.zip r.values, r.mask⟩ := by
  have hparse : parseRangesFile (some (rangesText rss)) = .ok rss := by
    rw [C58_ranges_as_written, if_neg]
    rintro ⟨rs, h1, i, h2, h3⟩
    have := written rs h1 i h2
    omega
  have hlen : all.length = reqs.length := by
    rcases (C58_ranges_of_request _ _ _).mp paired with ⟨h, rfl⟩ | ⟨rs, -, -, rfl⟩
    · exact h
    · simp
  have hpoly : polyRequest E reqs all = (reqs.zip all).map fun p => (asked p.1, p.2) := by
    rw [polyRequest, List.map_eq_flatMap]
    have hc : ∀ (l : List (Req × List Interval)), (∀ p ∈ l, p.1 ∈ reqs) →
        (l.flatMap fun p => (E.flatten p.1).map fun f => (stripVerb (E.text f), p.2)) =
          l.flatMap fun p => [(asked p.1, p.2)] := by
      intro l
      induction l with
      | nil => intro _; rfl
      | cons p l ih =>
        intro h
        rw [List.flatMap_cons, List.flatMap_cons, ih fun p hp => h p (List.mem_cons_of_mem _ hp),
          single p.1 (h p (List.mem_cons_self ..)), List.map_singleton, verb p.1 (h p (List.mem_cons_self ..)),
          stripVerb_text]
    exact hc _ fun p hp => (List.of_mem_zip hp).1
  obtain ⟨out, h1, h2, h3⟩ := printLoop_ok reqs all results 0 (by omega) (by omega) (by
    intro j rs r ha hr
    rw [Nat.zero_add] at ha
    exact shape j rs r ha hr)
  refine ⟨out, ?_, by omega, ?_⟩
  · rw [toolExtract, hparse, ok_bind, paired, ok_bind, hpoly, extracted, ok_bind, h1]
  · intro i q rs r hq hr hs
    have := h3 i q rs r (by simpa using hq) (by simpa using hr) hs
    simpa using this

/-- C59 is false of a request that names more than one field: once its fields are extracted, the tool reads past the end of
the list of requests while printing. -/
theorem C59_several_fields_undefined {Req V : Type} (E : ToolEnv Req V) (reqs : List Req) (rss all : List (List Interval))
    (written : ∀ rs ∈ rss, ∀ i ∈ rs, i.b < 2 ^ 31 ∧ i.e < 2 ^ 31) (paired : toolRanges reqs.length rss = .ok all)
    (some_ : ∀ q ∈ reqs, E.flatten q ≠ []) (several : ∃ q ∈ reqs, 2 ≤ (E.flatten q).length) (results : List (ExResult V))
    (extracted : E.extract (polyRequest E reqs all) = .ok results)
    (each : results.length = (polyRequest E reqs all).length) :
    toolExtract E reqs (some (rangesText rss)) = undef := by
  have hparse : parseRangesFile (some (rangesText rss)) = .ok rss := by
    rw [C58_ranges_as_written, if_neg]
    rintro ⟨rs, h1, i, h2, h3⟩
    have := written rs h1 i h2
    omega
  have hlen : all.length = reqs.length := by
    rcases (C58_ranges_of_request _ _ _).mp paired with ⟨h, rfl⟩ | ⟨rs, -, -, rfl⟩
    · exact h
    · simp
  have hgen : ∀ (reqs : List Req) (all : List (List Interval)), all.length = reqs.length →
      (∀ q ∈ reqs, E.flatten q ≠ []) → reqs.length ≤ (polyRequest E reqs all).length ∧
      ((∃ q ∈ reqs, 2 ≤ (E.flatten q).length) → reqs.length < (polyRequest E reqs all).length) := by
    intro reqs
    induction reqs with
    | nil => intro all _ _; exact ⟨Nat.zero_le _, fun ⟨q, h, _⟩ => by cases h⟩
    | cons q reqs ih =>
      intro all hl hs
      cases all with
      | nil => simp at hl
      | cons a all =>
        obtain ⟨h1, h2⟩ := ih all (by simpa using hl) fun q h => hs q (List.mem_cons_of_mem _ h)
        have hq : 1 ≤ (E.flatten q).length := List.length_pos_iff.mpr (hs q (List.mem_cons_self ..))
        have hp : (polyRequest E (q :: reqs) (a :: all)).length =
            (E.flatten q).length + (polyRequest E reqs all).length := by
          simp only [polyRequest, List.zip_cons_cons, List.flatMap_cons, List.length_append, List.length_map]
        rw [hp, List.length_cons]
        refine ⟨by omega, ?_⟩
        rintro ⟨q', hq', h3⟩
        rcases List.mem_cons.mp hq' with rfl | hq'
        · omega
        · have := h2 ⟨q', hq', h3⟩
          omega
  have hlt := (hgen reqs all hlen some_).2 several
  rw [toolExtract, hparse, ok_bind, paired, ok_bind, extracted, ok_bind]
  apply printLoop_overrun
  · rintro rfl
    simp at each
    omega
  · omega

/-- Non-vacuity of C59: two requests, of one field each, and one of two fields. -/
def c59Env : ToolEnv (List Nat) Nat where
  flatten q := q.map fun x => [x]
  text q := retrieveVerb ++ q.map fun _ => 'x'
  extract qs := .ok (qs.map fun q => ⟨q.2.map fun i => List.range' i.b (i.e - i.b), q.2.map fun _ => [0]⟩)
  fields q := .ok (q.map fun _ => List.range 50)
  same a b := a == b

example : toolExtract c59Env [[7], [8]] (some "1-3, 5-6\n2-4\n".toList) =
      .ok [⟨0, [7], [(⟨1, 3⟩, [1, 2]), (⟨5, 6⟩, [5])], [[0], [0]]⟩, ⟨1, [8], [(⟨2, 4⟩, [2, 3])], [[0]]⟩] ∧
    toolExtract c59Env [[7, 8]] (some "1-3, 5-6\n".toList) = undef ∧
    toolValidate c59Env [[7], [8]] (some "1-3, 5-6\n2-4\n".toList) = .ok 5 := by decide +kernel

/-! ## gribjump-validate -/

theorem eccodesRange_ok {V : Type} (data : List V) (i : Interval) (vs : List V) :
    eccodesRange data i = .ok vs ↔
      vs.length = i.e - i.b ∧ ∀ (l : Nat), l < i.e - i.b → vs[l]? = data[i.b + l]? := by
  have gen : ∀ (n b : Nat) (vs : List V), (List.range' b n).mapM (fun k => match data[k]? with
      | some v => .ok v
      | none => undef : Nat → Res V) = .ok vs ↔ vs.length = n ∧ ∀ (l : Nat), l < n → vs[l]? = data[b + l]? := by
    intro n
    induction n with
    | zero =>
      intro b vs
      rw [List.range'_zero, List.mapM_nil]
      constructor
      · intro h; cases h; exact ⟨rfl, fun l h => absurd h (by omega)⟩
      · rintro ⟨h, -⟩; rw [List.length_eq_zero_iff.mp h]; rfl
    | succ n ih =>
      intro b vs
      rw [List.range'_succ, List.mapM_cons]
      cases hb : data[b]? with
      | none =>
        constructor
        · intro h; cases h
        · rintro ⟨h1, h2⟩
          have := h2 0 (by omega)
          rw [Nat.add_zero, hb, List.getElem?_eq_none_iff] at this
          omega
      | some v =>
        rw [ok_bind]
        constructor
        · intro h
          obtain ⟨ws, hw, h⟩ := res_bind_inv h
          cases h
          obtain ⟨h1, h2⟩ := (ih (b + 1) ws).mp hw
          refine ⟨by simp [h1], fun l hl => ?_⟩
          cases l with
          | zero => simp [hb]
          | succ l => rw [List.getElem?_cons_succ, h2 l (by omega)]; congr 1; omega
        · rintro ⟨h1, h2⟩
          cases vs with
          | nil => simp at h1
          | cons x ws =>
            have h0 := h2 0 (by omega)
            rw [Nat.add_zero, hb] at h0
            have e : x = v := by simpa using h0
            rw [(ih (b + 1) ws).mpr ⟨by simpa using h1, fun l hl => by
              have := h2 (l + 1) (by omega)
              rw [List.getElem?_cons_succ] at this
              rw [this]; congr 1; omega⟩, ok_bind, e]
            rfl
  exact gen (i.e - i.b) i.b vs

/-- What a comparison of one field has to find: in every range, as many values as points, each equal to that of the
reference field at the point. -/
def Matches {V : Type} (same : V → V → Bool) (data : List V) (rs : List Interval) (values : List (List V)) : Prop :=
  values.length = rs.length ∧ ∀ (k : Nat) (i : Interval) (vs : List V), rs[k]? = some i → values[k]? = some vs →
    vs.length = i.e - i.b ∧ ∀ (l : Nat) (v : V), vs[l]? = some v → ∃ x, data[i.b + l]? = some x ∧ same x v = true

theorem compareValues_ok {V : Type} (same : V → V → Bool) (ec gj : List V) (n : Nat) :
    compareValues same ec gj = .ok n ↔ ec.length = gj.length ∧ n = ec.length ∧
      ∀ (l : Nat) (x v : V), ec[l]? = some x → gj[l]? = some v → same x v = true := by
  rw [compareValues]
  simp only [cassert]
  by_cases h1 : ec.length = gj.length
  · rw [if_pos (decide_eq_true h1), ok_bind]
    by_cases h2 : ((ec.zip gj).all fun p => same p.1 p.2) = true
    · rw [if_pos h2, ok_bind]
      refine ⟨fun h => ⟨h1, (Except.ok.inj h).symm, fun l x v hx hv => ?_⟩, fun h => by rw [h.2.1]⟩
      rw [List.all_eq_true] at h2
      have : (x, v) ∈ ec.zip gj := List.mem_of_getElem? (List.getElem?_zip_eq_some.mpr ⟨hx, hv⟩)
      exact h2 _ this
    · rw [if_neg h2]
      refine ⟨fun h => (by cases h), fun h => absurd ?_ h2⟩
      rw [List.all_eq_true]
      intro p hp
      obtain ⟨l, hl⟩ := List.getElem?_of_mem hp
      obtain ⟨hx, hv⟩ := List.getElem?_zip_eq_some.mp hl
      exact h.2.2 l _ _ hx hv
  · rw [if_neg (by simpa using h1)]
    exact ⟨fun h => (by cases h), fun h => absurd h.1 h1⟩

theorem mapM_ok_iff {α β : Type} {f : α → Res β} : ∀ {l : List α} {bs : List β},
    l.mapM f = .ok bs ↔ bs.length = l.length ∧ ∀ (j : Nat) (a : α) (b : β), l[j]? = some a → bs[j]? = some b → f a = .ok b := by
  intro l bs
  constructor
  · intro h
    exact ⟨mapM_length h, fun j a b h1 h2 => mapM_getElem h h1 h2⟩
  · induction l generalizing bs with
    | nil =>
      rintro ⟨h, -⟩
      rw [List.length_eq_zero_iff.mp h]; rfl
    | cons a l ih =>
      rintro ⟨h1, h2⟩
      cases bs with
      | nil => simp at h1
      | cons b bs =>
        rw [List.mapM_cons, h2 0 a b rfl rfl, ok_bind, ih ⟨by simpa using h1, fun j a b ha hb =>
          h2 (j + 1) a b (by simpa using ha) (by simpa using hb)⟩, ok_bind]
        rfl

theorem validateOne_ok {Req V : Type} (E : ToolEnv Req V) (q : Req) (rs : List Interval) (r : ExResult V) (n : Nat) :
    validateOne E q rs r = .ok n ↔ ∃ data, E.fields q = .ok [data] ∧ (∀ i ∈ rs, ∀ l, l < i.e - i.b → i.b + l < data.length) ∧
      Matches E.same data rs r.values ∧ n = (rs.map fun i => i.e - i.b).sum := by
  have hsum : ∀ (data : List V) (ec : List (List V)), rs.mapM (eccodesRange data) = .ok ec →
      ec.map List.length = rs.map fun i => i.e - i.b := by
    intro data ec h
    exact mapM_map_eq h fun i _ vs hvs => ((eccodesRange_ok data i vs).mp hvs).1
  constructor
  · intro h
    rw [validateOne] at h
    obtain ⟨ecs, hec, h⟩ := res_bind_inv h
    split at h
    · rename_i ec
      rw [eccodesExtract] at hec
      obtain ⟨fields, hf, hec⟩ := res_bind_inv hec
      obtain ⟨hl, hg⟩ := mapM_ok_iff.mp hec
      match fields with
      | [] => simp at hl
      | [data] =>
        have hd : rs.mapM (eccodesRange data) = .ok ec := hg 0 data ec rfl rfl
        obtain ⟨hl2, hg2⟩ := mapM_ok_iff.mp hd
        rw [compareField] at h
        obtain ⟨u, hu, h⟩ := res_bind_inv h
        have hlen : ec.length = r.values.length := by
          simp only [cassert] at hu
          split at hu
          · simpa using ‹decide _ = true›
          · cases hu
        obtain ⟨ns, hns, h⟩ := res_bind_inv h
        cases h
        obtain ⟨hl3, hg3⟩ := mapM_ok_iff.mp hns
        have hget : ∀ (k : Nat) (i : Interval) (vs : List V), rs[k]? = some i → r.values[k]? = some vs →
            ∃ e m, ec[k]? = some e ∧ eccodesRange data i = .ok e ∧ ns[k]? = some m ∧ compareValues E.same e vs = .ok m := by
          intro k i vs hi hv
          have hk : k < ec.length := by rw [hl2]; exact (List.getElem?_eq_some_iff.mp hi).1
          have he : ec[k]? = some ec[k] := List.getElem?_eq_getElem hk
          have hz : (ec.zip r.values)[k]? = some (ec[k], vs) := List.getElem?_zip_eq_some.mpr ⟨he, hv⟩
          have hk2 : k < ns.length := by rw [hl3]; exact (List.getElem?_eq_some_iff.mp hz).1
          have hm : ns[k]? = some ns[k] := List.getElem?_eq_getElem hk2
          exact ⟨_, _, he, hg2 k i _ hi he, hm, hg3 k _ _ hz hm⟩
        refine ⟨data, hf, ?_, ⟨by omega, ?_⟩, ?_⟩
        · intro i hi l hlt
          obtain ⟨k, hk⟩ := List.getElem?_of_mem hi
          have hkv : k < r.values.length := by
            have := (List.getElem?_eq_some_iff.mp hk).1
            omega
          obtain ⟨e, m, h1, h2, h3, h4⟩ := hget k i _ hk (List.getElem?_eq_getElem hkv)
          obtain ⟨h5, h6⟩ := (eccodesRange_ok _ _ _).mp h2
          have h7 := h6 l hlt
          rw [List.getElem?_eq_getElem (by omega)] at h7
          exact (List.getElem?_eq_some_iff.mp h7.symm).1
        · intro k i vs hi hv
          obtain ⟨e, m, h1, h2, h3, h4⟩ := hget k i vs hi hv
          obtain ⟨h5, h6⟩ := (eccodesRange_ok _ _ _).mp h2
          obtain ⟨h7, -, h8⟩ := (compareValues_ok _ _ _ _).mp h4
          refine ⟨by omega, fun l v hvl => ?_⟩
          have hll : l < e.length := by
            have := (List.getElem?_eq_some_iff.mp hvl).1
            omega
          have he := List.getElem?_eq_getElem hll
          refine ⟨e[l], ?_, h8 l _ _ he hvl⟩
          rw [← he, h6 l (by omega)]
        · have : ns = (ec.zip r.values).map fun p => p.1.length := by
            apply List.ext_getElem?
            intro k
            rw [List.getElem?_map]
            cases hk : (ec.zip r.values)[k]? with
            | none =>
              rw [List.getElem?_eq_none_iff] at hk
              rw [Option.map_none, List.getElem?_eq_none_iff]
              omega
            | some p =>
              have hk2 : k < ns.length := by rw [hl3]; exact (List.getElem?_eq_some_iff.mp hk).1
              have hm : ns[k]? = some ns[k] := List.getElem?_eq_getElem hk2
              have := (compareValues_ok _ _ _ _).mp (hg3 k _ _ hk hm)
              rw [hm, this.2.1]
              rfl
          rw [this, ← hsum data ec hd]
          have hz : (ec.zip r.values).map (fun p => p.1.length) = ((ec.zip r.values).map Prod.fst).map List.length := by
            rw [List.map_map]; rfl
          rw [hz, List.map_fst_zip (by omega)]
      | a :: b :: rest => simp at hl
    · cases h
  · rintro ⟨data, hf, hin, ⟨hlen, hm⟩, rfl⟩
    have hec : ∃ ec, rs.mapM (eccodesRange data) = .ok ec := by
      have : rs.mapM (eccodesRange data) = .ok (rs.map fun i => (data.drop i.b).take (i.e - i.b)) := by
        apply mapM_ok
        intro i hi
        rw [eccodesRange_ok]
        refine ⟨?_, fun l hl => by rw [List.getElem?_take, if_pos hl, List.getElem?_drop]⟩
        rw [List.length_take, List.length_drop]
        rcases Nat.eq_zero_or_pos (i.e - i.b) with h | h
        · omega
        · have := hin i hi (i.e - i.b - 1) (by omega)
          omega
      exact ⟨_, this⟩
    obtain ⟨ec, hec⟩ := hec
    obtain ⟨hl2, hg2⟩ := mapM_ok_iff.mp hec
    rw [validateOne, eccodesExtract, hf, ok_bind, List.mapM_cons, hec, ok_bind, List.mapM_nil]
    show compareField E.same ec r.values = _
    have hc : (ec.zip r.values).mapM (fun p => compareValues E.same p.1 p.2) =
        .ok ((ec.zip r.values).map fun p => p.1.length) := by
      apply mapM_ok
      intro p hp
      obtain ⟨k, hk⟩ := List.getElem?_of_mem hp
      obtain ⟨he, hv⟩ := List.getElem?_zip_eq_some.mp hk
      have hki : k < rs.length := by
        have := (List.getElem?_eq_some_iff.mp hv).1
        omega
      have hi := List.getElem?_eq_getElem hki
      obtain ⟨h5, h6⟩ := (eccodesRange_ok _ _ _).mp (hg2 k _ _ hi he)
      obtain ⟨h7, h8⟩ := hm k _ _ hi hv
      rw [compareValues_ok]
      refine ⟨by omega, rfl, fun l x v hx hvl => ?_⟩
      obtain ⟨y, hy, hs⟩ := h8 l v hvl
      have hl : l < rs[k].e - rs[k].b := by
        have := (List.getElem?_eq_some_iff.mp hx).1
        omega
      rw [h6 l hl, hy] at hx
      have e := Option.some.inj hx
      rw [← e]; exact hs
    rw [compareField, cassert, if_pos (by simp; omega), ok_bind, hc, ok_bind]
    have hz : (ec.zip r.values).map (fun p => p.1.length) = ((ec.zip r.values).map Prod.fst).map List.length := by
      rw [List.map_map]; rfl
    rw [hz, List.map_fst_zip (by omega), hsum data ec hec]

/-- **C60.**  The tool reports that all values match exactly if there is one result per request, every request lists one
field, the ranges lie inside it and every value equals the one eccodes decodes at its point; the number reported is the
number of points in all ranges. -/
theorem C60_all_match_iff {Req V : Type} (E : ToolEnv Req V) (reqs : List Req) (ranges : Option Str)
    (rss all : List (List Interval)) (results : List (ExResult V)) (read : parseRangesFile ranges = .ok rss)
    (paired : toolRanges reqs.length rss = .ok all)
    (extracted : E.extract ((reqs.zip all).map fun p => (E.text p.1, p.2)) = .ok results) (n : Nat) :
    toolValidate E reqs ranges = .ok n ↔
      results.length = reqs.length ∧
      (∀ (i : Nat) (q : Req) (rs : List Interval) (r : ExResult V), reqs[i]? = some q → all[i]? = some rs →
        results[i]? = some r → ∃ data, E.fields q = .ok [data] ∧
          (∀ i ∈ rs, ∀ l, l < i.e - i.b → i.b + l < data.length) ∧ Matches E.same data rs r.values) ∧
      n = (all.map fun rs => (rs.map fun i => i.e - i.b).sum).sum := by
  have hlen : all.length = reqs.length := by
    rcases (C58_ranges_of_request _ _ _).mp paired with ⟨h, rfl⟩ | ⟨rs, -, -, rfl⟩
    · exact h
    · simp
  rw [toolValidate, read, ok_bind, paired, ok_bind, extracted, ok_bind]
  by_cases hr : results.length = reqs.length
  · rw [cassert, if_pos (by simpa using hr), ok_bind]
    have hz3 : ∀ (i : Nat) (q : Req) (rs : List Interval) (r : ExResult V),
        (reqs.zip (all.zip results))[i]? = some (q, rs, r) ↔
          reqs[i]? = some q ∧ all[i]? = some rs ∧ results[i]? = some r := by
      intro i q rs r
      rw [List.getElem?_zip_eq_some]
      simp only [List.getElem?_zip_eq_some]
    have hsum : ((reqs.zip (all.zip results)).map fun p => ((p.2.1.map fun i => i.e - i.b).sum)) =
        all.map fun rs => (rs.map fun i => i.e - i.b).sum := by
      have h1 : ((reqs.zip (all.zip results)).map fun p => ((p.2.1.map fun i => i.e - i.b).sum)) =
          (((reqs.zip (all.zip results)).map Prod.snd).map Prod.fst).map fun rs => (rs.map fun i => i.e - i.b).sum := by
        rw [List.map_map, List.map_map]; rfl
      rw [h1, List.map_snd_zip (by rw [List.length_zip]; omega), List.map_fst_zip (by omega)]
    constructor
    · intro h
      obtain ⟨ns, hns, h⟩ := res_bind_inv h
      cases h
      obtain ⟨hl, hg⟩ := mapM_ok_iff.mp hns
      have hk : ∀ (i : Nat) (q : Req) (rs : List Interval) (r : ExResult V), reqs[i]? = some q → all[i]? = some rs →
        results[i]? = some r → ∃ m, ns[i]? = some m ∧ validateOne E q rs r = .ok m := by
        intro i q rs r h1 h2 h3
        have hz := (hz3 i q rs r).mpr ⟨h1, h2, h3⟩
        have hi : i < ns.length := by rw [hl]; exact (List.getElem?_eq_some_iff.mp hz).1
        exact ⟨_, List.getElem?_eq_getElem hi, hg i _ _ hz (List.getElem?_eq_getElem hi)⟩
      refine ⟨hr, fun i q rs r h1 h2 h3 => ?_, ?_⟩
      · obtain ⟨m, -, hm⟩ := hk i q rs r h1 h2 h3
        obtain ⟨data, h4, h5, h6, -⟩ := (validateOne_ok E q rs r m).mp hm
        exact ⟨data, h4, h5, h6⟩
      · rw [← hsum]
        congr 1
        apply List.ext_getElem?
        intro k
        rw [List.getElem?_map]
        cases hp : (reqs.zip (all.zip results))[k]? with
        | none =>
          rw [List.getElem?_eq_none_iff] at hp
          rw [Option.map_none, List.getElem?_eq_none_iff]
          omega
        | some p =>
          obtain ⟨q, rs, r⟩ := p
          obtain ⟨h1, h2, h3⟩ := (hz3 k q rs r).mp hp
          obtain ⟨m, hm, hv⟩ := hk k q rs r h1 h2 h3
          obtain ⟨-, -, -, -, h6⟩ := (validateOne_ok E q rs r m).mp hv
          rw [hm, h6]
          rfl
    · rintro ⟨-, hall, rfl⟩
      rw [mapM_ok _ (fun p => (p.2.1.map fun i => i.e - i.b).sum), ok_bind, hsum]
      rintro ⟨q, rs, r⟩ hp
      obtain ⟨k, hk⟩ := List.getElem?_of_mem hp
      obtain ⟨h1, h2, h3⟩ := (hz3 k q rs r).mp hk
      obtain ⟨data, h4, h5, h6⟩ := hall k q rs r h1 h2 h3
      exact (validateOne_ok E q rs r _).mpr ⟨data, h4, h5, h6, rfl⟩
  · rw [cassert, if_neg (by simpa using hr)]
    exact ⟨fun h => (by cases h), fun h => absurd h.1 hr⟩

/-- C60 is false of fields with missing points, if one is asked for: extraction returns NaN there, which equals nothing, so
correct results are reported as wrong. -/
theorem C60_missing_point_reported_wrong {Req V : Type} (E : ToolEnv Req V) (reqs : List Req) (ranges : Option Str)
    (rss all : List (List Interval)) (results : List (ExResult V)) (read : parseRangesFile ranges = .ok rss)
    (paired : toolRanges reqs.length rss = .ok all)
    (extracted : E.extract ((reqs.zip all).map fun p => (E.text p.1, p.2)) = .ok results) (nan : V)
    (unequal : ∀ x, E.same x nan = false) (i : Nat) (rs : List Interval) (r : ExResult V) (bm : List Bool)
    (stored : List V) (asked : all[i]? = some rs) (result : results[i]? = some r)
    (right : r.values = rs.map fun iv => slice (spread nan bm stored) iv.b (iv.e - iv.b))
    (enough : countTrue bm ≤ stored.length) (iv : Interval) (p : Nat) (inside : iv ∈ rs) (hp : iv.b ≤ p ∧ p < iv.e)
    (missing : bm[p]? = some false) (n : Nat) : toolValidate E reqs ranges ≠ .ok n := by
  intro h
  obtain ⟨hl, hall, -⟩ := (C60_all_match_iff E reqs ranges rss all results read paired extracted n).mp h
  have hi : i < reqs.length := by
    have := (List.getElem?_eq_some_iff.mp result).1
    omega
  obtain ⟨data, -, -, -, hm⟩ := hall i _ rs r (List.getElem?_eq_getElem hi) asked result
  obtain ⟨k, hk⟩ := List.getElem?_of_mem inside
  have hv : r.values[k]? = some (slice (spread nan bm stored) iv.b (iv.e - iv.b)) := by
    rw [right, List.getElem?_map, hk]; rfl
  obtain ⟨-, hp2⟩ := hm k iv _ hk hv
  obtain ⟨hpl, hpf⟩ := List.getElem?_eq_some_iff.mp missing
  have hnan : (slice (spread nan bm stored) iv.b (iv.e - iv.b))[p - iv.b]? = some nan := by
    rw [slice, List.getElem?_take, if_pos (by omega), List.getElem?_drop, show iv.b + (p - iv.b) = p by omega,
      C07_field_pointwise nan bm stored enough p hpl, hpf]
    rfl
  obtain ⟨x, -, hx⟩ := hp2 _ _ hnan
  rw [unequal x] at hx
  cases hx

/-- Non-vacuity of C60: a field whose point 1 is missing; `none` is NaN. -/
example : let E : ToolEnv Nat (Option Nat) := ⟨fun q => [q], fun _ => [], fun qs => .ok (qs.map fun q =>
        ⟨q.2.map fun i => slice (spread none [true, false, true] [some 5, some 6]) i.b (i.e - i.b), []⟩),
      fun _ => .ok [[some 5, some 9999, some 6]], fun a b => a.isSome && a == b⟩
    toolValidate E [7] (some "0-1, 2-3\n".toList) = .ok 2 ∧
    toolValidate E [7] (some "0-2\n".toList) = throwExn .assertFailed := by decide +kernel

/-! ## gribjump-scan-files -/

theorem scanSelection_mem {there : String → Bool} {skip : Bool} {files todo : List String}
    (h : scanSelection there skip files = .ok todo) :
    ∀ f, f ∈ todo ↔ f ∈ files ∧ (skip = true → there (f ++ ".gribjump") = false) := by
  rw [scanSelection] at h
  split at h
  · have e := Except.ok.inj h
    intro f
    rw [← e]
    cases skip with
    | true => simp
    | false =>
      simp only [Bool.false_eq_true, if_false, List.mem_append, List.mem_filter, false_implies, and_true]
      cases there (f ++ ".gribjump") <;> simp
  · cases h

/-- **C61.**  The scan-files tool, run on files that exist and can be scanned, indexes every message of every file. -/
theorem C61_all_files_indexed (E : ScanEnv) (c : Cache) (there : String → Bool) (files : List String) (some_ : files ≠ [])
    (exist : ∀ f ∈ files, there f = true) (possible : WholePossible E c (· ∈ files)) (sched : List ScanEv) :
    ∃ n c', toolScanFiles E c there false false files sched = .ok c' ∧ WholeFiles E c (· ∈ files) (.ok (n, c')) := by
  obtain ⟨todo, hs⟩ : ∃ todo, scanSelection there false files = .ok todo := by
    rw [scanSelection, if_pos (List.all_eq_true.mpr exist)]; exact ⟨_, rfl⟩
  have hm : ∀ f, f ∈ todo ↔ f ∈ files := fun f => by rw [scanSelection_mem hs]; simp
  have hne : todo ≠ [] := by
    rintro rfl
    obtain ⟨f, hf⟩ := List.exists_mem_of_ne_nil _ some_
    exact absurd ((hm f).mpr hf) (by simp)
  have hw := C51_scan_files E c todo hne (by
    refine ⟨fun f hf => possible.1 f ((hm f).mp hf), fun f g hf hg => possible.2 f g ((hm f).mp hf) ((hm g).mp hg)⟩) sched
  obtain ⟨fs, c', h1, h2, h3, h4⟩ := hw
  refine ⟨_, c', ?_, fs, c', h1, fun f => (h2 f).trans (hm f), rfl, h4⟩
  rw [toolScanFiles, if_neg some_, hs, ok_bind, if_neg (by simp [hne]), h3, ok_bind]

/-- **C61, skipping.**  With the option to skip, in the default place of index files, exactly the files without an index
file are scanned. -/
theorem C61_skip_existing (E : ScanEnv) (c : Cache) (there : String → Bool) (files : List String)
    (exist : ∀ f ∈ files, there f = true) (shadow : c.mode = .shadow)
    (index : ∀ f ∈ files, there (f ++ ".gribjump") = (c.fs.find (f ++ ".gribjump")).isSome)
    (possible : WholePossible E c fun f => f ∈ files ∧ c.fs.find (c.mode.indexPath f) = none) (sched : List ScanEv) :
    ∃ n c', toolScanFiles E c there true false files sched = .ok c' ∧
      ((∀ f ∈ files, c.fs.find (c.mode.indexPath f) ≠ none) ∧ c' = c ∨
        WholeFiles E c (fun f => f ∈ files ∧ c.fs.find (c.mode.indexPath f) = none) (.ok (n, c'))) := by
  have hpath : ∀ f, c.mode.indexPath f = f ++ ".gribjump" := fun f => by rw [shadow]; rfl
  by_cases some_ : files = []
  · refine ⟨0, c, by rw [toolScanFiles, if_pos some_], Or.inl ⟨?_, rfl⟩⟩
    rw [some_]; intro f hf; cases hf
  obtain ⟨todo, hs⟩ : ∃ todo, scanSelection there true files = .ok todo := by
    rw [scanSelection, if_pos (List.all_eq_true.mpr exist)]; exact ⟨_, rfl⟩
  have hm : ∀ f, f ∈ todo ↔ f ∈ files ∧ c.fs.find (c.mode.indexPath f) = none := by
    intro f
    rw [scanSelection_mem hs, hpath]
    constructor
    · rintro ⟨h1, h2⟩
      have := h2 rfl
      rw [index f h1] at this
      exact ⟨h1, by simpa using this⟩
    · rintro ⟨h1, h2⟩
      exact ⟨h1, fun _ => by rw [index f h1, h2]; rfl⟩
  by_cases hne : todo = []
  · refine ⟨0, c, ?_, Or.inl ⟨fun f hf hn => ?_, rfl⟩⟩
    · rw [toolScanFiles, if_neg some_, hs, ok_bind, if_pos (Or.inl hne)]
    · have := (hm f).mpr ⟨hf, hn⟩
      rw [hne] at this; cases this
  obtain ⟨fs, c', h1, h2, h3, h4⟩ := C51_scan_files E c todo hne (by
    refine ⟨fun f hf => possible.1 f ((hm f).mp hf), fun f g hf hg => possible.2 f g ((hm f).mp hf) ((hm g).mp hg)⟩) sched
  refine ⟨_, c', ?_, Or.inr ⟨fs, c', h1, fun f => (h2 f).trans (hm f), rfl, h4⟩⟩
  rw [toolScanFiles, if_neg some_, hs, ok_bind, if_neg (by simp [hne]), h3, ok_bind]

/-- **C61, refusals.**  A file that does not exist stops the tool before anything is scanned; a dry run changes nothing. -/
theorem C61_refused_or_dry (E : ScanEnv) (c : Cache) (there : String → Bool) (skip dry : Bool) (files : List String)
    (sched : List ScanEv) :
    ((∃ f ∈ files, there f = false) → toolScanFiles E c there skip dry files sched = throwExn .userError) ∧
    ((∀ f ∈ files, there f = true) → toolScanFiles E c there skip true files sched = .ok c) := by
  constructor
  · rintro ⟨f, hf, ht⟩
    rw [toolScanFiles, if_neg (by rintro rfl; cases hf), scanSelection, if_neg]
    · rfl
    · intro h
      rw [List.all_eq_true] at h
      rw [h f hf] at ht; cases ht
  · intro h
    rw [toolScanFiles]
    split
    · rfl
    · rw [scanSelection, if_pos (List.all_eq_true.mpr h), ok_bind, if_pos (Or.inr rfl)]

/-- C61 is false when index files are kept in a directory of their own and files are to be skipped: a file with a leftover
index next to it is skipped although its index is not there. -/
theorem C61_skip_looks_in_wrong_place (E : ScanEnv) (c : Cache) (there : String → Bool) (f : String)
    (exist : there f = true) (leftover : there (f ++ ".gribjump") = true)
    (unindexed : c.fs.find (c.mode.indexPath f) = none) (sched : List ScanEv) :
    toolScanFiles E c there true false [f] sched = .ok c ∧ ∀ o, c.indexed f o = none := by
  refine ⟨?_, fun o => by rw [Cache.indexed, loadIndex, unindexed]; rfl⟩
  rw [toolScanFiles, if_neg (by simp), scanSelection, if_pos (by simp [exist]), ok_bind, if_pos]
  left
  simp [leftover]

/-- Non-vacuity: two files, of which one has an index file already. -/
theorem c61_possible : WholePossible c51Env c51Cache (· ∈ ["/fdb/b", "/fdb/a"]) := by
  constructor
  · intro f hf
    simp only [List.mem_cons, List.not_mem_nil, or_false] at hf
    rcases hf with rfl | rfl
    · refine ⟨c51_readable (by decide +kernel), _, rfl, fun o ho _ => ?_⟩
      simp only [List.mem_cons, List.not_mem_nil, or_false] at ho
      rcases ho with rfl | rfl <;> exact ⟨_, rfl⟩
    · refine ⟨c51_readable (by decide +kernel), _, rfl, fun o ho _ => ?_⟩
      simp only [List.mem_cons, List.not_mem_nil, or_false] at ho
      rcases ho with rfl | rfl | rfl <;> exact ⟨_, rfl⟩
  · intro f g hf hg
    have : ∀ f ∈ ["/fdb/b", "/fdb/a"], ∀ g ∈ ["/fdb/b", "/fdb/a"],
        c51Cache.mode.indexPath f = c51Cache.mode.indexPath g → f = g := by decide +kernel
    exact this f hf g hg

example : let there := fun f => decide (f ∈ ["/fdb/a", "/fdb/b", "/fdb/a.gribjump"])
    scanSelection there false ["/fdb/a", "/fdb/b"] = .ok ["/fdb/b", "/fdb/a"] ∧
    scanSelection there true ["/fdb/a", "/fdb/b"] = .ok ["/fdb/b"] := by decide +kernel

/-- Non-vacuity: an index directory that is empty, and a leftover index next to the file. -/
example : let c : Cache := ⟨.directory "/idx", true, LRU.empty 4, [], [("/data/a.gribjump", [])]⟩
    c.fs.find (c.mode.indexPath "/data/a") = none ∧ (c.fs.find "/data/a.gribjump").isSome = true := by decide +kernel

end GJ
