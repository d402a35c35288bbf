import Verif.Props.C28
import Verif.Lemmas.EngineLive
import Verif.Spec.Catalogue

/-!
# C27, C29, C30, C39: extraction by request
-/

namespace GJ

open Spec

/-! ## Engine runs -/

theorem produces_of_honest {E : ExtEnv} {C : EngineConf} {info : String → Nat → Info}
    {content : Uri → List Interval → WireResult} (h : Honest E C info content) (fwd : Bool) :
    Produces E C fwd (fun u q r => r = content u q.ranges) := by
  refine ⟨?_, fun _ t u q r _ hf => h.fetch t u q.ranges r hf, ?_⟩
  · intro _ t t' u q offs infos j i r hs hi ho hj hg hjump
    have := h.infos t u.path offs infos hi
    subst this
    rw [List.getElem?_map, ho, Option.map_some, Option.some.injEq] at hj
    subst hj
    exact h.jump t' u q.ranges r hs hjump
  · intro _ t server fm back hk hb f items hm
    obtain ⟨items', h1, h2, h3⟩ := h.forward t server fm back hk hb f items hm
    exact ⟨items', h1, h2, fun j i i' r a b c => h3 j i i' r a b c⟩

theorem entryText_inj {ig : Bool} {cat : List (FdbKey × Uri)} (hc : Catalogue ig cat) {a b : FdbKey × Uri}
    (ha : a ∈ cat) (hb : b ∈ cat) (h : entryText ig a = entryText ig b) : a = b := by
  apply hc.distinct a ha b hb
  rw [entryText, entryText] at h
  have h := ofList_inj h
  rw [fdbkeyToStr_eq ig a.1 (hc.good a ha).2.1 (hc.good a ha).2.2,
    fdbkeyToStr_eq ig b.1 (hc.good b hb).2.1 (hc.good b hb).2.2,
    sortedTexts_inj ((hc.good a ha).pairs ig) ((hc.good b hb).pairs ig)] at h
  exact h

theorem texts_nodup {ig : Bool} {cat : List (FdbKey × Uri)} (hc : Catalogue ig cat) {L : List (FdbKey × Uri)}
    (hL : ∀ e ∈ L, e ∈ cat) (hn : L.Nodup) : (L.map (entryText ig)).Nodup := by
  induction L with
  | nil => exact List.nodup_nil
  | cons e L ih =>
    rw [List.nodup_cons] at hn
    rw [List.map_cons, List.nodup_cons]
    refine ⟨?_, ih (fun x hx => hL x (List.mem_cons_of_mem _ hx)) hn.2⟩
    intro hm
    obtain ⟨e', he', h⟩ := List.mem_map.mp hm
    have := entryText_inj hc (hL e' (List.mem_cons_of_mem _ he')) (hL e (List.mem_cons_self ..)) h
    subst this
    exact hn.1 he'

theorem find_entriesOf {rs : List ExRequest} (hn : (rs.map ExRequest.request).Nodup) {r : ExRequest} (h : r ∈ rs) :
    AMap.find (entriesOf rs) r.request = some (newItem r) := by
  have hk : (entriesOf rs).keys.Nodup := by rw [entriesOf_keys]; exact hn
  exact (AMap.mem_iff_find _ hk _ _).mp (List.mem_map.mpr ⟨r, h, rfl⟩)

theorem find_entriesOf_inv {rs : List ExRequest} {k : String} {it : Item} (h : AMap.find (entriesOf rs) k = some it) :
    ∃ r ∈ rs, r.request = k ∧ it = newItem r := by
  induction rs with
  | nil => cases h
  | cons r rs ih =>
    rw [entriesOf, List.map_cons, AMap.find] at h
    by_cases e : r.request = k
    · rw [if_pos e] at h
      exact ⟨r, List.mem_cons_self .., e, (Option.some.inj h).symm⟩
    · rw [if_neg e] at h
      obtain ⟨r', h1, h2⟩ := ih h
      exact ⟨r', List.mem_cons_of_mem _ h1, h2⟩

/-- An item is where the matching entry of the listing says. -/
theorem placeItem_spec {ig : Bool} {L : List (FdbKey × Uri)} (hd : (L.map (entryText ig)).Nodup) {k : String} (it : Item)
    {e : FdbKey × Uri} (he : e ∈ L) (hk : entryText ig e = k) : placeItem ig L k it = { it with uri := e.2 } := by
  rw [placeItem]
  cases hf : L.find? (fun e => decide (entryText ig e = k)) with
  | none =>
    rw [List.find?_eq_none] at hf
    exact absurd hk (by simpa using hf e he)
  | some e' =>
    have h1 := List.find?_some hf
    rw [decide_eq_true_iff] at h1
    have h2 := List.mem_of_find?_eq_some hf
    have : e' = e := by
      by_cases heq : e' = e
      · exact heq
      · exfalso
        obtain ⟨i, hi, rfl⟩ := List.getElem_of_mem h2
        obtain ⟨j, hj, rfl⟩ := List.getElem_of_mem he
        have hij : i ≠ j := by rintro rfl; exact heq rfl
        have hne : (L.map (entryText ig))[i]? ≠ (L.map (entryText ig))[j]? :=
          fun h => hij ((List.getElem?_inj (by simpa using hi) hd).mp h)
        apply hne
        rw [List.getElem?_map, List.getElem?_map, List.getElem?_eq_getElem hi, List.getElem?_eq_getElem hj,
          Option.map_some, Option.map_some, h1, hk]
    subst this
    rfl

theorem placeItem_rest (ig : Bool) (L : List (FdbKey × Uri)) (k : String) (it : Item) :
    (placeItem ig L k it).request = it.request ∧ (placeItem ig L k it).result = it.result := by
  rw [placeItem]
  split <;> exact ⟨rfl, rfl⟩

/-- The state of an accepted call between listing and scheduling. -/
structure Planned (E : ExtEnv) (C : EngineConf) (rs : List ExRequest) (L : List (FdbKey × Uri)) (m : ItemMap)
    (fm : KeyMap) : Prop where
  nodup : ((canonAll C.ignoreYearMonth false rs).map ExRequest.request).Nodup
  listed : E.list (unionAll C.ignoreYearMonth false [] rs) = .ok L
  mapped : fileMap C L (entriesOf (canonAll C.ignoreYearMonth false rs)) = .ok (m, fm)

theorem localExtract_inv {E : ExtEnv} {C : EngineConf} {sched : List Nat} {rs : List ExRequest} {out : List WireResult}
    (h : localExtract E C sched rs = .ok out) :
    ∃ L m fm m', Planned E C rs L m fm ∧ scheduleTasks E C C.forward m fm sched = .ok (m', []) ∧
      (collectResults m').length = rs.length ∧
      collectLoop (canonAll C.ignoreYearMonth false rs) (collectResults m') = .ok out := by
  rw [localExtract] at h
  obtain ⟨⟨rs', results, errs⟩, h1, h2⟩ := res_bind_inv h
  rw [engineExtract] at h1
  obtain ⟨⟨rs1, u, m0⟩, h3, h4⟩ := res_bind_inv h1
  obtain ⟨L, h5, h6⟩ := res_bind_inv h4
  obtain ⟨⟨m, fm⟩, h7, h8⟩ := res_bind_inv h6
  obtain ⟨⟨m', errs'⟩, h9, h10⟩ := res_bind_inv h8
  rw [buildRequestMap_eq] at h3
  split at h3
  · rename_i hn
    cases h3
    cases h10
    simp only [] at h2
    split at h2
    · cases h2
    · rename_i he
      have he : errs = [] := by simpa using he
      subst he
      obtain ⟨⟨⟩, h11, h12⟩ := res_bind_inv h2
      refine ⟨L, m, fm, m', ⟨hn, h5, h7⟩, h9, ?_, h12⟩
      rw [cassert] at h11
      split at h11
      · rename_i hl
        rw [decide_eq_true_iff, canonAll_length] at hl
        exact hl
      · cases h11
  · cases h3

theorem keys_mem_canon {ig : Bool} {rs : List ExRequest} {k : String}
    (h : k ∈ (entriesOf (canonAll ig false rs)).keys) : ∃ (i : Nat) (r : ExRequest), (canonAll ig false rs)[i]? = some r ∧ r.request = k := by
  rw [entriesOf_keys] at h
  obtain ⟨r, hr, rfl⟩ := List.mem_map.mp h
  obtain ⟨i, hi⟩ := List.getElem?_of_mem hr
  exact ⟨i, r, hi, rfl⟩

/-- Everything known about a planned call over a catalogue. -/
theorem planned_spec {E : ExtEnv} {C : EngineConf} {rs : List ExRequest} {L : List (FdbKey × Uri)} {m : ItemMap}
    {fm : KeyMap} {cat : List (FdbKey × Uri)} (hcat : Catalogue C.ignoreYearMonth cat) (hl : ListsOnly E cat)
    (p : Planned E C rs L m fm) :
    (L.map (entryText C.ignoreYearMonth)).Nodup ∧ (∀ e ∈ L, e ∈ cat) ∧
    m.keys = (canonAll C.ignoreYearMonth false rs).map ExRequest.request ∧
    (∀ r ∈ canonAll C.ignoreYearMonth false rs,
      m.find r.request = some (placeItem C.ignoreYearMonth L r.request (newItem r))) ∧
    Groups m fm ((L.filter fun e => decide (entryText C.ignoreYearMonth e ∈ m.keys)).map (entryText C.ignoreYearMonth)) ∧
    OnePlace m fm ∧
    (C.allowMissing = false →
      ((L.filter fun e => decide (entryText C.ignoreYearMonth e ∈ m.keys)).map (entryText C.ignoreYearMonth)).Perm
        ((canonAll C.ignoreYearMonth false rs).map ExRequest.request)) := by
  obtain ⟨hL, hLn⟩ := hl _ L p.listed
  have hd := texts_nodup hcat hL hLn
  obtain ⟨h1, h2, h3, h4⟩ := fileMap_spec hd p.mapped
  have hfind : ∀ r ∈ canonAll C.ignoreYearMonth false rs,
      m.find r.request = some (placeItem C.ignoreYearMonth L r.request (newItem r)) := by
    intro r hr
    rw [h2, find_entriesOf p.nodup hr]
    rfl
  have hkeys : m.keys = (canonAll C.ignoreYearMonth false rs).map ExRequest.request := by rw [h1, entriesOf_keys]
  rw [← h1] at h3 h4
  refine ⟨hd, hL, hkeys, hfind, h3, ?_, ?_⟩
  · intro e he k hk k' hk' it it' hit hit'
    -- both items were placed by entries of the listing
    have placed : ∀ k ∈ e.2, ∀ it, m.find k = some it → ∃ x ∈ L, it.uri = x.2 := by
      intro k hk it hit
      obtain ⟨x, hx, hxk⟩ := List.mem_map.mp (h3.mem_done he hk)
      obtain ⟨hxL, hxm⟩ := List.mem_filter.mp hx
      rw [decide_eq_true_iff, hkeys] at hxm
      obtain ⟨r, hr, hre⟩ := List.mem_map.mp hxm
      have := hfind r hr
      rw [hre, hxk, hit, Option.some.injEq] at this
      refine ⟨x, hxL, ?_⟩
      rw [this, placeItem_spec hd _ hxL hxk]
    obtain ⟨x, hx, hu⟩ := placed k hk it hit
    obtain ⟨y, hy, hv⟩ := placed k' hk' it' hit'
    obtain ⟨a, ha, hpa⟩ := h3.path e he k hk
    obtain ⟨b, hb, hpb⟩ := h3.path e he k' hk'
    rw [hit, Option.some.injEq] at ha
    rw [hit', Option.some.injEq] at hb
    subst ha
    subst hb
    rw [hu, hv]
    apply hcat.place x (hL x hx) y (hL y hy)
    rw [← hu, ← hv, hpa, hpb]
  · intro hm
    refine (h4 hm).trans ?_
    rw [hkeys]

theorem same_requests {m m' : ItemMap} (hs : SameItems m m') (hk : ∀ k it, m.find k = some it → it.request.request = k)
    (hn : m.keys.Nodup) : m'.keys.Nodup ∧ ∀ e ∈ m', e.2.request.request = e.1 := by
  have hn' : m'.keys.Nodup := by rw [hs.keys]; exact hn
  refine ⟨hn', ?_⟩
  intro e he
  have hf := (AMap.mem_iff_find m' hn' e.1 e.2).mp he
  have := hs.rest e.1
  rw [hf] at this
  cases hm : m.find e.1 with
  | none => rw [hm] at this; cases this
  | some it =>
    rw [hm] at this
    simp only [Option.map_some, Option.some.injEq, Prod.mk.injEq] at this
    rw [this.1]
    exact hk e.1 it hm

theorem planned_requests {E : ExtEnv} {C : EngineConf} {rs : List ExRequest} {L : List (FdbKey × Uri)} {m : ItemMap}
    {fm : KeyMap} {cat : List (FdbKey × Uri)} (hcat : Catalogue C.ignoreYearMonth cat) (hl : ListsOnly E cat)
    (p : Planned E C rs L m fm) : m.keys.Nodup ∧ ∀ k it, m.find k = some it → it.request.request = k := by
  obtain ⟨-, -, hkeys, hfind, -, -, -⟩ := planned_spec hcat hl p
  refine ⟨by rw [hkeys]; exact p.nodup, ?_⟩
  intro k it hit
  have hk : k ∈ m.keys := by rw [AMap.mem_keys_iff, hit]; rfl
  rw [hkeys] at hk
  obtain ⟨r, hr, hre⟩ := List.mem_map.mp hk
  have := hfind r hr
  rw [hre, hit, Option.some.injEq] at this
  rw [this, (placeItem_rest _ _ _ _).1]
  exact hre

/-- A request of the call and its canonical form. -/
theorem canon_at {ig : Bool} {rs : List ExRequest} {ws : List WrittenRequest} (hw : Written rs ws) (i : Nat)
    (hi : i < rs.length) (hj : i < ws.length) {cat : List (FdbKey × Uri)} (hcat : Catalogue ig cat) :
    ∃ r, (canonAll ig false rs)[i]? = some r ∧ r.ranges = rs[i].ranges ∧ r.gridHash = rs[i].gridHash ∧
      ∀ e ∈ cat, entryText ig e = r.request ↔ SameField ig ws[i].pairs e.1 := by
  have hc := canonAll_written ig hw i hi hj
  refine ⟨_, hc, rfl, rfl, ?_⟩
  intro e he
  have hg := hcat.good e he
  rw [entryText, fdbkeyToStr_eq ig e.1 hg.2.1 hg.2.2, SameField,
    ← sortedTexts_inj ((hw.2 ws[i] (List.getElem_mem hj)).2.1.essential ig) (hg.pairs ig)]
  exact ⟨fun h => (ofList_inj h).symm, fun h => by rw [h]⟩

/-- What an error-free call delivers, for any property `P` of results. -/
theorem extract_delivers {E : ExtEnv} {C : EngineConf} {P : Uri → ExRequest → WireResult → Prop}
    (hE : Produces E C C.forward P) {cat : List (FdbKey × Uri)} (hcat : Catalogue C.ignoreYearMonth cat)
    (hl : ListsOnly E cat) {sched : List Nat} {rs : List ExRequest} {ws : List WrittenRequest} (hw : Written rs ws)
    {out : List WireResult} (h : localExtract E C sched rs = .ok out) :
    out.length = rs.length ∧ ∀ i (hi : i < rs.length) (hj : i < ws.length),
      (∃ e ∈ cat, SameField C.ignoreYearMonth ws[i].pairs e.1 ∧
        ∃ x q, out[i]? = some x ∧ q.ranges = rs[i].ranges ∧ q.gridHash = rs[i].gridHash ∧ P e.2 q x) ∨
      (C.allowMissing = true ∧ out[i]? = some emptyResult ∧
        ∀ L, E.list (unionAll C.ignoreYearMonth false [] rs) = .ok L →
          ∀ e ∈ L, ¬ SameField C.ignoreYearMonth ws[i].pairs e.1) := by
  obtain ⟨L, m, fm, m', p, hsch, hlen, hcol⟩ := localExtract_inv h
  obtain ⟨hd, hL, hkeys, hfind, g, ho, hall⟩ := planned_spec hcat hl p
  obtain ⟨hmn, hmr⟩ := planned_requests hcat hl p
  obtain ⟨-, hsame, hres⟩ := scheduleTasks_spec hE g ho hsch
  obtain ⟨hn', hr'⟩ := same_requests hsame hmr hmn
  rw [collectResults_eq m' hn' hr'] at hcol
  obtain ⟨hlen', hout⟩ := collectLoop_spec p.nodup hcol
  refine ⟨by rw [hlen', canonAll_length], ?_⟩
  intro i hi hj
  obtain ⟨r, hri, hrr, hrg, hiff⟩ := canon_at hw i hi hj hcat
  obtain ⟨it, x, hit, hx, hox⟩ := hout i r hri
  have hrm : r ∈ canonAll C.ignoreYearMonth false rs := List.mem_of_getElem? hri
  by_cases hex : ∃ e ∈ L, entryText C.ignoreYearMonth e = r.request
  · left
    obtain ⟨e, he, her⟩ := hex
    have hdone : r.request ∈ (L.filter fun e => decide (entryText C.ignoreYearMonth e ∈ m.keys)).map
        (entryText C.ignoreYearMonth) := by
      refine List.mem_map.mpr ⟨e, List.mem_filter.mpr ⟨he, ?_⟩, her⟩
      rw [decide_eq_true_iff, hkeys, her]
      exact List.mem_map.mpr ⟨r, hrm, rfl⟩
    obtain ⟨it', x', h1, h2, h3⟩ := hres _ hdone
    rw [hit, Option.some.injEq] at h1
    subst h1
    rw [hx, Option.some.injEq] at h2
    subst h2
    -- the item is where the entry says
    have hm := hfind r hrm
    obtain ⟨it'', h4, h5, h6⟩ := hsame.find hm
    rw [hit, Option.some.injEq] at h4
    subst h4
    rw [h5, h6, placeItem_spec hd _ he her] at h3
    exact ⟨e, hL e he, (hiff e (hL e he)).mp her, x, r, hox, hrr, hrg, h3⟩
  · right
    have hndone : r.request ∉ (L.filter fun e => decide (entryText C.ignoreYearMonth e ∈ m.keys)).map
        (entryText C.ignoreYearMonth) := by
      intro hm
      obtain ⟨e, he, her⟩ := List.mem_map.mp hm
      exact hex ⟨e, (List.mem_filter.mp he).1, her⟩
    refine ⟨?_, ?_, ?_⟩
    · cases hmiss : C.allowMissing with
      | true => rfl
      | false =>
        exfalso
        apply hndone
        exact (hall hmiss).mem_iff.mpr (List.mem_map.mpr ⟨r, hrm, rfl⟩)
    · rw [scheduleTasks_frame g hsch hndone, hfind r hrm, Option.some.injEq] at hit
      rw [← hit, (placeItem_rest _ _ _ _).2] at hx
      rw [hox, ← hx]
      rfl
    · intro L' hL' e he hsf
      rw [p.listed] at hL'
      cases hL'
      exact hex ⟨e, he, (hiff e (hL e he)).mpr hsf⟩

/-! ## C27 -/

/-- **C27.** When a call succeeds, it returns one result per request, in the order of the requests; result `i` holds
the values of the field request `i` names, over the ranges of request `i`.  For every schedule of the tasks, with local,
inefficient and forwarded extraction. -/
theorem C27_results_in_request_order (E : ExtEnv) (C : EngineConf) (info : String → Nat → Info)
    (content : Uri → List Interval → WireResult) (hE : Honest E C info content) (cat : List (FdbKey × Uri))
    (hcat : Catalogue C.ignoreYearMonth cat) (hl : ListsOnly E cat) (sched : List Nat) (rs : List ExRequest)
    (ws : List WrittenRequest) (hw : Written rs ws) (hm : C.allowMissing = false) (out : List WireResult)
    (h : localExtract E C sched rs = .ok out) :
    out.length = rs.length ∧ ∀ i (hi : i < rs.length) (hj : i < ws.length),
      ∃ e ∈ cat, SameField C.ignoreYearMonth ws[i].pairs e.1 ∧
        (∀ e' ∈ cat, SameField C.ignoreYearMonth ws[i].pairs e'.1 → e' = e) ∧
        out[i]? = some (content e.2 rs[i].ranges) := by
  obtain ⟨h1, h2⟩ := extract_delivers (produces_of_honest hE C.forward) hcat hl hw h
  refine ⟨h1, ?_⟩
  intro i hi hj
  rcases h2 i hi hj with ⟨e, he, hs, x, q, hx, hq, -, hP⟩ | ⟨hc, -⟩
  · refine ⟨e, he, hs, ?_, ?_⟩
    · intro e' he' hs'
      exact hcat.distinct e' he' e he (hs'.symm.trans hs)
    · rw [hx, hP, hq]
  · rw [hm] at hc; cases hc

/-- **C27.** With missing fields allowed, a request whose field is listed still gets its own values, and any other
request gets an empty result. -/
theorem C27_allowed_missing_are_empty (E : ExtEnv) (C : EngineConf) (info : String → Nat → Info)
    (content : Uri → List Interval → WireResult) (hE : Honest E C info content) (cat : List (FdbKey × Uri))
    (hcat : Catalogue C.ignoreYearMonth cat) (hl : ListsOnly E cat) (sched : List Nat) (rs : List ExRequest)
    (ws : List WrittenRequest) (hw : Written rs ws) (out : List WireResult)
    (h : localExtract E C sched rs = .ok out) :
    out.length = rs.length ∧ ∀ i (hi : i < rs.length) (hj : i < ws.length),
      (∃ e ∈ cat, SameField C.ignoreYearMonth ws[i].pairs e.1 ∧ out[i]? = some (content e.2 rs[i].ranges)) ∨
      (out[i]? = some emptyResult ∧ ∀ L, E.list (unionAll C.ignoreYearMonth false [] rs) = .ok L →
          ∀ e ∈ L, ¬ SameField C.ignoreYearMonth ws[i].pairs e.1) := by
  obtain ⟨h1, h2⟩ := extract_delivers (produces_of_honest hE C.forward) hcat hl hw h
  refine ⟨h1, ?_⟩
  intro i hi hj
  rcases h2 i hi hj with ⟨e, he, hs, x, q, hx, hq, -, hP⟩ | ⟨-, hx, hno⟩
  · exact Or.inl ⟨e, he, hs, by rw [hx, hP, hq]⟩
  · exact Or.inr ⟨hx, hno⟩

/-! ## C39 -/

/-- The grid check passes only when the request's hash is present and that of the field. -/
theorem gridCheck_ok {ig : Bool} {a b : String} (h : gridCheck ig a b = .ok ()) (hi : ig = false) : a ≠ "" ∧ a = b := by
  subst hi
  rw [gridCheck] at h
  simp only [Bool.not_false, Bool.true_and, decide_eq_true_iff] at h
  split at h
  · cases h
  · split at h
    · cases h
    · rename_i h1 h2
      exact ⟨h1, by simpa using h2⟩

/-- **C39.** Unless grid checks are switched off, a successful call extracted only from fields whose grid hash the
request named: every request has a nonempty hash, equal to that of its field.  (Fields behind a remote store, which are
only reached with the inefficient option, are not checked: see below.) -/
theorem C39_grid_hash_checked (E : ExtEnv) (C : EngineConf) (info : String → Nat → Info)
    (hinfo : ∀ t f offs is, E.infos t f offs = .ok is → is = offs.map (info f)) (cat : List (FdbKey × Uri))
    (hcat : Catalogue C.ignoreYearMonth cat) (hl : ListsOnly E cat) (hfile : ∀ e ∈ cat, e.2.scheme ≠ "fdb")
    (sched : List Nat) (rs : List ExRequest) (ws : List WrittenRequest) (hw : Written rs ws)
    (hm : C.allowMissing = false) (hf : C.forward = false) (hg : C.ignoreGrid = false) (out : List WireResult)
    (h : localExtract E C sched rs = .ok out) :
    ∀ i (hi : i < rs.length) (hj : i < ws.length), ∃ e ∈ cat, SameField C.ignoreYearMonth ws[i].pairs e.1 ∧
      rs[i].gridHash ≠ "" ∧ rs[i].gridHash = (info e.2.path e.2.offset).base.md5GridSection := by
  have hE : Produces E C C.forward (fun u q _ => u.scheme ≠ "fdb" →
      q.gridHash ≠ "" ∧ q.gridHash = (info u.path u.offset).base.md5GridSection) := by
    refine ⟨?_, fun _ t u q r hs _ hn => absurd hs hn, fun hc => by rw [hf] at hc; cases hc⟩
    intro _ t t' u q offs infos j i r hs hi ho hj hgr hjump _
    have := hinfo t u.path offs infos hi
    subst this
    rw [List.getElem?_map, ho, Option.map_some, Option.some.injEq] at hj
    subst hj
    exact gridCheck_ok hgr hg
  obtain ⟨-, h2⟩ := extract_delivers hE hcat hl hw h
  intro i hi hj
  rcases h2 i hi hj with ⟨e, he, hs, x, q, -, -, hq, hP⟩ | ⟨hc, -⟩
  · have := hP (hfile e he)
    rw [hq] at this
    exact ⟨e, he, hs, this⟩
  · rw [hm] at hc; cases hc

/-! ## C29 -/

/-- **C29.** Unless missing fields are allowed, a call one of whose fields is not listed does not succeed: it fails with
`DataNotFound` before anything is extracted (once the requests are accepted and the catalogue answered). -/
theorem C29_missing_field_is_reported (E : ExtEnv) (C : EngineConf) (cat : List (FdbKey × Uri))
    (hcat : Catalogue C.ignoreYearMonth cat) (hl : ListsOnly E cat) (sched : List Nat) (rs : List ExRequest)
    (ws : List WrittenRequest) (hw : Written rs ws) (hm : C.allowMissing = false) (L : List (FdbKey × Uri))
    (acc : ∃ r, buildRequestMap C.ignoreYearMonth rs = .ok r)
    (hL : E.list (unionAll C.ignoreYearMonth false [] rs) = .ok L) (i : Nat) (hj : i < ws.length)
    (hmiss : ∀ e ∈ L, ¬ SameField C.ignoreYearMonth ws[i].pairs e.1) :
    localExtract E C sched rs = throwExn .dataNotFound := by
  have hi : i < rs.length := by rw [← written_length hw]; exact hj
  obtain ⟨hLc, hLn⟩ := hl _ L hL
  have hd := texts_nodup hcat hLc hLn
  obtain ⟨r0, hr0⟩ := acc
  have hbr := buildRequestMap_eq C.ignoreYearMonth rs
  rw [hr0] at hbr
  split at hbr
  · rename_i hn
    cases hbr
    obtain ⟨r, hri, -, -, hiff⟩ := canon_at hw i hi hj hcat
    have hrm : r ∈ canonAll C.ignoreYearMonth false rs := List.mem_of_getElem? hri
    obtain ⟨m1, fm1, h1, h2, h3, h4⟩ := listLoop_spec C.ignoreYearMonth L
      (entriesOf (canonAll C.ignoreYearMonth false rs)) [] 0 [] hd (fun _ _ h => by cases h) (Groups.nil _)
    have hfm : fileMap C L (entriesOf (canonAll C.ignoreYearMonth false rs)) = throwExn .dataNotFound := by
      rw [fileMap, h1]
      simp only []
      rw [if_pos]
      refine ⟨?_, hm⟩
      intro heq
      have hp := all_keys_of_length (nodup_filter_map hd (fun e => decide (entryText C.ignoreYearMonth e ∈
          (entriesOf (canonAll C.ignoreYearMonth false rs)).keys))) (ks := (entriesOf (canonAll C.ignoreYearMonth false rs)).keys)
        (by
          intro k hk
          obtain ⟨e, he, rfl⟩ := List.mem_map.mp hk
          rw [List.mem_filter, decide_eq_true_iff] at he
          exact he.2)
        (by
          have hk : (entriesOf (canonAll C.ignoreYearMonth false rs)).keys.length =
            (entriesOf (canonAll C.ignoreYearMonth false rs)).length := by rw [AMap.keys, List.length_map]
          rw [List.length_map, hk]; omega)
      have hmem : r.request ∈ (entriesOf (canonAll C.ignoreYearMonth false rs)).keys := by
        rw [entriesOf_keys]; exact List.mem_map.mpr ⟨r, hrm, rfl⟩
      obtain ⟨e, he, her⟩ := List.mem_map.mp (hp.mem_iff.mpr hmem)
      have heL := (List.mem_filter.mp he).1
      exact hmiss e heL ((hiff e (hLc e heL)).mp her)
    rw [localExtract, engineExtract, hr0, ok_bind]
    simp only []
    rw [hL, ok_bind, hfm]
    rfl
  · cases hbr

/-! ### A field in the catalogue is found -/

theorem addUnion_mono (u : Union) (ps : List (Str × Str × Str)) {k : Str} {vs : List Str} {v : Str}
    (h : u.find k = some vs) (hv : v ∈ vs) : ∃ vs', (addUnion u ps).find k = some vs' ∧ v ∈ vs' := by
  induction ps generalizing u vs with
  | nil => exact ⟨vs, h, hv⟩
  | cons p ps ih =>
    rw [addUnion, List.foldl_cons]
    by_cases e : p.2.1 = k
    · apply ih (u.set p.2.1 (setInsert ((u.find p.2.1).getD []) p.2.2)) (vs := setInsert vs p.2.2)
      · rw [AMap.find_set, if_pos e, e, h]; rfl
      · rw [setInsert]
        split
        · exact hv
        · exact List.mem_append.mpr (Or.inl hv)
    · apply ih (u.set p.2.1 (setInsert ((u.find p.2.1).getD []) p.2.2)) (vs := vs) _ hv
      rw [AMap.find_set, if_neg e]; exact h

theorem addUnion_mem (u : Union) (ps : List (Str × Str × Str)) {p : Str × Str × Str} (h : p ∈ ps) :
    ∃ vs, (addUnion u ps).find p.2.1 = some vs ∧ p.2.2 ∈ vs := by
  induction ps generalizing u with
  | nil => cases h
  | cons q ps ih =>
    rw [addUnion, List.foldl_cons]
    rcases List.mem_cons.mp h with rfl | h
    · apply addUnion_mono (u.set p.2.1 (setInsert ((u.find p.2.1).getD []) p.2.2)) ps
        (vs := setInsert ((u.find p.2.1).getD []) p.2.2)
      · rw [AMap.find_set, if_pos rfl]
      · rw [setInsert]
        split
        · assumption
        · exact List.mem_append.mpr (Or.inr (List.mem_singleton.mpr rfl))
    · exact ih _ h

theorem addUnion_keys (u : Union) (ps : List (Str × Str × Str)) {k : Str} {vs : List Str}
    (h : (addUnion u ps).find k = some vs) : (∃ vs0, u.find k = some vs0) ∨ ∃ p ∈ ps, p.2.1 = k := by
  induction ps generalizing u with
  | nil => exact Or.inl ⟨vs, h⟩
  | cons q ps ih =>
    rw [addUnion, List.foldl_cons] at h
    rcases ih _ h with ⟨vs0, h0⟩ | ⟨p, hp, e⟩
    · rw [AMap.find_set] at h0
      by_cases e : q.2.1 = k
      · exact Or.inr ⟨q, List.mem_cons_self .., e⟩
      · rw [if_neg e] at h0; exact Or.inl ⟨vs0, h0⟩
    · exact Or.inr ⟨p, List.mem_cons_of_mem _ hp, e⟩

/-- The pairs a call keeps of its requests. -/
def keptAll (ig : Bool) : Bool → List ExRequest → List (List (Str × Str × Str))
  | _, [] => []
  | drop, r :: rest =>
    let drop := drop || (ig && mentionsYearMonthDate r.request.toList)
    keptPairs drop r.request.toList :: keptAll ig drop rest

theorem unionAll_eq (ig drop : Bool) (u : Union) (rs : List ExRequest) :
    unionAll ig drop u rs = (keptAll ig drop rs).foldl addUnion u := by
  induction rs generalizing drop u with
  | nil => rfl
  | cons r rs ih => rw [unionAll, ih]; rfl

theorem foldl_addUnion_mono (pss : List (List (Str × Str × Str))) (u : Union) {k : Str} {vs : List Str} {v : Str}
    (h : u.find k = some vs) (hv : v ∈ vs) : ∃ vs', (pss.foldl addUnion u).find k = some vs' ∧ v ∈ vs' := by
  induction pss generalizing u vs with
  | nil => exact ⟨vs, h, hv⟩
  | cons ps pss ih =>
    obtain ⟨vs', h1, h2⟩ := addUnion_mono u ps h hv
    exact ih _ h1 h2

theorem foldl_addUnion_mem (pss : List (List (Str × Str × Str))) (u : Union) {ps : List (Str × Str × Str)} (h : ps ∈ pss)
    {p : Str × Str × Str} (hp : p ∈ ps) : ∃ vs, (pss.foldl addUnion u).find p.2.1 = some vs ∧ p.2.2 ∈ vs := by
  induction pss generalizing u with
  | nil => cases h
  | cons q pss ih =>
    rcases List.mem_cons.mp h with rfl | h
    · obtain ⟨vs, h1, h2⟩ := addUnion_mem u ps hp
      exact foldl_addUnion_mono pss _ h1 h2
    · exact ih _ h

theorem foldl_addUnion_keys (pss : List (List (Str × Str × Str))) (u : Union) {k : Str} {vs : List Str}
    (h : (pss.foldl addUnion u).find k = some vs) : (∃ vs0, u.find k = some vs0) ∨ ∃ ps ∈ pss, ∃ p ∈ ps, p.2.1 = k := by
  induction pss generalizing u with
  | nil => exact Or.inl ⟨vs, h⟩
  | cons q pss ih =>
    rcases ih _ h with ⟨vs0, h0⟩ | ⟨ps, hps, hp⟩
    · rcases addUnion_keys u q h0 with h | h
      · exact Or.inl h
      · exact Or.inr ⟨q, List.mem_cons_self .., h⟩
    · exact Or.inr ⟨ps, List.mem_cons_of_mem _ hps, hp⟩

theorem keptAll_get (ig drop : Bool) (rs : List ExRequest) (i : Nat) (h : i < rs.length) :
    ∃ d, (d = true → (drop = true ∨ ig = true)) ∧
      (keptAll ig drop rs)[i]? =
        some (keptPairs (d || (ig && mentionsYearMonthDate rs[i].request.toList)) rs[i].request.toList) := by
  induction rs generalizing drop i with
  | nil => cases h
  | cons r rs ih =>
    cases i with
    | zero => exact ⟨drop, Or.inl, rfl⟩
    | succ i =>
      obtain ⟨d, hd, e⟩ := ih (drop || (ig && mentionsYearMonthDate r.request.toList)) i (by simpa using h)
      refine ⟨d, ?_, ?_⟩
      · intro h1
        rcases hd h1 with h2 | h2
        · rw [Bool.or_eq_true, Bool.and_eq_true] at h2
          rcases h2 with h2 | h2
          · exact Or.inl h2
          · exact Or.inr h2.1
        · exact Or.inr h2
      · simp only [keptAll, List.getElem?_cons_succ, List.getElem_cons_succ]
        exact e

theorem keptAll_length (ig drop : Bool) (rs : List ExRequest) : (keptAll ig drop rs).length = rs.length := by
  induction rs generalizing drop with
  | nil => rfl
  | cons r rs ih => simp only [keptAll, List.length_cons, ih]

theorem keptAll_written (ig : Bool) {rs : List ExRequest} {ws : List WrittenRequest} (h : Written rs ws) (i : Nat)
    (hi : i < rs.length) (hj : i < ws.length) :
    (keptAll ig false rs)[i]? = some ((essential ig ws[i].pairs).map fun p => (pairText p, p.1, p.2)) := by
  obtain ⟨d, hd, e⟩ := keptAll_get ig false rs i hi
  have hw := h.2 ws[i] (List.getElem_mem hj)
  rw [e, written_get h i hi hj, keptPairs_text _ _ _ hw.1 hw.2.1.1, kept_essential ig d _ _ hw.2.2]
  intro h1
  rcases hd h1 with h2 | h2
  · cases h2
  · exact h2

/-- The union request of a call selects the field of each of its requests, provided all requests use the same names. -/
theorem union_selects {ig : Bool} {rs : List ExRequest} {ws : List WrittenRequest} (hw : Written rs ws)
    (hsame : ∀ a ∈ ws, ∀ b ∈ ws, ∀ k, k ∈ (essential ig a.pairs).map Prod.fst → k ∈ (essential ig b.pairs).map Prod.fst)
    (i : Nat) (hj : i < ws.length) (e : FdbKey) (h : SameField ig ws[i].pairs e) :
    Selected ig (unionAll ig false [] rs) e := by
  intro k vs hk
  have hi : i < rs.length := by rw [← written_length hw]; exact hj
  rw [unionAll_eq] at hk
  rcases foldl_addUnion_keys _ _ hk with ⟨vs0, h0⟩ | ⟨ps, hps, p, hp, hpk⟩
  · cases h0
  · obtain ⟨j, hjl⟩ := List.getElem?_of_mem hps
    have hjr : j < rs.length := by
      rw [← keptAll_length ig false rs]; exact (List.getElem?_eq_some_iff.mp hjl).1
    have hjw : j < ws.length := by rw [written_length hw]; exact hjr
    rw [keptAll_written ig hw j hjr hjw, Option.some.injEq] at hjl
    subst hjl
    obtain ⟨q, hq, rfl⟩ := List.mem_map.mp hp
    simp only [] at hpk
    -- the name occurs in request i as well, with a value of its own
    have hki : k ∈ (essential ig ws[i].pairs).map Prod.fst :=
      hsame ws[j] (List.getElem_mem hjw) ws[i] (List.getElem_mem hj) k
        (by rw [← hpk]; exact List.mem_map.mpr ⟨q, hq, rfl⟩)
    obtain ⟨q', hq', hqk⟩ := List.mem_map.mp hki
    have hmem : ((essential ig ws[i].pairs).map fun p => (pairText p, p.1, p.2)) ∈ keptAll ig false rs :=
      List.mem_of_getElem? (keptAll_written ig hw i hi hj)
    obtain ⟨vs', h1, h2⟩ := foldl_addUnion_mem (keptAll ig false rs) [] hmem
      (p := (pairText q', q'.1, q'.2)) (List.mem_map.mpr ⟨q', hq', rfl⟩)
    simp only [] at h1 h2
    rw [hqk, hk, Option.some.injEq] at h1
    subst h1
    refine ⟨q'.2, h2, ?_⟩
    rw [← hqk]
    exact h.mem_iff.mp hq'

/-- **C29, C27.** A call succeeds whenever it should: its requests name different fields of the catalogue with the same
names, the catalogue finds what a union request selects, and the files answer. -/
theorem C29_catalogued_fields_are_found (E : ExtEnv) (C : EngineConf) (info : String → Nat → Info)
    (cat : List (FdbKey × Uri)) (hcat : Catalogue C.ignoreYearMonth cat) (hl : ListsOnly E cat)
    (hall : ListsAll C.ignoreYearMonth E cat) (sched : List Nat) (rs : List ExRequest) (ws : List WrittenRequest)
    (hw : Written rs ws) (hne : rs ≠ []) (hf : C.forward = false)
    (hdiff : ws.Pairwise fun a b => ¬ (essential C.ignoreYearMonth a.pairs).Perm (essential C.ignoreYearMonth b.pairs))
    (hsame : ∀ a ∈ ws, ∀ b ∈ ws, ∀ k, k ∈ (essential C.ignoreYearMonth a.pairs).map Prod.fst →
      k ∈ (essential C.ignoreYearMonth b.pairs).map Prod.fst)
    (hfound : ∀ i (hi : i < rs.length) (hj : i < ws.length), ∃ e ∈ cat,
      SameField C.ignoreYearMonth ws[i].pairs e.1 ∧ e.2.scheme ≠ "fdb" ∧
      (C.ignoreGrid = true ∨
        (rs[i].gridHash ≠ "" ∧ rs[i].gridHash = (info e.2.path e.2.offset).base.md5GridSection)) ∧
      (∀ t offs, E.infos t e.2.path offs = .ok (offs.map (info e.2.path))) ∧
      ∀ t, ∃ r, E.jump t e.2.path e.2.offset (info e.2.path e.2.offset) rs[i].ranges = .ok r) :
    ∃ out, localExtract E C sched rs = .ok out := by
  have hnd : ((canonAll C.ignoreYearMonth false rs).map ExRequest.request).Nodup := by
    obtain ⟨r, hr⟩ := (C28_duplicates_rejected C.ignoreYearMonth rs ws hw).2.mpr hdiff
    rw [buildRequestMap_eq] at hr
    split at hr
    · assumption
    · cases hr
  obtain ⟨L, hL, hsel⟩ := hall (unionAll C.ignoreYearMonth false [] rs)
  obtain ⟨hLc, hLn⟩ := hl _ L hL
  have hd := texts_nodup hcat hLc hLn
  -- every request is matched
  have hmatch : ∀ r ∈ canonAll C.ignoreYearMonth false rs, ∃ i, ∃ (hi : i < rs.length), ∃ e ∈ L,
      entryText C.ignoreYearMonth e = r.request ∧ r.ranges = rs[i].ranges ∧ r.gridHash = rs[i].gridHash ∧
      e.2.scheme ≠ "fdb" ∧
      (C.ignoreGrid = true ∨
        (rs[i].gridHash ≠ "" ∧ rs[i].gridHash = (info e.2.path e.2.offset).base.md5GridSection)) ∧
      (∀ t offs, E.infos t e.2.path offs = .ok (offs.map (info e.2.path))) ∧
      ∀ t, ∃ x, E.jump t e.2.path e.2.offset (info e.2.path e.2.offset) rs[i].ranges = .ok x := by
    intro r hr
    obtain ⟨i, hi⟩ := List.getElem?_of_mem hr
    have hir : i < rs.length := by
      rw [← canonAll_length C.ignoreYearMonth false rs]; exact (List.getElem?_eq_some_iff.mp hi).1
    have hj : i < ws.length := by rw [written_length hw]; exact hir
    obtain ⟨r', hri, hrr, hrg, hiff⟩ := canon_at hw i hir hj hcat
    rw [hi, Option.some.injEq] at hri
    subst hri
    obtain ⟨e, he, hs, h1, h2, h3, h4⟩ := hfound i hir hj
    exact ⟨i, hir, e, hsel e he (union_selects hw hsame i hj e.1 hs), (hiff e he).mpr hs, hrr, hrg, h1, h2, h3, h4⟩
  obtain ⟨m1, fm1, h1, h2, h3, h4⟩ := listLoop_spec C.ignoreYearMonth L
      (entriesOf (canonAll C.ignoreYearMonth false rs)) [] 0 [] hd (fun _ _ h => by cases h) (Groups.nil _)
  have hperm : ((L.filter fun e => decide (entryText C.ignoreYearMonth e ∈
      (entriesOf (canonAll C.ignoreYearMonth false rs)).keys)).map (entryText C.ignoreYearMonth)).Perm
      (entriesOf (canonAll C.ignoreYearMonth false rs)).keys := by
    rw [List.perm_ext_iff_of_nodup (nodup_filter_map hd _) (by rw [entriesOf_keys]; exact hnd)]
    intro k
    constructor
    · intro hk
      obtain ⟨e, he, rfl⟩ := List.mem_map.mp hk
      rw [List.mem_filter, decide_eq_true_iff] at he
      exact he.2
    · intro hk
      have hk' := hk
      rw [entriesOf_keys] at hk'
      obtain ⟨r, hr, rfl⟩ := List.mem_map.mp hk'
      obtain ⟨i, hi, e, he, her, -⟩ := hmatch r hr
      refine List.mem_map.mpr ⟨e, List.mem_filter.mpr ⟨he, ?_⟩, her⟩
      rw [decide_eq_true_iff, her]
      exact hk
  have hfm : fileMap C L (entriesOf (canonAll C.ignoreYearMonth false rs)) = .ok (m1, fm1) := by
    rw [fileMap, h1]
    simp only []
    rw [if_neg]
    rintro ⟨hc, -⟩
    apply hc
    have := hperm.length_eq
    rw [List.length_map] at this
    rw [Nat.zero_add, this, AMap.keys, List.length_map]
  have p : Planned E C rs L m1 fm1 := ⟨hnd, hL, hfm⟩
  obtain ⟨-, -, hkeys, hfind, g, ho, -⟩ := planned_spec hcat hl p
  obtain ⟨hmn, hmr⟩ := planned_requests hcat hl p
  have hkey : ∀ k ∈ (L.filter fun e => decide (entryText C.ignoreYearMonth e ∈ m1.keys)).map (entryText C.ignoreYearMonth),
      ∃ r ∈ canonAll C.ignoreYearMonth false rs, r.request = k := by
    intro k hk
    obtain ⟨e, he, rfl⟩ := List.mem_map.mp hk
    rw [List.mem_filter, decide_eq_true_iff, hkeys] at he
    obtain ⟨r, hr, h⟩ := List.mem_map.mp he.2
    exact ⟨r, hr, h⟩
  obtain ⟨m', hsch⟩ := scheduleTasks_ok (E := E) (C := C) (info := info) (sched := sched) g (by
      intro hnil
      cases hrs : rs with
      | nil => exact hne hrs
      | cons r0 rest =>
        have h0 : 0 < rs.length := by rw [hrs]; simp
        obtain ⟨r, hr⟩ : ∃ r, r ∈ canonAll C.ignoreYearMonth false rs := by
          have : 0 < (canonAll C.ignoreYearMonth false rs).length := by rw [canonAll_length]; exact h0
          exact ⟨_, List.getElem_mem this⟩
        obtain ⟨i, hi, e, he, her, -⟩ := hmatch r hr
        have : r.request ∈ (L.filter fun e => decide (entryText C.ignoreYearMonth e ∈ m1.keys)).map
            (entryText C.ignoreYearMonth) := by
          refine List.mem_map.mpr ⟨e, List.mem_filter.mpr ⟨he, ?_⟩, her⟩
          rw [decide_eq_true_iff, her, hkeys]
          exact List.mem_map.mpr ⟨r, hr, rfl⟩
        rw [hnil] at this
        cases this) (by
      intro k hk it hit
      obtain ⟨r, hr, rfl⟩ := hkey k hk
      obtain ⟨i, hi, e, he, her, -, -, hs, -⟩ := hmatch r hr
      rw [hfind r hr, Option.some.injEq, placeItem_spec hd _ he her] at hit
      rw [← hit]
      exact hs) (by
      intro k hk it hit
      obtain ⟨r, hr, rfl⟩ := hkey k hk
      obtain ⟨i, hi, e, he, her, hrr, hrg, hs, h5, h6, h7⟩ := hmatch r hr
      rw [hfind r hr, Option.some.injEq, placeItem_spec hd _ he her] at hit
      rw [← hit]
      refine ⟨?_, h6, ?_⟩
      · show gridCheck C.ignoreGrid r.gridHash _ = _
        rw [hrg, gridCheck]
        rcases h5 with h5 | ⟨h5, h5'⟩
        · simp [h5]
        · simp only [h5, decide_false, Bool.and_false, Bool.false_eq_true, if_false]
          rw [if_neg]
          simp [h5']
      · intro t
        show ∃ x, E.jump t e.2.path e.2.offset (info e.2.path e.2.offset) r.ranges = _
        rw [hrr]
        exact h7 t)
  have hE : Produces E C C.forward (fun _ _ _ => True) :=
    ⟨fun _ _ _ _ _ _ _ _ _ _ _ _ _ _ _ _ => trivial, fun _ _ _ _ _ _ _ => trivial, fun h => by rw [hf] at h; cases h⟩
  rw [← hf] at hsch
  obtain ⟨-, hsm, hres⟩ := scheduleTasks_spec hE g ho hsch
  obtain ⟨hn', hr'⟩ := same_requests hsm hmr hmn
  obtain ⟨out, hout⟩ := collectLoop_ok (m := m') hnd (by
    intro r hr
    have hk : r.request ∈ (L.filter fun e => decide (entryText C.ignoreYearMonth e ∈ m1.keys)).map
        (entryText C.ignoreYearMonth) := by
      obtain ⟨i, hi, e, he, her, -⟩ := hmatch r hr
      refine List.mem_map.mpr ⟨e, List.mem_filter.mpr ⟨he, ?_⟩, her⟩
      rw [decide_eq_true_iff, her, hkeys]
      exact List.mem_map.mpr ⟨r, hr, rfl⟩
    obtain ⟨it, x, h1, h2, -⟩ := hres _ hk
    exact ⟨it, x, h1, h2⟩)
  refine ⟨out, ?_⟩
  rw [localExtract, engineExtract, buildRequestMap_eq, if_pos hnd, ok_bind]
  simp only []
  rw [hL, ok_bind, hfm, ok_bind]
  simp only []
  rw [hsch, ok_bind]
  simp only [ok_bind]
  rw [if_neg (by simp), collectResults_eq m' hn' hr']
  have hlen : m'.length = (canonAll C.ignoreYearMonth false rs).length := by
    have := congrArg List.length (hsm.keys.trans hkeys)
    rw [AMap.keys, List.length_map, List.length_map] at this
    exact this
  rw [cassert, if_pos (by rw [decide_eq_true_iff]; exact hlen), ok_bind]
  exact hout

/-! ## C30 -/

/-- **C30.** Fields are grouped by file exactly: after listing, every matched request is in the group of the file its
field is in, and in no other place; there is one group per file and no empty group. -/
theorem C30_grouped_by_file (E : ExtEnv) (C : EngineConf) (cat : List (FdbKey × Uri))
    (hcat : Catalogue C.ignoreYearMonth cat) (hl : ListsOnly E cat) (rs rs' : List ExRequest) (u : Union)
    (m0 m : ItemMap) (L : List (FdbKey × Uri)) (fm : KeyMap)
    (h1 : buildRequestMap C.ignoreYearMonth rs = .ok (rs', u, m0)) (h2 : E.list u = .ok L)
    (h3 : fileMap C L m0 = .ok (m, fm)) :
    fm.keys.Nodup ∧ (∀ g ∈ fm, g.2 ≠ []) ∧ (fm.flatMap Prod.snd).Nodup ∧
    (∀ k f, (∃ ks, (f, ks) ∈ fm ∧ k ∈ ks) ↔
      (∃ r ∈ rs', r.request = k) ∧ ∃ e ∈ L, String.ofList (fdbkeyToStr C.ignoreYearMonth e.1) = k ∧ e.2.path = f) ∧
    (∀ g ∈ fm, ∀ k ∈ g.2, ∃ e ∈ L, String.ofList (fdbkeyToStr C.ignoreYearMonth e.1) = k ∧
      (m.find k).map (fun it => it.uri) = some e.2) := by
  rw [buildRequestMap_eq] at h1
  split at h1
  · rename_i hn
    cases h1
    have p : Planned E C rs L m fm := ⟨hn, h2, h3⟩
    obtain ⟨hd, hL, hkeys, hfind, g, ho, -⟩ := planned_spec hcat hl p
    have hplace : ∀ r ∈ canonAll C.ignoreYearMonth false rs, ∀ e ∈ L, entryText C.ignoreYearMonth e = r.request →
        (m.find r.request).map (fun it => it.uri) = some e.2 := by
      intro r hr e he her
      rw [hfind r hr, placeItem_spec hd _ he her]
      rfl
    refine ⟨g.files, g.nonempty, (g.part.nodup_iff).mpr (nodup_filter_map hd _), ?_, ?_⟩
    · intro k f
      constructor
      · rintro ⟨ks, hks, hk⟩
        obtain ⟨e, he, hek⟩ := List.mem_map.mp (g.mem_done hks hk)
        rw [List.mem_filter, decide_eq_true_iff, hkeys] at he
        obtain ⟨r, hr, hre⟩ := List.mem_map.mp he.2
        refine ⟨⟨r, hr, hre.trans hek⟩, e, he.1, hek, ?_⟩
        obtain ⟨it, hit, hp⟩ := g.path _ hks k hk
        have := hplace r hr e he.1 hre.symm
        rw [hre, hek, hit, Option.map_some, Option.some.injEq] at this
        rw [← this]; exact hp
      · rintro ⟨⟨r, hr, rfl⟩, e, he, hek, rfl⟩
        have hdone : r.request ∈ (L.filter fun e => decide (entryText C.ignoreYearMonth e ∈ m.keys)).map
            (entryText C.ignoreYearMonth) := by
          refine List.mem_map.mpr ⟨e, List.mem_filter.mpr ⟨he, ?_⟩, hek⟩
          rw [decide_eq_true_iff, hkeys]
          exact List.mem_map.mpr ⟨r, hr, hek.symm⟩
        obtain ⟨x, hx, hkx⟩ := List.mem_flatMap.mp (g.part.mem_iff.mpr hdone)
        obtain ⟨it, hit, hp⟩ := g.path x hx _ hkx
        have := hplace r hr e he hek
        rw [hit, Option.map_some, Option.some.injEq] at this
        rw [← this, hp]
        exact ⟨x.2, hx, hkx⟩
    · intro x hx k hk
      obtain ⟨e, he, hek⟩ := List.mem_map.mp (g.mem_done hx hk)
      rw [List.mem_filter, decide_eq_true_iff, hkeys] at he
      obtain ⟨r, hr, hre⟩ := List.mem_map.mp he.2
      refine ⟨e, he.1, hek, ?_⟩
      have := hplace r hr e he.1 hre.symm
      rw [hre, hek] at this
      exact this
  · cases h1

end GJ
