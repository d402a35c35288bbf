import Verif.Model.PyRequest
import Verif.Spec.PyRequest
import Verif.Props.C28
import Verif.Props.C50
import Verif.Props.C53
import Verif.Props.C57
import Verif.Props.C58

/-!
# C62: a Python request reaches the library as it was written

Requests are accepted exactly if their ranges can be asked for; ranges, grid hash and dictionary reach the library, and
the dictionary is matched with the field it names.
-/

namespace GJ

open Spec

/-- A pair of Python integers as an interval. -/
def asked (rs : List (Int × Int)) : List Interval := rs.map fun r => ⟨r.1.toNat, r.2.toNat⟩

theorem pyToSizeT_ok {n : Int} {v : Nat} (h : pyToSizeT n = .ok v) : 0 ≤ n ∧ n < 2 ^ 64 ∧ v = n.toNat := by
  rw [pyToSizeT] at h
  split at h
  · rename_i hn
    exact ⟨hn.1, hn.2, (Except.ok.inj h).symm⟩
  · cases h

theorem pyFlatRanges_ok {rs : List (Int × Int)} : ∀ {flat : List Nat}, pyFlatRanges rs = .ok flat →
    (∀ r ∈ rs, 0 ≤ r.1 ∧ r.1 < r.2 ∧ r.2 < 2 ^ 64) ∧ flat = rs.flatMap fun r => [r.1.toNat, r.2.toNat] := by
  induction rs with
  | nil => intro flat h; have := Except.ok.inj h; exact ⟨by simp, this.symm⟩
  | cons r rest ih =>
    intro flat h
    rw [pyFlatRanges] at h
    by_cases hr : r.1 < r.2
    · rw [if_pos hr] at h
      obtain ⟨lo, h1, h⟩ := res_bind_inv h
      obtain ⟨hi, h2, h⟩ := res_bind_inv h
      obtain ⟨f, h3, h⟩ := res_bind_inv h
      have e := Except.ok.inj h
      obtain ⟨h4, h5⟩ := ih h3
      obtain ⟨a1, -, a3⟩ := pyToSizeT_ok h1
      obtain ⟨-, b2, b3⟩ := pyToSizeT_ok h2
      refine ⟨?_, ?_⟩
      · intro x hx
        rcases List.mem_cons.mp hx with rfl | hx
        · exact ⟨a1, hr, b2⟩
        · exact h4 x hx
      · rw [← e, List.flatMap_cons, ← h5, a3, b3]; rfl
    · rw [if_neg hr] at h; cases h

theorem pyFlatRanges_of {rs : List (Int × Int)} (h : ∀ r ∈ rs, 0 ≤ r.1 ∧ r.1 < r.2 ∧ r.2 < 2 ^ 64) :
    pyFlatRanges rs = .ok (rs.flatMap fun r => [r.1.toNat, r.2.toNat]) := by
  induction rs with
  | nil => rfl
  | cons r rest ih =>
    obtain ⟨h1, h2, h3⟩ := h r (List.mem_cons_self ..)
    rw [pyFlatRanges, if_pos h2, pyToSizeT, if_pos ⟨h1, by omega⟩, ok_bind, pyToSizeT, if_pos ⟨by omega, h3⟩, ok_bind,
      ih fun x hx => h x (List.mem_cons_of_mem _ hx), ok_bind]
    rfl

theorem pyFlatRangesUnchecked_of {rs : List (Int × Int)} (h : ∀ r ∈ rs, 0 ≤ r.1 ∧ r.1 < 2 ^ 64 ∧ 0 ≤ r.2 ∧ r.2 < 2 ^ 64) :
    pyFlatRangesUnchecked rs = .ok (rs.flatMap fun r => [r.1.toNat, r.2.toNat]) := by
  induction rs with
  | nil => rfl
  | cons r rest ih =>
    obtain ⟨h1, h2, h3, h4⟩ := h r (List.mem_cons_self ..)
    rw [pyFlatRangesUnchecked, pyToSizeT, if_pos ⟨h1, h2⟩, ok_bind, pyToSizeT, if_pos ⟨h3, h4⟩, ok_bind,
      ih fun x hx => h x (List.mem_cons_of_mem _ hx), ok_bind]
    rfl

theorem flat_get (rs : List (Int × Int)) (i : Nat) (hi : i < rs.length) :
    cPair (rs.flatMap fun r => [r.1.toNat, r.2.toNat]) (2 * i) = .ok ⟨rs[i].1.toNat, rs[i].2.toNat⟩ := by
  induction rs generalizing i with
  | nil => cases hi
  | cons r rest ih =>
    cases i with
    | zero => rfl
    | succ i =>
      have h := ih i (by simpa using hi)
      rw [cPair] at h ⊢
      rw [List.flatMap_cons, show 2 * (i + 1) = 2 * i + 1 + 1 by omega]
      simpa using h

theorem cRanges_flat (rs : List (Int × Int)) :
    cRanges (rs.flatMap fun r => [r.1.toNat, r.2.toNat]) (rs.length * 2) = .ok (asked rs) := by
  rw [cRanges, if_pos (by omega), Nat.mul_div_cancel _ (by decide),
    mapM_ok _ (fun i => ⟨(rs[i]?.getD (0, 0)).1.toNat, (rs[i]?.getD (0, 0)).2.toNat⟩)]
  · congr 1
    apply List.ext_getElem
    · simp [asked]
    · intro i h1 h2
      have hi : i < rs.length := by simpa [asked] using h2
      simp [asked, List.getElem?_eq_getElem hi]
  · intro i hi
    have hi := List.mem_range.mp hi
    rw [flat_get rs i hi, List.getElem?_eq_getElem hi]
    rfl

/-- **C62, acceptance.**  A request is accepted exactly if its ranges can be asked for, whatever the dictionary and the
grid hash. -/
theorem C62_accepted_iff (dic : List (Str × Str)) (rs : List (Int × Int)) (hash : Option Str) :
    (∃ r, pyNewRequest none dic rs hash = .ok r) ↔ AskableRanges rs := by
  constructor
  · rintro ⟨r, h⟩
    rw [pyNewRequest] at h
    by_cases he : rs = []
    · rw [if_pos he] at h; cases h
    · rw [if_neg he] at h
      obtain ⟨flat, h1, h⟩ := res_bind_inv h
      exact ⟨he, (pyFlatRanges_ok h1).1⟩
  · rintro ⟨he, h⟩
    rw [pyNewRequest, if_neg he, pyFlatRanges_of h, ok_bind, cNewRequest, cRanges_flat, ok_bind]
    exact ⟨_, rfl⟩

/-- What a request that is accepted hands to the library. -/
theorem pyNewRequest_ok {parsing : Option (Str → Res Str)} {dic : List (Str × Str)} {rs : List (Int × Int)}
    {hash : Option Str} {r : PyRequest} (h : pyNewRequest parsing dic rs hash = .ok r) :
    AskableRanges rs ∧ r.c.ranges = asked rs ∧ r.c.gridHash = cHash hash ∧ r.shape = pySizes rs ∧
    (parsing = none → r.c.request = String.ofList (cstr ("retrieve,".toList ++ dicToRequest dic))) := by
  rw [pyNewRequest] at h
  by_cases he : rs = []
  · rw [if_pos he] at h; cases h
  · rw [if_neg he] at h
    obtain ⟨flat, h1, h⟩ := res_bind_inv h
    obtain ⟨h2, h3⟩ := pyFlatRanges_ok h1
    rw [cNewRequest, h3, cRanges_flat] at h
    cases parsing with
    | none =>
      have e := Except.ok.inj h
      subst e
      exact ⟨⟨he, h2⟩, rfl, rfl, rfl, fun _ => rfl⟩
    | some parse =>
      obtain ⟨c, hc, h⟩ := res_bind_inv h
      obtain ⟨text, -, hc⟩ := res_bind_inv (show (parse _ >>= fun text => _) = _ from hc)
      have e := Except.ok.inj h
      have e' := Except.ok.inj hc
      subst e; subst e'
      exact ⟨⟨he, h2⟩, rfl, rfl, rfl, fun h => by cases h⟩

theorem pyJoin_commas (l : List Str) : pyJoin ',' l = commas l := by
  induction l with
  | nil => rfl
  | cons p rest ih =>
    cases rest with
    | nil => rfl
    | cons q rest => rw [pyJoin, commas, ih]

theorem dicToRequest_text (dic : List (Str × Str)) (h : dic ≠ []) :
    "retrieve,".toList ++ dicToRequest dic = requestText ["retrieve".toList] dic := by
  have hp : (dic.map fun kv => pyJoin '=' [kv.1, kv.2]) = dic.map pairText := rfl
  rw [dicToRequest, pyJoin_commas, hp, requestText]
  cases dic with
  | nil => exact absurd rfl h
  | cons p rest =>
    have e : "retrieve,".toList = "retrieve".toList ++ [','] := by decide +kernel
    rw [e, List.append_assoc]
    rfl

theorem cstr_id {s : Str} (h : Char.ofNat 0 ∉ s) : cstr s = s := by
  rw [cstr]
  induction s with
  | nil => rfl
  | cons c rest ih =>
    rw [List.takeWhile_cons_of_pos, ih fun hc => h (List.mem_cons_of_mem _ hc)]
    exact decide_eq_true fun e => h (by rw [← e]; exact List.mem_cons_self ..)

theorem mem_commas {c : Char} (l : List Str) : c ∈ commas l → c = ',' ∨ ∃ p ∈ l, c ∈ p := by
  induction l with
  | nil => intro h; cases h
  | cons p rest ih =>
    cases rest with
    | nil => intro h; exact Or.inr ⟨p, List.mem_cons_self .., h⟩
    | cons q rest =>
      intro h
      rw [commas] at h
      rcases List.mem_append.mp h with h | h
      · exact Or.inr ⟨p, List.mem_cons_self .., h⟩
      · rcases List.mem_cons.mp h with h | h
        · exact Or.inl h
        · rcases ih h with h | ⟨x, hx, h⟩
          · exact Or.inl h
          · exact Or.inr ⟨x, List.mem_cons_of_mem _ hx, h⟩

theorem nul_notin_request (dic : List (Str × Str)) (h : ∀ p ∈ dic, Char.ofNat 0 ∉ p.1 ∧ Char.ofNat 0 ∉ p.2) :
    Char.ofNat 0 ∉ requestText ["retrieve".toList] dic := by
  intro hc
  rcases mem_commas _ hc with hc | ⟨p, hp, hc⟩
  · exact absurd hc (by decide)
  · rcases List.mem_append.mp hp with hp | hp
    · rw [List.mem_singleton.mp hp] at hc
      exact absurd hc (by decide +kernel)
    · obtain ⟨q, hq, e⟩ := List.mem_map.mp hp
      rw [← e, pairText] at hc
      rcases List.mem_append.mp hc with hc | hc
      · exact (h q hq).1 hc
      · rcases List.mem_cons.mp hc with hc | hc
        · exact absurd hc (by decide)
        · exact (h q hq).2 hc

/-- **C62, what reaches the library.**  The ranges, the grid hash (none: the empty one) and the text of the dictionary are
passed on as they are, and the shape to unpack the result by is that of the ranges. -/
theorem C62_passed_on (dic : List (Str × Str)) (rs : List (Int × Int)) (hash : Option Str) (r : PyRequest)
    (named : FieldDict dic) (clean : ∀ h, hash = some h → Char.ofNat 0 ∉ h)
    (accepted : pyNewRequest none dic rs hash = .ok r) :
    r.c = ⟨String.ofList (requestText ["retrieve".toList] dic), rs.map fun r => ⟨r.1.toNat, r.2.toNat⟩,
      String.ofList (hash.getD [])⟩ ∧ r.shape = pyShape r.c.ranges := by
  obtain ⟨hask, h1, h2, h3, h4⟩ := pyNewRequest_ok accepted
  have h4 := h4 rfl
  rw [dicToRequest_text dic named.1, cstr_id (nul_notin_request dic named.2.2.2)] at h4
  have h2' : r.c.gridHash = String.ofList (hash.getD []) := by
    rw [h2]
    cases hash with
    | none => rfl
    | some x => rw [cHash, cstr_id (clean x rfl)]; rfl
  refine ⟨?_, ?_⟩
  · rw [← h4, ← h2']
    show r.c = ⟨r.c.request, asked rs, r.c.gridHash⟩
    rw [← h1]
  · rw [h3, h1, pySizes, pyShape, asked, List.map_map]
    apply List.map_congr_left
    intro x hx
    obtain ⟨a, b, -⟩ := hask.2 x hx
    simp only [Function.comp]
    omega

theorem retrieve_clean : Clean "retrieve".toList := ⟨by decide +kernel, by decide +kernel, by decide +kernel⟩

theorem pyUnpack_written {items : List PyItem} {reqs : List PyRequest} (named : ∀ it ∈ items, FieldDict it.1)
    (h : pyUnpack none items = .ok reqs) :
    Written (reqs.map PyRequest.c) (items.map fun it => ⟨["retrieve".toList], it.1⟩) := by
  refine ⟨?_, ?_⟩
  · rw [List.map_map, List.map_map]
    apply List.ext_getElem?
    intro i
    rw [List.getElem?_map, List.getElem?_map]
    have hlen := mapM_length h
    by_cases hi : i < items.length
    · have h1 := List.getElem?_eq_getElem hi
      have h2 := List.getElem?_eq_getElem (l := reqs) (i := i) (by omega)
      have h3 := mapM_getElem h h1 h2
      have hn := named _ (List.getElem_mem hi)
      obtain ⟨-, -, -, -, h4⟩ := pyNewRequest_ok h3
      rw [h1, h2, Option.map_some, Option.map_some, Function.comp, h4 rfl, dicToRequest_text _ hn.1,
        cstr_id (nul_notin_request _ hn.2.2.2)]
      rfl
    · rw [List.getElem?_eq_none (by omega), List.getElem?_eq_none (by omega)]
      rfl
  · intro w hw
    obtain ⟨it, hit, e⟩ := List.mem_map.mp hw
    have hn := named it hit
    subst e
    refine ⟨?_, hn.2.1, hn.2.2.1⟩
    intro x hx
    rw [List.mem_singleton.mp hx]
    exact retrieve_clean

/-- **C62, the field.**  The dictionary of a request is matched with a catalogue entry if and only if they name the same
field: the order of the items does not matter, nor do the other requests of the call. -/
theorem C62_dictionary_names_field_partial (ig : Bool) (items : List PyItem) (named : ∀ it ∈ items, FieldDict it.1)
    (reqs : List PyRequest) (made : pyUnpack none items = .ok reqs) (rs' : List ExRequest) (u : Union) (m : ItemMap)
    (h : buildRequestMap ig (reqs.map PyRequest.c) = .ok (rs', u, m)) (i : Nat) (hi : i < rs'.length)
    (hj : i < items.length) (entry : FdbKey) (he : GoodEntry entry) :
    rs'[i].request = String.ofList (fdbkeyToStr ig entry) ↔ SameField ig items[i].1 entry := by
  have hk : i < (items.map fun it => (⟨["retrieve".toList], it.1⟩ : WrittenRequest)).length := by simpa using hj
  have := C28_match_iff_same_field_partial ig _ rs' u m _ (pyUnpack_written named made) h i hi hk entry he
  simpa using this

/-- **C62, from dictionary to arrays.**  A Python user asks a node with any history for fields and unpacks the results.  If
this returns, there is one entry per request, in order, and it holds exactly what decoding the one matching message of the
catalogue gives in the ranges asked for.  Missing from the full property: what is missing in C50. -/
theorem C62_dictionary_to_arrays_partial (E : ExtEnv) (C : EngineConf) (R : Reader UInt64) (sound : SoundReader R)
    (offs : List UInt8 → Res (List Nat)) (hoffs : ∀ file, offs file ≠ undef) (U : String → Prop) (d : Disk)
    (mode : CacheMode) (lazy : Bool) (cap : Nat) (fs : FS) (apart : ToldApart mode U) (room : 0 < cap)
    (agree : GoodIndex (diskWorld R offs d) U mode fs) (es : List SEv) (allowed : ∀ e ∈ es, e.Allowed U)
    (s : Svc UInt64) (history : (Svc.start R offs d mode lazy cap fs).run R offs es = .ok s) (S : Store)
    (stored : Uri → List UInt8) (node : Behind E C R s S stored) (cat : List (FdbKey × Uri))
    (catalogue : Catalogue C.ignoreYearMonth cat) (lists : ListsOnly E cat) (sched : List Nat)
    (strict : C.allowMissing = false) (zero : UInt64) (items : List PyItem) (named : ∀ it ∈ items, FieldDict it.1)
    (out : List (List (List (List UInt64 × List Nat))))
    (returned : pyExtractDump zero none (localExtract E C sched) items = .ok out) :
    out.length = items.length ∧ ∀ i (hi : i < items.length),
      ∃ e ∈ cat, SameField C.ignoreYearMonth items[i].1 e.1 ∧
        (∀ e' ∈ cat, SameField C.ignoreYearMonth items[i].1 e'.1 → e' = e) ∧
        ∃ r, FieldAt R s.disk stored e.2 (items[i].2.1.map fun r => ⟨r.1.toNat, r.2.toNat⟩) r ∧
          out[i]? = some [r.values.zip r.mask] := by
  rw [pyExtractDump] at returned
  by_cases hemp : items = []
  · rw [if_pos hemp] at returned; cases returned
  rw [if_neg hemp] at returned
  obtain ⟨reqs, h1, returned⟩ := res_bind_inv returned
  obtain ⟨results, h2, returned⟩ := res_bind_inv returned
  have hlen := mapM_length h1
  have hne : reqs.map PyRequest.c ≠ [] := by
    intro e
    have e2 := congrArg List.length e
    rw [List.length_map, hlen] at e2
    exact hemp (List.eq_nil_of_length_eq_zero e2)
  rw [gjExtract, if_neg hne] at h2
  obtain ⟨h3, h4⟩ := C50_whole_node_partial E C R sound offs hoffs U d mode lazy cap fs apart room agree es allowed s history
    S stored node cat catalogue lists sched _ _ (pyUnpack_written named h1) strict results h2
  rw [List.length_map] at h3
  have hreq : ∀ i (hi : i < items.length), ∃ r, reqs[i]? = some r ∧ AskableRanges items[i].2.1 ∧
      r.c.ranges = asked items[i].2.1 ∧ r.shape = pySizes items[i].2.1 := by
    intro i hi
    have a := List.getElem?_eq_getElem hi
    have b := List.getElem?_eq_getElem (l := reqs) (i := i) (by omega)
    have c := mapM_getElem (show items.mapM _ = _ from h1) a b
    obtain ⟨c1, c2, -, c4, -⟩ := pyNewRequest_ok c
    exact ⟨_, b, c1, c2, c4⟩
  have hshape : reqs.map PyRequest.shape = (items.map fun it => asked it.2.1).map pyShape := by
    apply List.ext_getElem?
    intro i
    by_cases hi : i < items.length
    · obtain ⟨r, b, c1, c2, c3⟩ := hreq i hi
      rw [List.getElem?_map, b, List.map_map, List.getElem?_map, List.getElem?_eq_getElem hi, Option.map_some,
        Option.map_some, c3]
      congr 1
      rw [Function.comp, pySizes, pyShape, asked, List.map_map]
      apply List.map_congr_left
      intro x hx
      obtain ⟨p, q, -⟩ := c1.2 x hx
      simp only [Function.comp]
      omega
    · rw [List.getElem?_eq_none (by rw [List.length_map]; omega), List.getElem?_eq_none (by simp; omega)]
  have hfield : ∀ i (hi : i < items.length), ∃ e ∈ cat, SameField C.ignoreYearMonth items[i].1 e.1 ∧
      (∀ e' ∈ cat, SameField C.ignoreYearMonth items[i].1 e'.1 → e' = e) ∧
      ∃ r, results[i]? = some r ∧ FieldAt R s.disk stored e.2 (asked items[i].2.1) r := by
    intro i hi
    obtain ⟨q, b, c1, c2, c3⟩ := hreq i hi
    have hq : i < reqs.length := by omega
    rw [List.getElem?_eq_getElem hq, Option.some.injEq] at b
    obtain ⟨e, he, k1, k2, r, k3, k4⟩ := h4 i (by simpa using hq) (by simpa using hi)
    rw [List.getElem_map, b, c2] at k4
    rw [List.getElem_map] at k1 k2
    exact ⟨e, he, k1, k2, r, k3, k4⟩
  have hdump := (C57_dump zero (items.map fun it => asked it.2.1) results ?_ ?_ ?_ results.length (Nat.le_refl _)).2
  · rw [hshape, hdump] at returned
    have e := Except.ok.inj returned
    subst e
    refine ⟨by rw [List.length_map]; omega, fun i hi => ?_⟩
    obtain ⟨e, he, k1, k2, r, k3, k4⟩ := hfield i hi
    exact ⟨e, he, k1, k2, r, k4, by rw [List.getElem?_map, k3]; rfl⟩
  · intro rs hrs
    obtain ⟨it, hit, e⟩ := List.mem_map.mp hrs
    obtain ⟨i, hi, hie⟩ := List.mem_iff_getElem.mp hit
    obtain ⟨q, -, c1, -⟩ := hreq i hi
    rw [hie] at c1
    rw [← e, asked]
    intro hc
    exact c1.1 (List.map_eq_nil_iff.mp hc)
  · rw [List.length_map]; omega
  · intro i r rs hr hrs
    have hi : i < items.length := by
      have := (List.getElem?_eq_some_iff.mp hrs).1
      simpa using this
    rw [List.getElem?_map, List.getElem?_eq_getElem hi] at hrs
    have hrs := Option.some.inj hrs
    obtain ⟨e, he, -, -, r', k3, k4⟩ := hfield i hi
    rw [hr, Option.some.injEq] at k3
    subst k3
    have hwf : ∀ x ∈ asked items[i].2.1, x.b ≤ x.e ∧ x.e < 2 ^ 64 := by
      intro x hx
      obtain ⟨q, -, c1, -⟩ := hreq i hi
      obtain ⟨y, hy, ey⟩ := List.mem_map.mp hx
      obtain ⟨p1, p2, p3⟩ := c1.2 y hy
      subst ey
      simp only
      omega
    simp only at hrs
    rw [← hrs]
    unfold FieldAt at k4
    split at k4
    · exact C13_message_shape R _ _ _ hwf r k4
    · obtain ⟨file, -, k4⟩ := k4
      exact C13_message_shape R _ _ _ hwf r k4

/-- **C62, a list of requests.**  Every request of a list reaches the library with its own field, its own ranges and its own
grid hash, in order. -/
theorem C62_list_passed_on (items : List PyItem) (named : ∀ it ∈ items, FieldDict it.1)
    (clean : ∀ it ∈ items, ∀ h, it.2.2 = some h → Char.ofNat 0 ∉ h) (reqs : List PyRequest)
    (accepted : pyUnpack none items = .ok reqs) :
    reqs.map PyRequest.c = items.map fun it => ⟨String.ofList (requestText ["retrieve".toList] it.1),
      it.2.1.map (fun r => ⟨r.1.toNat, r.2.toNat⟩), String.ofList (it.2.2.getD [])⟩ := by
  apply List.ext_getElem?
  intro i
  rw [List.getElem?_map, List.getElem?_map]
  have hlen := mapM_length accepted
  by_cases hi : i < items.length
  · have h1 := List.getElem?_eq_getElem hi
    have h2 := List.getElem?_eq_getElem (l := reqs) (i := i) (by omega)
    have h3 := mapM_getElem (show items.mapM _ = _ from accepted) h1 h2
    obtain ⟨h4, -⟩ := C62_passed_on _ _ _ _ (named _ (List.getElem_mem hi)) (clean _ (List.getElem_mem hi)) h3
    rw [h1, h2, Option.map_some, Option.map_some, h4]
  · rw [List.getElem?_eq_none (by omega), List.getElem?_eq_none (by omega)]
    rfl

/-- **C62, requests by path.**  Accepted exactly if the ranges can be asked for, the offset is a 64-bit number and the port
a 32-bit one; then everything reaches the library as given. -/
theorem C62_path_request (path scheme host : Str) (offset port : Int) (rs : List (Int × Int)) (hash : Option Str)
    (clean : Char.ofNat 0 ∉ path ∧ Char.ofNat 0 ∉ scheme ∧ Char.ofNat 0 ∉ host ∧ ∀ h, hash = some h → Char.ofNat 0 ∉ h) :
    ((∃ q, pyNewPathRequest path scheme offset host port rs hash = .ok q) ↔
      AskableRanges rs ∧ (0 ≤ offset ∧ offset < 2 ^ 64) ∧ -2 ^ 31 ≤ port ∧ port < 2 ^ 31) ∧
    ∀ q, pyNewPathRequest path scheme offset host port rs hash = .ok q →
      q.1 = ⟨String.ofList path, String.ofList scheme, offset.toNat, String.ofList host, port,
        rs.map fun r => ⟨r.1.toNat, r.2.toNat⟩, String.ofList (hash.getD [])⟩ ∧
      q.2 = rs.map fun r => (r.2 - r.1).toNat := by
  have hhash : cHash hash = String.ofList (hash.getD []) := by
    cases hash with
    | none => rfl
    | some x => rw [cHash, cstr_id (clean.2.2.2 x rfl)]; rfl
  have hfwd : ∀ q, pyNewPathRequest path scheme offset host port rs hash = .ok q →
      (AskableRanges rs ∧ (0 ≤ offset ∧ offset < 2 ^ 64) ∧ -2 ^ 31 ≤ port ∧ port < 2 ^ 31) ∧
      q.1 = ⟨String.ofList path, String.ofList scheme, offset.toNat, String.ofList host, port,
        rs.map fun r => ⟨r.1.toNat, r.2.toNat⟩, String.ofList (hash.getD [])⟩ ∧
      q.2 = rs.map fun r => (r.2 - r.1).toNat := by
    intro q h
    rw [pyNewPathRequest] at h
    by_cases he : rs = []
    · rw [if_pos he] at h; cases h
    · rw [if_neg he] at h
      obtain ⟨flat, h1, h⟩ := res_bind_inv h
      obtain ⟨h2, h3⟩ := pyFlatRanges_ok h1
      obtain ⟨o, h4, h⟩ := res_bind_inv h
      obtain ⟨o1, o2, o3⟩ := pyToSizeT_ok h4
      obtain ⟨p, h5, h⟩ := res_bind_inv h
      rw [pyToInt] at h5
      by_cases hp : -2 ^ 31 ≤ port ∧ port < 2 ^ 31
      · rw [if_pos hp] at h5
        have e5 := Except.ok.inj h5
        rw [cNewPathRequest, h3, cRanges_flat, ok_bind, ok_bind, cstr_id clean.1, cstr_id clean.2.1, cstr_id clean.2.2.1,
          hhash, o3, ← e5] at h
        have e := Except.ok.inj h
        subst e
        exact ⟨⟨⟨he, h2⟩, ⟨o1, o2⟩, hp⟩, rfl, rfl⟩
      · rw [if_neg hp] at h5; cases h5
  refine ⟨⟨?_, ?_⟩, fun q h => (hfwd q h).2⟩
  · rintro ⟨q, h⟩; exact (hfwd q h).1
  · rintro ⟨⟨he, h2⟩, ho, hp⟩
    rw [pyNewPathRequest, if_neg he, pyFlatRanges_of h2, ok_bind, pyToSizeT, if_pos ho, ok_bind, pyToInt, if_pos hp, ok_bind,
      cNewPathRequest, cRanges_flat, ok_bind, ok_bind]
    exact ⟨_, rfl⟩

theorem foldl_items (dic : List (Str × PyVal)) (acc : Str) :
    dic.foldl (fun out kv => out ++ (kv.1 ++ '=' :: kv.2.text ++ [','])) acc =
      acc ++ dic.flatMap fun kv => kv.1 ++ '=' :: kv.2.text ++ [','] := by
  induction dic generalizing acc with
  | nil => simp
  | cons kv rest ih => rw [List.foldl_cons, ih, List.flatMap_cons, List.append_assoc]

/-- **C62, lists of values.**  A dictionary with lists of values is written as the same dictionary with the values joined
by slashes. -/
theorem C62_multivalued (dic : List (Str × PyVal)) :
    multivaluedDicToRequest dic = dicToRequest (dic.map fun kv => (kv.1, kv.2.text)) := by
  rw [multivaluedDicToRequest, foldl_items, List.nil_append, dicToRequest, pyJoin_commas]
  induction dic with
  | nil => rfl
  | cons kv rest ih =>
    cases rest with
    | nil =>
      have : (kv.1 ++ '=' :: kv.2.text ++ [',']).dropLast = kv.1 ++ '=' :: kv.2.text := List.dropLast_concat
      simpa [commas, pyJoin] using this
    | cons kv' rest =>
      rw [List.flatMap_cons, List.dropLast_append_of_ne_nil, ih]
      · simp [commas, pyJoin]
      · simp

/-- **C62, several values.**  The values of a list are found again by splitting the text at slashes, if none contains one;
a text is passed on as it is. -/
theorem C62_several_values (l : List Str) (some : l ≠ []) (plain : ∀ v ∈ l, '/' ∉ v) (t : Str) :
    splitOn '/' (PyVal.many l).text = l ∧ (PyVal.one t).text = t := by
  refine ⟨?_, rfl⟩
  rw [PyVal.text]
  induction l with
  | nil => exact absurd rfl some
  | cons v rest ih =>
    cases rest with
    | nil => rw [pyJoin, splitOn_last _ _ (plain v (List.mem_cons_self ..))]
    | cons w rest =>
      rw [pyJoin, splitOn_piece _ _ _ (plain v (List.mem_cons_self ..)),
        ih (by simp) fun x hx => plain x (List.mem_cons_of_mem _ hx)]

theorem digit_not_whitespace {c : Char} (h : c.isDigit = true) : c.isWhitespace = false := by
  have h2 : 48 ≤ c.toNat := by
    simp only [Char.isDigit, Bool.and_eq_true, decide_eq_true_eq] at h
    exact h.1
  have : ∀ d : Char, d.isDigit = false → c ≠ d := fun d hd => digit_not hd h
  simp only [Char.isWhitespace, Bool.or_eq_false_iff, decide_eq_false_iff_not]
  exact ⟨⟨⟨this _ (by decide), this _ (by decide)⟩, this _ (by decide)⟩, this _ (by decide)⟩

theorem dropWhile_digits {l : Str} (h : ∀ c ∈ l, c.isDigit = true) : l.dropWhile Char.isWhitespace = l := by
  cases l with
  | nil => rfl
  | cons c rest =>
    rw [List.dropWhile_cons_of_neg]
    rw [digit_not_whitespace (h c (List.mem_cons_self ..))]
    decide

theorem pyInt_decimal (n : Nat) : pyInt (decimal n) = .ok (n : Int) := by
  have hd := decimal_digits n
  have hn := decimal_ne n
  have hv := decimal_value n
  generalize decimal n = l at hd hn hv
  have h1 : l.head? ≠ some '-' := by
    intro h
    exact digit_not (by decide) (hd _ (List.mem_of_head? h)) rfl
  have h2 : l.head? ≠ some '+' := by
    intro h
    exact digit_not (by decide) (hd _ (List.mem_of_head? h)) rfl
  have h3 : splitOn '_' l = [l] := splitOn_last _ _ fun h => digit_not (by decide) (hd _ h) rfl
  have h4 : ((l.dropWhile Char.isWhitespace).reverse.dropWhile Char.isWhitespace).reverse = l := by
    rw [dropWhile_digits hd, dropWhile_digits fun c hc => hd c (List.mem_reverse.mp hc), List.reverse_reverse]
  rw [pyInt]
  simp only [h4]
  have h5 : (if l.head? = some '-' ∨ l.head? = some '+' then l.tail else l) = l := if_neg (by simp [h1, h2])
  rw [h5, h3, if_pos]
  · simp [h1, hv]
  · simp only [List.all_cons, List.all_nil, Bool.and_true, Bool.and_eq_true, decide_eq_true_eq]
    exact ⟨hn, List.all_eq_true.mpr hd⟩

theorem pyStr_nat {n : Int} (h : 0 ≤ n) : pyStr n = decimal n.toNat := by rw [pyStr, if_pos h]; rfl

theorem pyInt_pyStr {n : Int} (h : 0 ≤ n) : pyInt (pyStr n) = .ok n := by
  rw [pyStr_nat h, pyInt_decimal, Int.toNat_of_nonneg h]

/-- **C62, ranges as text.**  Ranges of non-negative numbers, written as text and read back, are the same ranges. -/
theorem C62_rangestr_roundtrip (rs : List (Int × Int)) (some : rs ≠ []) (nonneg : ∀ r ∈ rs, 0 ≤ r.1 ∧ 0 ≤ r.2) :
    rangestrToList (listToRangestr rs) = .ok (rs.map fun r => [r.1, r.2]) := by
  have hnot : ∀ (c : Char) (n : Int), c.isDigit = false → 0 ≤ n → c ∉ pyStr n := by
    intro c n hc hn hm
    rw [pyStr_nat hn] at hm
    exact digit_not hc (decimal_digits _ c hm) rfl
  rw [rangestrToList, listToRangestr, pyJoin_commas, splitOn_commas]
  · rw [List.mapM_map, mapM_ok _ fun r : Int × Int => [r.1, r.2]]
    intro r hr
    obtain ⟨h1, h2⟩ := nonneg r hr
    simp only [Function.comp]
    rw [pyJoin, pyJoin, splitOn_piece _ _ _ (hnot _ _ (by decide) h1), splitOn_last _ _ (hnot _ _ (by decide) h2)]
    rw [mapM_res_cons, pyInt_pyStr h1, ok_bind, mapM_res_cons, pyInt_pyStr h2, ok_bind]
    rfl
  · simpa using some
  · intro p hp
    obtain ⟨r, hr, e⟩ := List.mem_map.mp hp
    obtain ⟨h1, h2⟩ := nonneg r hr
    rw [← e, pyJoin, pyJoin]
    intro hc
    rcases List.mem_append.mp hc with hc | hc
    · exact hnot _ _ (by decide) h1 hc
    · rcases List.mem_cons.mp hc with hc | hc
      · exact absurd hc (by decide)
      · exact hnot _ _ (by decide) h2 hc

/-- The text of no ranges, or of a negative number, is not read back. -/
theorem C62_rangestr_not_always : rangestrToList (listToRangestr []) = throwExn .badValue ∧
    rangestrToList (listToRangestr [(-1, 2)]) = throwExn .badValue := by decide +kernel

/-- **Disagreement.**  Values are not checked for separators: a comma in a value adds names to the request, so that
different dictionaries make the same request; and what follows a NUL is lost. -/
theorem C62_separators_in_values :
    dicToRequest [("step".toList, "6,param=1".toList)] =
      dicToRequest [("step".toList, "6".toList), ("param".toList, "1".toList)] ∧
    (pyNewRequest none [("step".toList, "6".toList ++ [Char.ofNat 0]), ("param".toList, "1".toList)] [(0, 1)] none).map
      (fun r => r.c.request) = .ok "retrieve,step=6" := by decide +kernel

/-- **Disagreement.**  `extract_single` does not check its ranges: ranges that run backwards, which a request refuses, are
handed to the library, where they make extraction undefined. -/
theorem C62_single_request_unchecked (expand : Str → Res (List Str)) (dic : List (Str × PyVal)) (hash : Option Str)
    (text : Str) (one : expand (cstr ("retrieve,".toList ++ multivaluedDicToRequest dic)) = .ok [text]) :
    pySingleRequests expand dic [(10, 5), (5, 20)] hash = .ok [⟨String.ofList text, [⟨10, 5⟩, ⟨5, 20⟩], cHash hash⟩] ∧
    (∀ dic, pyNewRequest none dic [(10, 5), (5, 20)] hash = throwExn .userError) ∧
    machineExtract 1000 plainReader (List.replicate 30 7) 0
      (.simple { sampleInfo with offsetAfterData := 28, numberOfValues := 26 }) [⟨10, 5⟩, ⟨5, 20⟩] = undef := by
  refine ⟨?_, fun dic => rfl, C54_backward_interval_undefined⟩
  rw [pySingleRequests, pyFlatRangesUnchecked_of (by simp), ok_bind, cRanges_flat, ok_bind, one, ok_bind]
  rfl

/-- **C62, single request of any cardinality.**  Every field of the request is asked for the given ranges, in the order
metkit lists the fields. -/
theorem C62_single_request (expand : Str → Res (List Str)) (dic : List (Str × PyVal)) (rs : List (Int × Int))
    (hash : Option Str) (askable : AskableRanges rs) (texts : List Str)
    (clean : Char.ofNat 0 ∉ multivaluedDicToRequest dic)
    (expanded : expand ("retrieve,".toList ++ dicToRequest (dic.map fun kv => (kv.1, kv.2.text))) = .ok texts) :
    pySingleRequests expand dic rs hash =
      .ok (texts.map fun t => ⟨String.ofList t, rs.map fun r => ⟨r.1.toNat, r.2.toNat⟩, cHash hash⟩) := by
  have hc : Char.ofNat 0 ∉ "retrieve,".toList ++ multivaluedDicToRequest dic := by
    intro h
    rcases List.mem_append.mp h with h | h
    · exact absurd h (by decide +kernel)
    · exact clean h
  rw [pySingleRequests, pyFlatRangesUnchecked_of, ok_bind, cRanges_flat, ok_bind, cstr_id hc, C62_multivalued, expanded,
    ok_bind]
  · rfl
  · intro r hr
    have := askable.2 r hr
    omega

/-! ## A case -/

def c62Items : List PyItem :=
  [([("step".toList, "6".toList), ("date".toList, "20250101".toList)], [(0, 4)], some "g".toList),
   ([("step".toList, "12".toList), ("date".toList, "20250101".toList)], [(1, 2), (2, 4)], some "g".toList),
   ([("date".toList, "20250101".toList), ("step".toList, "0".toList)], [(0, 2)], some "g".toList)]

def c62Good (dic : List (Str × Str)) : Bool :=
  dic ≠ [] && dic.all (fun p => p.1 ≠ [] && p.2 ≠ [] && p.1.all (fun c => c ≠ ',' && c ≠ '=' && c ≠ Char.ofNat 0) &&
    p.2.all (fun c => c ≠ ',' && c ≠ '=' && c ≠ Char.ofNat 0)) && decide ((dic.map Prod.fst).Nodup) &&
  !(dic.map Prod.fst).contains "year".toList && !(dic.map Prod.fst).contains "month".toList

theorem c62_fieldDict {dic : List (Str × Str)} (h : c62Good dic = true) : FieldDict dic := by
  simp only [c62Good, Bool.and_eq_true, decide_eq_true_eq, List.all_eq_true, Bool.not_eq_true', List.contains_eq_mem,
    decide_eq_false_iff_not, ne_eq] at h
  obtain ⟨⟨⟨⟨h1, h2⟩, h3⟩, h4⟩, h5⟩ := h
  refine ⟨h1, ⟨fun p hp => ?_, h3⟩, Or.inl ⟨h4, h5⟩, fun p hp => ?_⟩
  · obtain ⟨⟨⟨a, b⟩, c⟩, d⟩ := h2 p hp
    exact ⟨⟨a, fun h => (c _ h).1.1 rfl, fun h => (c _ h).1.2 rfl⟩, ⟨b, fun h => (d _ h).1.1 rfl, fun h => (d _ h).1.2 rfl⟩⟩
  · obtain ⟨⟨-, c⟩, d⟩ := h2 p hp
    exact ⟨fun h => (c _ h).2 rfl, fun h => (d _ h).2 rfl⟩

/-- Non-vacuity of C62: the node of C50 asked from Python. -/
example : (∀ it ∈ c62Items, FieldDict it.1) ∧ (∀ it ∈ c62Items, AskableRanges it.2.1) ∧
    pyExtractDump 0 none (localExtract c50Env c50Conf [1, 0, 1, 0, 0, 1]) c62Items =
      .ok [[[([10, 11, 12, 13], [15])]], [[([11], [1]), ([12, 13], [3])]], [[([7, 8], [3])]]] := by
  refine ⟨?_, ?_, by decide +kernel⟩
  · intro it hit
    have : c62Items.all (fun it => c62Good it.1) = true := by decide +kernel
    exact c62_fieldDict (List.all_eq_true.mp this it hit)
  · intro it hit
    simp only [c62Items, List.mem_cons, List.not_mem_nil, or_false] at hit
    rcases hit with rfl | rfl | rfl <;> exact ⟨by simp, by decide⟩

/-- Refused: no range, an empty one, a negative one, one too large. -/
example : pyNewRequest none [] [] none = throwExn .userError ∧
    pyNewRequest none [] [(3, 3)] none = throwExn .userError ∧
    pyNewRequest none [] [(-1, 3)] none = throwExn .outOfRange ∧
    pyNewRequest none [] [(0, 2 ^ 64)] none = throwExn .outOfRange := ⟨rfl, rfl, rfl, rfl⟩

/-- Non-vacuity of the round trip, and of the path request. -/
example : listToRangestr [(0, 6), (7, 12)] = "0-6,7-12".toList ∧
    (pyNewPathRequest "/a".toList "file".toList 5 [] 0 [(1, 3)] none).map (fun q => (q.1.ranges, q.2)) =
      .ok ([⟨1, 3⟩], [2]) ∧
    multivaluedDicToRequest [("class".toList, .one "od".toList), ("step".toList, .many ["1".toList, "2".toList])] =
      "class=od,step=1/2".toList := by decide +kernel

end GJ
