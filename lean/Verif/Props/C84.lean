import Verif.Lemmas.Parts
import Verif.Model.PyCalls
import Verif.Spec.Select
import Verif.Props.C62

/-!
# C84: a point's value does not depend on what it is asked with

Extracting parts of a field gives the same as extracting the field and taking the parts: for every packing, bitmap,
width and arithmetic.  Nothing is assumed of the scaling, so this holds for the machine's doubles, and for the widths and
scale factors for which the values themselves are wrong (C04, C05).
-/

namespace GJ
open Spec

/-- A CCSDS message lies in the file as a whole, its bitmap is where it can be, it declares as many values as its bitmap
marks, and libaec decodes as its contract says.  Nothing is required of other messages. -/
def FairCcsds {V : Type} (R : Reader V) (file : List UInt8) (offset n : Nat) : Prop :=
  ∀ h, R.parse (file.drop offset) = some h → h.packingType = "grid_ccsds" →
    AecContract R.lib ∧ offset + h.offsetAfterData ≤ file.length ∧ (h.bitmapPresent = true → 0 < bitmapStart h) ∧
    countTrue (headerMessage (fun _ => 0) file offset h).present ≤ h.numberOfValues ∧ n ≤ h.numberOfDataPoints

theorem PartAnswers.whole {V : Type} {ex : List Interval → Res (ExResult V)} {n : Nat} {field : List V} {present : List Bool}
    (h : PartAnswers ex n field present) : ex [⟨0, n⟩] = .ok ⟨[field], [toBitset present]⟩ := by
  rw [h.parts _ askedOf_one]
  simp only [List.map_cons, List.map_nil, Nat.sub_zero]
  have h1 := slice_whole field
  have h2 := slice_whole present
  rw [h.values] at h1
  rw [h.flags] at h2
  rw [h1, h2]

theorem PartAnswers.unfold {V : Type} {ex : List Interval → Res (ExResult V)} {n : Nat} {field : List V}
    {present : List Bool} (h : PartAnswers ex n field present) {r : ExResult V} (whole : ex [⟨0, n⟩] = .ok r) :
    field.length = n ∧ present.length = n ∧ r = ⟨[field], [toBitset present]⟩ ∧
    ∀ is, is ≠ [] → is.Pairwise (fun a b => a.e ≤ b.b) → (∀ i ∈ is, i.b ≤ i.e ∧ i.e ≤ n) →
      ex is = .ok ⟨is.map fun i => slice field i.b (i.e - i.b),
        is.map fun i => toBitset (slice present i.b (i.e - i.b))⟩ := by
  rw [h.whole] at whole
  exact ⟨h.values, h.flags, (Except.ok.inj whole).symm, fun is h1 h2 h3 => h.parts is ⟨h1, h2, h3⟩⟩

/-- **C84, simple packing.**  If the first `n` points of a message can be extracted, then every sorted list of intervals
among them can, and gives the parts of the values and of the presence flags of those `n` points.  Any file, any metadata,
any bit width, any scaling. -/
theorem C84_parts_of_whole_simple {V : Type} (R : Reader V) (file : List UInt8) (offset : Nat) (h : Header)
    (header : R.parse (file.drop offset) = some h) (packing : h.packingType = "grid_simple") (n : Nat)
    (small : n < 2 ^ 64) (r : ExResult V) (whole : messageExtract R file offset [⟨0, n⟩] = .ok r) :
    ∃ (field : List V) (present : List Bool), field.length = n ∧ present.length = n ∧ r = ⟨[field], [toBitset present]⟩ ∧
      ∀ is, is ≠ [] → is.Pairwise (fun a b => a.e ≤ b.b) → (∀ i ∈ is, i.b ≤ i.e ∧ i.e ≤ n) →
        messageExtract R file offset is = .ok ⟨is.map fun i => slice field i.b (i.e - i.b),
          is.map fun i => toBitset (slice present i.b (i.e - i.b))⟩ := by
  obtain ⟨field, present, hA⟩ := simple_message_parts header packing small whole
  exact ⟨field, present, hA.unfold whole⟩

theorem message_parts {V : Type} {R : Reader V} {file : List UInt8} {offset n : Nat}
    (fair : FairCcsds R file offset n) (small : n < 2 ^ 64) {r : ExResult V}
    (whole : messageExtract R file offset [⟨0, n⟩] = .ok r) :
    ∃ field present, PartAnswers (messageExtract R file offset) n field present := by
  cases hp : R.parse (file.drop offset) with
  | none =>
    rw [messageExtract, buildInfo, hp] at whole
    cases whole
  | some h =>
    by_cases h1 : h.packingType = "grid_simple"
    · exact simple_message_parts hp h1 small whole
    · by_cases h2 : h.packingType = "grid_ccsds"
      · obtain ⟨contract, a, b, c, d⟩ := fair h hp h2
        exact ccsds_message_parts contract hp h2 a b c small d whole
      · rw [messageExtract, buildInfo, hp] at whole
        obtain ⟨info, hb, hx⟩ := res_bind_inv whole
        have hj := infoOf_base hb
        have h6 := (jumpInfoOf_inv hj).2.2.2.2.2.2.1
        rw [jumperExtract, if_neg (by rw [h6]; exact h1), if_neg (by rw [h6]; exact h2)] at hx
        cases hx

/-- **C84, any packing (partial).**  The same for every message of every packing.
Missing: CCSDS messages that are cut off, declare fewer values than points present, or break libaec's contract. -/
theorem C84_parts_of_whole_partial {V : Type} (R : Reader V) (file : List UInt8)
    (offset n : Nat) (fair : FairCcsds R file offset n) (small : n < 2 ^ 64) (r : ExResult V)
    (whole : messageExtract R file offset [⟨0, n⟩] = .ok r) :
    ∃ (field : List V) (present : List Bool), field.length = n ∧ present.length = n ∧ r = ⟨[field], [toBitset present]⟩ ∧
      ∀ is, is ≠ [] → is.Pairwise (fun a b => a.e ≤ b.b) → (∀ i ∈ is, i.b ≤ i.e ∧ i.e ≤ n) →
        messageExtract R file offset is = .ok ⟨is.map fun i => slice field i.b (i.e - i.b),
          is.map fun i => toBitset (slice present i.b (i.e - i.b))⟩ := by
  obtain ⟨field, present, hA⟩ := message_parts fair small whole
  exact ⟨field, present, hA.unfold whole⟩

/-- **C84, points (partial).**  Two extractions from a message agree at every point asked for in both, whatever else is
asked for.  Missing: as above. -/
theorem C84_same_point_same_value_partial {V : Type} (R : Reader V) (file : List UInt8)
    (offset n : Nat) (fair : FairCcsds R file offset n) (small : n < 2 ^ 64) (all : ExResult V)
    (whole : messageExtract R file offset [⟨0, n⟩] = .ok all) (is js : List Interval)
    (insideI : ∀ i ∈ is, i.b ≤ i.e ∧ i.e ≤ n) (insideJ : ∀ j ∈ js, j.b ≤ j.e ∧ j.e ≤ n)
    (sortedI : is.Pairwise (fun a b => a.e ≤ b.b)) (sortedJ : js.Pairwise (fun a b => a.e ≤ b.b))
    (r s : ExResult V) (one : messageExtract R file offset is = .ok r) (other : messageExtract R file offset js = .ok s)
    (a b : Nat) (i j : Interval) (hi : is[a]? = some i) (hj : js[b]? = some j) (k : Nat)
    (inI : i.b ≤ k ∧ k < i.e) (inJ : j.b ≤ k ∧ k < j.e) :
    ∃ v, (r.values[a]?.getD [])[k - i.b]? = some v ∧ (s.values[b]?.getD [])[k - j.b]? = some v := by
  obtain ⟨field, present, hA⟩ := message_parts fair small whole
  have hne : ∀ {l : List Interval} {c : Nat} {x : Interval}, l[c]? = some x → l ≠ [] := by
    intro l c x h e; rw [e] at h; simp at h
  rw [hA.parts is ⟨hne hi, sortedI, insideI⟩] at one
  rw [hA.parts js ⟨hne hj, sortedJ, insideJ⟩] at other
  have e1 := (Except.ok.inj one).symm
  have e2 := (Except.ok.inj other).symm
  subst e1 e2
  have hk : k < field.length := by
    have := (insideI i (List.mem_of_getElem? hi)).2
    rw [hA.values]; omega
  have get : ∀ (b e : Nat), b ≤ k → k < e → (slice field b (e - b))[k - b]? = some field[k] := by
    intro b e h1 h2
    rw [slice, List.getElem?_take, if_pos (by omega), List.getElem?_drop, show b + (k - b) = k by omega,
      List.getElem?_eq_getElem hk]
  refine ⟨field[k], ?_, ?_⟩
  · simp only [List.getElem?_map, hi, Option.map_some, Option.getD_some]
    exact get _ _ inI.1 inI.2
  · simp only [List.getElem?_map, hj, Option.map_some, Option.getD_some]
    exact get _ _ inJ.1 inJ.2

/-! ## Masks and indices -/

theorem slice_filterMap {α : Type} (field : List α) : ∀ (k b : Nat),
    slice field b k = (List.range' b k).filterMap fun i => field[i]? := by
  intro k
  induction k with
  | zero => intro b; simp [slice]
  | succ k ih =>
    intro b
    by_cases hb : b < field.length
    · rw [slice_cons field b k field[b] (List.getElem?_eq_getElem hb), ih, List.range'_succ,
        List.filterMap_cons, List.getElem?_eq_getElem hb]
    · rw [List.range'_succ, List.filterMap_cons, List.getElem?_eq_none (by omega)]
      rw [← ih (b + 1)]
      simp only [slice]
      rw [List.drop_eq_nil_of_le (by omega), List.drop_eq_nil_of_le (by omega)]
      simp

theorem slices_indices {α : Type} (field : List α) (rs : List Interval) :
    (rs.map fun r => slice field r.b (r.e - r.b)).flatten = (pyIndices rs).filterMap fun i => field[i]? := by
  induction rs with
  | nil => rfl
  | cons r rest ih =>
    rw [List.map_cons, List.flatten_cons, ih, pyIndices, pyIndices, List.flatMap_cons, List.filterMap_append,
      slice_filterMap]

theorem selected_indices {α : Type} : ∀ (field : List α) (m : List Bool),
    (((List.range m.length).filter fun i => m[i]?.getD false).filterMap fun i => field[i]?) = selected field m := by
  intro field m
  induction m generalizing field with
  | nil => cases field <;> rfl
  | cons b m ih =>
    rw [List.length_cons, List.range_succ_eq_map, List.filter_cons, List.filter_map]
    have hf : ((fun i => (b :: m)[i]?.getD false) ∘ Nat.succ) = fun i => m[i]?.getD false := by
      funext i; simp
    rw [hf]
    cases field with
    | nil =>
      cases b <;> simp [selected]
    | cons v vs =>
      have hs : ∀ l : List Nat, ((l.map Nat.succ).filterMap fun i => (v :: vs)[i]?) = l.filterMap fun i => vs[i]? := by
        intro l
        rw [List.filterMap_map]
        congr 1
      cases b
      · simp only [List.getElem?_cons_zero, Option.getD_some, Bool.false_eq_true, if_false]
        rw [hs, ih]
        simp [selected]
      · simp only [List.getElem?_cons_zero, Option.getD_some, if_true]
        rw [List.filterMap_cons]
        simp only [List.getElem?_cons_zero]
        rw [hs, ih]
        simp [selected]

/-- The runs of a mask, asked for, select its points. -/
theorem mask_parts {V : Type} {ex : List Interval → Res (ExResult V)} {field : List V} {present : List Bool}
    {m : List Bool} (hA : PartAnswers ex m.length field present) {rs : List Interval} (h : pyFromMask m = .ok rs)
    {r : ExResult V} (got : ex rs = .ok r) :
    r.values.flatten = selected field m ∧
    ∃ flags : List (List Bool), r.mask = flags.map toBitset ∧ flags.map List.length = (rs.map fun i => i.e - i.b) ∧
      flags.flatten = selected present m := by
  rcases C37_from_mask m with ⟨-, e⟩ | ⟨-, rs', e, h1, h2, h3, h4⟩
  · rw [h] at e; cases e
  · rw [h] at e
    have e := (Except.ok.inj e).symm
    subst e
    have hne : rs' ≠ [] := ((C37_ranges_checked _ _).mp h4).2.1
    rw [hA.parts rs' ⟨hne, h2.imp fun h => by omega, fun i hi => ⟨by have := (h1 i hi).1; omega, (h1 i hi).2⟩⟩] at got
    have e := (Except.ok.inj got).symm
    subst e
    refine ⟨?_, rs'.map fun i => slice present i.b (i.e - i.b), ?_, ?_, ?_⟩
    · simp only
      rw [slices_indices, h3, selected_indices]
    · simp only [List.map_map]; rfl
    · rw [List.map_map]
      apply List.map_congr_left
      intro i hi
      have := h1 i hi
      have hl := hA.flags
      simp only [Function.comp]
      rw [slice_length _ _ _ (by omega)]
    · rw [slices_indices, h3, selected_indices]

theorem mask_shape {V : Type} {ex : List Interval → Res (ExResult V)} {field : List V} {present : List Bool}
    {m : List Bool} (hA : PartAnswers ex m.length field present) {rs : List Interval} (h : pyFromMask m = .ok rs)
    {r : ExResult V} (got : ex rs = .ok r) : r.values.map List.length = rs.map fun i => i.e - i.b := by
  rcases C37_from_mask m with ⟨-, e⟩ | ⟨-, rs', e, h1, h2, h3, h4⟩
  · rw [h] at e; cases e
  · rw [h] at e
    have e := (Except.ok.inj e).symm
    subst e
    rw [hA.parts rs' ⟨((C37_ranges_checked _ _).mp h4).2.1, h2.imp fun h => by omega,
      fun i hi => ⟨by have := (h1 i hi).1; omega, (h1 i hi).2⟩⟩] at got
    have e := (Except.ok.inj got).symm
    subst e
    rw [List.map_map]
    apply List.map_congr_left
    intro i hi
    have := h1 i hi
    have hl := hA.values
    simp only [Function.comp]
    rw [slice_length _ _ _ (by omega)]

/-- **C84, masks (partial).**  The runs of a mask, as `from_mask` makes them, select from a message exactly what indexing
the whole field with the mask selects, values and presence flags.  Missing: as above. -/
theorem C84_mask_selects_partial {V : Type} (R : Reader V) (file : List UInt8)
    (offset : Nat) (m : List Bool) (fair : FairCcsds R file offset m.length) (small : m.length < 2 ^ 64)
    (field : List V) (present : List Bool) (points : present.length = m.length)
    (whole : messageExtract R file offset [⟨0, m.length⟩] = .ok ⟨[field], [toBitset present]⟩) (rs : List Interval)
    (made : pyFromMask m = .ok rs) :
    ∃ r, messageExtract R file offset rs = .ok r ∧ r.values.flatten = selected field m ∧
      ∃ flags, pyBoolMasks r.mask (pyShape rs) = .ok flags ∧ flags.flatten = selected present m := by
  obtain ⟨field', present', hA⟩ := message_parts fair small whole
  rw [hA.whole] at whole
  have e := Except.ok.inj whole
  have e1 : field' = field := by
    have := congrArg ExResult.values e; simpa using this
  have e2 : present' = present := by
    have := congrArg ExResult.mask e
    have h := List.cons.inj this |>.1
    have a := C57_bool_masks [present']
    have b := C57_bool_masks [present]
    simp only [List.map_cons, List.map_nil, hA.flags, points, h] at a b
    rw [a] at b
    simpa using Except.ok.inj b
  subst e1 e2
  have hr : ∃ r, messageExtract R file offset rs = .ok r := by
    rcases C37_from_mask m with ⟨-, e⟩ | ⟨-, rs', e, h1, h2, h3, h4⟩
    · rw [made] at e; cases e
    · rw [made] at e
      have e := (Except.ok.inj e).symm
      subst e
      exact ⟨_, hA.parts rs' ⟨((C37_ranges_checked _ _).mp h4).2.1, h2.imp fun h => by omega,
        fun i hi => ⟨by have := (h1 i hi).1; omega, (h1 i hi).2⟩⟩⟩
  obtain ⟨r, hr⟩ := hr
  obtain ⟨a, flags, b, c, d⟩ := mask_parts hA made hr
  refine ⟨r, hr, a, flags, ?_, d⟩
  have := C57_bool_masks flags
  rw [← b, c] at this
  exact this

/-! ## Through a node, from Python -/

/-- The message at a place of the catalogue is fair. -/
def FairAt (R : Reader UInt64) (d : Disk) (stored : Uri → List UInt8) (u : Uri) (n : Nat) : Prop :=
  if u.scheme = "fdb" then FairCcsds R (stored u) 0 n
  else ∀ file, d u.path = some file → FairCcsds R file u.offset n

theorem field_parts {R : Reader UInt64} {d : Disk} {stored : Uri → List UInt8} {u : Uri}
    {n : Nat} (fair : FairAt R d stored u n) (small : n < 2 ^ 64) {r : WireResult}
    (whole : FieldAt R d stored u [⟨0, n⟩] r) :
    ∃ ex field present, PartAnswers ex n field present ∧ ∀ is r, FieldAt R d stored u is r → ex is = .ok r := by
  by_cases hs : u.scheme = "fdb"
  · simp only [FieldAt, FairAt, if_pos hs] at whole fair ⊢
    obtain ⟨field, present, hA⟩ := message_parts fair small whole
    exact ⟨_, field, present, hA, fun _ _ h => h⟩
  · simp only [FieldAt, FairAt, if_neg hs] at whole fair ⊢
    obtain ⟨file, hf, whole⟩ := whole
    obtain ⟨field, present, hA⟩ := message_parts (fair file hf) small whole
    refine ⟨_, field, present, hA, fun is r h => ?_⟩
    obtain ⟨file', hf', h⟩ := h
    rw [hf] at hf'
    cases hf'
    exact h

theorem asked_pairs (rs : List Interval) : asked (rs.map pyPair) = rs := by
  rw [asked, List.map_map]
  conv => rhs; rw [← List.map_id rs]
  apply List.map_congr_left
  intro i _
  simp [pyPair]

theorem asked_points (ps : List Nat) :
    asked ((ps.map Int.ofNat).map fun p => (p, p + 1)) = ps.map fun p => ⟨p, p + 1⟩ := by
  rw [asked, List.map_map, List.map_map]
  apply List.map_congr_left
  intro p _
  simp only [Function.comp, Int.ofNat_eq_natCast, Int.toNat_natCast, Interval.mk.injEq, true_and]
  omega

theorem pyDump_askable {zero : UInt64} {parsing : Option (Str → Res Str)} {impl : List ExRequest → Res (List WireResult)}
    {items : List PyItem} {out : List (List (List (List UInt64 × List Nat)))}
    (h : pyExtractDump zero parsing impl items = .ok out) : items ≠ [] ∧ ∀ it ∈ items, AskableRanges it.2.1 := by
  rw [pyExtractDump] at h
  by_cases hemp : items = []
  · rw [if_pos hemp] at h; cases h
  rw [if_neg hemp] at h
  obtain ⟨reqs, h1, -⟩ := res_bind_inv h
  refine ⟨hemp, fun it hit => ?_⟩
  obtain ⟨i, hi, hie⟩ := List.mem_iff_getElem.mp hit
  have hlen := mapM_length h1
  have a := List.getElem?_eq_getElem hi
  have b := List.getElem?_eq_getElem (l := reqs) (i := i) (by omega)
  have c := mapM_getElem (show items.mapM _ = _ from h1) a b
  rw [← hie]
  exact (pyNewRequest_ok c).1

theorem pyFromMask_items {dics : List (List (Str × Str))} {m : List Bool} {hash : Option Str} :
    ∀ {items : List PyItem}, (dics.mapM fun dic => do
      let rs ← pyFromMask m
      (.ok (dic, rs.map pyPair, hash) : Res PyItem)) = .ok items → dics ≠ [] →
    ∃ rs, pyFromMask m = .ok rs ∧ items = dics.map fun dic => (dic, rs.map pyPair, hash) := by
  intro items h hne
  cases hm : pyFromMask m with
  | error e =>
    cases dics with
    | nil => exact absurd rfl hne
    | cons d rest =>
      rw [List.mapM_cons] at h
      obtain ⟨x, hx, -⟩ := res_bind_inv h
      rw [hm] at hx
      cases hx
  | ok rs =>
    refine ⟨rs, rfl, ?_⟩
    rw [mapM_ok _ (fun dic => (dic, rs.map pyPair, hash)) dics (fun d _ => by rw [hm]; rfl)] at h
    exact (Except.ok.inj h).symm

/-- **C84, `extract_from_mask` (partial).**  A Python user asks a node with any history for fields, once whole and once
by a mask.  If both calls return, then for every field the arrays of the second, one after the other, are the array of
the first indexed by the mask, and so are the presence flags.  The two calls may run under different schedules and with
different grid hashes.  Missing: as above, and what is missing in C62. -/
theorem C84_python_mask_partial (E : ExtEnv) (C : EngineConf) (R : Reader UInt64) (sound : SoundReader R)
    (offs : List UInt8 → Res (List Nat)) (hoffs : ∀ file, offs file ≠ undef) (U : String → Prop) (d : Disk)
    (mode : CacheMode) (lazy : Bool) (cap : Nat) (fs : FS) (apart : ToldApart mode U) (room : 0 < cap)
    (agree : GoodIndex (diskWorld R offs d) U mode fs) (es : List SEv) (allowed : ∀ e ∈ es, e.Allowed U)
    (s : Svc UInt64) (history : (Svc.start R offs d mode lazy cap fs).run R offs es = .ok s) (S : Store)
    (stored : Uri → List UInt8) (node : Behind E C R s S stored) (cat : List (FdbKey × Uri))
    (catalogue : Catalogue C.ignoreYearMonth cat) (lists : ListsOnly E cat) (sched sched' : List Nat)
    (strict : C.allowMissing = false) (zero : UInt64) (m : List Bool)
    (fair : ∀ e ∈ cat, FairAt R s.disk stored e.2 m.length) (dics : List (List (Str × Str)))
    (named : ∀ dic ∈ dics, FieldDict dic) (hash hash' : Option Str) (out out' : List (List (List (List UInt64 × List Nat))))
    (whole : pyExtractFromRanges zero none (localExtract E C sched) dics [(0, m.length)] hash = .ok out)
    (masked : pyExtractFromMask zero none (localExtract E C sched') dics m hash' = .ok out') :
    out.length = dics.length ∧ out'.length = dics.length ∧ ∀ i, i < dics.length →
      ∃ (field : List UInt64) (present : List Bool) (parts : List (List UInt64 × List Nat)) (flags : List (List Bool)),
        field.length = m.length ∧ present.length = m.length ∧
        out[i]? = some [[(field, toBitset present)]] ∧ out'[i]? = some [parts] ∧
        (parts.map Prod.fst).flatten = selected field m ∧
        pyBoolMasks (parts.map Prod.snd) (parts.map fun p => p.1.length) = .ok flags ∧
        flags.flatten = selected present m := by
  rw [pyExtractFromRanges] at whole
  rw [pyExtractFromMask] at masked
  obtain ⟨items, hitems, masked⟩ := res_bind_inv masked
  have hask := pyDump_askable whole
  have hne : dics ≠ [] := fun e => hask.1 (by rw [e]; rfl)
  have hsmall : m.length < 2 ^ 64 := by
    obtain ⟨x, hx⟩ := List.exists_mem_of_ne_nil _ hask.1
    have := (hask.2 x hx).2 (0, (m.length : Int)) (by
      obtain ⟨y, -, e⟩ := List.mem_map.mp hx
      rw [← e]; simp)
    have := this.2.2
    simp only at this
    omega
  obtain ⟨rs, hrs, e⟩ := pyFromMask_items hitems hne
  subst e
  obtain ⟨l1, k1⟩ := C62_dictionary_to_arrays_partial E C R sound offs hoffs U d mode lazy cap fs apart room agree es allowed
    s history S stored node cat catalogue lists sched strict zero _
    (fun it hit => by obtain ⟨y, hy, e⟩ := List.mem_map.mp hit; rw [← e]; exact named y hy) out whole
  obtain ⟨l2, k2⟩ := C62_dictionary_to_arrays_partial E C R sound offs hoffs U d mode lazy cap fs apart room agree es allowed
    s history S stored node cat catalogue lists sched' strict zero _
    (fun it hit => by obtain ⟨y, hy, e⟩ := List.mem_map.mp hit; rw [← e]; exact named y hy) out' masked
  rw [List.length_map] at l1 l2
  refine ⟨l1, l2, fun i hi => ?_⟩
  obtain ⟨e, he, -, huniq, r, hr, ho⟩ := k1 i (by rw [List.length_map]; exact hi)
  obtain ⟨e', he', hs', -, r', hr', ho'⟩ := k2 i (by rw [List.length_map]; exact hi)
  simp only [List.getElem_map] at huniq hs' hr hr'
  have hee := huniq e' he' hs'
  subst hee
  have hr : FieldAt R s.disk stored e'.2 [⟨0, m.length⟩] r := by simpa using hr
  have hr' : FieldAt R s.disk stored e'.2 rs r' := by
    have := asked_pairs rs
    rw [asked] at this
    rw [this] at hr'
    exact hr'
  obtain ⟨ex, field, present, hA, hex⟩ := field_parts (fair e' he') hsmall hr
  have hw := hex _ _ hr
  rw [hA.whole] at hw
  have hw := (Except.ok.inj hw).symm
  subst hw
  obtain ⟨a, flags, b, c, f⟩ := mask_parts hA hrs (hex _ _ hr')
  have hv := mask_shape hA hrs (hex _ _ hr')
  have hlen : r'.values.length = r'.mask.length := by
    have h1 := congrArg List.length hv
    have h2 := congrArg List.length c
    rw [b, List.length_map]
    simp only [List.length_map] at h1 h2
    omega
  refine ⟨field, present, r'.values.zip r'.mask, flags, hA.values, hA.flags, ho, ho', ?_, ?_, f⟩
  · rw [List.map_fst_zip (by omega)]; exact a
  · rw [List.map_snd_zip (by omega)]
    have h1 : (r'.values.zip r'.mask).map (fun p => p.1.length) = r'.values.map List.length := by
      conv => rhs; rw [← List.map_fst_zip (l₁ := r'.values) (l₂ := r'.mask) (by omega)]
      rw [List.map_map]; rfl
    rw [h1, hv, ← c, b]
    exact C57_bool_masks flags

/-! ### Indices -/

theorem message_ordered {V : Type} {R : Reader V} {file : List UInt8} {offset : Nat} {is : List Interval} {r : ExResult V}
    (h : messageExtract R file offset is = .ok r) {k : Nat} {a b : Interval} (ha : is[k]? = some a)
    (hb : is[k + 1]? = some b) : a.e ≤ b.b := by
  apply Decidable.byContradiction
  intro hlt
  rw [messageExtract] at h
  obtain ⟨info, -, hx⟩ := res_bind_inv h
  have bad : is = [] ∨ ∃ k a b, is[k]? = some a ∧ is[k + 1]? = some b ∧ b.b < a.e := Or.inr ⟨k, a, b, ha, hb, by omega⟩
  rw [jumperExtract] at hx
  split at hx
  · rw [C11_malformed_rejected_partial _ _ _ _ _ _ bad] at hx; cases hx
  · split at hx
    · rw [C11_malformed_rejected_partial _ _ _ _ _ _ bad] at hx; cases hx
    · cases hx

theorem increasing_of_next : ∀ (ps : List Int), (∀ (k : Nat) a b, ps[k]? = some a → ps[k + 1]? = some b → a < b) →
    ps.Pairwise (· < ·) := by
  intro ps
  induction ps with
  | nil => intro _; exact .nil
  | cons p ps ih =>
    intro h
    have hp := ih fun k a b ha hb => h (k + 1) a b (by simpa using ha) (by simpa using hb)
    refine List.pairwise_cons.mpr ⟨?_, hp⟩
    cases ps with
    | nil => intro q hq; cases hq
    | cons q rest =>
      have hq := h 0 p q rfl rfl
      intro x hx
      rcases List.mem_cons.mp hx with rfl | hx
      · exact hq
      · exact Int.lt_trans hq ((List.pairwise_cons.mp hp).1 x hx)

/-- **C84, `extract_from_indices` (partial).**  A Python user asks a node with any history for fields, once whole and
once at given points.  If both calls return, the indices are strictly increasing and none is negative, and for every field
and every index the second call has one array, with the one value the first has at that index.  Missing: as above, and
points in another order, which the library refuses. -/
theorem C84_python_indices_partial (E : ExtEnv) (C : EngineConf) (R : Reader UInt64) (sound : SoundReader R)
    (offs : List UInt8 → Res (List Nat)) (hoffs : ∀ file, offs file ≠ undef) (U : String → Prop) (d : Disk)
    (mode : CacheMode) (lazy : Bool) (cap : Nat) (fs : FS) (apart : ToldApart mode U) (room : 0 < cap)
    (agree : GoodIndex (diskWorld R offs d) U mode fs) (es : List SEv) (allowed : ∀ e ∈ es, e.Allowed U)
    (s : Svc UInt64) (history : (Svc.start R offs d mode lazy cap fs).run R offs es = .ok s) (S : Store)
    (stored : Uri → List UInt8) (node : Behind E C R s S stored) (cat : List (FdbKey × Uri))
    (catalogue : Catalogue C.ignoreYearMonth cat) (lists : ListsOnly E cat) (sched sched' : List Nat)
    (strict : C.allowMissing = false) (zero : UInt64) (n : Nat)
    (fair : ∀ e ∈ cat, FairAt R s.disk stored e.2 n) (dics : List (List (Str × Str)))
    (named : ∀ dic ∈ dics, FieldDict dic) (hash hash' : Option Str) (ps : List Int) (inside : ∀ p ∈ ps, p < n)
    (out out' : List (List (List (List UInt64 × List Nat))))
    (whole : pyExtractFromRanges zero none (localExtract E C sched) dics [(0, n)] hash = .ok out)
    (points : pyExtractFromIndices zero none (localExtract E C sched') dics ps hash' = .ok out') :
    (ps.Pairwise (· < ·) ∧ ∀ p ∈ ps, 0 ≤ p) ∧
    out.length = dics.length ∧ out'.length = dics.length ∧ ∀ i, i < dics.length →
      ∃ (field : List UInt64) (present : List Bool) (parts : List (List UInt64 × List Nat)),
        field.length = n ∧ present.length = n ∧ out[i]? = some [[(field, toBitset present)]] ∧
        out'[i]? = some [parts] ∧ parts.length = ps.length ∧
        ∀ (k : Nat) p, ps[k]? = some p → ∃ v b, field[p.toNat]? = some v ∧ present[p.toNat]? = some b ∧
          parts[k]? = some ([v], toBitset [b]) := by
  rw [pyExtractFromRanges] at whole
  rw [pyExtractFromIndices] at points
  have hask := pyDump_askable whole
  have hask' := pyDump_askable points
  have hne : dics ≠ [] := fun e => hask.1 (by rw [e]; rfl)
  obtain ⟨d0, rest, hd0⟩ := List.exists_cons_of_ne_nil hne
  have hnonneg : ∀ p ∈ ps, 0 ≤ p := by
    intro p hp
    have := (hask'.2 (d0, ps.map (fun p => (p, p + 1)), hash') (by rw [hd0]; exact List.mem_cons_self ..)).2 (p, p + 1)
      (List.mem_map.mpr ⟨p, hp, rfl⟩)
    exact this.1
  have hsmall : n < 2 ^ 64 := by
    have := (hask.2 (d0, [(0, (n : Int))], hash) (by rw [hd0]; exact List.mem_cons_self ..)).2 (0, (n : Int))
      (List.mem_cons_self ..)
    have := this.2.2
    simp only at this
    omega
  obtain ⟨l1, k1⟩ := C62_dictionary_to_arrays_partial E C R sound offs hoffs U d mode lazy cap fs apart room agree es allowed
    s history S stored node cat catalogue lists sched strict zero _
    (fun it hit => by obtain ⟨y, hy, e⟩ := List.mem_map.mp hit; rw [← e]; exact named y hy) out whole
  obtain ⟨l2, k2⟩ := C62_dictionary_to_arrays_partial E C R sound offs hoffs U d mode lazy cap fs apart room agree es allowed
    s history S stored node cat catalogue lists sched' strict zero _
    (fun it hit => by obtain ⟨y, hy, e⟩ := List.mem_map.mp hit; rw [← e]; exact named y hy) out' points
  rw [List.length_map] at l1 l2
  have hasked : (ps.map fun p => (p, p + 1)).map (fun r : Int × Int => (⟨r.1.toNat, r.2.toNat⟩ : Interval)) =
      ps.map fun p => ⟨p.toNat, p.toNat + 1⟩ := by
    rw [List.map_map]
    apply List.map_congr_left
    intro p hp
    have := hnonneg p hp
    simp only [Function.comp, Interval.mk.injEq, true_and]
    omega
  have hinc : ps.Pairwise (· < ·) := by
    obtain ⟨e', he', hs', -, r', hr', ho'⟩ := k2 0 (by rw [hd0]; simp)
    simp only [List.getElem_map, hasked] at hr'
    have hm : ∃ file off, messageExtract R file off (ps.map fun p => ⟨p.toNat, p.toNat + 1⟩) = .ok r' := by
      rw [FieldAt] at hr'
      split at hr'
      · exact ⟨_, _, hr'⟩
      · obtain ⟨file, -, h⟩ := hr'; exact ⟨_, _, h⟩
    obtain ⟨file, off, hm⟩ := hm
    apply increasing_of_next
    intro k a b ha hb
    have h1 := message_ordered hm (k := k) (a := ⟨a.toNat, a.toNat + 1⟩) (b := ⟨b.toNat, b.toNat + 1⟩)
      (by rw [List.getElem?_map, ha]; rfl) (by rw [List.getElem?_map, hb]; rfl)
    have h2 := hnonneg a (List.mem_of_getElem? ha)
    have h3 := hnonneg b (List.mem_of_getElem? hb)
    simp only at h1
    omega
  refine ⟨⟨hinc, hnonneg⟩, l1, l2, fun i hi => ?_⟩
  obtain ⟨e, he, -, huniq, r, hr, ho⟩ := k1 i (by rw [List.length_map]; exact hi)
  obtain ⟨e', he', hs', -, r', hr', ho'⟩ := k2 i (by rw [List.length_map]; exact hi)
  simp only [List.getElem_map] at huniq hs' hr hr'
  have hee := huniq e' he' hs'
  subst hee
  rw [hasked] at hr'
  have hr : FieldAt R s.disk stored e'.2 [⟨0, n⟩] r := by simpa using hr
  obtain ⟨ex, field, present, hA, hex⟩ := field_parts (fair e' he') hsmall hr
  have hw := hex _ _ hr
  rw [hA.whole] at hw
  have hw := (Except.ok.inj hw).symm
  subst hw
  have hne' : ps ≠ [] := by
    intro e0
    have := (hask'.2 (d0, ps.map (fun p => (p, p + 1)), hash') (by rw [hd0]; exact List.mem_cons_self ..)).1
    exact this (by rw [e0]; rfl)
  have hg := hex _ _ hr'
  rw [hA.parts _ ⟨by simpa using hne', ?_, ?_⟩] at hg
  · have hg := (Except.ok.inj hg).symm
    subst hg
    refine ⟨field, present, _, hA.values, hA.flags, ho, ho', by simp, ?_⟩
    intro k p hk
    have hp := hnonneg p (List.mem_of_getElem? hk)
    have hlt := inside p (List.mem_of_getElem? hk)
    have h1 : p.toNat < field.length := by rw [hA.values]; omega
    have h2 : p.toNat < present.length := by rw [hA.flags]; omega
    have one : ∀ {α : Type} (l : List α) (q : Nat) (h : q < l.length), slice l q (q + 1 - q) = [l[q]] := by
      intro α l q h
      rw [show q + 1 - q = 1 by omega, slice_cons l q 0 l[q] (List.getElem?_eq_getElem h)]
      simp [slice]
    refine ⟨field[p.toNat], present[p.toNat], List.getElem?_eq_getElem h1, List.getElem?_eq_getElem h2, ?_⟩
    rw [List.getElem?_zip_eq_some]
    simp only [List.map_map, List.getElem?_map, hk, Option.map_some, Function.comp]
    rw [one field _ h1, one present _ h2]
    exact ⟨rfl, rfl⟩
  · rw [List.pairwise_map]
    apply List.Pairwise.imp_of_mem _ hinc
    intro a b ha hb hab
    have h2 := hnonneg a ha
    simp only
    omega
  · intro x hx
    obtain ⟨p, hp, e⟩ := List.mem_map.mp hx
    have h2 := hnonneg p hp
    have h3 := inside p hp
    rw [← e]
    simp only
    omega

/-! ## Cases -/

def c84Dics : List (List (Str × Str)) :=
  [[("step".toList, "6".toList), ("date".toList, "20250101".toList)],
   [("step".toList, "12".toList), ("date".toList, "20250101".toList)]]

theorem toy_fair (file : List UInt8) (offset n : Nat) : FairCcsds toyReader file offset n := by
  intro h hp hc
  have : h.packingType = "grid_simple" := by
    change toyParse _ = some h at hp
    unfold toyParse at hp
    split at hp
    · split at hp
      · have := Option.some.inj hp
        rw [← this]
      · cases hp
    · cases hp
  rw [this] at hc
  exact absurd hc (by decide)

/-- Non-vacuity: the fields of the node of C50, whole, by a mask and by indices, under different schedules.  The remaining
hypotheses are those of C50 and C62. -/
example : (∀ e ∈ c50Cat, FairAt toyReader c50State.disk (fun _ => toyMessage) e.2 4) ∧
    (∀ dic ∈ c84Dics, FieldDict dic) := by
  refine ⟨fun e _ => ?_, fun dic hd => ?_⟩
  · rw [FairAt]
    split
    · exact toy_fair _ _ _
    · exact fun _ _ => toy_fair _ _ _
  · have : c84Dics.all c62Good = true := by decide +kernel
    exact c62_fieldDict (List.all_eq_true.mp this dic hd)

example : pyExtractFromRanges 0 none (localExtract c50Env c50Conf [1, 0, 1, 0]) c84Dics [(0, 4)] (some "g".toList) =
      .ok [[[([10, 11, 12, 13], [15])]], [[([10, 11, 12, 13], [15])]]] ∧
    pyExtractFromMask 0 none (localExtract c50Env c50Conf [0, 1]) c84Dics [true, false, true, true] (some "g".toList) =
      .ok [[[([10], [1]), ([12, 13], [3])]], [[([10], [1]), ([12, 13], [3])]]] ∧
    selected ([10, 11, 12, 13] : List UInt64) [true, false, true, true] = [10, 12, 13] :=
  ⟨by decide +kernel, by decide +kernel, by decide +kernel⟩

example : pyExtractFromIndices 0 none (localExtract c50Env c50Conf [0, 1]) c84Dics [0, 3] (some "g".toList) =
      .ok [[[([10], [1]), ([13], [1])]], [[([10], [1]), ([13], [1])]]] ∧
    (pyExtractFromIndices 0 none (localExtract c50Env c50Conf [0, 1]) c84Dics [3, 0] (some "g".toList)).toOption =
      none := by decide +kernel

/-- Non-vacuity for CCSDS packing with a bitmap: the message of C47 is fair; whole, and by the runs of a mask that cut
through its blocks. -/
example : FairCcsds (ratReader (fun _ => 5) (fun _ => some c47Header) unaryLib false true) [9, 0xD2, 0x00, 0x31, 0x40] 0 10 := by
  intro h hp _
  have e : c47Header = h := Option.some.inj hp
  subst e
  exact ⟨unary_contract, by decide +kernel, by decide +kernel, by decide +kernel, by decide +kernel⟩

example : messageExtract (ratReader (fun _ => 5) (fun _ => some c47Header) unaryLib false true)
      [9, 0xD2, 0x00, 0x31, 0x40] 0 [⟨0, 10⟩] =
      .ok ⟨[[some 7, some 5, none, some 8, none, none, some 6, none, none, none]], [[0x4B]]⟩ ∧
    pyFromMask [false, true, true, true, false, false, true, false, false, false] = .ok [⟨1, 4⟩, ⟨6, 7⟩] ∧
    messageExtract (ratReader (fun _ => 5) (fun _ => some c47Header) unaryLib false true)
      [9, 0xD2, 0x00, 0x31, 0x40] 0 [⟨1, 4⟩, ⟨6, 7⟩] = .ok ⟨[[some 5, none, some 8], [some 6]], [[5], [1]]⟩ := by
  decide +kernel

end GJ
