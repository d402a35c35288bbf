import Verif.Model.Rust
import Verif.Spec.Rust
import Verif.Props.C40
import Verif.Props.C62

/-!
# C64: the Rust client

Iteration, results, validity, requests and errors as a Rust user sees them.
-/

namespace GJ

open Spec

/-! ## Iteration -/

theorem bridgeNext_yields {R : Type} {s : VecSource R} {r : R} {rest : List R} (h : Yields s (r :: rest)) :
    s.hasNext = true ∧ ∃ s', bridgeNext s = .ok (r, s') ∧ Yields s' rest := by
  obtain ⟨h1, h2, h3⟩ := yields_next s _ h
  have h1 : s.hasNext = true := h1
  refine ⟨h1, s.next.2, ?_, h3⟩
  rw [bridgeNext, if_pos h1]
  cases hn : s.next with
  | mk a b =>
    rw [hn] at h2
    have e : a = some r := h2
    subst e
    rfl

theorem rustStep_yields {R : Type} {s : VecSource R} {r : R} {rest : List R} (h : Yields s (r :: rest)) (op : RustOp) :
    ∃ s', rustStep s op = .ok (.item r, s') ∧ Yields s' rest := by
  obtain ⟨h1, s', h2, h3⟩ := bridgeNext_yields h
  refine ⟨s', ?_, h3⟩
  cases op with
  | next =>
    rw [rustStep, rustNext, if_pos h1, h2, ok_bind, ok_bind]
  | nextResult =>
    rw [rustStep, rustNextResult, if_pos h1, h2]

/-- What a call shows when there is nothing left. -/
def RustOp.atEnd {R : Type} : RustOp → RustSeen R
  | .next => .stop
  | .nextResult => .exhausted

theorem rustStep_end {R : Type} {s : VecSource R} (h : Yields s []) (op : RustOp) :
    rustStep s op = .ok (op.atEnd, s) := by
  obtain ⟨h1, -, -⟩ := yields_next s _ h
  have h1 : ¬ s.hasNext = true := by rw [h1]; exact Bool.false_ne_true
  cases op with
  | next => rw [rustStep, rustNext, if_neg h1, ok_bind]; rfl
  | nextResult => rw [rustStep, rustNextResult, if_neg h1]; rfl

/-- **C64, iteration.**  However `next` and `next_result` are mixed, they return the results in order, each once; after the
last, `next` returns none and `next_result` the exhausted error, for ever. -/
theorem C64_iteration {R : Type} (results : List R) (ops : List RustOp) :
    rustRun ops ⟨results.map some, 0⟩ =
      .ok ((results.take ops.length).map .item ++ (ops.drop results.length).map RustOp.atEnd) := by
  have gen : ∀ (ops : List RustOp) (s : VecSource R) (rem : List R), Yields s rem →
      rustRun ops s = .ok ((rem.take ops.length).map .item ++ (ops.drop rem.length).map RustOp.atEnd) := by
    intro ops
    induction ops with
    | nil => intro s rem _; simp [rustRun]
    | cons op ops ih =>
      intro s rem hy
      cases rem with
      | nil =>
        rw [rustRun, rustStep_end hy, ok_bind]
        simp only
        rw [ih s [] hy, ok_bind]
        simp
      | cons r rest =>
        obtain ⟨s', h1, h2⟩ := rustStep_yields hy op
        rw [rustRun, h1, ok_bind]
        simp only
        rw [ih s' rest h2, ok_bind]
        simp
  exact gen ops _ results ⟨by simp, by simp⟩

example : rustRun [.next, .nextResult, .next, .nextResult] ⟨[some 7, some 8], 0⟩ =
    .ok [.item 7, .item 8, .stop, .exhausted] := C64_iteration [7, 8] _

/-! ## Results -/

/-- **C64, results.**  A range beyond the last is none; the ranges of a result are its value arrays, in order, each with
its own mask; the number of values is that of all ranges. -/
theorem C64_result {V : Type} (r : ExResult V) (masked : r.mask.length = r.values.length) :
    rustNumRanges r = r.values.length ∧ (∀ i, r.values.length ≤ i → rustRangeAt r i = none) ∧
    rustRanges r = (r.values.zip r.mask).map (fun p => ⟨p.1, p.2⟩) ∧ rustTotal r = r.values.flatten.length := by
  refine ⟨rfl, fun i hi => if_pos hi, ?_, ?_⟩
  · have hall : ∀ i ∈ List.range (rustNumRanges r), rustRangeAt r i = some ⟨rustValuesAt r i, rustMasksAt r i⟩ := by
      intro i hi
      rw [List.mem_range] at hi
      rw [rustRangeAt, if_neg (by omega)]
    have hm : rustRanges r = (List.range (rustNumRanges r)).map fun i => ⟨rustValuesAt r i, rustMasksAt r i⟩ := by
      rw [rustRanges]
      generalize List.range (rustNumRanges r) = l at hall
      induction l with
      | nil => rfl
      | cons i rest ih =>
        rw [List.filterMap_cons, hall i (List.mem_cons_self ..), List.map_cons,
          ← ih fun j hj => hall j (List.mem_cons_of_mem _ hj)]
    rw [hm]
    apply List.ext_getElem
    · simp [rustNumRanges, masked]
    · intro i h1 h2
      have hv : i < r.values.length := by simpa [rustNumRanges] using h1
      have hk : i < r.mask.length := by omega
      simp [rustValuesAt, rustMasksAt, hv, hk]
  · rw [rustTotal, rustNumRanges, List.length_flatten]
    congr 1
    apply List.ext_getElem
    · simp
    · intro i h1 h2
      have hv : i < r.values.length := by simpa using h1
      simp [rustValuesAt, hv]

example : rustRanges (⟨[[1, 2], [3]], [[3], [1]]⟩ : ExResult Nat) = [⟨[1, 2], [3]⟩, ⟨[3], [1]⟩] :=
  (C64_result (⟨[[1, 2], [3]], [[3], [1]]⟩ : ExResult Nat) rfl).2.2.1

/-! ## Validity -/

theorem validity_from {V : Type} (bm : List Bool) (vs : List V) : ∀ (k : Nat) (bs : List Bool),
    bs = bm.drop k → vs.length = bs.length →
    (vs.zipIdx k).map (fun p => (p.1, rustIsValid (toBitset bm) p.2)) = vs.zip bs ∧
    ((vs.zipIdx k).filter fun p => rustIsValid (toBitset bm) p.2).map Prod.fst = presentValues vs bs := by
  induction vs with
  | nil => intro k bs _ _; exact ⟨rfl, rfl⟩
  | cons v rest ih =>
    intro k bs hb hl
    match bs, hb, hl with
    | b :: bs, hb, hl =>
      have hk : k < bm.length := by
        rcases Nat.lt_or_ge k bm.length with h | h
        · exact h
        · rw [List.drop_eq_nil_of_le h] at hb; cases hb
      rw [List.drop_eq_getElem_cons hk] at hb
      obtain ⟨e1, e2⟩ := List.cons.inj hb
      obtain ⟨h1, h2⟩ := ih (k + 1) bs e2 (by simpa using hl)
      have hv : rustIsValid (toBitset bm) k = b := by rw [C10_rust_roundtrip bm k hk, e1]
      refine ⟨?_, ?_⟩
      · rw [List.zipIdx_cons, List.map_cons, h1, hv]; rfl
      · rw [List.zipIdx_cons, List.filter_cons]
        simp only [hv]
        cases b with
        | true => rw [if_pos rfl, List.map_cons, h2]; rfl
        | false => rw [if_neg (by decide), h2]; rfl

/-- **C64, validity.**  With the mask of some presence flags, each value comes with its flag, and the valid values are those
of the points that are present, in order. -/
theorem C64_validity {V : Type} (values : List V) (present : List Bool) (same : values.length = present.length) :
    (RangeView.mk values (toBitset present)).withValidity = values.zip present ∧
    (RangeView.mk values (toBitset present)).validValues = presentValues values present :=
  validity_from present values 0 present rfl same

theorem spread_present {V : Type} (nan : V) : ∀ (bm : List Bool) (stored : List V), countTrue bm ≤ stored.length →
    (spread nan bm stored).length = bm.length ∧
    presentValues (spread nan bm stored) bm = stored.take (countTrue bm) := by
  intro bm
  induction bm with
  | nil => intro stored _; exact ⟨rfl, by simp [countTrue, spread, presentValues]⟩
  | cons b rest ih =>
    intro stored he
    cases b with
    | false =>
      have he : countTrue rest ≤ stored.length := by simpa [countTrue] using he
      obtain ⟨h1, h2⟩ := ih stored he
      exact ⟨by simp [spread, h1], by simpa [spread, presentValues, countTrue] using h2⟩
    | true =>
      cases stored with
      | nil => simp [countTrue] at he
      | cons v vs =>
        have he : countTrue rest ≤ vs.length := by simpa [countTrue] using he
        obtain ⟨h1, h2⟩ := ih vs he
        exact ⟨by simp [spread, h1], by simpa [spread, presentValues, countTrue] using h2⟩

/-- Of a field with missing points, the valid values are the stored ones. -/
theorem C64_valid_are_stored {V : Type} (nan : V) (bm : List Bool) (stored : List V)
    (enough : countTrue bm ≤ stored.length) :
    (RangeView.mk (spread nan bm stored) (toBitset bm)).validValues = stored.take (countTrue bm) := by
  obtain ⟨h1, h2⟩ := spread_present nan bm stored enough
  rw [(C64_validity _ _ h1).2, h2]

example : (RangeView.mk [10, 99, 12] (toBitset [true, false, true])).validValues = [10, 12] :=
  (C64_validity (V := Nat) [10, 99, 12] [true, false, true] rfl).2

/-- **C64, from the message to the user.**  Of a simple-packed message, a Rust user gets range by range the decoded field,
each value with the flag that tells whether the point is present, and as valid values those of the present points.  Missing
from the full property: what is missing in C40. -/
theorem C64_message_to_rust_partial (dbl : UInt64 → Rat) (file : List UInt8) (offset : Nat)
    (info : JumpInfo) (gridded : info.sphericalHarmonics = 0)
    (width : info.bitsPerValue ≤ 58 ∨ info.bitsPerValue = 60 ∨ info.bitsPerValue = 64)
    (constant : info.bitsPerValue = 0 → info.offsetBeforeBitmap = 0 ∧ info.decimalScaleFactor = 0)
    (points : info.numberOfDataPoints ≤ 2 ^ 60) (order : info.offsetBeforeData ≤ info.offsetAfterData)
    (dataAvailable : offset + info.offsetAfterData ≤ file.length)
    (bitmapAvailable : info.offsetBeforeBitmap ≠ 0 →
      offset + info.offsetBeforeBitmap + (info.numberOfDataPoints + 7) / 8 ≤ file.length)
    (dataComplete : countTrue (messageAt dbl file offset info).present * info.bitsPerValue ≤
      8 * (info.offsetAfterData - info.offsetBeforeData))
    (is : List Interval) (nonempty : is ≠ []) (sorted : is.Pairwise (fun a b => a.e ≤ b.b))
    (inside : ∀ i ∈ is, i.b ≤ i.e ∧ i.e ≤ info.numberOfDataPoints) :
    ∃ r, extract (ratArith dbl) (simpleReadValues (ratArith dbl) file offset (.simple info)) file offset info is = .ok r ∧
      (rustRanges r).map RangeView.withValidity = is.map (fun i =>
        (slice (messageAt dbl file offset info).field i.b (i.e - i.b)).zip
          (slice (messageAt dbl file offset info).present i.b (i.e - i.b))) ∧
      (rustRanges r).map RangeView.validValues = is.map (fun i =>
        presentValues (slice (messageAt dbl file offset info).field i.b (i.e - i.b))
          (slice (messageAt dbl file offset info).present i.b (i.e - i.b))) := by
  have h := C40_end_to_end_partial dbl file offset info gridded width constant points order dataAvailable bitmapAvailable
    dataComplete is nonempty sorted inside
  refine ⟨_, h, ?_⟩
  have complete : (messageAt dbl file offset info).field.length = (messageAt dbl file offset info).present.length :=
    (spread_present none _ _ (by simp [Message.stored])).1
  generalize (messageAt dbl file offset info).field = field at complete
  generalize (messageAt dbl file offset info).present = present at complete
  have hs : ∀ i : Interval, (slice field i.b (i.e - i.b)).length = (slice present i.b (i.e - i.b)).length := by
    intro i; rw [slice, slice, List.length_take, List.length_take, List.length_drop, List.length_drop, complete]
  have hr : rustRanges (⟨is.map fun i => slice field i.b (i.e - i.b),
      is.map fun i => toBitset (slice present i.b (i.e - i.b))⟩ : ExResult (Option Rat)) =
      is.map fun i => ⟨slice field i.b (i.e - i.b), toBitset (slice present i.b (i.e - i.b))⟩ := by
    rw [(C64_result _ (by simp)).2.2.1, List.zip_map', List.map_map]
    rfl
  rw [hr]
  refine ⟨?_, ?_⟩
  · rw [List.map_map]
    exact List.map_congr_left fun i _ => (C64_validity _ _ (hs i)).1
  · rw [List.map_map]
    exact List.map_congr_left fun i _ => (C64_validity _ _ (hs i)).2

/-- The message of C40's example, with a bitmap: two ranges, missing points in the first. -/
example : ∃ r, extract (ratArith fun _ => 0) (simpleReadValues (ratArith fun _ => 0)
      [9, 0xD2, 0xC0, 10, 11, 12, 13, 14, 15] 0 (.simple c40Info)) [9, 0xD2, 0xC0, 10, 11, 12, 13, 14, 15] 0 c40Info
      [⟨1, 5⟩, ⟨5, 6⟩] = .ok r ∧
    (rustRanges r).map RangeView.validValues =
      ([⟨1, 5⟩, ⟨5, 6⟩] : List Interval).map (fun i => presentValues
        (slice (messageAt (fun _ => 0) [9, 0xD2, 0xC0, 10, 11, 12, 13, 14, 15] 0 c40Info).field i.b (i.e - i.b))
        (slice (messageAt (fun _ => 0) [9, 0xD2, 0xC0, 10, 11, 12, 13, 14, 15] 0 c40Info).present i.b (i.e - i.b))) := by
  obtain ⟨r, h1, -, h2⟩ := C64_message_to_rust_partial (fun _ => 0) [9, 0xD2, 0xC0, 10, 11, 12, 13, 14, 15] 0 c40Info
    (by decide) (by decide) (by decide) (by decide) (by decide) (by decide) (by decide) (by decide +kernel)
    [⟨1, 5⟩, ⟨5, 6⟩] (by decide) (by decide) (by decide)
  exact ⟨r, h1, h2⟩

/-! ## Requests -/

/-- **C64, ranges.**  `Range::new` accepts exactly the ranges of at least one point. -/
theorem C64_range_iff (a b : Nat) : (∃ i, rustRange a b = .ok i) ↔ a < b := by
  rw [rustRange]
  by_cases h : a ≥ b
  · rw [if_pos h]
    exact ⟨fun ⟨i, h'⟩ => (by cases h'), fun h' => (by omega)⟩
  · rw [if_neg h]
    exact ⟨fun _ => (by omega), fun _ => ⟨_, rfl⟩⟩

/-- **Disagreement.**  Ranges converted from `start..end` are not checked: one that runs backwards reaches extraction, where
it is undefined. -/
theorem C64_range_from_unchecked : rustRange 10 5 = throwExn .userError ∧
    machineExtract 1000 plainReader (List.replicate 30 7) 0
      (.simple { sampleInfo with offsetAfterData := 28, numberOfValues := 26 }) [rustRangeFrom 10 5, rustRangeFrom 5 20] =
      undef := ⟨rfl, C54_backward_interval_undefined⟩

/-- **C64, requests by file.**  Made from its parts, or from the default with the parts set in any of the orders in which
each is set once, a request reaches the library as the one Python makes of the same parts. -/
theorem C64_path_request (path scheme host hash : String) (offset : Nat) (port : Int) (rs : List (Int × Int))
    (clean : Char.ofNat 0 ∉ path.toList ∧ Char.ofNat 0 ∉ scheme.toList ∧ Char.ofNat 0 ∉ host.toList ∧
      Char.ofNat 0 ∉ hash.toList) (shape : List Nat) (q : PathReq)
    (python : pyNewPathRequest path.toList scheme.toList offset host.toList port rs (some hash.toList) = .ok (q, shape)) :
    (rustPathParts path scheme offset (some host) port (asked rs) hash).toCxx = q ∧
    (((((rustPath path (asked rs) hash).withScheme scheme).withOffset offset).withHost host).withPort port).toCxx = q ∧
    (((((rustPath path (asked rs) hash).withPort port).withHost host).withOffset offset).withScheme scheme).toCxx = q := by
  have h := (C62_path_request path.toList scheme.toList host.toList offset port rs (some hash.toList)
    ⟨clean.1, clean.2.1, clean.2.2.1, fun h e => by rw [← Option.some.inj e]; exact clean.2.2.2⟩).2 _ python
  have e : q = ⟨path, scheme, offset, host, port, asked rs, hash⟩ := by
    have h1 : q = _ := h.1
    rw [h1]
    simp [asked]
  subst e
  exact ⟨rfl, rfl, rfl⟩

example : (((((rustPath "/d/f" (asked [(0, 3)]) "h").withScheme "file").withOffset 12).withHost "n1").withPort 9000).toCxx =
    ⟨"/d/f", "file", 12, "n1", 9000, [⟨0, 3⟩], "h"⟩ :=
  (C64_path_request "/d/f" "file" "n1" "h" 12 9000 [(0, 3)] (by decide +kernel) [3] _ (by rfl)).2.1

/-- By default a request by file is for the first message of a file on this host. -/
theorem C64_path_default (path hash : String) (rs : List Interval) :
    (rustPath path rs hash).toCxx = ⟨path, "file", 0, "", 0, rs, hash⟩ := rfl

/-- A call of one of the builder methods. -/
inductive PathSetting where
  | scheme (s : String)
  | offset (o : Nat)
  | host (h : String)
  | port (n : Int)

def PathSetting.on (p : RustPath) : PathSetting → RustPath
  | .scheme s => p.withScheme s
  | .offset o => p.withOffset o
  | .host h => p.withHost h
  | .port n => p.withPort n

def PathSetting.scheme? : PathSetting → Option String
  | .scheme s => some s
  | _ => none

def PathSetting.offset? : PathSetting → Option Nat
  | .offset o => some o
  | _ => none

def PathSetting.host? : PathSetting → Option String
  | .host h => some h
  | _ => none

def PathSetting.port? : PathSetting → Option Int
  | .port n => some n
  | _ => none

/-- The last of these, if there is one. -/
def lastOr {α β : Type} (f : α → Option β) (l : List α) (d : β) : β := ((l.filterMap f).getLast?).getD d

theorem lastOr_snoc {α β : Type} (f : α → Option β) (l : List α) (x : α) (d : β) :
    lastOr f (l ++ [x]) d = (f x).getD (lastOr f l d) := by
  unfold lastOr
  rw [List.filterMap_append]
  cases h : f x with
  | none => simp [h]
  | some y => simp [h]

/-- **C64, requests by file, builder methods.**  However often and in whichever order the parts are set, each part that
reaches the library is the one set last, or the default. -/
theorem C64_path_builder (path hash : String) (rs : List Interval) (settings : List PathSetting) :
    (settings.foldl PathSetting.on (rustPath path rs hash)).toCxx =
      ⟨path, lastOr PathSetting.scheme? settings "file", lastOr PathSetting.offset? settings 0,
        lastOr PathSetting.host? settings "", lastOr PathSetting.port? settings 0, rs, hash⟩ := by
  have gen : ∀ (rev : List PathSetting),
      (rev.reverse.foldl PathSetting.on (rustPath path rs hash)).toCxx =
        ⟨path, lastOr PathSetting.scheme? rev.reverse "file", lastOr PathSetting.offset? rev.reverse 0,
          lastOr PathSetting.host? rev.reverse "", lastOr PathSetting.port? rev.reverse 0, rs, hash⟩ := by
    intro rev
    induction rev with
    | nil => rfl
    | cons x rev ih =>
      rw [List.reverse_cons, List.foldl_append, lastOr_snoc, lastOr_snoc, lastOr_snoc, lastOr_snoc]
      generalize rev.reverse.foldl PathSetting.on (rustPath path rs hash) = p at ih
      rw [RustPath.toCxx] at ih
      injection ih with h1 h2 h3 h4 h5 h6 h7
      cases x <;>
        simp only [List.foldl_cons, List.foldl_nil, PathSetting.on, RustPath.withScheme, RustPath.withOffset,
          RustPath.withHost, RustPath.withPort, RustPath.toCxx, PathSetting.scheme?, PathSetting.offset?, PathSetting.host?,
          PathSetting.port?, Option.getD_some, Option.getD_none, h1, h2, h3, h4, h5, h6, h7]
  have := gen settings.reverse
  rwa [List.reverse_reverse] at this

example : ([.host "n1", .port 1, .host "n2", .offset 7].foldl PathSetting.on (rustPath "/d/f" [] "h")).toCxx =
    ⟨"/d/f", "file", 7, "n2", 1, [], "h"⟩ := by rw [C64_path_builder]; rfl

/-! ## Errors -/

theorem not_prefix_append {p q : Str} (h1 : ¬ p <+: q) (h2 : ¬ q <+: p) (w : Str) : p.isPrefixOf (q ++ w) = false := by
  rw [Bool.eq_false_iff]
  intro h
  have h := List.isPrefixOf_iff_prefix.mp h
  rcases List.prefix_or_prefix_of_prefix h (List.prefix_append q w) with h | h
  · exact h1 h
  · exact h2 h

theorem rustError_prefixed : ∀ (before : List (CxxKind × Str)) (e : CxxKind × Str) (after : List (CxxKind × Str)),
    (∀ p ∈ before, ¬ p.2 <+: e.2 ∧ ¬ e.2 <+: p.2) → errorPrefixes = before ++ e :: after → ∀ w,
    rustError (e.2 ++ w) = (e.1, w) := by
  intro before e after hb he w
  have hf : errorPrefixes.find? (fun p => p.2.isPrefixOf (e.2 ++ w)) = some e := by
    rw [he, List.find?_append]
    have hn : before.find? (fun p => p.2.isPrefixOf (e.2 ++ w)) = none := by
      rw [List.find?_eq_none]
      intro p hp
      rw [not_prefix_append (hb p hp).1 (hb p hp).2]
      decide
    have hp : e.2.isPrefixOf (e.2 ++ w) = true := List.isPrefixOf_iff_prefix.mpr (List.prefix_append _ _)
    rw [hn, List.find?_cons, hp]
    rfl
  rw [rustError, hf]
  simp

/-- **C64, errors.**  An exception of each eckit kind arrives as the error of that kind, with its message; another C++
exception arrives as a general error with its message, unless that begins like one of eckit. -/
theorem C64_errors (kind : CxxKind) (what : Str) :
    (kind ≠ .std → kind ≠ .other → rustError (bridgeMessage kind what) = (kind, what)) ∧
    ((∀ p ∈ errorPrefixes, ¬ p.2 <+: what) → rustError (bridgeMessage .std what) = (.std, what)) ∧
    (rustError (bridgeMessage .other what)).1 = .std := by
  refine ⟨?_, ?_, (by decide +kernel : (rustError (bridgeMessage .other [])).1 = .std)⟩
  · intro h1 h2
    cases kind with
    | std => exact absurd rfl h1
    | other => exact absurd rfl h2
    | seriousBug => exact rustError_prefixed (errorPrefixes.take 0) _ (errorPrefixes.drop 1) (by decide +kernel) rfl what
    | userError => exact rustError_prefixed (errorPrefixes.take 1) _ (errorPrefixes.drop 2) (by decide +kernel) rfl what
    | badParameter => exact rustError_prefixed (errorPrefixes.take 2) _ (errorPrefixes.drop 3) (by decide +kernel) rfl what
    | notImplemented => exact rustError_prefixed (errorPrefixes.take 3) _ (errorPrefixes.drop 4) (by decide +kernel) rfl what
    | outOfRange => exact rustError_prefixed (errorPrefixes.take 4) _ (errorPrefixes.drop 5) (by decide +kernel) rfl what
    | fileError => exact rustError_prefixed (errorPrefixes.take 5) _ (errorPrefixes.drop 6) (by decide +kernel) rfl what
    | assertionFailed => exact rustError_prefixed (errorPrefixes.take 6) _ (errorPrefixes.drop 7) (by decide +kernel) rfl what
    | eckit => exact rustError_prefixed (errorPrefixes.take 7) _ (errorPrefixes.drop 8) (by decide +kernel) rfl what
  · intro h
    have hf : errorPrefixes.find? (fun p => p.2.isPrefixOf (bridgeMessage .std what)) = none := by
      rw [List.find?_eq_none]
      intro p hp hc
      exact h p hp (List.isPrefixOf_iff_prefix.mp hc)
    rw [rustError, hf]
    rfl

example : rustError (bridgeMessage .userError "no ranges".toList) = (.userError, "no ranges".toList) :=
  (C64_errors .userError _).1 (by decide) (by decide)

/-- **Disagreement.**  A C++ exception whose message begins like one of eckit is taken for it. -/
theorem C64_error_misread :
    rustError (bridgeMessage .std "ECKIT_USER_ERROR: x".toList) = (.userError, "x".toList) := by decide +kernel

end GJ
