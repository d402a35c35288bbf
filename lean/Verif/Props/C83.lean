import Verif.Model.RustCalls
import Verif.Props.C51
import Verif.Props.C64
import Verif.Props.C65

/-!
# C83: the calls of the Rust client

What a Rust user gets from each method of a handle: from the node's files to the iterator, the ranges of a result and the
number of a scan.
-/

namespace GJ
open Spec

/-! ## What the user sees of an iterator and of a result -/

/-- However the iterator is advanced, it shows these results, in order, each once, and then its end. -/
def ShowsInOrder {R : Type} (it : VecSource R) (out : List R) : Prop :=
  ∀ ops, rustRun ops it = .ok ((out.take ops.length).map .item ++ (ops.drop out.length).map RustOp.atEnd)

/-- A result shows one view per range asked for, in order: the values of the range and its mask, one value per point and
one word per 64 points. -/
def ShowsRanges (r : WireResult) (is : List Interval) : Prop :=
  rustRanges r = (r.values.zip r.mask).map (fun p => ⟨p.1, p.2⟩) ∧
  (rustRanges r).map (fun v => v.values.length) = is.map (fun i => i.e - i.b) ∧
  (rustRanges r).map (fun v => v.masks.length) = is.map fun i => (i.e - i.b + 63) / 64

theorem showsRanges_of {R : Reader UInt64} {file : List UInt8} {o : Nat} {is : List Interval} {r : WireResult}
    (wf : ∀ i ∈ is, i.b ≤ i.e ∧ i.e < 2 ^ 64) (h : messageExtract R file o is = .ok r) : ShowsRanges r is := by
  obtain ⟨h1, h2⟩ := C13_message_shape R file o is wf r h
  have hl : r.mask.length = r.values.length := by
    have a := congrArg List.length h1
    have b := congrArg List.length h2
    simp only [List.length_map] at a b
    omega
  have e := (C64_result r hl).2.2.1
  refine ⟨e, ?_, ?_⟩
  · rw [e, List.map_map, ← h1]
    have : ((fun v : RangeView UInt64 => v.values.length) ∘ fun p : List UInt64 × List Nat => ⟨p.1, p.2⟩) =
        List.length ∘ Prod.fst := rfl
    rw [this, ← List.map_map, List.map_fst_zip (by omega)]
  · rw [e, List.map_map, ← h2]
    have : ((fun v : RangeView UInt64 => v.masks.length) ∘ fun p : List UInt64 × List Nat => ⟨p.1, p.2⟩) =
        List.length ∘ Prod.snd := rfl
    rw [this, ← List.map_map, List.map_snd_zip (by omega)]

theorem showsRanges_field {R : Reader UInt64} {d : Disk} {stored : Uri → List UInt8} {u : Uri} {is : List Interval}
    {r : WireResult} (wf : ∀ i ∈ is, i.b ≤ i.e ∧ i.e < 2 ^ 64) (h : FieldAt R d stored u is r) : ShowsRanges r is := by
  unfold FieldAt at h
  split at h
  · exact showsRanges_of wf h
  · obtain ⟨file, -, h⟩ := h
    exact showsRanges_of wf h

/-- The requests as the Rust user wrote them. -/
def askedInRust (qs : List RustRequest) : List ExRequest := qs.map fun q => ⟨q.request, q.ranges, q.gridHash⟩

theorem rustExtract_ok {A : Around} {h : Handle} {ctx : String} {qs : List RustRequest} {it : VecSource WireResult}
    (returned : rustExtract A h ctx qs = .ok it) :
    ∃ out, h.extract A ctx (askedInRust qs) = .ok out ∧ it = ⟨out.map some, 0⟩ := by
  rw [rustExtract] at returned
  obtain ⟨out, h1, h2⟩ := res_bind_inv returned
  exact ⟨out, h1, (Except.ok.inj h2).symm⟩

theorem here_extract {A : Around} {ctx : String} {rs : List ExRequest} {out : List WireResult}
    (h : Handle.here.extract A ctx rs = .ok out) : A.extract rs = .ok out := by
  rw [Handle.extract] at h
  split at h
  · cases h
  · exact h

/-! ## Extraction of fields -/

/-- **C83, fields.**  On a node with any history: if `extract` returns, the iterator shows one result per request, in order;
it is what the one matching message holds in the ranges asked for, shown range by range.  Missing from the full property:
what is missing in C50. -/
theorem C83_fields_partial (E : ExtEnv) (C : EngineConf) (R : Reader UInt64) (sound : SoundReader R)
    (offs : List UInt8 → Res (List Nat)) (hoffs : ∀ file, offs file ≠ undef) (U : String → Prop) (d : Disk)
    (mode : CacheMode) (lazy : Bool) (cap : Nat) (fs : FS) (apart : ToldApart mode U) (room : 0 < cap)
    (agree : GoodIndex (diskWorld R offs d) U mode fs) (es : List SEv) (allowed : ∀ e ∈ es, e.Allowed U)
    (s : Svc UInt64) (history : (Svc.start R offs d mode lazy cap fs).run R offs es = .ok s) (S : Store)
    (stored : Uri → List UInt8) (node : Behind E C R s S stored) (cat : List (FdbKey × Uri))
    (catalogue : Catalogue C.ignoreYearMonth cat) (lists : ListsOnly E cat) (sched : List Nat) (A : Around)
    (onNode : A.extract = localExtract E C sched) (ctx : String) (qs : List RustRequest)
    (wf : ∀ q ∈ qs, ∀ i ∈ q.ranges, i.b ≤ i.e ∧ i.e < 2 ^ 64) (ws : List WrittenRequest)
    (written : Written (askedInRust qs) ws) (strict : C.allowMissing = false) (it : VecSource WireResult)
    (returned : rustExtract A .here ctx qs = .ok it) :
    ∃ out, ShowsInOrder it out ∧ out.length = qs.length ∧ ∀ i (hi : i < qs.length) (hj : i < ws.length),
      ∃ e ∈ cat, SameField C.ignoreYearMonth ws[i].pairs e.1 ∧
        (∀ e' ∈ cat, SameField C.ignoreYearMonth ws[i].pairs e'.1 → e' = e) ∧
        ∃ r, out[i]? = some r ∧ FieldAt R s.disk stored e.2 qs[i].ranges r ∧ ShowsRanges r qs[i].ranges := by
  obtain ⟨out, h1, rfl⟩ := rustExtract_ok returned
  have h2 := here_extract h1
  rw [onNode] at h2
  obtain ⟨h3, h4⟩ := C50_whole_node_partial E C R sound offs hoffs U d mode lazy cap fs apart room agree es allowed s history
    S stored node cat catalogue lists sched _ ws written strict out h2
  have hlen : (askedInRust qs).length = qs.length := List.length_map ..
  refine ⟨out, C64_iteration out, by omega, fun i hi hj => ?_⟩
  obtain ⟨e, he, hs, hu, r, hr, hf⟩ := h4 i (by omega) hj
  have hq : ((askedInRust qs)[i]'(by omega)).ranges = qs[i].ranges := by simp [askedInRust]
  rw [hq] at hf
  exact ⟨e, he, hs, hu, r, hr, hf, showsRanges_field (wf _ (List.getElem_mem hi)) hf⟩

/-- **C83, grid hashes.**  With grid checks on, `extract` returns only if every request carries the grid hash that the
header of its message states. -/
theorem C83_grid_partial (E : ExtEnv) (C : EngineConf) (R : Reader UInt64) (sound : SoundReader R)
    (offs : List UInt8 → Res (List Nat)) (hoffs : ∀ file, offs file ≠ undef) (U : String → Prop) (d : Disk)
    (mode : CacheMode) (lazy : Bool) (cap : Nat) (fs : FS) (apart : ToldApart mode U) (room : 0 < cap)
    (agree : GoodIndex (diskWorld R offs d) U mode fs) (es : List SEv) (allowed : ∀ e ∈ es, e.Allowed U)
    (s : Svc UInt64) (history : (Svc.start R offs d mode lazy cap fs).run R offs es = .ok s) (S : Store)
    (stored : Uri → List UInt8) (node : Behind E C R s S stored) (cat : List (FdbKey × Uri))
    (catalogue : Catalogue C.ignoreYearMonth cat) (lists : ListsOnly E cat) (inFiles : ∀ e ∈ cat, e.2.scheme ≠ "fdb")
    (sched : List Nat) (A : Around) (onNode : A.extract = localExtract E C sched) (ctx : String)
    (qs : List RustRequest) (ws : List WrittenRequest) (written : Written (askedInRust qs) ws)
    (strict : C.allowMissing = false) (here : C.forward = false) (checks : C.ignoreGrid = false)
    (it : VecSource WireResult) (returned : rustExtract A .here ctx qs = .ok it) :
    ∀ i (hi : i < qs.length) (hj : i < ws.length), ∃ e ∈ cat, SameField C.ignoreYearMonth ws[i].pairs e.1 ∧
      ∃ file h, s.disk e.2.path = some file ∧ R.parse (file.drop e.2.offset) = some h ∧
        qs[i].gridHash = h.md5GridSection := by
  obtain ⟨out, h1, -⟩ := rustExtract_ok returned
  have h2 := here_extract h1
  rw [onNode] at h2
  have h3 := C50_grid_of_the_message_partial E C R sound offs hoffs U d mode lazy cap fs apart room agree es allowed s
    history S stored node cat catalogue lists inFiles sched _ ws written strict here checks out h2
  intro i hi hj
  have hlen : (askedInRust qs).length = qs.length := List.length_map ..
  obtain ⟨e, he, hs, file, h, h4, h5, h6⟩ := h3 i (by omega) hj
  have hq : ((askedInRust qs)[i]'(by omega)).gridHash = qs[i].gridHash := by simp [askedInRust]
  rw [hq] at h6
  exact ⟨e, he, hs, file, h, h4, h5, h6⟩

/-- **C83, a server.**  With a remote handle to the node's server the same iterator comes back. -/
theorem C83_server_partial (E : ExtEnv) (C : EngineConf) (R : Reader UInt64) (sound : SoundReader R)
    (offs : List UInt8 → Res (List Nat)) (hoffs : ∀ file, offs file ≠ undef) (U : String → Prop) (d : Disk)
    (mode : CacheMode) (lazy : Bool) (cap : Nat) (fs : FS) (apart : ToldApart mode U) (room : 0 < cap)
    (agree : GoodIndex (diskWorld R offs d) U mode fs) (es : List SEv) (allowed : ∀ e ∈ es, e.Allowed U)
    (s : Svc UInt64) (history : (Svc.start R offs d mode lazy cap fs).run R offs es = .ok s) (S : Store)
    (stored : Uri → List UInt8) (node : Behind E C R s S stored) (cat : List (FdbKey × Uri))
    (catalogue : Catalogue C.ignoreYearMonth cat) (lists : ListsOnly E cat) (sched : List Nat)
    (axes : String → Int → Res (AMap String (List String))) (scan : List String → Bool → Res (Nat × List String))
    (forwardScan : AMap String (List Nat) → Res (Nat × List String)) (A : Around) (server : String × Int)
    (onNode : A.extract = localExtract E C sched)
    (onServer : A.server server = nodeEngine E C sched axes scan forwardScan) (ctx ctx' : String) (qs : List RustRequest)
    (ws : List WrittenRequest) (written : Written (askedInRust qs) ws)
    (fit : ∀ q ∈ askedInRust qs, q.Fits) (it : VecSource WireResult) :
    rustExtract A (.there server) ctx qs = .ok it ↔ rustExtract A .here ctx' qs = .ok it := by
  have same := fun out => C65_extract_partial E C R sound offs hoffs U d mode lazy cap fs apart room agree es allowed s
    history S stored node cat catalogue lists sched axes scan forwardScan A server onNode onServer ctx ctx' _ ws written fit
    out
  constructor
  · intro h
    obtain ⟨out, h1, rfl⟩ := rustExtract_ok h
    have h2 : Handle.here.extract A ctx' (qs.map fun r => rustRequest r.request r.ranges r.gridHash) = .ok out :=
      (same out).mp h1
    rw [rustExtract, h2, ok_bind]
  · intro h
    obtain ⟨out, h1, rfl⟩ := rustExtract_ok h
    have h2 : (Handle.there server).extract A ctx (qs.map fun r => rustRequest r.request r.ranges r.gridHash) = .ok out :=
      (same out).mpr h1
    rw [rustExtract, h2, ok_bind]

/-! ## Requests that stand for several fields -/

/-- **C83, requests with several values.**  `extract_mars` is `extract` with one request per part that the expansion gives,
in its order, each with the same ranges and the same hash; if nothing comes of the expansion the call is refused. -/
theorem C83_mars (expand : String → Res (List String)) (A : Around) (h : Handle) (ctx text : String)
    (ranges : List Interval) (hash : String) (parts : List String) (expanded : expand text = .ok parts) :
    rustExtractMars expand A h ctx text ranges hash =
      rustExtract A h ctx (parts.map fun t => ⟨t, ranges, hash⟩) ∧
    (parts = [] → rustExtractMars expand A h ctx text ranges hash = throwExn .userError) := by
  have e : rustExtractMars expand A h ctx text ranges hash =
      rustExtract A h ctx (parts.map fun t => ⟨t, ranges, hash⟩) := by
    rw [rustExtractMars, expanded, ok_bind, rustExtract, List.map_map]
    rfl
  refine ⟨e, fun hp => ?_⟩
  rw [e, hp, rustExtract, List.map_nil, List.map_nil, Handle.extract.eq_def, if_pos rfl, throwExn, error_bind]

/-! ## Requests by place -/

/-- Where a Rust path request points. -/
def RustPath.place (p : RustPath) : Uri := ⟨p.scheme, p.host.getD "", p.port, p.filename, p.offset⟩

/-- **C83, places.**  The same for `extract_from_paths`: each result is what the message at its own place holds in its own
ranges, provided requests for the same file agree on scheme, host and port. -/
theorem C83_paths_partial (E : ExtEnv) (C : EngineConf) (R : Reader UInt64) (sound : SoundReader R)
    (offs : List UInt8 → Res (List Nat)) (hoffs : ∀ file, offs file ≠ undef) (U : String → Prop) (d : Disk)
    (mode : CacheMode) (lazy : Bool) (cap : Nat) (fs : FS) (apart : ToldApart mode U) (room : 0 < cap)
    (agree : GoodIndex (diskWorld R offs d) U mode fs) (es : List SEv) (allowed : ∀ e ∈ es, e.Allowed U)
    (s : Svc UInt64) (history : (Svc.start R offs d mode lazy cap fs).run R offs es = .ok s) (S : Store)
    (stored : Uri → List UInt8) (node : Behind E C R s S stored) (sched : List Nat) (A : Around)
    (onNode : A.extractPaths = localExtractPaths E C sched) (qs : List RustPath)
    (wf : ∀ q ∈ qs, ∀ i ∈ q.ranges, i.b ≤ i.e ∧ i.e < 2 ^ 64)
    (agreed : ∀ a ∈ qs, ∀ b ∈ qs, a.filename = b.filename →
      a.scheme = b.scheme ∧ a.host.getD "" = b.host.getD "" ∧ a.port = b.port)
    (it : VecSource WireResult) (returned : rustExtractPaths A .here qs = .ok it) :
    ∃ out, ShowsInOrder it out ∧ out.length = qs.length ∧ ∀ (i : Nat) q, qs[i]? = some q →
      ∃ r, out[i]? = some r ∧ FieldAt R s.disk stored q.place q.ranges r ∧ ShowsRanges r q.ranges := by
  rw [rustExtractPaths] at returned
  obtain ⟨out, h1, h2⟩ := res_bind_inv returned
  have e := (Except.ok.inj h2).symm
  subst e
  rw [Handle.extractPaths] at h1
  split at h1
  · cases h1
  simp only [onNode] at h1
  have hplace : ∀ a ∈ qs.map RustPath.toCxx, ∀ b ∈ qs.map RustPath.toCxx, a.path = b.path →
      a.scheme = b.scheme ∧ a.host = b.host ∧ a.port = b.port := by
    intro a ha b hb hab
    obtain ⟨a', ha', rfl⟩ := List.mem_map.mp ha
    obtain ⟨b', hb', rfl⟩ := List.mem_map.mp hb
    exact agreed a' ha' b' hb' hab
  obtain ⟨h3, h4⟩ := C50_whole_node_paths_partial E C R sound offs hoffs U d mode lazy cap fs apart room agree es allowed s
    history S stored node sched _ hplace out h1
  refine ⟨out, C64_iteration out, by rw [h3, List.length_map], fun i q hq => ?_⟩
  obtain ⟨r, hr, hf⟩ := h4 i q.toCxx (by rw [List.getElem?_map, hq]; rfl)
  have hf : FieldAt R s.disk stored q.place q.ranges r := hf
  exact ⟨r, hr, hf, showsRanges_field (wf q (List.mem_of_getElem? hq)) hf⟩

/-- **C83, offsets of a file.**  `extract_from_file` returns exactly if the file is named and there, at least one message
is asked for, and every message can be read in its own ranges; the iterator then shows one result per message, in the order
in which they were added, each for its own ranges. -/
theorem C83_file (R : Reader UInt64) (files : String → Option (List UInt8)) (A : Around)
    (onNode : A.extractAt = apiExtractPath R files) (path : String) (file : List UInt8) (opened : files path = some file)
    (ms : List (Nat × List Interval)) (wf : ∀ m ∈ ms, ∀ i ∈ m.2, i.b ≤ i.e ∧ i.e < 2 ^ 64) :
    ((∃ it, rustExtractFile A .here ⟨path, ms⟩ = .ok it) ↔
      path ≠ "" ∧ ms ≠ [] ∧ ∀ m ∈ ms, ∃ r, messageExtract R file m.1 m.2 = .ok r) ∧
    ∀ it, rustExtractFile A .here ⟨path, ms⟩ = .ok it →
      ∃ out, ShowsInOrder it out ∧ out.length = ms.length ∧ ∀ (k : Nat) m, ms[k]? = some m →
        ∃ r, out[k]? = some r ∧ messageExtract R file m.1 m.2 = .ok r ∧ ShowsRanges r m.2 := by
  have hun : rustExtractFile A .here ⟨path, ms⟩ = (do
      let out ← Handle.here.extractAt A path (ms.map Prod.fst) (ms.map Prod.snd)
      .ok ⟨out.map some, 0⟩) := by
    rw [rustExtractFile, C38_ranges_survive_bridge, ok_bind]
  have hlen : (ms.map Prod.fst).length = (ms.map Prod.snd).length := by rw [List.length_map, List.length_map]
  by_cases hp : path = ""
  · have hbad : rustExtractFile A .here ⟨path, ms⟩ = throwExn .userError := by
      rw [hun, Handle.extractAt, if_pos hp, throwExn, error_bind]
    rw [hbad]
    refine ⟨⟨fun ⟨_, h⟩ => (by cases h), fun ⟨h, _⟩ => absurd hp h⟩, fun it h => (by cases h)⟩
  by_cases hm : ms = []
  · have hbad : rustExtractFile A .here ⟨path, ms⟩ = throwExn .userError := by
      rw [hun, Handle.extractAt, if_neg hp, if_pos (by rw [hm]; rfl), throwExn, error_bind]
    rw [hbad]
    refine ⟨⟨fun ⟨_, h⟩ => (by cases h), fun ⟨_, h, _⟩ => absurd hm h⟩, fun it h => (by cases h)⟩
  have hne : ms.map Prod.fst ≠ [] := fun h => hm (List.map_eq_nil_iff.mp h)
  have hcall : Handle.here.extractAt A path (ms.map Prod.fst) (ms.map Prod.snd) =
      apiExtractPath R files path (ms.map Prod.fst) (ms.map Prod.snd) := by
    rw [Handle.extractAt, if_neg hp, if_neg hne, if_neg (fun h => h hlen)]
    simp only [onNode]
  have key := fun rs => C47_one_result_per_offset R files path file (ms.map Prod.fst) (ms.map Prod.snd) rs hp opened hne hlen
  have hat : ∀ (k : Nat) m, ms[k]? = some m → (ms.map Prod.fst)[k]? = some m.1 ∧ (ms.map Prod.snd)[k]? = some m.2 := by
    intro k m hk
    rw [List.getElem?_map, List.getElem?_map, hk]
    exact ⟨rfl, rfl⟩
  rw [hun, hcall]
  constructor
  · constructor
    · rintro ⟨it, h⟩
      obtain ⟨out, h1, -⟩ := res_bind_inv h
      obtain ⟨-, h3⟩ := (key out).mp h1
      refine ⟨hp, hm, fun m hmm => ?_⟩
      obtain ⟨k, hk⟩ := List.getElem?_of_mem hmm
      obtain ⟨r, -, hr⟩ := h3 k _ _ (hat k m hk).1 (hat k m hk).2
      exact ⟨r, hr⟩
    · rintro ⟨-, -, hall⟩
      obtain ⟨f, hf⟩ : ∃ f : Nat × List Interval → WireResult, ∀ m ∈ ms, messageExtract R file m.1 m.2 = .ok (f m) := by
        refine ⟨fun m => (messageExtract R file m.1 m.2).toOption.getD ⟨[], []⟩, fun m hmm => ?_⟩
        obtain ⟨r, hr⟩ := hall m hmm
        simp only [hr]; rfl
      have h1 := (key (ms.map f)).mpr ⟨by rw [List.length_map, List.length_map], fun k o is ho his => by
        rw [List.getElem?_map] at ho his
        cases hk : ms[k]? with
        | none => rw [hk] at ho; cases ho
        | some m =>
          rw [hk] at ho his
          have e1 := Option.some.inj ho
          have e2 := Option.some.inj his
          subst e1 e2
          exact ⟨f m, by rw [List.getElem?_map, hk]; rfl, hf m (List.mem_of_getElem? hk)⟩⟩
      exact ⟨_, by rw [h1, ok_bind]⟩
  · intro it h
    obtain ⟨out, h1, h2⟩ := res_bind_inv h
    have e := (Except.ok.inj h2).symm
    subst e
    obtain ⟨h3, h4⟩ := (key out).mp h1
    refine ⟨out, C64_iteration out, by rw [h3, List.length_map], fun k m hk => ?_⟩
    obtain ⟨r, hr, hx⟩ := h4 k _ _ (hat k m hk).1 (hat k m hk).2
    exact ⟨r, hr, hx, showsRanges_of (wf m (List.mem_of_getElem? hk)) hx⟩

/-- **C83, messages added one by one.**  They are asked for in the order in which they were added. -/
theorem C83_messages_added (path : String) (ms more : List (Nat × List Interval)) :
    ((ms.foldl (fun f m => f.withMessage m.1 m.2) (rustFile path)).withMessages more) = ⟨path, ms ++ more⟩ := by
  have gen : ∀ (ms : List (Nat × List Interval)) (f : RustFile),
      ms.foldl (fun f m => f.withMessage m.1 m.2) f = ⟨f.path, f.messages ++ ms⟩ := by
    intro ms
    induction ms with
    | nil => intro f; simp
    | cons m rest ih =>
      intro f
      rw [List.foldl_cons, ih]
      simp [RustFile.withMessage]
  rw [gen]
  simp [rustFile, RustFile.withMessages]

/-- **C83, places need a local handle.**  With a remote handle the calls by path and by file return nothing. -/
theorem C83_places_need_local (A : Around) (server : String × Int) (qs : List RustPath) (f : RustFile)
    (it : VecSource WireResult) :
    rustExtractPaths A (.there server) qs ≠ .ok it ∧ rustExtractFile A (.there server) f ≠ .ok it := by
  obtain ⟨h1, h2, -⟩ := C65_paths_need_local A server
  constructor
  · rw [rustExtractPaths]
    rcases h1 (qs.map RustPath.toCxx) with h | h <;> rw [h, throwExn, error_bind] <;> exact fun h => (by cases h)
  · rw [rustExtractFile, C38_ranges_survive_bridge, ok_bind]
    rcases h2 f.path (f.messages.map Prod.fst) (f.messages.map Prod.snd) with h | h <;>
      rw [h, throwExn, error_bind] <;> exact fun h => (by cases h)

/-! ## Scans -/

/-- **C83, scans of files.**  `scan_paths` on the node returns the number of messages that were not in the index, for any
schedule, if all of them can be read; every message of every file is then in the index. -/
theorem C83_scan_paths (E : ScanEnv) (c : Cache) (files : List String) (some_ : files ≠ [])
    (possible : WholePossible E c (· ∈ files)) (sched : List ScanEv) (A : Around)
    (onNode : A.scanPaths = fun ps => (apiScanFiles E c ps sched).map Prod.fst) :
    WholeFiles E c (· ∈ files) (apiScanFiles E c files sched) ∧
    ∀ n c', apiScanFiles E c files sched = .ok (n, c') → rustScanPaths A .here files = .ok n := by
  refine ⟨C51_scan_files E c files some_ possible sched, fun n c' h => ?_⟩
  rw [rustScanPaths, Handle.scanPaths, if_neg some_]
  simp only [onNode]
  rw [h]
  rfl

/-- **C83, scans of requests: the text is not read.**  The bridge makes the text of a request the verb of an empty request.
When the catalogue lists by keys, two calls with the same number of texts do the same, whatever the texts say. -/
theorem C83_scan_requests_ignore_text (code : MarsObj → String) (E : ScanEnv) (C : ScanConf) (c : Cache)
    (byKeys : ∀ v v' ps, E.list (code ⟨v, ps⟩) = E.list (code ⟨v', ps⟩)) (sched : List ScanEv) (A : Around)
    (onNode : A.scan = fun rs b => (apiScan E C c rs b sched).map Prod.fst) (ctx : String) (byFiles : Bool)
    (rs rs' : List String) (same : rs.length = rs'.length) :
    rustScanRequests code A .here ctx rs byFiles = rustScanRequests code A .here ctx rs' byFiles := by
  have hl : ∀ rs rs' : List String, rs.length = rs'.length →
      listUris E (rs.map fun r => code ⟨r, []⟩) = listUris E (rs'.map fun r => code ⟨r, []⟩) := by
    intro rs
    induction rs with
    | nil =>
      intro rs' h
      cases rs' with
      | nil => rfl
      | cons r rest => cases h
    | cons r rest ih =>
      intro rs' h
      cases rs' with
      | nil => cases h
      | cons r' rest' =>
        rw [List.map_cons, List.map_cons, listUris, listUris, byKeys r r', ih rest' (by simpa using h)]
  rw [rustScanRequests, rustScanRequests, Handle.scan, Handle.scan]
  by_cases h : rs = []
  · subst h
    have h' : rs' = [] := List.eq_nil_of_length_eq_zero same.symm
    subst h'
    rfl
  · have h' : rs' ≠ [] := fun e => h (List.eq_nil_of_length_eq_zero (by rw [same, e]; rfl))
    rw [if_neg (fun e => h (List.map_eq_nil_iff.mp e)), if_neg (fun e => h' (List.map_eq_nil_iff.mp e))]
    simp only [onNode, apiScan]
    rw [if_neg (fun e => h (List.map_eq_nil_iff.mp e)), if_neg (fun e => h' (List.map_eq_nil_iff.mp e)), engineScan,
      engineScan, hl rs rs' same]

/-! ## Cases -/

/-- The requests of C50, from Rust. -/
def c83Reqs : List RustRequest :=
  [⟨"retrieve,step=6,date=20250101", [⟨0, 4⟩], "g"⟩, ⟨"retrieve,step=12,date=20250101", [⟨1, 2⟩, ⟨2, 4⟩], "g"⟩,
   ⟨"retrieve,step=0,date=20250101", [⟨0, 2⟩], "g"⟩]

def c83File : List UInt8 := [1] ++ toyMessage ++ [0x47, 2, 7, 8]

def c83Around : Around where
  extract := localExtract c50Env c50Conf [1, 0, 1, 0, 0, 1]
  extractPaths := localExtractPaths c50Env c50Conf [0, 1]
  extractAt := apiExtractPath toyReader fun p => if p = "f" then some c83File else none
  axes := fun _ _ => throwExn .ioError
  scan _ _ := throwExn .ioError
  scanPaths _ := throwExn .ioError
  server _ := c52Front

/-- What a loop over the iterator shows: the views of every result, and that the iterator ends. -/
def c83Loop (it : Res (VecSource WireResult)) (n : Nat) : Res (List (Option (List (List UInt64 × List Nat)))) := do
  let s ← it
  let seen ← rustRun (List.replicate n .next) s
  .ok (seen.map fun x => match x with
    | .item r => some ((rustRanges r).map fun v => (v.values, v.masks))
    | _ => none)

/-- The node, its history and the requests meet what `C83_fields_partial` asks for (the rest is in C50's case). -/
example : askedInRust c83Reqs = c50Reqs ∧ Written (askedInRust c83Reqs) c27Written ∧
    (∀ q ∈ c83Reqs, ∀ i ∈ q.ranges, i.b ≤ i.e ∧ i.e < 2 ^ 64) ∧
    c83Around.extract = localExtract c50Env c50Conf [1, 0, 1, 0, 0, 1] ∧
    c83Loop (rustExtract c83Around .here "{}" c83Reqs) 4 =
      .ok [some [([10, 11, 12, 13], [15])], some [([11], [1]), ([12, 13], [3])], some [([7, 8], [3])], none] :=
  ⟨rfl, ⟨by decide +kernel, c27_written.2⟩, by decide, rfl, by decide +kernel⟩

/-- One request for two steps. -/
example : c83Loop (rustExtractMars
      (fun t => if t = "retrieve,step=12/0,date=20250101"
        then .ok ["retrieve,step=12,date=20250101", "retrieve,step=0,date=20250101"] else throwExn .userError)
      c83Around .here "{}" "retrieve,step=12/0,date=20250101" [⟨0, 2⟩] "g") 3 =
    .ok [some [([10, 11], [3])], some [([7, 8], [3])], none] := by
  decide +kernel

/-- Two places of one file, the later one first. -/
example : (∀ a ∈ [(rustPath "/fdb/a.data" [⟨0, 2⟩] "g").withOffset 6, rustPath "/fdb/a.data" [⟨1, 2⟩, ⟨2, 4⟩] "g"],
      ∀ b ∈ [(rustPath "/fdb/a.data" [⟨0, 2⟩] "g").withOffset 6, rustPath "/fdb/a.data" [⟨1, 2⟩, ⟨2, 4⟩] "g"],
      a.filename = b.filename → a.scheme = b.scheme ∧ a.host.getD "" = b.host.getD "" ∧ a.port = b.port) ∧
    c83Loop (rustExtractPaths c83Around .here
      [(rustPath "/fdb/a.data" [⟨0, 2⟩] "g").withOffset 6, rustPath "/fdb/a.data" [⟨1, 2⟩, ⟨2, 4⟩] "g"]) 3 =
      .ok [some [([7, 8], [3])], some [([11], [1]), ([12, 13], [3])], none] := by
  refine ⟨by decide +kernel, by decide +kernel⟩

/-- Three messages of a file, one of them twice with different ranges. -/
example : c83Loop (rustExtractFile c83Around .here
      (((rustFile "f").withMessage 7 [⟨0, 1⟩]).withMessages [(1, [⟨1, 4⟩]), (7, [⟨0, 1⟩, ⟨1, 2⟩])])) 4 =
    .ok [some [([7], [1])], some [([11, 12, 13], [7])], some [([7], [1]), ([8], [1])], none] := by
  decide +kernel

/-! ## A scan of one field that indexes all -/

/-- The requests of a scan by name: all requests with keys are the one for step 0. -/
def c83Code (o : MarsObj) : String := if o.params = [] then "all" else "step 0"

/-- A catalogue with three messages; one of them is of step 0. -/
def c83Scan : ScanEnv where
  W := c51World
  list r := if r = "all" then .ok c51Uris else .ok [⟨"fdb", "h", 7, "/fdb/b", 0⟩]
  forward _ _ _ := throwExn .remote

def c83ScanAround (sched : List ScanEv) : Around where
  extract _ := throwExn .ioError
  extractPaths _ := throwExn .ioError
  extractAt _ _ _ := throwExn .ioError
  axes := fun _ _ => throwExn .ioError
  scan rs b := (apiScan c83Scan c51Conf c51Cache rs b sched).map Prod.fst
  scanPaths _ := throwExn .ioError
  server _ := c52Front

theorem c83_scan_two (rs : List String) (us : List Uri) (some_ : rs ≠ []) (listed : listUris c83Scan rs = .ok us)
    (among : ∀ u ∈ us, u ∈ c51Uris) (sched : List ScanEv) (n : Nat)
    (count : (us.filter fun u => (c51Cache.indexed u.path u.offset).isNone).length = n) :
    (apiScan c83Scan c51Conf c51Cache rs false sched).map Prod.fst = .ok n := by
  obtain ⟨c', h1, -⟩ := C51_scan_requests c83Scan c51Conf c51Cache rs us rfl some_ listed
    (fun u hu v hv => c51_apart u (among u hu) v (among v hv)) (fun u hu => c51_possible u (among u hu)) sched
  rw [h1, count]
  rfl

/-- **C83, negation for scans of requests.**  A Rust user asks to scan the field of step 0, which has one message; all
messages of the catalogue are scanned, two of which are new, whatever the workers do.  The same request with its keys scans
the one message. -/
theorem C83_scan_requests_scan_everything (ctx : String) (sched : List ScanEv) :
    (∀ v v' ps, c83Scan.list (c83Code ⟨v, ps⟩) = c83Scan.list (c83Code ⟨v', ps⟩)) ∧
    rustScanRequests c83Code (c83ScanAround sched) .here ctx ["retrieve,step=0"] false = .ok 2 ∧
    Handle.here.scan (c83ScanAround sched) ctx [c83Code ⟨"retrieve", [("step", ["0"])]⟩] false = .ok 1 := by
  refine ⟨fun v v' ps => rfl, ?_, ?_⟩
  · rw [rustScanRequests, Handle.scan, if_neg (by simp)]
    exact c83_scan_two _ c51Uris (by simp) rfl (fun u hu => hu) sched 2 (by decide +kernel)
  · rw [Handle.scan, if_neg (by simp)]
    exact c83_scan_two _ [⟨"fdb", "h", 7, "/fdb/b", 0⟩] (by simp) rfl (by decide +kernel) sched 1 (by decide +kernel)

end GJ
