import Verif.Model.Api
import Verif.Props.C52
import Verif.Props.C62
import Verif.Props.C63

/-!
# C65: local and remote handles

Which implementation a configuration selects, and that a user gets the same from either, or a refusal.  `Around` is what
a handle reaches: `A.server s` is the engine of the server at `s`.
-/

namespace GJ
open Spec

/-! ## Selection -/

/-- **C65, selection.**  Without a type, or with type `local`, work is done in this process; with type `remote` at the
server the `uri` entry names; everything else is refused when the handle is made. -/
theorem C65_selection (endpoint : String → Res (String × Int)) (type uri : Option String) :
    (buildHandle endpoint type uri = .ok .here ↔ type = none ∨ type = some "local") ∧
    (∀ s, buildHandle endpoint type uri = .ok (.there s) ↔
      type = some "remote" ∧ ∃ u, uri = some u ∧ u ≠ "" ∧ endpoint u = .ok s) ∧
    (type = some "remote" → (uri = none ∨ uri = some "") → buildHandle endpoint type uri = throwExn .userError) ∧
    (∀ t, type = some t → t ≠ "local" → t ≠ "remote" → buildHandle endpoint type uri = throwExn .seriousBug) := by
  unfold buildHandle
  cases type with
  | none => simp
  | some t =>
    simp only [Option.getD_some, reduceCtorEq, Option.some.injEq, false_or]
    by_cases h1 : t = "local"
    · subst h1; simp
    · rw [if_neg h1]
      by_cases h2 : t = "remote"
      · subst h2
        rw [if_pos rfl]
        cases uri with
        | none => simp [throwExn]
        | some u =>
          simp only [Option.getD_some]
          by_cases h3 : u = ""
          · subst h3; simp [throwExn]
          · rw [if_neg h3]
            cases h4 : endpoint u with
            | error e => simp [h3, h4, error_bind]
            | ok s => simp [h3, h4, ok_bind]
      · rw [if_neg h2]
        simp [h1, h2, throwExn]

/-! ## Calls that work both ways -/

/-- **C65, extraction.**  On a node with any history, a call through the node's server returns results exactly if the same
call on the node does, and the same ones.  Missing from the full property: what is missing in C52. -/
theorem C65_extract_partial (E : ExtEnv) (C : EngineConf) (R : Reader UInt64) (sound : SoundReader R)
    (offs : List UInt8 → Res (List Nat)) (hoffs : ∀ file, offs file ≠ undef) (U : String → Prop) (d : Disk)
    (mode : CacheMode) (lazy : Bool) (cap : Nat) (fs : FS) (apart : ToldApart mode U) (room : 0 < cap)
    (agree : GoodIndex (diskWorld R offs d) U mode fs) (es : List SEv) (allowed : ∀ e ∈ es, e.Allowed U)
    (s : Svc UInt64) (history : (Svc.start R offs d mode lazy cap fs).run R offs es = .ok s) (S : Store)
    (stored : Uri → List UInt8) (node : Behind E C R s S stored) (cat : List (FdbKey × Uri))
    (catalogue : Catalogue C.ignoreYearMonth cat) (lists : ListsOnly E cat) (sched : List Nat)
    (axes : String → Int → Res (AMap String (List String))) (scan : List String → Bool → Res (Nat × List String))
    (forwardScan : AMap String (List Nat) → Res (Nat × List String)) (A : Around) (server : String × Int)
    (onNode : A.extract = localExtract E C sched)
    (onServer : A.server server = nodeEngine E C sched axes scan forwardScan) (ctx ctx' : String) (rs : List ExRequest)
    (ws : List WrittenRequest) (written : Written rs ws) (fit : ∀ q ∈ rs, q.Fits) (out : List WireResult) :
    (Handle.there server).extract A ctx rs = .ok out ↔ Handle.here.extract A ctx' rs = .ok out := by
  rw [Handle.extract, Handle.extract]
  by_cases h : rs = []
  · rw [if_pos h, if_pos h]
  · rw [if_neg h, if_neg h]
    simp only [onNode, onServer]
    exact C52_client_of_node_partial E C R sound offs hoffs U d mode lazy cap fs apart room agree es allowed s history S
      stored node cat catalogue lists sched axes scan forwardScan ctx rs ws written fit out

/-- **C65, extraction on a cluster.**  The same when the node forwards to other servers. -/
theorem C65_extract_cluster_partial (E : ExtEnv) (C : EngineConf) (forwards : C.forward = true)
    (peer : String × Int → Peer) (wire : Forwards E peer) (sound : ∀ e ∈ C.servers, (peer e.2).Sound)
    (cat : List (FdbKey × Uri)) (catalogue : Catalogue C.ignoreYearMonth cat) (lists : ListsOnly E cat)
    (sched : List Nat) (axes : String → Int → Res (AMap String (List String)))
    (scan : List String → Bool → Res (Nat × List String))
    (forwardScan : AMap String (List Nat) → Res (Nat × List String)) (A : Around) (server : String × Int)
    (onNode : A.extract = localExtract E C sched)
    (onServer : A.server server = nodeEngine E C sched axes scan forwardScan) (ctx ctx' : String) (rs : List ExRequest)
    (ws : List WrittenRequest) (written : Written rs ws) (fit : ∀ q ∈ rs, q.Fits) (out : List WireResult) :
    (Handle.there server).extract A ctx rs = .ok out ↔ Handle.here.extract A ctx' rs = .ok out := by
  rw [Handle.extract, Handle.extract]
  by_cases h : rs = []
  · rw [if_pos h, if_pos h]
  · rw [if_neg h, if_neg h]
    simp only [onNode, onServer]
    exact C52_client_of_cluster_partial E C forwards peer wire sound cat catalogue lists sched axes scan forwardScan ctx rs
      ws written fit out

/-- **C65, axes.**  The same axes, for any request; and a failure on one side is a failure on the other. -/
theorem C65_axes (A : Around) (server : String × Int) (same : (A.server server).axes = A.axes) (ctx ctx' request : String)
    (level : Int) (maps : ∀ a, A.axes request level = .ok a → a.keys.Nodup ∧ ∀ x ∈ a, x.2.Nodup) :
    (∀ a, (Handle.there server).axes A ctx request level = .ok a ↔ Handle.here.axes A ctx' request level = .ok a) ∧
    ((∃ e, (Handle.there server).axes A ctx request level = throwExn e) ↔
      ∃ e, Handle.here.axes A ctx' request level = throwExn e) := by
  rw [Handle.axes, Handle.axes]
  by_cases h : request = ""
  · rw [if_pos h, if_pos h]
    exact ⟨fun _ => Iff.rfl, Iff.rfl⟩
  · rw [if_neg h, if_neg h]
    rw [C41_remote_axes _ ctx request level (Nat.pos_of_ne_zero fun hc => h (String.length_eq_zero_iff.mp hc))
      (by rw [same]; exact maps), same]
    cases A.axes request level with
    | ok a => simp [throwExn]
    | error e =>
      cases e with
      | ub => simp [throwExn, undef]
      | exn x => simp [throwExn]

/-- **C65, scans.**  The same number of fields, for any node: on the node the errors of the tasks are raised, at the
server they are sent. -/
theorem C65_scan (SE : ScanEnv) (SC : ScanConf) (c : Cache) (sched : List ScanEv) (A : Around) (server : String × Int)
    (onNode : A.scan = fun rs b => (raiseScan (engineScan SE SC c rs b sched)).map Prod.fst)
    (onServer : (A.server server).scan = fun rs b => (engineScan SE SC c rs b sched).map fun r => (r.1, r.2.1))
    (ctx ctx' : String) (rs : List String) (byfiles : Bool) :
    (∀ n, (Handle.there server).scan A ctx rs byfiles = .ok n ↔ Handle.here.scan A ctx' rs byfiles = .ok n) ∧
    ((∃ e, (Handle.there server).scan A ctx rs byfiles = throwExn e) ↔
      ∃ e, Handle.here.scan A ctx' rs byfiles = throwExn e) := by
  rw [Handle.scan, Handle.scan]
  by_cases h : rs = []
  · rw [if_pos h, if_pos h]
    exact ⟨fun _ => Iff.rfl, Iff.rfl⟩
  · rw [if_neg h, if_neg h]
    rw [C41_remote_scan, onServer, onNode]
    generalize hx : engineScan SE SC c rs byfiles sched = x
    simp only [hx]
    clear hx
    cases x with
    | ok r =>
      obtain ⟨n, errs, c'⟩ := r
      simp only [raiseScan, ok_bind, Except.map]
      by_cases he : errs = []
      · simp [he, throwExn]
      · simp [he, throwExn]
    | error e =>
      rw [raiseScan, error_bind]
      cases e with
      | ub => simp [Except.map, throwExn, undef]
      | exn x => simp [Except.map, throwExn]

/-! ## Calls that need a local handle -/

/-- **C65, requests by path.**  A remote handle never answers them: it refuses, whatever the arguments; a local handle
refuses exactly the empty ones by itself. -/
theorem C65_paths_need_local (A : Around) (server : String × Int) :
    (∀ rs, (Handle.there server).extractPaths A rs = throwExn .userError ∨
      (Handle.there server).extractPaths A rs = throwExn .notImplemented) ∧
    (∀ path offsets ranges, (Handle.there server).extractAt A path offsets ranges = throwExn .userError ∨
      (Handle.there server).extractAt A path offsets ranges = throwExn .notImplemented) ∧
    (∀ paths, (Handle.there server).scanPaths A paths = throwExn .userError ∨
      (Handle.there server).scanPaths A paths = throwExn .notImplemented) ∧
    (∀ rs, rs ≠ [] → Handle.here.extractPaths A rs = A.extractPaths rs) ∧
    (∀ path offsets ranges, path ≠ "" → offsets ≠ [] → offsets.length = ranges.length →
      Handle.here.extractAt A path offsets ranges = A.extractAt path offsets ranges) ∧
    (∀ paths, paths ≠ [] → Handle.here.scanPaths A paths = A.scanPaths paths) := by
  refine ⟨fun rs => ?_, fun path offsets ranges => ?_, fun paths => ?_, fun rs h => ?_, fun path offsets ranges h1 h2 h3 => ?_,
    fun paths h => ?_⟩
  · rw [Handle.extractPaths]
    by_cases h : rs = []
    · rw [if_pos h]; exact Or.inl rfl
    · rw [if_neg h]; exact Or.inr rfl
  · rw [Handle.extractAt]
    by_cases h1 : path = ""
    · rw [if_pos h1]; exact Or.inl rfl
    · rw [if_neg h1]
      by_cases h2 : offsets = []
      · rw [if_pos h2]; exact Or.inl rfl
      · rw [if_neg h2]
        by_cases h3 : offsets.length ≠ ranges.length
        · rw [if_pos h3]; exact Or.inl rfl
        · rw [if_neg h3]; exact Or.inr rfl
  · rw [Handle.scanPaths]
    by_cases h : paths = []
    · rw [if_pos h]; exact Or.inl rfl
    · rw [if_neg h]; exact Or.inr rfl
  · rw [Handle.extractPaths, if_neg h]
  · rw [Handle.extractAt, if_neg h1, if_neg h2, if_neg (by simpa using h3)]
  · rw [Handle.scanPaths, if_neg h]

/-! ## Python -/

theorem pyUnpack_fits {items : List PyItem} {reqs : List PyRequest} (h : pyUnpack none items = .ok reqs) :
    ∀ q ∈ reqs.map PyRequest.c, q.Fits := by
  intro q hq i hi
  obtain ⟨r, hr, e⟩ := List.mem_map.mp hq
  obtain ⟨it, hit, hm⟩ := mapM_mem h r hr
  obtain ⟨c1, c2, -⟩ := pyNewRequest_ok hm
  rw [← e, c2] at hi
  obtain ⟨y, hy, ey⟩ := List.mem_map.mp hi
  obtain ⟨p1, p2, p3⟩ := c1.2 y hy
  subst ey
  simp only
  omega

/-- Implementations that agree on well-formed requests agree for Python. -/
theorem pyExtractDump_congr {impl impl' : List ExRequest → Res (List WireResult)} (zero : UInt64) (items : List PyItem)
    (named : ∀ it ∈ items, FieldDict it.1)
    (same : ∀ rs ws out, Written rs ws → (∀ q ∈ rs, q.Fits) → (impl rs = .ok out ↔ impl' rs = .ok out))
    (out : List (List (List (List UInt64 × List Nat)))) :
    pyExtractDump zero none impl items = .ok out → pyExtractDump zero none impl' items = .ok out := by
  intro h
  rw [pyExtractDump] at h ⊢
  by_cases hemp : items = []
  · rw [if_pos hemp] at h; cases h
  rw [if_neg hemp] at h ⊢
  obtain ⟨reqs, h1, h⟩ := res_bind_inv h
  obtain ⟨results, h2, h⟩ := res_bind_inv h
  rw [h1, ok_bind]
  have hw := pyUnpack_written named h1
  have hf := pyUnpack_fits h1
  have h3 : gjExtract impl' (reqs.map PyRequest.c) = .ok results := by
    rw [gjExtract] at h2 ⊢
    by_cases hn : reqs.map PyRequest.c = []
    · rw [if_pos hn] at h2; cases h2
    · rw [if_neg hn] at h2 ⊢
      exact (same _ _ _ hw hf).mp h2
  rw [h3, ok_bind]
  exact h

/-- What Python returns when every result is what decoding some message in the ranges asked for gives. -/
theorem py_arrays {impl : List ExRequest → Res (List WireResult)} {zero : UInt64} {items : List PyItem}
    {out : List (List (List (List UInt64 × List Nat)))} (named : ∀ it ∈ items, FieldDict it.1)
    (returned : pyExtractDump zero none impl items = .ok out) (P : Nat → WireResult → Prop)
    (shaped : ∀ (i : Nat) it r, items[i]? = some it → P i r →
      ∃ (R : Reader UInt64) (file : List UInt8) (o : Nat), messageExtract R file o (asked it.2.1) = .ok r)
    (delivers : ∀ rs results, Written rs (items.map fun it => ⟨["retrieve".toList], it.1⟩) → (∀ q ∈ rs, q.Fits) →
      (∀ (i : Nat) it q, items[i]? = some it → rs[i]? = some q →
        q.ranges = asked it.2.1 ∧ q.gridHash = cHash it.2.2) →
      rs.length = items.length → impl rs = .ok results →
      results.length = items.length ∧ ∀ i, i < items.length → ∃ r, results[i]? = some r ∧ P i r) :
    out.length = items.length ∧ ∀ i, i < items.length → ∃ r, P i r ∧ out[i]? = some [r.values.zip r.mask] := by
  rw [pyExtractDump] at returned
  by_cases hemp : items = []
  · rw [if_pos hemp] at returned; cases returned
  rw [if_neg hemp] at returned
  obtain ⟨reqs, h1, returned⟩ := res_bind_inv returned
  obtain ⟨results, h2, returned⟩ := res_bind_inv returned
  have hlen := mapM_length h1
  have hne : reqs.map PyRequest.c ≠ [] := by
    intro e
    have e2 := congrArg List.length e
    rw [List.length_map, hlen] at e2
    exact hemp (List.eq_nil_of_length_eq_zero e2)
  rw [gjExtract, if_neg hne] at h2
  have hreq : ∀ i (hi : i < items.length), ∃ r, reqs[i]? = some r ∧ AskableRanges items[i].2.1 ∧
      r.c.ranges = asked items[i].2.1 ∧ r.c.gridHash = cHash items[i].2.2 ∧ r.shape = pySizes items[i].2.1 := by
    intro i hi
    have a := List.getElem?_eq_getElem hi
    have b := List.getElem?_eq_getElem (l := reqs) (i := i) (by omega)
    have c := mapM_getElem (show items.mapM _ = _ from h1) a b
    obtain ⟨c1, c2, c3, c4, -⟩ := pyNewRequest_ok c
    exact ⟨_, b, c1, c2, c3, c4⟩
  obtain ⟨h3, h4⟩ := delivers _ _ (pyUnpack_written named h1) (pyUnpack_fits h1) (by
    intro i it q hit hq
    have hi := (List.getElem?_eq_some_iff.mp hit).1
    obtain ⟨r, b, -, c2, c3, -⟩ := hreq i hi
    rw [List.getElem?_map, b, Option.map_some, Option.some.injEq] at hq
    rw [List.getElem?_eq_getElem hi, Option.some.injEq] at hit
    rw [← hq, ← hit]
    exact ⟨c2, c3⟩) (by rw [List.length_map, hlen]) h2
  have hshape : reqs.map PyRequest.shape = (items.map fun it => asked it.2.1).map pyShape := by
    apply List.ext_getElem?
    intro i
    by_cases hi : i < items.length
    · obtain ⟨r, b, c1, -, -, c3⟩ := hreq i hi
      rw [List.getElem?_map, b, List.map_map, List.getElem?_map, List.getElem?_eq_getElem hi, Option.map_some,
        Option.map_some, c3]
      congr 1
      rw [Function.comp, pySizes, pyShape, asked, List.map_map]
      apply List.map_congr_left
      intro x hx
      obtain ⟨p, q, -⟩ := c1.2 x hx
      simp only [Function.comp]
      omega
    · rw [List.getElem?_eq_none (by rw [List.length_map]; omega), List.getElem?_eq_none (by simp; omega)]
  have hdump := (C57_dump zero (items.map fun it => asked it.2.1) results ?_ ?_ ?_ results.length (Nat.le_refl _)).2
  · rw [hshape, hdump] at returned
    have e := Except.ok.inj returned
    subst e
    refine ⟨by rw [List.length_map]; omega, fun i hi => ?_⟩
    obtain ⟨r, k3, k4⟩ := h4 i hi
    exact ⟨r, k4, by rw [List.getElem?_map, k3]; rfl⟩
  · intro rs hrs
    obtain ⟨it, hit, e⟩ := List.mem_map.mp hrs
    obtain ⟨i, hi, hie⟩ := List.mem_iff_getElem.mp hit
    obtain ⟨q, -, c1, -⟩ := hreq i hi
    rw [hie] at c1
    rw [← e, asked]
    intro hc
    exact c1.1 (List.map_eq_nil_iff.mp hc)
  · rw [List.length_map]; omega
  · intro i r rs hr hrs
    have hi : i < items.length := by
      have := (List.getElem?_eq_some_iff.mp hrs).1
      simpa using this
    rw [List.getElem?_map, List.getElem?_eq_getElem hi] at hrs
    have hrs := Option.some.inj hrs
    obtain ⟨r', k3, k4⟩ := h4 i hi
    rw [hr, Option.some.injEq] at k3
    subst k3
    have hwf : ∀ x ∈ asked items[i].2.1, x.b ≤ x.e ∧ x.e < 2 ^ 64 := by
      intro x hx
      obtain ⟨q, -, c1, -⟩ := hreq i hi
      obtain ⟨y, hy, ey⟩ := List.mem_map.mp hx
      obtain ⟨p1, p2, p3⟩ := c1.2 y hy
      subst ey
      simp only
      omega
    simp only at hrs
    rw [← hrs]
    obtain ⟨R, file, o, hm⟩ := shaped i _ r (List.getElem?_eq_getElem hi) k4
    exact C13_message_shape R _ _ _ hwf r hm

/-- **C65, Python and a server.**  A Python user gets the same arrays with a remote handle as on the node. -/
theorem C65_python_remote_partial (E : ExtEnv) (C : EngineConf) (R : Reader UInt64) (sound : SoundReader R)
    (offs : List UInt8 → Res (List Nat)) (hoffs : ∀ file, offs file ≠ undef) (U : String → Prop) (d : Disk)
    (mode : CacheMode) (lazy : Bool) (cap : Nat) (fs : FS) (apart : ToldApart mode U) (room : 0 < cap)
    (agree : GoodIndex (diskWorld R offs d) U mode fs) (es : List SEv) (allowed : ∀ e ∈ es, e.Allowed U)
    (s : Svc UInt64) (history : (Svc.start R offs d mode lazy cap fs).run R offs es = .ok s) (S : Store)
    (stored : Uri → List UInt8) (node : Behind E C R s S stored) (cat : List (FdbKey × Uri))
    (catalogue : Catalogue C.ignoreYearMonth cat) (lists : ListsOnly E cat) (sched : List Nat)
    (axes : String → Int → Res (AMap String (List String))) (scan : List String → Bool → Res (Nat × List String))
    (forwardScan : AMap String (List Nat) → Res (Nat × List String)) (A : Around) (server : String × Int)
    (onNode : A.extract = localExtract E C sched)
    (onServer : A.server server = nodeEngine E C sched axes scan forwardScan) (ctx ctx' : String) (zero : UInt64)
    (items : List PyItem) (named : ∀ it ∈ items, FieldDict it.1) (out : List (List (List (List UInt64 × List Nat)))) :
    pyExtractDump zero none ((Handle.there server).extract A ctx) items = .ok out ↔
      pyExtractDump zero none (Handle.here.extract A ctx') items = .ok out := by
  have same := fun rs ws out (hw : Written rs ws) (hf : ∀ q ∈ rs, q.Fits) =>
    C65_extract_partial E C R sound offs hoffs U d mode lazy cap fs apart room agree es allowed s history S stored node cat
      catalogue lists sched axes scan forwardScan A server onNode onServer ctx ctx' rs ws hw hf out
  exact ⟨pyExtractDump_congr zero items named same out,
    pyExtractDump_congr zero items named (fun rs ws out hw hf => (same rs ws out hw hf).symm) out⟩

/-- **C65, Python and a cluster.**  A Python user with a remote handle to a front node that forwards to other servers.  If
the call returns, there is one entry per request, in order; its arrays are what decoding the one matching message gives in
the ranges asked for, on the server responsible for the place where the catalogue has it; and with grid checks on at that
server, the hash of the request is the one in the message's header.  Missing from the full property: what is missing in
C52. -/
theorem C65_python_cluster_partial (E : ExtEnv) (C : EngineConf) (forwards : C.forward = true)
    (peer : String × Int → Peer) (wire : Forwards E peer) (sound : ∀ e ∈ C.servers, (peer e.2).Sound)
    (cat : List (FdbKey × Uri)) (catalogue : Catalogue C.ignoreYearMonth cat) (lists : ListsOnly E cat)
    (sched : List Nat) (axes : String → Int → Res (AMap String (List String)))
    (scan : List String → Bool → Res (Nat × List String))
    (forwardScan : AMap String (List Nat) → Res (Nat × List String)) (A : Around) (front : String × Int)
    (onServer : A.server front = nodeEngine E C sched axes scan forwardScan) (ctx : String)
    (strict : C.allowMissing = false) (zero : UInt64) (items : List PyItem) (named : ∀ it ∈ items, FieldDict it.1)
    (clean : ∀ it ∈ items, ∀ h, it.2.2 = some h → Char.ofNat 0 ∉ h)
    (out : List (List (List (List UInt64 × List Nat))))
    (returned : pyExtractDump zero none ((Handle.there front).extract A ctx) items = .ok out) :
    out.length = items.length ∧ ∀ i (hi : i < items.length),
      ∃ e ∈ cat, SameField C.ignoreYearMonth items[i].1 e.1 ∧
        (∀ e' ∈ cat, SameField C.ignoreYearMonth items[i].1 e'.1 → e' = e) ∧
        ∃ server r, C.servers.find (e.2.host, e.2.port) = some server ∧
          out[i]? = some [r.values.zip r.mask] ∧
          ∃ file h, (peer server).now.disk e.2.path = some file ∧
            (peer server).reader.parse (file.drop e.2.offset) = some h ∧
            messageExtract (peer server).reader file e.2.offset (items[i].2.1.map fun r => ⟨r.1.toNat, r.2.toNat⟩) = .ok r ∧
            ((peer server).conf.ignoreGrid = false → items[i].2.2 = some h.md5GridSection.toList) := by
  obtain ⟨h1, h2⟩ := py_arrays named returned (fun i r => ∃ it, items[i]? = some it ∧
    ∃ e ∈ cat, SameField C.ignoreYearMonth it.1 e.1 ∧ (∀ e' ∈ cat, SameField C.ignoreYearMonth it.1 e'.1 → e' = e) ∧
      ∃ server, C.servers.find (e.2.host, e.2.port) = some server ∧
        ∃ file h, (peer server).now.disk e.2.path = some file ∧ (peer server).reader.parse (file.drop e.2.offset) = some h ∧
          messageExtract (peer server).reader file e.2.offset (asked it.2.1) = .ok r ∧
          ((peer server).conf.ignoreGrid = false → cHash it.2.2 ≠ "" ∧ cHash it.2.2 = h.md5GridSection)) (by
    rintro i it r hit ⟨it', hit', e, he, -, -, server, -, file, h, -, -, hm, -⟩
    rw [hit, Option.some.injEq] at hit'
    subst hit'
    exact ⟨_, _, _, hm⟩) (by
    intro rs results hw hf hq hlen hres
    rw [Handle.extract] at hres
    by_cases hn : rs = []
    · rw [if_pos hn] at hres; cases hres
    rw [if_neg hn] at hres
    simp only [onServer] at hres
    have hloc := (C52_client_of_cluster_partial E C forwards peer wire sound cat catalogue lists sched axes scan forwardScan
      ctx rs _ hw hf results).mp hres
    obtain ⟨k1, k2⟩ := C52_cluster_partial E C forwards peer wire sound cat catalogue lists sched rs _ hw hf strict results hloc
    refine ⟨by omega, fun i hi => ?_⟩
    have hi' : i < rs.length := by omega
    obtain ⟨e, he, s1, s2, server, r, s3, s4, file, h, s5, s6, s7, s8⟩ := k2 i hi' (by simpa using hi)
    obtain ⟨q1, q2⟩ := hq i _ _ (List.getElem?_eq_getElem hi) (List.getElem?_eq_getElem hi')
    rw [List.getElem_map] at s1 s2
    rw [q1] at s7
    rw [q2] at s8
    exact ⟨r, s4, _, List.getElem?_eq_getElem hi, e, he, s1, s2, server, s3, file, h, s5, s6, s7, s8⟩)
  refine ⟨h1, fun i hi => ?_⟩
  obtain ⟨r, ⟨it, hit, e, he, s1, s2, server, s3, file, h, s5, s6, s7, s8⟩, ho⟩ := h2 i hi
  rw [List.getElem?_eq_getElem hi, Option.some.injEq] at hit
  subst hit
  refine ⟨e, he, s1, s2, server, r, s3, ho, file, h, s5, s6, s7, fun hg => ?_⟩
  obtain ⟨t1, t2⟩ := s8 hg
  cases hh : items[i].2.2 with
  | none => rw [hh] at t1; exact absurd rfl t1
  | some x =>
    rw [hh, cHash, cstr_id (clean _ (List.getElem_mem hi) x hh)] at t2
    rw [← t2, String.toList_ofList]

/-! ## A case: the cluster of C52 -/

def c65Around : Around where
  extract := localExtract c52Env c52Conf [1, 0]
  extractPaths := localExtractPaths c52Env c52Conf [1, 0]
  extractAt _ _ _ := throwExn .ioError
  axes := fun _ _ => throwExn .ioError
  scan _ _ := throwExn .ioError
  scanPaths _ := throwExn .ioError
  server _ := c52Front

/-- Non-vacuity: Python, front node and two servers; the same locally; a path request refused remotely. -/
example : pyExtractDump 0 none ((Handle.there ("front", 9)).extract c65Around "{}") c62Items =
      .ok [[[([10, 11, 12, 13], [15])]], [[([21], [1]), ([22, 23], [3])]], [[([7, 8], [3])]]] ∧
    pyExtractDump 0 none (Handle.here.extract c65Around "{}") c62Items =
      .ok [[[([10, 11, 12, 13], [15])]], [[([21], [1]), ([22, 23], [3])]], [[([7, 8], [3])]]] ∧
    Handle.here.extractPaths c65Around [⟨"/fdb/b.data", "fdb", 0, "y", 2, [⟨0, 2⟩], "g"⟩] = .ok [⟨[[20, 21]], [[3]]⟩] ∧
    (Handle.there ("front", 9)).extractPaths c65Around [⟨"/fdb/b.data", "fdb", 0, "y", 2, [⟨0, 2⟩], "g"⟩] =
      throwExn .notImplemented := by
  refine ⟨by decide +kernel, by decide +kernel, by decide +kernel, by decide +kernel⟩

/-- The hypotheses of `C65_python_cluster_partial` are met by this case. -/
example : c52Conf.forward = true ∧ Forwards c52Env c52Peers ∧ c52Conf.allowMissing = false ∧
    (∀ it ∈ c62Items, FieldDict it.1) ∧ (∀ it ∈ c62Items, ∀ h, it.2.2 = some h → Char.ofNat 0 ∉ h) ∧
    c65Around.server ("front", 9) = nodeEngine c52Env c52Conf [1, 0] (fun _ _ => throwExn .ioError)
      (fun _ _ => throwExn .ioError) (fun _ => throwExn .ioError) := by
  refine ⟨rfl, fun t server fm back h => ⟨"ctx", [0, 0, 0], _, _, _, h⟩, rfl, ?_, ?_, rfl⟩
  · intro it hit
    have : c62Items.all (fun it => c62Good it.1) = true := by decide +kernel
    exact c62_fieldDict (List.all_eq_true.mp this it hit)
  · intro it hit h hh
    simp only [c62Items, List.mem_cons, List.not_mem_nil, or_false] at hit
    rcases hit with rfl | rfl | rfl <;> (rw [← Option.some.inj hh]; decide +kernel)

example : buildHandle (fun s => if s = "host:9777" then .ok ("host", 9777) else throwExn .badValue) (some "remote")
    (some "host:9777") = .ok (.there ("host", 9777)) := by decide +kernel

end GJ
