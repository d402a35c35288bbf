import Verif.Lemmas.Cluster
import Verif.Lemmas.Fits
import Verif.Props.C50

/-!
# C52: several nodes

C50 is about one node and takes the answers of other servers for granted.  Here the other servers are nodes themselves,
each with its own files, cache and history, and everything between the nodes goes through the protocol.
-/

namespace GJ
open Spec

/-- A server: what its engine uses, its configuration, and its files and cache from start to now. -/
structure Peer where
  env : ExtEnv
  conf : EngineConf
  reader : Reader UInt64
  offs : List UInt8 → Res (List Nat)
  names : String → Prop
  disk : Disk
  mode : CacheMode
  lazy : Bool
  cap : Nat
  fs : FS
  events : List SEv
  now : Svc UInt64

/-- Nothing but the node's own history, starting from index files that agree with its data, led to its state, and its
engine works on its files (the conditions of C50). -/
structure Peer.Sound (p : Peer) : Prop where
  reader : SoundReader p.reader
  offs : ∀ file, p.offs file ≠ undef
  apart : ToldApart p.mode p.names
  room : 0 < p.cap
  agree : GoodIndex (diskWorld p.reader p.offs p.disk) p.names p.mode p.fs
  allowed : ∀ e ∈ p.events, e.Allowed p.names
  history : (Svc.start p.reader p.offs p.disk p.mode p.lazy p.cap p.fs).run p.reader p.offs p.events = .ok p.now
  reads : Reads p.env p.reader p.now

/-- The server has this in a file at this place: a message whose decoding gives these values; with grid checks on, its
header states the hash of the request. -/
def Peer.Holds (p : Peer) (u : Uri) (q : ExRequest) (r : WireResult) : Prop :=
  ∃ file h, p.now.disk u.path = some file ∧ p.reader.parse (file.drop u.offset) = some h ∧
    messageExtract p.reader file u.offset q.ranges = .ok r ∧
    (p.conf.ignoreGrid = false → q.gridHash ≠ "" ∧ q.gridHash = h.md5GridSection)

/-- Forwarded requests are sent to the servers over the protocol; each server handles them by its own engine, with any
schedule. -/
def Forwards (E : ExtEnv) (peer : String × Int → Peer) : Prop :=
  ∀ t server fm back, E.forward t server fm = .ok back → ∃ ctx sched axes scan forwardScan,
    remoteForwardExtract (nodeEngine (peer server).env (peer server).conf sched axes scan forwardScan) ctx fm = .ok back

/-! ## One server -/

theorem Peer.Sound.good {p : Peer} (h : p.Sound) : SvcGood p.reader p.offs p.names p.now := by
  obtain ⟨s', h1, g⟩ := (SvcGood.start (lazy := p.lazy) h.offs h.apart h.room h.agree).run h.reader h.offs p.events
    h.allowed
  rw [h.history] at h1
  cases h1
  exact g

theorem Peer.Sound.produces {p : Peer} (h : p.Sound) :
    Produces p.env p.conf false (fun u q r => u.scheme ≠ "fdb" → p.Holds u q r) := by
  refine ⟨?_, fun _ t u q r hs _ hn => absurd hs hn, fun hc => by cases hc⟩
  intro _ t t' u q offs infos j i r _ hi ho hj hgr hjump _
  have g := h.good
  have hm := g.cache.answers _ (h.reads.infos t u.path offs infos hi) infos rfl
  rw [g.world] at hm
  have hd := mapM_getElem hm ho hj
  simp only [diskWorld] at hd
  obtain ⟨d, hb, hjd⟩ := h.reads.jump t' u.path u.offset i q.ranges
  rw [hjd] at hjump
  unfold diskJump at hjump
  cases hf : d u.path with
  | none => rw [hf] at hjump; cases hjump
  | some file =>
    rw [hf] at hjump
    obtain ⟨more, hnow⟩ := hb _ _ hf
    rw [hnow] at hd
    obtain ⟨hh, hp, hmd, -⟩ := C48_metadata_as_stated p.reader _ u.offset i hd
    refine ⟨_, hh, hnow, hp, ?_, ?_⟩
    · unfold messageExtract
      simp only at hd
      rw [hd, ok_bind]
      exact jumperExtract_grown p.reader file more u.offset i q.ranges r hjump
    · intro hig
      obtain ⟨h1, h2⟩ := gridCheck_ok hgr hig
      exact ⟨h1, h2.trans hmd⟩

theorem Peer.Holds.fits {p : Peer} {u : Uri} {q : ExRequest} {r : WireResult} (h : p.Holds u q r) (hq : q.Fits) :
    WireResult.Fits r := by
  obtain ⟨file, hh, -, -, hm, -⟩ := h
  exact messageExtract_fits hq hm

/-! ## All servers -/

theorem find_some_mem {K V : Type} [DecidableEq K] {m : AMap K V} {k : K} {v : V} (h : m.find k = some v) :
    (k, v) ∈ m := by
  induction m with
  | nil => cases h
  | cons e m ih =>
    rw [AMap.find.eq_def] at h
    simp only at h
    split at h
    · rename_i he
      cases h
      rw [← he]
      exact List.mem_cons_self ..
    · exact List.mem_cons_of_mem _ (ih h)

/-- What the front node gets for an item: values of the server responsible for the item's endpoint. -/
def Delivered (C : EngineConf) (peer : String × Int → Peer) (u : Uri) (q : ExRequest) (r : WireResult) : Prop :=
  ∃ server, C.servers.find (u.host, u.port) = some server ∧
    (peer server).Holds u { q with ranges := q.ranges.map Interval.wrap } r

theorem Delivered.fits {C : EngineConf} {peer : String × Int → Peer} {u : Uri} {q : ExRequest} {r : WireResult}
    (h : Delivered C peer u q r) : WireResult.Fits r := by
  obtain ⟨s, -, hh⟩ := h
  refine hh.fits ?_
  intro x hx
  obtain ⟨y, -, rfl⟩ := List.mem_map.mp hx
  exact ⟨Nat.mod_lt _ (by decide), Nat.mod_lt _ (by decide)⟩

theorem cluster_produces {E : ExtEnv} {C : EngineConf} {peer : String × Int → Peer} (hE : Forwards E peer)
    (hp : ∀ e ∈ C.servers, (peer e.2).Sound) : Produces E C true (Delivered C peer) := by
  refine ⟨fun hc => (by cases hc), fun hc => (by cases hc), ?_⟩
  intro _ t server fm back ha hf f items hm
  obtain ⟨ctx, sched, axes, scan, fscan, hr⟩ := hE t server fm back hf
  have key : (peer server).Sound → ∃ items', back.find f = some items' ∧ items'.length = items.length ∧
      ∀ (j : Nat) i i' r, items[j]? = some i → items'[j]? = some i' → i'.result = some r →
        ((received i.wrap).uri.scheme ≠ "fdb" → (peer server).Holds (received i.wrap).uri (received i.wrap).request r) ∧
          (received i.wrap).uri.scheme = "file" := by
    intro hs
    refine forwarded_spec (P := fun u q r => (u.scheme ≠ "fdb" → (peer server).Holds u q r) ∧ u.scheme = "file") ha ?_ ?_ hr
      f items hm
    · intro served hser
      have hser : serverForward (peer server).env (peer server).conf sched
        ((wrapFiles fm).map fun f => (f.1, f.2.map received)) = .ok (served, []) := hser
      have hmem : ∀ g ∈ (wrapFiles fm).map (fun f => (f.1, f.2.map received)), ∀ i ∈ g.2,
          ∃ f0 ∈ fm, ∃ i0 ∈ f0.2, g.1 = f0.1 ∧ i = received i0.wrap := by
        intro g hg i hi
        obtain ⟨g1, hg1, rfl⟩ := List.mem_map.mp hg
        obtain ⟨f0, hf0, rfl⟩ := List.mem_map.mp hg1
        obtain ⟨i1, hi1, rfl⟩ := List.mem_map.mp hi
        obtain ⟨i0, hi0, rfl⟩ := List.mem_map.mp hi1
        exact ⟨f0, hf0, i0, hi0, rfl, rfl⟩
      obtain ⟨h1, h2⟩ := serverForward_spec hs.produces (by
          simp only [wrapFiles, AMap.keys, List.map_map, Function.comp_def]
          exact ha.files) (by
          intro g hg i hi
          obtain ⟨f0, hf0, i0, hi0, e1, rfl⟩ := hmem g hg i hi
          rw [e1]
          exact (ha.place f0 hf0 i0 hi0).1) (by
          intro g hg i hi
          obtain ⟨f0, hf0, i0, hi0, e1, rfl⟩ := hmem g hg i hi
          rfl) (by
          intro g hg
          obtain ⟨g1, hg1, rfl⟩ := List.mem_map.mp hg
          obtain ⟨f0, hf0, rfl⟩ := List.mem_map.mp hg1
          simp only [List.pairwise_map]
          exact ha.sorted f0 hf0) hser
      refine ⟨h1, ?_⟩
      intro l f' g hf' hg j i i' hi hi'
      obtain ⟨r, hr, hP⟩ := h2 l f' g hf' hg j i i' hi hi'
      obtain ⟨f0, hf0, i0, hi0, e1, e2⟩ := hmem f' (List.mem_of_getElem? hf') i (List.mem_of_getElem? hi)
      exact ⟨r, hr, hP, by rw [e2]; rfl⟩
    · rintro u q r hq ⟨h1, h2⟩
      exact (h1 (by rw [h2]; decide)).fits hq
  -- the server of an empty request need not be known
  by_cases hex : ∃ f0 ∈ fm, ∃ i, i ∈ f0.2
  · obtain ⟨f0, hf0, i0, hi0⟩ := hex
    have hserver := (ha.place f0 hf0 i0 hi0).2
    have hs : (peer server).Sound := by
      exact hp _ (find_some_mem hserver)
    obtain ⟨items', h1, h2, h3⟩ := key hs
    refine ⟨items', h1, h2, ?_⟩
    intro j i i' r hi hi' hres
    obtain ⟨h4, h5⟩ := h3 j i i' r hi hi' hres
    have hplace := (ha.place (f, items) hm i (List.mem_of_getElem? hi)).2
    refine ⟨server, hplace, ?_⟩
    exact h4 (by rw [h5]; decide)
  · exact absurd hr (forward_nothing ha.files (by
      intro f0 hf0
      cases hl : f0.2 with
      | nil => rfl
      | cons i is => exact absurd ⟨f0, hf0, i, by rw [hl]; exact List.mem_cons_self ..⟩ hex))

/-- C52.  A node forwards the extraction of every field to the server responsible for it.  Each server has its own files
and cache and a history of its own.  If the call returns, there is one result per request, in order, and the result for
a request is what decoding the one matching message gives, as it is in the files of the responsible server; with that
server's grid checks on, the header of that message states the grid hash of the request.  Missing from the full
property: file names a cache confuses (`ToldApart`, see C15), the same path at two endpoints (`Catalogue`, see C31). -/
theorem C52_cluster_partial (E : ExtEnv) (C : EngineConf) (forwards : C.forward = true) (peer : String × Int → Peer)
    (wire : Forwards E peer) (sound : ∀ e ∈ C.servers, (peer e.2).Sound) (cat : List (FdbKey × Uri))
    (catalogue : Catalogue C.ignoreYearMonth cat) (lists : ListsOnly E cat) (sched : List Nat) (rs : List ExRequest)
    (ws : List WrittenRequest) (written : Written rs ws) (fit : ∀ q ∈ rs, q.Fits) (strict : C.allowMissing = false)
    (out : List WireResult) (returned : localExtract E C sched rs = .ok out) :
    out.length = rs.length ∧ ∀ i (hi : i < rs.length) (hj : i < ws.length),
      ∃ e ∈ cat, SameField C.ignoreYearMonth ws[i].pairs e.1 ∧
        (∀ e' ∈ cat, SameField C.ignoreYearMonth ws[i].pairs e'.1 → e' = e) ∧
        ∃ server r, C.servers.find (e.2.host, e.2.port) = some server ∧ out[i]? = some r ∧
          ∃ file h, (peer server).now.disk e.2.path = some file ∧
            (peer server).reader.parse (file.drop e.2.offset) = some h ∧
            messageExtract (peer server).reader file e.2.offset rs[i].ranges = .ok r ∧
            ((peer server).conf.ignoreGrid = false → rs[i].gridHash ≠ "" ∧ rs[i].gridHash = h.md5GridSection) := by
  obtain ⟨hlen, h⟩ := extract_delivers (by rw [forwards]; exact cluster_produces wire sound) catalogue lists written returned
  refine ⟨hlen, fun i hi hj => ?_⟩
  rcases h i hi hj with ⟨e, he, hs, x, q, hx, hq, hg, server, hfind, file, hh, h1, h2, h3, h4⟩ | ⟨hc, -⟩
  · refine ⟨e, he, hs, fun e' he' hs' => catalogue.distinct e' he' e he (hs'.symm.trans hs), server, x, hfind, hx, file,
      hh, h1, h2, ?_, ?_⟩
    · simp only at h3
      rw [hq, ranges_wrap (fit _ (List.getElem_mem hi))] at h3
      exact h3
    · simp only at h4
      rw [hg] at h4
      exact h4
  · rw [strict] at hc; cases hc

/-- C52.  The same for requests by path with host and port. -/
theorem C52_cluster_paths_partial (E : ExtEnv) (C : EngineConf) (peer : String × Int → Peer) (wire : Forwards E peer)
    (sound : ∀ e ∈ C.servers, (peer e.2).Sound) (sched : List Nat) (rs : List PathReq)
    (remote : ∀ q ∈ rs, q.host ≠ "" ∨ q.port ≠ 0) (fit : ∀ q ∈ rs, ∀ i ∈ q.ranges, i.b < 2 ^ 64 ∧ i.e < 2 ^ 64)
    (place : ∀ a ∈ rs, ∀ b ∈ rs, a.path = b.path → a.scheme = b.scheme ∧ a.host = b.host ∧ a.port = b.port)
    (out : List WireResult) (returned : localExtractPaths E C sched rs = .ok out) :
    out.length = rs.length ∧ ∀ (i : Nat) q, rs[i]? = some q →
      ∃ server r, C.servers.find (q.host, q.port) = some server ∧ out[i]? = some r ∧
        ∃ file h, (peer server).now.disk q.path = some file ∧ (peer server).reader.parse (file.drop q.offset) = some h ∧
          messageExtract (peer server).reader file q.offset q.ranges = .ok r ∧
          ((peer server).conf.ignoreGrid = false → q.gridHash ≠ "" ∧ q.gridHash = h.md5GridSection) := by
  obtain ⟨hlen, -, h⟩ := paths_deliver (P := Delivered C peer) (by
    intro r rest hrs
    have : (!(decide (r.host = "") && decide (r.port = 0))) = true := by
      rcases remote r (by rw [hrs]; exact List.mem_cons_self ..) with h | h <;> simp [h]
    rw [this]
    exact cluster_produces wire sound) place returned
  refine ⟨hlen, fun i q hq => ?_⟩
  obtain ⟨x, hx, server, hfind, file, hh, h1, h2, h3, h4⟩ := h i q hq
  refine ⟨server, x, hfind, hx, file, hh, h1, h2, ?_, h4⟩
  simp only at h3
  rw [ranges_wrap (q := q.base) (fit q (List.mem_of_getElem? hq))] at h3
  exact h3

/-! ## A client of a node -/

theorem collect_of_ordered : ∀ {rs : List ExRequest} {m : ItemMap} {os : List (Option WireResult)} {b : List Tok},
    orderedResults rs m = .ok os → encExtractReply os = .ok b →
    ∃ outs, os = outs.map some ∧ collectLoop rs m = .ok outs := by
  intro rs
  induction rs with
  | nil => intro m os b h _; cases h; exact ⟨[], rfl, rfl⟩
  | cons r rs ih =>
    intro m os b h hb
    rw [orderedResults] at h
    rw [collectLoop]
    cases hf : m.find r.request with
    | none => rw [hf] at h; cases h
    | some it =>
      rw [hf] at h
      simp only at h ⊢
      obtain ⟨tl, htl, h⟩ := res_bind_inv h
      cases h
      cases hr : it.result with
      | none => rw [hr, encExtractReply] at hb; cases hb
      | some x =>
        rw [hr, encExtractReply] at hb
        obtain ⟨b', hb', -⟩ := res_bind_inv hb
        obtain ⟨outs, h1, h2⟩ := ih htl hb'
        refine ⟨x :: outs, by rw [h1]; rfl, ?_⟩
        simp only
        rw [h2]; rfl

theorem ordered_of_collect : ∀ {rs : List ExRequest} {m : ItemMap} {outs : List WireResult},
    collectLoop rs m = .ok outs → orderedResults rs m = .ok (outs.map some) := by
  intro rs
  induction rs with
  | nil => intro m outs h; cases h; rfl
  | cons r rs ih =>
    intro m outs h
    rw [collectLoop] at h
    rw [orderedResults]
    cases hf : m.find r.request with
    | none => rw [hf] at h; cases h
    | some it =>
      simp only [hf] at h ⊢
      cases hr : it.result with
      | none => rw [hr] at h; cases h
      | some x =>
        simp only [hr] at h
        obtain ⟨tl, htl, h⟩ := res_bind_inv h
        cases h
        rw [ih htl]; rfl

theorem dispatch_extract (ctx : String) (rs : List ExRequest) (hf : ∀ r ∈ rs, r.Fits) :
    dispatch (encHeader .extract ctx ++ encExtractReq rs) = .ok ((ctx, .extract rs), []) := by
  rw [dispatch, Dec.bind_ok (C21_header .extract ctx (encExtractReq rs))]
  have h2 := C21_extract_request rs hf []
  rw [List.append_nil] at h2
  show (decExtractReq >>= _) _ = _
  rw [Dec.bind_ok h2]
  rfl

/-- The engine's own bookkeeping: with a catalogue, the results are as many as the requests. -/
theorem engine_results_length {E : ExtEnv} {C : EngineConf} {P : Uri → ExRequest → WireResult → Prop}
    (hE : Produces E C C.forward P) {cat : List (FdbKey × Uri)} (hcat : Catalogue C.ignoreYearMonth cat)
    (hl : ListsOnly E cat) {sched : List Nat} {rs rs' : List ExRequest} {m : ItemMap}
    (h : engineExtract E C sched rs = .ok (rs', m, [])) : m.length = rs'.length ∧ rs'.length = rs.length := by
  rw [engineExtract] at h
  obtain ⟨⟨rs1, u, m0⟩, h3, h4⟩ := res_bind_inv h
  obtain ⟨L, h5, h6⟩ := res_bind_inv h4
  obtain ⟨⟨m1, fm⟩, h7, h8⟩ := res_bind_inv h6
  obtain ⟨⟨m2, errs'⟩, h9, h10⟩ := res_bind_inv h8
  rw [buildRequestMap_eq] at h3
  split at h3
  · rename_i hn
    cases h3
    simp only at h10
    obtain ⟨e1, e2⟩ := Prod.mk.inj (Except.ok.inj h10)
    obtain ⟨e2, e3⟩ := Prod.mk.inj e2
    subst e1 e2 e3
    have p : Planned E C rs L m1 fm := ⟨hn, h5, h7⟩
    obtain ⟨hd, hL, hkeys, hfind, g, ho, hall⟩ := planned_spec hcat hl p
    obtain ⟨hmn, hmr⟩ := planned_requests hcat hl p
    obtain ⟨-, hsame, hres⟩ := scheduleTasks_spec hE g ho h9
    obtain ⟨hn', hr'⟩ := same_requests hsame hmr hmn
    rw [collectResults_eq m2 hn' hr', canonAll_length]
    refine ⟨?_, rfl⟩
    have := congrArg List.length hkeys
    rw [← hsame.keys, List.length_map, canonAll_length] at this
    rw [← this, AMap.keys, List.length_map]
  · cases h3

/-- What a client gets from a node over the protocol is exactly what the same call made on the node returns: one
succeeds if and only if the other does, with the same results. -/
theorem client_iff_local {E : ExtEnv} {C : EngineConf} {P : Uri → ExRequest → WireResult → Prop}
    (hE : Produces E C C.forward P) (hfit : ∀ u q r, ExRequest.Fits q → P u q r → WireResult.Fits r)
    {cat : List (FdbKey × Uri)} (hcat : Catalogue C.ignoreYearMonth cat) (hl : ListsOnly E cat) (sched : List Nat)
    (axes : String → Int → Res (AMap String (List String))) (scan : List String → Bool → Res (Nat × List String))
    (forwardScan : AMap String (List Nat) → Res (Nat × List String)) (ctx : String) (rs : List ExRequest)
    (ws : List WrittenRequest) (hw : Written rs ws) (hf : ∀ r ∈ rs, r.Fits) (out : List WireResult) :
    remoteExtract (nodeEngine E C sched axes scan forwardScan) ctx rs = .ok out ↔ localExtract E C sched rs = .ok out := by
  have hd := dispatch_extract ctx rs hf
  have hof : ∀ outs, localExtract E C sched rs = .ok outs → ∀ r ∈ outs, WireResult.Fits r := by
    intro outs h r hr
    obtain ⟨hlen, hall⟩ := extract_delivers hE hcat hl hw h
    obtain ⟨i, hi⟩ := List.getElem?_of_mem hr
    have hil := (List.getElem?_eq_some_iff.mp hi).1
    have hir : i < rs.length := by omega
    rcases hall i hir (by rw [written_length hw]; exact hir) with ⟨e, he, hs, x, q, hx, hq, -, hP⟩ | ⟨-, hx, -⟩
    · rw [hi] at hx
      cases hx
      exact hfit _ q r (by
        intro y hy
        rw [hq] at hy
        exact hf _ (List.getElem_mem hir) y hy) hP
    · rw [hi] at hx
      cases hx
      simp [WireResult.Fits, emptyResult]
  constructor
  · intro h
    rw [remoteExtract] at h
    obtain ⟨body, hh, hb⟩ := remoteCall_ok_inv hd h
    rw [handle] at hh
    obtain ⟨⟨rs', m, errs⟩, heng, hh⟩ := res_bind_inv hh
    simp only at hh
    obtain ⟨e1, e2⟩ := Prod.mk.inj (Except.ok.inj hh)
    subst e1
    subst e2
    have heng : engineExtract E C sched rs = .ok (rs', m, []) := heng
    obtain ⟨hml, hrl⟩ := engine_results_length hE hcat hl heng
    have hloc : ∀ outs, collectLoop rs' m = .ok outs → localExtract E C sched rs = .ok outs := by
      intro outs hc
      rw [localExtract, heng, ok_bind]
      simp only [ne_eq, not_true_eq_false, if_false]
      rw [cassert_of (decide_eq_true hml), ok_bind]
      exact hc
    rcases hb with ⟨b, rest, hb, hrep⟩ | ⟨x, rest, hx, hrep⟩
    · rw [replyExtract] at hb
      obtain ⟨os, hos, hb⟩ := res_bind_inv hb
      obtain ⟨outs, h1, h2⟩ := collect_of_ordered hos hb
      have hl2 := hloc outs h2
      obtain ⟨bytes, h3, h4⟩ := C21_extract_reply outs (hof outs hl2) []
      rw [h1, h3] at hb
      cases hb
      rw [List.append_nil] at h4
      obtain ⟨hlen, -⟩ := extract_delivers hE hcat hl hw hl2
      rw [← hlen, h4] at hrep
      cases hrep
      exact hl2
    · cases rs with
      | cons r rs =>
        exfalso
        rw [decExtractReply, List.length_cons, Dec.times] at hrep
        rw [Dec.bind_error (e := .exn .remote)] at hrep
        · cases hrep
        · apply Dec.bind_error; rfl
      | nil =>
        have : rs' = [] := List.eq_nil_of_length_eq_zero hrl
        subst this
        cases hx
  · intro h
    have hfo := hof out h
    have h0 := h
    rw [localExtract] at h
    obtain ⟨⟨rs', m, errs⟩, heng, h⟩ := res_bind_inv h
    simp only at h
    split at h
    · cases h
    rename_i he
    have he : errs = [] := by simpa using he
    subst he
    obtain ⟨-, -, h⟩ := res_bind_inv h
    obtain ⟨hlen, -⟩ := extract_delivers hE hcat hl hw h0
    obtain ⟨bytes, hb, hr⟩ := C21_extract_reply out hfo []
    rw [List.append_nil] at hr
    have hrep : replyExtract rs' m = .ok bytes := by
      rw [replyExtract, ordered_of_collect h, ok_bind, hb]
    rw [remoteExtract, remoteCall_spec _ _ (decExtractReply rs.length) ctx _ _ hd [] (.ok bytes)
      (by rw [handle]; show (engineExtract E C sched rs >>= _) = _; rw [heng, ok_bind]; simp only; rw [hrep]) (.ok out) (by
        intro b hb'; cases hb'; exact ⟨out, [], rfl, by rw [← hlen]; exact hr⟩) (by intro e h; cases h)
      (Or.inr (by intro e h; cases h)), outcome]
    rfl

theorem produces_of_behind {E : ExtEnv} {C : EngineConf} {R : Reader UInt64} {offs : List UInt8 → Res (List Nat)}
    {s : Svc UInt64} {S : Store} {stored : Uri → List UInt8} {U : String → Prop} (g : SvcGood R offs U s)
    (b : Behind E C R s S stored) (fwd : Bool) :
    Produces E C fwd (fun u q r => FieldAt R s.disk stored u q.ranges r) := by
  have h1 := produces_of_honest (honest_of_behind g b ⟨[], []⟩) fwd
  have h2 := produces_of_honest (honest_of_behind g b ⟨[[]], []⟩) fwd
  have both : ∀ {u : Uri} {q : ExRequest} {r : WireResult}, r = contentOf R s.disk stored ⟨[], []⟩ u q.ranges →
      r = contentOf R s.disk stored ⟨[[]], []⟩ u q.ranges → FieldAt R s.disk stored u q.ranges r := by
    intro u q r ha hb
    have := contentOf_real (R := R) (d := s.disk) (stored := stored) (u := u) (is := q.ranges) (a := ⟨[], []⟩)
      (b := ⟨[[]], []⟩) (by decide) (by rw [← ha, ← hb])
    rw [← ha] at this
    exact this
  refine ⟨fun hf t t' u q os is j i r a b c d e f => both (h1.file hf t t' u q os is j i r a b c d e f)
    (h2.file hf t t' u q os is j i r a b c d e f), fun hf t u q r a b => both (h1.fetch hf t u q r a b)
    (h2.fetch hf t u q r a b), ?_⟩
  intro _ t server fm back ha hb f items hm
  exact b.forward t server fm back ha hb f items hm

theorem FieldAt.fits {R : Reader UInt64} {d : Disk} {stored : Uri → List UInt8} {u : Uri} {q : ExRequest}
    {r : WireResult} (hq : q.Fits) (h : FieldAt R d stored u q.ranges r) : WireResult.Fits r := by
  unfold FieldAt at h
  split at h
  · exact messageExtract_fits hq h
  · obtain ⟨file, -, h⟩ := h
    exact messageExtract_fits hq h

/-- C52.  What a client gets from a node over the protocol is exactly what the same call made on the node returns: one
succeeds if and only if the other does, with the same results.  (Which results these are: C50.) -/
theorem C52_client_of_node_partial (E : ExtEnv) (C : EngineConf) (R : Reader UInt64) (sound : SoundReader R)
    (offs : List UInt8 → Res (List Nat)) (hoffs : ∀ file, offs file ≠ undef) (U : String → Prop) (d : Disk)
    (mode : CacheMode) (lazy : Bool) (cap : Nat) (fs : FS) (apart : ToldApart mode U) (room : 0 < cap)
    (agree : GoodIndex (diskWorld R offs d) U mode fs) (es : List SEv) (allowed : ∀ e ∈ es, e.Allowed U)
    (s : Svc UInt64) (history : (Svc.start R offs d mode lazy cap fs).run R offs es = .ok s) (S : Store)
    (stored : Uri → List UInt8) (node : Behind E C R s S stored) (cat : List (FdbKey × Uri))
    (catalogue : Catalogue C.ignoreYearMonth cat) (lists : ListsOnly E cat) (sched : List Nat)
    (axes : String → Int → Res (AMap String (List String))) (scan : List String → Bool → Res (Nat × List String))
    (forwardScan : AMap String (List Nat) → Res (Nat × List String)) (ctx : String) (rs : List ExRequest)
    (ws : List WrittenRequest) (written : Written rs ws) (fit : ∀ q ∈ rs, q.Fits) (out : List WireResult) :
    remoteExtract (nodeEngine E C sched axes scan forwardScan) ctx rs = .ok out ↔
      localExtract E C sched rs = .ok out := by
  obtain ⟨s', h1, g⟩ := (SvcGood.start (lazy := lazy) hoffs apart room agree).run sound hoffs es allowed
  rw [history] at h1
  cases h1
  exact client_iff_local (produces_of_behind g node C.forward) (fun u q r hq h => FieldAt.fits hq h) catalogue lists
    sched axes scan forwardScan ctx rs ws written fit out

/-- C52.  The same for a node that forwards to other servers: client, front node and servers together behave as the
call on the front node does.  (Which results these are: `C52_cluster_partial`.) -/
theorem C52_client_of_cluster_partial (E : ExtEnv) (C : EngineConf) (forwards : C.forward = true)
    (peer : String × Int → Peer) (wire : Forwards E peer) (sound : ∀ e ∈ C.servers, (peer e.2).Sound)
    (cat : List (FdbKey × Uri)) (catalogue : Catalogue C.ignoreYearMonth cat) (lists : ListsOnly E cat)
    (sched : List Nat) (axes : String → Int → Res (AMap String (List String)))
    (scan : List String → Bool → Res (Nat × List String))
    (forwardScan : AMap String (List Nat) → Res (Nat × List String)) (ctx : String) (rs : List ExRequest)
    (ws : List WrittenRequest) (written : Written rs ws) (fit : ∀ q ∈ rs, q.Fits) (out : List WireResult) :
    remoteExtract (nodeEngine E C sched axes scan forwardScan) ctx rs = .ok out ↔
      localExtract E C sched rs = .ok out :=
  client_iff_local (by rw [forwards]; exact cluster_produces wire sound) (fun u q r _ h => Delivered.fits h) catalogue lists
    sched axes scan forwardScan ctx rs ws written fit out

/-! ## A case

A front node and two servers, each with one file; the second message in the file of the first server was appended after
the server had started. -/

def c52Steps (f : String) : List SEv :=
  [.cache (.lookup f [0]), .append f [0x47, 2, 7, 8], .cache (.answer 0), .cache (.lookup f [0, 6]), .cache (.answer 0)]

def c52Disk (f : String) (msg : List UInt8) : Disk := fun g => if g = f then some msg else none

def c52Run (f : String) (msg : List UInt8) : Res (Svc UInt64) :=
  (Svc.start toyReader (fun _ => .ok []) (c52Disk f msg) .shadow true 16 []).run toyReader (fun _ => .ok []) (c52Steps f)

def c52Now (f : String) (msg : List UInt8) : Svc UInt64 :=
  ((c52Run f msg).toOption).getD (Svc.start toyReader (fun _ => .ok []) (c52Disk f msg) .shadow true 16 [])

def c52Peer (f : String) (msg : List UInt8) : Peer where
  env :=
    { list := fun _ => throwExn .ioError
      infos := fun _ g os => match (c52Now f msg).sys.answers.find? fun a => a.path = g && a.offsets = os with
        | some a => a.result
        | none => throwExn .ioError
      jump := fun _ g o i is => diskJump toyReader (c52Now f msg).disk g o i is
      fetch := fun _ _ _ => throwExn .ioError
      forward := fun _ _ _ => throwExn .ioError }
  conf := c27Conf
  reader := toyReader
  offs := fun _ => .ok []
  names := fun g => g = f
  disk := c52Disk f msg
  mode := .shadow
  lazy := true
  cap := 16
  fs := []
  events := c52Steps f
  now := c52Now f msg

theorem c52_sound {f : String} {msg : List UInt8} (hf : (baseName f).toList.getLast? = some 'a')
    (hr : (c52Run f msg).toOption.isSome = true) : (c52Peer f msg).Sound where
  reader := toySound
  offs _ := by intro h; cases h
  apart := by
    refine C15_separated _ _ ?_ ?_
    · intro p q hp hq _; rw [hp, hq]
    · intro p hp c hc
      rw [hp, hf] at hc
      cases hc; decide
  room := show 0 < 16 by decide
  agree := by intro p _; exact ⟨[], Or.inl ⟨rfl, rfl⟩, fun x hx => by cases hx⟩
  allowed := by
    intro e he
    simp only [c52Peer, c52Steps, List.mem_cons, List.mem_nil_iff, or_false] at he
    rcases he with rfl | rfl | rfl | rfl | rfl <;> first | rfl | trivial
  history := by
    show c52Run f msg = .ok (c52Now f msg)
    unfold c52Now
    cases h : c52Run f msg with
    | error e => rw [h] at hr; cases hr
    | ok s => rfl
  reads := by
    refine ⟨?_, fun t g o i is => ⟨(c52Now f msg).disk, fun f c h => ⟨[], by rw [List.append_nil]; exact h⟩, rfl⟩⟩
    intro t g os is h
    simp only [c52Peer] at h
    split at h
    · rename_i a ha
      have h1 := List.mem_of_find?_eq_some ha
      have h2 := List.find?_some ha
      simp only [Bool.and_eq_true, decide_eq_true_iff] at h2
      obtain ⟨p, o, r⟩ := a
      simp only at h h2
      rw [← h2.1, ← h2.2, ← h]
      exact h1
    · cases h

def c52Peers (server : String × Int) : Peer :=
  if server.1 = "gx" then c52Peer "/fdb/a.data" toyMessage else c52Peer "/fdb/b.data" [0x47, 4, 20, 21, 22, 23]

def c52Conf : EngineConf :=
  { c27Conf with forward := true, servers := [(("x", 1), ("gx", 9)), (("y", 2), ("gy", 9))] }

def c52Cat : List (FdbKey × Uri) :=
  [(c27Key "0", ⟨"fdb", "x", 1, "/fdb/a.data", 6⟩), (c27Key "12", ⟨"fdb", "y", 2, "/fdb/b.data", 0⟩),
   (c27Key "6", ⟨"fdb", "x", 1, "/fdb/a.data", 0⟩)]

/-- The engine a server's connections use. -/
def c52Engine (server : String × Int) : Engine :=
  nodeEngine (c52Peers server).env (c52Peers server).conf [0, 0, 0] (fun _ _ => throwExn .ioError)
    (fun _ _ => throwExn .ioError) (fun _ => throwExn .ioError)

def c52Env : ExtEnv where
  list _ := .ok c52Cat
  infos _ _ _ := throwExn .ioError
  jump _ _ _ _ _ := throwExn .ioError
  fetch _ _ _ := throwExn .ioError
  forward _ server fm := remoteForwardExtract (c52Engine server) "ctx" fm

def c52Front : Engine :=
  nodeEngine c52Env c52Conf [1, 0] (fun _ _ => throwExn .ioError) (fun _ _ => throwExn .ioError)
    (fun _ => throwExn .ioError)

/-- Non-vacuity of C52: sound servers, a call that returns, on the front node and from a client, and one that fails
because of the grid hash of a field on the second server. -/
example : Forwards c52Env c52Peers ∧ (∀ e ∈ c52Conf.servers, (c52Peers e.2).Sound) ∧ Written c50Reqs c27Written ∧
    Catalogue true c52Cat ∧ ListsOnly c52Env c52Cat ∧ (∀ q ∈ c50Reqs, q.Fits) ∧
    localExtract c52Env c52Conf [1, 0] c50Reqs =
      .ok [⟨[[10, 11, 12, 13]], [[15]]⟩, ⟨[[21], [22, 23]], [[1], [3]]⟩, ⟨[[7, 8]], [[3]]⟩] ∧
    remoteExtract c52Front "user" c50Reqs =
      .ok [⟨[[10, 11, 12, 13]], [[15]]⟩, ⟨[[21], [22, 23]], [[1], [3]]⟩, ⟨[[7, 8]], [[3]]⟩] ∧
    localExtract c52Env c52Conf [1, 0] [⟨"retrieve,step=12,date=20250101", [⟨1, 2⟩], "other"⟩] = throwExn .seriousBug ∧
    localExtractPaths c52Env c52Conf [] [⟨"/fdb/b.data", "fdb", 0, "y", 2, [⟨0, 2⟩], "g"⟩] = .ok [⟨[[20, 21]], [[3]]⟩] := by
  refine ⟨fun t server fm back h => ⟨"ctx", [0, 0, 0], _, _, _, h⟩, ?_, ⟨by decide +kernel, c27_written.2⟩,
    catalogue_of (by decide +kernel) (by decide +kernel) (by decide +kernel), ?_, ?_, by decide +kernel, by decide +kernel,
    by decide +kernel, by decide +kernel⟩
  · intro e he
    simp only [c52Conf, List.mem_cons, List.mem_nil_iff, or_false] at he
    rcases he with rfl | rfl
    · exact c52_sound (by decide +kernel) (by decide +kernel)
    · exact c52_sound (by decide +kernel) (by decide +kernel)
  · intro u L h
    have := Except.ok.inj h
    subst this
    exact ⟨fun e he => he, by decide +kernel⟩
  · intro q hq i hi
    simp only [c50Reqs, List.mem_cons, List.mem_nil_iff, or_false] at hq
    rcases hq with rfl | rfl | rfl <;>
      (simp only [List.mem_cons, List.mem_nil_iff, or_false] at hi; rcases hi with rfl | rfl | rfl <;> decide)

/-! ## Where the code differs -/

/-- A forwarded request that lists one file with an item and one without: the constructor's assertion only counts
items over all files, and the engine then takes the first item of an empty vector (Engine.cc:162, `operator[]`).  Any
client that speaks the protocol can send this. -/
theorem C52_empty_file_is_undefined (E : ExtEnv) (C : EngineConf) (sched : List Nat)
    (axes : String → Int → Res (AMap String (List String))) (scan : List String → Bool → Res (Nat × List String))
    (forwardScan : AMap String (List Nat) → Res (Nat × List String)) :
    serve (nodeEngine E C sched axes scan forwardScan)
      (encHeader .forwardExtract "" ++ (encForwardExtract
        [("/a", [⟨⟨"", [⟨0, 1⟩], ""⟩, ⟨"file", "", 0, "/a", 0⟩, none⟩]), ("/b", [])]).1) = undef := by
  have hd : dispatch (encHeader .forwardExtract "" ++ (encForwardExtract
        [("/a", [⟨⟨"", [⟨0, 1⟩], ""⟩, ⟨"file", "", 0, "/a", 0⟩, none⟩]), ("/b", [])]).1) =
      .ok (("", .forwardExtract [("/a", [⟨⟨"", [⟨0, 1⟩], ""⟩, ⟨"file", "", 0, "/a", 0⟩, some ⟨[], []⟩⟩]), ("/b", [])]), []) := by
    decide +kernel
  rw [serve, hd]
  rfl

end GJ
