import Verif.Lemmas.NetFleet
import Verif.Props.C74

/-!
# C76: several processes at work

Processes that serve clients and each other at the same time, each with its queue, workers, cache and files (`Net`).
-/

namespace GJ
open Spec

/-- The network has come to state `s`: all processes started over index files that agree with their data, and then
anything happened, in any order. -/
def Net.Reached (N : Net) (U : Nat → String → Prop) (s : NetSys) : Prop :=
  ∃ st es, N.Began U st ∧ (∀ e ∈ es, NetEv.Allowed U e) ∧ N.run st es = .ok s

/-- What the call returns to its caller, once its wait has returned. -/
def Net.outcome (written : Nat → Nat → List ExRequest) (s : NetSys) (a g : Nat) : Res (List WireResult) :=
  callEnd (written a g) ((s a).x.job g).items ((s a).x.t.grp g).errors

/-- What a call on a forwarding process gets for an item: values of the process that listens at the address responsible
for the item's endpoint. -/
def Net.Gives (N : Net) (s : NetSys) (a : Nat) (u : Uri) (q : ExRequest) (r : WireResult) : Prop :=
  ∃ server, (N.site a).conf.servers.find (u.host, u.port) = some server ∧
    HoldsAt (N.site (N.host server)) (s (N.host server)).svc.disk u
      { q with ranges := q.ranges.map Interval.wrap } r

/-- A call in the network is a call alone, in surroundings it met. -/
theorem net_alone {N : Net} {U : Nat → String → Prop} {asked : Nat → Nat → Asked} {written : Nat → Nat → List ExRequest}
    (sound : N.Sound U asked written) {st : NetSys} (began : N.Began U st) {es : List NetEv} {s : NetSys}
    (h : N.run st es = .ok s) (allowed : ∀ e ∈ es, NetEv.Allowed U e) {a g : Nat} (client : N.origin a g = none)
    (returned : ((s a).x.t.grp g).phase = .returned) :
    ∃ fwd E sched, SvcGood (N.site a).reader (N.site a).offs (U a) (st a).svc ∧
      Lived ((N.site a).told fwd) (U a) (st a).svc (s a).svc.disk g E ∧
      ((asked a g).call E).alone (N.site a).conf sched = Net.outcome written s a g ∧
      ∀ g t server fm back, fwd g t server fm = .ok back → N.Spoken st es a g server fm back := by
  obtain ⟨fwd, good, inv, hsp⟩ := net_srv sound began h allowed a
  obtain ⟨E, qs, hL, hr⟩ := inv.run
  obtain ⟨sched, s', h1, h2, h3, -⟩ := C71_refines (N.threads a) E _ (N.jobs a) (sound.fresh a) qs _ hr g returned
  refine ⟨fwd, E g, sched, good, hL g, ?_, hsp⟩
  have hpos : (N.jobs a g).2 ≠ [] := by
    have hi := (XInv.init (E := E) (C := (N.site a).conf) (n := N.threads a) (P := N.jobs a) (sound.fresh a)).ran hr
    intro e
    have := (hi.full g (Or.inr returned))
    have hs := hi.size g
    rw [e] at hs
    have : 0 < ((s a).x.job g).tasks.length := by omega
    rw [hs] at this
    cases this
  rcases sound.client a g client with hstart | e
  · rw [Call.alone_eq, (asked a g).start_congr (show (E g).list = ((N.site a).calls g).list from (hL g).list), hstart, ok_bind,
      (asked a g).env]
    rw [show runTasks (E g) (N.site a).conf (N.jobs a g).1 (N.jobs a g).2 sched = .ok s' from h1, ok_bind, h2, h3]
    rfl
  · exact absurd e hpos

/-- Surroundings of a forwarding call deliver what the other processes have. -/
theorem net_produces {N : Net} {U : Nat → String → Prop} {asked : Nat → Nat → Asked} {written : Nat → Nat → List ExRequest}
    (sound : N.Sound U asked written) (sends : ∀ a, (N.site a).Sends) {st : NetSys} (began : N.Began U st) {es : List NetEv}
    {s : NetSys} (h : N.run st es = .ok s) (allowed : ∀ e ∈ es, NetEv.Allowed U e) {a g : Nat} {d : Disk}
    {fwd : Nat → Nat → String × Int → FileMap → Res FileMap} {E : ExtEnv}
    (hL : Lived ((N.site a).told fwd) (U a) (st a).svc d g E)
    (hsp : ∀ g t server fm back, fwd g t server fm = .ok back → N.Spoken st es a g server fm back) :
    Produces E (N.site a).conf true (N.Gives s a) := by
  refine ⟨fun hc => (by cases hc), fun hc => (by cases hc), ?_⟩
  intro _ t server fm back ha hf f items hm
  rw [hL.forward] at hf
  obtain ⟨items', h1, h2, h3⟩ := spoken_holds sound sends began h allowed (hsp g t server fm back hf) ha f items hm
  refine ⟨items', h1, h2, fun j i i' r hi hi' hr => ?_⟩
  exact ⟨server, (ha.place (f, items) hm i (List.mem_of_getElem? hi)).2, h3 j i i' r hi hi' hr⟩

/-- A client's forwarded call that returned has, for each request, what the responsible process got for it. -/
theorem forwarded_holds {N : Net} {U : Nat → String → Prop} {asked : Nat → Nat → Asked}
    {written : Nat → Nat → List ExRequest} (sound : N.Sound U asked written) (sends : ∀ a, (N.site a).Sends) {s : NetSys}
    (reached : N.Reached U s) {a g : Nat} (client : N.origin a g = none) (forwards : (N.site a).conf.forward = true)
    (returned : ((s a).x.t.grp g).phase = .returned) (strict : (N.site a).conf.allowMissing = false)
    {cat : List (FdbKey × Uri)} (catalogue : Catalogue (N.site a).conf.ignoreYearMonth cat)
    (lists : ListsOnly ((N.site a).calls g) cat) {rs : List ExRequest} {ws : List WrittenRequest} (text : Written rs ws)
    (fit : ∀ q ∈ rs, q.Fits) (request : asked a g = .fields rs) {out : List WireResult}
    (got : Net.outcome written s a g = .ok out) :
    out.length = rs.length ∧ ∀ i (hi : i < rs.length) (hj : i < ws.length),
      ∃ e ∈ cat, SameField (N.site a).conf.ignoreYearMonth ws[i].pairs e.1 ∧
        (∀ e' ∈ cat, SameField (N.site a).conf.ignoreYearMonth ws[i].pairs e'.1 → e' = e) ∧
        ∃ server r, (N.site a).conf.servers.find (e.2.host, e.2.port) = some server ∧ out[i]? = some r ∧
          ∃ q : ExRequest, q.ranges = rs[i].ranges ∧ q.gridHash = rs[i].gridHash ∧
            HoldsAt (N.site (N.host server)) (s (N.host server)).svc.disk e.2 q r := by
  obtain ⟨st, es, began, allowed, hrun⟩ := reached
  obtain ⟨fwd, E, sched, -, hL, ha, hsp⟩ := net_alone sound began hrun allowed client returned
  rw [request, got] at ha
  have ho : localExtract E (N.site a).conf sched rs = .ok out := ha
  have hl : ListsOnly E cat := by unfold ListsOnly; rw [hL.list]; exact lists
  obtain ⟨hlen, h⟩ := extract_delivers (P := N.Gives s a)
    (by rw [forwards]; exact net_produces sound sends began hrun allowed hL hsp) catalogue hl text ho
  refine ⟨hlen, fun i hi hj => ?_⟩
  rcases h i hi hj with ⟨e, he, hs, x, q, hx, hq, hg, server, hfind, hold⟩ | ⟨hc, -⟩
  · refine ⟨e, he, hs, fun e' he' hs' => catalogue.distinct e' he' e he (hs'.symm.trans hs), server, x, hfind, hx,
      { q with ranges := q.ranges.map Interval.wrap }, ?_, hg, hold⟩
    show q.ranges.map Interval.wrap = _
    rw [hq, ranges_wrap (fit _ (List.getElem_mem hi))]
  · rw [strict] at hc; cases hc

/-- C76 (partial).  A client's call on a process that forwards has returned without an error, while other calls of other
clients, scans, other forwarded requests went on at all processes.  Then there is one result per request, in order, and
the result for a request is what decoding the one matching message gives, as it is in the files of the process responsible
for it; with that process's grid checks on, the header of the message states the grid hash of the request.
Missing: file names a cache confuses (`ToldApart`, C15), the same path at two endpoints (`Catalogue`, C31), intervals that
do not fit 64 bits. -/
theorem C76_forwarded_values_partial (N : Net) (U : Nat → String → Prop) (asked : Nat → Nat → Asked)
    (written : Nat → Nat → List ExRequest) (sound : N.Sound U asked written) (exact_ : ∀ a, (N.site a).Reads) (s : NetSys)
    (reached : N.Reached U s) (a g : Nat) (client : N.origin a g = none) (forwards : (N.site a).conf.forward = true)
    (returned : ((s a).x.t.grp g).phase = .returned) (strict : (N.site a).conf.allowMissing = false)
    (cat : List (FdbKey × Uri)) (catalogue : Catalogue (N.site a).conf.ignoreYearMonth cat)
    (lists : ListsOnly ((N.site a).calls g) cat) (rs : List ExRequest) (ws : List WrittenRequest) (text : Written rs ws)
    (fit : ∀ q ∈ rs, q.Fits) (request : asked a g = .fields rs) (out : List WireResult)
    (got : Net.outcome written s a g = .ok out) :
    out.length = rs.length ∧ ∀ i (hi : i < rs.length) (hj : i < ws.length),
      ∃ e ∈ cat, SameField (N.site a).conf.ignoreYearMonth ws[i].pairs e.1 ∧
        (∀ e' ∈ cat, SameField (N.site a).conf.ignoreYearMonth ws[i].pairs e'.1 → e' = e) ∧
        ∃ server r, (N.site a).conf.servers.find (e.2.host, e.2.port) = some server ∧ out[i]? = some r ∧
          ∃ file h, (s (N.host server)).svc.disk e.2.path = some file ∧
            (N.site (N.host server)).reader.parse (file.drop e.2.offset) = some h ∧
            messageExtract (N.site (N.host server)).reader file e.2.offset rs[i].ranges = .ok r ∧
            ((N.site (N.host server)).conf.ignoreGrid = false → rs[i].gridHash ≠ "" ∧ rs[i].gridHash = h.md5GridSection) := by
  obtain ⟨hlen, h⟩ := forwarded_holds sound (fun a => (exact_ a).sends) reached client forwards returned strict catalogue lists
    text fit request got
  refine ⟨hlen, fun i hi hj => ?_⟩
  obtain ⟨e, he, hs, hu, server, x, hfind, hx, q, hq, hg, hold⟩ := h i hi hj
  obtain ⟨file, hh, h1, h2, h3, h4⟩ := hold.decoded (exact_ _)
  rw [hq] at h3
  rw [hg] at h4
  exact ⟨e, he, hs, hu, server, x, hfind, hx, file, hh, h1, h2, h3, h4⟩

/-- The same for requests by path. -/
theorem forwarded_paths_hold {N : Net} {U : Nat → String → Prop} {asked : Nat → Nat → Asked}
    {written : Nat → Nat → List ExRequest} (sound : N.Sound U asked written) (sends : ∀ a, (N.site a).Sends) {s : NetSys}
    (reached : N.Reached U s) {a g : Nat} (client : N.origin a g = none)
    (returned : ((s a).x.t.grp g).phase = .returned) {rs : List PathReq}
    (remote : ∀ q ∈ rs, q.host ≠ "" ∨ q.port ≠ 0) (fit : ∀ q ∈ rs, ∀ i ∈ q.ranges, i.b < 2 ^ 64 ∧ i.e < 2 ^ 64)
    (place : ∀ a ∈ rs, ∀ b ∈ rs, a.path = b.path → a.scheme = b.scheme ∧ a.host = b.host ∧ a.port = b.port)
    (request : asked a g = .paths rs) {out : List WireResult} (got : Net.outcome written s a g = .ok out) :
    out.length = rs.length ∧ ∀ (i : Nat) q, rs[i]? = some q →
      ∃ server r, (N.site a).conf.servers.find (q.host, q.port) = some server ∧ out[i]? = some r ∧
        ∃ q' : ExRequest, q'.ranges = q.ranges ∧ q'.gridHash = q.gridHash ∧
          HoldsAt (N.site (N.host server)) (s (N.host server)).svc.disk q.uri q' r := by
  obtain ⟨st, es, began, allowed, hrun⟩ := reached
  obtain ⟨fwd, E, sched, -, hL, ha, hsp⟩ := net_alone sound began hrun allowed client returned
  rw [request, got] at ha
  have ho : localExtractPaths E (N.site a).conf sched rs = .ok out := ha
  obtain ⟨hlen, -, h⟩ := paths_deliver (P := N.Gives s a) (by
    intro r rest hrs
    have : (!(decide (r.host = "") && decide (r.port = 0))) = true := by
      rcases remote r (by rw [hrs]; exact List.mem_cons_self ..) with h | h <;> simp [h]
    rw [this]
    exact net_produces sound sends began hrun allowed hL hsp) place ho
  refine ⟨hlen, fun i q hq => ?_⟩
  obtain ⟨x, hx, server, hfind, hold⟩ := h i q hq
  exact ⟨server, x, hfind, hx, _, ranges_wrap (q := q.base) (fit q (List.mem_of_getElem? hq)), rfl, hold⟩

/-- C76 (partial).  The same for requests by path with host and port.  Missing: the same path at two places in one call,
and what is missing above. -/
theorem C76_forwarded_paths_partial (N : Net) (U : Nat → String → Prop) (asked : Nat → Nat → Asked)
    (written : Nat → Nat → List ExRequest) (sound : N.Sound U asked written) (exact_ : ∀ a, (N.site a).Reads) (s : NetSys)
    (reached : N.Reached U s) (a g : Nat) (client : N.origin a g = none)
    (returned : ((s a).x.t.grp g).phase = .returned) (rs : List PathReq)
    (remote : ∀ q ∈ rs, q.host ≠ "" ∨ q.port ≠ 0) (fit : ∀ q ∈ rs, ∀ i ∈ q.ranges, i.b < 2 ^ 64 ∧ i.e < 2 ^ 64)
    (place : ∀ a ∈ rs, ∀ b ∈ rs, a.path = b.path → a.scheme = b.scheme ∧ a.host = b.host ∧ a.port = b.port)
    (request : asked a g = .paths rs) (out : List WireResult) (got : Net.outcome written s a g = .ok out) :
    out.length = rs.length ∧ ∀ (i : Nat) q, rs[i]? = some q →
      ∃ server r, (N.site a).conf.servers.find (q.host, q.port) = some server ∧ out[i]? = some r ∧
        ∃ file h, (s (N.host server)).svc.disk q.path = some file ∧
          (N.site (N.host server)).reader.parse (file.drop q.offset) = some h ∧
          messageExtract (N.site (N.host server)).reader file q.offset q.ranges = .ok r ∧
          ((N.site (N.host server)).conf.ignoreGrid = false → q.gridHash ≠ "" ∧ q.gridHash = h.md5GridSection) := by
  obtain ⟨hlen, h⟩ := forwarded_paths_hold sound (fun a => (exact_ a).sends) reached client returned remote fit place request got
  refine ⟨hlen, fun i q hq => ?_⟩
  obtain ⟨server, x, hfind, hx, q', hr, hg, hold⟩ := h i q hq
  obtain ⟨file, hh, h1, h2, h3, h4⟩ := hold.decoded (exact_ _)
  rw [hr] at h3
  rw [hg] at h4
  exact ⟨server, x, hfind, hx, file, hh, h1, h2, h3, h4⟩

/-- What a call that does not forward gets for an item: what the store delivers, or what a file of its own process holds. -/
def Net.Has (N : Net) (s : NetSys) (a : Nat) (u : Uri) (q : ExRequest) (r : WireResult) : Prop :=
  (u.scheme = "fdb" → (N.site a).fetch u q.ranges = .ok r) ∧ (u.scheme ≠ "fdb" → HoldsAt (N.site a) (s a).svc.disk u q r)

/-- Surroundings of a call that does not forward deliver what its own process has. -/
theorem net_has {N : Net} {U : Nat → String → Prop} {asked : Nat → Nat → Asked} {written : Nat → Nat → List ExRequest}
    (sound : N.Sound U asked written) {st s : NetSys} {a g : Nat}
    {fwd : Nat → Nat → String × Int → FileMap → Res FileMap} {E : ExtEnv}
    (good : SvcGood (N.site a).reader (N.site a).offs (U a) (st a).svc)
    (hL : Lived ((N.site a).told fwd) (U a) (st a).svc (s a).svc.disk g E) :
    Produces E (N.site a).conf false (N.Has s a) := by
  have h := lived_holds (p := (N.site a).told fwd) (sound.reader a) (sound.offs a) good hL
  refine ⟨?_, ?_, fun hc => (by cases hc)⟩
  · intro hf t t' u q offs infos j i r hs hi ho hj hgr hjump
    exact ⟨fun hc => absurd hc hs, h.file hf t t' u q offs infos j i r hs hi ho hj hgr hjump⟩
  · intro _ t u q r hs hf
    rw [hL.fetch] at hf
    exact ⟨fun _ => hf, fun hc => absurd hs hc⟩

/-- A client's call on a process that does not forward. -/
theorem local_holds {N : Net} {U : Nat → String → Prop} {asked : Nat → Nat → Asked}
    {written : Nat → Nat → List ExRequest} (sound : N.Sound U asked written) {s : NetSys}
    (reached : N.Reached U s) {a g : Nat} (client : N.origin a g = none) (stays : (N.site a).conf.forward = false)
    (returned : ((s a).x.t.grp g).phase = .returned) (strict : (N.site a).conf.allowMissing = false)
    {cat : List (FdbKey × Uri)} (catalogue : Catalogue (N.site a).conf.ignoreYearMonth cat)
    (lists : ListsOnly ((N.site a).calls g) cat) {rs : List ExRequest} {ws : List WrittenRequest} (text : Written rs ws)
    (request : asked a g = .fields rs) {out : List WireResult} (got : Net.outcome written s a g = .ok out) :
    out.length = rs.length ∧ ∀ i (hi : i < rs.length) (hj : i < ws.length),
      ∃ e ∈ cat, SameField (N.site a).conf.ignoreYearMonth ws[i].pairs e.1 ∧
        (∀ e' ∈ cat, SameField (N.site a).conf.ignoreYearMonth ws[i].pairs e'.1 → e' = e) ∧
        ∃ r, out[i]? = some r ∧ ∃ q : ExRequest, q.ranges = rs[i].ranges ∧ q.gridHash = rs[i].gridHash ∧ N.Has s a e.2 q r := by
  obtain ⟨st, es, began, allowed, hrun⟩ := reached
  obtain ⟨fwd, E, sched, good, hL, ha, -⟩ := net_alone sound began hrun allowed client returned
  rw [request, got] at ha
  have ho : localExtract E (N.site a).conf sched rs = .ok out := ha
  have hl : ListsOnly E cat := by unfold ListsOnly; rw [hL.list]; exact lists
  obtain ⟨hlen, h⟩ := extract_delivers (P := N.Has s a) (by rw [stays]; exact net_has sound good hL) catalogue hl text ho
  refine ⟨hlen, fun i hi hj => ?_⟩
  rcases h i hi hj with ⟨e, he, hs, x, q, hx, hq, hg, hh⟩ | ⟨hc, -⟩
  · exact ⟨e, he, hs, fun e' he' hs' => catalogue.distinct e' he' e he (hs'.symm.trans hs), x, hx, q, hq, hg, hh⟩
  · rw [strict] at hc; cases hc

/-- C76 (partial).  A client's call on a process that does not forward has returned without an error, while its process also
worked for others.  Then there is one result per request, in order, and it is what the store delivers for the one
matching message, or what decoding it in the process's own file gives.  Missing: as above. -/
theorem C76_local_values_partial (N : Net) (U : Nat → String → Prop) (asked : Nat → Nat → Asked)
    (written : Nat → Nat → List ExRequest) (sound : N.Sound U asked written) (exact_ : ∀ a, (N.site a).Reads) (s : NetSys)
    (reached : N.Reached U s) (a g : Nat) (client : N.origin a g = none) (stays : (N.site a).conf.forward = false)
    (returned : ((s a).x.t.grp g).phase = .returned) (strict : (N.site a).conf.allowMissing = false)
    (cat : List (FdbKey × Uri)) (catalogue : Catalogue (N.site a).conf.ignoreYearMonth cat)
    (lists : ListsOnly ((N.site a).calls g) cat) (rs : List ExRequest) (ws : List WrittenRequest) (text : Written rs ws)
    (request : asked a g = .fields rs) (out : List WireResult) (got : Net.outcome written s a g = .ok out) :
    out.length = rs.length ∧ ∀ i (hi : i < rs.length) (hj : i < ws.length),
      ∃ e ∈ cat, SameField (N.site a).conf.ignoreYearMonth ws[i].pairs e.1 ∧
        (∀ e' ∈ cat, SameField (N.site a).conf.ignoreYearMonth ws[i].pairs e'.1 → e' = e) ∧
        ∃ r, out[i]? = some r ∧ (e.2.scheme = "fdb" → (N.site a).fetch e.2 rs[i].ranges = .ok r) ∧
          (e.2.scheme ≠ "fdb" → ∃ file h, (s a).svc.disk e.2.path = some file ∧
            (N.site a).reader.parse (file.drop e.2.offset) = some h ∧
            messageExtract (N.site a).reader file e.2.offset rs[i].ranges = .ok r ∧
            ((N.site a).conf.ignoreGrid = false → rs[i].gridHash ≠ "" ∧ rs[i].gridHash = h.md5GridSection)) := by
  obtain ⟨hlen, h⟩ := local_holds sound reached client stays returned strict catalogue lists text request got
  refine ⟨hlen, fun i hi hj => ?_⟩
  obtain ⟨e, he, hs, hu, x, hx, q, hq, hg, hf, hh⟩ := h i hi hj
  refine ⟨e, he, hs, hu, x, hx, ?_, fun hn => ?_⟩
  · rw [← hq]; exact hf
  · obtain ⟨file, hd, h1, h2, h3, h4⟩ := (hh hn).decoded (exact_ _)
    rw [hq] at h3
    rw [hg] at h4
    exact ⟨file, hd, h1, h2, h3, h4⟩

/-- The same for requests by path. -/
theorem local_paths_hold {N : Net} {U : Nat → String → Prop} {asked : Nat → Nat → Asked}
    {written : Nat → Nat → List ExRequest} (sound : N.Sound U asked written) {s : NetSys}
    (reached : N.Reached U s) {a g : Nat} (client : N.origin a g = none)
    (returned : ((s a).x.t.grp g).phase = .returned) {rs : List PathReq}
    (here : ∀ q ∈ rs, q.host = "" ∧ q.port = 0) (place : ∀ a ∈ rs, ∀ b ∈ rs, a.path = b.path → a.scheme = b.scheme)
    (request : asked a g = .paths rs) {out : List WireResult} (got : Net.outcome written s a g = .ok out) :
    out.length = rs.length ∧ ∀ (i : Nat) q, rs[i]? = some q → ∃ r, out[i]? = some r ∧ N.Has s a q.uri q.base r := by
  obtain ⟨st, es, began, allowed, hrun⟩ := reached
  obtain ⟨fwd, E, sched, good, hL, ha, -⟩ := net_alone sound began hrun allowed client returned
  rw [request, got] at ha
  have ho : localExtractPaths E (N.site a).conf sched rs = .ok out := ha
  obtain ⟨hlen, -, h⟩ := paths_deliver (P := N.Has s a) (by
    intro r rest hrs
    obtain ⟨h1, h2⟩ := here r (by rw [hrs]; exact List.mem_cons_self ..)
    have : (!(decide (r.host = "") && decide (r.port = 0))) = false := by simp [h1, h2]
    rw [this]
    exact net_has sound good hL) (fun x hx y hy e => ⟨place x hx y hy e,
      (here x hx).1.trans (here y hy).1.symm, (here x hx).2.trans (here y hy).2.symm⟩) ho
  exact ⟨hlen, fun i q hq => h i q hq⟩

/-- C76 (partial).  The same for requests by path without host and port.  Missing: as above. -/
theorem C76_local_paths_partial (N : Net) (U : Nat → String → Prop) (asked : Nat → Nat → Asked)
    (written : Nat → Nat → List ExRequest) (sound : N.Sound U asked written) (exact_ : ∀ a, (N.site a).Reads) (s : NetSys)
    (reached : N.Reached U s) (a g : Nat) (client : N.origin a g = none)
    (returned : ((s a).x.t.grp g).phase = .returned) (rs : List PathReq)
    (here : ∀ q ∈ rs, q.host = "" ∧ q.port = 0) (place : ∀ a ∈ rs, ∀ b ∈ rs, a.path = b.path → a.scheme = b.scheme)
    (request : asked a g = .paths rs) (out : List WireResult) (got : Net.outcome written s a g = .ok out) :
    out.length = rs.length ∧ ∀ (i : Nat) q, rs[i]? = some q →
      ∃ r, out[i]? = some r ∧ (q.scheme = "fdb" → (N.site a).fetch q.uri q.ranges = .ok r) ∧
        (q.scheme ≠ "fdb" → ∃ file h, (s a).svc.disk q.path = some file ∧
          (N.site a).reader.parse (file.drop q.offset) = some h ∧
          messageExtract (N.site a).reader file q.offset q.ranges = .ok r ∧
          ((N.site a).conf.ignoreGrid = false → q.gridHash ≠ "" ∧ q.gridHash = h.md5GridSection)) := by
  obtain ⟨hlen, h⟩ := local_paths_hold sound reached client returned here place request got
  refine ⟨hlen, fun i q hq => ?_⟩
  obtain ⟨x, hx, hf, hh⟩ := h i q hq
  exact ⟨x, hx, hf, fun hn => (hh hn).decoded (exact_ _)⟩

/-! ## Order -/

/-- **C76.**  What arrives was sent: whenever a process has begun to work on a request that arrived from another process, that
process has begun to execute the task that sends it. -/
theorem C76_sent_first (N : Net) (U : Nat → String → Prop) (asked : Nat → Nat → Asked)
    (written : Nat → Nat → List ExRequest) (sound : N.Sound U asked written) (s : NetSys) (reached : N.Reached U s)
    (a g t b h : Nat) (arrived : N.origin b h = some (a, g, t)) :
    (∀ j, (h, j) ∈ (s b).x.t.started → (g, t) ∈ (s a).x.t.started) ∧
    (((s b).x.t.grp h).tasks ≠ [] → (g, t) ∈ (s a).x.t.started) := by
  obtain ⟨st, es, began, allowed, hrun⟩ := reached
  have ok := net_ok sound began es s hrun allowed
  have key : ((s b).x.t.grp h).tasks ≠ [] → (g, t) ∈ (s a).x.t.started := by
    intro hne
    cases ho : N.fleet.opened s.groups b h with
    | false => exact absurd (ok.fleet.shut b h ho) hne
    | true =>
      rw [opened_fleet, Net.opened, arrived] at ho
      exact of_decide_eq_true ho
  refine ⟨fun j hj => key fun e => ?_, key⟩
  have hc := (ok.fleet.inv b).cell h j
  rw [show s.groups b = (s b).x.t from rfl, e] at hc
  have hz : (s b).x.t.started.count (h, j) = 0 := hc.2.2.1
  have := List.count_pos_iff.mpr hj
  omega

/-! ## Cases -/

/-- The address, and the items and tasks of the request that arrives, for a task that forwards. -/
def arrivedOf (C : EngineConf) (ctx : String) (m : ItemMap) (T : Option FTask) :
    Option ((String × Int) × ItemMap × List FTask) :=
  match T with
  | some ⟨.forward server files, .fresh⟩ =>
    match dispatch (encHeader .forwardExtract ctx ++ (encForwardExtract (sentFiles m files)).1) with
    | .ok ((c, .forwardExtract fm), rest) =>
      match localTasks C (numFiles 0 fm).1 false (numFiles 0 fm).2 with
      | .ok ts => if c = ctx ∧ rest = [] then some (server, (numFiles 0 fm).1, ts) else none
      | .error _ => none
    | _ => none
  | _ => none

theorem arrivedOf_sent {N : Net} {a g t b h : Nat} {x : (String × Int) × ItemMap × List FTask}
    (e : arrivedOf (N.site b).conf (N.ctx a g) (N.jobs a g).1 (N.jobs a g).2[t]? = some x) (host : N.host x.1 = b)
    (jobs : N.jobs b h = x.2) : N.Sent a g t b h := by
  rw [arrivedOf.eq_def] at e
  split at e
  · rename_i server files hT
    split at e
    · rename_i c fm rest hd
      split at e
      · rename_i ts hl
        split at e
        · rename_i hc
          obtain ⟨rfl, rfl⟩ := hc
          have e := Option.some.inj e
          subst e
          exact ⟨server, files, fm, hT, host, hd, by rw [jobs], by rw [jobs]; exact hl⟩
        · cases e
      · cases e
    · cases e
  · cases e

/-- A front that holds nothing, and two processes with a file each. -/
def c76Site : Nat → Site
  | 0 => { c74Site with conf := c52Conf, calls := fun _ => c52Env }
  | _ => { c74Site with conf := c50Conf }

def c76Asked : Nat → Nat → Asked
  | 0, 0 => .fields c50Reqs
  | 0, 1 => .paths [⟨"/fdb/b.data", "fdb", 0, "y", 2, [⟨0, 2⟩], "g"⟩]
  | 1, 0 => .paths [⟨"/fdb/a.data", "file", 6, "", 0, [⟨0, 1⟩], "g"⟩]
  | 1, 2 => .fields (c50Reqs.drop 1)
  | _, _ => .paths []

def c76Own (a g : Nat) : List ExRequest × ItemMap × List FTask :=
  prepareAll (c76Site a).conf (fun g => (c76Asked a g).call ((c76Site a).calls g)) g

def c76Target : Nat → Nat → Nat → Option (Nat × Nat)
  | 0, 0, 0 => some (1, 1)
  | 0, 0, 1 => some (2, 0)
  | 0, 1, 0 => some (2, 1)
  | _, _, _ => none

def c76Origin : Nat → Nat → Option (Nat × Nat × Nat)
  | 1, 1 => some (0, 0, 0)
  | 2, 0 => some (0, 0, 1)
  | 2, 1 => some (0, 1, 0)
  | _, _ => none

def c76Jobs (a g : Nat) : ItemMap × List FTask :=
  match c76Origin a g with
  | none => (c76Own a g).2
  | some (b, h, t) => ((arrivedOf (c76Site a).conf "ctx" (c76Own b h).2.1 (c76Own b h).2.2[t]?).getD (("", 0), [], [])).2

def c76Net : Net where
  site := c76Site
  threads := fun a => if a = 0 then 2 else if a < 3 then 1 else 0
  host := fun server => if server.1 = "gx" then 1 else 2
  ctx := fun _ _ => "ctx"
  target := c76Target
  origin := c76Origin
  jobs := c76Jobs

def c76Disk : Nat → Disk
  | 1 => c74Disk
  | 2 => c52Disk "/fdb/b.data" [0x47, 4, 20, 21, 22, 23]
  | _ => fun _ => none

def c76Start : NetSys := c76Net.start c76Disk (fun _ => .shadow) (fun _ => true) (fun _ => 4) (fun _ => [])

/-- Clients of the front, a client of the first process, the workers of all, a growing file and a scan take turns. -/
def c76Turns : List NetEv :=
  [.on 0 (.queue (.add 0)), .on 0 (.queue (.push 0)), .on 0 (.queue (.add 1)), .on 0 (.queue (.push 1)),
   .on 0 (.queue (.wait 0)), .on 0 (.queue (.wait 1)),
   .on 0 (.queue (.pop 0)), .on 0 (.queue (.start 0)), .on 0 (.queue (.pop 1)), .on 0 (.queue (.start 1)),
   .on 1 (.queue (.add 0)), .on 1 (.queue (.push 0)), .on 1 (.queue (.wait 0)), .on 1 (.queue (.add 1)), .on 1 (.queue (.push 1)),
   .on 1 (.queue (.wait 1)), .on 1 (.queue (.add 2)), .on 1 (.queue (.push 2)), .on 1 (.queue (.wait 2)),
   .on 1 (.queue (.pop 0)), .on 1 (.queue (.start 0)), .on 1 (.queue (.work 0)),
   .on 1 (.other (.append "/fdb/a.data" [0x47, 1, 9])), .on 1 (.queue (.ret 0)), .on 1 (.queue (.ret 1)), .on 1 (.queue (.ret 2)),
   .on 2 (.queue (.add 0)), .on 2 (.queue (.push 0)), .on 2 (.queue (.wait 0)), .on 2 (.queue (.add 1)), .on 2 (.queue (.push 1)),
   .on 2 (.queue (.wait 1)), .on 2 (.queue (.pop 0)), .on 2 (.queue (.start 0)), .on 2 (.queue (.work 0)),
   .on 2 (.other (.scan "/fdb/b.data" [0])), .on 2 (.other (.commit 0)), .on 2 (.queue (.ret 0)), .on 2 (.queue (.ret 1)),
   .on 0 (.queue (.work 0)), .on 0 (.queue (.work 1)), .on 0 (.queue (.ret 0)), .on 0 (.queue (.ret 1))]
def c76Ev (k : Nat) : NetEv := c76Turns[k % 43]?.getD (.on 0 (.other .clear))

def c76At (k : Nat) : Res NetSys := c76Net.run c76Start ((List.range k).map c76Ev)

def c76Seen (k : Nat) : Option (Phase × Phase × Phase × Phase) :=
  match c76At k with
  | .ok s => some (((s 0).x.t.grp 0).phase, ((s 0).x.t.grp 1).phase, ((s 1).x.t.grp 0).phase, ((s 1).x.t.grp 2).phase)
  | .error _ => none

def c76Written (a g : Nat) : List ExRequest := (c76Own a g).1

def c76Out (k a g : Nat) : Res (List WireResult) := do
  let s ← c76At k
  Net.outcome c76Written s a g

def c76Names (_ : Nat) (p : String) : Prop := p = "/fdb/a.data" ∨ p = "/fdb/b.data"

theorem c76_sound : c76Net.Sound c76Names c76Asked c76Written where
  reader a := by match a with | 0 => exact toySound | a + 1 => exact toySound
  offs a file := by match a with | 0 => exact fun h => (by cases h) | a + 1 => exact fun h => (by cases h)
  back a g t b h := by
    show c76Target a g t = some (b, h) ↔ c76Origin b h = some (a, g, t)
    constructor
    · intro e
      unfold c76Target at e
      split at e <;> first | (cases e; done) | (cases e; rfl)
    · intro e
      unfold c76Origin at e
      split at e <;> first | (cases e; done) | (cases e; rfl)
  sent a g t b h e := by
    have hs : ∀ (a g t b h : Nat), c76Origin b h = some (a, g, t) → c76Origin a g = none →
        (arrivedOf (c76Site b).conf "ctx" (c76Own a g).2.1 (c76Own a g).2.2[t]?).map (fun x => c76Net.host x.1) = some b →
        c76Net.Sent a g t b h := by
      intro a g t b h h1 h2 h3
      obtain ⟨x, hx, hb⟩ := Option.map_eq_some_iff.mp h3
      have hj : c76Net.jobs a g = (c76Own a g).2 := by show c76Jobs a g = _; rw [c76Jobs, h2]
      refine arrivedOf_sent (x := x) ?_ hb ?_
      · rw [hj]; exact hx
      · show c76Jobs b h = _
        rw [c76Jobs, h1]
        simp only []
        rw [hx]; rfl
    have e : c76Target a g t = some (b, h) := e
    unfold c76Target at e
    split at e
    · cases e; exact hs _ _ _ _ _ rfl rfl (by decide +kernel)
    · cases e; exact hs _ _ _ _ _ rfl rfl (by decide +kernel)
    · cases e; exact hs _ _ _ _ _ rfl rfl (by decide +kernel)
    · cases e
  client a g e := by
    have hj : c76Net.jobs a g = (c76Own a g).2 := by
      show c76Jobs a g = _
      rw [c76Jobs, show c76Origin a g = none from e]
    rw [hj]
    exact prepareAll_ok (c76Site a).conf (fun g => (c76Asked a g).call ((c76Site a).calls g)) g
  within a g T hT f ks hk := by
    have hs : ∀ (ts : List FTask), (ts.all fun T => match T.kind with
        | .file f _ => f = "/fdb/a.data" ∨ f = "/fdb/b.data"
        | _ => true) = true → T ∈ ts → c76Names a f := by
      intro ts h hT
      have := List.all_eq_true.mp h T hT
      rw [hk] at this
      exact of_decide_eq_true (p := f = "/fdb/a.data" ∨ f = "/fdb/b.data") this
    match a, g, hT with
    | 0, 0, hT => exact hs _ (by decide +kernel) hT
    | 0, 1, hT => exact hs _ (by decide +kernel) hT
    | 1, 0, hT => exact hs _ (by decide +kernel) hT
    | 1, 1, hT => exact hs _ (by decide +kernel) hT
    | 1, 2, hT => exact hs _ (by decide +kernel) hT
    | 2, 0, hT => exact hs _ (by decide +kernel) hT
    | 2, 1, hT => exact hs _ (by decide +kernel) hT
    | 0, g + 2, hT => cases hT
    | 1, g + 3, hT => cases hT
    | 2, g + 2, hT => cases hT
    | a + 3, g, hT => cases hT

theorem c76_apart (a : Nat) : ToldApart .shadow (c76Names a) := by
  refine C15_separated _ _ ?_ ?_
  · intro p q hp hq h
    rcases hp with rfl | rfl <;> rcases hq with rfl | rfl <;> first | rfl | (exact absurd h (by decide +kernel))
  · intro p hp c hc
    rcases hp with rfl | rfl
    · have : (baseName "/fdb/a.data").toList.getLast? = some 'a' := by decide +kernel
      rw [this] at hc; cases hc; decide
    · have : (baseName "/fdb/b.data").toList.getLast? = some 'a' := by decide +kernel
      rw [this] at hc; cases hc; decide

theorem c76_agree (W : World) (a : Nat) : GoodIndex W (c76Names a) .shadow [] := by
  intro p _; exact ⟨[], Or.inl ⟨rfl, rfl⟩, fun x hx => by cases hx⟩

theorem c76_began : c76Net.Began c76Names c76Start :=
  ⟨c76Disk, fun _ => .shadow, fun _ => true, fun _ => 4, fun _ => [], c76_apart, fun _ => Nat.succ_pos 3, fun a => c76_agree _ a, rfl⟩

theorem c76_reads (a : Nat) : (c76Net.site a).Reads := by
  match a with
  | 0 => exact fun _ _ _ _ _ h => h
  | a + 1 => exact fun _ _ _ _ _ h => h

theorem c76_allowed (k : Nat) : NetEv.Allowed c76Names (c76Ev k) := by
  have h : ∀ e ∈ c76Turns, NetEv.Allowed c76Names e := by
    intro e he
    simp only [c76Turns, List.mem_cons, List.mem_nil_iff, or_false] at he
    repeat' (rcases he with rfl | he <;> first | trivial | exact Or.inl rfl | exact Or.inr rfl | skip)
    all_goals first | (subst he; trivial)
  unfold c76Ev
  cases he : c76Turns[k % 43]? with
  | none => trivial
  | some e => exact h e (List.mem_of_getElem? he)

/-- Non-vacuity: the two calls of the front and the two calls of the first process return, with their own values; what the
theorems ask of the network and of the calls holds. -/
example : c76Seen 774 = some (.returned, .returned, .returned, .returned) ∧
    c76Out 774 0 0 = .ok [⟨[[10, 11, 12, 13]], [[15]]⟩, ⟨[[21], [22, 23]], [[1], [3]]⟩, ⟨[[7, 8]], [[3]]⟩] ∧
    c76Out 774 0 1 = .ok [⟨[[20, 21]], [[3]]⟩] ∧ c76Out 774 1 0 = .ok [⟨[[7]], [[1]]⟩] ∧
    c76Out 774 1 2 = .ok [⟨[[11], [12, 13]], [[1], [3]]⟩, ⟨[[7, 8]], [[3]]⟩] ∧
    (∀ s, c76At 774 = .ok s → c76Net.Reached c76Names s) ∧
    Catalogue (c76Site 0).conf.ignoreYearMonth c52Cat ∧ ListsOnly ((c76Site 0).calls 0) c52Cat ∧ Written c50Reqs c27Written ∧
    (c76Site 0).conf.forward = true ∧ (c76Site 0).conf.allowMissing = false ∧ (∀ q ∈ c50Reqs, q.Fits) ∧
    Catalogue (c76Site 1).conf.ignoreYearMonth c50Cat ∧ ListsOnly ((c76Site 1).calls 2) c50Cat ∧
    Written (c50Reqs.drop 1) (c27Written.drop 1) ∧ (c76Site 1).conf.forward = false ∧ (c76Site 1).conf.allowMissing = false := by
  refine ⟨by decide +kernel, by decide +kernel, by decide +kernel, by decide +kernel, by decide +kernel, fun s h => ⟨_, _, c76_began, ?_, h⟩,
    catalogue_of (by decide +kernel) (by decide +kernel) (by decide +kernel), ?_, ⟨by decide +kernel, c27_written.2⟩, rfl, rfl, ?_,
    catalogue_of (by decide +kernel) (by decide +kernel) (by decide +kernel), ?_,
    ⟨by decide +kernel, fun w hw => c27_written.2 w (List.mem_of_mem_drop hw)⟩, rfl, rfl⟩
  · intro e he
    obtain ⟨i, -, rfl⟩ := List.mem_map.mp he
    exact c76_allowed i
  · intro u L h
    have := Except.ok.inj h
    subst this
    exact ⟨fun e he => he, by decide +kernel⟩
  · intro q hq i hi
    simp only [c50Reqs, List.mem_cons, List.mem_nil_iff, or_false] at hq
    rcases hq with rfl | rfl | rfl <;>
      (simp only [List.mem_cons, List.mem_nil_iff, or_false] at hi; rcases hi with rfl | rfl | rfl <;> decide)
  · intro u L h
    have := Except.ok.inj h
    subst this
    exact ⟨fun e he => he, by decide +kernel⟩

/-- Non-vacuity: after one round the second process has begun to work on a request that arrived, which the front has sent. -/
example : (match c76At 43 with
    | .ok s => decide ((1, 0) ∈ (s 2).x.t.started) && decide ((1, 0) ∈ (s 0).x.t.started) &&
        decide (c76Net.origin 2 1 = some (0, 1, 0))
    | .error _ => false) = true := by decide +kernel

end GJ
