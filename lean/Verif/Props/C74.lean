import Verif.Lemmas.Whole
import Verif.Props.C55

/-!
# C74: a process serving calls

The theorems about calls (C50, C69, C71) describe what a call meets by conditions on its surroundings.  Here nothing of
that kind is assumed: workers, calls, the cache with its index files, scans, the plugin and growing data files are one
machine, and the theorems are about all its histories.
-/

namespace GJ
open Spec

/-- A process that handles files with these names: the reader of metadata looks at the message only, finding messages in
a file is defined, every call was prepared or failed before it had a task, and calls get only to files with these
names. -/
structure Site.Sane (p : Site) (U : String → Prop) (asked : Nat → Asked)
    (x : Nat → List ExRequest × ItemMap × List FTask) : Prop where
  reader : SoundReader p.reader
  offs : ∀ file, p.offs file ≠ undef
  prepared : p.Prepared asked x
  within : ∀ g, (asked g).Within U (p.calls g)

/-- The process has come to state `s`: it started with `n` workers over index files that agree with the data files, and
then anything happened. -/
def Site.Reached (p : Site) (U : String → Prop) (n : Nat) (x : Nat → List ExRequest × ItemMap × List FTask) (lazy : Bool)
    (s : Srv) : Prop :=
  ∃ d mode cap fs es, ToldApart mode U ∧ 0 < cap ∧ GoodIndex (diskWorld p.reader p.offs d) U mode fs ∧
    (∀ e ∈ es, SrvEv.Allowed U e) ∧ (Srv.start p n (fun g => (x g).2) d mode lazy cap fs).run p es = .ok s

theorem Site.Reached.inv {p : Site} {U : String → Prop} {asked : Nat → Asked}
    {x : Nat → List ExRequest × ItemMap × List FTask} (h : p.Sane U asked x) {n : Nat} {lazy : Bool} {s : Srv}
    (r : p.Reached U n x lazy s) :
    ∃ d mode cap fs, ToldApart mode U ∧ 0 < cap ∧ GoodIndex (diskWorld p.reader p.offs d) U mode fs ∧
      SrvInv p U n (fun g => (x g).2) (fun _ => Svc.start p.reader p.offs d mode lazy cap fs) s := by
  obtain ⟨d, mode, cap, fs, es, h1, h2, h3, h4, h5⟩ := r
  exact ⟨d, mode, cap, fs, h1, h2, h3,
    (SrvInv.start h.reader h.offs h1 h2 h3 (h.prepared.files h.within)).ran h.reader h.offs h.prepared.fresh h4 h5⟩

theorem Site.Reached.ran {p : Site} {U : String → Prop} {n : Nat} {x : Nat → List ExRequest × ItemMap × List FTask}
    {lazy : Bool} {s s' : Srv} (r : p.Reached U n x lazy s) {es : List SrvEv} (ha : ∀ e ∈ es, SrvEv.Allowed U e)
    (hs : s.run p es = .ok s') : p.Reached U n x lazy s' := by
  obtain ⟨d, mode, cap, fs, es0, h1, h2, h3, h4, h5⟩ := r
  refine ⟨d, mode, cap, fs, es0 ++ es, h1, h2, h3, ?_, ?_⟩
  · intro e he
    rcases List.mem_append.mp he with he | he
    · exact h4 e he
    · exact ha e he
  · rw [srv_append, h5, ok_bind, hs]

/-! ## Values -/

/-- Other servers deliver, for a call, what the files of this moment or the store hold. -/
def Site.PeersRight (p : Site) (stored : Uri → List UInt8) (g : Nat) (d : Disk) : Prop :=
  ∀ t server fm back, Addressed p.conf server fm → (p.calls g).forward t server fm = .ok back →
    ∀ f items, (f, items) ∈ fm → ∃ items', back.find f = some items' ∧ items'.length = items.length ∧
      ∀ (j : Nat) i i' r, items[j]? = some i → items'[j]? = some i' → i'.result = some r →
        FieldAt p.reader d stored i.uri i.request.ranges r

/-- The store states the length of messages and delivers them in one read. -/
def StoreRight (R : Reader UInt64) (S : Store) (stored : Uri → List UInt8) : Prop :=
  ∀ u msg answers, S.read u = .ok (msg, answers) → msg = stored u ∧ S.length u = some msg.length ∧
    AtOnce msg answers ∧ ∃ h, GoodMessage R msg h

/-- C74 (partial).  Whatever happened in the process, if a call for fields has returned without an error, there is one
result per request, in order, and the result for a request holds exactly what decoding the one matching message of the
catalogue gives in the ranges asked for.  Missing: file names the cache confuses (`ToldApart`, C15), the store's delivery
in several reads (C46). -/
theorem C74_returned_values_partial (p : Site) (U : String → Prop) (n : Nat) (asked : Nat → Asked)
    (x : Nat → List ExRequest × ItemMap × List FTask) (sane : p.Sane U asked x) (S : Store) (stored : Uri → List UInt8)
    (faithful : p.Faithful S) (store : StoreRight p.reader S stored) (lazy : Bool) (s : Srv)
    (reached : p.Reached U n x lazy s) (g : Nat) (returned : (s.x.t.grp g).phase = .returned)
    (peers : p.PeersRight stored g s.svc.disk) (strict : p.conf.allowMissing = false)
    (cat : List (FdbKey × Uri)) (catalogue : Catalogue p.conf.ignoreYearMonth cat) (lists : ListsOnly (p.calls g) cat)
    (rs : List ExRequest) (ws : List WrittenRequest) (written : Written rs ws) (request : asked g = .fields rs)
    (out : List WireResult) (got : s.x.outcome x g = .ok out) :
    out.length = rs.length ∧ ∀ i (hi : i < rs.length) (hj : i < ws.length),
      ∃ e ∈ cat, SameField p.conf.ignoreYearMonth ws[i].pairs e.1 ∧
        (∀ e' ∈ cat, SameField p.conf.ignoreYearMonth ws[i].pairs e'.1 → e' = e) ∧
        ∃ r, out[i]? = some r ∧ FieldAt p.reader s.svc.disk stored e.2 rs[i].ranges r := by
  obtain ⟨d, mode, cap, fs, h1, h2, h3, inv⟩ := reached.inv sane
  obtain ⟨E, sched, hL, ha⟩ := inv.alone sane.prepared returned
  rw [request, got] at ha
  have ho : localExtract E p.conf sched rs = .ok out := ha
  have hl : ListsOnly E cat := by unfold ListsOnly; rw [hL.list]; exact lists
  have good : SvcGood p.reader p.offs U (Svc.start p.reader p.offs d mode lazy cap fs) := SvcGood.start sane.offs h1 h2 h3
  have hon := fun dflt => honest_of_lived sane.reader sane.offs good hL faithful store peers dflt
  obtain ⟨hlen, ha⟩ := C27_results_in_request_order E p.conf _ _ (hon ⟨[], []⟩) cat catalogue hl sched rs ws written strict
    out ho
  obtain ⟨-, hb⟩ := C27_results_in_request_order E p.conf _ _ (hon ⟨[[]], []⟩) cat catalogue hl sched rs ws written strict
    out ho
  refine ⟨hlen, fun i hi hj => ?_⟩
  obtain ⟨e, he, hs, hu, hr⟩ := ha i hi hj
  obtain ⟨e', he', hs', -, hr'⟩ := hb i hi hj
  have hee := hu e' he' hs'
  subst hee
  refine ⟨e', he', hs, hu, _, hr, contentOf_real (a := ⟨[], []⟩) (b := ⟨[[]], []⟩) (by decide) ?_⟩
  rw [hr] at hr'
  exact Option.some.inj hr'

/-- C74 (partial).  The same for requests by path: each result is what the message at its own place holds in its own
ranges, provided requests for the same path agree on scheme, host and port. -/
theorem C74_returned_path_values_partial (p : Site) (U : String → Prop) (n : Nat) (asked : Nat → Asked)
    (x : Nat → List ExRequest × ItemMap × List FTask) (sane : p.Sane U asked x) (S : Store) (stored : Uri → List UInt8)
    (faithful : p.Faithful S) (store : StoreRight p.reader S stored) (lazy : Bool) (s : Srv)
    (reached : p.Reached U n x lazy s) (g : Nat) (returned : (s.x.t.grp g).phase = .returned)
    (peers : p.PeersRight stored g s.svc.disk) (rs : List PathReq)
    (place : ∀ a ∈ rs, ∀ b ∈ rs, a.path = b.path → a.scheme = b.scheme ∧ a.host = b.host ∧ a.port = b.port)
    (request : asked g = .paths rs) (out : List WireResult) (got : s.x.outcome x g = .ok out) :
    out.length = rs.length ∧ ∀ (i : Nat) q, rs[i]? = some q →
      ∃ r, out[i]? = some r ∧
        FieldAt p.reader s.svc.disk stored ⟨q.scheme, q.host, q.port, q.path, q.offset⟩ q.ranges r := by
  obtain ⟨d, mode, cap, fs, h1, h2, h3, inv⟩ := reached.inv sane
  obtain ⟨E, sched, hL, ha⟩ := inv.alone sane.prepared returned
  rw [request, got] at ha
  have ho : localExtractPaths E p.conf sched rs = .ok out := ha
  have good : SvcGood p.reader p.offs U (Svc.start p.reader p.offs d mode lazy cap fs) := SvcGood.start sane.offs h1 h2 h3
  have hon := fun dflt => honest_of_lived sane.reader sane.offs good hL faithful store peers dflt
  have ha := C27_path_results_in_request_order E p.conf _ _ (hon ⟨[], []⟩) sched rs place out ho
  have hb := C27_path_results_in_request_order E p.conf _ _ (hon ⟨[[]], []⟩) sched rs place out ho
  refine ⟨by rw [ha, List.length_map], fun i q hq => ?_⟩
  have h1 : out[i]? = some (contentOf p.reader s.svc.disk stored ⟨[], []⟩ q.uri q.ranges) := by
    rw [ha, List.getElem?_map, hq]; rfl
  have h2 : out[i]? = some (contentOf p.reader s.svc.disk stored ⟨[[]], []⟩ q.uri q.ranges) := by
    rw [hb, List.getElem?_map, hq]; rfl
  refine ⟨_, h1, contentOf_real (a := ⟨[], []⟩) (b := ⟨[[]], []⟩) (by decide) ?_⟩
  rw [h1] at h2
  exact Option.some.inj h2

/-- The state from which a node serves a call that has not begun. -/
theorem Site.Reached.began {p : Site} {U : String → Prop} {asked : Nat → Asked}
    {x : Nat → List ExRequest × ItemMap × List FTask} (h : p.Sane U asked x) {n : Nat} {s : Srv}
    (r : p.Reached U n x true s) (S : Store) (d : Disk) (E : ExtEnv) : (p.node U S s.svc d E).Began := by
  obtain ⟨d, mode, cap, fs, h1, h2, h3, inv⟩ := r.inv h
  obtain ⟨es, h4, h5⟩ := inv.reach 0
  exact ⟨d, mode, cap, fs, es, h1, h2, h3, h4, h5⟩

/-- From a state in which call `g` has not begun. -/
theorem Site.Reached.since {p : Site} {U : String → Prop} {asked : Nat → Asked}
    {x : Nat → List ExRequest × ItemMap × List FTask} (h : p.Sane U asked x) {n : Nat} {s1 s2 : Srv}
    (r : p.Reached U n x true s1) {g : Nat} (unbegun : (s1.x.job g).time = 0) {es : List SrvEv}
    (ha : ∀ e ∈ es, SrvEv.Allowed U e) (hs : s1.run p es = .ok s2) :
    ∃ from_, from_ g = s1.svc ∧ SrvInv p U n (fun g => (x g).2) from_ s2 := by
  obtain ⟨d, mode, cap, fs, -, -, -, inv⟩ := r.inv h
  exact ⟨_, if_pos unbegun, (inv.follow h.reader h.offs).ran h.reader h.offs h.prepared.fresh ha hs⟩

/-- The process as the node of C69, in a given state. -/
def Srv.node (s : Srv) (p : Site) (U : String → Prop) (S : Store) (g : Nat) : Node := p.node U S s.svc s.svc.disk (p.calls g)

/-- The request can be met: fields are asked for in a well-formed way, are listed, and are there. -/
structure CanServe (p : Site) (U : String → Prop) (S : Store) (s : Srv) (g : Nat) (cat : List (FdbKey × Uri))
    (rs : List ExRequest) (ws : List WrittenRequest) : Prop where
  catalogue : Catalogue p.conf.ignoreYearMonth cat
  lists : ListsOnly (p.calls g) cat
  complete : ListsAll p.conf.ignoreYearMonth (p.calls g) cat
  places : ∀ a ∈ cat, ∀ b ∈ cat, a.2.path = b.2.path → a.2.offset = b.2.offset → a = b
  written : Written rs ws
  nonempty : rs ≠ []
  different : ws.Pairwise fun a b =>
    ¬ (essential p.conf.ignoreYearMonth a.pairs).Perm (essential p.conf.ignoreYearMonth b.pairs)
  sameKeywords : ∀ a ∈ ws, ∀ b ∈ ws, ∀ k, k ∈ (essential p.conf.ignoreYearMonth a.pairs).map Prod.fst →
    k ∈ (essential p.conf.ignoreYearMonth b.pairs).map Prod.fst
  found : ∀ i (hi : i < rs.length) (hj : i < ws.length), ∃ e ∈ cat,
    SameField p.conf.ignoreYearMonth ws[i].pairs e.1 ∧ ∃ r, (s.node p U S g).Gives e.2 rs[i].ranges rs[i].gridHash r

/-- One right result per request. -/
def Serves (p : Site) (U : String → Prop) (S : Store) (s : Srv) (g : Nat) (cat : List (FdbKey × Uri))
    (rs : List ExRequest) (ws : List WrittenRequest) (out : List WireResult) : Prop :=
  out.length = rs.length ∧
    ∀ i (hi : i < rs.length) (hj : i < ws.length), ∃ e ∈ cat, SameField p.conf.ignoreYearMonth ws[i].pairs e.1 ∧
      ∃ r, out[i]? = some r ∧ (s.node p U S g).Gives e.2 rs[i].ranges rs[i].gridHash r

/-- The same for requests by path. -/
structure CanServePaths (p : Site) (U : String → Prop) (S : Store) (s : Srv) (g : Nat) (rs : List PathReq) : Prop where
  nonempty : rs ≠ []
  here : ∀ r ∈ rs, r.host = "" ∧ r.port = 0
  place : ∀ a ∈ rs, ∀ b ∈ rs, a.path = b.path → a.scheme = b.scheme
  different : (rs.map PathReq.text).Nodup
  found : ∀ r ∈ rs, ∃ x, (s.node p U S g).Gives ⟨r.scheme, r.host, r.port, r.path, r.offset⟩ r.ranges r.gridHash x

def ServesPaths (p : Site) (U : String → Prop) (S : Store) (s : Srv) (g : Nat) (rs : List PathReq)
    (out : List WireResult) : Prop :=
  out.length = rs.length ∧ ∀ (i : Nat) r, rs[i]? = some r →
    ∃ x, out[i]? = some x ∧ (s.node p U S g).Gives ⟨r.scheme, r.host, r.port, r.path, r.offset⟩ r.ranges r.gridHash x

/-- Extraction as in `Direct`. -/
def Site.Exact (p : Site) (S : Store) : Prop := p.jump = jumperExtract p.reader ∧ p.fetch = slowExtract p.reader S

/-- A request that can be met is met in all surroundings the call can meet. -/
theorem serve_alone {p : Site} {U : String → Prop} {asked : Nat → Asked}
    {x : Nat → List ExRequest × ItemMap × List FTask} (sane : p.Sane U asked x) {S : Store} (ex : p.Exact S) {n : Nat}
    {s1 : Srv} (r : p.Reached U n x true s1) {g : Nat} {d : Disk} {E : ExtEnv} (h : Lived p U s1.svc d g E)
    (sched : List Nat) :
    (p.conf.forward = false → ∀ cat rs ws, CanServe p U S s1 g cat rs ws →
      ∃ out, localExtract E p.conf sched rs = .ok out ∧ Serves p U S s1 g cat rs ws out) ∧
    (∀ rs, CanServePaths p U S s1 g rs →
      ∃ out, localExtractPaths E p.conf sched rs = .ok out ∧ ServesPaths p U S s1 g rs out) := by
  have up := h.up sane.reader sane.offs ex (r.began sane S d E)
  constructor
  · intro here cat rs ws c
    have hl : ListsOnly E cat := by unfold ListsOnly; rw [h.list]; exact c.lists
    have hall : ListsAll p.conf.ignoreYearMonth E cat := by unfold ListsAll; rw [h.list]; exact c.complete
    exact up.extract here c.catalogue hl hall c.places sched c.written c.nonempty c.different c.sameKeywords c.found
  · intro rs c
    exact C69_path_request_succeeds_partial _ up sched rs c.nonempty c.here c.place c.different c.found

/-- C74 (partial).  In any history: a call that asks, in a well-formed way, for fields that are there when none of its
tasks has begun, has no failed or cancelled task ever after; when it returns, it returns the values of every field asked
for, whatever other calls, scans, the plugin and writers of files do meanwhile, also if they fail.  The process builds
metadata on demand and works on its own files.
Missing: as for C69. -/
theorem C74_present_fields_served_partial (p : Site) (U : String → Prop) (n : Nat) (asked : Nat → Asked)
    (x : Nat → List ExRequest × ItemMap × List FTask) (sane : p.Sane U asked x) (S : Store) (ex : p.Exact S)
    (here : p.conf.forward = false) (s1 s2 : Srv) (reached : p.Reached U n x true s1) (g : Nat)
    (unbegun : (s1.x.job g).time = 0) (es : List SrvEv) (allowed : ∀ e ∈ es, SrvEv.Allowed U e)
    (later : s1.run p es = .ok s2) (cat : List (FdbKey × Uri)) (rs : List ExRequest) (ws : List WrittenRequest)
    (request : asked g = .fields rs) (started : ((asked g).call (p.calls g)).start p.conf = .ok (x g))
    (served : CanServe p U S s1 g cat rs ws) :
    (s2.x.t.grp g).errors = [] ∧ .cancelled ∉ (s2.x.t.grp g).tasks ∧
    ((s2.x.t.grp g).phase = .returned → ∃ out, s2.x.outcome x g = .ok out ∧ Serves p U S s1 g cat rs ws out) := by
  obtain ⟨from_, hf, inv⟩ := reached.since sane unbegun allowed later
  have alone : ∀ E, Lived p U (from_ g) s2.svc.disk g E → ∀ sched, ∃ out,
      ((asked g).call E).alone p.conf sched = .ok out ∧ Serves p U S s1 g cat rs ws out := by
    intro E hL sched
    rw [hf] at hL
    rw [request]
    exact (serve_alone sane ex reached hL sched).1 here cat rs ws served
  obtain ⟨h1, h2⟩ := inv.unharmed sane.prepared started fun E hL sched => by
    obtain ⟨out, h, -⟩ := alone E hL sched; exact ⟨out, h⟩
  refine ⟨h1, h2, fun returned => ?_⟩
  obtain ⟨E, sched, hL, ha⟩ := inv.alone sane.prepared returned
  obtain ⟨out, ho, hs⟩ := alone E hL sched
  exact ⟨out, by rw [← ha, ho], hs⟩

/-- C74 (partial).  The same for requests by path. -/
theorem C74_present_paths_served_partial (p : Site) (U : String → Prop) (n : Nat) (asked : Nat → Asked)
    (x : Nat → List ExRequest × ItemMap × List FTask) (sane : p.Sane U asked x) (S : Store) (ex : p.Exact S)
    (s1 s2 : Srv) (reached : p.Reached U n x true s1) (g : Nat)
    (unbegun : (s1.x.job g).time = 0) (es : List SrvEv) (allowed : ∀ e ∈ es, SrvEv.Allowed U e)
    (later : s1.run p es = .ok s2) (rs : List PathReq)
    (request : asked g = .paths rs) (started : ((asked g).call (p.calls g)).start p.conf = .ok (x g))
    (served : CanServePaths p U S s1 g rs) :
    (s2.x.t.grp g).errors = [] ∧ .cancelled ∉ (s2.x.t.grp g).tasks ∧
    ((s2.x.t.grp g).phase = .returned → ∃ out, s2.x.outcome x g = .ok out ∧ ServesPaths p U S s1 g rs out) := by
  obtain ⟨from_, hf, inv⟩ := reached.since sane unbegun allowed later
  have alone : ∀ E, Lived p U (from_ g) s2.svc.disk g E → ∀ sched, ∃ out,
      ((asked g).call E).alone p.conf sched = .ok out ∧ ServesPaths p U S s1 g rs out := by
    intro E hL sched
    rw [hf] at hL
    rw [request]
    exact (serve_alone sane ex reached hL sched).2 rs served
  obtain ⟨h1, h2⟩ := inv.unharmed sane.prepared started fun E hL sched => by
    obtain ⟨out, h, -⟩ := alone E hL sched; exact ⟨out, h⟩
  refine ⟨h1, h2, fun returned => ?_⟩
  obtain ⟨E, sched, hL, ha⟩ := inv.alone sane.prepared returned
  obtain ⟨out, ho, hs⟩ := alone E hL sched
  exact ⟨out, by rw [← ha, ho], hs⟩

/-! ## Calls return -/

/-- An infinite history. -/
structure SrvExecution (p : Site) (ev : Nat → SrvEv) (st : Nat → Srv) : Prop where
  step : ∀ k, (st k).step p (ev k) = .ok (st (k + 1))

/-- Every worker keeps running. -/
def SrvWorkersFair (n : Nat) (ev : Nat → SrvEv) : Prop :=
  ∀ w, w < n → ∀ k, (∃ m, k ≤ m ∧ ev m = .queue (.pop w)) ∧ (∃ m, k ≤ m ∧ ev m = .queue (.start w)) ∧
    (∃ m, k ≤ m ∧ ev m = .queue (.work w))

/-- The thread of call `g` keeps running. -/
def SrvCallFair (g : Nat) (ev : Nat → SrvEv) : Prop :=
  ∀ k, (∃ m, k ≤ m ∧ ev m = .queue (.add g)) ∧ (∃ m, k ≤ m ∧ ev m = .queue (.push g)) ∧
    (∃ m, k ≤ m ∧ ev m = .queue (.wait g)) ∧ (∃ m, k ≤ m ∧ ev m = .queue (.ret g))

/-- The worker that looks for metadata in memory with this step. -/
def Srv.looks (s : Srv) (w : Nat) : Bool := (s.x.asking w).isSome && decide (w ∉ s.holders)

/-- The step of the calls that a step is; a step of a worker `n` that does not exist, if it is none. -/
def Srv.part (n : Nat) (s : Srv) : SrvEv → XEv
  | .queue (.work w) => if s.looks w then .work n else .work w
  | .queue e => e
  | .other _ => .work n

theorem outcomeOf_self (s : Svc UInt64) : outcomeOf s s = undef := by
  rw [outcomeOf, List.getElem?_eq_none (Nat.le_refl _)]

theorem no_worker {s : XSys} {w : Nat} (h : s.t.workers[w]? = none) (E : Nat → ExtEnv) (C : EngineConf) :
    s.step E C (.work w) = .ok s := by
  rw [XSys.step, XSys.act, h]; rfl

/-- What a step of the process is for the calls. -/
theorem part_step {p : Site} {n : Nat} {s s' : Srv} (hn : s.x.t.workers[n]? = none) {e : SrvEv}
    (h : s.step p e = .ok s') :
    s.x.step (p.env s.svc.disk (outcomeOf s.svc s'.svc)) p.conf (s.part n e) = .ok s'.x := by
  cases e with
  | other e =>
    obtain ⟨y, -, h⟩ := res_bind_inv h
    cases h
    exact no_worker hn _ _
  | queue e =>
    have plain : ∀ {e : XEv}, (s.x.step (p.env s.svc.disk undef) p.conf e >>= fun x => (.ok ⟨x, s.svc, s.holders⟩ : Res Srv)) =
        .ok s' → s.x.step (p.env s.svc.disk (outcomeOf s.svc s'.svc)) p.conf e = .ok s'.x := by
      intro e h
      obtain ⟨x', hx, h⟩ := res_bind_inv h
      cases h
      rw [outcomeOf_self, hx]
    cases e with
    | work w =>
      rw [Srv.step, Srv.work.eq_def] at h
      rw [Srv.part, Srv.looks]
      cases hask : s.x.asking w with
      | none =>
        rw [hask] at h
        rw [if_neg (by simp)]
        exact plain h
      | some a =>
        obtain ⟨f, os⟩ := a
        rw [hask] at h
        simp only [] at h
        by_cases hw : w ∈ s.holders
        · rw [if_pos hw] at h
          rw [if_neg (by simp [hw])]
          obtain ⟨y, hy, h⟩ := res_bind_inv h
          obtain ⟨x', hx, h⟩ := res_bind_inv h
          cases h
          exact hx
        · rw [if_neg hw] at h
          rw [if_pos (by simp [hw])]
          obtain ⟨y, hy, h⟩ := res_bind_inv h
          cases h
          exact no_worker hn _ _
    | add g => exact plain h
    | push g => exact plain h
    | wait g => exact plain h
    | ret g => exact plain h
    | pop g => exact plain h
    | start g => exact plain h

/-- A worker stays in the middle of a lookup until it steps. -/
theorem holders_stay {p : Site} {s s' : Srv} {e : SrvEv} (h : s.step p e = .ok s') {w : Nat} (hne : e ≠ .queue (.work w))
    (hw : w ∈ s.holders) : w ∈ s'.holders := by
  cases e with
  | other e =>
    obtain ⟨y, -, h⟩ := res_bind_inv h
    cases h; exact hw
  | queue e =>
    have plain : ∀ {e : XEv}, (s.x.step (p.env s.svc.disk undef) p.conf e >>= fun x => (.ok ⟨x, s.svc, s.holders⟩ : Res Srv)) =
        .ok s' → w ∈ s'.holders := by
      intro e h
      obtain ⟨x', hx, h⟩ := res_bind_inv h
      cases h; exact hw
    cases e with
    | work v =>
      have hv : w ≠ v := fun e => hne (by rw [e])
      rw [Srv.step, Srv.work.eq_def] at h
      cases hask : s.x.asking v with
      | none => rw [hask] at h; exact plain h
      | some a =>
        obtain ⟨f, os⟩ := a
        rw [hask] at h
        simp only [] at h
        by_cases hm : v ∈ s.holders
        · rw [if_pos hm] at h
          obtain ⟨y, hy, h⟩ := res_bind_inv h
          obtain ⟨x', hx, h⟩ := res_bind_inv h
          cases h
          obtain ⟨k, hk⟩ := List.mem_iff_getElem?.mp hw
          have hki : k ≠ s.holders.idxOf v := by
            intro e
            rw [e, idxOf_getElem? hm] at hk
            exact hv (Option.some.inj hk).symm
          exact List.mem_eraseIdx_iff_getElem?.mpr ⟨k, hki, hk⟩
        · rw [if_neg hm] at h
          obtain ⟨y, hy, h⟩ := res_bind_inv h
          cases h
          exact List.mem_append_left _ hw
    | add g => exact plain h
    | push g => exact plain h
    | wait g => exact plain h
    | ret g => exact plain h
    | pop g => exact plain h
    | start g => exact plain h

theorem looks_holds {p : Site} {s s' : Srv} {w : Nat} (h : s.step p (.queue (.work w)) = .ok s')
    (hl : s.looks w = true) : w ∈ s'.holders := by
  rw [Srv.step, Srv.work.eq_def] at h
  rw [Srv.looks, Bool.and_eq_true] at hl
  cases hask : s.x.asking w with
  | none => rw [hask] at hl; cases hl.1
  | some a =>
    obtain ⟨f, os⟩ := a
    rw [hask] at h
    simp only [] at h
    rw [if_neg (of_decide_eq_true hl.2)] at h
    obtain ⟨y, hy, h⟩ := res_bind_inv h
    cases h
    exact List.mem_append_right _ (List.mem_singleton.mpr rfl)

/-- The first time from `k` on that an event happens. -/
theorem first_from {Q : Nat → Prop} {k : Nat} (h : ∃ m, k ≤ m ∧ Q m) : ∃ m, k ≤ m ∧ Q m ∧ ∀ j, k ≤ j → j < m → ¬ Q j := by
  obtain ⟨m, hm, hq⟩ := h
  induction m using Nat.strongRecOn with
  | _ m ih =>
    by_cases hx : ∃ j, k ≤ j ∧ j < m ∧ Q j
    · obtain ⟨j, h1, h2, h3⟩ := hx
      exact ih j h2 h1 h3
    · exact ⟨m, hm, hq, fun j h1 h2 h3 => hx ⟨j, h1, h2, h3⟩⟩

/-- Every worker makes steps of its tasks again and again. -/
theorem SrvExecution.works {p : Site} {ev : Nat → SrvEv} {st : Nat → Srv} (h : SrvExecution p ev st) {n w : Nat}
    (fair : ∀ k, ∃ m, k ≤ m ∧ ev m = .queue (.work w)) (k : Nat) : ∃ m, k ≤ m ∧ (st m).part n (ev m) = .work w := by
  obtain ⟨m, hm, em⟩ := fair k
  by_cases hl : (st m).looks w = true
  · have hold : w ∈ (st (m + 1)).holders := looks_holds (em ▸ h.step m) hl
    obtain ⟨m', hm', em', hfirst⟩ := first_from (fair (m + 1))
    have : ∀ i, m + 1 + i ≤ m' → w ∈ (st (m + 1 + i)).holders := by
      intro i
      induction i with
      | zero => intro _; exact hold
      | succ i ih =>
        intro hle
        exact holders_stay (h.step (m + 1 + i)) (hfirst _ (by omega) (by omega)) (ih (by omega))
    have hw := this (m' - (m + 1)) (by omega)
    rw [show m + 1 + (m' - (m + 1)) = m' from by omega] at hw
    exact ⟨m', by omega, by rw [em', Srv.part, Srv.looks, if_neg (by simp [hw])]⟩
  · exact ⟨m, hm, by rw [em, Srv.part, if_neg hl]⟩

/-- The step with which call `g` went from time `t` to the next. -/
noncomputable def stepAt (st : Nat → Srv) (g t : Nat) : Nat :=
  open Classical in
  if h : ∃ k, ((st k).x.job g).time = t ∧ ((st (k + 1)).x.job g).time = t + 1 then Classical.choose h else 0

/-- What call `g` meets in the whole of an infinite history. -/
noncomputable def envAlong (p : Site) (st : Nat → Srv) (g : Nat) : ExtEnv where
  list := (p.calls g).list
  infos := fun t _ _ => outcomeOf (st (stepAt st g t)).svc (st (stepAt st g t + 1)).svc
  jump := fun t f o i is => p.jumpOn (st (stepAt st g t)).svc.disk f o i is
  fetch := fun _ u is => p.fetch u is
  forward := (p.calls g).forward

theorem stepAt_eq {st : Nat → Srv} {g : Nat} (mono : ∀ k, ((st k).x.job g).time ≤ ((st (k + 1)).x.job g).time) {k t : Nat}
    (h1 : ((st k).x.job g).time = t) (h2 : ((st (k + 1)).x.job g).time = t + 1) : stepAt st g t = k := by
  have hm : ∀ i j, i ≤ j → ((st i).x.job g).time ≤ ((st j).x.job g).time := by
    intro i j hij
    obtain ⟨c, rfl⟩ := Nat.le.dest hij
    induction c with
    | zero => exact Nat.le_refl _
    | succ c ih => exact Nat.le_trans (ih (by omega)) (mono _)
  have hex : ∃ k, ((st k).x.job g).time = t ∧ ((st (k + 1)).x.job g).time = t + 1 := ⟨k, h1, h2⟩
  rw [stepAt, dif_pos hex]
  obtain ⟨h3, h4⟩ := Classical.choose_spec hex
  generalize Classical.choose hex = c at *
  rcases Nat.lt_trichotomy c k with h | h | h
  · have := hm (c + 1) k (by omega); omega
  · exact h
  · have := hm (k + 1) c (by omega); omega

/-- A task that is not finished makes a step. -/
theorem xstep_worked {E : Nat → ExtEnv} {C : EngineConf} {s s' : XSys} {w g j : Nat} {T : FTask}
    (h : s.step E C (.work w) = .ok s') (hw : s.t.workers[w]? = some (.running g j)) (hT : (s.job g).tasks[j]? = some T)
    (hp : T.pc ≠ .finished) : (s'.job g).time = (s.job g).time + 1 := by
  obtain ⟨a, ha, -⟩ := step_inv h
  rw [XSys.act, hw] at ha
  simp only [hT, if_neg hp] at ha
  cases hb : T.step (E g) C (s.job g).time (s.job g).items with
  | ok y =>
    obtain ⟨m, T'⟩ := y
    rw [hb] at ha
    rw [← (Prod.mk.inj (Except.ok.inj ha)).2, setJob_self]
  | error f =>
    rw [hb] at ha
    cases f with
    | ub => cases ha
    | exn x => rw [← (Prod.mk.inj (Except.ok.inj ha)).2, setJob_self]

theorem finished_step {T : FTask} (h : T.pc = .finished) (E E' : ExtEnv) (C : EngineConf) (t : Nat) (m : ItemMap) :
    T.step E' C t m = T.step E C t m := by
  obtain ⟨kind, pc⟩ := T
  cases h
  cases kind <;> rfl

theorem tstep_workers {s s' : TSys} {e : TEv} (h : s.step e = .ok s') : s'.workers.length = s.workers.length := by
  cases e with
  | add g => cases h; rw [stepAdd]; split <;> rfl
  | wait g => cases h; rw [stepWait]; split <;> rfl
  | ret g => cases h; rw [stepRet]; split <;> rfl
  | abandon g => cases h; rw [stepAbandon]; split <;> rfl
  | push g =>
    have h : stepPush s g = .ok s' := h
    rw [stepPush.eq_def] at h
    simp only [] at h
    split at h
    · cases h; rfl
    · obtain ⟨q, -, h⟩ := res_bind_inv h
      cases h; rfl
  | pop w =>
    have h : stepPop s w = .ok s' := h
    rw [stepPop] at h
    split at h
    · obtain ⟨⟨a, q⟩, -, h⟩ := res_bind_inv h
      cases a <;> cases h <;> first | rfl | exact List.length_set
    · cases h; rfl
  | start w =>
    have h : stepStart s w = .ok s' := h
    rw [stepStart.eq_def] at h
    split at h
    · simp only [] at h
      split at h
      · split at h <;> (cases h; exact List.length_set)
      · cases h
    · cases h; rfl
  | finish w =>
    have h : stepFinish s w = .ok s' := h
    rw [stepFinish.eq_def] at h
    split at h
    · simp only [] at h
      split at h
      · cases h; exact List.length_set
      · cases h
    · cases h; rfl
  | fail w msg =>
    have h : stepFail s w msg = .ok s' := h
    rw [stepFail.eq_def] at h
    split at h
    · simp only [] at h
      split at h
      · cases h; exact List.length_set
      · cases h
    · cases h; rfl

/-- Workers do not come and go. -/
theorem xstep_workers {E : Nat → ExtEnv} {C : EngineConf} {s s' : XSys} {e : XEv} (h : s.step E C e = .ok s') :
    s'.t.workers.length = s.t.workers.length := by
  obtain ⟨a, ha, ht⟩ := step_inv h
  cases a with
  | none => rw [← Except.ok.inj ht]
  | some a => exact tstep_workers ht

/-- An infinite history of the process is one of the calls. -/
theorem SrvExecution.calls {p : Site} {ev : Nat → SrvEv} {st : Nat → Srv} (h : SrvExecution p ev st) {n : Nat}
    {P : Nat → ItemMap × List FTask} (start : (st 0).x = XSys.init n P) (fresh : ∀ g, ∀ T ∈ (P g).2, T.pc = .fresh) :
    XExecution n (envAlong p st) p.conf P (fun k => (st k).part n (ev k)) (fun k => (st k).x) := by
  have hn : ∀ k, (st k).x.t.workers.length = n := by
    intro k
    induction k with
    | zero => rw [start]; simp [XSys.init, TSys.init]
    | succ k ih =>
      rw [← ih]
      exact xstep_workers (part_step (n := n) (List.getElem?_eq_none (by omega)) (h.step k))
  have hpart := fun k => part_step (n := n) (List.getElem?_eq_none (by rw [hn k]; exact Nat.le_refl _)) (h.step k)
  have mono : ∀ g k, ((st k).x.job g).time ≤ ((st (k + 1)).x.job g).time := fun g k => xstep_time (hpart k) g
  refine ⟨start, fun k => ?_, fresh⟩
  rw [← hpart k]
  refine xstep_congr fun w g j T he hw hT => ?_
  by_cases hp : T.pc = .finished
  · exact finished_step hp _ _ _ _ _
  · have h1 := hpart k
    rw [he] at h1
    have ht := xstep_worked h1 hw hT hp
    have hs := stepAt_eq (mono g) rfl ht
    refine ftask_congr (fun f ks _ => ?_) ?_ rfl rfl
    · show outcomeOf _ _ = outcomeOf _ _
      rw [hs]
    · show (fun f o i is => p.jumpOn _ f o i is) = fun f o i is => p.jumpOn _ f o i is
      rw [hs]

theorem SrvExecution.returns {p : Site} {ev : Nat → SrvEv} {st : Nat → Srv} (h : SrvExecution p ev st) {n : Nat} (hn : 0 < n)
    {P : Nat → ItemMap × List FTask} (start : (st 0).x = XSys.init n P) (fresh : ∀ g, ∀ T ∈ (P g).2, T.pc = .fresh)
    (workers : SrvWorkersFair n ev) {g : Nat} (thread : SrvCallFair g ev) (tasks : (P g).2 ≠ []) :
    (∃ k, ((st k).x.t.grp g).phase = .returned) ∨ (∃ k, .cancelled ∈ ((st k).x.t.grp g).tasks) := by
  refine C71_returns_partial n hn _ p.conf P _ _ (h.calls start fresh) ?_ g ?_ tasks
  · intro w hw k
    obtain ⟨⟨m1, a1, b1⟩, ⟨m2, a2, b2⟩, -⟩ := workers w hw k
    exact ⟨⟨m1, a1, by simp only [b1]; rfl⟩, ⟨m2, a2, by simp only [b2]; rfl⟩, h.works (fun k => (workers w hw k).2.2) k⟩
  · intro k
    obtain ⟨⟨m1, a1, b1⟩, ⟨m2, a2, b2⟩, ⟨m3, a3, b3⟩, ⟨m4, a4, b4⟩⟩ := thread k
    exact ⟨⟨m1, a1, by simp only [b1]; rfl⟩, ⟨m2, a2, by simp only [b2]; rfl⟩, ⟨m3, a3, by simp only [b3]; rfl⟩,
      ⟨m4, a4, by simp only [b4]; rfl⟩⟩

theorem fsys_run_time {E : ExtEnv} {C : EngineConf} : ∀ (js : List Nat) {s s' : FSys}, s.run E C js = .ok s' →
    s'.time = s.time + js.length := by
  intro js
  induction js with
  | nil => intro s s' h; cases h; rfl
  | cons j js ih =>
    intro s s' h
    obtain ⟨s1, h1, h2⟩ := res_bind_inv (show s.step E C j >>= _ = _ from h)
    have ht : s1.time = s.time + 1 := by
      rw [FSys.step] at h1
      split at h1
      · cases h1; rfl
      · split at h1 <;> cases h1 <;> rfl
    rw [ih h2, ht, List.length_cons]; omega

/-- A call with no step of a task behind it has no task that ended. -/
theorem XInv.unbegun {E : Nat → ExtEnv} {C : EngineConf} {P : Nat → ItemMap × List FTask} {s : XSys} (h : XInv E C P s)
    (fresh : ∀ g, ∀ T ∈ (P g).2, T.pc = .fresh) {g : Nat} (unbegun : (s.job g).time = 0) :
    (s.t.grp g).phase ≠ .returned ∧ .cancelled ∉ (s.t.grp g).tasks := by
  obtain ⟨js, hj, -⟩ := h.run g
  have ht := fsys_run_time js hj
  rw [unbegun] at ht
  have hz : js = [] := List.length_eq_zero_iff.mp (by have : (⟨(P g).1, (P g).2, [], 0⟩ : FSys).time = 0 := rfl; omega)
  subst hz
  have hj : (⟨(P g).1, (P g).2, [], 0⟩ : FSys) = s.job g := Except.ok.inj hj
  constructor
  · intro hr
    obtain ⟨h1, h2⟩ := h.full g (.inr hr)
    have hT : (s.job g).tasks[0]? = some (s.job g).tasks[0] := List.getElem?_eq_getElem (by omega)
    have hp := h.pcs g 0 _ hT
    have hf : ((s.job g).tasks[0]'(by omega)).pc = .fresh := fresh g _ (by
      have e : (P g).2 = (s.job g).tasks := congrArg FSys.tasks hj
      rw [e]
      exact List.mem_of_getElem? hT)
    rw [hf] at hp
    rcases (h.t.returned hr 0).1 with e | e | e
    · rw [List.getElem?_eq_none_iff] at e; omega
    · rw [e] at hp; cases hp
    · rw [e] at hp; cases hp
  · intro hc
    apply (h.t.grp g).canc hc
    rw [← h.errs g, ← hj]

theorem SrvExecution.run {p : Site} {ev : Nat → SrvEv} {st : Nat → Srv} (h : SrvExecution p ev st) (k c : Nat) :
    (st k).run p ((List.range' k c).map ev) = .ok (st (k + c)) := by
  induction c generalizing k with
  | zero => rfl
  | succ c ih =>
    rw [List.range'_succ, List.map_cons, Srv.run, h.step k, ok_bind, ih (k + 1)]
    rw [show k + 1 + c = k + (c + 1) from by omega]

/-- From a state in which it has not begun, a call whose tasks cannot be cancelled returns. -/
theorem SrvExecution.completes {p : Site} {U : String → Prop} {asked : Nat → Asked}
    {x : Nat → List ExRequest × ItemMap × List FTask} (sane : p.Sane U asked x) {ev : Nat → SrvEv} {st : Nat → Srv}
    (h : SrvExecution p ev st) {n : Nat} (hn : 0 < n) (start : (st 0).x = XSys.init n (fun g => (x g).2))
    (reached : p.Reached U n x true (st 0)) (allowed : ∀ k, SrvEv.Allowed U (ev k))
    (workers : SrvWorkersFair n ev) {g : Nat} (thread : SrvCallFair g ev) (tasks : (x g).2.2 ≠ []) {k0 : Nat}
    (unbegun : ((st k0).x.job g).time = 0)
    (unharmed : ∀ c, .cancelled ∉ ((st (k0 + c)).x.t.grp g).tasks) :
    ∃ c, ((st (k0 + c)).x.t.grp g).phase = .returned := by
  have early : ∀ k, k < k0 → ((st k).x.t.grp g).phase ≠ .returned ∧ .cancelled ∉ ((st k).x.t.grp g).tasks := by
    intro k hk
    have hx := h.calls start sane.prepared.fresh
    have mono : ∀ c, ((st k).x.job g).time ≤ ((st (k + c)).x.job g).time := by
      intro c
      induction c with
      | zero => exact Nat.le_refl _
      | succ c ih => exact Nat.le_trans ih (xstep_time (hx.step (k + c)) g)
    have h0 := mono (k0 - k)
    rw [show k + (k0 - k) = k0 from by omega, unbegun] at h0
    have hr := h.run 0 k
    rw [Nat.zero_add] at hr
    obtain ⟨d, mode, cap, fs, -, -, -, inv⟩ := (reached.ran (fun e he => by
      obtain ⟨i, -, rfl⟩ := List.mem_map.mp he; exact allowed i) hr).inv sane
    obtain ⟨E, -, hi⟩ := inv.x sane.prepared.fresh
    exact hi.unbegun sane.prepared.fresh (Nat.le_zero.mp h0)
  rcases h.returns hn start sane.prepared.fresh workers thread tasks with ⟨k, hk⟩ | ⟨k, hk⟩
  · by_cases hlt : k < k0
    · exact absurd hk (early k hlt).1
    · exact ⟨k - k0, by rw [show k0 + (k - k0) = k from by omega]; exact hk⟩
  · by_cases hlt : k < k0
    · exact absurd hk (early k hlt).2
    · exact absurd hk (by have := unharmed (k - k0); rw [show k0 + (k - k0) = k from by omega] at this; exact this)

/-- A process from its start on. -/
structure Site.Lives (p : Site) (U : String → Prop) (n : Nat) (x : Nat → List ExRequest × ItemMap × List FTask)
    (ev : Nat → SrvEv) (st : Nat → Srv) : Prop extends SrvExecution p ev st where
  start : ∃ d mode cap fs, ToldApart mode U ∧ 0 < cap ∧ GoodIndex (diskWorld p.reader p.offs d) U mode fs ∧
    st 0 = Srv.start p n (fun g => (x g).2) d mode true cap fs
  allowed : ∀ k, SrvEv.Allowed U (ev k)

theorem Site.Lives.reached {p : Site} {U : String → Prop} {n : Nat} {x : Nat → List ExRequest × ItemMap × List FTask}
    {ev : Nat → SrvEv} {st : Nat → Srv} (h : p.Lives U n x ev st) (k : Nat) : p.Reached U n x true (st k) := by
  obtain ⟨d, mode, cap, fs, h1, h2, h3, h4⟩ := h.start
  have hr := h.toSrvExecution.run 0 k
  rw [Nat.zero_add, h4] at hr
  exact ⟨d, mode, cap, fs, _, h1, h2, h3, fun e he => by
    obtain ⟨i, -, rfl⟩ := List.mem_map.mp he; exact h.allowed i, hr⟩

theorem Site.Lives.fresh {p : Site} {U : String → Prop} {n : Nat} {x : Nat → List ExRequest × ItemMap × List FTask}
    {ev : Nat → SrvEv} {st : Nat → Srv} (h : p.Lives U n x ev st) : (st 0).x = XSys.init n (fun g => (x g).2) := by
  obtain ⟨d, mode, cap, fs, -, -, -, h4⟩ := h.start
  rw [h4]; rfl

/-- C74 (partial).  In an infinite history in which the workers and the thread of the call keep running, a call for fields
that are there before any of its tasks has begun returns, and it returns the values of every field asked for, whatever
else goes on in the process.
Missing: as for C69. -/
theorem C74_present_fields_return_partial (p : Site) (U : String → Prop) (n : Nat) (hn : 0 < n) (asked : Nat → Asked)
    (x : Nat → List ExRequest × ItemMap × List FTask) (sane : p.Sane U asked x) (S : Store) (ex : p.Exact S)
    (here : p.conf.forward = false) (ev : Nat → SrvEv) (st : Nat → Srv) (lives : p.Lives U n x ev st)
    (workers : SrvWorkersFair n ev) (g : Nat) (thread : SrvCallFair g ev) (k : Nat)
    (unbegun : ((st k).x.job g).time = 0) (cat : List (FdbKey × Uri)) (rs : List ExRequest) (ws : List WrittenRequest)
    (request : asked g = .fields rs) (started : ((asked g).call (p.calls g)).start p.conf = .ok (x g))
    (served : CanServe p U S (st k) g cat rs ws) :
    ∃ c out, ((st (k + c)).x.t.grp g).phase = .returned ∧ (st (k + c)).x.outcome x g = .ok out ∧
      Serves p U S (st k) g cat rs ws out := by
  have hs := fun c => C74_present_fields_served_partial p U n asked x sane S ex here (st k) (st (k + c)) (lives.reached k) g
    unbegun _ (fun e he => by obtain ⟨i, -, rfl⟩ := List.mem_map.mp he; exact lives.allowed i)
    (lives.toSrvExecution.run k c) cat rs ws request started served
  obtain ⟨c, hc⟩ := lives.toSrvExecution.completes sane hn lives.fresh (lives.reached 0) lives.allowed workers thread
    (by
      intro e
      obtain ⟨from_, hf, inv⟩ := (lives.reached k).since sane unbegun (es := []) (fun _ h => by cases h) rfl
      obtain ⟨E, hL, -⟩ := inv.x sane.prepared.fresh
      have hL := hL g
      rw [hf] at hL
      obtain ⟨out, ho, -⟩ := (serve_alone sane ex (lives.reached k) hL []).1 here cat rs ws served
      have ho : ((asked g).call (E g)).alone p.conf [] = .ok out := by rw [request]; exact ho
      rw [Call.alone_eq, (asked g).start_congr hL.list, started, ok_bind, e] at ho
      cases ho) unbegun (fun c => (hs c).2.1)
  obtain ⟨out, h1, h2⟩ := (hs c).2.2 hc
  exact ⟨c, out, hc, h1, h2⟩

/-- C74 (partial).  The same for requests by path. -/
theorem C74_present_paths_return_partial (p : Site) (U : String → Prop) (n : Nat) (hn : 0 < n) (asked : Nat → Asked)
    (x : Nat → List ExRequest × ItemMap × List FTask) (sane : p.Sane U asked x) (S : Store) (ex : p.Exact S)
    (ev : Nat → SrvEv) (st : Nat → Srv) (lives : p.Lives U n x ev st)
    (workers : SrvWorkersFair n ev) (g : Nat) (thread : SrvCallFair g ev) (k : Nat)
    (unbegun : ((st k).x.job g).time = 0) (rs : List PathReq)
    (request : asked g = .paths rs) (started : ((asked g).call (p.calls g)).start p.conf = .ok (x g))
    (served : CanServePaths p U S (st k) g rs) :
    ∃ c out, ((st (k + c)).x.t.grp g).phase = .returned ∧ (st (k + c)).x.outcome x g = .ok out ∧
      ServesPaths p U S (st k) g rs out := by
  have hs := fun c => C74_present_paths_served_partial p U n asked x sane S ex (st k) (st (k + c)) (lives.reached k) g
    unbegun _ (fun e he => by obtain ⟨i, -, rfl⟩ := List.mem_map.mp he; exact lives.allowed i)
    (lives.toSrvExecution.run k c) rs request started served
  obtain ⟨c, hc⟩ := lives.toSrvExecution.completes sane hn lives.fresh (lives.reached 0) lives.allowed workers thread
    (by
      intro e
      obtain ⟨from_, hf, inv⟩ := (lives.reached k).since sane unbegun (es := []) (fun _ h => by cases h) rfl
      obtain ⟨E, hL, -⟩ := inv.x sane.prepared.fresh
      have hL := hL g
      rw [hf] at hL
      obtain ⟨out, ho, -⟩ := (serve_alone sane ex (lives.reached k) hL []).2 rs served
      have ho : ((asked g).call (E g)).alone p.conf [] = .ok out := by rw [request]; exact ho
      rw [Call.alone_eq, (asked g).start_congr hL.list, started, ok_bind, e] at ho
      cases ho) unbegun (fun c => (hs c).2.1)
  obtain ⟨out, h1, h2⟩ := (hs c).2.2 hc
  exact ⟨c, out, hc, h1, h2⟩

/-! ## Nothing goes wrong in the process itself -/

/-- If the tasks of no request are undefined alone in surroundings they can have met, their steps are defined. -/
theorem xstep_defined {p : Site} {U : String → Prop} {n : Nat} {P : Nat → ItemMap × List FTask} {from_ : Nat → Svc UInt64}
    (fresh : ∀ g, ∀ T ∈ (P g).2, T.pc = .fresh)
    {d : Disk} {y : XSys} {E : Nat → ExtEnv} {qs : List XEv} (hL : ∀ g, Lived p U (from_ g) d g (E g))
    (hr : (XSys.init n P).run E p.conf qs = .ok y)
    (alone : ∀ g E, Lived p U (from_ g) d g E → (P g).2 ≠ [] → ∀ sched, runTasks E p.conf (P g).1 (P g).2 sched ≠ undef)
    (e : XEv) :
    ∃ y', y.step E p.conf e = .ok y' := by
  have h := (XInv.init (n := n) fresh).ran hr
  rcases h.step e with ⟨y', h1, -⟩ | ⟨-, g, j, hu⟩
  · exact ⟨y', h1⟩
  · exfalso
    obtain ⟨js, h1, -⟩ := h.run g
    have hpos : 0 < (P g).2.length := by
      rw [← h.size g]
      apply Classical.byContradiction
      intro hz
      have : (y.job g).tasks[j]? = none := List.getElem?_eq_none (by omega)
      rw [FSys.step.eq_def] at hu
      simp only [this] at hu
      cases hu
    have hrun : FSys.run (E g) p.conf ⟨(P g).1, (P g).2, [], 0⟩ (js ++ [j]) = undef := by
      rw [fsys_run_append, h1, ok_bind, FSys.run, hu]; rfl
    exact alone g (E g) (hL g) (List.length_pos_iff.mp hpos) (js ++ [j]) (runTasks_prefix hpos hrun)

theorem SrvInv.steps {p : Site} {U : String → Prop} {n : Nat} {P : Nat → ItemMap × List FTask} {from_ : Nat → Svc UInt64}
    (sound : SoundReader p.reader) (hoffs : ∀ file, p.offs file ≠ undef) (fresh : ∀ g, ∀ T ∈ (P g).2, T.pc = .fresh) {s : Srv}
    (h : SrvInv p U n P from_ s)
    (alone : ∀ g E, Lived p U (from_ g) s.svc.disk g E → (P g).2 ≠ [] → ∀ sched,
      runTasks E p.conf (P g).1 (P g).2 sched ≠ undef)
    {e : SrvEv} (ha : e.Allowed U) : ∃ s', s.step p e = .ok s' := by
  have fromDisk : ∀ g, (from_ g).disk.Before s.svc.disk := fun g => by
    obtain ⟨es, -, h2⟩ := h.reach g
    exact svc_run_before h2
  have quiet : ∀ e : XEv, (∀ w, e ≠ .work w) → ∃ x', s.x.step (p.env s.svc.disk undef) p.conf e = .ok x' := by
    intro e hne
    obtain ⟨E, qs, hL, hr⟩ := h.run
    obtain ⟨x', hx⟩ := xstep_defined fresh hL hr alone e
    exact ⟨x', by rw [← hx]; exact xstep_congr fun w g j T he => absurd he (hne w)⟩
  cases e with
  | other e =>
    obtain ⟨y, hy, -⟩ := h.good.step sound hoffs e.on ha
    exact ⟨_, by rw [Srv.step, hy, ok_bind]⟩
  | queue e =>
    cases e with
    | add g => obtain ⟨x', hx⟩ := quiet (.add g) (fun _ e => by cases e); exact ⟨_, by rw [Srv.step, hx, ok_bind]; intro _ e; cases e⟩
    | push g => obtain ⟨x', hx⟩ := quiet (.push g) (fun _ e => by cases e); exact ⟨_, by rw [Srv.step, hx, ok_bind]; intro _ e; cases e⟩
    | wait g => obtain ⟨x', hx⟩ := quiet (.wait g) (fun _ e => by cases e); exact ⟨_, by rw [Srv.step, hx, ok_bind]; intro _ e; cases e⟩
    | ret g => obtain ⟨x', hx⟩ := quiet (.ret g) (fun _ e => by cases e); exact ⟨_, by rw [Srv.step, hx, ok_bind]; intro _ e; cases e⟩
    | pop g => obtain ⟨x', hx⟩ := quiet (.pop g) (fun _ e => by cases e); exact ⟨_, by rw [Srv.step, hx, ok_bind]; intro _ e; cases e⟩
    | start g => obtain ⟨x', hx⟩ := quiet (.start g) (fun _ e => by cases e); exact ⟨_, by rw [Srv.step, hx, ok_bind]; intro _ e; cases e⟩
    | work w =>
      rw [Srv.step, Srv.work.eq_def]
      cases hask : s.x.asking w with
      | none =>
        obtain ⟨E, qs, hL, hr, he⟩ := lived_moment (r := undef) (w := w) h.run
          (fun f os e => by rw [hask] at e; cases e) fromDisk (Disk.Before.refl _)
        obtain ⟨x', hx⟩ := xstep_defined fresh hL hr alone (.work w)
        exact ⟨_, by simp only; rw [← he, hx, ok_bind]⟩
      | some a =>
        obtain ⟨f, os⟩ := a
        simp only
        have hU : U f := by
          obtain ⟨g, j, f', ks, -, hT, e⟩ := asking_inv hask
          cases e
          exact h.files g _ (List.mem_of_getElem? hT) f ks rfl
        by_cases hw : w ∈ s.holders
        · rw [if_pos hw]
          have hk := idxOf_getElem? hw
          have hlt : s.holders.idxOf w < s.svc.sys.lookups.length := by
            rw [← h.len]; exact List.idxOf_lt_length_iff.mpr hw
          obtain ⟨l, hl⟩ : ∃ l, s.svc.sys.lookups[s.holders.idxOf w]? = some l := ⟨_, List.getElem?_eq_getElem hlt⟩
          generalize hi : s.holders.idxOf w = i at *
          obtain ⟨y, hy, -⟩ := h.good.step sound hoffs (.cache (.answer i)) trivial
          obtain ⟨hd, hlk, han, hnu⟩ := answer_step hl hy
          have hal := h.asks i w l hk hl
          rw [hask] at hal
          cases hal
          have hasked : ∀ f os, s.x.asking w = some (f, os) →
              U f ∧ (∀ g, LookedUp p U (from_ g) s.svc.disk f os (outcomeOf s.svc y)) ∧ outcomeOf s.svc y ≠ undef := by
            intro f os e
            rw [hask] at e
            cases e
            refine ⟨hU, fun g => ?_, hnu⟩
            obtain ⟨es, h3, h4⟩ := h.reach g
            refine ⟨es ++ [.cache (.answer i)], y, ?_, svc_snoc h4 hy, by rw [hd]; exact Disk.Before.refl _, ?_⟩
            · intro e' he'
              rcases List.mem_append.mp he' with he' | he'
              · exact h3 e' he'
              · rw [List.mem_singleton] at he'; subst he'; exact trivial
            · rw [han]
              have hle : (from_ g).sys.answers.length ≤ s.svc.sys.answers.length := svc_run_answers h4
              rw [List.drop_append_of_le_length hle]
              exact List.mem_append_right _ (List.mem_singleton.mpr rfl)
          obtain ⟨E, qs, hL, hr, he⟩ := lived_moment h.run hasked fromDisk (Disk.Before.refl _)
          obtain ⟨x', hx⟩ := xstep_defined fresh hL hr alone (.work w)
          exact ⟨_, by rw [hy, ok_bind, ← he, hx, ok_bind]⟩
        · rw [if_neg hw]
          obtain ⟨y, hy, -⟩ := h.good.step sound hoffs (.cache (.lookup f os)) hU
          exact ⟨_, by rw [hy, ok_bind]⟩

/-- If no call is undefined alone in surroundings it can have met, the process takes every step. -/
theorem SrvInv.defined {p : Site} {U : String → Prop} {n : Nat} {asked : Nat → Asked}
    {x : Nat → List ExRequest × ItemMap × List FTask} {from_ : Nat → Svc UInt64} (sound : SoundReader p.reader)
    (hoffs : ∀ file, p.offs file ≠ undef) (prepared : p.Prepared asked x) {s : Srv}
    (h : SrvInv p U n (fun g => (x g).2) from_ s)
    (alone : ∀ g E, Lived p U (from_ g) s.svc.disk g E → ∀ sched, ((asked g).call E).alone p.conf sched ≠ undef)
    {e : SrvEv} (ha : e.Allowed U) : ∃ s', s.step p e = .ok s' := by
  refine h.steps sound hoffs prepared.fresh (fun g E hL hne sched hu => alone g E hL sched ?_) ha
  have hst : ((asked g).call E).start p.conf = .ok (x g) := by
    rw [(asked g).start_congr hL.list]
    exact (prepared g).resolve_right hne
  rw [Call.alone_eq, hst, ok_bind, (asked g).env, hu]; rfl

/-- Files after a step. -/
def SrvEv.grow (d : Disk) : SrvEv → Disk
  | .other (.append path bytes) => d.append path bytes
  | _ => d

/-- Files after a history. -/
def diskAfter (d : Disk) (es : List SrvEv) : Disk := es.foldl SrvEv.grow d

theorem cache_disk {p : Site} {y y' : Svc UInt64} {e : CEv} (h : y.step p.reader p.offs (.cache e) = .ok y') :
    y'.disk = y.disk := by
  obtain ⟨z, -, h⟩ := res_bind_inv h
  cases h; rfl

theorem srv_disk {p : Site} {s s' : Srv} {e : SrvEv} (h : s.step p e = .ok s') : s'.svc.disk = e.grow s.svc.disk := by
  cases e with
  | other e =>
    obtain ⟨y, hy, h⟩ := res_bind_inv h
    cases h
    cases e <;> first | exact cache_disk hy | (cases hy; rfl)
  | queue e =>
    cases e with
    | work w =>
      rw [Srv.step, Srv.work.eq_def] at h
      cases hask : s.x.asking w with
      | none => rw [hask] at h; obtain ⟨x', hx, h⟩ := res_bind_inv h; cases h; rfl
      | some a =>
        obtain ⟨f, os⟩ := a
        rw [hask] at h
        simp only at h
        by_cases hw : w ∈ s.holders
        · rw [if_pos hw] at h
          obtain ⟨y, hy, h⟩ := res_bind_inv h
          obtain ⟨x', hx, h⟩ := res_bind_inv h
          cases h
          exact cache_disk hy
        · rw [if_neg hw] at h
          obtain ⟨y, hy, h⟩ := res_bind_inv h
          cases h
          exact cache_disk hy
    | add g => obtain ⟨x', hx, h⟩ := res_bind_inv h; cases h; rfl
    | push g => obtain ⟨x', hx, h⟩ := res_bind_inv h; cases h; rfl
    | wait g => obtain ⟨x', hx, h⟩ := res_bind_inv h; cases h; rfl
    | ret g => obtain ⟨x', hx, h⟩ := res_bind_inv h; cases h; rfl
    | pop g => obtain ⟨x', hx, h⟩ := res_bind_inv h; cases h; rfl
    | start g => obtain ⟨x', hx, h⟩ := res_bind_inv h; cases h; rfl

theorem append_before (d : Disk) (path : String) (bytes : List UInt8) : d.Before (d.append path bytes) := by
  intro f file hf
  unfold Disk.append
  by_cases e : f = path
  · rw [if_pos e, hf]; exact ⟨bytes, rfl⟩
  · rw [if_neg e, hf]; exact ⟨[], by rw [List.append_nil]⟩

theorem grow_before (d : Disk) (e : SrvEv) : d.Before (e.grow d) := by
  unfold SrvEv.grow
  split
  · exact append_before _ _ _
  · exact Disk.Before.refl _

theorem diskAfter_before (es : List SrvEv) (d : Disk) : d.Before (diskAfter d es) := by
  induction es generalizing d with
  | nil => exact Disk.Before.refl _
  | cons e es ih => exact (grow_before d e).trans (ih _)

/-- The process computes with the numbers of the machine, in `mem` bytes of memory; the store behind it holds, at a place,
messages with metadata `stored`; listing is defined and other servers run the same program. -/
structure Site.Computes (p : Site) (mem : Nat) (stored : Uri → Info → Prop) : Prop where
  jump : p.jump = machineExtract mem p.reader
  fetch : ∀ u is, (∃ e, p.fetch u is = throwExn e) ∨
    ∃ msg info, stored u info ∧ p.fetch u is = machineExtract mem p.reader msg 0 info is
  list : ∀ g u, (p.calls g).list u ≠ undef
  forward : ∀ g t s fm, Answered fm ((p.calls g).forward t s fm)

/-- Metadata that the process can have of the field at a place. -/
def Site.Known (p : Site) (stored : Uri → Info → Prop) (d : Disk) (f : String) (o : Nat) (i : Info) : Prop :=
  (∃ file, d f = some file ∧ buildInfo p.reader file o = .ok i) ∨ ∃ u : Uri, u.path = f ∧ u.offset = o ∧ stored u i

/-- A request that may be made: intervals run forward and end inside a field with a bitmap; fields outside the files are
asked for only if the request is forwarded or the process is set up for them; a request by path is for at least one field. -/
def Asked.Acceptable (E : ExtEnv) (C : EngineConf) (Known : String → Nat → Info → Prop) : Asked → Prop
  | .fields rs => NoStrayFdb E C ∧ GJ.Acceptable E C (Askable Known) (.extract rs)
  | .paths rs => rs ≠ [] ∧ (∀ r ∈ rs, Askable Known r.path r.offset r.ranges) ∧
      ((∀ r, rs.head? = some r → r.host ≠ "" ∨ r.port ≠ 0) ∨ C.inefficient = true ∨ ∀ r ∈ rs, r.scheme ≠ "fdb")

theorem lived_machine {p : Site} {U : String → Prop} (sound : SoundReader p.reader) (hoffs : ∀ file, p.offs file ≠ undef)
    {start : Svc UInt64} (good : SvcGood p.reader p.offs U start) {d : Disk} {g : Nat} {E : ExtEnv}
    (h : Lived p U start d g E) {mem : Nat} {stored : Uri → Info → Prop} (computes : p.Computes mem stored)
    (blocks : ∀ f o i x, p.Known stored d f o (.ccsds i x) → x.rsi * x.blockSize ≠ 0) :
    MachineNode mem p.reader E (p.Known stored d) where
  list u := by rw [h.list]; exact computes.list g u
  infos t f os := by
    by_cases hf : U f
    · obtain ⟨⟨es, s, h1, h2, h3, h4⟩, hne⟩ := h.infos t f os hf
      refine ⟨hne, fun is hi => ?_⟩
      obtain ⟨s', h5, g'⟩ := good.run sound hoffs es h1
      rw [h2] at h5
      cases h5
      rw [hi] at h4
      have := g'.cache.answers _ (List.mem_of_mem_drop h4) is rfl
      rw [g'.world] at this
      have hx := extractInfos_grow (h3.grown sound) this
      refine ⟨(extractInfos_inv _ _ _ _ hx).1, fun j o i ho hi => ?_⟩
      have hd : (diskWorld p.reader p.offs d).data f o = .ok i := by
        exact mapM_getElem (show os.mapM _ = _ from hx) ho hi
      left
      unfold diskWorld at hd
      cases hfile : d f with
      | none => simp only [hfile] at hd; cases hd
      | some file => simp only [hfile] at hd; exact ⟨file, rfl, hd⟩
    · rw [h.outside t f os hf]; exact Safe.throw _
  jump t f o i rs := by
    obtain ⟨d', -, -, he⟩ := h.jump t f o i rs
    rw [he]
    unfold Site.jumpOn
    cases d' f with
    | none => exact .inl ⟨_, rfl⟩
    | some file => exact .inr ⟨file, by simp only [computes.jump]⟩
  fetch t u rs := by
    rw [h.fetch]
    rcases computes.fetch u rs with he | ⟨msg, info, hs, he⟩
    · exact .inl he
    · exact .inr ⟨msg, info, .inr ⟨u, rfl, rfl, hs⟩, he⟩
  forward t s fm := by rw [h.forward]; exact computes.forward g t s fm
  blocks := blocks

/-- C74 (partial).  A process with the machine's arithmetic, whose calls ask for intervals that run forward and end inside
a field with a bitmap, goes through every history: no step of any worker, call, scan or plugin is undefined or throws out
of its thread.
Missing: requests that are not acceptable in this sense (C54 shows what they can do), metadata with an empty compression
block (C06, C53), file names the cache confuses (C15). -/
theorem C74_defined_partial (p : Site) (U : String → Prop) (n : Nat) (asked : Nat → Asked)
    (x : Nat → List ExRequest × ItemMap × List FTask) (sane : p.Sane U asked x) (mem : Nat) (memory : mem ≤ 2 ^ 60)
    (lib : AecContract p.reader.lib) (stored : Uri → Info → Prop) (computes : p.Computes mem stored)
    (d : Disk) (mode : CacheMode) (lazy : Bool) (cap : Nat) (fs : FS) (apart : ToldApart mode U) (room : 0 < cap)
    (agree : GoodIndex (diskWorld p.reader p.offs d) U mode fs) (es : List SrvEv) (allowed : ∀ e ∈ es, SrvEv.Allowed U e)
    (blocks : ∀ f o i x, p.Known stored (diskAfter d es) f o (.ccsds i x) → x.rsi * x.blockSize ≠ 0)
    (acceptable : ∀ g, (asked g).Acceptable (p.calls g) p.conf (p.Known stored (diskAfter d es))) :
    ∃ s, (Srv.start p n (fun g => (x g).2) d mode lazy cap fs).run p es = .ok s := by
  have good : SvcGood p.reader p.offs U (Svc.start p.reader p.offs d mode lazy cap fs) := SvcGood.start sane.offs apart room agree
  have inv := SrvInv.start (p := p) (U := U) (n := n) (P := fun g => (x g).2) (lazy := lazy) sane.reader sane.offs apart room
    agree (sane.prepared.files sane.within)
  generalize hD : diskAfter d es = D at blocks acceptable
  have hb : (diskAfter (Srv.start p n (fun g => (x g).2) d mode lazy cap fs).svc.disk es).Before D := by
    rw [← hD]; exact Disk.Before.refl _
  have alone : ∀ g E, Lived p U (Svc.start p.reader p.offs d mode lazy cap fs) D g E → ∀ sched,
      ((asked g).call E).alone p.conf sched ≠ undef := by
    intro g E hL sched
    have hs := (lived_machine sane.reader sane.offs good hL computes blocks).steady lib memory
    have hc := C55_local_calls_defined E p.conf sched _ hs
    have ha := acceptable g
    cases hq : asked g with
    | fields rs =>
      rw [hq] at ha
      refine hc.1 rs ?_ ?_
      · unfold NoStrayFdb; rw [hL.list]; exact ha.1
      · unfold GJ.Acceptable; rw [hL.list]; exact ha.2
    | paths rs =>
      rw [hq] at ha
      exact hc.2 rs ha.1 ha.2.1 ha.2.2
  clear hD good
  generalize Srv.start p n (fun g => (x g).2) d mode lazy cap fs = s at *
  induction es generalizing s with
  | nil => exact ⟨s, rfl⟩
  | cons e es ih =>
    obtain ⟨s1, h1⟩ := inv.defined sane.reader sane.offs sane.prepared
      (fun g E hL => alone g E (hL.before ((diskAfter_before _ _).trans hb))) (allowed e List.mem_cons_self)
    obtain ⟨s2, h2⟩ := ih (fun e he => allowed e (List.mem_cons_of_mem _ he)) s1
      (inv.step sane.reader sane.offs sane.prepared.fresh (allowed e List.mem_cons_self) h1)
      (by rw [srv_disk h1]; exact hb)
    exact ⟨s2, by rw [Srv.run, h1, ok_bind, h2]⟩

/-! ## Cases -/

/-- A process that lists two fields in a file and one behind the store. -/
def c74Site : Site where
  conf := c50Conf
  reader := toyReader
  offs := fun _ => .ok [0, 6]
  jump := jumperExtract toyReader
  fetch := slowExtract toyReader c50Store
  calls := fun _ => ⟨fun _ => .ok c50Cat, fun _ _ _ => undef, fun _ _ _ _ _ => undef, fun _ _ _ => undef,
    fun _ _ _ => throwExn .ioError⟩

def c74Asked : Nat → Asked
  | 0 => .fields c50Reqs
  | _ => .paths [⟨"/fdb/a.data", "file", 6, "", 0, [⟨0, 1⟩], "g"⟩]

def c74X : Nat → List ExRequest × ItemMap × List FTask :=
  prepareAll c50Conf fun g => (c74Asked g).call (c74Site.calls g)

def c74Names (p : String) : Prop := p = "/fdb/a.data" ∨ p = "x"

def c74Disk : Disk := fun f => if f = "/fdb/a.data" then some (toyMessage ++ [0x47, 2, 7, 8]) else none

def c74Start : Srv := Srv.start c74Site 2 (fun g => (c74X g).2) c74Disk .shadow true 2 []

/-- Two threads and two workers take turns, with a scan, the plugin, `clear` and a growing file in between. -/
def c74Turns : List SrvEv :=
  [.queue (.add 0), .queue (.push 0), .other (.scan "/fdb/a.data" [0]), .queue (.pop 0), .queue (.start 0), .queue (.work 0),
   .other (.commit 0), .queue (.add 1), .queue (.push 1), .queue (.wait 0), .other (.append "/fdb/a.data" [0x47, 1, 9]),
   .queue (.pop 1), .queue (.start 1), .queue (.work 1), .other .clear, .queue (.work 0), .queue (.work 1),
   .other (.insert "/fdb/a.data" 6), .queue (.wait 1), .other (.flush true), .queue (.ret 0), .queue (.ret 1)]

def c74Ev (k : Nat) : SrvEv := c74Turns[k % 22]?.getD (.other .clear)

def c74At (k : Nat) : Res Srv := c74Start.run c74Site ((List.range k).map c74Ev)

def c74Seen (k : Nat) : Option (Phase × Phase × Nat) :=
  match c74At k with
  | .ok s => some ((s.x.t.grp 0).phase, (s.x.t.grp 1).phase, s.svc.sys.answers.length)
  | .error _ => none

def c74Out (k g : Nat) : Res (List WireResult) := do
  let s ← c74At k
  s.x.outcome c74X g

/-- Non-vacuity: both calls return, with their own values. -/
example : c74Seen 110 = some (.returned, .returned, 2) ∧
    c74Out 110 0 = .ok [⟨[[10, 11, 12, 13]], [[15]]⟩, ⟨[[11], [12, 13]], [[1], [3]]⟩, ⟨[[7, 8]], [[3]]⟩] ∧
    c74Out 110 1 = .ok [⟨[[7]], [[1]]⟩] :=
  ⟨by decide +kernel, by decide +kernel, by decide +kernel⟩

theorem c74_apart : ToldApart .shadow c74Names := by
  refine C15_separated _ _ ?_ ?_
  · intro p q hp hq h
    rcases hp with rfl | rfl <;> rcases hq with rfl | rfl <;> first | rfl | (exact absurd h (by decide +kernel))
  · intro p hp c hc
    rcases hp with rfl | rfl
    · have : (baseName "/fdb/a.data").toList.getLast? = some 'a' := by decide +kernel
      rw [this] at hc; cases hc; decide
    · have : (baseName "x").toList.getLast? = some 'x' := by decide +kernel
      rw [this] at hc; cases hc; decide

theorem c74_within (calls : Nat → ExtEnv) (h : ∀ g u, (calls g).list u = .ok c50Cat) (g : Nat) :
    (c74Asked g).Within c74Names (calls g) := by
  match g with
  | 0 =>
    intro u L hL e he
    rw [h] at hL
    cases hL
    have : ∀ e ∈ (c50Cat : List (FdbKey × Uri)), e.2.path = "/fdb/a.data" ∨ e.2.path = "x" := by decide +kernel
    exact this e he
  | g + 1 =>
    intro r hr
    rw [List.mem_singleton] at hr
    subst hr
    exact .inl rfl

theorem c74_sane : c74Site.Sane c74Names c74Asked c74X :=
  ⟨toySound, (fun _ h => by cases h), prepareAll_ok _ _, c74_within c74Site.calls fun _ _ => rfl⟩

theorem c74_agree (R : Reader UInt64) (offs : List UInt8 → Res (List Nat)) (d : Disk) :
    GoodIndex (diskWorld R offs d) c74Names .shadow [] := by
  intro p _; exact ⟨[], Or.inl ⟨rfl, rfl⟩, fun x hx => by cases hx⟩

theorem c74_allowed (k : Nat) : (c74Ev k).Allowed c74Names := by
  have h : ∀ e ∈ c74Turns, SrvEv.Allowed c74Names e := by
    intro e he
    simp only [c74Turns, List.mem_cons, List.mem_nil_iff, or_false] at he
    rcases he with rfl | rfl | rfl | rfl | rfl | rfl | rfl | rfl | rfl | rfl | rfl | rfl | rfl | rfl | rfl | rfl | rfl | rfl |
      rfl | rfl | rfl | rfl <;> first | trivial | exact Or.inl rfl
  unfold c74Ev
  cases he : c74Turns[k % 22]? with
  | none => trivial
  | some e => exact h e (List.mem_of_getElem? he)

theorem c74_turn (i : Nat) (hi : i < 22) (k : Nat) : ∃ m, k ≤ m ∧ c74Ev m = c74Turns[i]?.getD (.other .clear) :=
  ⟨22 * (k + 1) + i, by omega, by rw [c74Ev, Nat.mul_add_mod, Nat.mod_eq_of_lt hi]⟩

theorem c74_fair : SrvWorkersFair 2 c74Ev ∧ SrvCallFair 0 c74Ev ∧ SrvCallFair 1 c74Ev := by
  refine ⟨fun w hw k => ?_, fun k => ?_, fun k => ?_⟩
  · match w, hw with
    | 0, _ => exact ⟨c74_turn 3 (by decide) k, c74_turn 4 (by decide) k, c74_turn 5 (by decide) k⟩
    | 1, _ => exact ⟨c74_turn 11 (by decide) k, c74_turn 12 (by decide) k, c74_turn 13 (by decide) k⟩
  · exact ⟨c74_turn 0 (by decide) k, c74_turn 1 (by decide) k, c74_turn 9 (by decide) k, c74_turn 20 (by decide) k⟩
  · exact ⟨c74_turn 7 (by decide) k, c74_turn 8 (by decide) k, c74_turn 18 (by decide) k, c74_turn 21 (by decide) k⟩

theorem c74_reached : c74Site.Reached c74Names 2 c74X true c74Start :=
  ⟨c74Disk, .shadow, 2, [], [], c74_apart, by decide, c74_agree _ _ _, (fun _ h => by cases h), rfl⟩

theorem c74_fields : CanServe c74Site c74Names c50Store c74Start 0 c50Cat c50Reqs c27Written where
  catalogue := catalogue_of (by decide +kernel) (by decide +kernel) (by decide +kernel)
  lists := by
    intro u L h
    have := Except.ok.inj h
    subst this
    exact ⟨fun e he => he, by decide +kernel⟩
  complete := fun u => ⟨c50Cat, rfl, fun e he _ => he⟩
  places := by decide +kernel
  written := ⟨by decide +kernel, c27_written.2⟩
  nonempty := by decide
  different := c27_different
  sameKeywords := c27_sameKeywords
  found := by
    refine c69_at (p := fun i hi _ e => ∃ r, (c74Start.node c74Site c74Names c50Store 0).Gives e.2 c50Reqs[i].ranges
      c50Reqs[i].gridHash r) (cat := c50Cat) rfl ?_ ?_ ?_
    · refine ⟨⟨[[10, 11, 12, 13]], [[15]]⟩, ?_⟩
      unfold Node.Gives
      rw [if_pos (by decide)]
      exact ⟨rfl, toyMessage, _, [some 100], rfl, rfl, ⟨100, [], rfl, by decide, fun a ha => by cases ha⟩, toyGood,
        by decide +kernel⟩
    · exact ⟨⟨[[11], [12, 13]], [[1], [3]]⟩, c69_file (file := toyMessage ++ [0x47, 2, 7, 8]) (h := (toyParse toyMessage).get (by decide))
        (by decide) (.inl rfl) (by decide +kernel) (by decide +kernel) (by decide +kernel) (by decide +kernel)⟩
    · exact ⟨⟨[[7, 8]], [[3]]⟩, c69_file (file := toyMessage ++ [0x47, 2, 7, 8]) (h := (toyParse [0x47, 2, 7, 8]).get (by decide))
        (by decide) (.inl rfl) (by decide +kernel) (by decide +kernel) (by decide +kernel) (by decide +kernel)⟩

theorem c74_paths0 : CanServePaths c74Site c74Names c50Store c74Start 0
    [⟨"/fdb/a.data", "file", 6, "", 0, [⟨0, 1⟩], "g"⟩] where
  nonempty := by simp
  here r hr := by rw [List.mem_singleton] at hr; subst hr; exact ⟨rfl, rfl⟩
  place a ha b hb _ := by rw [List.mem_singleton] at ha hb; rw [ha, hb]
  different := by simp
  found r hr := by
    rw [List.mem_singleton] at hr
    subst hr
    exact ⟨⟨[[7]], [[1]]⟩, c69_file (file := toyMessage ++ [0x47, 2, 7, 8]) (h := (toyParse [0x47, 2, 7, 8]).get (by decide))
      (by decide) (.inl rfl) (by decide +kernel) (by decide +kernel) (by decide +kernel) (by decide +kernel)⟩

theorem c74_paths (g : Nat) : CanServePaths c74Site c74Names c50Store c74Start g
    [⟨"/fdb/a.data", "file", 6, "", 0, [⟨0, 1⟩], "g"⟩] :=
  ⟨c74_paths0.nonempty, c74_paths0.here, c74_paths0.place, c74_paths0.different, c74_paths0.found⟩

/-- The states of an infinite schedule. -/
def srvStates (p : Site) (s : Srv) (ev : Nat → SrvEv) : Nat → Srv
  | 0 => s
  | k + 1 => match (srvStates p s ev k).step p (ev k) with
    | .ok s => s
    | .error _ => srvStates p s ev k

/-- Every infinite schedule is a history, if no call is undefined alone in surroundings it can meet. -/
theorem srvExecution_of {p : Site} {U : String → Prop} {n : Nat} {asked : Nat → Asked}
    {x : Nat → List ExRequest × ItemMap × List FTask} (sane : p.Sane U asked x) {d : Disk} {mode : CacheMode} {cap : Nat}
    {fs : FS} (apart : ToldApart mode U) (room : 0 < cap) (agree : GoodIndex (diskWorld p.reader p.offs d) U mode fs)
    {ev : Nat → SrvEv} (allowed : ∀ k, (ev k).Allowed U)
    (alone : ∀ g D E, Lived p U (Svc.start p.reader p.offs d mode true cap fs) D g E → ∀ sched,
      ((asked g).call E).alone p.conf sched ≠ undef) :
    p.Lives U n x ev (srvStates p (Srv.start p n (fun g => (x g).2) d mode true cap fs) ev) := by
  have inv : ∀ k, SrvInv p U n (fun g => (x g).2) (fun _ => Svc.start p.reader p.offs d mode true cap fs)
      (srvStates p (Srv.start p n (fun g => (x g).2) d mode true cap fs) ev k) := by
    intro k
    induction k with
    | zero => exact SrvInv.start sane.reader sane.offs apart room agree (sane.prepared.files sane.within)
    | succ k ih =>
      obtain ⟨s', h⟩ := ih.defined sane.reader sane.offs sane.prepared (fun g E => alone g _ E) (allowed k)
      rw [srvStates, h]
      exact ih.step sane.reader sane.offs sane.prepared.fresh (allowed k) h
  refine ⟨⟨fun k => ?_⟩, ⟨d, mode, cap, fs, apart, room, agree, rfl⟩, allowed⟩
  obtain ⟨s', h⟩ := (inv k).defined sane.reader sane.offs sane.prepared (fun g E => alone g _ E) (allowed k)
  rw [srvStates, h]

/-- Non-vacuity of the theorems on present fields: the schedule above, repeated for ever, is a history with fair workers
and threads; the calls ask for what is there. -/
example : c74Site.Sane c74Names c74Asked c74X ∧ c74Site.Exact c50Store ∧ c74Site.conf.forward = false ∧
    c74Site.Lives c74Names 2 c74X c74Ev (srvStates c74Site c74Start c74Ev) ∧
    SrvWorkersFair 2 c74Ev ∧ SrvCallFair 0 c74Ev ∧ SrvCallFair 1 c74Ev ∧
    (∀ g, (c74Start.x.job g).time = 0) ∧
    (∀ g, ((c74Asked g).call (c74Site.calls g)).start c74Site.conf = .ok (c74X g)) ∧
    CanServe c74Site c74Names c50Store c74Start 0 c50Cat c50Reqs c27Written ∧
    CanServePaths c74Site c74Names c50Store c74Start 1 [⟨"/fdb/a.data", "file", 6, "", 0, [⟨0, 1⟩], "g"⟩] ∧
    (c74X 0).2.2.length = 2 ∧ (c74X 1).2.2.length = 1 := by
  refine ⟨c74_sane, ⟨rfl, rfl⟩, rfl, ?_, c74_fair.1, c74_fair.2.1, c74_fair.2.2, fun _ => rfl, ?_, c74_fields, c74_paths 1,
    by decide +kernel, by decide +kernel⟩
  · refine srvExecution_of c74_sane c74_apart (by decide) (c74_agree _ _ _) c74_allowed fun g D E hL sched h => ?_
    have hs := serve_alone c74_sane (⟨rfl, rfl⟩ : c74Site.Exact c50Store) c74_reached hL sched
    cases g with
    | zero => obtain ⟨out, ho, -⟩ := hs.1 rfl _ _ _ c74_fields; exact nomatch ho.symm.trans h
    | succ g => obtain ⟨out, ho, -⟩ := hs.2 _ (c74_paths (g + 1)); exact nomatch ho.symm.trans h
  · have h0 : (((c74Asked 0).call (c74Site.calls 0)).start c74Site.conf).toOption.isSome = true := by decide +kernel
    have h1 : (((c74Asked 1).call (c74Site.calls 1)).start c74Site.conf).toOption.isSome = true := by decide +kernel
    have ok : ∀ g, (((c74Asked g).call (c74Site.calls g)).start c74Site.conf).toOption.isSome = true →
        ((c74Asked g).call (c74Site.calls g)).start c74Site.conf = .ok (c74X g) := by
      intro g hg
      rw [c74X, prepareAll]
      cases h : ((c74Asked g).call (c74Site.calls g)).start c50Conf with
      | ok y => exact h
      | error e =>
        rw [show ((c74Asked g).call (c74Site.calls g)).start c74Site.conf = .error e from h] at hg
        cases hg
    intro g
    cases g with
    | zero => exact ok 0 h0
    | succ g => exact ok (g + 1) h1

/-- Non-vacuity of `C74_returned_values_partial` and `C74_returned_path_values_partial`: in the state of the first example,
reached by 110 steps, both calls have returned. -/
example : ∃ s, c74At 110 = .ok s ∧ c74Site.Reached c74Names 2 c74X true s ∧ (s.x.t.grp 0).phase = .returned ∧
    (s.x.t.grp 1).phase = .returned ∧ c74Site.Faithful c50Store ∧ StoreRight toyReader c50Store (fun _ => toyMessage) ∧
    (∀ g, c74Site.PeersRight (fun _ => toyMessage) g s.svc.disk) ∧ c74Site.conf.allowMissing = false := by
  have h : c74Seen 110 = some (.returned, .returned, 2) := by decide +kernel
  unfold c74Seen at h
  cases hr : c74At 110 with
  | error e => rw [hr] at h; cases h
  | ok s =>
    rw [hr] at h
    simp only [Option.some.injEq, Prod.mk.injEq] at h
    refine ⟨s, rfl, ⟨c74Disk, .shadow, 2, [], _, c74_apart, by decide, c74_agree _ _ _, ?_, hr⟩, h.1, h.2.1,
      ⟨fun _ _ _ _ _ h => h, fun _ _ _ h => h⟩, ?_, ?_, rfl⟩
    · intro e he
      obtain ⟨i, -, rfl⟩ := List.mem_map.mp he
      exact c74_allowed i
    · intro u msg answers h
      cases h
      exact ⟨rfl, rfl, ⟨100, [], rfl, by decide, fun a ha => by cases ha⟩, _, toyGood⟩
    · intro g t server fm back _ h
      cases h

/-- The same process with the numbers of the machine and 1000 bytes of memory. -/
def c74Machine : Site :=
  { c74Site with
    jump := machineExtract 1000 toyReader
    fetch := fun _ is => do
      let i ← buildInfo toyReader toyMessage 0
      machineExtract 1000 toyReader toyMessage 0 i is }

theorem toy_info {file : List UInt8} {o : Nat} {i : Info} (h : buildInfo toyReader file o = .ok i) :
    (∃ b, i = .simple b) ∧ i.base.offsetBeforeBitmap = 0 := by
  unfold buildInfo at h
  change (match toyParse (file.drop o) with | none => _ | some h => _) = _ at h
  unfold toyParse at h
  split at h
  · cases h
  · rename_i hd hp
    split at hp
    · split at hp
      · cases hp
        cases h
        exact ⟨⟨_, rfl⟩, rfl⟩
      · cases hp
    · cases hp

/-- Non-vacuity of `C74_defined_partial`. -/
example : c74Machine.Sane c74Names c74Asked c74X ∧ AecContract c74Machine.reader.lib ∧
    c74Machine.Computes 1000 (fun _ i => buildInfo toyReader toyMessage 0 = .ok i) ∧
    (∀ d f o i x, c74Machine.Known (fun _ i => buildInfo toyReader toyMessage 0 = .ok i) d f o (.ccsds i x) →
      x.rsi * x.blockSize ≠ 0) ∧
    ∀ d g, (c74Asked g).Acceptable (c74Machine.calls g) c74Machine.conf
      (c74Machine.Known (fun _ i => buildInfo toyReader toyMessage 0 = .ok i) d) := by
  have known : ∀ {d f o i}, c74Machine.Known (fun _ i => buildInfo toyReader toyMessage 0 = .ok i) d f o i →
      (∃ b, i = .simple b) ∧ i.base.offsetBeforeBitmap = 0 := by
    intro d f o i h
    rcases h with ⟨file, -, h⟩ | ⟨u, -, -, h⟩
    · exact toy_info h
    · exact toy_info h
  have askable : ∀ {d f o is}, (∀ i ∈ is, i.b ≤ i.e ∧ i.e < 2 ^ 64) →
      Askable (c74Machine.Known (fun _ i => buildInfo toyReader toyMessage 0 = .ok i) d) f o is :=
    fun h => ⟨h, fun info hk _ hb => absurd (known hk).2 hb⟩
  refine ⟨⟨toySound, (fun _ h => by cases h), prepareAll_ok _ _, c74_within c74Machine.calls fun _ _ => rfl⟩,
    ⟨(fun h => by cases h), (fun h => by cases h), (fun h => by cases h)⟩, ⟨rfl, ?_, ?_, ?_⟩, ?_, ?_⟩
  · intro u is
    have h : (buildInfo toyReader toyMessage 0).toOption.isSome = true := by decide +kernel
    cases hb : buildInfo toyReader toyMessage 0 with
    | error e => rw [hb] at h; cases h
    | ok i =>
      refine .inr ⟨toyMessage, i, rfl, ?_⟩
      show (buildInfo toyReader toyMessage 0 >>= fun i => _) = _
      rw [hb, ok_bind]; rfl
  · intro g u h; cases h
  · intro g t s fm; exact .inl ⟨_, rfl⟩
  · intro d f o i x h
    obtain ⟨⟨b, hb⟩, -⟩ := known h
    cases hb
  · intro d g
    match g with
    | 0 =>
      refine ⟨.inr (.inl rfl), ?_⟩
      intro u L hL r hr e he e' he' _ _
      refine askable ?_
      have : ∀ r ∈ canonAll true false c50Reqs, ∀ i ∈ r.ranges, i.b ≤ i.e ∧ i.e < 2 ^ 64 := by decide +kernel
      exact this r hr
    | g + 1 =>
      refine ⟨by simp, ?_, .inr (.inl rfl)⟩
      intro r hr
      rw [List.mem_singleton] at hr
      subst hr
      exact askable (by decide)

end GJ
