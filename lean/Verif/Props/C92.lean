import Verif.Props.C33
import Verif.Props.C87

/-!
# C92: from archiving to extraction

One process archives fields through the plugin and flushes.  Another process, started afterwards with the same index files,
serves them, whether or not it builds metadata on demand.
-/

namespace GJ
open Spec

/-- A process that archives: the selection of the plugin, its cache, the index files it found, and what happened. -/
structure Archive where
  reader : Reader UInt64
  compiles : Str → Bool
  rx : Str → Str → Bool
  /-- what asking a key for a name it does not have throws -/
  fault : Fault
  sel : AMap Str Str
  mode : CacheMode
  lazy : Bool
  cap : Nat
  fs : FS
  /-- the entries of the index files it found -/
  old : String → List (Nat × Info)
  events : List PlugEv
  final : PlugSys

def Archive.env (a : Archive) : PlugEnv := ⟨a.compiles, a.rx, .error a.fault, fun data => buildInfo a.reader data 0⟩

def Archive.start (a : Archive) : PlugSys := PlugSys.start a.sel a.mode a.lazy a.cap a.fs

structure Archive.Ran (a : Archive) : Prop where
  indexes : ∀ ip, Holds a.fs ip (a.old ip)
  run : a.start.run a.env a.events = .ok a.final
  keys : ∀ x ∈ a.final.archived, x.2.key.keys.Nodup

/-- The field was archived, is one that the plugin was told to select, went to this place, and a flush of its FDB returned after
the archive callback. -/
def Archive.Flushed (a : Archive) (f : ArchField) (p : String) (o : Nat) : Prop :=
  f.loc = some (p, o) ∧ SelectedGrib a.rx a.sel f ∧ ∃ n pre post s1 s2, a.events = pre ++ .finish n :: post ∧
    a.start.run a.env pre = .ok s1 ∧ s1.step a.env (.finish n) = .ok s2 ∧ s2.aggs n = none ∧ (n, f) ∈ s2.archived

/-- The store has written the selected fields where it said, and the index files the archiving process found were right. -/
structure Archive.OnDisk (a : Archive) (U : String → Prop) (d : Disk) : Prop where
  stored : ∀ x ∈ a.final.archived, SelectedGrib a.rx a.sel x.2 → ∀ p o, x.2.loc = some (p, o) →
    U p ∧ ∃ file h, d p = some file ∧ HasMessage file o x.2.data ∧ GoodMessage a.reader x.2.data h
  before : ∀ p, U p → Agree (diskWorld a.reader (fun _ => .ok []) d) p (a.old (a.mode.indexPath p))

theorem plugRun_append {E : PlugEnv} (l1 l2 : List PlugEv) :
    ∀ s : PlugSys, s.run E (l1 ++ l2) = s.run E l1 >>= fun s' => s'.run E l2 := by
  induction l1 with
  | nil => intro s; rfl
  | cons e l1 ih =>
    intro s
    show (s.step E e >>= fun s' => s'.run E (l1 ++ l2)) = (s.step E e >>= fun s' => s'.run E l1) >>= fun s' => s'.run E l2
    cases hs : s.step E e with
    | error x => rfl
    | ok s' => exact ih s'

theorem Archive.Flushed.stays {a : Archive} (ran : a.Ran) {f : ArchField} {p : String} {o : Nat} (h : a.Flushed f p o) :
    ∃ n s1 s2 pre post, a.start.run a.env pre = .ok s1 ∧ s1.step a.env (.finish n) = .ok s2 ∧ s2.aggs n = none ∧
      (n, f) ∈ s2.archived ∧ s2.run a.env post = .ok a.final := by
  obtain ⟨-, -, n, pre, post, s1, s2, h1, h2, h3, h4, h5⟩ := h
  have hr := ran.run
  rw [h1, plugRun_append, h2, ok_bind, PlugSys.run, h3, ok_bind] at hr
  exact ⟨n, s1, s2, pre, post, h2, h3, h4, h5, hr⟩

/-- C92.  The index files that are left say what the data files say. -/
theorem C92_index_right {a : Archive} (ran : a.Ran) {U : String → Prop} {d : Disk} (disk : a.OnDisk U d) (apart : ToldApart a.mode U)
    (offs : List UInt8 → Res (List Nat)) : GoodIndex (diskWorld a.reader offs d) U a.mode a.final.c.fs := by
  obtain ⟨es, h, -⟩ := (PInv.start a.env a.sel a.mode a.lazy a.cap a.fs a.old ran.indexes).run a.events ran.run
  obtain ⟨m1, d1, -⟩ := PlugSys.run_mode a.events ran.run
  intro p hp
  refine ⟨_, h.holds _, fun x hx => ?_⟩
  rcases h.entries _ _ hx with ho | ⟨n, f, q, g1, g2, g3, g4, g5⟩
  · exact disk.before p hp x ho
  · have hsel : SelectedGrib a.rx a.sel f := by
      have hw : Wanted a.env a.sel f := by rw [← show a.final.dict = a.sel from d1]; exact g2
      exact (wanted_iff (E := a.env) (e := a.fault) rfl a.sel f (ran.keys _ g1)).mp hw
    obtain ⟨hq, file, hd, hf, hm, hg⟩ := disk.stored _ g1 hsel q x.1 g4
    have hqp : q = p := apart.index q p hq hp (by rw [show a.final.c.mode = a.mode from m1] at g5; exact g5)
    subst hqp
    show (match d q with
      | none => throwExn .ioError
      | some file => buildInfo a.reader file x.1) = .ok x.2
    rw [hf]
    show buildInfo a.reader file x.1 = .ok x.2
    rw [← (C48_archived_equals_scanned a.reader f.data hd hg file x.1 hm).1]
    exact g3

/-- C92.  Every archived and flushed field is in the index. -/
theorem C92_flushed_is_indexed {a : Archive} (ran : a.Ran) {f : ArchField} {p : String} {o : Nat} (flushed : a.Flushed f p o) :
    (a.final.c.indexed p o).isSome = true := by
  obtain ⟨n, s1, s2, pre, post, h1, h2, h3, h4, h5⟩ := flushed.stays ran
  obtain ⟨-, -, har⟩ := PlugSys.run_mode post h5
  obtain ⟨q, o', i, g1, -, g3, -⟩ := C33_archived_fields_indexed a.env a.fault rfl a.sel a.mode a.lazy a.cap a.fs a.old ran.indexes
    pre post n s1 s2 a.final h1 h2 h3 h5 f h4 (ran.keys _ (har _ h4)) flushed.2.1
  rw [flushed.1] at g1
  cases g1
  exact g3

theorem hasMessage_more {file msg : List UInt8} {o : Nat} (h : HasMessage file o msg) (more : List UInt8) :
    HasMessage (file ++ more) o msg := by
  obtain ⟨pre, post, h1, h2⟩ := h
  exact ⟨pre, post ++ more, by rw [h1]; simp, h2⟩

theorem Archive.Flushed.onDisk {a : Archive} (ran : a.Ran) {U : String → Prop} {d d' : Disk} (disk : a.OnDisk U d) (later : d.Before d')
    {f : ArchField} {p : String} {o : Nat} (h : a.Flushed f p o) :
    U p ∧ ∃ file hd, d' p = some file ∧ HasMessage file o f.data ∧ GoodMessage a.reader f.data hd := by
  obtain ⟨n, s1, s2, pre, post, -, -, -, h4, h5⟩ := h.stays ran
  obtain ⟨hp, file, hd, hf, hm, hg⟩ := disk.stored _ ((PlugSys.run_mode post h5).2.2 _ h4) h.2.1 p o h.1
  obtain ⟨more, hmore⟩ := later p file hf
  exact ⟨hp, file ++ more, hd, hmore, hasMessage_more hm more, hg⟩

theorem Archive.kept {a : Archive} (ran : a.Ran) (R : Reader UInt64) (offs : List UInt8 → Res (List Nat)) (d : Disk) (lazy : Bool)
    (cap : Nat) {f : ArchField} {p : String} {o : Nat} (h : a.Flushed f p o) :
    KeptEntry (Svc.start R offs d a.mode lazy cap a.final.c.fs).sys p o := by
  have hi := C92_flushed_is_indexed ran h
  have hm : a.final.c.mode = a.mode := (PlugSys.run_mode a.events ran.run).1
  refine ⟨?_, fun x hx => by cases hx⟩
  rw [indexed_iff] at hi ⊢
  rw [hm] at hi
  exact hi

/-- C92.  A process that is started on the index files that are left, whether or not it builds metadata on demand, answers every
lookup of archived and flushed messages with what their archived bytes say, whatever else goes on that leaves the entries there.
Missing: names of files the cache confuses (C15); index files that were wrong before (C33_old_entry_wins). -/
theorem C92_archived_lookups_partial {a : Archive} (ran : a.Ran) (sound : SoundReader a.reader) {U : String → Prop} {d : Disk}
    (disk : a.OnDisk U d) (apart : ToldApart a.mode U) {offs : List UInt8 → Res (List Nat)} (hoffs : ∀ file, offs file ≠ undef)
    (lazy : Bool) (cap : Nat) (room : 0 < cap) (es : List SEv) (s : Svc UInt64) (allowed : ∀ e ∈ es, e.Allowed U)
    (keeps : ∀ e ∈ es, ∀ f p o, a.Flushed f p o → e.Keeps a.mode p o)
    (run : (Svc.start a.reader offs d a.mode lazy cap a.final.c.fs).run a.reader offs es = .ok s)
    (x : Answer) (answer : x ∈ s.sys.answers) (distinct : x.offsets.Nodup)
    (archived : ∀ o ∈ x.offsets, ∃ f, a.Flushed f x.path o) :
    ∃ is, x.result = .ok is ∧ is.length = x.offsets.length ∧
      ∀ o i, (o, i) ∈ x.offsets.zip is → ∀ f, a.Flushed f x.path o → buildInfo a.reader f.data 0 = .ok i := by
  have good := SvcGood.start (lazy := lazy) hoffs apart room (C92_index_right ran disk apart offs)
  obtain ⟨g, -, new, hn, hsv⟩ := Svc.run_serves sound hoffs (K := fun p o => ∃ f, a.Flushed f p o) es good
    (fun p o ⟨f, hf⟩ => Archive.kept ran _ _ _ _ _ hf) allowed (fun e he p o ⟨f, hf⟩ => keeps e he f p o hf) run
  have hx : x ∈ new := by
    rw [hn] at answer
    rcases List.mem_append.mp answer with h | h
    · cases h
    · exact h
  obtain ⟨is, his⟩ := hsv x hx distinct archived
  have hinfo := g.cache.answers x answer is his
  refine ⟨is, his, (extractInfos_inv _ _ _ _ hinfo).1, fun o i ho f hf => ?_⟩
  have hb := extractInfos_zip hinfo (o, i) ho
  rw [g.world] at hb
  obtain ⟨-, file, hd, hfile, hm, hg⟩ := hf.onDisk ran disk (Svc.run_disk es run)
  rw [(C48_archived_equals_scanned a.reader f.data hd hg file o hm).1]
  have : (diskWorld a.reader offs s.disk).data x.path o = buildInfo a.reader file o := by
    show (match s.disk x.path with
      | none => throwExn .ioError
      | some file => buildInfo a.reader file o) = _
    rw [hfile]
  rw [← this]
  exact hb

/-! ## Calls -/

/-- A node that was started after the archiving process had flushed, on a disk with what that process archived.  Until the call
starts, and during the call, anything goes on that leaves the entries in the index files. -/
structure Node.StartedAfter (n : Node) (a : Archive) : Prop where
  same : n.reader = a.reader
  reader : SoundReader n.reader
  offs : ∀ file, n.offs file ≠ undef
  began : ∃ d lazy cap es, a.OnDisk n.names d ∧ ToldApart a.mode n.names ∧ 0 < cap ∧ (∀ e ∈ es, SEv.Allowed n.names e) ∧
    (∀ e ∈ es, ∀ f p o, a.Flushed f p o → e.Keeps a.mode p o) ∧
    (Svc.start n.reader n.offs d a.mode lazy cap a.final.c.fs).run n.reader n.offs es = .ok n.start
  infos : ∀ t f os, n.names f → ∃ es s, (∀ e ∈ es, SEv.Allowed n.names e) ∧
    (∀ e ∈ es, ∀ g p o, a.Flushed g p o → e.Keeps a.mode p o) ∧
    n.start.run n.reader n.offs es = .ok s ∧ s.disk.Before n.later ∧
    (⟨f, os, n.env.infos t f os⟩ : Answer) ∈ s.sys.answers.drop n.start.sys.answers.length
  jump : ∀ t f o i is, ∃ d : Disk, n.start.disk.Before d ∧ d.Before n.later ∧
    n.env.jump t f o i is = diskJump n.reader d f o i is
  fetch : ∀ t u is, n.env.fetch t u is = slowExtract n.reader n.store u is

theorem Node.StartedAfter.scanned {n : Node} {a : Archive} (ran : a.Ran) (h : n.StartedAfter a) :
    n.Scanned fun p o => ∃ f, a.Flushed f p o := by
  obtain ⟨d, lazy, cap, es, h1, h2, h3, h4, h5, h6⟩ := h.began
  have hgi : GoodIndex (diskWorld n.reader n.offs d) n.names a.mode a.final.c.fs := by
    rw [h.same]
    exact C92_index_right ran h1 h2 n.offs
  have good := SvcGood.start (lazy := lazy) h.offs h2 h3 hgi
  obtain ⟨-, hk, -⟩ := Svc.run_serves h.reader h.offs (K := fun p o => ∃ f, a.Flushed f p o) es good
    (fun p o ⟨f, hf⟩ => Archive.kept ran _ _ _ _ _ hf) h4 (fun e he p o ⟨f, hf⟩ => h5 e he f p o hf) h6
  have hmode : n.start.sys.c.mode = a.mode := by
    have := Svc.run_keeps h.reader h.offs (P := fun _ => True) (Q := fun _ => True) (mode := a.mode) (fun _ _ _ => trivial)
      (fun _ _ _ _ _ _ _ _ _ => trivial) es good rfl trivial h4 (fun _ _ => trivial) h6
    exact this.2.1
  exact {
    reader := h.reader
    offs := h.offs
    began := ⟨d, a.mode, lazy, cap, a.final.c.fs, es, h2, h3, hgi, h4, h6⟩
    indexed := hk
    infos := fun t f os hf => by
      obtain ⟨es', s, g1, g2, g3⟩ := h.infos t f os hf
      exact ⟨es', s, g1, fun e he p o ⟨f, hf⟩ => by rw [hmode]; exact g2 e he f p o hf, g3⟩
    jump := h.jump
    fetch := h.fetch }

/-- The archived message has values for these intervals, and the hash of the request, if hashes are checked, is that of the
message. -/
def Node.Reads (n : Node) (f : ArchField) (is : List Interval) (hash : String) (x : WireResult) : Prop :=
  messageExtract n.reader f.data 0 is = .ok x ∧
    (n.conf.ignoreGrid = true ∨ ∃ h, n.reader.parse f.data = some h ∧ hash ≠ "" ∧ hash = h.md5GridSection)

theorem archived_message {R : Reader UInt64} {msg file : List UInt8} {h : Header} {o : Nat} (good : GoodMessage R msg h)
    (at' : HasMessage file o msg) (is : List Interval) : messageExtract R file o is = messageExtract R msg 0 is := by
  obtain ⟨h1, h2⟩ := C48_archived_equals_scanned R msg h good file o at'
  cases hb : buildInfo R msg 0 with
  | error e =>
    unfold messageExtract
    rw [← h1, hb]
    rfl
  | ok info =>
    rw [← h2 info hb is]
    unfold messageExtract
    rw [← h1, hb]
    rfl

theorem Node.StartedAfter.place {n : Node} {a : Archive} (ran : a.Ran) (h : n.StartedAfter a) {f : ArchField} {u : Uri}
    (flushed : a.Flushed f u.path u.offset) (notStore : u.scheme ≠ "fdb") :
    (∀ is hash x, n.Reads f is hash x → n.Gives u is hash x) ∧
    ∀ is hash x, n.Gives u is hash x → messageExtract n.reader f.data 0 is = .ok x := by
  obtain ⟨d, lazy, cap, es, h1, h2, h3, h4, h5, h6⟩ := h.began
  obtain ⟨hu, file, hd, hfile, hm, hg⟩ := flushed.onDisk ran h1 (Svc.run_disk es h6)
  rw [← h.same] at hg
  have hx := archived_message hg hm
  obtain ⟨pre, post, hpre, hlen⟩ := hm
  have hdrop : n.reader.parse (file.drop u.offset) = some hd := by
    rw [hpre, ← hlen, List.drop_left]
    exact hg.framed post
  constructor
  · rintro is hash x ⟨r1, r2⟩
    rw [Node.Gives, if_neg notStore]
    refine ⟨hu, file, hd, hfile, hdrop, ?_, by rw [hx]; exact r1⟩
    rcases r2 with r2 | ⟨h', r2, r3, r4⟩
    · exact .inl r2
    · have := hg.framed []
      rw [List.append_nil, r2] at this
      cases this
      exact .inr ⟨r3, r4⟩
  · intro is hash x hgives
    rw [Node.Gives, if_neg notStore] at hgives
    obtain ⟨-, file', h', g1, -, -, g4⟩ := hgives
    rw [hfile] at g1
    cases g1
    rw [← hx]
    exact g4

/-- C92.  Requests by place for archived and flushed messages succeed on such a node, in every schedule, and the result of each is
what extraction from the archived bytes gives. -/
theorem C92_archived_paths_partial (a : Archive) (ran : a.Ran) (n : Node) (started : n.StartedAfter a) (sched : List Nat)
    (rs : List PathReq) (nonempty : rs ≠ []) (here : ∀ r ∈ rs, r.host = "" ∧ r.port = 0)
    (place : ∀ a ∈ rs, ∀ b ∈ rs, a.path = b.path → a.scheme = b.scheme) (different : (rs.map PathReq.text).Nodup)
    (archived : ∀ r ∈ rs, r.scheme ≠ "fdb" ∧ ∃ f x, a.Flushed f r.path r.offset ∧ n.Reads f r.ranges r.gridHash x) :
    ∃ out, localExtractPaths n.env n.conf sched rs = .ok out ∧ out.length = rs.length ∧
      ∀ (i : Nat) r, rs[i]? = some r → ∀ f, a.Flushed f r.path r.offset →
        ∃ x, out[i]? = some x ∧ messageExtract a.reader f.data 0 r.ranges = .ok x := by
  obtain ⟨out, h1, h2, h3⟩ := C87_scanned_path_request_succeeds_partial n _ (started.scanned ran) sched rs nonempty here place different
    (fun r hr => by
      obtain ⟨hs, f, x, hf, hx⟩ := archived r hr
      exact ⟨fun _ => ⟨f, hf⟩, x, (started.place ran (u := ⟨r.scheme, r.host, r.port, r.path, r.offset⟩) hf hs).1 _ _ _ hx⟩)
  refine ⟨out, h1, h2, fun i r hr f hf => ?_⟩
  obtain ⟨x, hx, hg⟩ := h3 i r hr
  refine ⟨x, hx, ?_⟩
  rw [← started.same]
  exact (started.place ran (u := ⟨r.scheme, r.host, r.port, r.path, r.offset⟩) hf (archived r (List.mem_of_getElem? hr)).1).2 _ _ _ hg

/-- C92.  Requests by field: the catalogue says where the fields are, and those asked for were archived and flushed there. -/
theorem C92_archived_fields_partial (a : Archive) (ran : a.Ran) (n : Node) (started : n.StartedAfter a) (here : n.conf.forward = false)
    (cat : List (FdbKey × Uri)) (catalogue : Catalogue n.conf.ignoreYearMonth cat) (lists : ListsOnly n.env cat)
    (complete : ListsAll n.conf.ignoreYearMonth n.env cat)
    (places : ∀ a ∈ cat, ∀ b ∈ cat, a.2.path = b.2.path → a.2.offset = b.2.offset → a = b) (sched : List Nat)
    (rs : List ExRequest) (ws : List WrittenRequest) (written : Written rs ws) (nonempty : rs ≠ [])
    (different : ws.Pairwise fun a b =>
      ¬ (essential n.conf.ignoreYearMonth a.pairs).Perm (essential n.conf.ignoreYearMonth b.pairs))
    (sameKeywords : ∀ a ∈ ws, ∀ b ∈ ws, ∀ k, k ∈ (essential n.conf.ignoreYearMonth a.pairs).map Prod.fst →
      k ∈ (essential n.conf.ignoreYearMonth b.pairs).map Prod.fst)
    (listed : ∀ i (hj : i < ws.length), ∃ e ∈ cat, SameField n.conf.ignoreYearMonth ws[i].pairs e.1)
    (archived : ∀ i (hi : i < rs.length) (hj : i < ws.length), ∀ e ∈ cat, SameField n.conf.ignoreYearMonth ws[i].pairs e.1 →
      e.2.scheme ≠ "fdb" ∧ ∃ f x, a.Flushed f e.2.path e.2.offset ∧ n.Reads f rs[i].ranges rs[i].gridHash x) :
    ∃ out, localExtract n.env n.conf sched rs = .ok out ∧ out.length = rs.length ∧
      ∀ i (hi : i < rs.length) (hj : i < ws.length), ∃ e ∈ cat, SameField n.conf.ignoreYearMonth ws[i].pairs e.1 ∧
        ∃ f x, a.Flushed f e.2.path e.2.offset ∧ out[i]? = some x ∧ messageExtract a.reader f.data 0 rs[i].ranges = .ok x := by
  obtain ⟨out, h1, h2, h3⟩ := C87_scanned_request_succeeds_partial n _ (started.scanned ran) here cat catalogue lists complete places
    sched rs ws written nonempty different sameKeywords (fun i hi hj => by
      obtain ⟨e, he, hs⟩ := listed i hj
      obtain ⟨hfile, f, x, hf, hx⟩ := archived i hi hj e he hs
      exact ⟨e, he, hs, fun _ => ⟨f, hf⟩, x, (started.place ran hf hfile).1 _ _ _ hx⟩)
  refine ⟨out, h1, h2, fun i hi hj => ?_⟩
  obtain ⟨e, he, hs, x, hx, hg⟩ := h3 i hi hj
  obtain ⟨hfile, f, -, hf, -⟩ := archived i hi hj e he hs
  refine ⟨e, he, hs, f, x, hf, hx, ?_⟩
  rw [← started.same]
  exact (started.place ran hf hfile).2 _ _ _ hg

/-- C92.  The same through servers: every place belongs to a server that was started after the process that archived there had
flushed. -/
theorem C92_archived_forwarded_partial (a : String × Int → Archive) (E : ExtEnv) (C : EngineConf) (peer : String × Int → Node)
    (wire : Relays E peer) (ran : ∀ e ∈ C.servers, (a e.2).Ran) (started : ∀ e ∈ C.servers, (peer e.2).StartedAfter (a e.2))
    (sched : List Nat) (rs : List PathReq) (nonempty : rs ≠ []) (remote : ∀ q ∈ rs, q.host ≠ "" ∨ q.port ≠ 0)
    (fit : ∀ q ∈ rs, ∀ i ∈ q.ranges, i.b < 2 ^ 64 ∧ i.e < 2 ^ 64)
    (place : ∀ a ∈ rs, ∀ b ∈ rs, a.path = b.path → a.scheme = b.scheme ∧ a.host = b.host ∧ a.port = b.port)
    (different : (rs.map PathReq.text).Nodup)
    (archived : ∀ r ∈ rs, ∃ server f x, C.servers.find (r.host, r.port) = some server ∧ (a server).Flushed f r.path r.offset ∧
      (peer server).Reads f r.ranges r.gridHash x) :
    ∃ out, localExtractPaths E C sched rs = .ok out ∧ out.length = rs.length ∧
      ∀ (i : Nat) r, rs[i]? = some r → ∀ server f, C.servers.find (r.host, r.port) = some server →
        (a server).Flushed f r.path r.offset → ∃ x, out[i]? = some x ∧ messageExtract (a server).reader f.data 0 r.ranges = .ok x := by
  have here : ∀ {k : String × Int} {server : String × Int}, C.servers.find k = some server →
      (a server).Ran ∧ (peer server).StartedAfter (a server) :=
    fun h => ⟨ran _ (find_some_mem h), started _ (find_some_mem h)⟩
  obtain ⟨out, h1, h2, h3⟩ := C87_forwarded_path_request_succeeds_partial E C peer wire
    (fun server p o => ∃ f, (a server).Flushed f p o) (fun e he => (started e he).scanned (ran e he)) sched rs nonempty remote fit place
    different (fun r hr => by
      obtain ⟨server, f, x, hs, hf, hx⟩ := archived r hr
      refine ⟨fun server' hs' => ?_, x, server, hs, ?_⟩
      · rw [hs] at hs'
        cases hs'
        exact ⟨f, hf⟩
      · exact ((here hs).2.place (here hs).1 (u := ⟨"file", r.host, r.port, r.path, r.offset⟩) hf
        (show "file" ≠ "fdb" by decide)).1 _ _ _ hx)
  refine ⟨out, h1, h2, fun i r hr server f hs hf => ?_⟩
  obtain ⟨x, hx, server', hs', hg⟩ := h3 i r hr
  rw [show C.servers.find (r.host, r.port) = some server from hs] at hs'
  cases hs'
  refine ⟨x, hx, ?_⟩
  rw [← (here hs).2.same]
  exact ((here hs).2.place (here hs).1 (u := ⟨"file", r.host, r.port, r.path, r.offset⟩) hf
    (show "file" ≠ "fdb" by decide)).2 _ _ _ hg

/-! ## A case -/

/-- A message of the toy format that begins with `GRIB`: its second byte is the number of values that follow. -/
def c92Message (v : UInt8) : List UInt8 := [0x47, 0x52, 0x49, 0x42] ++ List.replicate 80 v

def c92Field (v : UInt8) (o : Nat) : ArchField := ⟨[(['c'], ['o', 'd'])], c92Message v, some ("/fdb/a.data", o)⟩

/-- Three fields are archived, the thread of the plugin indexes them, and a flush returns; a fourth is archived and not flushed. -/
def c92Before : List PlugEv :=
  [.archive 0 (c92Field 5 0), .take 0, .archive 0 (c92Field 6 84), .store 0, .archive 0 (c92Field 8 168), .close 0, .take 0, .store 0,
   .take 0, .store 0, .quit 0]

def c92Events : List PlugEv := c92Before ++ [.finish 0, .archive 0 (c92Field 7 252)]

def c92Env : PlugEnv := ⟨fun _ => true, fun p v => p == v, .error (.exn .userError), fun data => buildInfo toyReader data 0⟩

def c92From : PlugSys := PlugSys.start c33Sel .shadow true 4 []

def c92To (evs : List PlugEv) : PlugSys := ((c92From.run c92Env evs).toOption).getD c92From

theorem c92_run (evs : List PlugEv) (h : (c92From.run c92Env evs).toOption.isSome = true) : c92From.run c92Env evs = .ok (c92To evs) := by
  unfold c92To
  cases hr : c92From.run c92Env evs with
  | error e => rw [hr] at h; cases h
  | ok s => rfl

def c92Archiving : Archive :=
  ⟨toyReader, fun _ => true, fun p v => p == v, .exn .userError, c33Sel, .shadow, true, 4, [], fun _ => [], c92Events, c92To c92Events⟩

theorem c92_ran : c92Archiving.Ran where
  indexes ip := .inl ⟨rfl, rfl⟩
  run := c92_run c92Events (by decide +kernel)
  keys := by
    have : ((c92To c92Events).archived.all fun x => decide (AMap.keys x.2.key).Nodup) = true := by decide +kernel
    intro x hx
    exact of_decide_eq_true (List.all_eq_true.mp this x hx)

theorem c92_selected (v : UInt8) (o : Nat) : SelectedGrib c92Archiving.rx c92Archiving.sel (c92Field v o) := by
  refine ⟨⟨by decide, ?_⟩, rfl⟩
  intro p hp
  have : p = (['c'], ['o', 'd']) := by simpa [c92Archiving, c33Sel] using hp
  subst this
  exact ⟨['o', 'd'], by simp [c92Field], by decide⟩

theorem c92_step : (c92To c92Before).step c92Env (.finish 0) = .ok (c92To (c92Before ++ [.finish 0])) := by
  have h1 := c92_run (c92Before ++ [.finish 0]) (by decide +kernel)
  rw [plugRun_append, c92_run c92Before (by decide +kernel), ok_bind] at h1
  have h2 : ((c92To c92Before).step c92Env (.finish 0) >>= fun s => .ok s) = .ok (c92To (c92Before ++ [.finish 0])) := h1
  cases hs : (c92To c92Before).step c92Env (.finish 0) with
  | error e => rw [hs] at h2; cases h2
  | ok s => rw [hs] at h2; exact h2

theorem c92_archived : (c92To (c92Before ++ [.finish 0])).archived = [(0, c92Field 5 0), (0, c92Field 6 84), (0, c92Field 8 168)] := by rfl

theorem c92_flushed {v : UInt8} {o : Nat} (h : (0, c92Field v o) ∈ [(0, c92Field 5 0), (0, c92Field 6 84), (0, c92Field 8 168)]) :
    c92Archiving.Flushed (c92Field v o) "/fdb/a.data" o := by
  refine ⟨rfl, c92_selected v o, 0, c92Before, [.archive 0 (c92Field 7 252)], _, _, rfl, c92_run c92Before (by decide +kernel), c92_step,
    by rfl, ?_⟩
  rw [c92_archived]
  exact h

/-- The file on disk when the other process starts: the three flushed messages and the fourth, which was written too. -/
def c92Disk : Disk := fun f => if f = "/fdb/a.data" then some (c92Message 5 ++ (c92Message 6 ++ (c92Message 8 ++ c92Message 7))) else none

def c92Header : Header := (toyParse (c92Message 0)).getD (constHeader)

theorem c92_good (v : UInt8) : GoodMessage toyReader (c92Message v) c92Header := by
  have hl : ([0x49, 0x42] ++ List.replicate 80 v).length = 82 := rfl
  refine ⟨fun post => ?_, Nat.le_refl 84, fun hb => (by cases hb)⟩
  show toyParse (0x47 :: 0x52 :: (([0x49, 0x42] ++ List.replicate 80 v) ++ post)) = _
  rw [toyParse, if_pos (by rw [List.length_append, hl]; exact Nat.le_add_right ..)]
  rfl

theorem c92_onDisk : c92Archiving.OnDisk oneFile c92Disk where
  stored := by
    intro x hx _ p o hl
    have hx' : x ∈ [(0, c92Field 5 0), (0, c92Field 6 84), (0, c92Field 8 168), (0, c92Field 7 252)] := hx
    simp only [List.mem_cons, List.mem_nil_iff, or_false] at hx'
    rcases hx' with rfl | rfl | rfl | rfl <;> cases hl
    · exact ⟨rfl, _, _, rfl, ⟨[], c92Message 6 ++ (c92Message 8 ++ c92Message 7), rfl, rfl⟩, c92_good 5⟩
    · exact ⟨rfl, _, _, rfl, ⟨c92Message 5, c92Message 8 ++ c92Message 7, rfl, rfl⟩, c92_good 6⟩
    · exact ⟨rfl, _, _, rfl, ⟨c92Message 5 ++ c92Message 6, c92Message 7, by simp [c92Field], by decide +kernel⟩, c92_good 8⟩
    · exact ⟨rfl, _, _, rfl, ⟨c92Message 5 ++ (c92Message 6 ++ c92Message 8), [], by simp [c92Field], by decide +kernel⟩, c92_good 7⟩
  before p _ x hx := by cases hx

def c92Cat : List (FdbKey × Uri) :=
  [(c27Key "0", ⟨"file", "", 0, "/fdb/a.data", 168⟩), (c27Key "12", ⟨"file", "", 0, "/fdb/a.data", 0⟩),
   (c27Key "6", ⟨"file", "", 0, "/fdb/a.data", 84⟩)]

/-- It does not build metadata on demand. -/
def c92Start : Svc UInt64 := Svc.start toyReader (fun _ => .ok [0, 84, 168, 252]) c92Disk .shadow false 16 (c92To c92Events).c.fs

def c92Node : Node :=
  busyNode c50Conf toyReader (fun _ => .ok [0, 84, 168, 252]) oneFile c50Store c92Start (fun _ => .ok c92Cat) "/fdb/a.data" [0x47, 1, 9]

theorem c92_started : c92Node.StartedAfter c92Archiving where
  same := rfl
  reader := toySound
  offs _ h := by cases h
  began := ⟨c92Disk, false, 16, [], c92_onDisk, oneFile_apart, by decide, (fun _ h => by cases h), (fun _ h => by cases h), rfl⟩
  infos t f os hf := by
    have g : SvcGood toyReader (fun _ => .ok [0, 84, 168, 252]) oneFile c92Start :=
      SvcGood.start (lazy := false) (fun _ h => by cases h) oneFile_apart (by decide) (C92_index_right c92_ran c92_onDisk oneFile_apart _)
    obtain ⟨h1, s', h2, h3, h4⟩ := answerNow_run toySound (fun _ h => by cases h) g f hf os
    refine ⟨_, s', h1, ?_, h2, by rw [h3]; exact Disk.append_before _ _ _, h4⟩
    intro e he g p o _
    simp only [List.mem_cons, List.mem_nil_iff, or_false] at he
    rcases he with rfl | rfl <;> trivial
  jump t f o i is := by
    refine ⟨if t % 2 = 0 then c92Start.disk else c92Start.disk.append "/fdb/a.data" [0x47, 1, 9], ?_, ?_, rfl⟩
    · split
      · exact Disk.Before.refl _
      · exact Disk.append_before _ _ _
    · split
      · exact Disk.append_before _ _ _
      · exact Disk.Before.refl _
  fetch t u is := rfl

/-- Requests for two of the flushed messages. -/
def c92Reqs : List PathReq :=
  [⟨"/fdb/a.data", "file", 84, "", 0, [⟨1, 3⟩], "g"⟩, ⟨"/fdb/a.data", "file", 0, "", 0, [⟨0, 1⟩, ⟨80, 82⟩], "g"⟩]

/-- Non-vacuity of `C92_archived_paths_partial`. -/
example : c92Archiving.Ran ∧ c92Node.StartedAfter c92Archiving ∧ (c92Reqs.map PathReq.text).Nodup ∧
    (∀ r ∈ c92Reqs, r.scheme ≠ "fdb" ∧ ∃ f x, c92Archiving.Flushed f r.path r.offset ∧ c92Node.Reads f r.ranges r.gridHash x) ∧
    localExtractPaths c92Node.env c92Node.conf [0, 0] c92Reqs = .ok [⟨[[0x42, 6]], [[3]]⟩, ⟨[[0x49], [5, 5]], [[1], [3]]⟩] := by
  refine ⟨c92_ran, c92_started, by decide +kernel, ?_, by decide +kernel⟩
  intro r hr
  simp only [c92Reqs, List.mem_cons, List.mem_nil_iff, or_false] at hr
  rcases hr with rfl | rfl
  · exact ⟨by decide, c92Field 6 84, ⟨[[0x42, 6]], [[3]]⟩, c92_flushed (by simp), by decide +kernel, .inr ⟨c92Header, by rfl, by decide +kernel⟩⟩
  · exact ⟨by decide, c92Field 5 0, ⟨[[0x49], [5, 5]], [[1], [3]]⟩, c92_flushed (by simp), by decide +kernel,
      .inr ⟨c92Header, by rfl, by decide +kernel⟩⟩

/-- Non-vacuity of `C92_archived_fields_partial`. -/
example : Catalogue c92Node.conf.ignoreYearMonth c92Cat ∧ ListsOnly c92Node.env c92Cat ∧
    ListsAll c92Node.conf.ignoreYearMonth c92Node.env c92Cat ∧
    (∀ a ∈ c92Cat, ∀ b ∈ c92Cat, a.2.path = b.2.path → a.2.offset = b.2.offset → a = b) ∧ Written c50Reqs c27Written ∧
    (∀ i (_ : i < c50Reqs.length) (hj : i < c27Written.length), ∃ e ∈ c92Cat, SameField true c27Written[i].pairs e.1 ∧ True) ∧
    (∀ r ∈ c50Reqs, ∀ e ∈ c92Cat, e.2.scheme ≠ "fdb" ∧
      ∃ f x, c92Archiving.Flushed f e.2.path e.2.offset ∧ c92Node.Reads f r.ranges r.gridHash x) ∧
    localExtract c92Node.env c92Node.conf [1, 0, 1, 0, 0, 1] c50Reqs =
      .ok [⟨[[0x49, 0x42, 6, 6]], [[15]]⟩, ⟨[[0x42], [5, 5]], [[1], [3]]⟩, ⟨[[0x49, 0x42]], [[3]]⟩] := by
  refine ⟨catalogue_of (by decide +kernel) (by decide +kernel) (by decide +kernel), ?_, fun u => ⟨c92Cat, rfl, fun e he _ => he⟩,
    by decide +kernel, ⟨by decide +kernel, c27_written.2⟩, c69_at (p := fun _ _ _ _ => True) rfl trivial trivial trivial, ?_,
    by decide +kernel⟩
  · intro u L h
    have := Except.ok.inj h
    subst this
    exact ⟨fun e he => he, by decide +kernel⟩
  · have one : ∀ r ∈ c50Reqs, ∀ v ∈ [(5 : UInt8), 6, 8], ∃ x, c92Node.Reads (c92Field v 0) r.ranges r.gridHash x := by
      intro r hr v hv
      have h1 : (c50Reqs.all fun r => [(5 : UInt8), 6, 8].all fun v =>
          (messageExtract toyReader (c92Message v) 0 r.ranges).toOption.isSome) = true := by decide +kernel
      have h2 : (c50Reqs.all fun r => decide (r.gridHash = "g")) = true := by decide +kernel
      have h3 := List.all_eq_true.mp (List.all_eq_true.mp h1 r hr) v hv
      have h4 := of_decide_eq_true (List.all_eq_true.mp h2 r hr)
      cases hm : messageExtract toyReader (c92Message v) 0 r.ranges with
      | error e => rw [hm] at h3; cases h3
      | ok x => exact ⟨x, hm, .inr ⟨c92Header, rfl, by rw [h4]; decide, by rw [h4]; rfl⟩⟩
    intro r hr e he
    simp only [c92Cat, List.mem_cons, List.mem_nil_iff, or_false] at he
    rcases he with rfl | rfl | rfl
    · obtain ⟨x, hx⟩ := one r hr 8 (by simp)
      exact ⟨by decide +kernel, c92Field 8 168, x, c92_flushed (by simp), hx⟩
    · obtain ⟨x, hx⟩ := one r hr 5 (by simp)
      exact ⟨by decide +kernel, c92Field 5 0, x, c92_flushed (by simp), hx⟩
    · obtain ⟨x, hx⟩ := one r hr 6 (by simp)
      exact ⟨by decide +kernel, c92Field 6 84, x, c92_flushed (by simp), hx⟩

/-- The fourth message was archived, but no flush returned after it: without building metadata on demand the request is refused. -/
theorem C92_unflushed_refused :
    (0, c92Field 7 252) ∈ c92Archiving.final.archived ∧
    localExtractPaths c92Node.env c92Node.conf [0] [⟨"/fdb/a.data", "file", 252, "", 0, [⟨0, 1⟩], "g"⟩] = throwExn .seriousBug := by
  exact ⟨.tail _ (.tail _ (.tail _ (.head _))), by decide +kernel⟩

end GJ
