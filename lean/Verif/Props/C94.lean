import Verif.Props.C87

/-!
# C94: running processes see what others index

A process keeps metadata it found in memory, but not that it found none; and it reads index files whenever something is
missing.  So what another process writes to an index file is served by processes that were already running, without a
restart, also to lookups that had begun before, and to clients that were refused before.
-/

namespace GJ
open Spec

/-- After a process wrote entries of a message, and no later write of the same step leaves it out, the index has it. -/
theorem entry_written {W : World} {U : String → Prop} {mode : CacheMode} (hU : ToldApart mode U) (append : Bool) {path : String}
    {o : Nat} : ∀ (ws : List (String × List Nat)) (fs fs' : FS), (∀ x ∈ ws, U x.1) → GoodIndex W U mode fs →
      (append = true ∨ ∀ x ∈ ws, mode.indexPath x.1 = mode.indexPath path → o ∈ x.2) →
      (∃ x ∈ ws, mode.indexPath x.1 = mode.indexPath path ∧ o ∈ x.2 ∧ ∃ is, extractInfos W x.1 x.2 = .ok is) →
      writtenElsewhere W mode append fs ws = .ok fs' → Entry fs' (mode.indexPath path) o := by
  intro ws
  induction ws with
  | nil => intro fs fs' _ _ _ h _; obtain ⟨x, hx, -⟩ := h; cases hx
  | cons x ws ih =>
    intro fs fs' hw hg hk h hf
    obtain ⟨p, os⟩ := x
    have hp : U p := hw (p, os) List.mem_cons_self
    have hrest : ∀ y ∈ ws, U y.1 := fun y hy => hw y (List.mem_cons_of_mem _ hy)
    have hk' : append = true ∨ ∀ x ∈ ws, mode.indexPath x.1 = mode.indexPath path → o ∈ x.2 := by
      rcases hk with hk | hk
      · exact .inl hk
      · exact .inr fun y hy => hk y (List.mem_cons_of_mem _ hy)
    rw [writtenElsewhere] at hf
    cases hx : extractInfos W p os with
    | error e =>
      rw [hx] at hf
      obtain ⟨y, hy, h1, h2, is, h3⟩ := h
      rcases List.mem_cons.mp hy with rfl | hy
      · rw [hx] at h3; cases h3
      · exact ih fs fs' hrest hg hk' ⟨y, hy, h1, h2, is, h3⟩ hf
    | ok is =>
      rw [hx] at hf
      simp only at hf
      obtain ⟨fs1, h1, h2⟩ := res_bind_inv hf
      have hm : GoodMap W p (noNull (os.zip is)) := ⟨_, rfl, extractInfos_zip hx⟩
      have h1 : flushIndex append fs (mode.indexPath p) (noNull (os.zip is)) = .ok fs1 := h1
      rw [flushIndex] at h1
      have good : GoodIndex W U mode fs1 := by
        split at h1
        · obtain ⟨fs2, h3, h4⟩ := appendIndex_good hU hg hp hm
          rw [h3] at h1
          obtain rfl := Except.ok.inj h1
          exact h4
        · obtain ⟨fs2, h3, h4⟩ := writeIndex_good hU hg hp hm
          rw [h3] at h1
          obtain rfl := Except.ok.inj h1
          exact h4
      obtain ⟨y, hy, e1, e2, is', e3⟩ := h
      rcases List.mem_cons.mp hy with rfl | hy
      · refine entry_elsewhere hU append ws fs1 fs' hrest good hk' ?_ h2
        split at h1
        · obtain ⟨old, ho, -⟩ := hg p hp
          exact entry_append ho (.inr ⟨e1, zip_find hx e2⟩) h1
        · exact entry_write (fun e => absurd e1 e) (fun _ => zip_find hx e2) h1
      · exact ih fs1 fs' hrest good hk' ⟨y, hy, e1, e2, is', e3⟩ h2

/-- Another process writes the metadata of these messages of this file to the index, all of them readable by then; what else it
writes in the same step does not leave them out. -/
structure Tells (R : Reader UInt64) (offs : List UInt8 → Res (List Nat)) (mode : CacheMode) (d : Disk) (append : Bool)
    (ws : List (String × List Nat)) (path : String) (os : List Nat) : Prop where
  mem : (path, os) ∈ ws
  readable : ∃ is, extractInfos (diskWorld R offs d) path os = .ok is
  whole : append = true ∨ ∀ x ∈ ws, mode.indexPath x.1 = mode.indexPath path → ∀ o ∈ os, o ∈ x.2

theorem Tells.kept {R : Reader UInt64} {offs : List UInt8 → Res (List Nat)} {U : String → Prop} {s s' : Svc UInt64} {append : Bool}
    {ws : List (String × List Nat)} {path : String} {os : List Nat} (g : SvcGood R offs U s) (hU : ∀ x ∈ ws, U x.1)
    (h : Tells R offs s.sys.c.mode s.disk append ws path os) (idle : ¬ s.sys.Scanning path)
    (run : s.step R offs (.cache (.elsewhere append ws)) = .ok s') : ∀ o ∈ os, KeptEntry s'.sys path o := by
  intro o ho
  rw [Svc.step] at run
  obtain ⟨y, hy, run⟩ := res_bind_inv run
  cases run
  obtain ⟨fs, hf, h2⟩ := res_bind_inv hy
  cases h2
  obtain ⟨is, his⟩ := h.readable
  rw [← g.world] at his
  refine ⟨indexed_iff.mpr ?_, fun x hx e => absurd ⟨x, hx, e⟩ idle⟩
  refine entry_written g.cache.sep append ws s.sys.c.fs fs hU g.cache.index ?_ ⟨_, h.mem, rfl, ho, is, his⟩ hf
  rcases h.whole with hw | hw
  · exact .inl hw
  · exact .inr fun x hx e => hw x hx e o ho

/-- C94.  A process over index files that agree with the data, building metadata on demand or not; any history, with lookups under
way or refused.  Then another process writes the metadata of messages of a file to its index, while this process is not scanning
that file itself.  From then on every lookup of those messages that ends, whenever it began, is answered, with their metadata,
whatever goes on, as long as flushes append and other processes append, or rewrite the index with these messages.  Missing from the
full property: scans of the file under way here (`C94_scan_under_way_refused`), and file names the cache confuses. -/
theorem C94_indexed_elsewhere_served_partial {R : Reader UInt64} {offs : List UInt8 → Res (List Nat)} (sound : SoundReader R)
    (hoffs : ∀ file, offs file ≠ undef) {U : String → Prop} (d : Disk) (mode : CacheMode) (lazy : Bool) (cap : Nat) (fs : FS)
    (apart : ToldApart mode U) (room : 0 < cap) (agree : GoodIndex (diskWorld R offs d) U mode fs)
    (path : String) (os : List Nat) (before after : List SEv) (append : Bool) (ws : List (String × List Nat))
    (s0 s1 s2 : Svc UInt64)
    (allowed : ∀ e ∈ before ++ .cache (.elsewhere append ws) :: after, e.Allowed U)
    (run0 : (Svc.start R offs d mode lazy cap fs).run R offs before = .ok s0) (idle : ¬ s0.sys.Scanning path)
    (told : Tells R offs mode s0.disk append ws path os)
    (run1 : s0.step R offs (.cache (.elsewhere append ws)) = .ok s1) (run2 : s1.run R offs after = .ok s2)
    (keeps : ∀ e ∈ after, ∀ o ∈ os, e.Keeps mode path o) :
    (∀ o ∈ os, KeptEntry s2.sys path o) ∧
    ∀ a ∈ s2.sys.answers.drop s1.sys.answers.length, a.path = path → a.offsets.Nodup → (∀ o ∈ a.offsets, o ∈ os) →
      ∃ is, a.result = .ok is ∧ extractInfos (diskWorld R offs s2.disk) path a.offsets = .ok is := by
  have hstart : SvcGood R offs U (Svc.start R offs d mode lazy cap fs) := SvcGood.start hoffs apart room agree
  obtain ⟨g0, m0, -⟩ := Svc.run_keeps sound hoffs (P := fun _ => True) (Q := fun _ => True) (mode := mode) (fun _ _ _ => trivial)
    (fun _ _ _ _ _ _ _ _ _ => trivial) before hstart rfl trivial (fun e he => allowed e (by simp [he])) (fun _ _ => trivial) run0
  have aws : SEv.Allowed U (.cache (.elsewhere append ws)) := allowed _ (by simp)
  obtain ⟨s1', h1', g1⟩ := g0.step sound hoffs _ aws
  rw [run1] at h1'
  cases h1'
  have m1 : s1.sys.c.mode = mode := by
    have run1' := run1
    rw [Svc.step] at run1'
    obtain ⟨y, hy, h⟩ := res_bind_inv run1'
    cases h
    exact (Sys.step_mode hy).1.trans m0
  have k1 := Tells.kept g0 aws (by rw [m0]; exact told) idle run1
  obtain ⟨g2, k2, new, hn, hsv⟩ := Svc.run_serves sound hoffs (K := fun p o => p = path ∧ o ∈ os) after g1
    (fun p o h => by obtain ⟨rfl, ho⟩ := h; exact k1 o ho) (fun e he => allowed e (by simp [he]))
    (fun e he p o h => by obtain ⟨rfl, ho⟩ := h; rw [m1]; exact keeps e he o ho) run2
  refine ⟨fun o ho => k2 path o ⟨rfl, ho⟩, fun a ha hp hnd hos => ?_⟩
  have ha' := ha
  rw [hn, List.drop_left] at ha'
  obtain ⟨is, his⟩ := hsv a ha' hnd fun o ho => ⟨hp, hos o ho⟩
  refine ⟨is, his, ?_⟩
  rw [← hp, ← g2.world]
  exact g2.cache.answers a (List.mem_of_mem_drop ha) is his

/-! ## Calls -/

/-- A node that was already running when another process wrote the metadata of messages, of possibly many files, to their indexes.
`K` says which.  During the call anything goes on that leaves the entries there. -/
structure Node.Told (n : Node) (K : String → Nat → Prop) : Prop where
  reader : SoundReader n.reader
  offs : ∀ file, n.offs file ≠ undef
  began : ∃ d mode lazy cap fs before s0 append ws s1 after, ToldApart mode n.names ∧ 0 < cap ∧
    GoodIndex (diskWorld n.reader n.offs d) n.names mode fs ∧
    (∀ e ∈ before ++ .cache (.elsewhere append ws) :: after, SEv.Allowed n.names e) ∧
    (Svc.start n.reader n.offs d mode lazy cap fs).run n.reader n.offs before = .ok s0 ∧
    s0.step n.reader n.offs (.cache (.elsewhere append ws)) = .ok s1 ∧ s1.run n.reader n.offs after = .ok n.start ∧
    (∀ e ∈ after, ∀ p o, K p o → e.Keeps mode p o) ∧
    ∀ p o, K p o → ¬ s0.sys.Scanning p ∧ ∃ os, o ∈ os ∧ (∀ o' ∈ os, K p o') ∧ Tells n.reader n.offs mode s0.disk append ws p os
  infos : ∀ t f os, n.names f → ∃ es s, (∀ e ∈ es, SEv.Allowed n.names e) ∧
    (∀ e ∈ es, ∀ p o, K p o → e.Keeps n.start.sys.c.mode p o) ∧
    n.start.run n.reader n.offs es = .ok s ∧ s.disk.Before n.later ∧
    (⟨f, os, n.env.infos t f os⟩ : Answer) ∈ s.sys.answers.drop n.start.sys.answers.length
  jump : ∀ t f o i is, ∃ d : Disk, n.start.disk.Before d ∧ d.Before n.later ∧
    n.env.jump t f o i is = diskJump n.reader d f o i is
  fetch : ∀ t u is, n.env.fetch t u is = slowExtract n.reader n.store u is

theorem Node.Told.scanned {n : Node} {K : String → Nat → Prop} (h : n.Told K) : n.Scanned K := by
  obtain ⟨d, mode, lazy, cap, fs, before, s0, append, ws, s1, after, h1, h2, h3, h4, h5, h6, h7, h8, h9⟩ := h.began
  refine {
    reader := h.reader
    offs := h.offs
    began := ⟨d, mode, lazy, cap, fs, before ++ .cache (.elsewhere append ws) :: after, h1, h2, h3, h4, ?_⟩
    indexed := ?_
    infos := h.infos
    jump := h.jump
    fetch := h.fetch }
  · rw [Svc.run_append, h5, ok_bind, Svc.run, h6]
    exact h7
  · intro p o hpo
    obtain ⟨g1, os, g2, g3, g4⟩ := h9 p o hpo
    exact (C94_indexed_elsewhere_served_partial h.reader h.offs d mode lazy cap fs h1 h2 h3 p os before after append ws s0 s1 n.start
      h4 h5 g1 g4 h6 h7 (fun e he o' ho' => h8 e he p o' (g3 o' ho'))).1 o g2

/-- C94.  Requests by place on such a node succeed, in every schedule, with the values of the messages. -/
theorem C94_running_paths_partial (n : Node) (K : String → Nat → Prop) (told : n.Told K) (sched : List Nat)
    (rs : List PathReq) (nonempty : rs ≠ []) (here : ∀ r ∈ rs, r.host = "" ∧ r.port = 0)
    (place : ∀ a ∈ rs, ∀ b ∈ rs, a.path = b.path → a.scheme = b.scheme) (different : (rs.map PathReq.text).Nodup)
    (found : ∀ r ∈ rs, (r.scheme ≠ "fdb" → K r.path r.offset) ∧
      ∃ x, n.Gives ⟨r.scheme, r.host, r.port, r.path, r.offset⟩ r.ranges r.gridHash x) :
    ∃ out, localExtractPaths n.env n.conf sched rs = .ok out ∧ out.length = rs.length ∧
      ∀ (i : Nat) r, rs[i]? = some r →
        ∃ x, out[i]? = some x ∧ n.Gives ⟨r.scheme, r.host, r.port, r.path, r.offset⟩ r.ranges r.gridHash x :=
  C87_scanned_path_request_succeeds_partial n K told.scanned sched rs nonempty here place different found

/-- C94.  Requests by field on such a node succeed, in every schedule, with the values of the fields. -/
theorem C94_running_fields_partial (n : Node) (K : String → Nat → Prop) (told : n.Told K)
    (here : n.conf.forward = false) (cat : List (FdbKey × Uri))
    (catalogue : Catalogue n.conf.ignoreYearMonth cat) (lists : ListsOnly n.env cat)
    (complete : ListsAll n.conf.ignoreYearMonth n.env cat)
    (places : ∀ a ∈ cat, ∀ b ∈ cat, a.2.path = b.2.path → a.2.offset = b.2.offset → a = b) (sched : List Nat)
    (rs : List ExRequest) (ws : List WrittenRequest) (written : Written rs ws) (nonempty : rs ≠ [])
    (different : ws.Pairwise fun a b =>
      ¬ (essential n.conf.ignoreYearMonth a.pairs).Perm (essential n.conf.ignoreYearMonth b.pairs))
    (sameKeywords : ∀ a ∈ ws, ∀ b ∈ ws, ∀ k, k ∈ (essential n.conf.ignoreYearMonth a.pairs).map Prod.fst →
      k ∈ (essential n.conf.ignoreYearMonth b.pairs).map Prod.fst)
    (found : ∀ i (hi : i < rs.length) (hj : i < ws.length), ∃ e ∈ cat,
      SameField n.conf.ignoreYearMonth ws[i].pairs e.1 ∧ (e.2.scheme ≠ "fdb" → K e.2.path e.2.offset) ∧
        ∃ r, n.Gives e.2 rs[i].ranges rs[i].gridHash r) :
    ∃ out, localExtract n.env n.conf sched rs = .ok out ∧ out.length = rs.length ∧
      ∀ i (hi : i < rs.length) (hj : i < ws.length), ∃ e ∈ cat, SameField n.conf.ignoreYearMonth ws[i].pairs e.1 ∧
        ∃ r, out[i]? = some r ∧ n.Gives e.2 rs[i].ranges rs[i].gridHash r :=
  C87_scanned_request_succeeds_partial n K told.scanned here cat catalogue lists complete places sched rs ws written nonempty different
    sameKeywords found

/-- C94.  Requests by place through servers that were all running when others wrote to their indexes. -/
theorem C94_running_forwarded_partial (E : ExtEnv) (C : EngineConf) (peer : String × Int → Node)
    (wire : Relays E peer) (K : String × Int → String → Nat → Prop) (told : ∀ e ∈ C.servers, (peer e.2).Told (K e.2))
    (sched : List Nat) (rs : List PathReq) (nonempty : rs ≠ []) (remote : ∀ q ∈ rs, q.host ≠ "" ∨ q.port ≠ 0)
    (fit : ∀ q ∈ rs, ∀ i ∈ q.ranges, i.b < 2 ^ 64 ∧ i.e < 2 ^ 64)
    (place : ∀ a ∈ rs, ∀ b ∈ rs, a.path = b.path → a.scheme = b.scheme ∧ a.host = b.host ∧ a.port = b.port)
    (different : (rs.map PathReq.text).Nodup)
    (found : ∀ r ∈ rs, (∀ server, C.servers.find (r.host, r.port) = some server → K server r.path r.offset) ∧
      ∃ x, Answering C peer ⟨r.scheme, r.host, r.port, r.path, r.offset⟩ r.ranges r.gridHash x) :
    ∃ out, localExtractPaths E C sched rs = .ok out ∧ out.length = rs.length ∧
      ∀ (i : Nat) r, rs[i]? = some r → ∃ x, out[i]? = some x ∧
        Answering C peer ⟨r.scheme, r.host, r.port, r.path, r.offset⟩ r.ranges r.gridHash x :=
  C87_forwarded_path_request_succeeds_partial E C peer wire K (fun e he => (told e he).scanned) sched rs nonempty remote fit place
    different found

/-! ## Cases -/

/-- A client is refused, another lookup begins, then the other process appends; both are served afterwards, also after the
memory was cleared. -/
def c94Before : List SEv :=
  [.cache (.lookup "/fdb/a.data" [6]), .cache (.answer 0), .cache (.lookup "/fdb/a.data" [0, 6])]

def c94Write : SEv := .cache (.elsewhere true [("/fdb/a.data", [0, 6])])

def c94After : List SEv :=
  [.cache (.answer 0), .cache .clear, .cache (.lookup "/fdb/a.data" [6]), .cache (.answer 0)]

example : ((c87After (c94Before ++ c94Write :: c94After)).sys.answers.map fun a =>
    (a.path, a.offsets, a.result.toOption.map List.length)) =
    [("/fdb/a.data", [6], none), ("/fdb/a.data", [0, 6], some 2), ("/fdb/a.data", [6], some 1)] ∧
    c87Start.sys.c.lazy = false := by
  exact ⟨by decide +kernel, by decide +kernel⟩

theorem c94_told : Tells toyReader (fun _ => .ok [0, 6]) .shadow (c87After c94Before).disk true [("/fdb/a.data", [0, 6])]
    "/fdb/a.data" [0, 6] := by
  refine ⟨List.mem_cons_self, ?_, .inl rfl⟩
  have : (extractInfos (diskWorld toyReader (fun _ => .ok [0, 6]) (c87After c94Before).disk) "/fdb/a.data" [0, 6]).toOption.isSome = true := by
    decide +kernel
  cases h : extractInfos (diskWorld toyReader (fun _ => .ok [0, 6]) (c87After c94Before).disk) "/fdb/a.data" [0, 6] with
  | error e => rw [h] at this; cases this
  | ok is => exact ⟨is, rfl⟩

theorem c94_idle : ¬ (c87After c94Before).sys.Scanning "/fdb/a.data" := by
  rintro ⟨x, hx, -⟩
  have : (c87After c94Before).sys.scans.length = 0 := by decide +kernel
  rw [List.eq_nil_of_length_eq_zero this] at hx
  cases hx

theorem c94_allowed : ∀ e ∈ c94Before ++ c94Write :: c94After, e.Allowed oneFile := by
  intro e he
  simp only [c94Before, c94Write, c94After, List.cons_append, List.nil_append, List.mem_cons, List.mem_nil_iff, or_false] at he
  rcases he with rfl | rfl | rfl | rfl | rfl | rfl | rfl | rfl <;> first | rfl | trivial | skip
  intro x hx
  rw [List.mem_singleton] at hx
  subst hx
  rfl

/-- Non-vacuity of `C94_indexed_elsewhere_served_partial`. -/
theorem c94_kept : ∀ o ∈ [0, 6], KeptEntry (c87After (c94Before ++ c94Write :: c94After)).sys "/fdb/a.data" o := by
  have r0 := c87_run c94Before (by decide +kernel)
  have r1 := c87_run (c94Before ++ [c94Write]) (by decide +kernel)
  have r2 := c87_run (c94Before ++ [c94Write] ++ c94After) (by decide +kernel)
  rw [Svc.run_append, r1] at r2
  rw [Svc.run_append, r0, ok_bind, Svc.run] at r1
  obtain ⟨s1, h1, h1'⟩ := res_bind_inv r1
  cases h1'
  have := (C94_indexed_elsewhere_served_partial toySound (fun _ h => by cases h) (U := oneFile) c87Disk .shadow false 16 [] oneFile_apart
    (by decide) c87_agree "/fdb/a.data" [0, 6] c94Before c94After true [("/fdb/a.data", [0, 6])] _ _ _ c94_allowed r0 c94_idle c94_told
    h1 r2 (by
      intro e he o _
      simp only [c94After, List.mem_cons, List.mem_nil_iff, or_false] at he
      rcases he with rfl | rfl | rfl | rfl <;> trivial)).1
  rw [List.append_assoc] at this
  exact this

/-- The node after all this. -/
def c94Node : Node :=
  busyNode c50Conf toyReader (fun _ => .ok [0, 6]) oneFile c50Store (c87After (c94Before ++ c94Write :: c94After)) (fun _ => .ok c50Cat)
    "/fdb/a.data" [0x47, 1, 9]

theorem c94_scanned : c94Node.Scanned c87Known :=
  busyNode_scanned toySound (fun _ h => by cases h) (d := c87Disk) (mode := .shadow) (lazy := false) (cap := 16) (fs := [])
    (es := c94Before ++ c94Write :: c94After) oneFile_apart (by decide) c87_agree c94_allowed (c87_run _ (by decide +kernel)) (by
      rintro p o ⟨rfl, ho⟩
      exact c94_kept o ho) _ _ _

/-- Non-vacuity of `C94_running_paths_partial`. -/
theorem c94_node : c94Node.Told c87Known where
  reader := c94_scanned.reader
  offs := c94_scanned.offs
  began := by
    have r0 := c87_run c94Before (by decide +kernel)
    have r1 := c87_run (c94Before ++ [c94Write]) (by decide +kernel)
    have r2 := c87_run (c94Before ++ [c94Write] ++ c94After) (by decide +kernel)
    rw [Svc.run_append, r1] at r2
    rw [Svc.run_append, r0, ok_bind, Svc.run] at r1
    obtain ⟨s1, h1, h1'⟩ := res_bind_inv r1
    cases h1'
    rw [List.append_assoc] at r2
    refine ⟨c87Disk, .shadow, false, 16, [], c94Before, _, true, [("/fdb/a.data", [0, 6])], _, c94After, oneFile_apart, by decide,
      c87_agree, c94_allowed, r0, h1, r2, ?_, ?_⟩
    · rintro e he p o -
      simp only [c94After, List.mem_cons, List.mem_nil_iff, or_false] at he
      rcases he with rfl | rfl | rfl | rfl <;> trivial
    · rintro p o ⟨rfl, ho⟩
      exact ⟨c94_idle, [0, 6], ho, fun o' ho' => ⟨rfl, ho'⟩, c94_told⟩
  infos := c94_scanned.infos
  jump := c94_scanned.jump
  fetch := c94_scanned.fetch

example : localExtractPaths c94Node.env c94Node.conf [0, 0] [⟨"/fdb/a.data", "file", 6, "", 0, [⟨0, 2⟩], "g"⟩] = .ok [⟨[[7, 8]], [[3]]⟩] ∧
    c94Node.start.sys.c.lazy = false := by
  exact ⟨by decide +kernel, by decide +kernel⟩

/-- Non-vacuity of `C94_running_fields_partial`. -/
example : c94Node.Told c87Known ∧ c94Node.conf.forward = false ∧ ListsOnly c94Node.env c50Cat ∧
    ListsAll c94Node.conf.ignoreYearMonth c94Node.env c50Cat ∧
    (∀ i (hi : i < c50Reqs.length) (hj : i < c27Written.length), ∃ e ∈ c50Cat, SameField true c27Written[i].pairs e.1 ∧
      (e.2.scheme ≠ "fdb" → c87Known e.2.path e.2.offset) ∧ ∃ r, c94Node.Gives e.2 c50Reqs[i].ranges c50Reqs[i].gridHash r) ∧
    localExtract c94Node.env c94Node.conf [1, 0, 1, 0, 0, 1] c50Reqs =
      .ok [⟨[[10, 11, 12, 13]], [[15]]⟩, ⟨[[11], [12, 13]], [[1], [3]]⟩, ⟨[[7, 8]], [[3]]⟩] := by
  refine ⟨c94_node, rfl, ?_, fun u => ⟨c50Cat, rfl, fun e he _ => he⟩, ?_, by decide +kernel⟩
  · intro u L h
    have := Except.ok.inj h
    subst this
    exact ⟨fun e he => he, by decide +kernel⟩
  · refine c69_at (p := fun i hi _ e => (e.2.scheme ≠ "fdb" → c87Known e.2.path e.2.offset) ∧
        ∃ r, c94Node.Gives e.2 c50Reqs[i].ranges c50Reqs[i].gridHash r) (cat := c50Cat) rfl ?_ ?_ ?_
    · refine ⟨fun h => absurd rfl h, ⟨[[10, 11, 12, 13]], [[15]]⟩, ?_⟩
      unfold Node.Gives
      rw [if_pos (by decide)]
      exact ⟨rfl, toyMessage, _, [some 100], rfl, rfl, ⟨100, [], rfl, by decide, fun a ha => by cases ha⟩, toyGood,
        by decide +kernel⟩
    · exact ⟨fun _ => ⟨rfl, by simp⟩, ⟨[[11], [12, 13]], [[1], [3]]⟩, c69_file (file := toyMessage ++ [0x47, 2, 7, 8])
        (h := (toyParse toyMessage).get (by decide))
        (by decide) rfl (by decide +kernel) (by decide +kernel) (by decide +kernel) (by decide +kernel)⟩
    · exact ⟨fun _ => ⟨rfl, by simp⟩, ⟨[[7, 8]], [[3]]⟩, c69_file (file := toyMessage ++ [0x47, 2, 7, 8])
        (h := (toyParse [0x47, 2, 7, 8]).get (by decide))
        (by decide) rfl (by decide +kernel) (by decide +kernel) (by decide +kernel) (by decide +kernel)⟩

/-- A front that asks that node. -/
def c94Front : ExtEnv :=
  { c52Env with forward := fun _ _ fm => remoteForwardExtract (nodeEngine c94Node.env c94Node.conf [0, 0, 0] (fun _ _ => throwExn .ioError)
      (fun _ _ => throwExn .ioError) (fun _ => throwExn .ioError)) "ctx" fm }

/-- Non-vacuity of `C94_running_forwarded_partial`. -/
example : Relays c94Front (fun _ => c94Node) ∧ (∀ e ∈ c52Conf.servers, ((fun _ => c94Node : String × Int → Node) e.2).Told c87Known) ∧
    Answering c52Conf (fun _ => c94Node) ⟨"file", "x", 1, "/fdb/a.data", 6⟩ [⟨0, 2⟩] "g" ⟨[[7, 8]], [[3]]⟩ ∧
    localExtractPaths c94Front c52Conf [] [⟨"/fdb/a.data", "file", 6, "x", 1, [⟨0, 2⟩], "g"⟩] = .ok [⟨[[7, 8]], [[3]]⟩] := by
  refine ⟨fun t server fm => ⟨"ctx", [0, 0, 0], _, _, _, rfl⟩, fun _ _ => c94_node, ⟨("gx", 9), by decide +kernel, ?_⟩, by decide +kernel⟩
  exact c69_file (file := toyMessage ++ [0x47, 2, 7, 8]) (h := (toyParse [0x47, 2, 7, 8]).get (by decide))
    (show "file" ≠ "fdb" by decide) rfl (by decide +kernel) (by decide +kernel) (by decide +kernel) (by decide +kernel)

/-- A scan of the file was under way here: it had read the index before the other process wrote, and writes back less. -/
def c94Race : List SEv :=
  [.cache (.scan "/fdb/a.data" [0]), .cache (.elsewhere true [("/fdb/a.data", [6])]), .cache (.commit 0),
   .cache (.lookup "/fdb/a.data" [6]), .cache (.answer 0)]

/-- C94, without the condition that the file is not being scanned here, fails: what the other process had written is gone. -/
theorem C94_scan_under_way_refused :
    (∀ e ∈ c94Race, e.Allowed oneFile) ∧ (∀ e ∈ c94Race, e.Keeps .shadow "/fdb/a.data" 6) ∧
    ((c87Start.run toyReader (fun _ => .ok [0, 6]) c94Race).toOption.map fun s =>
      s.sys.answers.map fun a => (a.path, a.offsets, decide (a.result = throwExn .jumpInfoDisabled))) =
      some [("/fdb/a.data", [6], true)] := by
  refine ⟨?_, ?_, by decide +kernel⟩
  · intro e he
    simp only [c94Race, List.mem_cons, List.mem_nil_iff, or_false] at he
    rcases he with rfl | rfl | rfl | rfl | rfl <;> first | rfl | trivial | skip
    intro x hx
    rw [List.mem_singleton] at hx
    subst hx
    rfl
  · intro e he
    simp only [c94Race, List.mem_cons, List.mem_nil_iff, or_false] at he
    rcases he with rfl | rfl | rfl | rfl | rfl <;> first | trivial | exact .inl rfl

end GJ
