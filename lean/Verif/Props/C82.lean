import Verif.Lemmas.SharedScan

/-!
# C82: processes that share files, are killed and started again

The processes of C80.  Some of them have the same data and index files (`Model/Shared.lean`).  A process may be killed at any
moment; another one may be started over the files it leaves.
-/

namespace GJ
open Spec

/-! ## Files -/

/-- C82.  Processes that have the same files always see the same data and the same index files. -/
theorem C82_same_files (X : Shared) (U : Nat → String → Prop) (fits : X.Fits U) (asked : Nat → Nat → Asked)
    (written : Nat → Nat → List ExRequest) (sound : X.mesh.Sound U asked written) (s : SharedSys) (reached : X.Reached U s)
    (a b : Nat) (mates : b ∈ X.mates a) :
    (s.procs b).srv.svc.disk = (s.procs a).srv.svc.disk ∧
      (s.procs b).srv.svc.sys.c.fs = (s.procs a).srv.svc.sys.c.fs := by
  obtain ⟨st, es, hb, ha, hr⟩ := reached
  have h := (shared_ran fits sound hb ha hr).1 a b mates
  exact ⟨h.1, h.2.2⟩

/-- C82.  A process that has not been started has nothing in its memory, whatever others have done: when it is started, it is
one that has just started over the files as they are then. -/
theorem C82_starts_afresh (X : Shared) (U : Nat → String → Prop) (fits : X.Fits U) (asked : Nat → Nat → Asked)
    (written : Nat → Nat → List ExRequest) (sound : X.mesh.Sound U asked written) (d : Nat → Disk) (mode : Nat → CacheMode)
    (lazy : Nat → Bool) (cap : Nat → Nat) (fs : Nat → FS) (began : X.Began U (X.start d mode lazy cap fs))
    (es : List SharedEv) (allowed : ∀ e ∈ es, SharedEv.Allowed U e) (s : SharedSys)
    (history : X.run (X.start d mode lazy cap fs) es = .ok s) (a : Nat) (waits : s.life a = .waiting) :
    s.procs a = Mix.start (X.mesh.alone a) (X.mesh.net.threads a) (X.mesh.net.jobs a) (s.procs a).srv.svc.disk
      (s.procs a).srv.svc.sys.c.mode (lazy a) (cap a) (s.procs a).srv.svc.sys.c.fs :=
  shared_fresh fits sound began allowed history a waits

/-- C82.  Any process may be killed whenever it runs, and started whenever it waits to be; the other processes stay as they
were, and so do the files. -/
theorem C82_any_process_is_killed_or_started (X : Shared) (s : SharedSys) (a : Nat) :
    (s.life a = .up → ∃ t, X.step s (.kill a) = .ok t ∧ t.life a = .dead ∧ (∀ b, b ≠ a → t.life b = s.life b) ∧
      t.procs = s.procs) ∧
    (s.life a = .waiting → ∃ t, X.step s (.boot a) = .ok t ∧ t.life a = .up ∧ (∀ b, b ≠ a → t.life b = s.life b) ∧
      t.procs = s.procs) := by
  constructor
  · intro h
    exact ⟨⟨s.procs, fun b => if b = a then .dead else s.life b⟩, by rw [Shared.step, if_pos h], if_pos rfl,
      fun b hb => if_neg hb, rfl⟩
  · intro h
    exact ⟨⟨s.procs, fun b => if b = a then .up else s.life b⟩, by rw [Shared.step, if_pos h], if_pos rfl,
      fun b hb => if_neg hb, rfl⟩

/-- C82.  A process that was killed does nothing any more: its queue, its calls and its scans stay as they were. -/
theorem C82_killed_is_still (X : Shared) (U : Nat → String → Prop) (fits : X.Fits U) (asked : Nat → Nat → Asked)
    (written : Nat → Nat → List ExRequest) (sound : X.mesh.Sound U asked written) (st : SharedSys) (began : X.Began U st)
    (es more : List SharedEv) (allowed : ∀ e ∈ es ++ more, SharedEv.Allowed U e) (s t : SharedSys)
    (history : X.run st es = .ok s) (a : Nat) (killed : s.life a = .dead) (after : X.run s more = .ok t) :
    t.life a = .dead ∧ (t.procs a).srv.x = (s.procs a).srv.x ∧ (t.procs a).jobs = (s.procs a).jobs ∧
      (t.procs a).srv.svc.sys.answers = (s.procs a).srv.svc.sys.answers := by
  refine shared_induct (X := X) (st := s) (fun more t => (∀ e ∈ es ++ more, SharedEv.Allowed U e) →
    t.life a = .dead ∧ (t.procs a).srv.x = (s.procs a).srv.x ∧ (t.procs a).jobs = (s.procs a).jobs ∧
      (t.procs a).srv.svc.sys.answers = (s.procs a).srv.svc.sys.answers) (fun _ => ⟨killed, rfl, rfl, rfl⟩) ?_ more t after allowed
  intro more t e u hr ih hs hal
  have hal' : ∀ e ∈ es ++ more, SharedEv.Allowed U e := fun x hx => hal x (by
    rw [← List.append_assoc]; exact List.mem_append_left _ hx)
  obtain ⟨h1, h2, h3, h4⟩ := ih hal'
  have hlife : u.life a = .dead := by
    cases e with
    | net f =>
      rw [Shared.step] at hs
      split at hs
      · obtain ⟨t', -, k⟩ := res_bind_inv hs
        rw [← Except.ok.inj k]; exact h1
      · rw [← Except.ok.inj hs]; exact h1
    | boot b =>
      rw [← Except.ok.inj hs]
      split
      · rename_i hw
        show (if a = b then Life.up else t.life a) = .dead
        rw [if_neg (fun k => by rw [← k, h1] at hw; cases hw)]; exact h1
      · exact h1
    | kill b =>
      rw [← Except.ok.inj hs]
      split
      · show (if a = b then Life.dead else t.life a) = .dead
        split
        · rfl
        · exact h1
      · exact h1
  refine ⟨hlife, ?_⟩
  rcases shared_step_inv hs with hp | ⟨f, t', rfl, hl, ht, hp⟩
  · rw [hp]; exact ⟨h2, h3, h4⟩
  have hrun : X.run st (es ++ more) = .ok t := by rw [shared_append, history, ok_bind]; exact hr
  obtain ⟨-, fs', hf, hr'⟩ := shared_ran fits sound began hal' hrun
  have hb := (shared_began began).1
  have inv := mesh_ran sound hb hf hr'
  obtain ⟨hother, -, -⟩ := mesh_step_seen sound (fun a => inv.good sound hb a) inv.kinds (hal (.net f) (by simp)) ht
  have key : (t' a).srv.x = (t.procs a).srv.x ∧ (t' a).jobs = (t.procs a).jobs ∧
      (t' a).srv.svc.sys.answers = (t.procs a).srv.svc.sys.answers := by
    by_cases hfa : a = f.site
    · subst hfa
      rcases hl with hl | hl
      · rw [outside_over (U := U) hl (inv.good sound hb _) (mesh_scans sound hb hf hr' _).len ht]
        exact ⟨rfl, rfl, rfl⟩
      · rw [h1] at hl; cases hl
    · rw [hother a hfa]; exact ⟨rfl, rfl, rfl⟩
  rw [← h2, ← h3, ← h4, hp, Shared.share]
  split
  · exact key
  · exact key

/-! ## Scans -/

/-- C82.  A scan that has returned a number has returned the sum of the numbers of its tasks, as in C80, each with respect to
the index that the process has in common with others, whoever else writes it, and whoever is killed or started meanwhile. -/
theorem C82_scan_counts (X : Shared) (U : Nat → String → Prop) (fits : X.Fits U) (asked : Nat → Nat → Asked)
    (written : Nat → Nat → List ExRequest) (sound : X.mesh.Sound U asked written) (st : SharedSys) (began : X.Began U st)
    (es : List SharedEv) (allowed : ∀ e ∈ es, SharedEv.Allowed U e) (s : SharedSys) (history : X.run st es = .ok s) (a g : Nat)
    (kinds : List ScanKind) (scan : X.mesh.scans a g = some kinds)
    (once : ∀ server files, .forward server files ∈ kinds → files.keys.Nodup)
    (returned : ((s.procs a).srv.x.t.grp g).phase = .returned) (c : Nat) (got : (s.procs a).scanOutcome g = .ok c) :
    ∃ ns : List Nat, ns.length = kinds.length ∧ c = ns.sum ∧
      ∀ (j : Nat) (k : ScanKind) (n : Nat), kinds[j]? = some k → ns[j]? = some n → X.TaskCounted st es a g j n k := by
  have file : ∀ {es : List SharedEv} {a g j n : Nat} {path : String} {os : List Nat},
      DoneBy (fun g j n _ _ => X.Heard st es a g j n) (X.mesh.net.site a).reader (X.mesh.net.site a).offs
        (fun y z => ∃ Y Z : SharedSys, Y.procs a = y ∧ Z.procs a = z ∧ X.Passed st es Y Z) g j n (.file path os) →
      X.FileCounted st es a g j path os n := by
    rintro es a g j n path os ⟨y, z, l, ⟨Y, Z, rfl, rfl, h1⟩, h2⟩
    exact ⟨Y, Z, l, h1, h2⟩
  have counts : ∀ {es : List SharedEv} {s : SharedSys} {a g c : Nat} {kinds : List ScanKind},
      (∀ e ∈ es, SharedEv.Allowed U e) → X.run st es = .ok s → X.mesh.scans a g = some kinds →
      ((s.procs a).srv.x.t.grp g).phase = .returned → (s.procs a).scanOutcome g = .ok c →
      ∃ ns : List Nat, ns.length = kinds.length ∧ c = ns.sum ∧
        ∀ (j : Nat) (k : ScanKind) (m : Nat), kinds[j]? = some k → ns[j]? = some m →
          DoneBy (fun g j n _ _ => X.Heard st es a g j n) (X.mesh.net.site a).reader (X.mesh.net.site a).offs
            (fun y z => ∃ Y Z : SharedSys, Y.procs a = y ∧ Z.procs a = z ∧ X.Passed st es Y Z) g j m k := by
    intro es s a g c kinds ha hr hscan hret hout
    obtain ⟨-, fs, hf, hrun⟩ := shared_ran fits sound began ha hr
    exact scans_counts (mesh_ran sound (shared_began began).1 hf hrun) hscan hret hout (shared_scans fits sound began ha hr a)
  obtain ⟨ns, h1, h2, h3⟩ := counts allowed history scan returned got
  refine ⟨ns, h1, h2, fun j k n hj hn => ?_⟩
  have hd := h3 j k n hj hn
  cases k with
  | file path os => exact file hd
  | forward server files =>
    obtain ⟨b, h, es1, es2, Y, hl, rfl, hr, hx, hret, hout⟩ := hd
    obtain ⟨ks, server', files', sm, s1, s2, s3, s4, s5⟩ := sound.sent _ _ _ _ _ hl
    rw [scan] at s1
    cases s1
    rw [hj] at s2
    cases s2
    rw [forwardScan_arrives (once _ _ (List.mem_of_getElem? hj)) s4] at s5
    subst s3
    obtain ⟨ms, m1, m2, m3⟩ := counts (fun e he => allowed e (List.mem_append_left _ he)) hr s5 hret hout
    rw [List.length_map] at m1
    refine ⟨h, es1, es2, Y, ms, rfl, hr, hx, m1, m2, fun i file' m hi hm => file (m3 i _ m ?_ hm)⟩
    rw [List.getElem?_map, hi]; rfl

/-! ## Extractions -/

/-- C82 (partial).  A client's call on a process that forwards has returned without an error, while processes scanned and
extracted, wrote index files that others read, were killed and started.  The results are what decoding the messages gives, as
they are in the files of the processes responsible.
Missing: as for C80; a process that is killed while it appends to an index file (C17). -/
theorem C82_forwarded_values_partial (X : Shared) (U : Nat → String → Prop) (fits : X.Fits U) (asked : Nat → Nat → Asked)
    (written : Nat → Nat → List ExRequest) (sound : X.mesh.Sound U asked written) (mem : Nat → Nat)
    (machine : ∀ a, (X.mesh.net.site a).jump = machineExtract (mem a) (X.mesh.net.site a).reader) (limit : Nat) (small : limit < 2 ^ 58)
    (s : SharedSys) (reached : X.Reached U s) (a g : Nat) (extraction : X.mesh.scans a g = none) (client : X.mesh.net.origin a g = none)
    (forwards : (X.mesh.net.site a).conf.forward = true) (returned : ((s.procs a).srv.x.t.grp g).phase = .returned)
    (strict : (X.mesh.net.site a).conf.allowMissing = false) (cat : List (FdbKey × Uri))
    (catalogue : Catalogue (X.mesh.net.site a).conf.ignoreYearMonth cat) (lists : ListsOnly ((X.mesh.net.site a).calls g) cat)
    (rs : List ExRequest) (ws : List WrittenRequest) (text : Written rs ws)
    (intervals : ∀ q ∈ rs, ∀ i ∈ q.ranges, i.b ≤ i.e ∧ i.e ≤ limit)
    (ordinary : ∀ e ∈ cat, ∀ b file i, (s.procs b).srv.svc.disk e.2.path = some file →
      buildInfo (X.mesh.net.site b).reader file e.2.offset = .ok i → Ordinary limit e.2.offset i)
    (request : asked a g = .fields rs) (out : List WireResult)
    (got : Net.outcome written (fun a => (s.procs a).srv) a g = .ok out) :
    out.length = rs.length ∧ ∀ i (hi : i < rs.length) (hj : i < ws.length),
      ∃ e ∈ cat, SameField (X.mesh.net.site a).conf.ignoreYearMonth ws[i].pairs e.1 ∧
        (∀ e' ∈ cat, SameField (X.mesh.net.site a).conf.ignoreYearMonth ws[i].pairs e'.1 → e' = e) ∧
        ∃ server r, (X.mesh.net.site a).conf.servers.find (e.2.host, e.2.port) = some server ∧ out[i]? = some r ∧
          ∃ file h, (s.procs (X.mesh.net.host server)).srv.svc.disk e.2.path = some file ∧
            (X.mesh.net.site (X.mesh.net.host server)).reader.parse (file.drop e.2.offset) = some h ∧
            messageExtract (X.mesh.net.site (X.mesh.net.host server)).reader file e.2.offset rs[i].ranges = .ok r ∧
            ((X.mesh.net.site (X.mesh.net.host server)).conf.ignoreGrid = false →
              rs[i].gridHash ≠ "" ∧ rs[i].gridHash = h.md5GridSection) :=
  C80_forwarded_values_partial X.mesh U asked written sound mem machine limit small s.procs (shared_reached fits sound
    reached) a g extraction client forwards returned strict cat catalogue lists rs ws text intervals ordinary request
    out got

/-- C82 (partial).  The same for requests by path with host and port.  Missing: as above. -/
theorem C82_forwarded_paths_partial (X : Shared) (U : Nat → String → Prop) (fits : X.Fits U) (asked : Nat → Nat → Asked)
    (written : Nat → Nat → List ExRequest) (sound : X.mesh.Sound U asked written) (mem : Nat → Nat)
    (machine : ∀ a, (X.mesh.net.site a).jump = machineExtract (mem a) (X.mesh.net.site a).reader) (limit : Nat) (small : limit < 2 ^ 58)
    (s : SharedSys) (reached : X.Reached U s) (a g : Nat) (extraction : X.mesh.scans a g = none) (client : X.mesh.net.origin a g = none)
    (returned : ((s.procs a).srv.x.t.grp g).phase = .returned) (rs : List PathReq)
    (remote : ∀ q ∈ rs, q.host ≠ "" ∨ q.port ≠ 0) (intervals : ∀ q ∈ rs, ∀ i ∈ q.ranges, i.b ≤ i.e ∧ i.e ≤ limit)
    (place : ∀ a ∈ rs, ∀ b ∈ rs, a.path = b.path → a.scheme = b.scheme ∧ a.host = b.host ∧ a.port = b.port)
    (ordinary : ∀ q ∈ rs, ∀ b file i, (s.procs b).srv.svc.disk q.path = some file →
      buildInfo (X.mesh.net.site b).reader file q.offset = .ok i → Ordinary limit q.offset i)
    (request : asked a g = .paths rs) (out : List WireResult) (got : Net.outcome written (fun a => (s.procs a).srv) a g = .ok out) :
    out.length = rs.length ∧ ∀ (i : Nat) q, rs[i]? = some q →
      ∃ server r, (X.mesh.net.site a).conf.servers.find (q.host, q.port) = some server ∧ out[i]? = some r ∧
        ∃ file h, (s.procs (X.mesh.net.host server)).srv.svc.disk q.path = some file ∧
          (X.mesh.net.site (X.mesh.net.host server)).reader.parse (file.drop q.offset) = some h ∧
          messageExtract (X.mesh.net.site (X.mesh.net.host server)).reader file q.offset q.ranges = .ok r ∧
          ((X.mesh.net.site (X.mesh.net.host server)).conf.ignoreGrid = false → q.gridHash ≠ "" ∧ q.gridHash = h.md5GridSection) :=
  C80_forwarded_paths_partial X.mesh U asked written sound mem machine limit small s.procs (shared_reached fits sound
    reached) a g extraction client returned rs remote intervals place ordinary request out got

/-- C82 (partial).  A client's call on a process that does not forward.  Missing: as above. -/
theorem C82_local_values_partial (X : Shared) (U : Nat → String → Prop) (fits : X.Fits U) (asked : Nat → Nat → Asked)
    (written : Nat → Nat → List ExRequest) (sound : X.mesh.Sound U asked written) (mem : Nat) (s : SharedSys)
    (reached : X.Reached U s) (a g : Nat) (machine : (X.mesh.net.site a).jump = machineExtract mem (X.mesh.net.site a).reader)
    (limit : Nat) (small : limit < 2 ^ 58) (extraction : X.mesh.scans a g = none) (client : X.mesh.net.origin a g = none)
    (stays : (X.mesh.net.site a).conf.forward = false)
    (returned : ((s.procs a).srv.x.t.grp g).phase = .returned) (strict : (X.mesh.net.site a).conf.allowMissing = false)
    (cat : List (FdbKey × Uri)) (catalogue : Catalogue (X.mesh.net.site a).conf.ignoreYearMonth cat)
    (lists : ListsOnly ((X.mesh.net.site a).calls g) cat) (rs : List ExRequest) (ws : List WrittenRequest) (text : Written rs ws)
    (intervals : ∀ q ∈ rs, ∀ i ∈ q.ranges, i.b ≤ i.e ∧ i.e ≤ limit)
    (ordinary : ∀ e ∈ cat, ∀ file i, (s.procs a).srv.svc.disk e.2.path = some file →
      buildInfo (X.mesh.net.site a).reader file e.2.offset = .ok i → Ordinary limit e.2.offset i)
    (request : asked a g = .fields rs) (out : List WireResult)
    (got : Net.outcome written (fun a => (s.procs a).srv) a g = .ok out) :
    out.length = rs.length ∧ ∀ i (hi : i < rs.length) (hj : i < ws.length),
      ∃ e ∈ cat, SameField (X.mesh.net.site a).conf.ignoreYearMonth ws[i].pairs e.1 ∧
        (∀ e' ∈ cat, SameField (X.mesh.net.site a).conf.ignoreYearMonth ws[i].pairs e'.1 → e' = e) ∧
        ∃ r, out[i]? = some r ∧ (e.2.scheme = "fdb" → (X.mesh.net.site a).fetch e.2 rs[i].ranges = .ok r) ∧
          (e.2.scheme ≠ "fdb" → ∃ file h, (s.procs a).srv.svc.disk e.2.path = some file ∧
            (X.mesh.net.site a).reader.parse (file.drop e.2.offset) = some h ∧
            messageExtract (X.mesh.net.site a).reader file e.2.offset rs[i].ranges = .ok r ∧
            ((X.mesh.net.site a).conf.ignoreGrid = false → rs[i].gridHash ≠ "" ∧ rs[i].gridHash = h.md5GridSection)) :=
  C80_local_values_partial X.mesh U asked written sound mem s.procs (shared_reached fits sound reached) a g machine limit
    small extraction client stays returned strict cat catalogue lists rs ws text intervals ordinary request out got

/-- C82 (partial).  The same for requests by path without host and port.  Missing: as above. -/
theorem C82_local_paths_partial (X : Shared) (U : Nat → String → Prop) (fits : X.Fits U) (asked : Nat → Nat → Asked)
    (written : Nat → Nat → List ExRequest) (sound : X.mesh.Sound U asked written) (mem : Nat) (s : SharedSys)
    (reached : X.Reached U s) (a g : Nat) (machine : (X.mesh.net.site a).jump = machineExtract mem (X.mesh.net.site a).reader)
    (limit : Nat) (small : limit < 2 ^ 58) (extraction : X.mesh.scans a g = none) (client : X.mesh.net.origin a g = none)
    (returned : ((s.procs a).srv.x.t.grp g).phase = .returned) (rs : List PathReq)
    (here : ∀ q ∈ rs, q.host = "" ∧ q.port = 0) (place : ∀ a ∈ rs, ∀ b ∈ rs, a.path = b.path → a.scheme = b.scheme)
    (intervals : ∀ q ∈ rs, ∀ i ∈ q.ranges, i.b ≤ i.e ∧ i.e ≤ limit)
    (ordinary : ∀ q ∈ rs, ∀ file i, (s.procs a).srv.svc.disk q.path = some file →
      buildInfo (X.mesh.net.site a).reader file q.offset = .ok i → Ordinary limit q.offset i)
    (request : asked a g = .paths rs) (out : List WireResult) (got : Net.outcome written (fun a => (s.procs a).srv) a g = .ok out) :
    out.length = rs.length ∧ ∀ (i : Nat) q, rs[i]? = some q →
      ∃ r, out[i]? = some r ∧ (q.scheme = "fdb" → (X.mesh.net.site a).fetch q.uri q.ranges = .ok r) ∧
        (q.scheme ≠ "fdb" → ∃ file h, (s.procs a).srv.svc.disk q.path = some file ∧
          (X.mesh.net.site a).reader.parse (file.drop q.offset) = some h ∧
          messageExtract (X.mesh.net.site a).reader file q.offset q.ranges = .ok r ∧
          ((X.mesh.net.site a).conf.ignoreGrid = false → q.gridHash ≠ "" ∧ q.gridHash = h.md5GridSection)) :=
  C80_local_paths_partial X.mesh U asked written sound mem s.procs (shared_reached fits sound reached) a g machine limit
    small extraction client returned rs here place intervals ordinary request out got

/-! ## No undefined behaviour -/

/-- Files after an event. -/
def Shared.grow (X : Shared) (d : Nat → Disk) : SharedEv → Nat → Disk
  | .net (.on a (.other (.append path bytes))) => fun b => if b = a ∨ b ∈ X.mates a then (d b).append path bytes else d b
  | _ => d

/-- Files of all processes after a history. -/
def Shared.disks (X : Shared) (d : Nat → Disk) (es : List SharedEv) : Nat → Disk := es.foldl X.grow d

theorem shared_grow_before (X : Shared) (d : Nat → Disk) (e : SharedEv) (a : Nat) : (d a).Before (X.grow d e a) := by
  unfold Shared.grow
  split
  · rename_i b p bytes
    show (d a).Before (if a = b ∨ a ∈ X.mates b then (d a).append p bytes else d a)
    split
    · have h := net_grow_before d (.on a (.other (.append p bytes))) a
      have e : NetEv.grow d (.on a (.other (.append p bytes))) a = (d a).append p bytes := if_pos rfl
      rw [e] at h; exact h
    · exact Disk.Before.refl _
  · exact Disk.Before.refl _

theorem shared_disks_before (X : Shared) (es : List SharedEv) : ∀ (d : Nat → Disk) (a : Nat), (d a).Before (X.disks d es a) := by
  induction es with
  | nil => intro d a; exact Disk.Before.refl _
  | cons e es ih => intro d a; exact (shared_grow_before X d e a).trans (ih (X.grow d e) a)

/-- Only one kind of event changes data files. -/
theorem grow_cases (f : NetEv) : (∃ a p bytes, f = .on a (.other (.append p bytes))) ∨
    (∀ d, NetEv.grow d f = d) ∧ ∀ (X : Shared) d, X.grow d (.net f) = d := by
  cases f with
  | lost a w => exact .inr ⟨fun _ => rfl, fun _ _ => rfl⟩
  | on a e =>
    have same : (∀ d, SrvEv.grow d e = d) → ∀ d, NetEv.grow d (.on a e) = d := by
      intro h d
      funext b
      show (if b = a then e.grow (d b) else d b) = d b
      rw [h]
      split <;> rfl
    cases e with
    | queue q => exact .inr ⟨same fun _ => rfl, fun _ _ => rfl⟩
    | other o =>
      cases o with
      | append p bytes => exact .inl ⟨a, p, bytes, rfl⟩
      | _ => exact .inr ⟨same fun _ => rfl, fun _ _ => rfl⟩

theorem shared_step_disks {X : Shared} {s s' : SharedSys} {e : SharedEv}
    (alike : X.Alike s.procs) (h : X.step s e = .ok s') : MeshSys.disks s'.procs = X.grow (MeshSys.disks s.procs) e := by
  cases e with
  | boot a => rw [← Except.ok.inj h]; split <;> rfl
  | kill a => rw [← Except.ok.inj h]; split <;> rfl
  | net f =>
    rw [Shared.step] at h
    rcases grow_cases f with ⟨a, p, bytes, rfl⟩ | ⟨hn, hx⟩
    · rw [if_pos (.inl rfl)] at h
      obtain ⟨t, ht, h2⟩ := res_bind_inv h
      rw [← Except.ok.inj h2]
      have hd : ∀ b, MeshSys.disks t b = if b = a then (MeshSys.disks s.procs b).append p bytes else MeshSys.disks s.procs b :=
        fun b => congrFun (mesh_step_disks ht) b
      funext b
      show (X.share t a b).srv.svc.disk = if b = a ∨ b ∈ X.mates a then (MeshSys.disks s.procs b).append p bytes else MeshSys.disks s.procs b
      rw [Shared.share]
      split
      · rename_i hb
        rw [if_pos (.inr hb)]
        show MeshSys.disks t a = _
        rw [hd, if_pos rfl]
        show (s.procs a).srv.svc.disk.append p bytes = (s.procs b).srv.svc.disk.append p bytes
        rw [(alike a b hb).1]
      · rename_i hb
        show MeshSys.disks t b = _
        rw [hd]
        by_cases hba : b = a
        · rw [if_pos hba, if_pos (.inl hba)]
        · rw [if_neg hba, if_neg (fun h => h.elim hba hb)]
    · rw [hx]
      split at h
      · obtain ⟨t, ht, h2⟩ := res_bind_inv h
        rw [← Except.ok.inj h2]
        have hd : ∀ b, (t b).srv.svc.disk = (s.procs b).srv.svc.disk :=
          fun b => congrFun ((mesh_step_disks ht).trans (hn _)) b
        funext b
        show (X.share t f.site b).srv.svc.disk = (s.procs b).srv.svc.disk
        rw [Shared.share]
        split
        · rename_i hb
          show (t f.site).srv.svc.disk = _
          rw [hd]; exact (alike _ _ hb).1.symm
        · exact hd b
      · rw [← Except.ok.inj h]

/-- C82 (partial).  As in C80, no step of any process is undefined behaviour, nor what a call returns, whoever has whose files
and whoever is killed or started.  Missing: as for C80; a process that is killed while it appends to an index file (C17). -/
theorem C82_defined_partial (X : Shared) (U : Nat → String → Prop) (fits : X.Fits U) (asked : Nat → Nat → Asked)
    (written : Nat → Nat → List ExRequest) (sound : X.mesh.Sound U asked written) (mem : Nat → Nat)
    (memory : ∀ a, mem a ≤ 2 ^ 60) (lib : ∀ a, AecContract (X.mesh.net.site a).reader.lib) (stored : Nat → Uri → Info → Prop)
    (machine : ∀ a, (X.mesh.net.site a).Machine (mem a) (stored a)) (st : SharedSys) (began : X.Began U st)
    (es : List SharedEv) (allowed : ∀ e ∈ es, SharedEv.Allowed U e)
    (blocks : ∀ a f o i x, (X.mesh.net.site a).Known (stored a) (X.disks (MeshSys.disks st.procs) es a) f o (.ccsds i x) →
      x.rsi * x.blockSize ≠ 0)
    (acceptable : ∀ a g, X.mesh.net.origin a g = none → (X.mesh.net.jobs a g).2 ≠ [] →
      (asked a g).Acceptable ((X.mesh.net.site a).calls g) (X.mesh.net.site a).conf
        (X.mesh.net.Known stored (X.disks (MeshSys.disks st.procs) es))) :
    ∃ s, X.run st es = .ok s ∧
      ∀ a g, Net.outcome written (fun a => (s.procs a).srv) a g ≠ undef ∧ (s.procs a).scanOutcome g ≠ undef := by
  have run : ∃ s, X.run st es = .ok s := by
    generalize hD : X.disks (MeshSys.disks st.procs) es = D at blocks acceptable
    have hb : ∀ es1 es2, es = es1 ++ es2 →
        ∃ s, X.run st es1 = .ok s ∧ MeshSys.disks s.procs = X.disks (MeshSys.disks st.procs) es1 := by
      intro es1
      generalize hn : es1.length = n
      induction n generalizing es1 with
      | zero =>
        intro es2 _
        cases List.length_eq_zero_iff.mp hn
        exact ⟨st, rfl, rfl⟩
      | succ n ih =>
        intro es2 he
        have hne : es1 ≠ [] := by intro h; rw [h] at hn; cases hn
        obtain ⟨es0, e, rfl⟩ : ∃ es0 e, es1 = es0 ++ [e] := ⟨_, _, (List.dropLast_concat_getLast hne).symm⟩
        rw [List.append_assoc] at he
        obtain ⟨s0, h0, hd0⟩ := ih es0 (by rw [List.length_append] at hn; exact Nat.succ.inj hn) _ he
        have hal : ∀ x ∈ es0 ++ [e], SharedEv.Allowed U x := by
          intro x hx
          refine allowed x ?_
          rw [he, ← List.append_assoc]
          exact List.mem_append_left _ hx
        have hdisk : ∀ a, (MeshSys.disks s0.procs a).Before (D a) := by
          intro a
          rw [hd0, ← hD, he]
          show (X.disks _ _ a).Before (X.disks _ (es0 ++ _) a)
          unfold Shared.disks
          rw [List.foldl_append]
          exact shared_disks_before X _ _ a
        obtain ⟨alike, fs, hf, hrun⟩ := shared_ran fits sound began (fun x hx => hal x (List.mem_append_left _ hx)) h0
        have step : ∃ s1, X.step s0 e = .ok s1 := by
          cases e with
          | boot a => exact ⟨_, rfl⟩
          | kill a => exact ⟨_, rfl⟩
          | net f =>
            have haf : NetEv.Allowed U f := hal (.net f) (List.mem_append_right _ (List.mem_singleton.mpr rfl))
            obtain ⟨t, ht⟩ := mesh_defined_step sound memory lib machine (shared_began began).1 blocks acceptable
              (es := fs) (e := f) (by
                intro x hx
                rcases List.mem_append.mp hx with hx | hx
                · exact hf x hx
                · rw [List.mem_singleton.mp hx]; exact haf) hrun hdisk
            rw [Shared.step]
            split
            · exact ⟨_, by rw [ht, ok_bind]⟩
            · exact ⟨s0, rfl⟩
        obtain ⟨s1, h1⟩ := step
        refine ⟨s1, shared_snoc h0 h1, ?_⟩
        rw [shared_step_disks alike h1, hd0]
        unfold Shared.disks
        rw [List.foldl_append]
        rfl
    obtain ⟨s, h, -⟩ := hb es [] (List.append_nil es).symm
    exact ⟨s, h⟩
  obtain ⟨s, h⟩ := run
  refine ⟨s, h, fun a g => ⟨?_, ?_⟩⟩
  · unfold Net.outcome callEnd
    exact (localTail_safe _ _).1
  · rw [Mix.scanOutcome]
    split <;> (intro h; cases h)

/-! ## Cases -/

def c82Scans : Nat → Nat → Option (List ScanKind)
  | 0, 5 => some [.forward ("gx", 1) [("/fdb/a.data", [0, 6])], .forward ("gy", 2) [("/fdb/b.data", [0])]]
  | 1, 5 => some [.file "/fdb/a.data" [0, 6]]
  | 2, 5 => some [.file "/fdb/b.data" [0]]
  | 3, 5 => some [.file "/fdb/a.data" [6]]
  | 3, 6 => some [.file "/fdb/a.data" [0]]
  | _, _ => none

/-- The processes of C80.  Process 3 has the files of process 1. -/
def c82Shared : Shared where
  mesh := ⟨{ c78Net with threads := fun a => if a = 0 then 2 else if a < 4 then 1 else 0 }, c82Scans, c80Link, c80Source⟩
  mates := fun a => if a = 1 then [3] else if a = 3 then [1] else []

def c82Disk (a : Nat) : Disk := c76Disk (if a = 3 then 1 else a)

def c82Start : SharedSys := c82Shared.start c82Disk (fun _ => .shadow) (fun _ => true) (fun _ => 4) (fun _ => [])

/-- Process 3 scans one message of its file.  It is killed in the middle of another scan, when it has read everything and
written nothing, and has no connection to lose.  Then process 1 is started in its place. -/
def c82Before : List SharedEv :=
  [.boot 3, .net (.on 3 (.queue (.add 5))), .net (.on 3 (.queue (.push 5))), .net (.on 3 (.queue (.wait 5))),
   .net (.on 3 (.queue (.add 6))), .net (.on 3 (.queue (.push 6))), .net (.on 3 (.queue (.wait 6))),
   .net (.on 3 (.queue (.pop 0))), .net (.on 3 (.queue (.start 0))), .net (.on 3 (.queue (.work 0))),
   .net (.on 3 (.queue (.work 0))), .net (.on 3 (.queue (.work 0))), .net (.on 3 (.queue (.ret 5))),
   .net (.on 3 (.queue (.pop 0))), .net (.on 3 (.queue (.start 0))), .net (.on 3 (.queue (.work 0))), .kill 3,
   .net (.on 3 (.queue (.work 0))), .boot 1, .boot 0, .boot 2]

/-- After that, what happens in C80. -/
def c82History (k : Nat) : List SharedEv := c82Before ++ (List.range k).map fun i => .net (c80Ev i)

def c82At (k : Nat) : Res SharedSys := c82Shared.run c82Start (c82History k)

def c82Phases (k : Nat) : Option (List Phase) :=
  match c82At k with
  | .ok s => some [((s.procs 0).srv.x.t.grp 0).phase, ((s.procs 0).srv.x.t.grp 1).phase, ((s.procs 1).srv.x.t.grp 0).phase,
      ((s.procs 1).srv.x.t.grp 2).phase, ((s.procs 0).srv.x.t.grp 5).phase, ((s.procs 3).srv.x.t.grp 5).phase,
      ((s.procs 3).srv.x.t.grp 6).phase]
  | .error _ => none

/-- Offsets in the index files a process sees. -/
def c82Index (k a : Nat) : Res (List (String × List Nat)) := do
  let s ← c82At k
  (s.procs a).srv.svc.sys.c.fs.keys.mapM fun p => do
    let m ← loadIndex (s.procs a).srv.svc.sys.c.fs p
    pure (p, m.keys)

def c82Count (k a g : Nat) : Res Nat := do
  let s ← c82At k
  (s.procs a).scanOutcome g

def c82Out (k a g : Nat) : Res (List WireResult) := do
  let s ← c82At k
  Net.outcome c76Written (fun a => (s.procs a).srv) a g

theorem c82_sound : c82Shared.mesh.Sound c76Names c76Asked c76Written where
  net := ⟨c78_sound.reader, c78_sound.offs, c78_sound.back, c78_sound.sent, c78_sound.client, c78_sound.within⟩
  apart a g t b h e := by
    have e : c76Target a g t = some (b, h) := e
    unfold c76Target at e
    split at e <;> first | (cases e; done) | (cases e; exact ⟨rfl, rfl⟩)
  back := c80_sound.back
  sent a g t b h e := by
    obtain ⟨server, files, l, c, h1, h2, h3, h4, h5⟩ := c80_sound.sent a g t b h e
    have e : c80Link a g t = some (b, h) := e
    unfold c80Link at e
    split at e
    · cases e; exact ⟨server, files, l, c, h1, h2, h3, h4, h5⟩
    · cases e; exact ⟨server, files, l, c, h1, h2, h3, h4, h5⟩
    · cases e
  within a g ks hk k hm path os e := by
    have hk : c82Scans a g = some ks := hk
    subst e
    unfold c82Scans at hk
    split at hk
    all_goals first | (cases hk; done) | skip
    all_goals
      cases hk
      simp only [List.mem_cons, List.mem_nil_iff, or_false, ScanKind.file.injEq, reduceCtorEq] at hm
    · exact .inl hm.1
    · exact .inr hm.1
    · exact .inl hm.1
    · exact .inl hm.1

theorem c82_mate {a b : Nat} (h : b ∈ c82Shared.mates a) : (a = 1 ∧ b = 3) ∨ (a = 3 ∧ b = 1) := by
  have h : b ∈ (if a = 1 then [3] else if a = 3 then [1] else []) := h
  by_cases h1 : a = 1
  · rw [if_pos h1] at h; exact .inl ⟨h1, List.mem_singleton.mp h⟩
  · rw [if_neg h1] at h
    by_cases h3 : a = 3
    · rw [if_pos h3] at h; exact .inr ⟨h3, List.mem_singleton.mp h⟩
    · rw [if_neg h3] at h; cases h

theorem c82_fits : c82Shared.Fits c76Names where
  apart a h := by rcases c82_mate h with ⟨h1, h2⟩ | ⟨h1, h2⟩ <;> omega
  once a := by
    show (if a = 1 then [3] else if a = 3 then [1] else []).Nodup
    by_cases h1 : a = 1
    · rw [if_pos h1]; decide
    · rw [if_neg h1]
      by_cases h3 : a = 3
      · rw [if_pos h3]; decide
      · rw [if_neg h3]; decide
  symm a b h := by rcases c82_mate h with ⟨rfl, rfl⟩ | ⟨rfl, rfl⟩ <;> decide
  trans a b c h h' ne := by
    rcases c82_mate h with ⟨h1, h2⟩ | ⟨h1, h2⟩ <;> rcases c82_mate h' with ⟨h3, h4⟩ | ⟨h3, h4⟩ <;> omega
  reader a b h := by rcases c82_mate h with ⟨rfl, rfl⟩ | ⟨rfl, rfl⟩ <;> rfl
  offs a b h := by rcases c82_mate h with ⟨rfl, rfl⟩ | ⟨rfl, rfl⟩ <;> rfl
  names a b h := rfl

theorem c82_began : c82Shared.Began c76Names c82Start :=
  ⟨c82Disk, fun _ => .shadow, fun _ => true, fun _ => 4, fun _ => [], c76_apart, fun _ => Nat.succ_pos 3,
    fun a => c76_agree _ a, (fun a b h => by rcases c82_mate h with ⟨rfl, rfl⟩ | ⟨rfl, rfl⟩ <;> exact ⟨rfl, rfl, rfl⟩), rfl⟩

theorem c82_history (k : Nat) : ∀ e ∈ c82History k, SharedEv.Allowed c76Names e := by
  intro e he
  rcases List.mem_append.mp he with he | he
  · simp only [c82Before, List.mem_cons, List.mem_nil_iff, or_false] at he
    repeat' (rcases he with rfl | he <;> first | trivial | skip)
  · obtain ⟨i, -, rfl⟩ := List.mem_map.mp he
    exact c80_allowed i

/-- Non-vacuity: process 3 wrote one message into the index before it was killed.  Process 1, started after that, counts the other
message only; the scan killed never returns; everything else returns, with the values of C80. -/
example : c82Phases 1829 = some [.returned, .returned, .returned, .returned, .returned, .returned, .waiting] ∧
    c82Index 0 1 = .ok [("/fdb/a.data.gribjump", [6])] := by
  exact ⟨by decide +kernel, by decide +kernel⟩

example : c82Index 1829 3 = .ok [("/fdb/a.data.gribjump", [6, 0])] := by decide +kernel

example : c82Count 1829 3 5 = .ok 1 ∧ c82Count 1829 1 5 = .ok 1 ∧ c82Count 1829 0 5 = .ok 1 := by
  exact ⟨by decide +kernel, by decide +kernel, by decide +kernel⟩

example : c82Out 1829 0 0 = .ok [⟨[[10, 11, 12, 13]], [[15]]⟩, ⟨[[21], [22, 23]], [[1], [3]]⟩, ⟨[[7, 8]], [[3]]⟩] ∧
    c82Out 1829 0 1 = .ok [⟨[[20, 21]], [[3]]⟩] := by
  exact ⟨by decide +kernel, by decide +kernel⟩

example : c82Out 1829 1 0 = .ok [⟨[[7]], [[1]]⟩] ∧
    c82Out 1829 1 2 = .ok [⟨[[11], [12, 13]], [[1], [3]]⟩, ⟨[[7, 8]], [[3]]⟩] := by
  exact ⟨by decide +kernel, by decide +kernel⟩

example : c82Shared.mesh.Sound c76Names c76Asked c76Written ∧ c82Shared.Fits c76Names ∧ c82Shared.Began c76Names c82Start ∧
    (∀ e ∈ c82History 1829, SharedEv.Allowed c76Names e) ∧ 3 ∈ c82Shared.mates 1 ∧
    ∀ server files, ScanKind.forward server files ∈ (c82Scans 0 5).getD [] → files.keys.Nodup := by
  refine ⟨c82_sound, c82_fits, c82_began, c82_history _, List.mem_singleton.mpr rfl, ?_⟩
  intro server files h
  simp only [c82Scans, Option.getD_some, List.mem_cons, List.mem_nil_iff, or_false, ScanKind.forward.injEq] at h
  rcases h with ⟨-, rfl⟩ | ⟨-, rfl⟩ <;> decide

/-- The process killed is dead, and the last event of its thread changed nothing. -/
example : (match c82Shared.run c82Start (c82Before.take 17), c82Shared.run c82Start (c82Before.take 18) with
    | .ok s, .ok s' => some ((s.procs 3).srv.x.t.workers, (s'.procs 3).srv.x.t.workers,
        decide (s.life 3 = .dead), decide (s'.life 3 = .dead), decide (s'.life 1 = .waiting))
    | _, _ => none) = some ([WPc.running 6 0], [WPc.running 6 0], true, true, true) := by decide +kernel

/-- Non-vacuity of the theorems on values: the state above is reached, and the hypotheses hold (the others: C76, C78). -/
example : (∀ s, c82At 1829 = .ok s → c82Shared.Reached c76Names s) ∧
    (∀ a, (c82Shared.mesh.net.site a).jump = machineExtract 1000 (c82Shared.mesh.net.site a).reader) ∧
    (∀ e ∈ c52Cat ++ c50Cat, ∀ b file i, buildInfo (c82Shared.mesh.net.site b).reader file e.2.offset = .ok i →
      Ordinary 1000 e.2.offset i) ∧
    c82Shared.mesh.scans 0 0 = none ∧ c82Shared.mesh.scans 0 1 = none ∧ c82Shared.mesh.scans 1 0 = none ∧
    c82Shared.mesh.scans 1 2 = none := by
  refine ⟨fun s h => ⟨_, _, c82_began, c82_history _, h⟩, fun a => rfl, ?_, rfl, rfl, rfl, rfl⟩
  intro e he b file i h
  rw [show (c82Shared.mesh.net.site b).reader = toyReader from c78_reader b] at h
  refine toy_ordinary h ?_
  have : ((c52Cat ++ c50Cat).all fun e => decide (e.2.offset ≤ 1000)) = true := by decide +kernel
  exact of_decide_eq_true (p := e.2.offset ≤ 1000) (List.all_eq_true.mp this e he)

/-- Non-vacuity of `C82_defined_partial`: `blocks` holds over any files; the other hypotheses are those of the example in C78. -/
example : (∀ a, AecContract (c82Shared.mesh.net.site a).reader.lib) ∧
    ∀ a d f o i x, (c82Shared.mesh.net.site a).Known (c78Stored a) d f o (.ccsds i x) → x.rsi * x.blockSize ≠ 0 := by
  refine ⟨fun a => ?_, fun a d f o i x h => ?_⟩
  · rw [show (c82Shared.mesh.net.site a).reader = toyReader from c78_reader a]
    exact ⟨(fun h => by cases h), (fun h => by cases h), (fun h => by cases h)⟩
  · obtain ⟨⟨b, hb⟩, -⟩ := c78_known (a := a) h
    cases hb

end GJ
