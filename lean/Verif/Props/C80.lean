import Verif.Lemmas.MeshScan
import Verif.Props.C78

/-!
# C80: several processes that forward scans and extractions to each other

The processes of C76 and C78, in which scans wait in the work queues, too, and are forwarded (`Model/Mesh.lean`).
-/

namespace GJ
open Spec

/-! ## Scans -/

/-- What was sent is what arrives. -/
theorem forwardScan_arrives {ctx c : String} {files sm : ScanMap} (hk : files.keys.Nodup)
    (h : dispatch (encHeader .forwardScan ctx ++ encForwardScan files) = .ok ((c, .forwardScan sm), [])) : sm = files := by
  have hd : dispatch (encHeader .forwardScan ctx ++ encForwardScan files) = .ok ((ctx, .forwardScan files), []) := by
    rw [dispatch, Dec.bind_ok (C21_header .forwardScan ctx (encForwardScan files))]
    have h2 := C21_forward_scan_request files hk []
    rw [List.append_nil] at h2
    show (decForwardScan >>= _) _ = _
    rw [Dec.bind_ok h2]
    rfl
  rw [hd] at h
  cases h
  rfl

/-- C80.  A scan that has returned a number, at any process, has returned the sum of the numbers of its tasks: for a task on a
file, how many of its messages had no entry in the index of the process at a moment in its execution, all of which had one at
a moment not before that; for a task sent to another process, the sum of the same over the files sent, at that process,
before a moment in the execution of the task.  Whatever else is scanned, extracted, sent, lost or appended at all
processes. -/
theorem C80_scan_counts (X : Mesh) (U : Nat → String → Prop) (asked : Nat → Nat → Asked)
    (written : Nat → Nat → List ExRequest) (sound : X.Sound U asked written) (st : MeshSys) (began : X.Began U st)
    (es : List NetEv) (allowed : ∀ e ∈ es, NetEv.Allowed U e) (s : MeshSys) (history : X.run st es = .ok s) (a g : Nat)
    (kinds : List ScanKind) (scan : X.scans a g = some kinds)
    (once : ∀ server files, .forward server files ∈ kinds → files.keys.Nodup)
    (returned : ((s a).srv.x.t.grp g).phase = .returned) (c : Nat) (got : (s a).scanOutcome g = .ok c) :
    ∃ ns : List Nat, ns.length = kinds.length ∧ c = ns.sum ∧
      ∀ (j : Nat) (k : ScanKind) (n : Nat), kinds[j]? = some k → ns[j]? = some n → X.TaskCounted st es a g j n k := by
  have file : ∀ {es : List NetEv} {a g j n : Nat} {path : String} {os : List Nat},
      DoneBy (fun g j n _ _ => X.Heard st es a g j n) (X.net.site a).reader (X.net.site a).offs
        (fun y z => ∃ Y Z : MeshSys, Y a = y ∧ Z a = z ∧ X.Passed st es Y Z) g j n (.file path os) →
      X.FileCounted st es a g j path os n := by
    rintro es a g j n path os ⟨y, z, l, ⟨Y, Z, rfl, rfl, h1⟩, h2⟩
    exact ⟨Y, Z, l, h1, h2⟩
  obtain ⟨ns, h1, h2, h3⟩ := mesh_counts sound began allowed history scan returned got
  refine ⟨ns, h1, h2, fun j k n hj hn => ?_⟩
  have hd := h3 j k n hj hn
  cases k with
  | file path os => exact file hd
  | forward server files =>
    obtain ⟨b, h, es1, es2, Y, hl, rfl, hr, hx, hret, hout⟩ := hd
    obtain ⟨ks, server', files', sm, s1, s2, s3, s4, s5⟩ := sound.sent _ _ _ _ _ hl
    rw [scan] at s1
    cases s1
    rw [hj] at s2
    cases s2
    rw [forwardScan_arrives (once _ _ (List.mem_of_getElem? hj)) s4] at s5
    subst s3
    obtain ⟨ms, m1, m2, m3⟩ := mesh_counts sound began (fun e he => allowed e (List.mem_append_left _ he)) hr s5 hret hout
    rw [List.length_map] at m1
    refine ⟨h, es1, es2, Y, ms, rfl, hr, hx, m1, m2, fun i file' m hi hm => file (m3 i _ m ?_ hm)⟩
    rw [List.getElem?_map, hi]; rfl

/-! ## Extractions -/

theorem mesh_group {X : Mesh} {s : MeshSys} {a g : Nat} (h : X.scans a g = none) :
    (X.view s a).x.t.grp g = (s a).srv.x.t.grp g := view_grp (mesh_scan_none h)

theorem mesh_outcome {X : Mesh} {written : Nat → Nat → List ExRequest} {s : MeshSys} {a g : Nat} (h : X.scans a g = none) :
    Net.outcome written (X.view s) a g = Net.outcome written (fun a => (s a).srv) a g := by
  unfold Net.outcome
  rw [mesh_group h]
  rfl

/-- C80 (partial).  Processes compute with the numbers of the machine.  A client's call on a process that forwards has
returned without an error, while scans and extractions of others went on at all processes, forwarded or not, and connections
were lost.  Then there is one result per request, in order, and the result for a request is what decoding the one matching
message gives, as it is in the files of the process responsible for it.
Missing: as for C78. -/
theorem C80_forwarded_values_partial (X : Mesh) (U : Nat → String → Prop) (asked : Nat → Nat → Asked)
    (written : Nat → Nat → List ExRequest) (sound : X.Sound U asked written) (mem : Nat → Nat)
    (machine : ∀ a, (X.net.site a).jump = machineExtract (mem a) (X.net.site a).reader) (limit : Nat) (small : limit < 2 ^ 58)
    (s : MeshSys) (reached : X.Reached U s) (a g : Nat) (extraction : X.scans a g = none) (client : X.net.origin a g = none)
    (forwards : (X.net.site a).conf.forward = true) (returned : ((s a).srv.x.t.grp g).phase = .returned)
    (strict : (X.net.site a).conf.allowMissing = false) (cat : List (FdbKey × Uri))
    (catalogue : Catalogue (X.net.site a).conf.ignoreYearMonth cat) (lists : ListsOnly ((X.net.site a).calls g) cat)
    (rs : List ExRequest) (ws : List WrittenRequest) (text : Written rs ws)
    (intervals : ∀ q ∈ rs, ∀ i ∈ q.ranges, i.b ≤ i.e ∧ i.e ≤ limit)
    (ordinary : ∀ e ∈ cat, ∀ b file i, (s b).srv.svc.disk e.2.path = some file →
      buildInfo (X.net.site b).reader file e.2.offset = .ok i → Ordinary limit e.2.offset i)
    (request : asked a g = .fields rs) (out : List WireResult)
    (got : Net.outcome written (fun a => (s a).srv) a g = .ok out) :
    out.length = rs.length ∧ ∀ i (hi : i < rs.length) (hj : i < ws.length),
      ∃ e ∈ cat, SameField (X.net.site a).conf.ignoreYearMonth ws[i].pairs e.1 ∧
        (∀ e' ∈ cat, SameField (X.net.site a).conf.ignoreYearMonth ws[i].pairs e'.1 → e' = e) ∧
        ∃ server r, (X.net.site a).conf.servers.find (e.2.host, e.2.port) = some server ∧ out[i]? = some r ∧
          ∃ file h, (s (X.net.host server)).srv.svc.disk e.2.path = some file ∧
            (X.net.site (X.net.host server)).reader.parse (file.drop e.2.offset) = some h ∧
            messageExtract (X.net.site (X.net.host server)).reader file e.2.offset rs[i].ranges = .ok r ∧
            ((X.net.site (X.net.host server)).conf.ignoreGrid = false →
              rs[i].gridHash ≠ "" ∧ rs[i].gridHash = h.md5GridSection) :=
  C78_forwarded_values_partial X.net U asked written sound.net mem machine limit small (X.view s)
    (mesh_reached sound reached) a g client forwards (by rw [mesh_group extraction]; exact returned) strict cat catalogue
    lists rs ws text intervals ordinary request out (by rw [mesh_outcome extraction]; exact got)

/-- C80 (partial).  The same for requests by path with host and port.  Missing: as for C78. -/
theorem C80_forwarded_paths_partial (X : Mesh) (U : Nat → String → Prop) (asked : Nat → Nat → Asked)
    (written : Nat → Nat → List ExRequest) (sound : X.Sound U asked written) (mem : Nat → Nat)
    (machine : ∀ a, (X.net.site a).jump = machineExtract (mem a) (X.net.site a).reader) (limit : Nat) (small : limit < 2 ^ 58)
    (s : MeshSys) (reached : X.Reached U s) (a g : Nat) (extraction : X.scans a g = none) (client : X.net.origin a g = none)
    (returned : ((s a).srv.x.t.grp g).phase = .returned) (rs : List PathReq)
    (remote : ∀ q ∈ rs, q.host ≠ "" ∨ q.port ≠ 0) (intervals : ∀ q ∈ rs, ∀ i ∈ q.ranges, i.b ≤ i.e ∧ i.e ≤ limit)
    (place : ∀ a ∈ rs, ∀ b ∈ rs, a.path = b.path → a.scheme = b.scheme ∧ a.host = b.host ∧ a.port = b.port)
    (ordinary : ∀ q ∈ rs, ∀ b file i, (s b).srv.svc.disk q.path = some file →
      buildInfo (X.net.site b).reader file q.offset = .ok i → Ordinary limit q.offset i)
    (request : asked a g = .paths rs) (out : List WireResult) (got : Net.outcome written (fun a => (s a).srv) a g = .ok out) :
    out.length = rs.length ∧ ∀ (i : Nat) q, rs[i]? = some q →
      ∃ server r, (X.net.site a).conf.servers.find (q.host, q.port) = some server ∧ out[i]? = some r ∧
        ∃ file h, (s (X.net.host server)).srv.svc.disk q.path = some file ∧
          (X.net.site (X.net.host server)).reader.parse (file.drop q.offset) = some h ∧
          messageExtract (X.net.site (X.net.host server)).reader file q.offset q.ranges = .ok r ∧
          ((X.net.site (X.net.host server)).conf.ignoreGrid = false → q.gridHash ≠ "" ∧ q.gridHash = h.md5GridSection) :=
  C78_forwarded_paths_partial X.net U asked written sound.net mem machine limit small (X.view s)
    (mesh_reached sound reached) a g client (by rw [mesh_group extraction]; exact returned) rs remote intervals place ordinary
    request out (by rw [mesh_outcome extraction]; exact got)

/-- C80 (partial).  A client's call on a process that does not forward.  Missing: as for C78. -/
theorem C80_local_values_partial (X : Mesh) (U : Nat → String → Prop) (asked : Nat → Nat → Asked)
    (written : Nat → Nat → List ExRequest) (sound : X.Sound U asked written) (mem : Nat) (s : MeshSys)
    (reached : X.Reached U s) (a g : Nat) (machine : (X.net.site a).jump = machineExtract mem (X.net.site a).reader)
    (limit : Nat) (small : limit < 2 ^ 58) (extraction : X.scans a g = none) (client : X.net.origin a g = none)
    (stays : (X.net.site a).conf.forward = false)
    (returned : ((s a).srv.x.t.grp g).phase = .returned) (strict : (X.net.site a).conf.allowMissing = false)
    (cat : List (FdbKey × Uri)) (catalogue : Catalogue (X.net.site a).conf.ignoreYearMonth cat)
    (lists : ListsOnly ((X.net.site a).calls g) cat) (rs : List ExRequest) (ws : List WrittenRequest) (text : Written rs ws)
    (intervals : ∀ q ∈ rs, ∀ i ∈ q.ranges, i.b ≤ i.e ∧ i.e ≤ limit)
    (ordinary : ∀ e ∈ cat, ∀ file i, (s a).srv.svc.disk e.2.path = some file →
      buildInfo (X.net.site a).reader file e.2.offset = .ok i → Ordinary limit e.2.offset i)
    (request : asked a g = .fields rs) (out : List WireResult)
    (got : Net.outcome written (fun a => (s a).srv) a g = .ok out) :
    out.length = rs.length ∧ ∀ i (hi : i < rs.length) (hj : i < ws.length),
      ∃ e ∈ cat, SameField (X.net.site a).conf.ignoreYearMonth ws[i].pairs e.1 ∧
        (∀ e' ∈ cat, SameField (X.net.site a).conf.ignoreYearMonth ws[i].pairs e'.1 → e' = e) ∧
        ∃ r, out[i]? = some r ∧ (e.2.scheme = "fdb" → (X.net.site a).fetch e.2 rs[i].ranges = .ok r) ∧
          (e.2.scheme ≠ "fdb" → ∃ file h, (s a).srv.svc.disk e.2.path = some file ∧
            (X.net.site a).reader.parse (file.drop e.2.offset) = some h ∧
            messageExtract (X.net.site a).reader file e.2.offset rs[i].ranges = .ok r ∧
            ((X.net.site a).conf.ignoreGrid = false → rs[i].gridHash ≠ "" ∧ rs[i].gridHash = h.md5GridSection)) :=
  C78_local_values_partial X.net U asked written sound.net mem (X.view s) (mesh_reached sound reached) a g machine limit small
    client stays (by rw [mesh_group extraction]; exact returned) strict cat catalogue lists rs ws text intervals ordinary
    request out (by rw [mesh_outcome extraction]; exact got)

/-- C80 (partial).  The same for requests by path without host and port.  Missing: as for C78. -/
theorem C80_local_paths_partial (X : Mesh) (U : Nat → String → Prop) (asked : Nat → Nat → Asked)
    (written : Nat → Nat → List ExRequest) (sound : X.Sound U asked written) (mem : Nat) (s : MeshSys)
    (reached : X.Reached U s) (a g : Nat) (machine : (X.net.site a).jump = machineExtract mem (X.net.site a).reader)
    (limit : Nat) (small : limit < 2 ^ 58) (extraction : X.scans a g = none) (client : X.net.origin a g = none)
    (returned : ((s a).srv.x.t.grp g).phase = .returned) (rs : List PathReq)
    (here : ∀ q ∈ rs, q.host = "" ∧ q.port = 0) (place : ∀ a ∈ rs, ∀ b ∈ rs, a.path = b.path → a.scheme = b.scheme)
    (intervals : ∀ q ∈ rs, ∀ i ∈ q.ranges, i.b ≤ i.e ∧ i.e ≤ limit)
    (ordinary : ∀ q ∈ rs, ∀ file i, (s a).srv.svc.disk q.path = some file →
      buildInfo (X.net.site a).reader file q.offset = .ok i → Ordinary limit q.offset i)
    (request : asked a g = .paths rs) (out : List WireResult) (got : Net.outcome written (fun a => (s a).srv) a g = .ok out) :
    out.length = rs.length ∧ ∀ (i : Nat) q, rs[i]? = some q →
      ∃ r, out[i]? = some r ∧ (q.scheme = "fdb" → (X.net.site a).fetch q.uri q.ranges = .ok r) ∧
        (q.scheme ≠ "fdb" → ∃ file h, (s a).srv.svc.disk q.path = some file ∧
          (X.net.site a).reader.parse (file.drop q.offset) = some h ∧
          messageExtract (X.net.site a).reader file q.offset q.ranges = .ok r ∧
          ((X.net.site a).conf.ignoreGrid = false → q.gridHash ≠ "" ∧ q.gridHash = h.md5GridSection)) :=
  C78_local_paths_partial X.net U asked written sound.net mem (X.view s) (mesh_reached sound reached) a g machine limit small
    client (by rw [mesh_group extraction]; exact returned) rs here place intervals ordinary request out
    (by rw [mesh_outcome extraction]; exact got)

/-! ## No undefined behaviour -/

/-- Files of all processes. -/
def MeshSys.disks (s : MeshSys) : Nat → Disk := fun a => (s a).srv.svc.disk

theorem mesh_step_disks {X : Mesh} {s s' : MeshSys} {e : NetEv} (h : X.step s e = .ok s') :
    MeshSys.disks s' = e.grow (MeshSys.disks s) := by
  funext b
  rcases hact : X.act s e with ⟨a, _ | ⟨M, e'⟩⟩
  · rw [Mesh.step, hact] at h
    simp only [] at h
    rw [← Except.ok.inj h]
    cases e with
    | lost a w => rfl
    | on a' e =>
      have hg : e.grow (MeshSys.disks s b) = MeshSys.disks s b := by
        cases e with
        | queue q => rfl
        | other o => cases hact
      show _ = if b = a' then e.grow (MeshSys.disks s b) else MeshSys.disks s b
      rw [hg]
      split <;> rfl
  · rw [Mesh.step, hact] at h
    simp only [] at h
    obtain ⟨y, hy, h⟩ := res_bind_inv h
    have hd := mix_grow hy
    rw [← Except.ok.inj h]
    have other : b ≠ a → e.grow (MeshSys.disks s) b = MeshSys.disks s b := by
      intro hb
      rcases mesh_act_inv hact with ⟨-, rfl, -⟩ | ⟨w, g, j, -, -, ⟨rfl, -⟩ | ⟨rfl, -⟩⟩
      · exact if_neg hb
      · exact if_neg hb
      · rfl
    by_cases hb : b = a
    · subst hb
      show (if b = b then y else s b).srv.svc.disk = _
      rw [if_pos rfl, hd]
      rcases mesh_act_inv hact with ⟨-, rfl, -⟩ | ⟨w, g, j, rfl, -, ⟨rfl, -⟩ | ⟨rfl, -⟩⟩
      · exact (if_pos rfl).symm
      · exact (if_pos rfl).symm
      · rfl
    · show (if b = a then y else s b).srv.svc.disk = _
      rw [if_neg hb]
      exact (other hb).symm

/-- What the other processes say about a scan is something. -/
theorem mesh_answers {X : Mesh} {U : Nat → String → Prop} {asked : Nat → Nat → Asked} {written : Nat → Nat → List ExRequest}
    (sound : X.Sound U asked written) {s : MeshSys} (kinds : ∀ a, (s a).Kinds (X.alone a)) {e : NetEv} {a : Nat} {M : MixSite} {e' : SrvEv}
    (hact : X.act s e = (a, some (M, e'))) {w g j t : Nat} {server : String × Int} {files : ScanMap}
    (he : e' = .queue (.work w)) (hw : (s a).srv.x.t.workers[w]? = some (.running g j)) (hg : X.scan a g = true)
    (hT : ((s a).jobs g).tasks[j]? = some (.forward server files, .fresh)) : M.forward g t server files ≠ undef := by
  rcases mesh_act_inv hact with ⟨rfl, -⟩ | ⟨w', g', j', he', hline, hcase⟩
  · intro h; cases h
  · rw [he] at he'
    cases he'
    obtain ⟨hw', -⟩ := line_inv hline
    rw [hw] at hw'
    cases hw'
    rcases hcase with ⟨-, hrep⟩ | ⟨-, rfl⟩
    · rw [Mesh.reply, if_pos hg] at hrep
      cases hl : X.link a g j with
      | none => rw [hl] at hrep; cases hrep; intro h; cases h
      | some q =>
        obtain ⟨b, h⟩ := q
        rw [hl] at hrep
        simp only [] at hrep
        split at hrep
        · cases hrep
          obtain ⟨ks, server', files', sm, h1, h2, h3, h4, h5⟩ := sound.sent _ _ _ _ _ hl
          have hk : some (ScanKind.forward server files) = ks[j]? := by
            have := kinds a g
            rw [show (X.alone a).scans g = some ks from h1] at this
            rw [show ks = ((s a).jobs g).tasks.map Prod.fst from this.symm, List.getElem?_map, hT]; rfl
          rw [h2] at hk
          cases hk
          show remoteForwardScan (Mesh.answering s b h) (X.net.ctx a g) files ≠ undef
          rw [answering_scan h4]
          split <;> (intro h; cases h)
        · cases hrep
    · intro h; cases h

/-- A step can be made if those who extract can make it. -/
theorem mesh_defined_of {X : Mesh} {U : Nat → String → Prop} {asked : Nat → Nat → Asked}
    {written : Nat → Nat → List ExRequest} (sound : X.Sound U asked written) {st : MeshSys} (began : X.Began U st) {s : MeshSys}
    (inv : MeshInv X U st s) {e : NetEv} (hae : NetEv.Allowed U e)
    (net : ∀ f, NetEv.Allowed U f → (∀ b w, f = .lost b w → e = .lost b w) → ∃ s', X.net.step (X.view s) f = .ok s') :
    ∃ s', X.step s e = .ok s' := by
  rcases hact : X.act s e with ⟨a, _ | ⟨M, e'⟩⟩
  · exact ⟨s, by rw [Mesh.step, hact]⟩
  obtain ⟨fw, n, hM⟩ := mesh_act_site hact
  suffices hy : ∃ y, (s a).step M e' = .ok y by
    obtain ⟨y, hy⟩ := hy
    exact ⟨_, by rw [Mesh.step, hact]; simp only []; rw [hy, ok_bind]⟩
  have seen : ∀ w, e' = .queue (.work w) → XEv.ofScan (X.scan a) (s a).srv.x.t (.work w) = false →
      ∃ y, (X.view s a).step M.site e' = .ok y := by
    intro w he hs
    subst he
    have next : ∀ f p, NetEv.Allowed U f → (∀ b w, f = .lost b w → e = .lost b w) →
        X.net.act (X.view s) f = (a, some (p, .queue (.work w))) →
        ∃ y, (X.view s a).step p (.queue (.work w)) = .ok y := by
      intro f p haf hl hp
      obtain ⟨s', hs'⟩ := net f haf hl
      rw [Net.step, hp] at hs'
      simp only [] at hs'
      obtain ⟨y, hy, -⟩ := res_bind_inv hs'
      exact ⟨y, hy⟩
    have hv := line_view hs
    rcases mesh_act_inv hact with ⟨rfl, -, hline, -⟩ | ⟨w', g, j, he', hline, hcase⟩
    · rw [hline w rfl] at hv
      exact next (.on a (.queue (.work w))) (X.net.site a) trivial (fun _ _ h => by cases h) (by rw [Net.act, hv])
    · cases he'
      rw [hline] at hv
      have hg : X.scan a g = false := by
        have hw := (line_inv hline).1
        simpa [XEv.ofScan, hw, WPc.group] using hs
      rcases hcase with ⟨-, hrep⟩ | ⟨he, rfl⟩
      · rw [Mesh.reply, hg] at hrep
        simp only [Bool.false_eq_true, if_false] at hrep
        obtain ⟨r, hr1, rfl⟩ := Option.map_eq_some_iff.mp hrep
        refine next (.on a (.queue (.work w))) ((X.net.site a).hearing r) trivial (fun _ _ h => by cases h) ?_
        rw [Net.act, hv]
        simp only []
        rw [reply_view sound, hr1]; rfl
      · exact next (.lost a w) _ trivial (fun _ _ h => by rw [← h]; exact he) (by rw [Net.act, hv]; rfl)
  obtain ⟨E, hE⟩ := inv.calls a
  refine mix_defined_of (M := M) (U := U a) (E := E) (C := (X.net.site a).conf) (P := X.tasks a) ?_ ?_ ?_ ?_ ?_ ?_ (inv.direct a)
    ?_ (mesh_act_allowed hact hae) ?_
  · rw [hM]; exact sound.net.reader a
  · rw [hM]; exact sound.net.offs a
  · rw [hM]; exact sound.within a
  · rw [hM]; exact hE
  · rw [hM]; exact inv.good sound began a
  · rw [hM]; exact inv.kinds a
  · intro w g j server files he hw hg hT
    exact mesh_answers sound inv.kinds hact he hw (by rw [hM] at hg; exact hg) hT
  · intro w he hs
    have hsc : M.scan = X.scan a := by rw [hM]; rfl
    rw [hsc] at hs
    obtain ⟨y, hy⟩ := seen w he hs
    refine ⟨y, ?_⟩
    have hvw : (s a).view M = X.view s a := by show (s a).srv.view M.scan = _; rw [hsc]; rfl
    rw [hvw]; exact hy

/-- Every step can be made. -/
theorem mesh_defined_step {X : Mesh} {U : Nat → String → Prop} {asked : Nat → Nat → Asked}
    {written : Nat → Nat → List ExRequest} (sound : X.Sound U asked written) {mem : Nat → Nat} (memory : ∀ a, mem a ≤ 2 ^ 60)
    (lib : ∀ a, AecContract (X.net.site a).reader.lib) {stored : Nat → Uri → Info → Prop}
    (machine : ∀ a, (X.net.site a).Machine (mem a) (stored a)) {st : MeshSys} (began : X.Began U st) {D : Nat → Disk}
    (blocks : ∀ a f o i x, (X.net.site a).Known (stored a) (D a) f o (.ccsds i x) → x.rsi * x.blockSize ≠ 0)
    (acceptable : ∀ a g, X.net.origin a g = none → (X.net.jobs a g).2 ≠ [] →
      (asked a g).Acceptable ((X.net.site a).calls g) (X.net.site a).conf (X.net.Known stored D))
    {es : List NetEv} {e : NetEv} (allowed : ∀ x ∈ es ++ [e], NetEv.Allowed U x) {s : MeshSys} (hrun : X.run st es = .ok s)
    (hD : ∀ a, (MeshSys.disks s a).Before (D a)) : ∃ s', X.step s e = .ok s' := by
  have inv := mesh_ran sound began (fun x hx => allowed x (List.mem_append_left _ hx)) hrun
  have hae := allowed e (List.mem_append_right _ (List.mem_singleton.mpr rfl))
  refine mesh_defined_of sound began inv hae fun f haf _ => ?_
  obtain ⟨fs, hf, hr⟩ := inv.seen
  exact net_defined_step sound.net memory lib machine (mesh_view_began began) (D := D) blocks acceptable
    (es := fs) (e := f) (by
      intro x hx
      rcases List.mem_append.mp hx with hx | hx
      · exact hf x hx
      · rw [List.mem_singleton] at hx; rw [hx]; exact haf) hr hD

/-- C80 (partial).  Processes that compute with the numbers of the machine, in at most `2^60` bytes of memory, serve clients
and each other, with extractions and scans; connections are lost and files grow, in any order.  If the extractions of clients
may be asked for, no step of any process is undefined behaviour, nor what a call returns.
Missing: requests that may not be made (C53, C55), a library that breaks its contract, compressed messages with an empty
block. -/
theorem C80_defined_partial (X : Mesh) (U : Nat → String → Prop) (asked : Nat → Nat → Asked)
    (written : Nat → Nat → List ExRequest) (sound : X.Sound U asked written) (mem : Nat → Nat) (memory : ∀ a, mem a ≤ 2 ^ 60)
    (lib : ∀ a, AecContract (X.net.site a).reader.lib) (stored : Nat → Uri → Info → Prop)
    (machine : ∀ a, (X.net.site a).Machine (mem a) (stored a)) (st : MeshSys) (began : X.Began U st) (es : List NetEv)
    (allowed : ∀ e ∈ es, NetEv.Allowed U e)
    (blocks : ∀ a f o i x, (X.net.site a).Known (stored a) (netDisks (MeshSys.disks st) es a) f o (.ccsds i x) →
      x.rsi * x.blockSize ≠ 0)
    (acceptable : ∀ a g, X.net.origin a g = none → (X.net.jobs a g).2 ≠ [] →
      (asked a g).Acceptable ((X.net.site a).calls g) (X.net.site a).conf (X.net.Known stored (netDisks (MeshSys.disks st) es))) :
    ∃ s, X.run st es = .ok s ∧ ∀ a g, Net.outcome written (fun a => (s a).srv) a g ≠ undef ∧ (s a).scanOutcome g ≠ undef := by
  have run : ∃ s, X.run st es = .ok s := by
    generalize hD : netDisks (MeshSys.disks st) es = D at blocks acceptable
    have hb : ∀ es1 es2, es = es1 ++ es2 → ∃ s, X.run st es1 = .ok s ∧ MeshSys.disks s = netDisks (MeshSys.disks st) es1 := by
      intro es1
      generalize hn : es1.length = n
      induction n generalizing es1 with
      | zero =>
        intro es2 _
        cases List.length_eq_zero_iff.mp hn
        exact ⟨st, rfl, rfl⟩
      | succ n ih =>
        intro es2 he
        have hne : es1 ≠ [] := by intro h; rw [h] at hn; cases hn
        obtain ⟨es0, e, rfl⟩ : ∃ es0 e, es1 = es0 ++ [e] := ⟨_, _, (List.dropLast_concat_getLast hne).symm⟩
        rw [List.append_assoc] at he
        obtain ⟨s0, h0, hd0⟩ := ih es0 (by rw [List.length_append] at hn; exact Nat.succ.inj hn) _ he
        have hal : ∀ x ∈ es0 ++ [e], NetEv.Allowed U x := by
          intro x hx
          refine allowed x ?_
          rw [he, ← List.append_assoc]
          exact List.mem_append_left _ hx
        have hdisk : ∀ a, (MeshSys.disks s0 a).Before (D a) := by
          intro a
          rw [hd0, ← hD, he]
          show (netDisks _ _ a).Before (netDisks _ (es0 ++ _) a)
          unfold netDisks
          rw [List.foldl_append]
          exact netDisks_before _ _ a
        obtain ⟨s1, h1⟩ := mesh_defined_step sound memory lib machine began blocks acceptable hal h0 hdisk
        refine ⟨s1, mesh_snoc h0 h1, ?_⟩
        rw [mesh_step_disks h1, hd0]
        unfold netDisks
        rw [List.foldl_append]
        rfl
    obtain ⟨s, h, -⟩ := hb es [] (List.append_nil es).symm
    exact ⟨s, h⟩
  obtain ⟨s, h⟩ := run
  refine ⟨s, h, fun a g => ⟨?_, ?_⟩⟩
  · unfold Net.outcome callEnd
    exact (localTail_safe _ _).1
  · rw [Mix.scanOutcome]
    split <;> (intro h; cases h)

/-! ## Cases -/

/-- A scan of a client of the front, of a file at each of the two processes; and a scan of a client of the first process. -/
def c80Scans : Nat → Nat → Option (List ScanKind)
  | 0, 5 => some [.forward ("gx", 1) [("/fdb/a.data", [0, 6])], .forward ("gy", 2) [("/fdb/b.data", [0])]]
  | 1, 5 => some [.file "/fdb/a.data" [0, 6]]
  | 2, 5 => some [.file "/fdb/b.data" [0]]
  | 1, 6 => some [.file "/fdb/a.data" [0], .file "/fdb/a.data" [6]]
  | _, _ => none

def c80Link : Nat → Nat → Nat → Option (Nat × Nat)
  | 0, 5, 0 => some (1, 5)
  | 0, 5, 1 => some (2, 5)
  | _, _, _ => none

def c80Source : Nat → Nat → Option (Nat × Nat × Nat)
  | 1, 5 => some (0, 5, 0)
  | 2, 5 => some (0, 5, 1)
  | _, _ => none

/-- The processes of C78, with scans. -/
def c80Mesh : Mesh := ⟨c78Net, c80Scans, c80Link, c80Source⟩

def c80Start : MeshSys := c80Mesh.start c76Disk (fun _ => .shadow) (fun _ => true) (fun _ => 4) (fun _ => [])

/-- The threads of the scans, then what happens in C76. -/
def c80Turns : List NetEv :=
  [.on 0 (.queue (.add 5)), .on 0 (.queue (.push 5)), .on 0 (.queue (.wait 5)),
   .on 1 (.queue (.add 5)), .on 1 (.queue (.push 5)), .on 1 (.queue (.wait 5)),
   .on 1 (.queue (.add 6)), .on 1 (.queue (.push 6)), .on 1 (.queue (.wait 6)),
   .on 2 (.queue (.add 5)), .on 2 (.queue (.push 5)), .on 2 (.queue (.wait 5))] ++ c76Turns ++
  [.on 0 (.queue (.ret 5)), .on 1 (.queue (.ret 5)), .on 1 (.queue (.ret 6)), .on 2 (.queue (.ret 5))]

def c80Ev (k : Nat) : NetEv := c80Turns[k % 59]?.getD (.on 0 (.other .clear))

def c80At (k : Nat) : Res MeshSys := c80Mesh.run c80Start ((List.range k).map c80Ev)

def c80Seen (k : Nat) : Option (Phase × Phase × Phase × Phase × Phase × Phase) :=
  match c80At k with
  | .ok s => some (((s 0).srv.x.t.grp 0).phase, ((s 0).srv.x.t.grp 1).phase, ((s 1).srv.x.t.grp 0).phase,
      ((s 1).srv.x.t.grp 2).phase, ((s 0).srv.x.t.grp 5).phase, ((s 1).srv.x.t.grp 6).phase)
  | .error _ => none

def c80Out (k a g : Nat) : Res (List WireResult) := do
  let s ← c80At k
  Net.outcome c76Written (fun a => (s a).srv) a g

def c80Count (k a g : Nat) : Res Nat := do
  let s ← c80At k
  (s a).scanOutcome g

theorem c80_sound : c80Mesh.Sound c76Names c76Asked c76Written where
  net := c78_sound
  apart a g t b h e := by
    have e : c76Target a g t = some (b, h) := e
    unfold c76Target at e
    split at e <;> first | (cases e; done) | (cases e; exact ⟨rfl, rfl⟩)
  back a g t b h := by
    show c80Link a g t = some (b, h) ↔ c80Source b h = some (a, g, t)
    constructor
    · intro e
      unfold c80Link at e
      split at e <;> first | (cases e; done) | (cases e; rfl)
    · intro e
      unfold c80Source at e
      split at e <;> first | (cases e; done) | (cases e; rfl)
  sent a g t b h e := by
    have arrives : ∀ files : ScanMap, files.keys.Nodup →
        dispatch (encHeader .forwardScan "ctx" ++ encForwardScan files) = .ok (("ctx", .forwardScan files), []) := by
      intro files hk
      rw [dispatch, Dec.bind_ok (C21_header .forwardScan "ctx" (encForwardScan files))]
      have h2 := C21_forward_scan_request files hk []
      rw [List.append_nil] at h2
      show (decForwardScan >>= _) _ = _
      rw [Dec.bind_ok h2]
      rfl
    have e : c80Link a g t = some (b, h) := e
    unfold c80Link at e
    split at e
    · cases e; exact ⟨_, _, _, _, rfl, rfl, rfl, arrives _ (by decide), rfl⟩
    · cases e; exact ⟨_, _, _, _, rfl, rfl, rfl, arrives _ (by decide), rfl⟩
    · cases e
  within a g ks hk k hm path os e := by
    have hk : c80Scans a g = some ks := hk
    subst e
    unfold c80Scans at hk
    split at hk
    all_goals first | (cases hk; done) | skip
    all_goals
      cases hk
      simp only [List.mem_cons, List.mem_nil_iff, or_false, ScanKind.file.injEq, reduceCtorEq] at hm
    · exact .inl hm.1
    · exact .inr hm.1
    · rcases hm with hm | hm <;> exact .inl hm.1

theorem c80_began : c80Mesh.Began c76Names c80Start :=
  ⟨c76Disk, fun _ => .shadow, fun _ => true, fun _ => 4, fun _ => [], c76_apart, fun _ => Nat.succ_pos 3,
    fun a => c76_agree _ a, rfl⟩

theorem c80_allowed (k : Nat) : NetEv.Allowed c76Names (c80Ev k) := by
  have h : ∀ e ∈ c80Turns, NetEv.Allowed c76Names e := by
    intro e he
    simp only [c80Turns, c76Turns, List.cons_append, List.nil_append, List.mem_cons, List.mem_nil_iff, or_false] at he
    repeat' (rcases he with rfl | he <;> first | trivial | exact Or.inl rfl | exact Or.inr rfl | skip)
    all_goals first | (subst he; trivial)
  unfold c80Ev
  cases he : c80Turns[k % 59]? with
  | none => trivial
  | some e => exact h e (List.mem_of_getElem? he)

theorem c80_history (k : Nat) : ∀ e ∈ (List.range k).map c80Ev, NetEv.Allowed c76Names e := by
  intro e he
  obtain ⟨i, -, rfl⟩ := List.mem_map.mp he
  exact c80_allowed i

/-- Non-vacuity: four extractions and two scans of clients return, one of the scans with what the other processes counted. -/
example : c80Seen 1829 = some (.returned, .returned, .returned, .returned, .returned, .returned) ∧
    c80Count 1829 0 5 = .ok 1 ∧ c80Count 1829 1 6 = .ok 1 ∧
    c80Out 1829 0 0 = .ok [⟨[[10, 11, 12, 13]], [[15]]⟩, ⟨[[21], [22, 23]], [[1], [3]]⟩, ⟨[[7, 8]], [[3]]⟩] ∧
    c80Out 1829 0 1 = .ok [⟨[[20, 21]], [[3]]⟩] ∧ c80Out 1829 1 0 = .ok [⟨[[7]], [[1]]⟩] ∧
    c80Out 1829 1 2 = .ok [⟨[[11], [12, 13]], [[1], [3]]⟩, ⟨[[7, 8]], [[3]]⟩] ∧
    c80Mesh.Sound c76Names c76Asked c76Written ∧ c80Mesh.Began c76Names c80Start ∧
    (∀ e ∈ (List.range 1829).map c80Ev, NetEv.Allowed c76Names e) ∧
    ∀ server files, ScanKind.forward server files ∈ (c80Scans 0 5).getD [] → files.keys.Nodup := by
  refine ⟨by decide +kernel, by decide +kernel, by decide +kernel, by decide +kernel, by decide +kernel, by decide +kernel,
    by decide +kernel, c80_sound, c80_began, c80_history _, ?_⟩
  intro server files h
  simp only [c80Scans, Option.getD_some, List.mem_cons, List.mem_nil_iff, or_false, ScanKind.forward.injEq] at h
  rcases h with ⟨-, rfl⟩ | ⟨-, rfl⟩ <;> decide

/-- Non-vacuity of the theorems on values: the state above is reached, and the hypotheses hold (the others: C76, C78). -/
example : (∀ s, c80At 1829 = .ok s → c80Mesh.Reached c76Names s) ∧
    (∀ a, (c80Mesh.net.site a).jump = machineExtract 1000 (c80Mesh.net.site a).reader) ∧
    (∀ e ∈ c52Cat ++ c50Cat, ∀ b file i, buildInfo (c80Mesh.net.site b).reader file e.2.offset = .ok i →
      Ordinary 1000 e.2.offset i) ∧
    (∀ q ∈ c50Reqs, ∀ i ∈ q.ranges, i.b ≤ i.e ∧ i.e ≤ 1000) ∧
    c80Mesh.scans 0 0 = none ∧ c80Mesh.scans 0 1 = none ∧ c80Mesh.scans 1 0 = none ∧ c80Mesh.scans 1 2 = none := by
  refine ⟨fun s h => ⟨_, _, c80_began, c80_history _, h⟩, fun a => rfl, ?_, by decide, rfl, rfl, rfl, rfl⟩
  intro e he b file i h
  rw [show (c80Mesh.net.site b).reader = toyReader from c78_reader b] at h
  refine toy_ordinary h ?_
  have : ((c52Cat ++ c50Cat).all fun e => decide (e.2.offset ≤ 1000)) = true := by decide +kernel
  exact of_decide_eq_true (p := e.2.offset ≤ 1000) (List.all_eq_true.mp this e he)

end GJ
