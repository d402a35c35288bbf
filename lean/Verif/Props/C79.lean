import Verif.Lemmas.MixedDefined

/-!
# C79: scans and extractions in one process

The threads that work for a process take the tasks of scans and of extractions from the same queue.  Scans do not change
what extractions return, nor keep them from returning; a scan returns the number of fields it found without an entry.
-/

namespace GJ
open Spec

/-! ## Extractions beside scans -/

/-- C79 (partial).  Whatever happened in the process, scans included, if a call for fields has returned without an error,
there is one result per request, in order, and the result for a request holds exactly what decoding the one matching message
of the catalogue gives in the ranges asked for.  Missing: as for C74. -/
theorem C79_returned_values_partial (M : MixSite) (U : String → Prop) (n : Nat) (asked : Nat → Asked)
    (x : Nat → List ExRequest × ItemMap × List FTask) (sane : M.Sane U asked x) (S : Store) (stored : Uri → List UInt8)
    (faithful : M.site.Faithful S) (store : StoreRight M.site.reader S stored) (lazy : Bool) (s : Mix)
    (reached : M.Reached U n x lazy s) (g : Nat) (extraction : M.scans g = none)
    (returned : (s.srv.x.t.grp g).phase = .returned)
    (peers : M.site.PeersRight stored g s.srv.svc.disk) (strict : M.site.conf.allowMissing = false)
    (cat : List (FdbKey × Uri)) (catalogue : Catalogue M.site.conf.ignoreYearMonth cat)
    (lists : ListsOnly (M.site.calls g) cat)
    (rs : List ExRequest) (ws : List WrittenRequest) (written : Written rs ws) (request : asked g = .fields rs)
    (out : List WireResult) (got : s.srv.x.outcome x g = .ok out) :
    out.length = rs.length ∧ ∀ i (hi : i < rs.length) (hj : i < ws.length),
      ∃ e ∈ cat, SameField M.site.conf.ignoreYearMonth ws[i].pairs e.1 ∧
        (∀ e' ∈ cat, SameField M.site.conf.ignoreYearMonth ws[i].pairs e'.1 → e' = e) ∧
        ∃ r, out[i]? = some r ∧ FieldAt M.site.reader s.srv.svc.disk stored e.2 rs[i].ranges r := by
  have hg : M.scan g = false := by rw [MixSite.scan, extraction]; rfl
  exact C74_returned_values_partial M.site U n asked x sane.site S stored faithful store lazy (s.view M)
    (reached.parts sane).1 g (by rw [view_group hg]; exact returned) peers strict cat catalogue lists rs ws written request
    out (by rw [view_outcome hg]; exact got)

/-- C79 (partial).  The same for requests by path. -/
theorem C79_returned_path_values_partial (M : MixSite) (U : String → Prop) (n : Nat) (asked : Nat → Asked)
    (x : Nat → List ExRequest × ItemMap × List FTask) (sane : M.Sane U asked x) (S : Store) (stored : Uri → List UInt8)
    (faithful : M.site.Faithful S) (store : StoreRight M.site.reader S stored) (lazy : Bool) (s : Mix)
    (reached : M.Reached U n x lazy s) (g : Nat) (extraction : M.scans g = none)
    (returned : (s.srv.x.t.grp g).phase = .returned)
    (peers : M.site.PeersRight stored g s.srv.svc.disk) (rs : List PathReq)
    (place : ∀ a ∈ rs, ∀ b ∈ rs, a.path = b.path → a.scheme = b.scheme ∧ a.host = b.host ∧ a.port = b.port)
    (request : asked g = .paths rs) (out : List WireResult) (got : s.srv.x.outcome x g = .ok out) :
    out.length = rs.length ∧ ∀ (i : Nat) q, rs[i]? = some q →
      ∃ r, out[i]? = some r ∧
        FieldAt M.site.reader s.srv.svc.disk stored ⟨q.scheme, q.host, q.port, q.path, q.offset⟩ q.ranges r := by
  have hg : M.scan g = false := by rw [MixSite.scan, extraction]; rfl
  exact C74_returned_path_values_partial M.site U n asked x sane.site S stored faithful store lazy (s.view M)
    (reached.parts sane).1 g (by rw [view_group hg]; exact returned) peers rs place request
    out (by rw [view_outcome hg]; exact got)

/-- C79 (partial).  In any history with scans: a call that asks, in a well-formed way, for fields that are there when none
of its tasks has begun, has no failed or cancelled task ever after; when it returns, it returns the values of every field
asked for, also if scans fail or wait before it in the queue.  Missing: as for C74. -/
theorem C79_present_fields_served_partial (M : MixSite) (U : String → Prop) (n : Nat) (asked : Nat → Asked)
    (x : Nat → List ExRequest × ItemMap × List FTask) (sane : M.Sane U asked x) (S : Store) (ex : M.site.Exact S)
    (here : M.site.conf.forward = false) (s1 s2 : Mix) (reached : M.Reached U n x true s1) (g : Nat)
    (extraction : M.scans g = none)
    (unbegun : (s1.srv.x.job g).time = 0) (es : List SrvEv) (allowed : ∀ e ∈ es, SrvEv.Allowed U e)
    (later : s1.run M es = .ok s2) (cat : List (FdbKey × Uri)) (rs : List ExRequest) (ws : List WrittenRequest)
    (request : asked g = .fields rs) (started : ((asked g).call (M.site.calls g)).start M.site.conf = .ok (x g))
    (served : CanServe M.site U S s1.srv g cat rs ws) :
    (s2.srv.x.t.grp g).errors = [] ∧ .cancelled ∉ (s2.srv.x.t.grp g).tasks ∧
    ((s2.srv.x.t.grp g).phase = .returned →
      ∃ out, s2.srv.x.outcome x g = .ok out ∧ Serves M.site U S s1.srv g cat rs ws out) := by
  have hg : M.scan g = false := by rw [MixSite.scan, extraction]; rfl
  obtain ⟨r, kinds, direct⟩ := reached.parts sane
  obtain ⟨-, -, fs, h1, h2⟩ := view_run sane es allowed r kinds direct later
  have := C74_present_fields_served_partial M.site U n asked x sane.site S ex here (s1.view M) (s2.view M) r g unbegun fs h1 h2
    cat rs ws request started ⟨served.catalogue, served.lists, served.complete, served.places, served.written,
      served.nonempty, served.different, served.sameKeywords, served.found⟩
  rw [view_group hg, view_outcome hg] at this
  exact this

/-- C79 (partial).  The same for requests by path. -/
theorem C79_present_paths_served_partial (M : MixSite) (U : String → Prop) (n : Nat) (asked : Nat → Asked)
    (x : Nat → List ExRequest × ItemMap × List FTask) (sane : M.Sane U asked x) (S : Store) (ex : M.site.Exact S)
    (s1 s2 : Mix) (reached : M.Reached U n x true s1) (g : Nat) (extraction : M.scans g = none)
    (unbegun : (s1.srv.x.job g).time = 0) (es : List SrvEv) (allowed : ∀ e ∈ es, SrvEv.Allowed U e)
    (later : s1.run M es = .ok s2) (rs : List PathReq)
    (request : asked g = .paths rs) (started : ((asked g).call (M.site.calls g)).start M.site.conf = .ok (x g))
    (served : CanServePaths M.site U S s1.srv g rs) :
    (s2.srv.x.t.grp g).errors = [] ∧ .cancelled ∉ (s2.srv.x.t.grp g).tasks ∧
    ((s2.srv.x.t.grp g).phase = .returned →
      ∃ out, s2.srv.x.outcome x g = .ok out ∧ ServesPaths M.site U S s1.srv g rs out) := by
  have hg : M.scan g = false := by rw [MixSite.scan, extraction]; rfl
  obtain ⟨r, kinds, direct⟩ := reached.parts sane
  obtain ⟨-, -, fs, h1, h2⟩ := view_run sane es allowed r kinds direct later
  have := C74_present_paths_served_partial M.site U n asked x sane.site S ex (s1.view M) (s2.view M) r g unbegun fs h1 h2
    rs request started ⟨served.nonempty, served.here, served.place, served.different, served.found⟩
  rw [view_group hg, view_outcome hg] at this
  exact this

/-- A request that can be met has tasks. -/
theorem serve_tasks {M : MixSite} {U : String → Prop} {asked : Nat → Asked}
    {x : Nat → List ExRequest × ItemMap × List FTask} (sane : M.Sane U asked x) {n : Nat} {s : Mix}
    (r : M.Reached U n x true s) {g : Nat} (extraction : M.scans g = none) (unbegun : (s.srv.x.job g).time = 0)
    (started : ((asked g).call (M.site.calls g)).start M.site.conf = .ok (x g))
    (alone : ∀ E, Lived M.site U s.srv.svc s.srv.svc.disk g E →
      ∃ out, ((asked g).call E).alone M.site.conf [] = .ok out) : (M.tasks x g).2 ≠ [] := by
  intro e
  rw [MixSite.tasks, MixSite.scan, extraction] at e
  have e : (x g).2.2 = [] := e
  obtain ⟨from_, hf, inv⟩ := (r.parts sane).1.since sane.site (g := g) unbegun (es := []) (fun _ h => by cases h) rfl
  obtain ⟨E, hL, -⟩ := inv.x sane.site.prepared.fresh
  have hL := hL g
  rw [hf] at hL
  obtain ⟨out, ho⟩ := alone (E g) hL
  rw [Call.alone_eq, (asked g).start_congr hL.list, started, ok_bind, e] at ho
  cases ho

/-- C79 (partial).  In an infinite history in which the workers and the thread of the call keep running, a call for fields
that are there before any of its tasks has begun returns, and it returns the values of every field asked for, whatever scans
and extractions there are besides.  Missing: as for C74. -/
theorem C79_present_fields_return_partial (M : MixSite) (U : String → Prop) (n : Nat) (hn : 0 < n) (asked : Nat → Asked)
    (x : Nat → List ExRequest × ItemMap × List FTask) (sane : M.Sane U asked x) (S : Store) (ex : M.site.Exact S)
    (here : M.site.conf.forward = false) (ev : Nat → SrvEv) (st : Nat → Mix) (lives : M.Lives U n x true ev st)
    (workers : SrvWorkersFair n ev) (g : Nat) (extraction : M.scans g = none) (thread : SrvCallFair g ev) (k : Nat)
    (unbegun : ((st k).srv.x.job g).time = 0) (cat : List (FdbKey × Uri)) (rs : List ExRequest) (ws : List WrittenRequest)
    (request : asked g = .fields rs) (started : ((asked g).call (M.site.calls g)).start M.site.conf = .ok (x g))
    (served : CanServe M.site U S (st k).srv g cat rs ws) :
    ∃ c out, ((st (k + c)).srv.x.t.grp g).phase = .returned ∧ (st (k + c)).srv.x.outcome x g = .ok out ∧
      Serves M.site U S (st k).srv g cat rs ws out := by
  have hg : M.scan g = false := by rw [MixSite.scan, extraction]; rfl
  have hs := fun c => C79_present_fields_served_partial M U n asked x sane S ex here (st k) (st (k + c)) (lives.reached k) g
    extraction unbegun _ (fun e he => by obtain ⟨i, -, rfl⟩ := List.mem_map.mp he; exact lives.allowed i)
    (lives.toMixExecution.run k c) cat rs ws request started served
  obtain ⟨c, hc⟩ := lives.completes sane hn workers thread (k0 := k)
    (serve_tasks sane (lives.reached k) extraction unbegun started fun E hL => by
      rw [request]
      obtain ⟨out, ho, -⟩ := (serve_alone sane.site ex ((lives.reached k).parts sane).1 hL []).1 here cat rs ws
        ⟨served.catalogue, served.lists, served.complete, served.places, served.written,
          served.nonempty, served.different, served.sameKeywords, served.found⟩
      exact ⟨out, ho⟩)
    (by show ((if M.scan g then _ else (st k).srv.x.job g) : FSys).time = 0; rw [hg]; exact unbegun)
    (fun c => (hs c).2.1)
  obtain ⟨out, h1, h2⟩ := (hs c).2.2 hc
  exact ⟨c, out, hc, h1, h2⟩

/-- C79 (partial).  The same for requests by path. -/
theorem C79_present_paths_return_partial (M : MixSite) (U : String → Prop) (n : Nat) (hn : 0 < n) (asked : Nat → Asked)
    (x : Nat → List ExRequest × ItemMap × List FTask) (sane : M.Sane U asked x) (S : Store) (ex : M.site.Exact S)
    (ev : Nat → SrvEv) (st : Nat → Mix) (lives : M.Lives U n x true ev st)
    (workers : SrvWorkersFair n ev) (g : Nat) (extraction : M.scans g = none) (thread : SrvCallFair g ev) (k : Nat)
    (unbegun : ((st k).srv.x.job g).time = 0) (rs : List PathReq)
    (request : asked g = .paths rs) (started : ((asked g).call (M.site.calls g)).start M.site.conf = .ok (x g))
    (served : CanServePaths M.site U S (st k).srv g rs) :
    ∃ c out, ((st (k + c)).srv.x.t.grp g).phase = .returned ∧ (st (k + c)).srv.x.outcome x g = .ok out ∧
      ServesPaths M.site U S (st k).srv g rs out := by
  have hg : M.scan g = false := by rw [MixSite.scan, extraction]; rfl
  have hs := fun c => C79_present_paths_served_partial M U n asked x sane S ex (st k) (st (k + c)) (lives.reached k) g
    extraction unbegun _ (fun e he => by obtain ⟨i, -, rfl⟩ := List.mem_map.mp he; exact lives.allowed i)
    (lives.toMixExecution.run k c) rs request started served
  obtain ⟨c, hc⟩ := lives.completes sane hn workers thread (k0 := k)
    (serve_tasks sane (lives.reached k) extraction unbegun started fun E hL => by
      rw [request]
      obtain ⟨out, ho, -⟩ := (serve_alone sane.site ex ((lives.reached k).parts sane).1 hL []).2 rs
        ⟨served.nonempty, served.here, served.place, served.different, served.found⟩
      exact ⟨out, ho⟩)
    (by show ((if M.scan g then _ else (st k).srv.x.job g) : FSys).time = 0; rw [hg]; exact unbegun)
    (fun c => (hs c).2.1)
  obtain ⟨out, h1, h2⟩ := (hs c).2.2 hc
  exact ⟨c, out, hc, h1, h2⟩

/-! ## Scans -/

/-- C79.  A scan that has returned a number has returned the sum of the numbers of its tasks: for a task on a file, how many
of its fields had no entry in the index on disk at a moment in its execution, all of which had one at a moment not before
that; for a task handed to another server, what that server answered. -/
theorem C79_scan_counts (M : MixSite) (U : String → Prop) (n : Nat) (asked : Nat → Asked)
    (x : Nat → List ExRequest × ItemMap × List FTask) (sane : M.Sane U asked x)
    (d : Disk) (mode : CacheMode) (lazy : Bool) (cap : Nat) (fs : FS) (apart : ToldApart mode U) (room : 0 < cap)
    (agree : GoodIndex (diskWorld M.site.reader M.site.offs d) U mode fs) (es : List SrvEv)
    (allowed : ∀ e ∈ es, SrvEv.Allowed U e) (s : Mix)
    (history : (Mix.start M n (fun g => (x g).2) d mode lazy cap fs).run M es = .ok s) (g : Nat) (kinds : List ScanKind)
    (scan : M.scans g = some kinds) (returned : (s.srv.x.t.grp g).phase = .returned) (c : Nat)
    (got : s.scanOutcome g = .ok c) :
    ∃ ns : List Nat, ns.length = kinds.length ∧ c = ns.sum ∧
      ∀ (j : Nat) (k : ScanKind) (m : Nat), kinds[j]? = some k → ns[j]? = some m →
        ScanDone M (Passed M (Mix.start M n (fun g => (x g).2) d mode lazy cap fs) es) g j m k := by
  have hg : M.scan g = true := by rw [MixSite.scan, scan]; rfl
  have r0 : M.Reached U n x lazy (Mix.start M n (fun g => (x g).2) d mode lazy cap fs) :=
    ⟨d, mode, cap, fs, [], apart, room, agree, (fun _ h => by cases h), rfl⟩
  have r := r0.ran allowed history
  obtain ⟨-, E, xinv⟩ := r.calls sane
  have inv := scans_ran sane r0 (start_scans M n _ d mode lazy cap fs _) _ es s rfl allowed history
  have hk : (s.jobs g).tasks.map Prod.fst = kinds := by
    have := (r.parts sane).2.1 g
    rw [scan] at this
    exact this
  rw [Mix.scanOutcome] at got
  split at got
  · cases got
  · rename_i clean
    have clean : (s.srv.x.t.grp g).errors = [] := Classical.not_not.mp clean
    refine ⟨(s.jobs g).tasks.map fun T => T.2.added, ?_, ?_, ?_⟩
    · rw [List.length_map, ← hk, List.length_map]
    · rw [← Except.ok.inj got]; exact inv.count g
    · intro j k m hj hm
      rw [← hk, List.getElem?_map] at hj
      rw [List.getElem?_map] at hm
      obtain ⟨T, hT, rfl⟩ := Option.map_eq_some_iff.mp hj
      rw [hT] at hm
      have hm : T.2.added = m := Option.some.inj hm
      obtain ⟨a, ha⟩ := scan_all_done xinv hg returned clean hT
      rw [ha] at hm
      have hm : a = m := hm
      subst hm
      refine inv.done g j a T.1 ?_
      rw [hT, ← ha]

/-- C79 (partial).  In an infinite history in which the workers and the thread of the scan keep running, a scan none of whose
tasks has failed, and whose files can be read from then on, returns a number.  For a file given with offsets it is enough
that its messages can be read at that moment; for other files, which may be written at the same time, that all messages found
can be read whenever one looks.  Other servers answer.
Missing: if a task fails, the others are cancelled and the scan may wait for ever (`C79_failing_scan_hangs`). -/
theorem C79_scan_returns_partial (M : MixSite) (U : String → Prop) (n : Nat) (hn : 0 < n) (asked : Nat → Asked)
    (x : Nat → List ExRequest × ItemMap × List FTask) (sane : M.Sane U asked x) (lazy : Bool)
    (ev : Nat → SrvEv) (st : Nat → Mix) (lives : M.Lives U n x lazy ev st)
    (workers : SrvWorkersFair n ev) (g : Nat) (thread : SrvCallFair g ev) (kinds : List ScanKind)
    (scan : M.scans g = some kinds) (nonempty : kinds ≠ []) (k : Nat)
    (clean : ((st k).srv.x.t.grp g).errors = [])
    (files : ∀ path os, .file path os ∈ kinds → Readable M.site.reader M.site.offs (st k).srv.svc path os ∧
      (os = [] → ∀ c, Readable M.site.reader M.site.offs (st (k + c)).srv.svc path os))
    (answers : ∀ server fs, .forward server fs ∈ kinds → ∀ t, ∃ m, M.forward g t server fs = .ok m) :
    ∃ m c, ((st m).srv.x.t.grp g).phase = .returned ∧ (st m).scanOutcome g = .ok c := by
  have hg : M.scan g = true := by rw [MixSite.scan, scan]; rfl
  have inv : ∀ m, ∃ E, XInv E M.site.conf (M.tasks x) ((st m).calls M) := fun m => ((lives.reached m).calls sane).2
  have hstep : ∀ m, ScanStep M (ev m) (st m) (st (m + 1)) := fun m => by
    obtain ⟨d, mode, cap, fs, h1, h2, h3, h4⟩ := lives.start
    have hr := lives.toMixExecution.run 0 m
    rw [Nat.zero_add] at hr
    have sc := scans_ran sane (lives.reached 0) (by rw [h4]; exact start_scans M n _ d mode lazy cap fs _) _ _ (st m) rfl
      (fun e he => by obtain ⟨i, -, rfl⟩ := List.mem_map.mp he; exact lives.allowed i) hr
    exact scan_step sane.site.reader sane.site.offs ((lives.reached m).good sane) sc.len (lives.step m)
  have disk : ∀ c, (st k).srv.svc.disk.Before (st (k + c)).srv.svc.disk := by
    intro c
    induction c with
    | zero => exact Disk.Before.refl _
    | succ c ih => exact ih.trans (mix_disk sane (lives.reached (k + c)) (lives.allowed _) (lives.step (k + c)))
  have ready : ∀ c path os, .file path os ∈ kinds →
      Readable M.site.reader M.site.offs (st (k + c)).srv.svc path os := by
    intro c path os hm
    by_cases hos : os = []
    · exact (files path os hm).2 hos c
    · exact readable_stays sane.site.reader (disk c) hos (files path os hm).1
  have forward : ∀ c, ¬ ScanBroken (st (k + c)) g := by
    intro c
    induction c with
    | zero =>
      obtain ⟨E, h⟩ := inv k
      exact fun hb => (scan_errors h hg).mpr hb clean
    | succ c ih =>
      intro hb
      rcases (broken_step (hstep (k + c)) g).2 hb with hb | ⟨j, kd, hj, why⟩
      · exact ih hb
      · have hmem : kd ∈ kinds := by
          have hk := ((lives.reached (k + c)).parts sane).2.1 g
          rw [scan] at hk
          have hk : _ = kinds := hk
          rw [← hk]
          exact List.mem_map.mpr ⟨_, List.mem_of_getElem? hj, rfl⟩
        rcases why with ⟨path, os, e, rfl, hp⟩ | ⟨⟨server, fs, e, rfl, hp⟩, -⟩
        · obtain ⟨pl, hpl⟩ := (scanTaskPlan_spec ((lives.reached (k + c)).good sane)
            (((lives.reached (k + c)).parts sane).2.1.file sane.within hj) os).2 (ready c path os hmem)
          rw [hpl] at hp
          cases hp
        · obtain ⟨m, hm⟩ := answers server fs hmem (((st (k + c)).jobs g).time)
          rw [hm] at hp
          cases hp
  have mono : ∀ m c, ScanBroken (st m) g → ScanBroken (st (m + c)) g := by
    intro m c hb
    induction c with
    | zero => exact hb
    | succ c ih => exact (broken_step (hstep (m + c)) g).1 ih
  have never : ∀ m, ((st m).srv.x.t.grp g).errors = [] := by
    intro m
    obtain ⟨E, h⟩ := inv m
    apply Classical.byContradiction
    intro he
    have hb := mono m k ((scan_errors h hg).mp he)
    rw [Nat.add_comm] at hb
    exact forward m hb
  have tasks : (M.tasks x g).2 ≠ [] := by
    rw [MixSite.tasks, if_pos hg, scan]
    intro e
    exact nonempty (List.map_eq_nil_iff.mp e)
  rcases lives.returns sane hn workers thread tasks with ⟨m, hm⟩ | ⟨m, hm⟩
  · exact ⟨m, _, hm, by rw [Mix.scanOutcome, if_neg (fun h => h (never m))]⟩
  · obtain ⟨E, h⟩ := inv m
    exact absurd (never m) ((h.t.grp g).canc hm)

/-! ## Nothing goes wrong in the process itself -/

theorem mix_grow {M : MixSite} {s s' : Mix} {e : SrvEv} (h : s.step M e = .ok s') : s'.srv.svc.disk = e.grow s.srv.svc.disk := by
  have fail : ∀ {s s' : Mix} {g j w : Nat} {k : ScanKind}, s.scanFail g j w k = .ok s' → s'.srv.svc.disk = s.srv.svc.disk := by
    intro s s' g j w k h
    rw [(scanFail_shape h).2.2.1]
  have group : ∀ {a : Option TEv}, s.group a = .ok s' → s'.srv.svc.disk = s.srv.svc.disk := by
    intro a h
    rw [Mix.group] at h
    obtain ⟨t, -, h2⟩ := res_bind_inv h
    rw [← Except.ok.inj h2]; rfl
  have plain : ∀ {e : SrvEv}, s.plain M e = .ok s' → s'.srv.svc.disk = e.grow s.srv.svc.disk := by
    intro e h
    rw [Mix.plain] at h
    obtain ⟨y, h1, h2⟩ := res_bind_inv h
    rw [← Except.ok.inj h2]; exact srv_disk h1
  have request : ∀ {path os} {svc : Svc UInt64}, s.srv.svc.step M.site.reader M.site.offs (scanRequest path os).on = .ok svc →
      svc.disk = s.srv.svc.disk := by
    intro path os svc h
    by_cases h0 : (isort (fun a b => decide (a ≤ b)) os).length = 0
    · have he : scanRequest path os = .scanFile path true := if_pos h0
      rw [he] at h
      exact cache_disk (p := M.site) h
    · have he : scanRequest path os = .scan path (isort (fun a b => decide (a ≤ b)) os) := if_neg h0
      rw [he] at h
      exact cache_disk (p := M.site) h
  rw [Mix.step.eq_def] at h
  split at h
  · split at h
    · exact group h
    · exact plain h
  · split at h
    · exact group h
    · exact plain h
  · split at h
    · split at h
      · rw [Mix.scanWork.eq_def] at h
        split at h
        · exact group h
        · rw [Mix.scanRead] at h
          obtain ⟨svc, h1, h⟩ := res_bind_inv h
          split at h
          · rw [← Except.ok.inj h]; exact request h1
          · rw [fail h]; exact request h1
        · rw [Mix.scanWrite] at h
          simp only at h
          split at h
          · rename_i svc h1
            rw [← Except.ok.inj h]
            exact cache_disk (p := M.site) h1
          · cases h
          · rw [fail h]; rfl
        · rw [Mix.scanAsk] at h
          split at h
          · rw [← Except.ok.inj h]; rfl
          · cases h
          · rw [fail h]; rfl
        · cases h
      · exact plain h
    · exact plain h
  · split at h
    · obtain ⟨y, h1, h2⟩ := res_bind_inv h
      rw [← Except.ok.inj h2]; exact srv_disk h1
    · rw [← Except.ok.inj h]; rfl
  · obtain ⟨y, h1, h2⟩ := res_bind_inv h
    rw [← Except.ok.inj h2]; exact srv_disk h1
  · exact plain h

/-- If no call is undefined alone in surroundings it can have met, the process goes through every history, scans
included. -/
theorem mix_goes_on {M : MixSite} {U : String → Prop} {n : Nat} {asked : Nat → Asked}
    {x : Nat → List ExRequest × ItemMap × List FTask} (sane : M.Sane U asked x)
    (forward : ∀ g t server files, M.forward g t server files ≠ undef) {D : Disk} {lazy : Bool}
    (alone : ∀ g E from_, (∃ d mode cap fs, from_ = Svc.start M.site.reader M.site.offs d mode lazy cap fs ∧ 0 < cap ∧
        ToldApart mode U ∧ GoodIndex (diskWorld M.site.reader M.site.offs d) U mode fs) → Lived M.site U from_ D g E →
      ∀ sched, ((asked g).call E).alone M.site.conf sched ≠ undef)
    (es : List SrvEv) (allowed : ∀ e ∈ es, SrvEv.Allowed U e) (s : Mix) (r : M.Reached U n x lazy s)
    (hD : (diskAfter s.srv.svc.disk es).Before D) : ∃ s', s.run M es = .ok s' := by
  induction es generalizing s with
  | nil => exact ⟨s, rfl⟩
  | cons e es ih =>
    obtain ⟨d, mode, cap, fs, h1, h2, h3, inv⟩ := (r.parts sane).1.inv sane.site
    have ha := allowed e List.mem_cons_self
    have seen := inv.defined sane.site.reader sane.site.offs sane.site.prepared
      (fun g E hL => alone g E _ ⟨d, mode, cap, fs, rfl, h2, h1, h3⟩ (hL.before ((diskAfter_before (e :: es) _).trans hD))) ha
    obtain ⟨s1, hs1⟩ := mix_defined sane r forward ha seen
    have r1 : M.Reached U n x lazy s1 := r.ran (es := [e])
      (fun e he => by rw [List.mem_singleton] at he; subst he; exact ha) (by rw [Mix.run, hs1]; rfl)
    obtain ⟨s2, hs2⟩ := ih (fun e he => allowed e (List.mem_cons_of_mem _ he)) s1 r1 (by
      rw [mix_grow hs1]; exact hD)
    exact ⟨s2, by rw [Mix.run, hs1, ok_bind, hs2]⟩

/-- C79 (partial).  A process with the machine's arithmetic, whose calls ask for intervals that run forward and end inside
a field with a bitmap, and whose scans are of files and directories whose names it tells apart, goes through every history:
no step of any worker, call, scan or plugin is undefined or throws out of its thread.
Missing: as for C74. -/
theorem C79_defined_partial (M : MixSite) (U : String → Prop) (n : Nat) (asked : Nat → Asked)
    (x : Nat → List ExRequest × ItemMap × List FTask) (sane : M.Sane U asked x) (mem : Nat) (memory : mem ≤ 2 ^ 60)
    (lib : AecContract M.site.reader.lib) (stored : Uri → Info → Prop) (computes : M.site.Computes mem stored)
    (forward : ∀ g t server files, M.forward g t server files ≠ undef)
    (d : Disk) (mode : CacheMode) (lazy : Bool) (cap : Nat) (fs : FS) (apart : ToldApart mode U) (room : 0 < cap)
    (agree : GoodIndex (diskWorld M.site.reader M.site.offs d) U mode fs) (es : List SrvEv)
    (allowed : ∀ e ∈ es, SrvEv.Allowed U e)
    (blocks : ∀ f o i x, M.site.Known stored (diskAfter d es) f o (.ccsds i x) → x.rsi * x.blockSize ≠ 0)
    (acceptable : ∀ g, (asked g).Acceptable (M.site.calls g) M.site.conf (M.site.Known stored (diskAfter d es))) :
    ∃ s, (Mix.start M n (fun g => (x g).2) d mode lazy cap fs).run M es = .ok s := by
  refine mix_goes_on sane forward (D := diskAfter d es) (lazy := lazy) ?_ es allowed _
    ⟨d, mode, cap, fs, [], apart, room, agree, (fun _ h => by cases h), rfl⟩ (Disk.Before.refl _)
  rintro g E _ ⟨d', mode', cap', fs', rfl, h2, h1, h3⟩ hL sched
  have good : SvcGood M.site.reader M.site.offs U (Svc.start M.site.reader M.site.offs d' mode' lazy cap' fs') :=
    SvcGood.start sane.site.offs h1 h2 h3
  have hs := (lived_machine sane.site.reader sane.site.offs good hL computes blocks).steady lib memory
  have hc := C55_local_calls_defined E M.site.conf sched _ hs
  have ha := acceptable g
  cases hq : asked g with
  | fields rs =>
    rw [hq] at ha
    refine hc.1 rs ?_ ?_
    · unfold NoStrayFdb; rw [hL.list]; exact ha.1
    · unfold GJ.Acceptable; rw [hL.list]; exact ha.2
  | paths rs =>
    rw [hq] at ha
    exact hc.2 rs ha.1 ha.2.1 ha.2.2

/-! ## Cases -/

/-- The states of an infinite schedule. -/
def mixStates (M : MixSite) (s : Mix) (ev : Nat → SrvEv) : Nat → Mix
  | 0 => s
  | k + 1 => match (mixStates M s ev k).step M (ev k) with
    | .ok s => s
    | .error _ => mixStates M s ev k

/-- Every infinite schedule is a history, if no call is undefined alone in surroundings it can meet. -/
theorem mix_lives {M : MixSite} {U : String → Prop} {n : Nat} {asked : Nat → Asked}
    {x : Nat → List ExRequest × ItemMap × List FTask} (sane : M.Sane U asked x)
    (forward : ∀ g t server files, M.forward g t server files ≠ undef) {d : Disk} {mode : CacheMode} {cap : Nat}
    {fs : FS} (apart : ToldApart mode U) (room : 0 < cap) (agree : GoodIndex (diskWorld M.site.reader M.site.offs d) U mode fs)
    {ev : Nat → SrvEv} (allowed : ∀ k, (ev k).Allowed U)
    (alone : ∀ g D E, Lived M.site U (Svc.start M.site.reader M.site.offs d mode true cap fs) D g E → ∀ sched,
      ((asked g).call E).alone M.site.conf sched ≠ undef) :
    M.Lives U n x true ev (mixStates M (Mix.start M n (fun g => (x g).2) d mode true cap fs) ev) := by
  generalize hs : mixStates M (Mix.start M n (fun g => (x g).2) d mode true cap fs) ev = st
  have h0 : st 0 = Mix.start M n (fun g => (x g).2) d mode true cap fs := by rw [← hs]; rfl
  have next : ∀ k s', (st k).step M (ev k) = .ok s' → st (k + 1) = s' := by
    intro k s' h
    rw [← hs, mixStates]
    rw [← hs] at h
    rw [h]
  have goes : ∀ es s, (∀ e ∈ es, SrvEv.Allowed U e) →
      (Mix.start M n (fun g => (x g).2) d mode true cap fs).run M es = .ok s → ∀ e, e.Allowed U → ∃ s', s.step M e = .ok s' := by
    intro es s hes h e he
    have r0 : M.Reached U n x true (Mix.start M n (fun g => (x g).2) d mode true cap fs) :=
      ⟨d, mode, cap, fs, [], apart, room, agree, (fun _ h => by cases h), rfl⟩
    obtain ⟨h1, h2, h3⟩ := r0.parts sane
    obtain ⟨-, -, fs', h4, h5⟩ := view_run sane es hes h1 h2 h3 h
    rw [Mix.view_start] at h5
    have inv := (SrvInv.start sane.site.reader sane.site.offs apart room agree
      (sane.site.prepared.files sane.site.within)).ran sane.site.reader sane.site.offs sane.site.prepared.fresh h4 h5
    exact mix_defined sane (r0.ran hes h) forward he
      (inv.defined sane.site.reader sane.site.offs sane.site.prepared (fun g E => alone g _ E) he)
  have all : ∀ k, (Mix.start M n (fun g => (x g).2) d mode true cap fs).run M ((List.range k).map ev) = .ok (st k) := by
    intro k
    induction k with
    | zero => rw [h0]; rfl
    | succ k ih =>
      obtain ⟨s', h⟩ := goes _ _ (fun e he => by obtain ⟨i, -, rfl⟩ := List.mem_map.mp he; exact allowed i) ih _ (allowed k)
      rw [List.range_succ, List.map_append, mix_append, ih, ok_bind, next k s' h]
      show ((st k).step M (ev k) >>= fun s' => .ok s') = _
      rw [h]; rfl
  refine ⟨⟨fun k => ?_⟩, ⟨d, mode, cap, fs, apart, room, agree, h0⟩, allowed⟩
  obtain ⟨s', h⟩ := goes _ _ (fun e he => by obtain ⟨i, -, rfl⟩ := List.mem_map.mp he; exact allowed i) (all k) _ (allowed k)
  rw [h, next k s' h]

/-- The process of C74, whose third group is a scan of a file, of one field in it, and of files elsewhere; the other server
finds five. -/
def c79Kinds : List ScanKind :=
  [.file "/fdb/a.data" [], .file "/fdb/a.data" [6], .forward ("h", 1) [("/far.data", [0])]]

def c79Site : MixSite :=
  ⟨c74Site, fun g => if g = 2 then some c79Kinds else none, fun _ _ _ _ => .ok 5⟩

def c79Start : Mix := Mix.start c79Site 2 (fun g => (c74X g).2) c74Disk .shadow true 2 []

/-- The scan comes first. -/
def c79Turns : List SrvEv :=
  [.queue (.add 2), .queue (.push 2), .queue (.wait 2), .queue (.ret 2)] ++ c74Turns

def c79Ev (k : Nat) : SrvEv := c79Turns[k % 26]?.getD (.other .clear)

def c79At (k : Nat) : Res Mix := c79Start.run c79Site ((List.range k).map c79Ev)

def c79Seen (k : Nat) : Option (Phase × Phase × Phase) :=
  match c79At k with
  | .ok s => some ((s.srv.x.t.grp 0).phase, (s.srv.x.t.grp 1).phase, (s.srv.x.t.grp 2).phase)
  | .error _ => none

def c79Out (k g : Nat) : Res (List WireResult) := do
  let s ← c79At k
  s.srv.x.outcome c74X g

def c79Count (k : Nat) : Res Nat := do
  let s ← c79At k
  s.scanOutcome 2

/-- Non-vacuity: all three return, the extractions with their own values, the scan with the number of fields. -/
example : c79Seen 182 = some (.returned, .returned, .returned) ∧ c79Count 182 = .ok 7 ∧
    c79Out 182 0 = .ok [⟨[[10, 11, 12, 13]], [[15]]⟩, ⟨[[11], [12, 13]], [[1], [3]]⟩, ⟨[[7, 8]], [[3]]⟩] ∧
    c79Out 182 1 = .ok [⟨[[7]], [[1]]⟩] :=
  ⟨by decide +kernel, by decide +kernel, by decide +kernel, by decide +kernel⟩

theorem c79_within (site : Site) : (⟨site, c79Site.scans, c79Site.forward⟩ : MixSite).Within c74Names := by
  intro g ks h k hk path os e
  have h : (if g = 2 then some c79Kinds else none) = some ks := h
  split at h
  · cases h
    subst e
    simp only [c79Kinds, List.mem_cons, List.mem_nil_iff, or_false, ScanKind.file.injEq, reduceCtorEq] at hk
    rcases hk with ⟨rfl, -⟩ | ⟨rfl, -⟩ <;> exact .inl rfl
  · cases h

theorem c79_sane : c79Site.Sane c74Names c74Asked c74X := ⟨c74_sane, c79_within c74Site⟩

theorem c79_allowed (k : Nat) : (c79Ev k).Allowed c74Names := by
  unfold c79Ev
  cases he : c79Turns[k % 26]? with
  | none => trivial
  | some e =>
    have hm := List.mem_of_getElem? he
    rcases List.mem_append.mp hm with hm | hm
    · simp only [List.mem_cons, List.mem_nil_iff, or_false] at hm
      rcases hm with rfl | rfl | rfl | rfl <;> trivial
    · obtain ⟨i, hi, rfl⟩ := List.mem_iff_getElem.mp hm
      have := c74_allowed i
      have h22 : c74Turns.length = 22 := rfl
      rw [c74Ev, Nat.mod_eq_of_lt (h22 ▸ hi), List.getElem?_eq_getElem hi] at this
      exact this

theorem c79_turn (i : Nat) (hi : i < 26) (k : Nat) : ∃ m, k ≤ m ∧ c79Ev m = c79Turns[i]?.getD (.other .clear) :=
  ⟨26 * (k + 1) + i, by omega, by rw [c79Ev, Nat.mul_add_mod, Nat.mod_eq_of_lt hi]⟩

theorem c79_fair : SrvWorkersFair 2 c79Ev ∧ SrvCallFair 0 c79Ev ∧ SrvCallFair 1 c79Ev ∧ SrvCallFair 2 c79Ev := by
  refine ⟨fun w hw k => ?_, fun k => ?_, fun k => ?_, fun k => ?_⟩
  · match w, hw with
    | 0, _ => exact ⟨c79_turn 7 (by decide) k, c79_turn 8 (by decide) k, c79_turn 9 (by decide) k⟩
    | 1, _ => exact ⟨c79_turn 15 (by decide) k, c79_turn 16 (by decide) k, c79_turn 17 (by decide) k⟩
  · exact ⟨c79_turn 4 (by decide) k, c79_turn 5 (by decide) k, c79_turn 13 (by decide) k, c79_turn 24 (by decide) k⟩
  · exact ⟨c79_turn 11 (by decide) k, c79_turn 12 (by decide) k, c79_turn 22 (by decide) k, c79_turn 25 (by decide) k⟩
  · exact ⟨c79_turn 0 (by decide) k, c79_turn 1 (by decide) k, c79_turn 2 (by decide) k, c79_turn 3 (by decide) k⟩

theorem c79_lives : c79Site.Lives c74Names 2 c74X true c79Ev (mixStates c79Site c79Start c79Ev) := by
  refine mix_lives c79_sane (fun _ _ _ _ h => by cases h) c74_apart (by decide) (c74_agree _ _ _) c79_allowed
    fun g D E hL sched h => ?_
  have hs := serve_alone c74_sane (⟨rfl, rfl⟩ : c74Site.Exact c50Store) c74_reached hL sched
  cases g with
  | zero => obtain ⟨out, ho, -⟩ := hs.1 rfl _ _ _ c74_fields; exact nomatch ho.symm.trans h
  | succ g => obtain ⟨out, ho, -⟩ := hs.2 _ (c74_paths (g + 1)); exact nomatch ho.symm.trans h

/-- Non-vacuity of the theorems on present fields: the schedule above, repeated for ever, is a history with fair workers and
threads; the calls ask for what is there. -/
example : c79Site.Sane c74Names c74Asked c74X ∧ c79Site.site.Exact c50Store ∧ c79Site.site.conf.forward = false ∧
    c79Site.Lives c74Names 2 c74X true c79Ev (mixStates c79Site c79Start c79Ev) ∧
    SrvWorkersFair 2 c79Ev ∧ SrvCallFair 0 c79Ev ∧ SrvCallFair 1 c79Ev ∧
    c79Site.scans 0 = none ∧ c79Site.scans 1 = none ∧
    (∀ g, (c79Start.srv.x.job g).time = 0) ∧
    CanServe c79Site.site c74Names c50Store c79Start.srv 0 c50Cat c50Reqs c27Written ∧
    CanServePaths c79Site.site c74Names c50Store c79Start.srv 1 [⟨"/fdb/a.data", "file", 6, "", 0, [⟨0, 1⟩], "g"⟩] :=
  ⟨c79_sane, ⟨rfl, rfl⟩, rfl, c79_lives, c79_fair.1, c79_fair.2.1, c79_fair.2.2.1, rfl, rfl, fun _ => rfl, c74_fields,
    c74_paths 1⟩

/-- The messages of the file can be read, whatever is appended to it. -/
theorem c79_readable {y : Svc UInt64} (h : c74Disk.Before y.disk) {path : String} {os : List Nat}
    (hk : .file path os ∈ c79Kinds) : Readable toyReader c74Site.offs y path os := by
  have h0 : ∀ o ∈ [0, 6], ∃ i, (diskWorld toyReader c74Site.offs y.disk).data "/fdb/a.data" o = .ok i := by
    intro o ho
    have ok : ∀ o ∈ [0, 6], ((diskWorld toyReader c74Site.offs c74Disk).data "/fdb/a.data" o).toOption.isSome = true := by
      decide +kernel
    cases hd : (diskWorld toyReader c74Site.offs c74Disk).data "/fdb/a.data" o with
    | error e => have := ok o ho; rw [hd] at this; cases this
    | ok i => exact ⟨i, h.grown toySound _ _ _ hd⟩
  obtain ⟨more, hm⟩ := h "/fdb/a.data" (toyMessage ++ [0x47, 2, 7, 8]) rfl
  simp only [c79Kinds, List.mem_cons, List.mem_nil_iff, or_false, ScanKind.file.injEq, reduceCtorEq] at hk
  rcases hk with ⟨rfl, rfl⟩ | ⟨rfl, rfl⟩
  · refine ⟨[0, 6], ?_, h0⟩
    rw [scanned, if_pos rfl, diskWorld]
    simp only []
    rw [hm]; rfl
  · exact ⟨[6], rfl, fun o ho => h0 o (by rw [List.mem_singleton] at ho; subst ho; decide)⟩

/-- Non-vacuity of `C79_scan_returns_partial`: in the same history. -/
example : c79Site.Lives c74Names 2 c74X true c79Ev (mixStates c79Site c79Start c79Ev) ∧ SrvWorkersFair 2 c79Ev ∧
    SrvCallFair 2 c79Ev ∧ c79Site.scans 2 = some c79Kinds ∧ (c79Start.srv.x.t.grp 2).errors = [] ∧
    (∀ path os, .file path os ∈ c79Kinds → Readable c79Site.site.reader c79Site.site.offs c79Start.srv.svc path os ∧
      (os = [] → ∀ c, Readable c79Site.site.reader c79Site.site.offs
        (mixStates c79Site c79Start c79Ev (0 + c)).srv.svc path os)) ∧
    ∀ server fs, .forward server fs ∈ c79Kinds → ∀ t, ∃ m, c79Site.forward 2 t server fs = .ok m := by
  refine ⟨c79_lives, c79_fair.1, c79_fair.2.2.2, rfl, rfl, fun path os hk =>
    ⟨c79_readable (Disk.Before.refl _) hk, fun _ c => c79_readable ?_ hk⟩, fun _ _ _ _ => ⟨5, rfl⟩⟩
  induction c with
  | zero => exact Disk.Before.refl _
  | succ c ih => exact ih.trans (mix_disk c79_sane (c79_lives.reached (0 + c)) (c79_lives.allowed _) (c79_lives.step (0 + c)))

/-- Non-vacuity of `C79_returned_values_partial`, `C79_returned_path_values_partial` and `C79_scan_counts`: in the state of
the first example, reached by 182 steps, all have returned. -/
example : ∃ s, c79At 182 = .ok s ∧ c79Site.Reached c74Names 2 c74X true s ∧ (s.srv.x.t.grp 0).phase = .returned ∧
    (s.srv.x.t.grp 1).phase = .returned ∧ (s.srv.x.t.grp 2).phase = .returned ∧ s.scanOutcome 2 = .ok 7 ∧
    c79Site.site.Faithful c50Store ∧ StoreRight toyReader c50Store (fun _ => toyMessage) ∧
    (∀ g, c79Site.site.PeersRight (fun _ => toyMessage) g s.srv.svc.disk) ∧ c79Site.site.conf.allowMissing = false := by
  have h : c79Seen 182 = some (.returned, .returned, .returned) := by decide +kernel
  have hc : c79Count 182 = .ok 7 := by decide +kernel
  unfold c79Seen at h
  unfold c79Count at hc
  cases hr : c79At 182 with
  | error e => rw [hr] at h; cases h
  | ok s =>
    rw [hr] at h hc
    simp only [Option.some.injEq, Prod.mk.injEq] at h
    refine ⟨s, rfl, ⟨c74Disk, .shadow, 2, [], _, c74_apart, by decide, c74_agree _ _ _, ?_, hr⟩, h.1, h.2.1, h.2.2, hc,
      ⟨fun _ _ _ _ _ h => h, fun _ _ _ h => h⟩, ?_, ?_, rfl⟩
    · intro e he
      obtain ⟨i, -, rfl⟩ := List.mem_map.mp he
      exact c79_allowed i
    · intro u msg answers h
      cases h
      exact ⟨rfl, rfl, ⟨100, [], rfl, by decide, fun a ha => by cases ha⟩, _, toyGood⟩
    · intro g t server fm back _ h
      cases h

/-- Non-vacuity of `C79_defined_partial`: the process with the machine's arithmetic, of which the remaining hypotheses are
shown with C74, and the scan. -/
example : (⟨c74Machine, c79Site.scans, c79Site.forward⟩ : MixSite).Sane c74Names c74Asked c74X ∧
    ∀ g t server files, c79Site.forward g t server files ≠ undef :=
  ⟨⟨⟨toySound, (fun _ h => by cases h), prepareAll_ok _ _, c74_within c74Machine.calls fun _ _ => rfl⟩, c79_within c74Machine⟩,
    fun _ _ _ _ h => by cases h⟩


/-! ## Where the code differs -/

/-- A scan, or another call, that waits and has a cancelled task never returns. -/
theorem mix_hangs {M : MixSite} {U : String → Prop} {n : Nat} {asked : Nat → Asked}
    {x : Nat → List ExRequest × ItemMap × List FTask} (sane : M.Sane U asked x) {lazy : Bool} {g : Nat} :
    ∀ (es : List SrvEv) {s s' : Mix}, M.Reached U n x lazy s → (∀ e ∈ es, SrvEv.Allowed U e) →
      (s.srv.x.t.grp g).phase = .waiting → .cancelled ∈ (s.srv.x.t.grp g).tasks → s.run M es = .ok s' →
      (s'.srv.x.t.grp g).phase = .waiting := by
  intro es
  induction es with
  | nil => intro s s' _ _ hp _ hs; cases hs; exact hp
  | cons e es ih =>
    intro s s' r ha hp hc hs
    rw [Mix.run] at hs
    obtain ⟨s1, h1, h2⟩ := res_bind_inv hs
    obtain ⟨-, E, inv⟩ := r.calls sane
    have hpart := mix_part (n := s.srv.x.t.workers.length) sane.site.reader sane.site.offs (r.good sane)
      (List.getElem?_eq_none (Nat.le_refl _)) h1
    obtain ⟨q1, q2⟩ := inv.t.stuck g hp hc _ (fun k => act_scope k) _ (shadow_step hpart)
    refine ih (r.ran (es := [e]) ?_ (by rw [Mix.run, h1]; rfl)) (fun e he => ha e (List.mem_cons_of_mem _ he)) q1 q2 h2
    intro e' he
    rw [List.mem_singleton] at he
    subst he
    exact ha _ List.mem_cons_self

/-- A scan of two files, the first of which is not there. -/
def c79Bad : MixSite :=
  ⟨c74Site, fun g => if g = 2 then some [.file "x" [], .file "/fdb/a.data" []] else none, fun _ _ _ _ => .ok 5⟩

def c79BadEvents : List SrvEv :=
  [.queue (.add 2), .queue (.push 2), .queue (.add 2), .queue (.push 2), .queue (.wait 2), .queue (.pop 0), .queue (.start 0),
   .queue (.work 0)]

def c79BadRun : Res Mix := (Mix.start c79Bad 1 (fun g => (c74X g).2) c74Disk .shadow true 2 []).run c79Bad c79BadEvents

theorem c79_bad : (match c79BadRun with
    | .ok s => some ((s.srv.x.t.grp 2).phase, (s.srv.x.t.grp 2).tasks, s.srv.x.t.workers)
    | .error _ => none) = some (.waiting, [.failed, .cancelled], [.idle]) := by decide +kernel

/-- C79 (the full statement fails).  A scan of two files, one of which is not there: with one worker the second task is
cancelled when the first one fails, and the scan never returns, not even the error.  The worker is free again. -/
theorem C79_failing_scan_hangs :
    c79Bad.Sane c74Names c74Asked c74X ∧
    ∃ s, c79Bad.Reached c74Names 1 c74X true s ∧ s.srv.x.t.workers = [.idle] ∧
      ∀ es s', (∀ e ∈ es, SrvEv.Allowed c74Names e) → s.run c79Bad es = .ok s' → (s'.srv.x.t.grp 2).phase = .waiting := by
  have sane : c79Bad.Sane c74Names c74Asked c74X := by
    refine ⟨c74_sane, ?_⟩
    intro g ks h k hk path os e
    have h : (if g = 2 then some [.file "x" [], .file "/fdb/a.data" []] else none) = some ks := h
    split at h
    · cases h
      subst e
      simp only [List.mem_cons, List.mem_nil_iff, or_false, ScanKind.file.injEq] at hk
      rcases hk with ⟨rfl, -⟩ | ⟨rfl, -⟩
      · exact .inr rfl
      · exact .inl rfl
    · cases h
  refine ⟨sane, ?_⟩
  have hb := c79_bad
  cases hr : c79BadRun with
  | error e => rw [hr] at hb; cases hb
  | ok s =>
    rw [hr] at hb
    have h1 : ((s.srv.x.t.grp 2).phase, (s.srv.x.t.grp 2).tasks, s.srv.x.t.workers) =
      (.waiting, [.failed, .cancelled], [.idle]) := Option.some.inj hb
    have r : c79Bad.Reached c74Names 1 c74X true s := by
      refine ⟨c74Disk, .shadow, 2, [], c79BadEvents, c74_apart, by decide, c74_agree _ _ _, ?_, hr⟩
      intro e he
      simp only [c79BadEvents, List.mem_cons, List.mem_nil_iff, or_false] at he
      rcases he with rfl | rfl | rfl | rfl | rfl | rfl | rfl | rfl <;> trivial
    refine ⟨s, r, congrArg (fun x => x.2.2) h1, fun es s' ha hs => mix_hangs sane es r ha (congrArg Prod.fst h1) ?_ hs⟩
    rw [show (s.srv.x.t.grp 2).tasks = [.failed, .cancelled] from congrArg (fun x => x.2.1) h1]
    decide

end GJ
