import Verif.Lemmas.MixedRun
import Verif.Spec.Scans
import Verif.Lemmas.Scan

/-!
# Scans on the work queue
-/

namespace GJ

open Spec

/-- What a file's scan has found out, before it writes. -/
structure PlanOf (R : Reader UInt64) (offs : List UInt8 → Res (List Nat)) (y : Svc UInt64) (path : String) (os : List Nat)
    (pl : Option (Nat × InfoMap)) : Prop where
  plan : ∃ l, scanned R offs y path os = .ok l ∧ plannedCount (some (path, pl)) = unindexed y path l ∧
    (pl = none → ∀ o ∈ l, y.sys.c.indexed path o ≠ none) ∧
    (∀ n m, pl = some (n, m) → ∀ o ∈ l, indexFind m o ≠ none)

theorem scanPlan_spec {W : World} {c : Cache} {path : String} {l : List Nat} {es : List (Nat × Info)}
    (hl : loadIndex c.fs (c.mode.indexPath path) = .ok (noNull es)) :
    (∀ pl, c.scanPlan W path l = .ok pl →
      plannedCount (some (path, pl)) = (l.filter fun o => (c.indexed path o).isNone).length ∧
      (pl = none → ∀ o ∈ l, c.indexed path o ≠ none) ∧ (∀ n m, pl = some (n, m) → ∀ o ∈ l, indexFind m o ≠ none)) ∧
    ((∀ o ∈ l, ∃ i, W.data path o = .ok i) → ∃ pl, c.scanPlan W path l = .ok pl) := by
  have hi : (fun o => (c.indexed path o).isNone) = fun o => (AMap.find es o).isNone := by
    funext o; rw [Cache.indexed_of_load hl]
  have hfi : (fun o => (indexFind (noNull es) o).isNone) = fun o => (AMap.find es o).isNone := by
    funext o; rw [indexFind_noNull]
  rw [Cache.scanPlan, hl, ok_bind]
  simp only [hfi, hi]
  generalize hnew : (l.filter fun o => (AMap.find es o).isNone) = new
  have hmem : ∀ o, o ∈ new ↔ o ∈ l ∧ AMap.find es o = none := by
    intro o; rw [← hnew, List.mem_filter]; simp
  by_cases he : new = []
  · rw [if_pos he]
    refine ⟨fun pl h => ?_, fun _ => ⟨_, rfl⟩⟩
    rw [← Except.ok.inj h]
    refine ⟨by rw [he]; rfl, fun _ o ho hn => ?_, fun n m e => by cases e⟩
    rw [Cache.indexed_of_load hl] at hn
    have := (hmem o).mpr ⟨ho, hn⟩
    rw [he] at this
    cases this
  · rw [if_neg he]
    constructor
    · intro pl h
      obtain ⟨is, his, h⟩ := res_bind_inv h
      rw [← Except.ok.inj h]
      obtain ⟨hlen, h2, h3⟩ := extractInfos_inv W path _ _ his
      refine ⟨?_, (fun e => by cases e), fun n m e o ho => ?_⟩
      · show is.length = _
        rw [hlen, (isort_perm (fun a b => decide (a ≤ b)) new).length_eq]
      · have e := (Prod.mk.inj (Option.some.inj e)).2
        rw [← e, insertAll_noNull, indexFind_noNull, find_addAll]
        cases hf : AMap.find es o with
        | some i => exact fun e => by cases e
        | none =>
          simp only
          rw [find_zip_info his, if_pos ((isort_perm (fun a b => decide (a ≤ b)) new).mem_iff.mpr ((hmem o).mpr ⟨ho, hf⟩))]
          obtain ⟨i, hi⟩ := h2 o ((isort_perm (fun a b => decide (a ≤ b)) new).mem_iff.mpr ((hmem o).mpr ⟨ho, hf⟩))
          rw [World.info_some.mpr hi]
          exact fun e => by cases e
    · intro hd
      obtain ⟨is, his⟩ := extractInfos_total W path (isort (fun a b => decide (a ≤ b)) new) (by
        intro o ho
        exact hd o ((hmem o).mp ((isort_perm (fun a b => decide (a ≤ b)) new).mem_iff.mp ho)).1)
      exact ⟨_, by rw [his, ok_bind]⟩

/-- Reading for a scan: what it plans, and that it can. -/
theorem scanTaskPlan_spec {R : Reader UInt64} {offs : List UInt8 → Res (List Nat)} {U : String → Prop} {y : Svc UInt64}
    (good : SvcGood R offs U y) {path : String} (hU : U path) (os : List Nat) :
    (∀ pl, scanTaskPlan y.sys.W y.sys.c path os = .ok pl → PlanOf R offs y path os pl) ∧
    (Readable R offs y path os → ∃ pl, scanTaskPlan y.sys.W y.sys.c path os = .ok pl) := by
  obtain ⟨es, hl, -⟩ := loaded_good good.cache.index hU
  have hlen : (isort (fun a b => decide (a ≤ b)) os).length = os.length := (isort_perm _ os).length_eq
  unfold scanTaskPlan
  simp only [hlen]
  by_cases he : os = []
  · rw [if_pos (by rw [he]; rfl), Cache.scanFilePlan, if_pos rfl]
    constructor
    · intro pl h
      obtain ⟨l, h1, h2⟩ := res_bind_inv h
      obtain ⟨h3, h4, h5⟩ := (scanPlan_spec hl).1 pl h2
      exact ⟨⟨l, by rw [scanned, if_pos he, ← good.world]; exact h1, h3, h4, h5⟩⟩
    · rintro ⟨l, h1, h2⟩
      rw [scanned, if_pos he, ← good.world] at h1
      rw [← good.world] at h2
      rw [h1, ok_bind]
      exact (scanPlan_spec hl).2 h2
  · rw [if_neg (by intro h; exact he (List.length_eq_zero_iff.mp h)), scanPlan_sorted]
    constructor
    · intro pl h
      obtain ⟨h3, h4, h5⟩ := (scanPlan_spec hl).1 pl h
      exact ⟨⟨os, by rw [scanned, if_neg he], h3, h4, h5⟩⟩
    · rintro ⟨l, h1, h2⟩
      rw [scanned, if_neg he] at h1
      have := Except.ok.inj h1
      subst this
      rw [← good.world] at h2
      exact (scanPlan_spec hl).2 h2

/-- The first half of a scan, as a step of the service. -/
theorem request_step {R : Reader UInt64} {offs : List UInt8 → Res (List Nat)} {y y' : Svc UInt64} {path : String}
    {os : List Nat} (h : y.step R offs (scanRequest path os).on = .ok y') :
    (∃ pl, scanTaskPlan y.sys.W y.sys.c path os = .ok pl ∧ y'.sys.scans = y.sys.scans ++ [(path, pl)]) ∨
    ((∃ e, scanTaskPlan y.sys.W y.sys.c path os = throwExn e) ∧ y'.sys.scans = y.sys.scans) := by
  have h1 : ∃ z, y.sys.planned path (scanTaskPlan y.sys.W y.sys.c path os) = .ok z ∧ y'.sys = z := by
    have hs : (scanRequest path os) = (if (isort (fun a b => decide (a ≤ b)) os).length = 0 then .scanFile path true
      else .scan path (isort (fun a b => decide (a ≤ b)) os)) := rfl
    rw [hs] at h
    unfold scanTaskPlan
    simp only
    split at h
    · rename_i hc
      rw [if_pos hc]
      obtain ⟨z, h1, h2⟩ := res_bind_inv (show (y.sys.step (.scanFile path true) >>= _) = _ from h)
      exact ⟨z, h1, by rw [← Except.ok.inj h2]⟩
    · rename_i hc
      rw [if_neg hc]
      obtain ⟨z, h1, h2⟩ := res_bind_inv (show (y.sys.step (.scan path _) >>= _) = _ from h)
      exact ⟨z, h1, by rw [← Except.ok.inj h2]⟩
  obtain ⟨z, h1, rfl⟩ := h1
  cases hp : scanTaskPlan y.sys.W y.sys.c path os with
  | ok pl =>
    rw [hp] at h1
    exact .inl ⟨pl, rfl, by rw [← Except.ok.inj h1]⟩
  | error f =>
    rw [hp] at h1
    cases f with
    | ub => cases h1
    | exn e => exact .inr ⟨⟨e, rfl⟩, by rw [← Except.ok.inj h1]⟩

/-- The second half of a scan, as a step of the service. -/
theorem commit_scans {R : Reader UInt64} {offs : List UInt8 → Res (List Nat)} {y y' : Svc UInt64} {k : Nat}
    (h : y.step R offs (.cache (.commit k)) = .ok y') : y'.sys.scans = y.sys.scans.eraseIdx k := by
  obtain ⟨z, h1, h2⟩ := res_bind_inv (show (y.sys.step (.commit k) >>= _) = _ from h)
  rw [← Except.ok.inj h2]
  rw [Sys.step.eq_def] at h1
  simp only at h1
  split at h1
  · rename_i hk
    rw [← Except.ok.inj h1, List.eraseIdx_of_length_le (List.getElem?_eq_none_iff.mp hk)]
  · obtain ⟨z', h1, h3⟩ := res_bind_inv h1
    rw [← Except.ok.inj h3]

/-- What a worker has planned, it writes. -/
theorem commit_indexed {R : Reader UInt64} {offs : List UInt8 → Res (List Nat)} {U : String → Prop} {y y' : Svc UInt64}
    (good : SvcGood R offs U y) {k : Nat} (h : y.step R offs (.cache (.commit k)) = .ok y') {path : String} {n : Nat}
    {m : InfoMap} (hk : y.sys.scans[k]? = some (path, some (n, m))) {o : Nat} (ho : indexFind m o ≠ none) :
    y'.sys.c.indexed path o ≠ none := by
  obtain ⟨z, h1, h2⟩ := res_bind_inv (show (y.sys.step (.commit k) >>= _) = _ from h)
  rw [← Except.ok.inj h2]
  rw [Sys.step.eq_def] at h1
  simp only [hk] at h1
  obtain ⟨es, rfl, -⟩ := (good.cache.scans _ (List.mem_of_getElem? hk)).2 n m rfl
  rw [Cache.scanCommit, writeIndex, encIndex_ok, ok_bind, ok_bind, ok_bind] at h1
  rw [← Except.ok.inj h1]
  have hh : Holds (y.sys.c.fs.set (y.sys.c.mode.indexPath path) (.u8 1 :: entryToks es)) (y.sys.c.mode.indexPath path) es :=
    .inr (by rw [AMap.find_set, if_pos rfl])
  have hl : loadIndex (y.sys.c.fs.set (y.sys.c.mode.indexPath path) (.u8 1 :: entryToks es)) (y.sys.c.mode.indexPath path) =
      .ok (noNull (addAll [] es)) := by rw [hh.load, ← insertAll_noNull]; rfl
  rw [Cache.indexed_of_load (c := { y.sys.c with fs := _ }) hl, find_addAll]
  rw [indexFind_noNull] at ho
  exact ho

/-- Steps that are not scans leave the planned scans alone. -/
theorem other_scans {R : Reader UInt64} {offs : List UInt8 → Res (List Nat)} {y y' : Svc UInt64} {e : OEv}
    (h : y.step R offs e.on = .ok y') (hc : ∀ k, e ≠ .commit k) : ∃ ext, y'.sys.scans = y.sys.scans ++ ext := by
  have planned : ∀ {path r z}, y.sys.planned path r = .ok z → ∃ ext, z.scans = y.sys.scans ++ ext := by
    intro path r z h
    cases r with
    | ok pl => exact ⟨_, by rw [← Except.ok.inj h]⟩
    | error f =>
      cases f with
      | ub => cases h
      | exn e => exact ⟨[], by rw [← Except.ok.inj h, List.append_nil]⟩
  cases e with
  | append p b =>
    rw [← Except.ok.inj (show Except.ok _ = _ from h)]
    exact ⟨[], (List.append_nil _).symm⟩
  | commit k => exact absurd rfl (hc k)
  | scan p os =>
    obtain ⟨z, h1, h2⟩ := res_bind_inv (show (y.sys.step _ >>= _) = _ from h)
    rw [← Except.ok.inj h2]; exact planned h1
  | scanFile p m =>
    obtain ⟨z, h1, h2⟩ := res_bind_inv (show (y.sys.step _ >>= _) = _ from h)
    rw [← Except.ok.inj h2]; exact planned h1
  | insert p o =>
    obtain ⟨z, h1, h2⟩ := res_bind_inv (show (y.sys.step _ >>= _) = _ from h)
    rw [← Except.ok.inj h2]
    rw [Sys.step.eq_def] at h1
    simp only at h1
    split at h1 <;> exact ⟨[], by rw [← Except.ok.inj h1, List.append_nil]⟩
  | flush a =>
    obtain ⟨z, h1, h2⟩ := res_bind_inv (show (y.sys.step _ >>= _) = _ from h)
    rw [← Except.ok.inj h2]
    rw [Sys.step.eq_def] at h1
    simp only at h1
    obtain ⟨c, -, h1⟩ := res_bind_inv h1
    exact ⟨[], by rw [← Except.ok.inj h1, List.append_nil]⟩
  | elsewhere a ws =>
    obtain ⟨z, h1, h2⟩ := res_bind_inv (show (y.sys.step _ >>= _) = _ from h)
    rw [← Except.ok.inj h2]
    rw [Sys.step.eq_def] at h1
    simp only at h1
    obtain ⟨c, -, h1⟩ := res_bind_inv h1
    exact ⟨[], by rw [← Except.ok.inj h1, List.append_nil]⟩
  | clear =>
    obtain ⟨z, h1, h2⟩ := res_bind_inv (show (y.sys.step _ >>= _) = _ from h)
    rw [← Except.ok.inj h2, ← Except.ok.inj (show Except.ok _ = _ from h1)]
    exact ⟨[], (List.append_nil _).symm⟩

/-- Steps of calls leave the planned scans alone. -/
theorem queue_scans {p : Site} {s s' : Srv} {q : XEv} (h : s.step p (.queue q) = .ok s') :
    s'.svc.sys.scans = s.svc.sys.scans := by
  have look : ∀ {f os y}, s.svc.step p.reader p.offs (.cache (.lookup f os)) = .ok y → y.sys.scans = s.svc.sys.scans := by
    intro f os y h
    obtain ⟨z, h1, h2⟩ := res_bind_inv (show (s.svc.sys.step _ >>= _) = _ from h)
    rw [← Except.ok.inj h2]
    rw [Sys.step.eq_def] at h1
    obtain ⟨⟨a, b⟩, -, h1⟩ := res_bind_inv h1
    rw [← Except.ok.inj h1]
  have answer : ∀ {k y}, s.svc.step p.reader p.offs (.cache (.answer k)) = .ok y → y.sys.scans = s.svc.sys.scans := by
    intro k y h
    obtain ⟨z, h1, h2⟩ := res_bind_inv (show (s.svc.sys.step _ >>= _) = _ from h)
    rw [← Except.ok.inj h2]
    rw [Sys.step.eq_def] at h1
    simp only at h1
    split at h1
    · rw [← Except.ok.inj h1]
    · rw [Sys.finish.eq_def] at h1
      split at h1
      · obtain ⟨c, -, h1⟩ := res_bind_inv h1
        rw [← Except.ok.inj h1]
      · cases h1
      · rw [← Except.ok.inj h1]
  have plain : ∀ {q : XEv}, (s.x.step (p.env s.svc.disk undef) p.conf q >>= fun x => (.ok ⟨x, s.svc, s.holders⟩ : Res Srv)) =
      .ok s' → s'.svc.sys.scans = s.svc.sys.scans := by
    intro q h
    obtain ⟨x', -, h⟩ := res_bind_inv h
    rw [← Except.ok.inj h]
  cases q with
  | work w =>
    rw [Srv.step, Srv.work.eq_def] at h
    cases hask : s.x.asking w with
    | none => rw [hask] at h; exact plain h
    | some a =>
      obtain ⟨f, os⟩ := a
      rw [hask] at h
      simp only [] at h
      split at h
      · obtain ⟨y, hy, h⟩ := res_bind_inv h
        obtain ⟨x', -, h⟩ := res_bind_inv h
        rw [← Except.ok.inj h]; exact answer hy
      · obtain ⟨y, hy, h⟩ := res_bind_inv h
        rw [← Except.ok.inj h]; exact look hy
  | add g => exact plain h
  | push g => exact plain h
  | wait g => exact plain h
  | ret g => exact plain h
  | pop g => exact plain h
  | start g => exact plain h

/-- Workers put down tasks in their own steps. -/
theorem act_ends {E : Nat → ExtEnv} {C : EngineConf} {x : XSys} {q : XEv} {a : TEv} {job : Nat → FSys} {w : Nat}
    (h : x.act E C q = .ok (some a, job)) (ha : a = .finish w ∨ ∃ msg, a = .fail w msg) : q = .work w := by
  have no : ∀ {b : TEv}, (some b = some a) → (b ≠ .finish w ∧ ∀ msg, b ≠ .fail w msg) → q = .work w := by
    intro b e hb
    rw [← Option.some.inj e] at ha
    rcases ha with e | ⟨msg, e⟩
    · exact absurd e hb.1
    · exact absurd e (hb.2 msg)
  cases q with
  | add g =>
    have h' : (if _ then some (TEv.add g) else none) = some a := (Prod.mk.inj (Except.ok.inj h)).1
    split at h'
    · exact no h' ⟨(fun e => by cases e), fun _ e => by cases e⟩
    · cases h'
  | wait g =>
    have h' : (if _ then some (TEv.wait g) else none) = some a := (Prod.mk.inj (Except.ok.inj h)).1
    split at h'
    · exact no h' ⟨(fun e => by cases e), fun _ e => by cases e⟩
    · cases h'
  | push g => exact no (Prod.mk.inj (Except.ok.inj h)).1 ⟨(fun e => by cases e), fun _ e => by cases e⟩
  | ret g => exact no (Prod.mk.inj (Except.ok.inj h)).1 ⟨(fun e => by cases e), fun _ e => by cases e⟩
  | pop g => exact no (Prod.mk.inj (Except.ok.inj h)).1 ⟨(fun e => by cases e), fun _ e => by cases e⟩
  | start g => exact no (Prod.mk.inj (Except.ok.inj h)).1 ⟨(fun e => by cases e), fun _ e => by cases e⟩
  | work v =>
    rw [XSys.act.eq_def] at h
    simp only at h
    split at h
    · split at h
      · cases h
      · split at h
        · rw [← Option.some.inj (Prod.mk.inj (Except.ok.inj h)).1] at ha
          rcases ha with e | ⟨msg, e⟩ <;> cases e
          rfl
        · split at h
          · cases (Prod.mk.inj (Except.ok.inj h)).1
          · cases h
          · rw [← Option.some.inj (Prod.mk.inj (Except.ok.inj h)).1] at ha
            rcases ha with e | ⟨msg, e⟩ <;> cases e
            rfl
    · cases (Prod.mk.inj (Except.ok.inj h)).1

/-- A worker that executes a scan's task stays at it, unless it is done with it. -/
def Stay (M : MixSite) (s s' : Mix) : Prop :=
  ∀ (w g j : Nat) (T : ScanKind × ScanAt), M.scan g = true → s.srv.x.t.workers[w]? = some (.running g j) →
    (s.jobs g).tasks[j]? = some T → (∀ n, T.2 ≠ .done n) → s'.srv.x.t.workers[w]? = some (.running g j)

/-- What steps do to scans. -/
inductive ScanStep (M : MixSite) (e : SrvEv) (s s' : Mix) : Prop
  /-- no step of a scan's task; somebody else may have planned one -/
  | quiet (ext : List (String × Option (Nat × InfoMap))) (jobs : s'.jobs = s.jobs)
      (scanners : s'.scanners = s.scanners ++ List.replicate ext.length none)
      (scans : s'.srv.svc.sys.scans = s.srv.svc.sys.scans ++ ext) (stay : Stay M s s')
  /-- somebody else has written what they planned -/
  | others (k : Nat) (jobs : s'.jobs = s.jobs) (other : s.scanners[k]? = some none)
      (scanners : s'.scanners = s.scanners.eraseIdx k) (scans : s'.srv.svc.sys.scans = s.srv.svc.sys.scans.eraseIdx k)
      (t : s'.srv.x.t = s.srv.x.t)
  | read (w g j : Nat) (path : String) (os : List Nat) (pl : Option (Nat × InfoMap)) (scan : M.scan g = true)
      (running : s.srv.x.t.workers[w]? = some (.running g j)) (task : (s.jobs g).tasks[j]? = some (.file path os, .fresh))
      (plan : scanTaskPlan s.srv.svc.sys.W s.srv.svc.sys.c path os = .ok pl)
      (scanners : s'.scanners = s.scanners ++ [some w])
      (scans : s'.srv.svc.sys.scans = s.srv.svc.sys.scans ++ [(path, pl)]) (t : s'.srv.x.t = s.srv.x.t)
      (rest : ∀ i, i ≠ g → s'.jobs i = s.jobs i)
      (job : s'.jobs g = ⟨(s.jobs g).tasks.set j (.file path os, .planned), (s.jobs g).count, (s.jobs g).time + 1⟩)
  | write (w g j : Nat) (path : String) (os : List Nat) (k n : Nat) (scan : M.scan g = true)
      (running : s.srv.x.t.workers[w]? = some (.running g j)) (task : (s.jobs g).tasks[j]? = some (.file path os, .planned))
      (place : k = s.scanners.idxOf (some w)) (number : n = plannedCount s.srv.svc.sys.scans[k]?)
      (commit : s.srv.svc.step M.site.reader M.site.offs (.cache (.commit k)) = .ok s'.srv.svc)
      (scanners : s'.scanners = s.scanners.eraseIdx k) (t : s'.srv.x.t = s.srv.x.t)
      (rest : ∀ i, i ≠ g → s'.jobs i = s.jobs i)
      (job : s'.jobs g = ⟨(s.jobs g).tasks.set j (.file path os, .done n), (s.jobs g).count + n, (s.jobs g).time + 1⟩)
  | ask (w g j : Nat) (server : String × Int) (files : ScanMap) (n : Nat) (event : e = .queue (.work w)) (scan : M.scan g = true)
      (running : s.srv.x.t.workers[w]? = some (.running g j))
      (task : (s.jobs g).tasks[j]? = some (.forward server files, .fresh))
      (answer : M.forward g (s.jobs g).time server files = .ok n) (scanners : s'.scanners = s.scanners)
      (svc : s'.srv.svc = s.srv.svc) (t : s'.srv.x.t = s.srv.x.t)
      (rest : ∀ i, i ≠ g → s'.jobs i = s.jobs i)
      (job : s'.jobs g =
        ⟨(s.jobs g).tasks.set j (.forward server files, .done n), (s.jobs g).count + n, (s.jobs g).time + 1⟩)
  | failed (w g j : Nat) (k : ScanKind) (event : e = .queue (.work w)) (scan : M.scan g = true)
      (running : s.srv.x.t.workers[w]? = some (.running g j))
      (task : (s.jobs g).tasks[j]? = some (k, .fresh)) (scanners : s'.scanners = s.scanners)
      (scans : s'.srv.svc.sys.scans = s.srv.svc.sys.scans) (t : s.srv.x.t.step (.fail w "error") = .ok s'.srv.x.t)
      (rest : ∀ i, i ≠ g → s'.jobs i = s.jobs i)
      (job : s'.jobs g = ⟨(s.jobs g).tasks.set j (k, .failed), (s.jobs g).count, (s.jobs g).time + 1⟩)
      (why : (∃ path os e, k = .file path os ∧ scanTaskPlan s.srv.svc.sys.W s.srv.svc.sys.c path os = throwExn e) ∨
        ∃ server files e, k = .forward server files ∧ M.forward g (s.jobs g).time server files = throwExn e)

theorem stay_plain {M : MixSite} {s s' : Mix} {e : SrvEv} (h : s.plain M e = .ok s')
    (hw : ∀ w, e = .queue (.work w) → s.scanning M w = false) (hc : ∀ q, e ≠ .other q) : ScanStep M e s s' := by
  rw [Mix.plain] at h
  obtain ⟨y, h1, h2⟩ := res_bind_inv h
  have e' := Except.ok.inj h2
  cases e with
  | other q => exact absurd rfl (hc q)
  | queue q =>
    refine .quiet [] (by rw [← e']) (by rw [← e']; exact (List.append_nil _).symm)
      (by rw [← e', List.append_nil]; exact queue_scans h1) ?_
    intro w g j T hg hr _ _
    have hq : q ≠ .work w := by
      rintro rfl
      have := hw w rfl
      rw [Mix.scanning.eq_def, hr] at this
      rw [show M.scan g = false from this] at hg
      cases hg
    have hp := part_step (n := s.srv.x.t.workers.length) (List.getElem?_eq_none (Nat.le_refl _)) h1
    obtain ⟨a, h3, h4⟩ := step_inv hp
    rw [← e']
    cases a with
    | none => rw [show y.x.t = s.srv.x.t from (Except.ok.inj h4).symm]; exact hr
    | some a =>
      have hne : s.srv.part s.srv.x.t.workers.length (.queue q) ≠ .work w := by
        intro e
        have hlt : w < s.srv.x.t.workers.length := (List.getElem?_eq_some_iff.mp hr).1
        cases q with
        | work v =>
          rw [Srv.part] at e
          split at e
          · have := XEv.work.inj e; omega
          · exact hq e
        | _ => exact hq e
      exact worker_stays h4 hr (fun e => hne (act_ends h3 (.inl e))) (fun msg e => hne (act_ends h3 (.inr ⟨msg, e⟩)))

theorem stay_group {M : MixSite} {e : SrvEv} {s s' : Mix} {a : Option TEv} (h : s.group a = .ok s')
    (hf : ∀ w msg, a ≠ some (.fail w msg))
    (hd : ∀ w, a = some (.finish w) → ∃ g j k n, s.srv.x.t.workers[w]? = some (.running g j) ∧
      (s.jobs g).tasks[j]? = some (k, .done n)) : ScanStep M e s s' := by
  rw [Mix.group] at h
  obtain ⟨t, h1, h2⟩ := res_bind_inv h
  have e := Except.ok.inj h2
  refine .quiet [] (by rw [← e]) (by rw [← e]; exact (List.append_nil _).symm) (by rw [← e]; exact (List.append_nil _).symm) ?_
  intro w g j T hg hr hT hn
  rw [← e]
  cases a with
  | none => rw [show t = s.srv.x.t from (Except.ok.inj h1).symm]; exact hr
  | some a =>
    refine worker_stays h1 hr ?_ (fun msg e => hf w msg (by rw [e]))
    rintro rfl
    obtain ⟨g', j', k, n, h3, h4⟩ := hd w rfl
    rw [hr] at h3
    cases h3
    rw [hT] at h4
    exact hn n (by rw [Option.some.inj h4])

theorem scanFail_shape {s s' : Mix} {g j w : Nat} {k : ScanKind} (h : s.scanFail g j w k = .ok s') :
    s.srv.x.t.step (.fail w "error") = .ok s'.srv.x.t ∧ s'.scanners = s.scanners ∧ s'.srv.svc = s.srv.svc ∧
    (∀ i, i ≠ g → s'.jobs i = s.jobs i) ∧
    s'.jobs g = ⟨(s.jobs g).tasks.set j (k, .failed), (s.jobs g).count, (s.jobs g).time + 1⟩ := by
  rw [Mix.scanFail] at h
  obtain ⟨t, h1, h2⟩ := res_bind_inv h
  have e := Except.ok.inj h2
  rw [← e]
  exact ⟨h1, rfl, rfl, fun i hi => if_neg hi, if_pos rfl⟩

/-- Every step is one of these. -/
theorem scan_step {M : MixSite} {U : String → Prop} {s s' : Mix} {e : SrvEv} (sound : SoundReader M.site.reader)
    (hoffs : ∀ file, M.site.offs file ≠ undef) (good : SvcGood M.site.reader M.site.offs U s.srv.svc)
    (len : s.scanners.length = s.srv.svc.sys.scans.length) (h : s.step M e = .ok s') : ScanStep M e s s' := by
  rw [Mix.step.eq_def] at h
  split at h
  · rename_i g
    by_cases hg : M.scan g = true
    · rw [if_pos hg] at h
      refine stay_group h ?_ ?_
      · intro w msg e; split at e <;> cases e
      · intro w e; split at e <;> cases e
    · rw [if_neg hg] at h; exact stay_plain h (fun w e => by cases e) (fun q e => by cases e)
  · rename_i g
    by_cases hg : M.scan g = true
    · rw [if_pos hg] at h
      refine stay_group h ?_ ?_
      · intro w msg e; split at e <;> cases e
      · intro w e; split at e <;> cases e
    · rw [if_neg hg] at h; exact stay_plain h (fun w e => by cases e) (fun q e => by cases e)
  · rename_i w
    split at h
    · rename_i g j hr
      by_cases hg : M.scan g = true
      · rw [if_pos hg, Mix.scanWork.eq_def] at h
        split at h
        · rename_i k n hj
          refine stay_group h (fun v msg e => by cases e) ?_
          intro v e
          cases e
          exact ⟨g, j, k, n, hr, hj⟩
        · rename_i path os hj
          rw [Mix.scanRead] at h
          obtain ⟨svc, h1, h⟩ := res_bind_inv h
          rcases request_step h1 with ⟨pl, h2, h3⟩ | ⟨⟨e, h2⟩, h3⟩
          · rw [if_pos (by rw [h3, List.length_append]; exact Nat.lt_succ_self _)] at h
            have e := Except.ok.inj h
            refine .read w g j path os pl hg hr hj h2 (by rw [← e]; rfl) (by rw [← e]; exact h3) (by rw [← e]; rfl)
              (fun i hi => ?_) ?_
            · rw [← e]; exact if_neg hi
            · rw [← e]; exact if_pos rfl
          · rw [if_neg (by rw [h3]; exact Nat.lt_irrefl _)] at h
            have h4 := scanFail_shape h
            refine .failed w g j (.file path os) rfl hg hr hj h4.2.1 ?_ h4.1 h4.2.2.2.1 h4.2.2.2.2 (.inl ⟨path, os, e, rfl, h2⟩)
            rw [h4.2.2.1]; exact h3
        · rename_i path os hj
          rw [Mix.scanWrite] at h
          obtain ⟨svc, h1, -⟩ := good.step sound hoffs (.cache (.commit (s.scanners.idxOf (some w)))) trivial
          simp only [h1] at h
          have e := Except.ok.inj h
          refine .write w g j path os _ _ hg hr hj rfl rfl (by rw [← e]; exact h1) (by rw [← e]; rfl) (by rw [← e]; rfl)
            (fun i hi => ?_) ?_
          · rw [← e]; exact if_neg hi
          · rw [← e]; exact if_pos rfl
        · rename_i server files hj
          rw [Mix.scanAsk] at h
          split at h
          · rename_i n hf
            have e := Except.ok.inj h
            refine .ask w g j server files n rfl hg hr hj hf (by rw [← e]; rfl) (by rw [← e]; rfl) (by rw [← e]; rfl)
              (fun i hi => ?_) ?_
            · rw [← e]; exact if_neg hi
            · rw [← e]; exact if_pos rfl
          · cases h
          · rename_i x hf
            have h4 := scanFail_shape h
            exact .failed w g j (.forward server files) rfl hg hr hj h4.2.1 (by rw [h4.2.2.1]) h4.1 h4.2.2.2.1 h4.2.2.2.2
              (.inr ⟨server, files, x, rfl, hf⟩)
        · cases h
      · rw [if_neg hg] at h
        refine stay_plain h (fun v e => ?_) (fun q e => by cases e)
        cases e
        rw [Mix.scanning.eq_def, hr]
        simpa using hg
    · rename_i hnr
      refine stay_plain h (fun v e => ?_) (fun q e => by cases e)
      cases e
      rw [Mix.scanning.eq_def]
      split
      · rename_i g j hr; exact absurd hr (hnr _ _)
      · rfl
  · rename_i k
    by_cases hk : s.scanners[k]? = some none
    · rw [if_pos hk] at h
      obtain ⟨y, h1, h⟩ := res_bind_inv h
      have e := Except.ok.inj h
      rw [Srv.step] at h1
      obtain ⟨svc, h1, h2⟩ := res_bind_inv h1
      have e2 := Except.ok.inj h2
      refine .others k (by rw [← e]) hk (by rw [← e]) ?_ (by rw [← e, ← e2])
      rw [← e, ← e2]
      exact commit_scans h1
    · rw [if_neg hk] at h
      rw [← Except.ok.inj h]
      exact .quiet [] rfl (List.append_nil _).symm (List.append_nil _).symm (fun _ _ _ _ _ h _ _ => h)
  · rename_i o hc
    obtain ⟨y, h1, h⟩ := res_bind_inv h
    have e := Except.ok.inj h
    rw [Srv.step] at h1
    obtain ⟨svc, h1, h2⟩ := res_bind_inv h1
    have e2 := Except.ok.inj h2
    obtain ⟨ext, h3⟩ := other_scans h1 (fun k e => hc k e)
    refine .quiet ext (by rw [← e]) ?_ (by rw [← e, ← e2]; exact h3) ?_
    · rw [← e, ← e2]
      show s.scanners ++ List.replicate (svc.sys.scans.length - s.scanners.length) none = _
      rw [h3, List.length_append, len, Nat.add_sub_cancel_left]
    · intro w g j T _ hr _ _
      rw [← e, ← e2]; exact hr
  · rename_i q h3 h4 hq
    exact stay_plain h (fun w e => absurd (SrvEv.queue.inj e) (hq w)) (fun q e => by cases e)

/-- What a task has added to the counter. -/
def ScanAt.added : ScanAt → Nat
  | .done n => n
  | _ => 0

/-- What a finished task of a scan has done; `F` is about those that forward. -/
def DoneBy (F : Nat → Nat → Nat → String × Int → ScanMap → Prop) (R : Reader UInt64) (offs : List UInt8 → Res (List Nat))
    (Q : Mix → Mix → Prop) (g j n : Nat) : ScanKind → Prop
  | .file path os => ∃ y z l, Q y z ∧ Executing y g j ∧ Executing z g j ∧ scanned R offs y.srv.svc path os = .ok l ∧
      n = unindexed y.srv.svc path l ∧ ∀ o ∈ l, z.srv.svc.sys.c.indexed path o ≠ none
  | .forward server files => F g j n server files

/-- The scans are in order.  `P y`: the process has been in state `y`; `Q y z`: first in `y`, then in `z`. -/
structure ScansInv (F : Nat → Nat → Nat → String × Int → ScanMap → Prop) (sc : Nat → Bool) (R : Reader UInt64)
    (offs : List UInt8 → Res (List Nat)) (P : Mix → Prop) (Q : Mix → Mix → Prop) (s : Mix) : Prop where
  len : s.scanners.length = s.srv.svc.sys.scans.length
  once : ∀ (i i' w : Nat), s.scanners[i]? = some (some w) → s.scanners[i']? = some (some w) → i = i'
  owner : ∀ (i w : Nat), s.scanners[i]? = some (some w) → ∃ (g j : Nat) (path : String) (os : List Nat), sc g = true ∧
    s.srv.x.t.workers[w]? = some (.running g j) ∧ (s.jobs g).tasks[j]? = some (.file path os, .planned)
  held : ∀ (g j : Nat) (path : String) (os : List Nat), sc g = true →
    (s.jobs g).tasks[j]? = some (.file path os, .planned) → ∃ (w i : Nat) (pl : Option (Nat × InfoMap)) (y : Mix),
      s.srv.x.t.workers[w]? = some (.running g j) ∧ s.scanners[i]? = some (some w) ∧
      s.srv.svc.sys.scans[i]? = some (path, pl) ∧ P y ∧ Executing y g j ∧ PlanOf R offs y.srv.svc path os pl
  done : ∀ (g j n : Nat) (k : ScanKind), (s.jobs g).tasks[j]? = some (k, .done n) → DoneBy F R offs Q g j n k
  count : ∀ g, (s.jobs g).count = ((s.jobs g).tasks.map fun T => T.2.added).sum

/-- The scans of a process whose servers answer by themselves. -/
abbrev MixScanInv (M : MixSite) (P : Mix → Prop) (Q : Mix → Mix → Prop) (s : Mix) : Prop :=
  ScansInv (fun g _ n server files => ∃ t, M.forward g t server files = .ok n) M.scan M.site.reader M.site.offs P Q s

theorem doneBy_more {F F' : Nat → Nat → Nat → String × Int → ScanMap → Prop}
    (hF : ∀ g j n server files, F g j n server files → F' g j n server files) {R : Reader UInt64}
    {offs : List UInt8 → Res (List Nat)} {Q Q' : Mix → Mix → Prop} (hQ : ∀ y z, Q y z → Q' y z) {g j n : Nat} {k : ScanKind}
    (h : DoneBy F R offs Q g j n k) : DoneBy F' R offs Q' g j n k := by
  cases k with
  | file path os =>
    obtain ⟨y, z, l, h1, h2⟩ := h
    exact ⟨y, z, l, hQ y z h1, h2⟩
  | forward server files => exact hF _ _ _ _ _ h

/-- More has happened, elsewhere. -/
theorem ScansInv.more {F F' : Nat → Nat → Nat → String × Int → ScanMap → Prop} {sc : Nat → Bool} {R : Reader UInt64}
    {offs : List UInt8 → Res (List Nat)} {P P' : Mix → Prop} {Q Q' : Mix → Mix → Prop} {s : Mix}
    (inv : ScansInv F sc R offs P Q s) (hF : ∀ g j n server files, F g j n server files → F' g j n server files)
    (hP : ∀ y, P y → P' y) (hQ : ∀ y z, Q y z → Q' y z) : ScansInv F' sc R offs P' Q' s where
  len := inv.len
  once := inv.once
  owner := inv.owner
  held g j path os hg hj := by
    obtain ⟨w, i, pl, y, h1, h2, h3, h4, h5⟩ := inv.held g j path os hg hj
    exact ⟨w, i, pl, y, h1, h2, h3, hP y h4, h5⟩
  done g j n k hj := doneBy_more hF hQ (inv.done g j n k hj)
  count := inv.count

theorem added_set {l : List (ScanKind × ScanAt)} {j : Nat} {T T' : ScanKind × ScanAt} (h : l[j]? = some T) :
    ((l.set j T').map fun T => T.2.added).sum + T.2.added = (l.map fun T => T.2.added).sum + T'.2.added := by
  induction l generalizing j with
  | nil => cases h
  | cons a l ih =>
    cases j with
    | zero =>
      have e : a = T := Option.some.inj h
      subst e
      simp only [List.set_cons_zero, List.map_cons, List.sum_cons]
      omega
    | succ j =>
      have := ih (j := j) h
      simp only [List.set_cons_succ, List.map_cons, List.sum_cons]
      omega

/-- Indices after one was taken out. -/
theorem erase_up {α : Type} {l : List α} {k i : Nat} {a : α} (h : (l.eraseIdx k)[i]? = some a) :
    l[if i < k then i else i + 1]? = some a := by
  rw [List.getElem?_eraseIdx] at h
  split at h
  · rename_i hc; rw [if_pos hc]; exact h
  · rename_i hc; rw [if_neg hc]; exact h

theorem erase_down {α : Type} (l : List α) {k i : Nat} (hk : i ≠ k) :
    (l.eraseIdx k)[if i < k then i else i - 1]? = l[i]? := by
  rw [List.getElem?_eraseIdx]
  by_cases h : i < k
  · rw [if_pos h, if_pos h]
  · rw [if_neg h, if_neg (by omega), show i - 1 + 1 = i from by omega]

theorem append_none {l : List (Option Nat)} {m i w : Nat} (h : (l ++ List.replicate m none)[i]? = some (some w)) :
    l[i]? = some (some w) := by
  rw [List.getElem?_append] at h
  split at h
  · exact h
  · have := List.eq_of_mem_replicate (List.mem_of_getElem? h)
    cases this

theorem append_left {α : Type} {l l' : List α} {i : Nat} {a : α} (h : l[i]? = some a) : (l ++ l')[i]? = some a := by
  rw [List.getElem?_append_left (List.getElem?_eq_some_iff.mp h).1]; exact h

/-- The scans stay in order. -/
theorem ScansInv.step {F F' : Nat → Nat → Nat → String × Int → ScanMap → Prop} {M : MixSite} {U : String → Prop}
    {P P' : Mix → Prop} {Q Q' : Mix → Mix → Prop} {e : SrvEv} {s s' : Mix}
    (hU : M.Within U) (kinds : s.Kinds M) (tinv : TInv s.srv.x.t)
    (good : SvcGood M.site.reader M.site.offs U s.srv.svc) (inv : ScansInv F M.scan M.site.reader M.site.offs P Q s)
    (hF : ∀ g j n server files, F g j n server files → F' g j n server files)
    (hask : ∀ (w g j : Nat) (server : String × Int) (files : ScanMap) (n : Nat), e = .queue (.work w) → M.scan g = true →
      s.srv.x.t.workers[w]? = some (.running g j) → (s.jobs g).tasks[j]? = some (.forward server files, .fresh) →
      M.forward g (s.jobs g).time server files = .ok n → F' g j n server files)
    (hP : ∀ y, P y → P' y) (hQ : ∀ y z, Q y z → Q' y z) (hs : P' s) (hself : ∀ y, P y → Q' y y ∧ Q' y s')
    (h : ScanStep M e s s') : ScansInv F' M.scan M.site.reader M.site.offs P' Q' s' := by
  cases h with
  | quiet ext jobs scanners scans stay =>
    constructor
    · rw [scanners, scans, List.length_append, List.length_append, inv.len, List.length_replicate]
    · intro i i' w h1 h2
      rw [scanners] at h1 h2
      exact inv.once i i' w (append_none h1) (append_none h2)
    · intro i w h
      rw [scanners] at h
      obtain ⟨g, j, path, os, h1, h2, h3⟩ := inv.owner i w (append_none h)
      exact ⟨g, j, path, os, h1, stay w g j _ h1 h2 h3 (fun n e => by cases e), by rw [jobs]; exact h3⟩
    · intro g j path os hg hj
      rw [jobs] at hj
      obtain ⟨w, i, pl, y, h1, h2, h3, h4, h5, h6⟩ := inv.held g j path os hg hj
      exact ⟨w, i, pl, y, stay w g j _ hg h1 hj (fun n e => by cases e), by rw [scanners]; exact append_left h2,
        by rw [scans]; exact append_left h3, hP y h4, h5, h6⟩
    · intro g j n k hj
      rw [jobs] at hj
      exact doneBy_more hF hQ (inv.done g j n k hj)
    · intro g; rw [jobs]; exact inv.count g
  | others k jobs other scanners scans t =>
    have hne : ∀ (i w : Nat), s.scanners[i]? = some (some w) → i ≠ k := by
      rintro i w h rfl
      rw [other] at h
      cases h
    constructor
    · rw [scanners, scans, List.length_eraseIdx, List.length_eraseIdx, inv.len]
    · intro i i' w h1 h2
      rw [scanners] at h1 h2
      have := inv.once _ _ w (erase_up h1) (erase_up h2)
      split at this <;> split at this <;> omega
    · intro i w h
      rw [scanners] at h
      rw [t, jobs]
      exact inv.owner _ w (erase_up h)
    · intro g j path os hg hj
      rw [jobs] at hj
      obtain ⟨w, i, pl, y, h1, h2, h3, h4, h5, h6⟩ := inv.held g j path os hg hj
      exact ⟨w, _, pl, y, by rw [t]; exact h1, by rw [scanners, erase_down _ (hne i w h2)]; exact h2,
        by rw [scans, erase_down _ (hne i w h2)]; exact h3, hP y h4, h5, h6⟩
    · intro g j n k hj
      rw [jobs] at hj
      exact doneBy_more hF hQ (inv.done g j n k hj)
    · intro g; rw [jobs]; exact inv.count g
  | read w g j path os pl scan running task plan scanners scans t rest job =>
    have hw : ∀ i : Nat, s.scanners[i]? ≠ some (some w) := by
      intro i h
      obtain ⟨g', j', path', os', -, h2, h3⟩ := inv.owner i w h
      rw [running] at h2
      cases h2
      rw [task] at h3
      cases h3
    have last : ∀ (i v : Nat), (s.scanners ++ [some w])[i]? = some (some v) →
        s.scanners[i]? = some (some v) ∨ (v = w ∧ i = s.scanners.length) := by
      intro i v h
      rw [List.getElem?_append] at h
      split at h
      · exact .inl h
      · rename_i hlt
        have h0 := (List.getElem?_eq_some_iff.mp h).1
        rw [List.length_singleton] at h0
        rw [show i - s.scanners.length = 0 from by omega] at h
        exact .inr ⟨(Option.some.inj (Option.some.inj h)).symm, by omega⟩
    have htask : ∀ (g' j' : Nat) (T : ScanKind × ScanAt), (s'.jobs g').tasks[j']? = some T →
        (g' = g ∧ j' = j ∧ T = (.file path os, .planned)) ∨ ((s.jobs g').tasks[j']? = some T ∧ ¬ (g' = g ∧ j' = j)) := by
      intro g' j' T hT
      by_cases hg : g' = g
      · subst hg
        rw [job] at hT
        by_cases hj : j' = j
        · subst hj
          rw [List.getElem?_set_self (List.getElem?_eq_some_iff.mp task).1] at hT
          exact .inl ⟨rfl, rfl, (Option.some.inj hT).symm⟩
        · rw [List.getElem?_set_ne (fun e => hj e.symm)] at hT
          exact .inr ⟨hT, fun e => hj e.2⟩
      · rw [rest g' hg] at hT
        exact .inr ⟨hT, fun e => hg e.1⟩
    have hnew : (s'.jobs g).tasks[j]? = some (.file path os, .planned) := by
      rw [job]; exact List.getElem?_set_self (List.getElem?_eq_some_iff.mp task).1
    have hold : ∀ (g' j' : Nat) (T : ScanKind × ScanAt), (s.jobs g').tasks[j']? = some T → T ≠ (.file path os, .fresh) →
        (s'.jobs g').tasks[j']? = some T := by
      intro g' j' T hT hne
      by_cases hg : g' = g
      · subst hg
        rw [job]
        by_cases hj : j' = j
        · subst hj; rw [task] at hT; exact absurd (Option.some.inj hT).symm hne
        · rw [List.getElem?_set_ne (fun e => hj e.symm)]; exact hT
      · rw [rest g' hg]; exact hT
    constructor
    · rw [scanners, scans, List.length_append, List.length_append, inv.len]; rfl
    · intro i i' v h1 h2
      rw [scanners] at h1 h2
      rcases last i v h1 with a1 | ⟨e1, a1⟩
      · rcases last i' v h2 with a2 | ⟨e2, a2⟩
        · exact inv.once i i' v a1 a2
        · rw [e2] at a1; exact absurd a1 (hw i)
      · rcases last i' v h2 with a2 | ⟨-, a2⟩
        · rw [e1] at a2; exact absurd a2 (hw i')
        · exact a1.trans a2.symm
    · intro i v h
      rw [scanners] at h
      rcases last i v h with h | ⟨rfl, h⟩
      · obtain ⟨g', j', path', os', h1, h2, h3⟩ := inv.owner i v h
        exact ⟨g', j', path', os', h1, by rw [t]; exact h2, hold g' j' _ h3 (by intro e; cases e)⟩
      · exact ⟨g, j, path, os, scan, by rw [t]; exact running, hnew⟩
    · intro g' j' path' os' hg' hj'
      rcases htask g' j' _ hj' with ⟨rfl, rfl, e⟩ | ⟨hj', -⟩
      · cases e
        refine ⟨w, s.scanners.length, pl, s, by rw [t]; exact running, by rw [scanners]; simp, ?_, hs, ⟨w, running⟩,
          (scanTaskPlan_spec good (kinds.file hU task) _).1 pl plan⟩
        rw [scans, inv.len]; simp
      · obtain ⟨v, i, pl', y, h1, h2, h3, h4, h5, h6⟩ := inv.held g' j' path' os' hg' hj'
        exact ⟨v, i, pl', y, by rw [t]; exact h1, by rw [scanners]; exact append_left h2,
          by rw [scans]; exact append_left h3, hP y h4, h5, h6⟩
    · intro g' j' n k hj'
      rcases htask g' j' _ hj' with ⟨rfl, rfl, e⟩ | ⟨hj', -⟩
      · cases e
      · exact doneBy_more hF hQ (inv.done g' j' n k hj')
    · intro g'
      by_cases hg : g' = g
      · subst hg
        rw [job, inv.count]
        have := added_set (T' := (.file path os, .planned)) task
        simp only [ScanAt.added] at this
        exact this.symm
      · rw [rest g' hg]; exact inv.count g'
  | write w g j path os k n scan running task place number commit scanners t rest job =>
    obtain ⟨w', i, pl, y, h1, h2, h3, h4, h5, ⟨l, p1, p2, p3, p4⟩⟩ := inv.held g j path os scan task
    have e := running_once tinv running h1
    subst e
    have hik : i = k := by
      have hm : some w ∈ s.scanners := List.mem_of_getElem? h2
      rw [place]
      exact inv.once i _ w h2
        (by rw [List.getElem?_eq_getElem (List.idxOf_lt_length_iff.mpr hm), List.getElem_idxOf])
    subst hik
    have scans := commit_scans commit
    have hne : ∀ (i' w' : Nat), s.scanners[i']? = some (some w') → w' ≠ w → i' ≠ i := by
      rintro i' w' h hw rfl
      rw [h2] at h
      exact hw (Option.some.inj (Option.some.inj h)).symm
    have htask : ∀ (g' j' : Nat) (T : ScanKind × ScanAt), (s'.jobs g').tasks[j']? = some T →
        (g' = g ∧ j' = j ∧ T = (.file path os, .done n)) ∨ ((s.jobs g').tasks[j']? = some T ∧ ¬ (g' = g ∧ j' = j)) := by
      intro g' j' T hT
      by_cases hg : g' = g
      · subst hg
        rw [job] at hT
        by_cases hj : j' = j
        · subst hj
          rw [List.getElem?_set_self (List.getElem?_eq_some_iff.mp task).1] at hT
          exact .inl ⟨rfl, rfl, (Option.some.inj hT).symm⟩
        · rw [List.getElem?_set_ne (fun e => hj e.symm)] at hT
          exact .inr ⟨hT, fun e => hj e.2⟩
      · rw [rest g' hg] at hT
        exact .inr ⟨hT, fun e => hg e.1⟩
    have hold : ∀ (g' j' : Nat) (T : ScanKind × ScanAt), (s.jobs g').tasks[j']? = some T → ¬ (g' = g ∧ j' = j) →
        (s'.jobs g').tasks[j']? = some T := by
      intro g' j' T hT hne
      by_cases hg : g' = g
      · subst hg
        rw [job]
        rw [List.getElem?_set_ne (fun e => hne ⟨rfl, e.symm⟩)]; exact hT
      · rw [rest g' hg]; exact hT
    constructor
    · rw [scanners, scans, List.length_eraseIdx, List.length_eraseIdx, inv.len]
    · intro i1 i2 v a1 a2
      rw [scanners] at a1 a2
      have := inv.once _ _ v (erase_up a1) (erase_up a2)
      split at this <;> split at this <;> omega
    · intro i1 v a
      rw [scanners] at a
      have a' := erase_up a
      obtain ⟨g', j', path', os', b1, b2, b3⟩ := inv.owner _ v a'
      refine ⟨g', j', path', os', b1, by rw [t]; exact b2, hold g' j' _ b3 ?_⟩
      rintro ⟨rfl, rfl⟩
      have e := running_once tinv running b2
      subst e
      have := inv.once _ _ w a' h2
      split at this <;> omega
    · intro g' j' path' os' hg' hj'
      rcases htask g' j' _ hj' with ⟨rfl, rfl, e⟩ | ⟨hj', hd⟩
      · cases e
      · obtain ⟨v, i', pl', y', a1, a2, a3, a4, a5, a6⟩ := inv.held g' j' path' os' hg' hj'
        have hv : v ≠ w := by
          rintro rfl
          rw [running] at a1
          cases a1
          exact hd ⟨rfl, rfl⟩
        have hn := hne i' v a2 hv
        exact ⟨v, _, pl', y', by rw [t]; exact a1, by rw [scanners, erase_down _ hn]; exact a2,
          by rw [scans, erase_down _ hn]; exact a3, hP y' a4, a5, a6⟩
    · intro g' j' n' k' hj'
      rcases htask g' j' _ hj' with ⟨rfl, rfl, e⟩ | ⟨hj', -⟩
      · cases e
        have hn : n = unindexed y.srv.svc path l := by rw [number, h3, p2]
        cases pl with
        | none => exact ⟨y, y, l, (hself y h4).1, h5, h5, p1, hn, p3 rfl⟩
        | some nm =>
          obtain ⟨n0, m⟩ := nm
          refine ⟨y, s', l, (hself y h4).2, h5, ⟨w, by rw [t]; exact running⟩, p1, hn, fun o ho => ?_⟩
          exact commit_indexed good commit h3 (p4 n0 m rfl o ho)
      · exact doneBy_more hF hQ (inv.done g' j' n' k' hj')
    · intro g'
      by_cases hg : g' = g
      · subst hg
        rw [job, inv.count]
        have := added_set (T' := (.file path os, .done n)) task
        simp only [ScanAt.added] at this
        exact this.symm
      · rw [rest g' hg]; exact inv.count g'
  | ask w g j server files n event scan running task answer scanners svc t rest job =>
    have htask : ∀ (g' j' : Nat) (T : ScanKind × ScanAt), (s'.jobs g').tasks[j']? = some T →
        (g' = g ∧ j' = j ∧ T = (.forward server files, .done n)) ∨ (s.jobs g').tasks[j']? = some T := by
      intro g' j' T hT
      by_cases hg : g' = g
      · subst hg
        rw [job] at hT
        by_cases hj : j' = j
        · subst hj
          rw [List.getElem?_set_self (List.getElem?_eq_some_iff.mp task).1] at hT
          exact .inl ⟨rfl, rfl, (Option.some.inj hT).symm⟩
        · rw [List.getElem?_set_ne (fun e => hj e.symm)] at hT
          exact .inr hT
      · rw [rest g' hg] at hT
        exact .inr hT
    have hold : ∀ (g' j' : Nat) (T : ScanKind × ScanAt), (s.jobs g').tasks[j']? = some T → T ≠ (.forward server files, .fresh) →
        (s'.jobs g').tasks[j']? = some T := by
      intro g' j' T hT hne
      by_cases hg : g' = g
      · subst hg
        rw [job]
        by_cases hj : j' = j
        · subst hj; rw [task] at hT; exact absurd (Option.some.inj hT).symm hne
        · rw [List.getElem?_set_ne (fun e => hj e.symm)]; exact hT
      · rw [rest g' hg]; exact hT
    constructor
    · rw [scanners, svc]; exact inv.len
    · rw [scanners]; exact inv.once
    · intro i v h
      rw [scanners] at h
      obtain ⟨g', j', path', os', h1, h2, h3⟩ := inv.owner i v h
      exact ⟨g', j', path', os', h1, by rw [t]; exact h2, hold g' j' _ h3 (by intro e; cases e)⟩
    · intro g' j' path' os' hg' hj'
      rcases htask g' j' _ hj' with ⟨-, -, e⟩ | hj'
      · cases e
      · obtain ⟨v, i, pl', y, h1, h2, h3, h4, h5, h6⟩ := inv.held g' j' path' os' hg' hj'
        exact ⟨v, i, pl', y, by rw [t]; exact h1, by rw [scanners]; exact h2, by rw [svc]; exact h3, hP y h4, h5, h6⟩
    · intro g' j' n' k hj'
      rcases htask g' j' _ hj' with ⟨rfl, rfl, e⟩ | hj'
      · cases e
        exact hask w _ _ server files n event scan running task answer
      · exact doneBy_more hF hQ (inv.done g' j' n' k hj')
    · intro g'
      by_cases hg : g' = g
      · subst hg
        rw [job, inv.count]
        have := added_set (T' := (.forward server files, .done n)) task
        simp only [ScanAt.added] at this
        exact this.symm
      · rw [rest g' hg]; exact inv.count g'
  | failed w g j k event scan running task scanners scans t rest job why =>
    have htask : ∀ (g' j' : Nat) (T : ScanKind × ScanAt), (s'.jobs g').tasks[j']? = some T →
        (g' = g ∧ j' = j ∧ T = (k, .failed)) ∨ (s.jobs g').tasks[j']? = some T := by
      intro g' j' T hT
      by_cases hg : g' = g
      · subst hg
        rw [job] at hT
        by_cases hj : j' = j
        · subst hj
          rw [List.getElem?_set_self (List.getElem?_eq_some_iff.mp task).1] at hT
          exact .inl ⟨rfl, rfl, (Option.some.inj hT).symm⟩
        · rw [List.getElem?_set_ne (fun e => hj e.symm)] at hT
          exact .inr hT
      · rw [rest g' hg] at hT
        exact .inr hT
    have hold : ∀ (g' j' : Nat) (T : ScanKind × ScanAt), (s.jobs g').tasks[j']? = some T → T.2 ≠ .fresh →
        (s'.jobs g').tasks[j']? = some T := by
      intro g' j' T hT hne
      by_cases hg : g' = g
      · subst hg
        rw [job]
        by_cases hj : j' = j
        · subst hj; rw [task] at hT; rw [← Option.some.inj hT] at hne; exact absurd rfl hne
        · rw [List.getElem?_set_ne (fun e => hj e.symm)]; exact hT
      · rw [rest g' hg]; exact hT
    have stay : ∀ (v g' j' : Nat) (T : ScanKind × ScanAt), s.srv.x.t.workers[v]? = some (.running g' j') →
        (s.jobs g').tasks[j']? = some T → T.2 ≠ .fresh → s'.srv.x.t.workers[v]? = some (.running g' j') := by
      intro v g' j' T hv hT hne
      refine worker_stays t hv (fun e => by cases e) (fun msg e => ?_)
      cases e
      rw [running] at hv
      cases hv
      rw [task] at hT
      rw [← Option.some.inj hT] at hne
      exact hne rfl
    constructor
    · rw [scanners, scans]; exact inv.len
    · rw [scanners]; exact inv.once
    · intro i v h
      rw [scanners] at h
      obtain ⟨g', j', path', os', h1, h2, h3⟩ := inv.owner i v h
      exact ⟨g', j', path', os', h1, stay v g' j' _ h2 h3 (by intro e; cases e), hold g' j' _ h3 (by intro e; cases e)⟩
    · intro g' j' path' os' hg' hj'
      rcases htask g' j' _ hj' with ⟨-, -, e⟩ | hj'
      · cases e
      · obtain ⟨v, i, pl', y, h1, h2, h3, h4, h5, h6⟩ := inv.held g' j' path' os' hg' hj'
        exact ⟨v, i, pl', y, stay v g' j' _ h1 hj' (by intro e; cases e), by rw [scanners]; exact h2,
          by rw [scans]; exact h3, hP y h4, h5, h6⟩
    · intro g' j' n' k' hj'
      rcases htask g' j' _ hj' with ⟨rfl, rfl, e⟩ | hj'
      · cases e
      · exact doneBy_more hF hQ (inv.done g' j' n' k' hj')
    · intro g'
      by_cases hg : g' = g
      · subst hg
        rw [job, inv.count]
        have := added_set (T' := (k, .failed)) task
        simp only [ScanAt.added] at this
        exact this.symm
      · rw [rest g' hg]; exact inv.count g'

theorem MixScanInv.step {M : MixSite} {U : String → Prop} {P P' : Mix → Prop} {Q Q' : Mix → Mix → Prop} {e : SrvEv} {s s' : Mix}
    (hU : M.Within U) (kinds : s.Kinds M) (tinv : TInv s.srv.x.t)
    (good : SvcGood M.site.reader M.site.offs U s.srv.svc) (inv : MixScanInv M P Q s)
    (hP : ∀ y, P y → P' y) (hQ : ∀ y z, Q y z → Q' y z) (hs : P' s) (hself : ∀ y, P y → Q' y y ∧ Q' y s')
    (h : ScanStep M e s s') : MixScanInv M P' Q' s' :=
  ScansInv.step hU kinds tinv good inv (fun _ _ _ _ _ h => h) (fun _ _ _ _ _ _ _ _ _ _ h => ⟨_, h⟩) hP hQ hs hself h

end GJ
