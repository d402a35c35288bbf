import Verif.Model.Whole
import Verif.Model.Scan

/-!
# Scans and extractions on one work queue

A process has one work queue and one set of workers for all calls (`/repo/src/gribjump/remote/WorkQueue.cc:18-29`): the
tasks of a scan (`/repo/src/gribjump/Engine.cc:287-299`, `Forwarder.cc:42-49`) wait in turn with those of extractions, and
a worker that scans a file extracts nothing meanwhile.  Here some of the groups of `Whole` are scans.
-/

namespace GJ

/-- Where a task of a scan is; `done` with the number of fields it has added to the counter. -/
inductive ScanAt where
  | fresh
  /-- everything but the write is done -/
  | planned
  | done (n : Nat)
  | failed
  deriving DecidableEq, Repr

/-- A scan: its tasks and the counter they share, Engine.cc:289-292. -/
structure ScanJob where
  tasks : List (ScanKind × ScanAt)
  count : Nat
  time : Nat

/-- A process, the groups of which that are scans and their tasks, and what other servers answer to forwarded scans. -/
structure MixSite where
  site : Site
  scans : Nat → Option (List ScanKind)
  forward : Nat → Nat → String × Int → ScanMap → Res Nat

/-- The group is a scan. -/
def MixSite.scan (M : MixSite) (g : Nat) : Bool := (M.scans g).isSome

/-- The process; the scans; who is about to write the index in `svc.sys.scans`: a worker, or somebody else. -/
structure Mix where
  srv : Srv
  jobs : Nat → ScanJob
  scanners : List (Option Nat)

/-- Replace one scan. -/
def Mix.setJob (s : Mix) (g : Nat) (J : ScanJob) : Mix := { s with jobs := fun h => if h = g then J else s.jobs h }

/-- Replace the groups and workers. -/
def Srv.withT (s : Srv) (t : TSys) : Srv := ⟨⟨t, s.x.job⟩, s.svc, s.holders⟩

/-- `FileScanTask`, Task.cc:335-349: all messages of the file if there are no offsets, else these, sorted. -/
def scanRequest (path : String) (offsets : List Nat) : OEv :=
  let sorted := isort (fun a b => decide (a ≤ b)) offsets
  if sorted.length = 0 then .scanFile path true else .scan path sorted

/-- What a planned scan will have added, InfoCache.cc:248-250. -/
def plannedCount : Option (String × Option (Nat × InfoMap)) → Nat
  | some (_, some (n, _)) => n
  | _ => 0

/-- Task `j` of scan `g` threw: `notifyError`, remote/WorkQueue.cc:56-71. -/
def Mix.scanFail (s : Mix) (g j w : Nat) (k : ScanKind) : Res Mix := do
  let t ← s.srv.x.t.step (.fail w "error")
  .ok ({ s with srv := s.srv.withT t }.setJob g
    { s.jobs g with tasks := (s.jobs g).tasks.set j (k, .failed), time := (s.jobs g).time + 1 })

/-- The first half of a file's scan: everything but the write, InfoCache.cc:212-246, 253-269. -/
def Mix.scanRead (M : MixSite) (s : Mix) (w g j : Nat) (path : String) (os : List Nat) : Res Mix :=
  (s.srv.svc.step M.site.reader M.site.offs (scanRequest path os).on) >>= fun svc =>
    if s.srv.svc.sys.scans.length < svc.sys.scans.length then
      .ok (Mix.setJob ⟨⟨s.srv.x, svc, s.srv.holders⟩, s.jobs, s.scanners ++ [some w]⟩ g
        ⟨(s.jobs g).tasks.set j (.file path os, .planned), (s.jobs g).count, (s.jobs g).time + 1⟩)
    else Mix.scanFail ⟨⟨s.srv.x, svc, s.srv.holders⟩, s.jobs, s.scanners⟩ g j w (.file path os)

/-- The second half: the write, InfoCache.cc:248-250, 271-273, without a lock since the first.  Then the counter,
Task.cc:341-348. -/
def Mix.scanWrite (M : MixSite) (s : Mix) (w g j : Nat) (path : String) (os : List Nat) : Res Mix :=
  let k := s.scanners.idxOf (some w)
  let n := plannedCount s.srv.svc.sys.scans[k]?
  match s.srv.svc.step M.site.reader M.site.offs (.cache (.commit k)) with
  | .ok svc =>
    .ok (Mix.setJob ⟨⟨s.srv.x, svc, s.srv.holders⟩, s.jobs, s.scanners.eraseIdx k⟩ g
      ⟨(s.jobs g).tasks.set j (.file path os, .done n), (s.jobs g).count + n, (s.jobs g).time + 1⟩)
  | .error .ub => undef
  | .error (.exn _) =>
    let svc := { s.srv.svc with sys := { s.srv.svc.sys with scans := s.srv.svc.sys.scans.eraseIdx k } }
    Mix.scanFail ⟨⟨s.srv.x, svc, s.srv.holders⟩, s.jobs, s.scanners.eraseIdx k⟩ g j w (.file path os)

/-- `ForwardScanTask::executeImpl`, Task.cc:267-273. -/
def Mix.scanAsk (M : MixSite) (s : Mix) (w g j : Nat) (server : String × Int) (files : ScanMap) : Res Mix :=
  match M.forward g (s.jobs g).time server files with
  | .ok n =>
    .ok (s.setJob g
      ⟨(s.jobs g).tasks.set j (.forward server files, .done n), (s.jobs g).count + n, (s.jobs g).time + 1⟩)
  | .error .ub => undef
  | .error (.exn _) => s.scanFail g j w (.forward server files)

/-- A step of the groups only. -/
def Mix.group (s : Mix) (e : Option TEv) : Res Mix := do
  let t ← s.srv.x.t.stepIf e
  .ok { s with srv := s.srv.withT t }

/-- The next step of worker `w`, which executes task `j` of scan `g`.  At the end comes `notify`, Task.cc:54-66.  (A worker
has put down a task that failed.) -/
def Mix.scanWork (M : MixSite) (s : Mix) (w g j : Nat) : Res Mix :=
  match (s.jobs g).tasks[j]? with
  | some (_, .done _) => s.group (some (.finish w))
  | some (.file path os, .fresh) => s.scanRead M w g j path os
  | some (.file path os, .planned) => s.scanWrite M w g j path os
  | some (.forward server files, .fresh) => s.scanAsk M w g j server files
  | _ => undef

/-- A step of the process of `Whole`. -/
def Mix.plain (M : MixSite) (s : Mix) (e : SrvEv) : Res Mix := do
  let y ← s.srv.step M.site e
  .ok { s with srv := y }

/-- One step.  The thread of a scan adds its tasks and waits, Engine.cc:291-296.  Planned scans of others are written by
others. -/
def Mix.step (M : MixSite) (s : Mix) : SrvEv → Res Mix
  | .queue (.add g) =>
    if M.scan g then
      s.group (if (s.srv.x.t.grp g).tasks.length < (s.jobs g).tasks.length then some (.add g) else none)
    else s.plain M (.queue (.add g))
  | .queue (.wait g) =>
    if M.scan g then
      s.group (if (s.srv.x.t.grp g).tasks.length = (s.jobs g).tasks.length then some (.wait g) else none)
    else s.plain M (.queue (.wait g))
  | .queue (.work w) => match s.srv.x.t.workers[w]? with
    | some (.running g j) => if M.scan g then s.scanWork M w g j else s.plain M (.queue (.work w))
    | _ => s.plain M (.queue (.work w))
  | .other (.commit k) =>
    if s.scanners[k]? = some none then do
      let y ← s.srv.step M.site (.other (.commit k))
      .ok { s with srv := y, scanners := s.scanners.eraseIdx k }
    else .ok s
  | .other e => do
    let y ← s.srv.step M.site (.other e)
    .ok { s with srv := y, scanners := s.scanners ++ List.replicate (y.svc.sys.scans.length - s.scanners.length) none }
  | .queue e => s.plain M (.queue e)

def Mix.run (M : MixSite) : Mix → List SrvEv → Res Mix
  | s, [] => .ok s
  | s, e :: es => do
    let s' ← s.step M e
    s'.run M es

/-- A process that has just started. -/
def Mix.start (M : MixSite) (n : Nat) (P : Nat → ItemMap × List FTask) (d : Disk) (mode : CacheMode) (lazy : Bool)
    (cap : Nat) (fs : FS) : Mix :=
  ⟨Srv.start M.site n P d mode lazy cap fs, fun g => ⟨((M.scans g).getD []).map fun k => (k, .fresh), 0, 0⟩, []⟩

/-- What a scan returns when its wait is over: the errors are raised, else the counter is the result, Engine.cc:296-298,
LocalGribJump.cc:49-59. -/
def Mix.scanOutcome (s : Mix) (g : Nat) : Res Nat :=
  if (s.srv.x.t.grp g).errors ≠ [] then throwExn .seriousBug else .ok (s.jobs g).count

end GJ
