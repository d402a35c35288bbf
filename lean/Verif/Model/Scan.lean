import Verif.Model.Engine
import Verif.Model.CacheSystem

/-!
# Scans

Models the scanning half of `/repo/src/gribjump/Engine.cc`, `Lister.cc`, `Forwarder.cc`, `Task.cc` and
`LocalGribJump.cc`: finding the files, grouping, one task per file or per server, counting.
-/

namespace GJ

/-- `scanmap_t`, Types.h: file and offsets; no offsets means the whole file. -/
abbrev ScanMap := AMap String (List Nat)

/-! ## Tasks -/

inductive ScanPc where
  | fresh
  /-- everything but the write is done -/
  | planned (p : Option (Nat × InfoMap))
  | done
  | failed
  | cancelled

inductive ScanKind where
  | file (path : String) (offsets : List Nat)
  | forward (server : String × Int) (files : ScanMap)

structure ScanTask where
  kind : ScanKind
  pc : ScanPc

/-- What a file's scan reads and computes: `FileScanTask::executeImpl` and `scan`, Task.cc:335-349, up to the write. -/
def scanTaskPlan (W : World) (c : Cache) (path : String) (offsets : List Nat) : Res (Option (Nat × InfoMap)) :=
  let sorted := isort (fun a b => decide (a ≤ b)) offsets
  if sorted.length = 0 then c.scanFilePlan W path true
  else c.scanPlan W path sorted

/-- What the engine calls for a scan. -/
structure ScanEnv where
  W : World
  /-- `fdb.list(request, true)`: the locations of a request -/
  list : String → Res (List Uri)
  /-- `RemoteGribJump(endpoint).forwardScan`; answers may depend on the time -/
  forward : Nat → String × Int → ScanMap → Res Nat

/-- The cache, the tasks, the shared counter, the errors reported and the time. -/
structure ScanSys where
  c : Cache
  tasks : List ScanTask
  count : Nat
  errors : List String
  time : Nat

inductive ScanEv where
  /-- a worker makes the next step of a task -/
  | run (j : Nat)
  /-- `TaskGroup::cancelTasks` after an error, Task.cc:119-123 -/
  | cancel (j : Nat)

def ScanSys.fail (s : ScanSys) (j : Nat) (T : ScanTask) : ScanSys :=
  { s with tasks := s.tasks.set j { T with pc := .failed }, errors := s.errors ++ ["error"] }

/-- One step of a task.  A file's scan is two steps: the write of the index comes after reading it and the data file,
without a lock in between (InfoCache.cc:214-215).  The counter is atomic. -/
def ScanSys.runTask (E : ScanEnv) (s : ScanSys) (j : Nat) (T : ScanTask) : Res ScanSys :=
  match T.kind, T.pc with
  | .file path offsets, .fresh => match scanTaskPlan E.W s.c path offsets with
    | .ok p => .ok { s with tasks := s.tasks.set j { T with pc := .planned p } }
    | .error .ub => undef
    | .error (.exn _) => .ok (s.fail j T)
  | .file path _, .planned p => match s.c.scanCommit path p with
    | .ok (n, c) => .ok { s with c := c, count := s.count + n, tasks := s.tasks.set j { T with pc := .done } }
    | .error .ub => undef
    | .error (.exn _) => .ok (s.fail j T)
  | .forward server files, .fresh => match E.forward s.time server files with
    | .ok n => .ok { s with count := s.count + n, tasks := s.tasks.set j { T with pc := .done } }
    | .error .ub => undef
    | .error (.exn _) => .ok (s.fail j T)
  | _, _ => .ok s

def ScanSys.step (E : ScanEnv) (s : ScanSys) : ScanEv → Res ScanSys
  | .run j => match s.tasks[j]? with
    | none => .ok s
    | some T => do
      let s' ← s.runTask E j T
      .ok { s' with time := s.time + 1 }
  | .cancel j => match s.tasks[j]? with
    | some ⟨k, .fresh⟩ => if s.errors = [] then .ok s else .ok { s with tasks := s.tasks.set j ⟨k, .cancelled⟩ }
    | _ => .ok s

def ScanSys.run (E : ScanEnv) : ScanSys → List ScanEv → Res ScanSys
  | s, [] => .ok s
  | s, e :: es => do
    let s' ← s.step E e
    s'.run E es

/-- Enqueue, wait, report: the common part of Engine.cc:289-298 and Forwarder.cc:42-49.  First the steps of `sched`, in
which workers interleave in any way, then whatever is left. -/
def scanTasks (E : ScanEnv) (c : Cache) (kinds : List ScanKind) (sched : List ScanEv) :
    Res (Nat × List String × Cache) := do
  cassert (decide (0 < kinds.length))
  let s ← ScanSys.run E ⟨c, kinds.map fun k => ⟨k, .fresh⟩, 0, [], 0⟩ sched
  let s ← s.run E ((List.range kinds.length).flatMap fun j => [.run j, .run j])
  .ok (s.count, s.errors, s.c)

/-- `Engine::scheduleScanTasks`, Engine.cc:287-299. -/
def scheduleScan (E : ScanEnv) (c : Cache) (sm : ScanMap) (sched : List ScanEv) : Res (Nat × List String × Cache) :=
  scanTasks E c (sm.map fun f => .file f.1 f.2) sched

/-! ## The engine -/

structure ScanConf where
  forwardScan : Bool
  servers : AMap (String × Int) (String × Int)

/-- `FDBLister::URIs`, Lister.cc:213-225. -/
def listUris (E : ScanEnv) : List String → Res (List Uri)
  | [] => .ok []
  | r :: rs => do
    let us ← E.list r
    let tl ← listUris E rs
    .ok (us ++ tl)

/-- `FDBLister::filesOffsets`, Lister.cc:195-211. -/
def filesOffsets (us : List Uri) : ScanMap :=
  us.foldl (fun m u => match m.find u.path with
    | none => m.insert u.path [u.offset]
    | some os => m.set u.path (os ++ [u.offset])) []

/-- The first loop of `Forwarder::scan`, Forwarder.cc:31-39: `serverfilemaps[server][fname].push_back(offset)`. -/
def serverScans (C : ScanConf) : List Uri → AMap (String × Int) ScanMap → Res (AMap (String × Int) ScanMap)
  | [], acc => .ok acc
  | u :: us, acc => match C.servers.find (u.host, u.port) with
    | none => throwExn .seriousBug
    | some s =>
      let m : ScanMap := (acc.find s).getD []
      serverScans C us (acc.set s (m.set u.path ((m.find u.path).getD [] ++ [u.offset])))

/-- `Forwarder::scan`, Forwarder.cc:27-50. -/
def forwarderScan (E : ScanEnv) (C : ScanConf) (c : Cache) (us : List Uri) (sched : List ScanEv) :
    Res (Nat × List String × Cache) := do
  cassert (decide (0 < us.length))
  let m ← serverScans C us []
  scanTasks E c (m.map fun e => .forward e.1 e.2) sched

/-- `Engine::scan(requests, byfiles)`, Engine.cc:250-275. -/
def engineScan (E : ScanEnv) (C : ScanConf) (c : Cache) (rs : List String) (byfiles : Bool) (sched : List ScanEv) :
    Res (Nat × List String × Cache) := do
  let us ← listUris E rs
  if us = [] then .ok (0, [], c)
  else if C.forwardScan then forwarderScan E C c us sched
  else
    let m := filesOffsets us
    scheduleScan E c (if byfiles then m.map fun f => (f.1, []) else m) sched

/-- `Engine::scan(files)`, Engine.cc:277-285. -/
def engineScanFiles (E : ScanEnv) (c : Cache) (files : List String) (sched : List ScanEv) :
    Res (Nat × List String × Cache) :=
  scheduleScan E c (files.foldl (fun m f => m.set f []) []) sched

/-- `report.raiseErrors()`, Task.cc, then the number: LocalGribJump.cc:49-59. -/
def raiseScan (r : Res (Nat × List String × Cache)) : Res (Nat × Cache) := do
  let (n, errs, c) ← r
  if errs ≠ [] then throwExn .seriousBug else .ok (n, c)

/-- `GribJump::scan(paths)`, GribJump.cc:33-42, locally. -/
def apiScanFiles (E : ScanEnv) (c : Cache) (files : List String) (sched : List ScanEv) : Res (Nat × Cache) :=
  if files = [] then throwExn .userError else raiseScan (engineScanFiles E c files sched)

/-- `GribJump::scan(requests, byfiles)`, GribJump.cc:44-53, locally. -/
def apiScan (E : ScanEnv) (C : ScanConf) (c : Cache) (rs : List String) (byfiles : Bool) (sched : List ScanEv) :
    Res (Nat × Cache) :=
  if rs = [] then throwExn .userError else raiseScan (engineScan E C c rs byfiles sched)

end GJ
