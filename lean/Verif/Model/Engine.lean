import Verif.Model.Canon
import Verif.Model.Server

/-!
# The extraction engine

Models `/repo/src/gribjump/Engine.cc`, `Lister.cc`, `Forwarder.cc`, the extraction tasks of `Task.cc` and the
extraction calls of `LocalGribJump.cc`.  Pointers to extraction items are the keys of the item map.
-/

namespace GJ

/-- The options the engine reads, Config.cc:97-132, and the server map, Config.cc:48-66. -/
structure EngineConf where
  ignoreYearMonth : Bool
  allowMissing : Bool
  ignoreGrid : Bool
  inefficient : Bool
  forward : Bool
  servers : AMap (String × Int) (String × Int)

/-- The union request, Engine.cc:41: every key with the set of its values. -/
abbrev Union := AMap Str (List Str)

/-- What the engine calls.  The answers may depend on when a call is made (`Nat`). -/
structure ExtEnv where
  /-- `fdb.list` for the union request; metkit's parsing of its text is included -/
  list : Union → Res (List (FdbKey × Uri))
  /-- `InfoCache::get` -/
  infos : Nat → String → List Nat → Res (List Info)
  /-- opening a file, building a jumper and `Jumper::extract` -/
  jump : Nat → String → Nat → Info → List Interval → Res WireResult
  /-- the body of the loop in `InefficientFileExtractionTask::extract` after the scheme check -/
  fetch : Nat → Uri → List Interval → Res WireResult
  /-- `RemoteGribJump(endpoint).forwardExtract` -/
  forward : Nat → String × Int → FileMap → Res FileMap

abbrev ItemMap := AMap String Item

/-- `std::map<std::string, std::vector<ExtractionItem*>>`. -/
abbrev KeyMap := AMap String (List String)

/-- A default constructed `eckit::URI`. -/
def noUri : Uri := ⟨"", "", -1, "", 0⟩

/-- `ExtractionItem(request)`, ExtractionItem.h:34-35. -/
def newItem (r : ExRequest) : Item := { request := r, uri := noUri, result := some emptyResult }

/-- `keyValues[k].insert(v)` for every kept piece, Engine.cc:65. -/
def addUnion (u : Union) (ps : List (Str × Str × Str)) : Union :=
  ps.foldl (fun u p => u.set p.2.1 (setInsert ((u.find p.2.1).getD []) p.2.2)) u

/-- The loop of `Engine::buildRequestMap`, Engine.cc:43-90.  `drop` is `dropYearMonth`, which is never reset.
The requests are returned with their new strings. -/
def buildLoop (ignoreYearMonth : Bool) : Bool → Union → ItemMap → List ExRequest →
    Res (List ExRequest × Union × ItemMap)
  | _, u, m, [] => .ok ([], u, m)
  | drop, u, m, r :: rest =>
    let s := r.request.toList
    let drop := drop || (ignoreYearMonth && mentionsYearMonthDate s)
    let canon := String.ofList (canonString drop s)
    match m.find canon with
    | some _ => throwExn .seriousBug
    | none => do
      let r' := { r with request := canon }
      let (rs, u', m') ← buildLoop ignoreYearMonth drop (addUnion u (keptPairs drop s)) (m.insert canon (newItem r')) rest
      .ok (r' :: rs, u', m')

/-- `Engine::buildRequestMap`, Engine.cc:35-122. -/
def buildRequestMap (ignoreYearMonth : Bool) (rs : List ExRequest) : Res (List ExRequest × Union × ItemMap) :=
  buildLoop ignoreYearMonth false [] [] rs

/-- `filemap[fname].push_back(item)`, Lister.cc:113-122 and 164-173. -/
def addFile (fm : KeyMap) (fname key : String) : KeyMap :=
  fm.set fname ((fm.find fname).getD [] ++ [key])

/-- The listing loop of `FDBLister::fileMap`, Lister.cc:97-125. -/
def listLoop (ignoreYearMonth : Bool) : List (FdbKey × Uri) → ItemMap → KeyMap → Nat → ItemMap × KeyMap × Nat
  | [], m, fm, n => (m, fm, n)
  | (key, uri) :: rest, m, fm, n =>
    let k := String.ofList (fdbkeyToStr ignoreYearMonth key)
    match m.find k with
    | none => listLoop ignoreYearMonth rest m fm n
    | some it => listLoop ignoreYearMonth rest (m.set k { it with uri := uri }) (addFile fm uri.path k) (n + 1)

/-- `FDBLister::fileMap`, Lister.cc:85-154. -/
def fileMap (C : EngineConf) (listing : List (FdbKey × Uri)) (m : ItemMap) : Res (ItemMap × KeyMap) :=
  let (m', fm, n) := listLoop C.ignoreYearMonth listing m [] 0
  if n ≠ m.length ∧ C.allowMissing = false then throwExn .dataNotFound
  else .ok (m', fm)

/-- `FDBLister::fileMapfromPaths`, Lister.cc:156-188. -/
def fileMapFromPaths (m : ItemMap) : KeyMap :=
  m.foldl (fun fm e => addFile fm e.2.uri.path e.1) []

/-! ## Tasks -/

/-- Where an extraction task is. -/
inductive FPc where
  | fresh
  /-- items still to do, with their offset and metadata -/
  | work (todo : List (String × Nat × Info))
  /-- items still to fetch (inefficient extraction) -/
  | fetching (todo : List String)
  | finished
  | failed
  deriving DecidableEq

/-- The three task classes, Task.h:168-232. -/
inductive FKind where
  | file (fname : String) (keys : List String)
  | inefficient (fname : String) (keys : List String)
  | forward (server : String × Int) (files : KeyMap)

structure FTask where
  kind : FKind
  pc : FPc

/-- `item->offset()`. -/
def offsetOf (m : ItemMap) (k : String) : Nat := ((m.find k).map fun i => i.uri.offset).getD 0

/-- `std::sort` of item pointers by offset, Task.cc:193-194; equal offsets keep their order. -/
def sortKeys (m : ItemMap) (ks : List String) : List String :=
  isort (fun a b => decide (offsetOf m a ≤ offsetOf m b)) ks

/-- Pair items with their metadata; indexing past the end of the metadata is undefined. -/
def pairInfos (m : ItemMap) : List String → List Info → Res (List (String × Nat × Info))
  | [], _ => .ok []
  | _ :: _, [] => undef
  | k :: ks, i :: is => do
    let tl ← pairInfos m ks is
    .ok ((k, offsetOf m k, i) :: tl)

/-- The grid check, Task.cc:220-230. -/
def gridCheck (ignoreGrid : Bool) (expected actual : String) : Res Unit :=
  if !ignoreGrid && decide (expected = "") then throwExn .badValue
  else if !ignoreGrid && decide (expected ≠ actual) then throwExn .badValue
  else .ok ()

/-- `item->result(r)`. -/
def setResult (m : ItemMap) (k : String) (r : WireResult) : Res ItemMap :=
  match m.find k with
  | none => undef
  | some it => .ok (m.set k { it with result := some r })

/-- Store the results that came back for one file, `decodeForwardExtractReply`. -/
def storeResults : ItemMap → List String → List Item → Res ItemMap
  | m, [], _ => .ok m
  | _, _ :: _, [] => undef
  | m, k :: ks, i :: is => match i.result with
    | none => undef
    | some r => do
      let m' ← setResult m k r
      storeResults m' ks is

def storeAll : ItemMap → KeyMap → FileMap → Res ItemMap
  | m, [], _ => .ok m
  | m, f :: fs, g => do
    let m' ← storeResults m f.2 ((g.find f.1).getD [])
    storeAll m' fs g

/-- The items behind a list of pointers. -/
def itemsOf (m : ItemMap) (ks : List String) : List Item := ks.filterMap fun k => m.find k

/-- One step of a task at time `t`: sorting and fetching the metadata, or one item.  Result: the items and the new
position.  `FileExtractionTask`, Task.cc:190-236; `InefficientFileExtractionTask`, Task.cc:285-321;
`ForwardExtractionTask`, Task.cc:249-255 (one step: a reply that breaks off stores some results, but the call then
fails as a whole). -/
def FTask.step (E : ExtEnv) (C : EngineConf) (t : Nat) (m : ItemMap) (T : FTask) : Res (ItemMap × FTask) :=
  match T.kind, T.pc with
  | _, .finished => .ok (m, T)
  | _, .failed => .ok (m, T)
  | .file fname ks, .fresh => do
    let sorted := sortKeys m ks
    let infos ← E.infos t fname (sorted.map (offsetOf m))
    let todo ← pairInfos m sorted infos
    .ok (m, { T with pc := .work todo })
  | .file fname _, .work ((k, o, i) :: todo) =>
    match m.find k with
    | none => undef
    | some it => do
      gridCheck C.ignoreGrid it.request.gridHash i.base.md5GridSection
      let r ← E.jump t fname o i it.request.ranges
      let m' ← setResult m k r
      .ok (m', { T with pc := .work todo })
  | .inefficient _ ks, .fresh => .ok (m, { T with pc := .fetching (sortKeys m ks) })
  | .inefficient _ _, .fetching (k :: todo) =>
    match m.find k with
    | none => undef
    | some it =>
      if it.uri.scheme ≠ "fdb" then throwExn .seriousBug
      else do
        let r ← E.fetch t it.uri it.request.ranges
        let m' ← setResult m k r
        .ok (m', { T with pc := .fetching todo })
  | .forward server files, .fresh => do
    let sorted := files.map fun f => (f.1, sortKeys m f.2)
    let back ← E.forward t server (sorted.map fun f => (f.1, itemsOf m f.2))
    let m' ← storeAll m sorted back
    .ok (m', { T with pc := .finished })
  | _, _ => .ok (m, { T with pc := .finished })

/-- Items, tasks and reported errors. -/
structure FSys where
  items : ItemMap
  tasks : List FTask
  errors : List String
  time : Nat

/-- A worker makes the next step of task `j`.  An exception is caught and reported, remote/WorkQueue.cc; the work queue and
the counting of finished tasks are modelled in `TaskGroup`.  Tasks that have not started when an error is reported are
cancelled (Task.cc:108-110, 119-123); here they may still run, which changes nothing once there is an error. -/
def FSys.step (E : ExtEnv) (C : EngineConf) (s : FSys) (j : Nat) : Res FSys :=
  match s.tasks[j]? with
  | none => .ok { s with time := s.time + 1 }
  | some T => match T.step E C s.time s.items with
    | .ok (m, T') => .ok { s with items := m, tasks := s.tasks.set j T', time := s.time + 1 }
    | .error .ub => undef
    | .error (.exn _) =>
      .ok { s with tasks := s.tasks.set j { T with pc := .failed }, errors := s.errors ++ ["error"],
                   time := s.time + 1 }

def FSys.run (E : ExtEnv) (C : EngineConf) : FSys → List Nat → Res FSys
  | s, [] => .ok s
  | s, j :: js => do
    let s' ← s.step E C j
    s'.run E C js

/-- Steps that task `T` may still make: enough to reach its end. -/
def FTask.fuel (T : FTask) : Nat :=
  match T.kind with
  | .file _ ks => ks.length + 2
  | .inefficient _ ks => ks.length + 2
  | .forward _ _ => 1

/-- The wait for all tasks: first the steps of `sched`, in which workers interleave in any way, then whatever is
left.  Every complete interleaving is of this form (with nothing left). -/
def runTasks (E : ExtEnv) (C : EngineConf) (m : ItemMap) (tasks : List FTask) (sched : List Nat) : Res FSys := do
  cassert (decide (0 < tasks.length))
  let s ← FSys.run E C ⟨m, tasks, [], 0⟩ sched
  s.run E C ((List.range tasks.length).flatMap fun j => List.replicate ((tasks[j]?.map FTask.fuel).getD 0) j)

/-! ## Forwarding -/

/-- `Forwarder::serverForURI`, Forwarder.cc:65-75. -/
def serverFor (C : EngineConf) (u : Uri) : Res (String × Int) :=
  match C.servers.find (u.host, u.port) with
  | none => throwExn .seriousBug
  | some s => .ok s

/-- `filemap[f]`'s first item: `extractionItems[0]->URI()`; an empty vector is undefined. -/
def firstUri (m : ItemMap) (ks : List String) : Res Uri :=
  match ks with
  | [] => undef
  | k :: _ => match m.find k with
    | none => undef
    | some it => .ok it.uri

/-- The first loop of `Forwarder::serverFileMap`, Forwarder.cc:84-88. -/
def serverFiles (C : EngineConf) (m : ItemMap) : KeyMap → AMap (String × Int) (List String) →
    Res (AMap (String × Int) (List String))
  | [], acc => .ok acc
  | (f, ks) :: rest, acc => do
    let u ← firstUri m ks
    let s ← serverFor C u
    serverFiles C m rest (acc.set s ((acc.find s).getD [] ++ [f]))

/-- `Forwarder::serverFileMap`, Forwarder.cc:78-102. -/
def serverFileMap (C : EngineConf) (m : ItemMap) (fm : KeyMap) : Res (AMap (String × Int) KeyMap) := do
  let sf ← serverFiles C m fm []
  .ok (sf.map fun e => (e.1, e.2.foldl (fun sub f => sub.set f ((fm.find f).getD [])) []))

/-! ## The engine -/

/-- The tasks of a local extraction, Engine.cc:164-176.  `queued` tells whether tasks were queued before: an exception
then destroys a task group whose tasks are in the queue, which is undefined (see `C25_abandoned_request_fails`). -/
def localTasks (C : EngineConf) (m : ItemMap) (queued : Bool) : KeyMap → Res (List FTask)
  | [] => .ok []
  | (f, ks) :: rest => do
    let u ← firstUri m ks
    if u.scheme = "fdb" then
      if C.inefficient then do
        let tl ← localTasks C m true rest
        .ok (⟨.inefficient f ks, .fresh⟩ :: tl)
      else if queued then undef else throwExn .seriousBug
    else do
      let tl ← localTasks C m true rest
      .ok (⟨.file f ks, .fresh⟩ :: tl)

/-- `Engine::scheduleExtractionTasks`, Engine.cc:153-179, and `Forwarder::extract`, Forwarder.cc:52-62. -/
def scheduleTasks (E : ExtEnv) (C : EngineConf) (forward : Bool) (m : ItemMap) (fm : KeyMap) (sched : List Nat) :
    Res (ItemMap × List String) := do
  if forward then do
    let sm ← serverFileMap C m fm
    let s ← runTasks E C m (sm.map fun e => ⟨.forward e.1 e.2, .fresh⟩) sched
    .ok (s.items, s.errors)
  else do
    let ts ← localTasks C m false fm
    let s ← runTasks E C m ts sched
    .ok (s.items, s.errors)

/-- `Engine::collectResults`, Engine.cc:238-248. -/
def collectResults (m : ItemMap) : ItemMap :=
  m.foldl (fun acc e => acc.set e.2.request.request e.2) []

/-- `Engine::extract(ExtractionRequests&)`, Engine.cc:181-205: the requests as rewritten, the results, the errors. -/
def engineExtract (E : ExtEnv) (C : EngineConf) (sched : List Nat) (rs : List ExRequest) :
    Res (List ExRequest × ItemMap × List String) := do
  let (rs', u, m) ← buildRequestMap C.ignoreYearMonth rs
  let listing ← E.list u
  let (m, fm) ← fileMap C listing m
  let (m, errs) ← scheduleTasks E C C.forward m fm sched
  .ok (rs', collectResults m, errs)

/-- `collect_results`, LocalGribJump.cc:89-104: results are moved out of the map. -/
def collectLoop : List ExRequest → ItemMap → Res (List WireResult)
  | [], _ => .ok []
  | r :: rs, m => match m.find r.request with
    | none => throwExn .assertFailed
    | some it => match it.result with
      | none => throwExn .assertFailed
      | some x => do
        let tl ← collectLoop rs (m.set r.request { it with result := none })
        .ok (x :: tl)

/-- `LocalGribJump::extract(ExtractionRequests&)`, LocalGribJump.cc:122-130, with `raiseErrors`. -/
def localExtract (E : ExtEnv) (C : EngineConf) (sched : List Nat) (rs : List ExRequest) : Res (List WireResult) := do
  let (rs', results, errs) ← engineExtract E C sched rs
  if errs ≠ [] then throwExn .seriousBug
  else do
    cassert (decide (results.length = rs'.length))
    collectLoop rs' results

/-! ## Requests by path -/

/-- `PathExtractionRequest`, ExtractionData.h:98-121. -/
structure PathReq where
  path : String
  scheme : String
  offset : Nat
  host : String
  port : Int
  ranges : List Interval
  gridHash : String

/-- The request string, ExtractionData.cc:224-226. -/
def PathReq.text (r : PathReq) : String := r.scheme ++ ":" ++ r.path ++ "#" ++ toString r.offset

def PathReq.base (r : PathReq) : ExRequest := ⟨r.text, r.ranges, r.gridHash⟩

/-- `Engine::buildRequestURIsMap`, Engine.cc:125-139: `emplace` keeps the first item of equal strings. -/
def buildPathMap (rs : List PathReq) : ItemMap :=
  rs.foldl (fun m r => m.insert r.text
    { request := r.base, uri := ⟨r.scheme, r.host, r.port, r.path, r.offset⟩, result := some emptyResult }) []

/-- `Engine::extract(PathExtractionRequests&)`, Engine.cc:207-236.  `requests[0]` of an empty vector is undefined. -/
def engineExtractPaths (E : ExtEnv) (C : EngineConf) (sched : List Nat) (rs : List PathReq) :
    Res (ItemMap × List String) := do
  let m := buildPathMap rs
  let fm := fileMapFromPaths m
  match rs with
  | [] => undef
  | r :: _ => do
    let forward := !(decide (r.host = "") && decide (r.port = 0))
    let (m, errs) ← scheduleTasks E C forward m fm sched
    .ok (collectResults m, errs)

/-- `LocalGribJump::extract(PathExtractionRequests&)`, LocalGribJump.cc:132-140. -/
def localExtractPaths (E : ExtEnv) (C : EngineConf) (sched : List Nat) (rs : List PathReq) : Res (List WireResult) := do
  let (results, errs) ← engineExtractPaths E C sched rs
  if errs ≠ [] then throwExn .seriousBug
  else do
    cassert (decide (results.length = rs.length))
    collectLoop (rs.map PathReq.base) results

end GJ
