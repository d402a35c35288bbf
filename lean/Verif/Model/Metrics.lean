import Verif.Model.Axes
import Verif.Model.Cluster
import Verif.Model.Execution

/-!
# The metrics line of a connection

Models `Metrics` and `MetricsManager` of `/repo/src/gribjump/Metrics.cc` and every place that records something:
GribJumpUser.cc, Request.cc, Engine.cc, Task.cc and Lister.cc.  A server writes one line for every connection.  Metrics
and context are thread-local (Metrics.cc:30, 96) and every connection has its own thread, so a connection starts with
none.

Clock readings are one value, `MVal.clock`.  The order of the keys in a line is the order of first recording; in the code it
is alphabetical.  `Server.serve` models the same connection without metrics.
-/

namespace GJ

/-- A request in `fdbRequests_`: the union of an extraction, or the one request of an axes query. -/
inductive MReq where
  | union (u : Union)
  | text (s : String)
  deriving DecidableEq

/-- Values in a line. -/
inductive MVal where
  | text (s : String)
  | num (n : Nat)
  | clock
  | requests (rs : List MReq)
  | json (s : String)
  deriving DecidableEq

/-! ## Recording in the engine -/

/-- `MetricsManager::set` and `addRequest`, Metrics.cc:87-93. -/
inductive MWrite where
  | set (name : String) (value : MVal)
  | request (r : MReq)
  deriving DecidableEq

/-- A computation that records metrics; what was recorded stays when it throws. -/
def Log (α : Type) := List MWrite × Res α

namespace Log

def bind {α β : Type} (l : Log α) (f : α → Log β) : Log β :=
  match l.2 with
  | .ok a => (l.1 ++ (f a).1, (f a).2)
  | .error e => (l.1, .error e)

instance : Monad Log where
  pure a := ([], .ok a)
  bind := bind

def lift {α : Type} (r : Res α) : Log α := ([], r)

def tell (ws : List MWrite) : Log Unit := (ws, .ok ())

end Log

/-- What `waitForTasks` records when it returns, Task.cc:152-158.  `notifyCancelled` is never called (Task.cc:52, 93), so
no cancelled task is ever counted. -/
def waitWrites (tasks : Nat) (errors : List String) : List MWrite :=
  [.set "count_tasks" (.num tasks), .set "count_failed_tasks" (.num errors.length),
    .set "count_cancelled_tasks" (.num 0)] ++
    match errors with
    | [] => []
    | e :: _ => [.set "first_error" (.text e)]

/-- `Engine::scheduleExtractionTasks` and `Forwarder::extract`, as in `scheduleTasks`. -/
def scheduleTasksM (E : ExtEnv) (C : EngineConf) (forward : Bool) (m : ItemMap) (fm : KeyMap) (sched : List Nat) :
    Log (ItemMap × List String) := do
  let ts ← Log.lift (plannedTasks C forward m fm)
  let s ← Log.lift (runTasks E C m ts sched)
  Log.tell (waitWrites ts.length s.errors)
  Log.lift (.ok (s.items, s.errors))

/-- `Engine::extract`, Engine.cc:181-205; the union request is recorded before it is listed, Lister.cc:88. -/
def engineExtractM (E : ExtEnv) (C : EngineConf) (sched : List Nat) (rs : List ExRequest) :
    Log (List ExRequest × ItemMap × List String) := do
  let (rs', u, m) ← Log.lift (buildRequestMap C.ignoreYearMonth rs)
  Log.tell [.request (.union u)]
  let listing ← Log.lift (E.list u)
  let (m, fm) ← Log.lift (fileMap C listing m)
  Log.tell [.set "elapsed_build_filemap" .clock]
  let (m, errs) ← scheduleTasksM E C C.forward m fm sched
  Log.tell [.set "elapsed_tasks" .clock, .set "elapsed_collect_results" .clock]
  Log.lift (.ok (rs', collectResults m, errs))

/-- `ForwardedExtractRequest::execute`, Request.cc:141-143, as in `serverForward`. -/
def serverForwardM (E : ExtEnv) (C : EngineConf) (sched : List Nat) (fm : FileMap) : Log (FileMap × List String) := do
  let (m, km) := numFiles 0 fm
  let (m', errs) ← scheduleTasksM E C false m km sched
  Log.lift (.ok (km.map fun f => (f.1, itemsOf m' (sortKeys m' f.2)), errs))

/-- Enqueue, wait, report, as in `scanTasks`. -/
def scanTasksM (E : ScanEnv) (c : Cache) (kinds : List ScanKind) (sched : List ScanEv) : Log (Nat × List String) := do
  let (n, errs, _) ← Log.lift (scanTasks E c kinds sched)
  Log.tell (waitWrites kinds.length errs)
  Log.lift (.ok (n, errs))

/-- `Engine::scheduleScanTasks`, Engine.cc:287-299. -/
def scheduleScanM (E : ScanEnv) (c : Cache) (sm : ScanMap) (sched : List ScanEv) : Log (Nat × List String) := do
  let (n, errs) ← scanTasksM E c (sm.map fun f => .file f.1 f.2) sched
  Log.tell [.set "count_scanned_fields" (.num n)]
  Log.lift (.ok (n, errs))

/-- `Forwarder::scan`, Forwarder.cc:27-50: the number of fields is not recorded. -/
def forwarderScanM (E : ScanEnv) (C : ScanConf) (c : Cache) (us : List Uri) (sched : List ScanEv) :
    Log (Nat × List String) := do
  Log.lift (cassert (decide (0 < us.length)))
  let m ← Log.lift (serverScans C us [])
  scanTasksM E c (m.map fun e => .forward e.1 e.2) sched

/-- `Engine::scan(requests, byfiles)`, Engine.cc:250-275. -/
def engineScanM (E : ScanEnv) (C : ScanConf) (c : Cache) (sched : List ScanEv) (rs : List String) (byfiles : Bool) :
    Log (Nat × List String) := do
  let us ← Log.lift (listUris E rs)
  if us = [] then do
    Log.tell [.set "count_scanned_fields" (.num 0)]
    Log.lift (.ok (0, []))
  else if C.forwardScan then forwarderScanM E C c us sched
  else
    let m := filesOffsets us
    scheduleScanM E c (if byfiles then m.map fun f => (f.1, []) else m) sched

/-- `FDBLister::axes`, Lister.cc:227-263; the request is recorded when its text was parsed, Lister.cc:233. -/
def localAxesM {Q : Type} (E : AxesEnv Q) (text : Q → String) (request : String) (level : Int) : Log Axes := do
  let requests ← Log.lift (E.parse request)
  match requests with
  | [r] => do
    Log.tell [.request (.text (text r))]
    let values ← Log.lift (E.fdb r level)
    Log.lift (.ok (axesOf values))
  | _ => Log.lift (throwExn .assertFailed)

/-- `EngineIface` with what its functions record. -/
structure MEngine where
  extract : List ExRequest → Log (List ExRequest × AMap String Item × List String)
  axes : String → Int → Log (AMap String (List String))
  scan : List String → Bool → Log (Nat × List String)
  forwardExtract : FileMap → Log (FileMap × List String)
  forwardScan : AMap String (List Nat) → Log (Nat × List String)

/-- The engine without metrics. -/
def MEngine.plain (E : MEngine) : Engine where
  extract rs := (E.extract rs).2
  axes r l := (E.axes r l).2
  scan rs b := (E.scan rs b).2
  forwardExtract fm := (E.forwardExtract fm).2
  forwardScan sm := (E.forwardScan sm).2

/-- The engine of a node. -/
def nodeMEngine {Q : Type} (E : ExtEnv) (C : EngineConf) (sched : List Nat) (S : ScanEnv) (SC : ScanConf) (c : Cache)
    (scanSched : List ScanEv) (A : AxesEnv Q) (text : Q → String) : MEngine where
  extract rs := engineExtractM E C sched rs
  axes r l := localAxesM A text r l
  scan rs b := engineScanM S SC c scanSched rs b
  forwardExtract fm := serverForwardM E C sched fm
  forwardScan sm := scheduleScanM S c sm scanSched

/-! ## A connection -/

/-- The thread of a connection.  `room` is the number of items the socket still takes before the client is gone. -/
structure Conn where
  /-- `ContextManager::context_`, Metrics.h:138 -/
  context : String
  /-- `values_`, `fdbRequests_`, Metrics.h:93-94 -/
  values : AMap String MVal
  requests : List MReq
  input : List Tok
  out : List Tok
  /-- what the engine was asked to do -/
  calls : List ServerReq
  room : Option Nat

/-- A step of that thread; what it did stays when it throws. -/
def Met (α : Type) := Conn → Conn × Res α

namespace Met

def bind {α β : Type} (x : Met α) (f : α → Met β) : Met β := fun c =>
  match x c with
  | (c', .ok a) => f a c'
  | (c', .error e) => (c', .error e)

instance : Monad Met where
  pure a := fun c => (c, .ok a)
  bind := bind

def lift {α : Type} (r : Res α) : Met α := fun c => (c, r)

/-- `MetricsManager::set`. -/
def set (name : String) (value : MVal) : Met Unit := fun c => ({ c with values := c.values.set name value }, .ok ())

/-- Read from the client. -/
def read {α : Type} (d : Dec α) : Met α := fun c => match d c.input with
  | .ok (a, rest) => ({ c with input := rest }, .ok a)
  | .error e => (c, .error e)

/-- Write to the client. -/
def write (ts : List Tok) : Met Unit := fun c => match c.room with
  | none => ({ c with out := c.out ++ ts }, .ok ())
  | some k =>
    if ts.length ≤ k then ({ c with out := c.out ++ ts, room := some (k - ts.length) }, .ok ())
    else ({ c with out := c.out ++ ts.take k, room := some 0 }, throwExn .ioError)

/-- `ContextManager::set`, Metrics.cc:115-118. -/
def setContext (ctx : String) : Met Unit := fun c => ({ c with context := ctx }, .ok ())

end Met

def Conn.record (c : Conn) : MWrite → Conn
  | .set name value => { c with values := c.values.set name value }
  | .request r => { c with requests := c.requests ++ [r] }

/-- Call the engine. -/
def Met.engine {α : Type} (l : Log α) : Met α := fun c => (l.1.foldl Conn.record c, l.2)

/-- Note what the engine is asked to do. -/
def Met.asked (r : ServerReq) : Met Unit := fun c => ({ c with calls := c.calls ++ [r] }, .ok ())

/-- `Protocol::readRequestHeader`, Protocol.cc:36-51: a context received is installed without parsing it, Metrics.h:39. -/
def readHeader : Met Nat := do
  let version ← Met.read Dec.u16
  if version ≠ protocolVersion then Met.lift (throwExn .seriousBug)
  else do
    let ctx ← Met.read Dec.str
    Met.setContext ctx
    Met.read Dec.u16

/-- `Request::Request`, Request.cc:31-34, and the first line of the derived constructors. -/
def beginRequest (id : Nat) (action : String) : Met Unit := do
  Met.set "gribjump_request_id" (.num id)
  Met.set "action" (.text action)

/-- The constructors of the request classes, Request.cc:42-51, 70-76, 123-138, 154-166, 183-187, chosen by
`dispatchRequest`, GribJumpUser.cc:95-115. -/
def constructRequest (id : Nat) : Nat → Met ServerReq
  | 0 => do
    beginRequest id "extract"
    let rs ← Met.read decExtractReq
    Met.set "count_extraction_requests" (.num rs.length)
    pure (.extract rs)
  | 1 => do
    beginRequest id "axes"
    let (r, l) ← Met.read decAxesReq
    Met.lift (cassert (decide (r.length > 0)))
    pure (.axes r l)
  | 2 => do
    beginRequest id "scan"
    let (rs, b) ← Met.read decScanReq
    Met.set "count_scan_requests" (.num rs.length)
    pure (.scan rs b)
  | 3 => do
    beginRequest id "forwarded-extract"
    let fm ← Met.read decForwardExtract
    Met.set "count_extraction_requests" (.num (fm.map fun f => f.2.length).sum)
    Met.lift (cassert (decide ((fm.map fun f => f.2.length).sum > 0)))
    pure (.forwardExtract fm)
  | 4 => do
    beginRequest id "forwarded-scan"
    let sm ← Met.read decForwardScan
    Met.set "count_received_offsets" (.num (sm.map fun f => f.2.length).sum)
    pure (.forwardScan sm)
  | _ => Met.lift (throwExn .seriousBug)

/-- `execute`, Request.cc:53-57, 78-91, 141-143, 168-172, 189-191; the reply is prepared for later. -/
def executeRequest (E : MEngine) : ServerReq → Log (List String × Res (List Tok))
  | .extract rs => do
    let (rs', results, errs) ← E.extract rs
    pure (errs, replyExtract rs' results)
  | .axes r l => do
    let a ← E.axes r l
    pure ([], .ok (encAxesReply a))
  | .scan rs b => do
    let (n, errs) ← E.scan rs b
    pure (errs, .ok (encScanReply n))
  | .forwardExtract fm => do
    let (fm', errs) ← E.forwardExtract fm
    pure (errs, encForwardReply fm')
  | .forwardScan sm => do
    let (n, errs) ← E.forwardScan sm
    pure (errs, .ok (encScanReply n))

/-- `processRequest`, GribJumpUser.cc:65-82. -/
def processRequest (E : MEngine) (id : Nat) (type : Nat) : Met Unit := do
  let req ← constructRequest id type
  Met.set "elapsed_receive" .clock
  Met.asked req
  let (errs, body) ← Met.engine (executeRequest E req)
  Met.set "elapsed_execute" .clock
  Met.write (encErrors errs)
  let b ← Met.lift body
  Met.write b
  Met.set "elapsed_reply" .clock

/-- `GribJumpUser::serve` up to the report, GribJumpUser.cc:33-58: an exception is recorded and sent to the client; if
that fails too, it is ignored.  Texts of exceptions are not modelled. -/
def serveConn (E : MEngine) (id : Nat) (c : Conn) : Res Conn :=
  match (do let t ← readHeader; processRequest E id t : Met Unit) c with
  | (c', .ok ()) => .ok c'
  | (_, .error .ub) => undef
  | (c', .error (.exn _)) =>
    let (c', _) := Met.set "error" (.text "error") c'
    let (c', _) := Met.write [.exc "error"] c'
    .ok c'

/-- `Metrics::report`, Metrics.cc:47-74: one JSON object. -/
def Conn.line (c : Conn) : AMap String MVal :=
  [("process", .text "process"), ("start_time", .clock), ("end_time", .clock), ("run_time", .clock)] ++ c.values ++
    [("mars_requests", .requests c.requests), ("context", .json c.context)]

/-- What is left when a connection is closed. -/
structure ConnEnd where
  calls : List ServerReq
  out : List Tok
  /-- the line in the metrics log; `none`: the report threw before it wrote -/
  line : Option (AMap String MVal)
  /-- whether a request number was used -/
  numbered : Bool

def Conn.start (room : Option Nat) (input : List Tok) : Conn := ⟨"{}", [], [], input, [], [], room⟩

/-- `GribJumpUser::serve`, GribJumpUser.cc:33-63.  `valid` says which texts are JSON: `LogContext::json` parses the context
and throws if it is not (Metrics.h:41), outside of the try block. -/
def connection (valid : String → Bool) (E : MEngine) (id : Nat) (room : Option Nat) (input : List Tok) : Res ConnEnd := do
  let c ← serveConn E id (Conn.start room input)
  .ok ⟨c.calls, c.out, if valid c.context then some c.line else none, (c.values.find "gribjump_request_id").isSome⟩

/-- A client's visit: the engine as it was then, how much the client took, what it sent. -/
structure Visit where
  engine : MEngine
  room : Option Nat
  input : List Tok

/-- The connections of a server in the order in which they take their request numbers, Request.cc:20-23: an atomic counter
of 64 bits. -/
def connections (valid : String → Bool) : Nat → List Visit → Res (List ConnEnd)
  | _, [] => .ok []
  | n, v :: vs => do
    let r ← connection valid v.engine n v.room v.input
    let tl ← connections valid (if r.numbered then (n + 1) % 2 ^ 64 else n) vs
    .ok (r :: tl)

end GJ
