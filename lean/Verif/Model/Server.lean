import Verif.Model.Protocol

/-!
# Server and remote client

Models `/repo/src/gribjump/remote/GribJumpUser.cc`, `Request.cc` and `RemoteGribJump.cc`.  The socket
is a pair of streams; connection failures are not modelled.
-/

namespace GJ

/-- `EngineIface`, Engine.h:34-52.  `extract` rewrites the request strings in place (Engine.cc:86),
hence the first component; the last component of a result is the error list of the task report. -/
structure Engine where
  extract : List ExRequest → Res (List ExRequest × AMap String Item × List String)
  axes : String → Int → Res (AMap String (List String))
  scan : List String → Bool → Res (Nat × List String)
  forwardExtract : FileMap → Res (FileMap × List String)
  forwardScan : AMap String (List Nat) → Res (Nat × List String)

/-- The loop of `ExtractRequest::replyToClient`, Request.cc:103-111: every result is moved out of the
map, so that a second request with the same string finds a null pointer. -/
def orderedResults : List ExRequest → AMap String Item → Res (List (Option WireResult))
  | [], _ => .ok []
  | r :: rs, m => match m.find r.request with
    | none => throwExn .assertFailed
    | some it => do
      let tl ← orderedResults rs (m.set r.request { it with result := none })
      .ok (it.result :: tl)

/-- `ExtractRequest::replyToClient`, Request.cc:93-116. -/
def replyExtract (reqs : List ExRequest) (results : AMap String Item) : Res (List Tok) := do
  let ordered ← orderedResults reqs results
  encExtractReply ordered

/-- `execute`, then the error block and the reply, for each request class: Request.cc:53-61, 78-116,
140-146, 168-176, 189-205.  An axes request has an empty report. -/
def handle (E : Engine) : ServerReq → Res (List String × Res (List Tok))
  | .extract rs => do
    let (rs', results, errs) ← E.extract rs
    .ok (errs, replyExtract rs' results)
  | .axes r l => do
    let a ← E.axes r l
    .ok ([], .ok (encAxesReply a))
  | .scan rs b => do
    let (n, errs) ← E.scan rs b
    .ok (errs, .ok (encScanReply n))
  | .forwardExtract fm => do
    let (fm', errs) ← E.forwardExtract fm
    .ok (errs, encForwardReply fm')
  | .forwardScan sm => do
    let (n, errs) ← E.forwardScan sm
    .ok (errs, .ok (encScanReply n))

/-- `GribJumpUser::serve` and `processRequest`, GribJumpUser.cc:33-82: what the engine was asked to do
and what was written to the client.  Exceptions are caught and written to the stream. -/
def serve (E : Engine) (input : List Tok) : Res (List ServerReq × List Tok) :=
  match dispatch input with
  | .error .ub => undef
  | .error (.exn _) => .ok ([], [.exc "error"])
  | .ok ((_, req), _) => match handle E req with
    | .error .ub => undef
    | .error (.exn _) => .ok ([req], [.exc "error"])
    | .ok (errs, body) => match body with
      | .error .ub => undef
      | .error (.exn _) => .ok ([req], encErrors errs ++ [.exc "error"])
      | .ok b => .ok ([req], encErrors errs ++ b)

/-- The reading half of a client call: the error block (raising), then the reply. -/
def clientRead {α : Type} (reply : Dec α) (out : List Tok) : Res α := do
  let (a, _) ← (do
    let _ ← decErrors true
    reply : Dec α) out
  .ok a

/-- One client call: send the request, let the server answer, read the answer.  The common shape of
RemoteGribJump.cc:42-65, 68-87, 89-114, 121-143, 145-165. -/
def remoteCall {α : Type} (E : Engine) (request : List Tok) (reply : Dec α) : Res α := do
  let (_, out) ← serve E request
  clientRead reply out

/-- `RemoteGribJump::extract`, RemoteGribJump.cc:89-114. -/
def remoteExtract (E : Engine) (ctx : String) (reqs : List ExRequest) : Res (List WireResult) :=
  remoteCall E (encHeader .extract ctx ++ encExtractReq reqs) (decExtractReply reqs.length)

/-- `RemoteGribJump::axes`, RemoteGribJump.cc:145-165. -/
def remoteAxes (E : Engine) (ctx request : String) (level : Int) : Res (AMap String (List String)) :=
  remoteCall E (encHeader .axes ctx ++ encAxesReq request level) decAxesReply

/-- `RemoteGribJump::scan`, RemoteGribJump.cc:42-65. -/
def remoteScan (E : Engine) (ctx : String) (reqs : List String) (byfiles : Bool) : Res Nat :=
  remoteCall E (encHeader .scan ctx ++ encScanReq reqs byfiles) decScanReply

/-- `RemoteGribJump::forwardScan`, RemoteGribJump.cc:68-87. -/
def remoteForwardScan (E : Engine) (ctx : String) (sm : AMap String (List Nat)) : Res Nat :=
  remoteCall E (encHeader .forwardScan ctx ++ encForwardScan sm) decScanReply

/-- `RemoteGribJump::forwardExtract`, RemoteGribJump.cc:121-143: the caller's file map afterwards. -/
def remoteForwardExtract (E : Engine) (ctx : String) (fm : FileMap) : Res FileMap :=
  remoteCall E (encHeader .forwardExtract ctx ++ (encForwardExtract fm).1)
    (decForwardReply (encForwardExtract fm).2)

end GJ
