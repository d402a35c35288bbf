import Verif.Model.Codec
import Verif.Model.Map

/-!
# Remote protocol

Models `/repo/src/gribjump/remote/Protocol.cc` and `Protocol.h`, and the dispatcher in
`/repo/src/gribjump/remote/GribJumpUser.cc`.

`reserve` calls are not modelled: they can only fail by running out of memory.
-/

namespace GJ

/-! ## Header -/

/-- `RequestType`, Protocol.h:47-53. -/
inductive ReqType where
  | extract | axes | scan | forwardExtract | forwardScan
  deriving DecidableEq, Repr

/-- The number of an enumerator. -/
def ReqType.code : ReqType → Nat
  | .extract => 0
  | .axes => 1
  | .scan => 2
  | .forwardExtract => 3
  | .forwardScan => 4

/-- `remoteProtocolVersion`, Protocol.h:55. -/
def protocolVersion : Nat := 3

/-- `writeRequestHeader`, Protocol.cc:30-34.  The context is a string (Metrics.h:67). -/
def encHeader (t : ReqType) (context : String) : List Tok :=
  [.u16 protocolVersion, .str context, .u16 t.code]

/-- `readRequestHeader`, Protocol.cc:36-51: returns the installed context and the type number.
`static_cast<RequestType>` does not check the number. -/
def decHeader : Dec (String × Nat) := do
  let version ← Dec.u16
  if version ≠ protocolVersion then Dec.fail .seriousBug
  else do
    let ctx ← Dec.str
    let t ← Dec.u16
    pure (ctx, t)

/-! ## Errors -/

/-- `encodeErrors`, Protocol.cc:56-61. -/
def encErrors (es : List String) : List Tok := .ulong es.length :: es.map .str

/-- `decodeErrors`, Protocol.cc:63-84.  With `raise` the exception carries the strings; the model
keeps the class of the exception only. -/
def decErrors (raise : Bool) : Dec Bool := do
  let n ← Dec.ulong
  if n = 0 then pure false
  else do
    let _ ← Dec.times n Dec.str
    if raise then Dec.fail .remote else pure true

/-! ## Extract -/

/-- `encodeExtractRequest`, Protocol.cc:89-94. -/
def encExtractReq (rs : List ExRequest) : List Tok := .ulong rs.length :: rs.flatMap encRequest

/-- `decodeExtractRequest`, Protocol.cc:96-105. -/
def decExtractReq : Dec (List ExRequest) := do
  let n ← Dec.ulong
  Dec.times n decRequest

/-- `encodeExtractReply`, Protocol.cc:107-113.  The pointers are dereferenced: a null pointer
(`none`) is undefined. -/
def encExtractReply : List (Option WireResult) → Res (List Tok)
  | [] => .ok []
  | none :: _ => undef
  | some r :: rest => do
    let tl ← encExtractReply rest
    .ok (.ulong 1 :: (encResult r ++ tl))

/-- `decodeExtractReply`, Protocol.cc:115-125. -/
def decExtractReply (nRequests : Nat) : Dec (List WireResult) :=
  Dec.times nRequests (do
    let nfields ← Dec.ulong
    Dec.lift (cassert (decide (nfields = 1)))
    decResult)

/-! ## Scan -/

/-- `encodeScanRequest`, Protocol.cc:130-137. -/
def encScanReq (reqs : List String) (byfiles : Bool) : List Tok :=
  .bool byfiles :: .ulong reqs.length :: reqs.map .ext

/-- `decodeScanRequest`, Protocol.cc:139-149. -/
def decScanReq : Dec (List String × Bool) := do
  let byfiles ← Dec.bool
  let n ← Dec.ulong
  let reqs ← Dec.times n Dec.ext
  pure (reqs, byfiles)

/-- `encodeScanReply`, Protocol.cc:151-153. -/
def encScanReply (n : Nat) : List Tok := [.ulong n]

/-- `decodeScanReply`, Protocol.cc:155-159. -/
def decScanReply : Dec Nat := Dec.ulong

/-! ## Axes -/

/-- `encodeAxesRequest`, Protocol.cc:164-167. -/
def encAxesReq (request : String) (level : Int) : List Tok := [.str request, .i32 level]

/-- `decodeAxesRequest`, Protocol.cc:169-172. -/
def decAxesReq : Dec (String × Int) := do
  let request ← Dec.str
  let level ← Dec.i32
  pure (request, level)

/-- `std::unordered_set::insert`; the list is the iteration order. -/
def setInsert {α : Type} [DecidableEq α] (s : List α) (x : α) : List α :=
  if x ∈ s then s else s ++ [x]

/-- `encodeAxesReply`, Protocol.cc:174-184. -/
def encAxesReply (axes : AMap String (List String)) : List Tok :=
  .ulong axes.length ::
    axes.flatMap fun a => .str a.1 :: .ulong a.2.length :: a.2.map .str

/-- `decodeAxesReply`, Protocol.cc:186-204. -/
def decAxesReply : Dec (AMap String (List String)) := do
  let n ← Dec.ulong
  let entries ← Dec.times n (do
    let name ← Dec.str
    let nVals ← Dec.ulong
    let vals ← Dec.times nVals Dec.str
    pure (name, vals.foldl setInsert []))
  pure (entries.foldl (fun m e => m.set e.1 e.2) [])

/-! ## Forwarded scan -/

/-- `encodeForwardScanRequest`, Protocol.cc:209-215. -/
def encForwardScan (scanmap : AMap String (List Nat)) : List Tok :=
  .ulong scanmap.length ::
    scanmap.flatMap fun f => .str f.1 :: encVec (fun o => [.off o]) f.2

/-- `decodeForwardScanRequest`, Protocol.cc:217-229. -/
def decForwardScan : Dec (AMap String (List Nat)) := do
  let n ← Dec.ulong
  let entries ← Dec.times n (do
    let fname ← Dec.str
    let offsets ← Dec.vec Dec.off
    pure (fname, offsets))
  pure (entries.foldl (fun m e => m.set e.1 e.2) [])

/-! ## Forwarded extract -/

/-- `ExtractionItem`, ExtractionItem.h:29-105: request, location and result. -/
structure Item where
  request : ExRequest
  uri : Uri
  result : Option WireResult
  deriving DecidableEq, Repr

/-- The result an item starts with: `std::make_unique<ExtractionResult>()`, ExtractionItem.h:34-38. -/
def emptyResult {V : Type} : ExResult V := ⟨[], []⟩

/-- `filemap_t`, Types.h:42.  Pointers to items are the items. -/
abbrev FileMap := AMap String (List Item)

/-- Insertion into a list sorted by offset, after equal ones. -/
def insertByOffset (x : Item) : List Item → List Item
  | [] => [x]
  | y :: rest => if x.uri.offset < y.uri.offset then x :: y :: rest else y :: insertByOffset x rest

/-- `std::sort` by offset, Protocol.cc:238-239.  `std::sort` leaves the order of equal offsets
unspecified; the model takes the stable order. -/
def sortByOffset (l : List Item) : List Item := l.foldl (fun acc x => insertByOffset x acc) []

/-- What is written per item, Protocol.cc:243-248. -/
def encForwardItem (i : Item) : List Tok :=
  encRequest { request := "", ranges := i.request.ranges, gridHash := i.request.gridHash } ++ [.uri i.uri]

/-- `encodeForwardExtractRequest`, Protocol.cc:234-250: the bytes, and the file map, whose items are
sorted in place. -/
def encForwardExtract (fm : FileMap) : List Tok × FileMap :=
  let sorted := fm.map fun f => (f.1, sortByOffset f.2)
  (.ulong sorted.length ::
    sorted.flatMap fun f => .str f.1 :: .ulong f.2.length :: f.2.flatMap encForwardItem, sorted)

/-- One item, Protocol.cc:265-268.  `eckit::URI("file", stream)` reads a URI and sets its scheme. -/
def decForwardItem : Dec Item := do
  let r ← decRequest
  let u ← Dec.uri
  pure { request := r, uri := { u with scheme := "file" }, result := some emptyResult }

/-- `decodeForwardExtractRequest`, Protocol.cc:252-272.  `out.filemap[fname] = {}` drops what an
earlier entry of the same name had put there. -/
def decForwardExtract : Dec FileMap := do
  let n ← Dec.ulong
  let entries ← Dec.times n (do
    let fname ← Dec.str
    let nItems ← Dec.ulong
    let items ← Dec.times nItems decForwardItem
    pure (fname, items))
  pure (entries.foldl (fun m e => m.set e.1 e.2) [])

/-- The items of one file in the reply, Protocol.cc:278-280; a null result is undefined. -/
def encReplyItems : List Item → Res (List Tok)
  | [] => .ok []
  | i :: rest => match i.result with
    | none => undef
    | some r => do
      let tl ← encReplyItems rest
      .ok (encResult r ++ tl)

/-- `encodeForwardExtractReply`, Protocol.cc:274-282. -/
def encForwardReply : FileMap → Res (List Tok)
  | [] => .ok []
  | f :: rest => do
    let body ← encReplyItems f.2
    let tl ← encForwardReply rest
    .ok (.str f.1 :: .ulong f.2.length :: (body ++ tl))

/-- `items[j]->result(...)` for every `j`, Protocol.cc:292-294. -/
def setResults : List Item → List WireResult → List Item
  | i :: is, r :: rs => { i with result := some r } :: setResults is rs
  | is, _ => is

/-- `decodeForwardExtractReply`, Protocol.cc:284-296. -/
def decForwardReplyLoop : Nat → FileMap → Dec FileMap
  | 0, fm => pure fm
  | n + 1, fm => do
    let fname ← Dec.str
    let nItems ← Dec.ulong
    let items := (fm.find fname).getD []
    Dec.lift (cassert (decide (nItems = items.length)))
    let rs ← Dec.times nItems decResult
    decForwardReplyLoop n (fm.set fname (setResults items rs))

/-- `decodeForwardExtractReply`, Protocol.cc:284-296. -/
def decForwardReply (fm : FileMap) : Dec FileMap := decForwardReplyLoop fm.length fm

/-! ## Dispatch -/

/-- A request as the server understood it. -/
inductive ServerReq where
  | extract (rs : List ExRequest)
  | axes (request : String) (level : Int)
  | scan (reqs : List String) (byfiles : Bool)
  | forwardExtract (fm : FileMap)
  | forwardScan (sm : AMap String (List Nat))
  deriving DecidableEq, Repr

/-- `dispatchRequest`, GribJumpUser.cc:84-117, up to the construction of the request object, with the
checks of the request constructors (Request.cc:137, 186).  The returned value is what the engine is
then asked to do. -/
def dispatch : Dec (String × ServerReq) := do
  let (ctx, t) ← decHeader
  match t with
  | 0 => do
    let rs ← decExtractReq
    pure (ctx, .extract rs)
  | 1 => do
    let (r, l) ← decAxesReq
    Dec.lift (cassert (decide (r.length > 0)))
    pure (ctx, .axes r l)
  | 2 => do
    let (rs, b) ← decScanReq
    pure (ctx, .scan rs b)
  | 3 => do
    let fm ← decForwardExtract
    Dec.lift (cassert (decide ((fm.map fun f => f.2.length).sum > 0)))
    pure (ctx, .forwardExtract fm)
  | 4 => do
    let sm ← decForwardScan
    pure (ctx, .forwardScan sm)
  | _ => Dec.fail .seriousBug

end GJ
