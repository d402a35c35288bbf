import Verif.Model.Net
import Verif.Model.Mixed

/-!
# Processes that forward scans and extractions to each other

The processes of `Net`, with scans on their work queues as in `Mixed`.  A scan may be forwarded: one task per server
(`/repo/src/gribjump/Forwarder.cc:27-50`), whose worker waits for the reply (`/repo/src/gribjump/Task.cc:263-277`); the
process it is sent to scans one file per task (`/repo/src/gribjump/remote/Request.cc:154-178`,
`/repo/src/gribjump/Engine.cc:287-299`) on the queue that its extractions wait in, too.
-/

namespace GJ

/-- What runs where.  `net` is about extractions.  `scans a g` are the tasks of group `g` of process `a`, if it is a scan;
`link a g t` is the process to which task `t` of it connects, and the number the scan gets there; no link: the connection is
refused, or the other side refuses the request.  `source` is the way back; a scan without source is a client's. -/
structure Mesh where
  net : Net
  scans : Nat → Nat → Option (List ScanKind)
  link : Nat → Nat → Nat → Option (Nat × Nat)
  source : Nat → Nat → Option (Nat × Nat × Nat)

/-- The processes. -/
abbrev MeshSys := Nat → Mix

/-- The group is a scan. -/
def Mesh.scan (X : Mesh) (a g : Nat) : Bool := (X.scans a g).isSome

/-- Scan `h` of process `b` is what task `t` of scan `g` of process `a` sends: `decodeForwardScanRequest` in the constructor of
`ForwardedScanRequest`, Request.cc:154-166, and a task for each file, Request.cc:168-170, Engine.cc:289-294. -/
def Mesh.Sent (X : Mesh) (a g t b h : Nat) : Prop :=
  ∃ ks server files sm, X.scans a g = some ks ∧ ks[t]? = some (.forward server files) ∧ X.net.host server = b ∧
    dispatch (encHeader .forwardScan (X.net.ctx a g) ++ encForwardScan files) = .ok ((X.net.ctx a g, .forwardScan sm), []) ∧
    X.scans b h = some (sm.map fun f => .file f.1 f.2)

/-- The thread of the request or scan exists, as in `Net`. -/
def Mesh.opened (X : Mesh) (s : MeshSys) (b h : Nat) : Bool :=
  match if X.scan b h then X.source b h else X.net.origin b h with
  | none => true
  | some (a, g, t) => decide ((g, t) ∈ (s a).srv.x.t.started)

/-- The group and the task for which worker `w` has a connection open, if it is executing a task that forwards. -/
def Mesh.line (X : Mesh) (s : MeshSys) (a w : Nat) : Option (Nat × Nat) :=
  match (s a).srv.x.t.workers[w]? with
  | some (.running g j) =>
    if X.scan a g then
      match ((s a).jobs g).tasks[j]? with
      | some (.forward _ _, .fresh) => some (g, j)
      | _ => none
    else (s a).srv.x.connected w
  | _ => none

/-- What the process that was asked answers with when its scan `h` has returned: Request.cc:36-38, 168-176. -/
def Mesh.answering (s : MeshSys) (b h : Nat) : Engine :=
  { Net.answering (fun a => (s a).srv) b h with
    forwardScan := fun _ => .ok (((s b).jobs h).count, ((s b).srv.x.t.grp h).errors) }

/-- Process `a`, hearing this. -/
def Mesh.hears (X : Mesh) (a : Nat) (r : FileMap → Res FileMap) (n : ScanMap → Res Nat) : MixSite :=
  ⟨(X.net.site a).hearing r, X.scans a, fun _ _ _ => n⟩

/-- Process `a`, hearing nothing. -/
def Mesh.alone (X : Mesh) (a : Nat) : MixSite := ⟨X.net.site a, X.scans a, fun _ _ _ _ => throwExn .ioError⟩

/-- What comes back over the connection of task `t` of group `g`, if anything has come: RemoteGribJump.cc:68-87, 121-143. -/
def Mesh.reply (X : Mesh) (s : MeshSys) (a g t : Nat) : Option MixSite :=
  if X.scan a g then
    match X.link a g t with
    | none => some (X.hears a (fun _ => throwExn .ioError) fun _ => throwExn .ioError)
    | some (b, h) =>
      if ((s b).srv.x.t.grp h).phase = .returned then
        some (X.hears a (fun _ => throwExn .ioError) (remoteForwardScan (Mesh.answering s b h) (X.net.ctx a g)))
      else none
  else (X.net.reply (fun a => (s a).srv) a g t).map fun r => X.hears a r fun _ => throwExn .ioError

/-- Which process makes a step, if any, and what it hears from others. -/
def Mesh.act (X : Mesh) (s : MeshSys) : NetEv → Nat × Option (MixSite × SrvEv)
  | .on a (.queue (.add g)) => (a, if X.opened s a g then some (X.alone a, .queue (.add g)) else none)
  | .on a (.queue (.wait g)) => (a, if X.opened s a g then some (X.alone a, .queue (.wait g)) else none)
  | .on a (.queue (.work w)) => (a, match X.line s a w with
    | none => some (X.alone a, .queue (.work w))
    | some (g, t) => (X.reply s a g t).map fun M => (M, .queue (.work w)))
  | .on a e => (a, some (X.alone a, e))
  | .lost a w => (a, match X.line s a w with
    | none => none
    | some _ => some (X.hears a (fun _ => throwExn .ioError) fun _ => throwExn .ioError, .queue (.work w)))

def Mesh.step (X : Mesh) (s : MeshSys) (e : NetEv) : Res MeshSys :=
  match (X.act s e).2 with
  | none => .ok s
  | some (M, e') => do
    let y ← (s (X.act s e).1).step M e'
    .ok fun b => if b = (X.act s e).1 then y else s b

def Mesh.run (X : Mesh) : MeshSys → List NetEv → Res MeshSys
  | s, [] => .ok s
  | s, e :: es => do
    let s' ← X.step s e
    X.run s' es

/-- All processes have just started, over existing data and index files. -/
def Mesh.start (X : Mesh) (d : Nat → Disk) (mode : Nat → CacheMode) (lazy : Nat → Bool) (cap : Nat → Nat) (fs : Nat → FS) :
    MeshSys :=
  fun a => Mix.start (X.alone a) (X.net.threads a) (X.net.jobs a) (d a) (mode a) (lazy a) (cap a) (fs a)

end GJ
