import Verif.Model.Whole
import Verif.Model.Cluster
import Verif.Model.Server

/-!
# Processes that forward to each other

Several processes as in `Whole`, each with its work queue, cache and files.  A task that forwards sends its request over a
connection and its worker waits for the reply (`/repo/src/gribjump/Task.cc:244-255`,
`/repo/src/gribjump/remote/RemoteGribJump.cc:121-143`); the process it is sent to works on it like on a call of its own
(`/repo/src/gribjump/remote/Request.cc:123-146`), while all processes go on.  `Fleet` is the same without values.
-/

namespace GJ

/-- What runs where.  Processes and requests are numbered.  `jobs a g` are the items and tasks of request `g` of process
`a`; `target a g t` is the process to which task `t` of it connects, and the number the request gets there; no target: the
connection is refused, or the other side refuses the request.  `origin` is the way back; a request without origin is a
client's.  `host` tells which process listens at an address, `ctx a g` is the context sent with forwarded requests.
`site a` is as in `Whole`, but what other servers answer is given by the other processes. -/
structure Net where
  site : Nat → Site
  threads : Nat → Nat
  host : String × Int → Nat
  ctx : Nat → Nat → String
  target : Nat → Nat → Nat → Option (Nat × Nat)
  origin : Nat → Nat → Option (Nat × Nat × Nat)
  jobs : Nat → Nat → ItemMap × List FTask

/-- The processes. -/
abbrev NetSys := Nat → Srv

inductive NetEv where
  /-- a step of a process -/
  | on (a : Nat) (e : SrvEv)
  /-- the connection of a worker that forwards breaks -/
  | lost (a w : Nat)

/-- The items a forwarding task sends, Task.cc:249-253. -/
def sentFiles (m : ItemMap) (files : KeyMap) : FileMap :=
  (files.map fun f => (f.1, sortKeys m f.2)).map fun f => (f.1, itemsOf m f.2)

/-- Request `h` of process `b` is what task `t` of request `g` of process `a` sends: `decodeForwardExtractRequest` in the
constructor of `ForwardedExtractRequest`, Request.cc:123-138, and the tasks of `Engine::scheduleExtractionTasks` with
`forward = false`, Request.cc:140-142, Engine.cc:153-176. -/
def Net.Sent (N : Net) (a g t b h : Nat) : Prop :=
  ∃ server files fm, (N.jobs a g).2[t]? = some ⟨.forward server files, .fresh⟩ ∧ N.host server = b ∧
    dispatch (encHeader .forwardExtract (N.ctx a g) ++ (encForwardExtract (sentFiles (N.jobs a g).1 files)).1) =
      .ok ((N.ctx a g, .forwardExtract fm), []) ∧
    (N.jobs b h).1 = (numFiles 0 fm).1 ∧
    localTasks (N.site b).conf (numFiles 0 fm).1 false (numFiles 0 fm).2 = .ok (N.jobs b h).2

/-- The thread of the request exists: a client's from the beginning, another one since the forwarding task connected
(RemoteGribJump.cc:126-133, GribJumpService.h:35-37). -/
def Net.opened (N : Net) (s : NetSys) (b h : Nat) : Bool :=
  match N.origin b h with
  | none => true
  | some (a, g, t) => decide ((g, t) ∈ (s a).x.t.started)

/-- The request and the task for which worker `w` has a connection open, if it is executing a task that forwards. -/
def XSys.connected (x : XSys) (w : Nat) : Option (Nat × Nat) :=
  match x.t.workers[w]? with
  | some (.running g j) => match (x.job g).tasks[j]? with
    | some ⟨.forward _ _, .fresh⟩ => some (g, j)
    | _ => none
  | _ => none

/-- What the process that was asked answers with when its request `h` has returned: Request.cc:36-38, 140-146.  Only the handling
of forwarded extractions is used. -/
def Net.answering (s : NetSys) (b h : Nat) : Engine where
  extract _ := throwExn .notImplemented
  axes _ _ := throwExn .notImplemented
  scan _ _ := throwExn .notImplemented
  forwardExtract fm :=
    let m := ((s b).x.job h).items
    .ok ((numFiles 0 fm).2.map fun f => (f.1, itemsOf m (sortKeys m f.2)), ((s b).x.t.grp h).errors)
  forwardScan _ := throwExn .notImplemented

/-- What comes back over the connection of task `t` of request `g`, if anything has come: RemoteGribJump.cc:121-143. -/
def Net.reply (N : Net) (s : NetSys) (a g t : Nat) : Option (FileMap → Res FileMap) :=
  match N.target a g t with
  | none => some fun _ => throwExn .ioError
  | some (b, h) =>
    if ((s b).x.t.grp h).phase = .returned then some (remoteForwardExtract (Net.answering s b h) (N.ctx a g)) else none

/-- The process where forwarded requests get these answers, for each request, time, server and file map. -/
def Site.told (p : Site) (fwd : Nat → Nat → String × Int → FileMap → Res FileMap) : Site :=
  { p with calls := fun g => { p.calls g with forward := fwd g } }

/-- The same answer to every forwarded request. -/
def Site.hearing (p : Site) (r : FileMap → Res FileMap) : Site := p.told fun _ _ _ => r

/-- Which process makes a step, if any, and what it hears from others. -/
def Net.act (N : Net) (s : NetSys) : NetEv → Nat × Option (Site × SrvEv)
  | .on a (.queue (.add g)) => (a, if N.opened s a g then some (N.site a, .queue (.add g)) else none)
  | .on a (.queue (.wait g)) => (a, if N.opened s a g then some (N.site a, .queue (.wait g)) else none)
  | .on a (.queue (.work w)) => (a, match (s a).x.connected w with
    | none => some (N.site a, .queue (.work w))
    | some (g, t) => (N.reply s a g t).map fun r => ((N.site a).hearing r, .queue (.work w)))
  | .on a e => (a, some (N.site a, e))
  | .lost a w => (a, match (s a).x.connected w with
    | none => none
    | some _ => some ((N.site a).hearing fun _ => throwExn .ioError, .queue (.work w)))

def Net.step (N : Net) (s : NetSys) (e : NetEv) : Res NetSys :=
  match (N.act s e).2 with
  | none => .ok s
  | some (p, e') => do
    let y ← (s (N.act s e).1).step p e'
    .ok fun b => if b = (N.act s e).1 then y else s b

def Net.run (N : Net) : NetSys → List NetEv → Res NetSys
  | s, [] => .ok s
  | s, e :: es => do
    let s' ← N.step s e
    N.run s' es

/-- All processes have just started, over existing data and index files. -/
def Net.start (N : Net) (d : Nat → Disk) (mode : Nat → CacheMode) (lazy : Nat → Bool) (cap : Nat → Nat) (fs : Nat → FS) :
    NetSys :=
  fun a => Srv.start (N.site a) (N.threads a) (N.jobs a) (d a) (mode a) (lazy a) (cap a) (fs a)

end GJ
