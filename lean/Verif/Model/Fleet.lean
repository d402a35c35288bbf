import Verif.Model.Execution

/-!
# Servers that forward to each other

Several processes, each with its own work queue and workers (`TaskGroup`).  A task that forwards (`ForwardExtractionTask`,
`ForwardScanTask`, `/repo/src/gribjump/Task.cc:244-277`) opens a connection to another server, and its worker waits for the
reply (`/repo/src/gribjump/remote/RemoteGribJump.cc:121-144`).  The server has a thread for the connection
(`/repo/src/gribjump/remote/GribJumpService.h:35-37`, `GribJumpUser.cc:33-83`), which puts the tasks of the request into the
server's work queue and waits for them.  What tasks other than forwarding ones do is left open, as in
`TaskGroup`.
-/

namespace GJ

/-- What runs where.  Servers and requests are numbered; request `g` of server `a` has `size a g` tasks, of which task `t`
forwards to `target a g t`: a server, and the number there of the request that arrives.  `origin` is the way back: where
a request that arrives is waited for; a request without origin is a client's. -/
structure Fleet where
  threads : Nat → Nat
  size : Nat → Nat → Nat
  target : Nat → Nat → Nat → Option (Nat × Nat)
  origin : Nat → Nat → Option (Nat × Nat × Nat)

/-- `origin` is the way back.  A forwarded extraction schedules its tasks with `forward = false`
(remote/Request.cc:140-142, Engine.h:50, Engine.cc:153-179), a forwarded scan with `scheduleScanTasks` (Request.cc:168-172,
Engine.cc:287-299), so none of them forwards.  It has tasks (Forwarder.cc:52-60, Request.cc:137). -/
structure Fleet.Sound (F : Fleet) : Prop where
  back : ∀ a g t b h, F.target a g t = some (b, h) ↔ F.origin b h = some (a, g, t)
  here : ∀ b h, F.origin b h ≠ none → ∀ t, F.target b h t = none
  tasks : ∀ b h, F.origin b h ≠ none → 0 < F.size b h

/-- The processes. -/
abbrev FleetSys := Nat → TSys

inductive FleetEv where
  /-- a step of a request's thread or of a worker -/
  | thread (a : Nat) (e : TEv)
  /-- a worker that forwards looks whether the reply has come -/
  | reply (a w : Nat)
  /-- the connection of a worker that forwards breaks -/
  | lost (a w : Nat) (msg : String)
  deriving DecidableEq, Repr

/-- The thread of the request exists: a client's from the beginning, another one since the forwarding task connected
(RemoteGribJump.cc:126-133; the server gives every connection a thread at once, GribJumpService.h:35-37). -/
def Fleet.opened (F : Fleet) (s : FleetSys) (b h : Nat) : Bool :=
  match F.origin b h with
  | none => true
  | some (a, g, t) => decide ((g, t) ∈ (s a).started)

/-- Where the task that worker `w` is executing forwards to, if it does. -/
def Fleet.forwarding (F : Fleet) (s : FleetSys) (a w : Nat) : Option (Nat × Nat) :=
  match (s a).workers[w]? with
  | some (.running g t) => F.target a g t
  | _ => none

/-- What becomes of a forwarding task when the request it waits for has ended: the reply, or the error the server sends
(remote/Request.cc:36-38, GribJumpUser.cc:43-53), which the task throws (RemoteGribJump.cc:136). -/
def replied (x : Grp) (w : Nat) : Option TEv :=
  match x.phase with
  | .returned => some (if x.errors = [] then .finish w else .fail w "remote")
  | .gone => some (.fail w "remote")
  | _ => none

/-- The step of a process, if any.  A request enqueues all its tasks before it waits (Engine.cc:164-177, Forwarder.cc:54-60);
a forwarding task ends by a reply or a broken connection only.  Requests that throw while they enqueue (C25) are left out. -/
def Fleet.act (F : Fleet) (s : FleetSys) : FleetEv → Nat × Option TEv
  | .thread a e => (a, match e with
    | .add g => if F.opened s a g ∧ ((s a).grp g).tasks.length < F.size a g then some (.add g) else none
    | .wait g => if F.opened s a g ∧ ((s a).grp g).tasks.length = F.size a g then some (.wait g) else none
    | .finish w => if F.forwarding s a w = none then some (.finish w) else none
    | .fail w msg => if F.forwarding s a w = none then some (.fail w msg) else none
    | .abandon _ => none
    | e => some e)
  | .reply a w => (a, match F.forwarding s a w with
    | some (b, h) => replied ((s b).grp h) w
    | none => none)
  | .lost a w msg => (a, if F.forwarding s a w = none then none else some (.fail w msg))

def Fleet.step (F : Fleet) (s : FleetSys) (e : FleetEv) : Res FleetSys := do
  let t ← (s (F.act s e).1).stepIf (F.act s e).2
  .ok fun a => if a = (F.act s e).1 then t else s a

def Fleet.run (F : Fleet) : FleetSys → List FleetEv → Res FleetSys
  | s, [] => .ok s
  | s, e :: es => do
    let s' ← F.step s e
    F.run s' es

def Fleet.start (F : Fleet) : FleetSys := fun a => TSys.init (F.threads a)

end GJ
