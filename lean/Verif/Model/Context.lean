import Verif.Model.Basic

/-!
# The log context of a call

Models `ContextManager` of `/repo/src/gribjump/Metrics.cc` and its users: the public calls (GribJump.cc), task groups
(Task.h, Task.cc), the protocol header (Protocol.cc, RemoteGribJump.cc) and the metrics line a server writes for every
request (GribJumpUser.cc).

All threads of all processes are in one system: callers and connection threads on one side, workers of the queues on the
other.  `call` numbers are not in the code: they say for which user call a thread, a group or a message works and are
handed on exactly where the code hands on the work itself.
-/

namespace GJ

inductive CtxPc where
  | idle
  | inCall
  /-- between construction and destruction of a task group -/
  | inGroup (g : Nat)
  deriving DecidableEq

/-- A caller's thread or the thread of a connection; `ctx` is `ContextManager::context_`, thread-local, Metrics.cc:31. -/
structure CtxThread where
  pc : CtxPc
  ctx : String
  call : Nat

/-- A worker thread; its group while it executes a forwarding task. -/
structure CtxWorker where
  group : Option Nat
  ctx : String
  call : Nat

/-- `TaskGroup`, Task.h:97-163: it holds a reference to the context of the thread that made it. -/
structure CtxGroup where
  owner : Nat
  /-- tasks in the queue, tasks being executed -/
  queued : Nat
  running : Nat
  call : Nat

/-- What leaves a thread with a context: a request header or a metrics line. -/
structure CtxMsg where
  ctx : String
  call : Nat
  deriving DecidableEq

structure CtxSys where
  threads : Nat → CtxThread
  workers : Nat → CtxWorker
  groups : List CtxGroup
  /-- the contexts users gave, by call -/
  calls : List String
  sent : List CtxMsg
  lines : List CtxMsg

def ctxSet {α : Type} (f : Nat → α) (i : Nat) (x : α) : Nat → α := fun j => if j = i then x else f j

/-- A thread starts with `LogContext()`, Metrics.h:29. -/
def ctxInit : CtxSys where
  threads _ := ⟨.idle, "{}", 0⟩
  workers _ := ⟨none, "{}", 0⟩
  groups := []
  calls := []
  sent := []
  lines := []

inductive CtxEv where
  /-- a user calls `extract`, `scan` or `axes` with a context -/
  | call (t : Nat) (ctx : String)
  /-- a remote handle sends its request -/
  | send (t : Nat)
  /-- a server accepts a connection and reads the header of a request -/
  | receive (t : Nat) (message : Nat)
  /-- the engine makes a task group, enqueues a forwarding task, and leaves the group after waiting -/
  | make (t : Nat)
  | enqueue (t : Nat)
  | leave (t : Nat)
  /-- a worker takes a forwarding task of a group, sends its request, and is done -/
  | take (w : Nat) (g : Nat)
  | forward (w : Nat)
  | done (w : Nat)
  /-- a server reports a request; a call or a request ends -/
  | report (t : Nat)
  | finish (t : Nat)

/-- One step; `valid` says which texts are JSON.  Steps that are not possible leave the system as it is. -/
def CtxSys.step (valid : String → Bool) (s : CtxSys) : CtxEv → CtxSys
  /- `LogContext(s)` throws for what is not JSON, Metrics.h:29-37; `ContextManager::set(ctx)`, GribJump.cc:34, 45, 61, 70,
  94, 112. -/
  | .call t ctx =>
    if (s.threads t).pc = .idle ∧ valid ctx = true then
      { s with threads := ctxSet s.threads t ⟨.inCall, ctx, s.calls.length⟩, calls := s.calls ++ [ctx] }
    else s
  /- `RemoteGribJump::sendHeader`, RemoteGribJump.cc:38-40. -/
  | .send t =>
    if (s.threads t).pc = .inCall then { s with sent := s.sent ++ [⟨(s.threads t).ctx, (s.threads t).call⟩] } else s
  /- `Protocol::readRequestHeader`, Protocol.cc:36-51. -/
  | .receive t k => match s.sent[k]? with
    | none => s
    | some m =>
      if (s.threads t).pc = .idle then { s with threads := ctxSet s.threads t ⟨.inCall, m.ctx, m.call⟩ } else s
  /- `TaskGroup()`, Task.h:100. -/
  | .make t =>
    if (s.threads t).pc = .inCall then
      { s with
        groups := s.groups ++ [⟨t, 0, 0, (s.threads t).call⟩]
        threads := ctxSet s.threads t { s.threads t with pc := .inGroup s.groups.length } }
    else s
  /- `TaskGroup::enqueueTask`, Task.cc:125-134. -/
  | .enqueue t => match (s.threads t).pc with
    | .inGroup g => match s.groups[g]? with
      | some G => { s with groups := s.groups.set g { G with queued := G.queued + 1 } }
      | none => s
    | _ => s
  /- `TaskGroup::waitForTasks` returns when all tasks are complete, Task.cc:136-159. -/
  | .leave t => match (s.threads t).pc with
    | .inGroup g => match s.groups[g]? with
      | some G =>
        if G.queued = 0 ∧ G.running = 0 then
          { s with threads := ctxSet s.threads t { s.threads t with pc := .inCall } }
        else s
      | none => s
    | _ => s
  /- `ForwardExtractionTask::executeImpl` and `ForwardScanTask::executeImpl`, Task.cc:249-255, 267-273: the first line. -/
  | .take w g => match s.groups[g]? with
    | some G =>
      if (s.workers w).group = none ∧ 0 < G.queued then
        { s with
          groups := s.groups.set g { G with queued := G.queued - 1, running := G.running + 1 }
          workers := ctxSet s.workers w ⟨some g, (s.threads G.owner).ctx, G.call⟩ }
      else s
    | none => s
  /- The same: `forwardExtract` or `forwardScan`. -/
  | .forward w => match (s.workers w).group with
    | some _ => { s with sent := s.sent ++ [⟨(s.workers w).ctx, (s.workers w).call⟩] }
    | none => s
  | .done w => match (s.workers w).group with
    | some g => match s.groups[g]? with
      | some G =>
        { s with
          groups := s.groups.set g { G with running := G.running - 1 }
          workers := ctxSet s.workers w { s.workers w with group := none } }
      | none => s
    | none => s
  /- `Metrics::report`, Metrics.cc:47-74, from GribJumpUser.cc:62. -/
  | .report t =>
    if (s.threads t).pc = .inCall then { s with lines := s.lines ++ [⟨(s.threads t).ctx, (s.threads t).call⟩] } else s
  | .finish t =>
    if (s.threads t).pc = .inCall then { s with threads := ctxSet s.threads t { s.threads t with pc := .idle } } else s

def CtxSys.run (valid : String → Bool) (s : CtxSys) (es : List CtxEv) : CtxSys := es.foldl (CtxSys.step valid) s

end GJ
