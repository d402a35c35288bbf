import Verif.Model.WorkQueue

/-!
# Task groups and workers

Models `Task`, `TaskGroup` and `TaskReport` (`/repo/src/gribjump/Task.{h,cc}`), the worker loop
(`/repo/src/gribjump/remote/WorkQueue.cc:50-76`, `WorkItem.cc`), and the thread of a request, which adds tasks
to its group, waits, and destroys the group (`Engine.cc:153-179, 287-299`, `Forwarder.cc`).  Any number of
groups and workers.  Each step is atomic in the code: it runs under one lock or is one compare-and-exchange.
The status store of `notify`/`notifyError` (Task.cc:43-51), which happens just before the group's lock is
taken, is joined to the locked part: between the two the status is not `PENDING` either way, which is all
others test.  What a task does (`executeImpl`) is left open: it may succeed or throw.
-/

namespace GJ

/-- `Task::Status`, Task.h:32-38. -/
inductive TStat where
  | pending | executing | done | failed | cancelled
  deriving DecidableEq, Repr

/-- Where the thread of a request is. -/
inductive Phase where
  | enqueuing
  | waiting
  /-- `waitForTasks` has returned; the group is then destroyed -/
  | returned
  /-- an exception left the scope of the group, which is destroyed -/
  | gone
  deriving DecidableEq, Repr

/-- Members of `TaskGroup`, Task.h:150-163, and its thread. -/
structure Grp where
  tasks : List TStat
  nComplete : Nat
  errors : List String
  phase : Phase
  /-- the task added to `tasks_` and not yet to the work queue, Task.cc:125-131 -/
  pushing : Option Nat

def Grp.new : Grp := ⟨[], 0, [], .enqueuing, none⟩

/-- The group object exists. -/
def Grp.alive (x : Grp) : Bool := decide (x.phase = .enqueuing) || decide (x.phase = .waiting)

/-- Where a worker is. -/
inductive WPc where
  | idle
  /-- `popNext` returned this task -/
  | got (g t : Nat)
  /-- inside `executeImpl` -/
  | running (g t : Nat)
  deriving DecidableEq, Repr

/-- The process, with what happened so far. -/
structure TSys where
  q : WQ Nat Nat
  grp : Nat → Grp
  workers : List WPc
  started : List (Nat × Nat)
  completed : List (Nat × Nat)
  failures : List (Nat × String)

/-- Replace one group. -/
def TSys.setGrp (s : TSys) (g : Nat) (x : Grp) : TSys := { s with grp := fun h => if h = g then x else s.grp h }

def TSys.setWorker (s : TSys) (w : Nat) (p : WPc) : TSys := { s with workers := s.workers.set w p }

inductive TEv where
  | add (g : Nat)
  | push (g : Nat)
  | wait (g : Nat)
  | ret (g : Nat)
  /-- the thread of a request throws before waiting (Engine.cc:170) -/
  | abandon (g : Nat)
  | pop (w : Nat)
  | start (w : Nat)
  | finish (w : Nat)
  | fail (w : Nat) (msg : String)
  deriving DecidableEq, Repr

/-- `cancel`, Task.cc:68-72. -/
def cancelOne : TStat → TStat
  | .pending => .cancelled
  | x => x

/-- `enqueueTask`, first half, Task.cc:126-129. -/
def stepAdd (s : TSys) (g : Nat) : TSys :=
  let x := s.grp g
  if x.phase = .enqueuing ∧ x.pushing = none then
    s.setGrp g { x with tasks := x.tasks ++ [.pending], pushing := some x.tasks.length }
  else s

/-- `enqueueTask`, second half, Task.cc:131. -/
def stepPush (s : TSys) (g : Nat) : Res TSys :=
  let x := s.grp g
  match x.pushing with
  | none => .ok s
  | some t => do
    let q ← s.q.push g t
    .ok ({ s with q := q }.setGrp g { x with pushing := none })

/-- Start of `waitForTasks`, Task.cc:136-138. -/
def stepWait (s : TSys) (g : Nat) : TSys :=
  let x := s.grp g
  if x.phase = .enqueuing ∧ x.pushing = none then
    s.setGrp g { x with phase := if x.tasks = [] then .gone else .waiting }
  else s

/-- End of `waitForTasks`, Task.cc:147-149. -/
def stepRet (s : TSys) (g : Nat) : TSys :=
  let x := s.grp g
  if x.phase = .waiting ∧ x.nComplete = x.tasks.length then s.setGrp g { x with phase := .returned }
  else s

/-- The thread of the request throws while enqueuing. -/
def stepAbandon (s : TSys) (g : Nat) : TSys :=
  let x := s.grp g
  if x.phase = .enqueuing ∧ x.pushing = none then s.setGrp g { x with phase := .gone } else s

/-- `popNext` by an idle worker. -/
def stepPop (s : TSys) (w : Nat) : Res TSys :=
  if s.workers[w]? = some .idle then do
    let (p, q) ← s.q.pop
    match p with
    | .task g t => .ok ({ s with q := q }.setWorker w (.got g t))
    | _ => .ok { s with q := q }
  else .ok s

/-- The compare-and-exchange of `execute`, Task.cc:57-62.  Touching a destroyed task is undefined. -/
def stepStart (s : TSys) (w : Nat) : Res TSys :=
  match s.workers[w]? with
  | some (.got g t) =>
    let x := s.grp g
    if x.alive then
      if x.tasks[t]? = some .pending then
        .ok (({ s with started := s.started ++ [(g, t)] }.setGrp g
          { x with tasks := x.tasks.set t .executing }).setWorker w (.running g t))
      else .ok (s.setWorker w .idle)
    else undef
  | _ => .ok s

/-- `notify`, Task.cc:43-46, 76-91. -/
def stepFinish (s : TSys) (w : Nat) : Res TSys :=
  match s.workers[w]? with
  | some (.running g t) =>
    let x := s.grp g
    if x.alive then
      .ok (({ s with completed := s.completed ++ [(g, t)] }.setGrp g
        { x with tasks := x.tasks.set t .done, nComplete := x.nComplete + 1 }).setWorker w .idle)
    else undef
  | _ => .ok s

/-- An exception in `executeImpl`: `notifyError`, Task.cc:48-51, 101-111, with `cancelOnFirstError`. -/
def stepFail (s : TSys) (w : Nat) (msg : String) : Res TSys :=
  match s.workers[w]? with
  | some (.running g t) =>
    let x := s.grp g
    if x.alive then
      .ok (({ s with failures := s.failures ++ [(g, msg)] }.setGrp g
        { x with tasks := (x.tasks.set t .failed).map cancelOne, nComplete := x.nComplete + 1,
                 errors := x.errors ++ [msg] }).setWorker w .idle)
    else undef
  | _ => .ok s

def TSys.step (s : TSys) : TEv → Res TSys
  | .add g => .ok (stepAdd s g)
  | .push g => stepPush s g
  | .wait g => .ok (stepWait s g)
  | .ret g => .ok (stepRet s g)
  | .abandon g => .ok (stepAbandon s g)
  | .pop w => stepPop s w
  | .start w => stepStart s w
  | .finish w => stepFinish s w
  | .fail w msg => stepFail s w msg

def TSys.run : TSys → List TEv → Res TSys
  | s, [] => .ok s
  | s, e :: es => do
    let s' ← s.step e
    s'.run es

/-- `n` idle workers, no request yet. -/
def TSys.init (n : Nat) : TSys :=
  { q := .empty, grp := fun _ => .new, workers := List.replicate n .idle,
    started := [], completed := [], failures := [] }

/-- `TaskReport::raiseErrors`, Task.cc:171-180. -/
def raiseErrors (errors : List String) : Res Unit :=
  if 0 < errors.length then throwExn .seriousBug else .ok ()

end GJ
