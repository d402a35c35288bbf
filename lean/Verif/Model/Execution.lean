import Verif.Model.TaskGroup
import Verif.Model.Engine

/-!
# Calls on the work queue

`TaskGroup` models the work queue, the groups and the workers, and leaves open what a task does; `Engine` models what
tasks do to the items of a call, for any interleaving.  Here both run together: any number of calls, each with its own
items and tasks, share the queue and its workers (`/repo/src/gribjump/Engine.cc:153-179`, `Forwarder.cc:52-62`,
`Task.cc`, `/repo/src/gribjump/remote/WorkQueue.cc:50-76`).
-/

namespace GJ

/-- The queue, the groups and the workers, and for every call its items and tasks.  The tasks of a call are listed from
the beginning; those that were added to the group so far are the first `(t.grp g).tasks.length` of them. -/
structure XSys where
  t : TSys
  job : Nat → FSys

/-- What threads may do.  `work w`: worker `w` makes the next step of the task it is executing. -/
inductive XEv where
  | add (g : Nat)
  | push (g : Nat)
  | wait (g : Nat)
  | ret (g : Nat)
  | pop (w : Nat)
  | start (w : Nat)
  | work (w : Nat)
  deriving DecidableEq, Repr

/-- Replace the items and tasks of one call. -/
def setJob (job : Nat → FSys) (g : Nat) (f : FSys) : Nat → FSys := fun h => if h = g then f else job h

/-- What an event does to the groups (if anything) and to the items of the calls.  The loop of
`scheduleExtractionTasks` adds the tasks in order and then waits, Engine.cc:164-177.  A worker steps through
`executeImpl`; at its end comes `notify`, Task.cc:54-66; an exception is caught by the worker loop, which calls
`notifyError`, remote/WorkQueue.cc:56-71.  The environment `E g` of a call is indexed by the number of steps made for that
call. -/
def XSys.act (E : Nat → ExtEnv) (C : EngineConf) (s : XSys) : XEv → Res (Option TEv × (Nat → FSys))
  | .add g => .ok (if (s.t.grp g).tasks.length < (s.job g).tasks.length then some (.add g) else none, s.job)
  | .push g => .ok (some (.push g), s.job)
  | .wait g => .ok (if (s.t.grp g).tasks.length = (s.job g).tasks.length then some (.wait g) else none, s.job)
  | .ret g => .ok (some (.ret g), s.job)
  | .pop w => .ok (some (.pop w), s.job)
  | .start w => .ok (some (.start w), s.job)
  | .work w => match s.t.workers[w]? with
    | some (.running g j) =>
      let f := s.job g
      match f.tasks[j]? with
      | none => undef
      | some T =>
        if T.pc = .finished then .ok (some (.finish w), s.job)
        else match T.step (E g) C f.time f.items with
          | .ok (m, T') =>
            .ok (none, setJob s.job g { f with items := m, tasks := f.tasks.set j T', time := f.time + 1 })
          | .error .ub => undef
          | .error (.exn _) =>
            .ok (some (.fail w "error"), setJob s.job g
              { f with tasks := f.tasks.set j { T with pc := .failed }, errors := f.errors ++ ["error"],
                       time := f.time + 1 })
    | _ => .ok (none, s.job)

/-- The step of the groups, if there is one. -/
def TSys.stepIf (s : TSys) : Option TEv → Res TSys
  | none => .ok s
  | some e => s.step e

def XSys.step (E : Nat → ExtEnv) (C : EngineConf) (s : XSys) (e : XEv) : Res XSys := do
  let (a, job) ← s.act E C e
  let t ← s.t.stepIf a
  .ok ⟨t, job⟩

def XSys.run (E : Nat → ExtEnv) (C : EngineConf) : XSys → List XEv → Res XSys
  | s, [] => .ok s
  | s, e :: es => do
    let s' ← s.step E C e
    s'.run E C es

/-- `n` idle workers; call `g` has the items and tasks `P g`. -/
def XSys.init (n : Nat) (P : Nat → ItemMap × List FTask) : XSys :=
  ⟨TSys.init n, fun g => ⟨(P g).1, (P g).2, [], 0⟩⟩

/-- The tasks of an extraction, Engine.cc:153-176, Forwarder.cc:52-60. -/
def plannedTasks (C : EngineConf) (forward : Bool) (m : ItemMap) (fm : KeyMap) : Res (List FTask) :=
  if forward then do
    let sm ← serverFileMap C m fm
    .ok (sm.map fun e => ⟨.forward e.1 e.2, .fresh⟩)
  else localTasks C m false fm

/-- A call up to its tasks: `LocalGribJump::extract` and `Engine::extract`, LocalGribJump.cc:122-123,
Engine.cc:181-192.  Result: the requests as rewritten, the items, the tasks. -/
def callStart (E : ExtEnv) (C : EngineConf) (rs : List ExRequest) : Res (List ExRequest × ItemMap × List FTask) := do
  let (rs', u, m) ← buildRequestMap C.ignoreYearMonth rs
  let listing ← E.list u
  let (m, fm) ← fileMap C listing m
  let ts ← plannedTasks C C.forward m fm
  .ok (rs', m, ts)

/-- A call after its tasks: Engine.cc:198-204, LocalGribJump.cc:124-129. -/
def callEnd (rs : List ExRequest) (m : ItemMap) (errors : List String) : Res (List WireResult) :=
  if errors ≠ [] then throwExn .seriousBug
  else do
    cassert (decide ((collectResults m).length = rs.length))
    collectLoop rs (collectResults m)

/-- A call by paths up to its tasks, LocalGribJump.cc:132-133, Engine.cc:207-225. -/
def pathStart (C : EngineConf) (rs : List PathReq) : Res (ItemMap × List FTask) := do
  match rs with
  | [] => undef
  | r :: _ => do
    let ts ← plannedTasks C (!(decide (r.host = "") && decide (r.port = 0))) (buildPathMap rs)
      (fileMapFromPaths (buildPathMap rs))
    .ok (buildPathMap rs, ts)

end GJ
