import Verif.Model.Map

/-!
# The work queue

Models `/repo/src/gribjump/remote/WorkQueue.{h,cc}`.  Every operation runs under `mtx_`, so a concurrent
execution is a sequence of these operations.  Groups and tasks are pointers in the code; here they are
values of any type.
-/

namespace GJ

/-- Members of `WorkQueue`, WorkQueue.h:72-85. -/
structure WQ (G T : Type) where
  queues : AMap G (List T)
  rr : List G
  closed : Bool

/-- What `popNext` does to the calling worker. -/
inductive Popped (G T : Type) where
  /-- waits on the condition variable -/
  | blocked
  /-- returns false: the worker stops -/
  | stop
  /-- returns true with this task -/
  | task (g : G) (t : T)
  deriving DecidableEq

namespace WQ

variable {G T : Type} [DecidableEq G]

def empty : WQ G T := ⟨[], [], false⟩

/-- `push`, WorkQueue.cc:110-126 (the pointers are not null). -/
def push (q : WQ G T) (g : G) (t : T) : Res (WQ G T) := do
  cassert (!q.closed)
  match q.queues.find g with
  | none => .ok { q with queues := q.queues.set g [t], rr := q.rr ++ [g] }
  | some ts => .ok { q with queues := q.queues.set g (ts ++ [t]) }

/-- `popNext`, WorkQueue.cc:78-108. -/
def pop (q : WQ G T) : Res (Popped G T × WQ G T) :=
  match q.rr with
  | [] => .ok (if q.closed then .stop else .blocked, q)
  | g :: rr =>
    match q.queues.find g with
    | none => throwExn .assertFailed
    | some [] => throwExn .assertFailed
    | some [t] => .ok (.task g t, { q with queues := q.queues.erase g, rr := rr })
    | some (t :: ts) => .ok (.task g t, { q with queues := q.queues.set g ts, rr := rr ++ [g] })

/-- The destructor's critical section, WorkQueue.cc:31-34. -/
def close (q : WQ G T) : WQ G T := { q with closed := true }

end WQ

/-- An operation on the queue by some thread. -/
inductive WQOp (G T : Type) where
  | push (g : G) (t : T)
  | pop
  | close

/-- The queue and what happened so far: accepted submissions, tasks handed out, and the outcome of the last
operation of each kind. -/
structure WQRun (G T : Type) where
  q : WQ G T
  submitted : List (G × T)
  handed : List (G × T)

namespace WQRun

variable {G T : Type} [DecidableEq G]

def start : WQRun G T := ⟨.empty, [], []⟩

/-- One operation.  A submission to a closed queue throws in the submitter and changes nothing; a failed
assertion inside `popNext` is an error of the run. -/
def step (r : WQRun G T) : WQOp G T → Res (WQRun G T)
  | .push g t => match r.q.push g t with
    | .ok q => .ok { r with q := q, submitted := r.submitted ++ [(g, t)] }
    | .error _ => .ok r
  | .pop => do
    let (p, q) ← r.q.pop
    match p with
    | .task g t => .ok { r with q := q, handed := r.handed ++ [(g, t)] }
    | _ => .ok { r with q := q }
  | .close => .ok { r with q := r.q.close }

def run : WQRun G T → List (WQOp G T) → Res (WQRun G T)
  | r, [] => .ok r
  | r, o :: os => do
    let r' ← r.step o
    r'.run os

end WQRun

/-! ## Wake-ups -/

/-- Workers and pending notifications: `push` releases the lock before `notify_one` (WorkQueue.cc:114-125), a
worker that finds nothing sleeps in `cv_.wait` (WorkQueue.cc:80). -/
structure Wake where
  queued : Nat
  awake : Nat
  asleep : Nat
  /-- submissions that have not yet notified -/
  notifying : Nat

inductive WakeStep : Wake → Wake → Prop where
  | push (s : Wake) : WakeStep s { s with queued := s.queued + 1, notifying := s.notifying + 1 }
  /-- `notify_one` with a sleeper -/
  | notify (s : Wake) (a n : Nat) (ha : s.asleep = a + 1) (hn : s.notifying = n + 1) :
      WakeStep s { s with awake := s.awake + 1, asleep := a, notifying := n }
  /-- `notify_one` without a sleeper -/
  | notifyNone (s : Wake) (n : Nat) (ha : s.asleep = 0) (hn : s.notifying = n + 1) :
      WakeStep s { s with notifying := n }
  /-- an awake worker takes a task, runs it and comes back -/
  | take (s : Wake) (q : Nat) (ha : 0 < s.awake) (hq : s.queued = q + 1) : WakeStep s { s with queued := q }
  /-- an awake worker finds nothing and sleeps -/
  | sleep (s : Wake) (a : Nat) (ha : s.awake = a + 1) (hq : s.queued = 0) :
      WakeStep s { s with awake := a, asleep := s.asleep + 1 }
  /-- spurious wake-up -/
  | spurious (s : Wake) (a : Nat) (ha : s.asleep = a + 1) :
      WakeStep s { s with awake := s.awake + 1, asleep := a }

inductive WakeReach (n : Nat) : Wake → Prop where
  | start : WakeReach n ⟨0, n, 0, 0⟩
  | step {s s' : Wake} : WakeReach n s → WakeStep s s' → WakeReach n s'

end GJ
