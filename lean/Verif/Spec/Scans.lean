import Verif.Model.Mixed
import Verif.Props.C18

/-!
# What a scan of a file is about

Given with offsets, these; given without, all messages found in the file.
-/

namespace GJ.Spec

/-- The offsets that a scan of a file concerns, at this moment. -/
def scanned (R : Reader UInt64) (offs : List UInt8 → Res (List Nat)) (y : Svc UInt64) (path : String) (os : List Nat) :
    Res (List Nat) :=
  if os = [] then (diskWorld R offs y.disk).offsetsOf path else .ok os

/-- How many of these offsets have no entry in the index on disk. -/
def unindexed (y : Svc UInt64) (path : String) (l : List Nat) : Nat :=
  (l.filter fun o => (y.sys.c.indexed path o).isNone).length

/-- The messages that a scan of a file concerns can be found and read, at this moment. -/
def Readable (R : Reader UInt64) (offs : List UInt8 → Res (List Nat)) (y : Svc UInt64) (path : String) (os : List Nat) :
    Prop :=
  ∃ l, scanned R offs y path os = .ok l ∧ ∀ o ∈ l, ∃ i, (diskWorld R offs y.disk).data path o = .ok i

/-- A worker executes the task. -/
def Executing (s : Mix) (g j : Nat) : Prop := ∃ w : Nat, s.srv.x.t.workers[w]? = some (.running g j)

/-- What a finished task of a scan has done.  For a file: when a worker looked, `n` of the offsets had no entry in the index;
at a moment not before that, and still in the execution of the task, all of them had one.  `Q y z`: the process was in state
`y`, then or later in `z`. -/
def ScanDone (M : MixSite) (Q : Mix → Mix → Prop) (g j : Nat) (n : Nat) : ScanKind → Prop
  | .file path os => ∃ y z l, Q y z ∧ Executing y g j ∧ Executing z g j ∧
      scanned M.site.reader M.site.offs y.srv.svc path os = .ok l ∧ n = unindexed y.srv.svc path l ∧
      ∀ o ∈ l, z.srv.svc.sys.c.indexed path o ≠ none
  | .forward server files => ∃ t, M.forward g t server files = .ok n

/-- In the history `es` from `start`, the process was in state `y`, then or later in `z`. -/
def Passed (M : MixSite) (start : Mix) (es : List SrvEv) (y z : Mix) : Prop :=
  ∃ es1 es2 es3, es = es1 ++ es2 ++ es3 ∧ start.run M es1 = .ok y ∧ y.run M es2 = .ok z

end GJ.Spec
