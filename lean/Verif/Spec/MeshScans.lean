import Verif.Model.Mesh
import Verif.Spec.Scans

/-!
# What scans at several processes have done
-/

namespace GJ
open Spec

/-- In the history `es` from `st`, the processes were, all together, in state `Y`, then or later in `Z`. -/
def Mesh.Passed (X : Mesh) (st : MeshSys) (es : List NetEv) (Y Z : MeshSys) : Prop :=
  ∃ es1 es2 es3, es = es1 ++ es2 ++ es3 ∧ X.run st es1 = .ok Y ∧ X.run Y es2 = .ok Z

/-- While a worker of process `a` executed task `j` of scan `g`, `n` of the messages of the file had no entry in the index of
process `a`; at a moment not before that, and still in the execution of the task, all of them had one. -/
def Mesh.FileCounted (X : Mesh) (st : MeshSys) (es : List NetEv) (a g j : Nat) (path : String) (os : List Nat) (n : Nat) :
    Prop :=
  ∃ Y Z l, X.Passed st es Y Z ∧ Executing (Y a) g j ∧ Executing (Z a) g j ∧
    scanned (X.net.site a).reader (X.net.site a).offs (Y a).srv.svc path os = .ok l ∧
    n = unindexed (Y a).srv.svc path l ∧ ∀ o ∈ l, (Z a).srv.svc.sys.c.indexed path o ≠ none

/-- What a finished task has done.  One for other servers' files: before a moment in its execution, the process it was sent to
has counted all of them, each in a task of its own. -/
def Mesh.TaskCounted (X : Mesh) (st : MeshSys) (es : List NetEv) (a g j n : Nat) : ScanKind → Prop
  | .file path os => X.FileCounted st es a g j path os n
  | .forward server files => ∃ (h : Nat) (es1 es2 : List NetEv) (Y : MeshSys) (ms : List Nat), es = es1 ++ es2 ∧
      X.run st es1 = .ok Y ∧ Executing (Y a) g j ∧ ms.length = files.length ∧ n = ms.sum ∧
      ∀ (i : Nat) (file : String × List Nat) (m : Nat), files[i]? = some file → ms[i]? = some m →
        X.FileCounted st es1 (X.net.host server) h i file.1 file.2 m

end GJ
