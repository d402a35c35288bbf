import Verif.Model.Mesh

/-!
# Processes that share files, end at any moment, and are started again

Several processes may have the same data and index files, on a file system they share: servers of a cluster, the tool
`gribjump-scan-files` beside a server (`/repo/src/tools/gribjump-scan-files.cc`), or a server that was killed and its
successor.  Index files are where the configuration says (`/repo/src/gribjump/info/InfoCache.cc:48-77`), and no process locks
them against others: `IndexFile::write` moves a complete file into place (InfoCache.cc:392-403), and whatever had been
written meanwhile is gone.  Everything else a process has is in its memory.

A process that ends in the middle of several writes has made some of them: those, and writes of processes not listed here, are
the events `elsewhere` of `Whole`.  Appending to an index file (InfoCache.cc:355-374) is one step here; that a process can
end in the middle of that is in `Model/Crash.lean`.
-/

namespace GJ

/-- The processes, and for each one the others that have its files. -/
structure Shared where
  mesh : Mesh
  mates : Nat → List Nat

/-- A process that is to be started; one that runs; one that was killed. -/
inductive Life where
  | waiting
  | up
  | dead
  deriving DecidableEq, Repr

structure SharedSys where
  procs : MeshSys
  life : Nat → Life

inductive SharedEv where
  /-- a step of a process, or something that happens to its files or connections -/
  | net (e : NetEv)
  | boot (a : Nat)
  | kill (a : Nat)

/-- What is done by others. -/
def OEv.outside : OEv → Bool
  | .append _ _ | .elsewhere _ _ => true
  | _ => false

/-- The process whose step it is, or whose files it is about. -/
def NetEv.site : NetEv → Nat
  | .on a _ => a
  | .lost a _ => a

/-- It needs no process. -/
def NetEv.outside : NetEv → Bool
  | .on _ (.other o) => o.outside
  | _ => false

/-- A process that now sees these data files and index files. -/
def Svc.over (R : Reader UInt64) (offs : List UInt8 → Res (List Nat)) (s : Svc UInt64) (d : Disk) (fs : FS) : Svc UInt64 :=
  ⟨d, ⟨diskWorld R offs d, ⟨s.sys.c.mode, s.sys.c.lazy, s.sys.c.mem, s.sys.c.staged, fs⟩, s.sys.lookups, s.sys.scans,
    s.sys.answers⟩, s.picks⟩

def Mix.over (R : Reader UInt64) (offs : List UInt8 → Res (List Nat)) (s : Mix) (d : Disk) (fs : FS) : Mix :=
  ⟨⟨s.srv.x, s.srv.svc.over R offs d fs, s.srv.holders⟩, s.jobs, s.scanners⟩

/-- The files as process `a` left them are what all who have them see. -/
def Shared.share (X : Shared) (s : MeshSys) (a : Nat) : MeshSys := fun b =>
  if b ∈ X.mates a then
    (s b).over (X.mesh.net.site b).reader (X.mesh.net.site b).offs (s a).srv.svc.disk (s a).srv.svc.sys.c.fs
  else s b

/-- One step.  A process that does not run does nothing. -/
def Shared.step (X : Shared) (s : SharedSys) : SharedEv → Res SharedSys
  | .net e =>
    if e.outside = true ∨ s.life e.site = .up then do
      let t ← X.mesh.step s.procs e
      .ok ⟨X.share t e.site, s.life⟩
    else .ok s
  | .boot a => .ok (if s.life a = .waiting then ⟨s.procs, fun b => if b = a then .up else s.life b⟩ else s)
  | .kill a => .ok (if s.life a = .up then ⟨s.procs, fun b => if b = a then .dead else s.life b⟩ else s)

def Shared.run (X : Shared) : SharedSys → List SharedEv → Res SharedSys
  | s, [] => .ok s
  | s, e :: es => do
    let s' ← X.step s e
    X.run s' es

/-- All processes are to be started, over existing data and index files. -/
def Shared.start (X : Shared) (d : Nat → Disk) (mode : Nat → CacheMode) (lazy : Nat → Bool) (cap : Nat → Nat)
    (fs : Nat → FS) : SharedSys :=
  ⟨X.mesh.start d mode lazy cap fs, fun _ => .waiting⟩

end GJ
