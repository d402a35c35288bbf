import Verif.Model.Shared

/-!
# The caches of several processes over the same files

A server, `gribjump-scan-files` beside it, a process that archives through the plugin: each has a metadata cache of its own, in
memory, and all have the same data files and index files (`/repo/src/gribjump/info/InfoCache.cc:48-77`, the configuration says
where).  A step of one changes its memory, and possibly the files; the others find the files as they are then.  `Model/Shared.lean`
has whole servers; this has their caches, and the plugin.

Appending to an index file is one step, though it is not atomic: the code says that it "does not support concurrent writes to the same
file from different processes" (InfoCache.cc:357), and whoever reads in the middle finds an incomplete entry (`Model/Crash.lean`).
-/

namespace GJ

inductive GEv where
  /-- a step of process `i`: of its cache, of a client of it, or of somebody else who writes to the files -/
  | act (i : Nat) (e : SEv)
  /-- process `i` ends, at any moment between two steps, and is started again: InfoCache.cc:48-77, with nothing in memory -/
  | again (i : Nat) (lazy : Bool) (cap : Nat)

/-- One step.  The files as the process leaves them are what all the others see (`getIndexFile`,
InfoCache.cc:87-93, makes a new `IndexFile` every time). -/
def Together.step (R : Reader UInt64) (offs : List UInt8 → Res (List Nat)) (s : Nat → Svc UInt64) : GEv → Res (Nat → Svc UInt64)
  | .act i e => do
    let t ← (s i).step R offs e
    .ok fun j => if j = i then t else (s j).over R offs t.disk t.sys.c.fs
  | .again i lazy cap =>
    .ok fun j => if j = i then Svc.start R offs (s i).disk (s i).sys.c.mode lazy cap (s i).sys.c.fs else s j

def Together.run (R : Reader UInt64) (offs : List UInt8 → Res (List Nat)) (s : Nat → Svc UInt64) : List GEv → Res (Nat → Svc UInt64)
  | [] => .ok s
  | e :: es => do
    let s' ← Together.step R offs s e
    Together.run R offs s' es

/-- All are started over the same files; each may build metadata on demand or not, and has a memory of its own size. -/
def Together.start (R : Reader UInt64) (offs : List UInt8 → Res (List Nat)) (d : Disk) (mode : CacheMode) (lazy : Nat → Bool)
    (cap : Nat → Nat) (fs : FS) : Nat → Svc UInt64 := fun i => Svc.start R offs d mode (lazy i) (cap i) fs

end GJ
