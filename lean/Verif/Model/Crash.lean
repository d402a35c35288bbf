import Verif.Model.InfoCache

/-!
# Writing an index file, step by step

The system calls behind `IndexFile::write` and `appendToFile`
(`/repo/src/gribjump/info/InfoCache.cc:348-403`).  The process may stop between any two of them.
Data that was written stays written (the operating system does not crash); `rename` is atomic.
Writing is one token at a time; larger writes only remove crash points.
-/

namespace GJ

/-- A change to the file system. -/
inductive FsOp where
  /-- open for writing: creates or truncates -/
  | create (p : String)
  /-- append one token -/
  | put (p : String) (t : Tok)
  | rename (p q : String)
  deriving DecidableEq, Repr

def FsOp.apply (fs : FS) : FsOp → FS
  | .create p => fs.set p []
  | .put p t => fs.set p ((fs.find p).getD [] ++ [t])
  | .rename p q => match fs.find p with
    | none => fs
    | some c => AMap.set (AMap.erase fs p) q c

def runOps (fs : FS) (ops : List FsOp) : FS := ops.foldl FsOp.apply fs

/-- `write`, InfoCache.cc:392-403: `tmp` is the unique name. -/
def writeOps (path tmp : String) (toks : List Tok) : List FsOp :=
  .create tmp :: (toks.map (.put tmp) ++ [.rename tmp path])

/-- `appendToFile` when the file exists, InfoCache.cc:363-373. -/
def appendOps (path : String) (toks : List Tok) : List FsOp := toks.map (.put path)

/-- Several threads writing the same index at the same time (`scan` runs in worker threads and takes
no lock, InfoCache.cc:214-215): each has its own list of remaining steps; the schedule says who moves.
A finished or absent thread does nothing. -/
def runWriters : FS → List (List FsOp) → List Nat → FS
  | fs, _, [] => fs
  | fs, rem, i :: sched =>
    match rem[i]? with
    | some (op :: ops) => runWriters (op.apply fs) (rem.set i ops) sched
    | _ => runWriters fs rem sched

end GJ
