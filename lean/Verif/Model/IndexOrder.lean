import Verif.Model.CacheSystem
import Verif.Model.Scan

/-!
# The order of the entries of an index, and the tools that read and write indexes

`IndexFile::map_` is a `std::map<eckit::Offset, …>` and `InfoCache::stagedFiles_` a `std::map<std::string, …>`: both
are iterated in the order of their keys (InfoCache.h:106, 90).  `Model/InfoCache.lean` iterates them in the order of
insertion.  Here the three loops over them (`encode`, `appendToFile`, `InfoCache::flush`) run in the order of the
keys; everything else is taken over unchanged.  Also the tools `gribjump-dump-info` and `gribjump-scan`.
-/

namespace GJ

/-- A map of entries as `std::map` iterates it: by offset, InfoCache.h:106. -/
def inOrder (m : InfoMap) : InfoMap := isort (fun a b => decide (a.1 ≤ b.1)) m

/-- Staged files as `std::map` iterates them: by path, InfoCache.h:90. -/
def byPath (st : AMap String InfoMap) : AMap String InfoMap := isort (fun a b => decide (a.1 ≤ b.1)) st

/-- `IndexFile::write`, InfoCache.cc:392-403, with the loop of `encode`, 324-329, by offset. -/
def writeSorted (fs : FS) (path : String) (m : InfoMap) : Res FS := writeIndex fs path (inOrder m)

/-- `IndexFile::appendToFile`, InfoCache.cc:355-374, with its loop by offset. -/
def appendSorted (fs : FS) (path : String) (m : InfoMap) : Res FS := appendIndex fs path (inOrder m)

/-- `IndexFile::flush`, InfoCache.cc:405-413. -/
def flushSorted (append : Bool) (fs : FS) (path : String) (m : InfoMap) : Res FS :=
  if append then appendSorted fs path m else writeSorted fs path m

/-- The loop of `InfoCache::flush`, InfoCache.cc:201-203. -/
def flushSortedLoop (append : Bool) : FS → AMap String InfoMap → Res FS
  | fs, [] => .ok fs
  | fs, (path, m) :: rest => do
    let fs' ← flushSorted append fs path m
    flushSortedLoop append fs' rest

/-- `InfoCache::flush`, InfoCache.cc:199-205. -/
def Cache.flushO (c : Cache) (append : Bool) : Res Cache := do
  let fs ← flushSortedLoop append c.fs (byPath c.staged)
  .ok { c with fs := fs, staged := [] }

/-- The write at the end of a scan, InfoCache.cc:248-250 and 271-273. -/
def Cache.scanCommitO (c : Cache) (path : String) : Option (Nat × InfoMap) → Res (Nat × Cache)
  | none => .ok (0, c)
  | some (n, m) => do
    let fs ← writeSorted c.fs (c.mode.indexPath path) m
    .ok (n, { c with fs := fs })

/-- `scan(path, offsets)`, InfoCache.cc:212-251. -/
def Cache.scanO (W : World) (c : Cache) (path : String) (offsets : List Nat) : Res (Nat × Cache) := do
  let p ← c.scanPlan W path offsets
  c.scanCommitO path p

/-- Several scans, one after the other, of one file: the state left. -/
def Cache.scansO (W : World) (path : String) : Cache → List (List Nat) → Res Cache
  | c, [] => .ok c
  | c, os :: rest => do
    let (_, c) ← c.scanO W path os
    c.scansO W path rest

/-- One step of the cache under concurrent use (`Sys.step`), with entries in the order of their keys. -/
def Sys.stepO (s : Sys) : CEv → Res Sys
  | .commit k => match s.scans[k]? with
    | none => .ok s
    | some (path, p) => do
      let (_, c) ← s.c.scanCommitO path p
      .ok { s with c := c, scans := s.scans.eraseIdx k }
  | .flush append => do
    let c ← s.c.flushO append
    .ok { s with c := c }
  | e => s.step e

def Sys.runO : Sys → List CEv → Res Sys
  | s, [] => .ok s
  | s, e :: es => do
    let s' ← s.stepO e
    s'.runO es

/-! ## gribjump-dump-info -/

/-- The loop of `IndexFile::print`, InfoCache.cc:444-446: every entry is dereferenced. -/
def printEntries : InfoMap → Res (List (Nat × Info))
  | [] => .ok []
  | (_, none) :: _ => undef
  | (o, some i) :: rest => do
    let tl ← printEntries rest
    .ok ((o, i) :: tl)

/-- What is printed of one index: its path, the number of entries, and the entries.  The text of a line is a function of
the offset and the entry (JumpInfo.cc:156-173). -/
structure Dumped where
  path : String
  count : Nat
  entries : List (Nat × Info)
  deriving DecidableEq

/-- `IndexFile::print`, InfoCache.cc:441-447. -/
def printIndex (path : String) (m : InfoMap) : Res Dumped := do
  let es ← printEntries (inOrder m)
  .ok ⟨path, m.length, es⟩

/-- `DumpInfo::execute`, gribjump-dump-info.cc:40-49: what is printed, and how the tool ends. -/
def dumpFiles (fs : FS) : List String → List Dumped × Res Unit
  | [] => ([], .ok ())
  | p :: ps =>
    match fs.find p with
    | none => ([], throwExn .userError)
    | some _ =>
      match loadIndex fs p with
      | .error e => ([], .error e)
      | .ok m =>
        match printIndex p m with
        | .error e => ([], .error e)
        | .ok d => (d :: (dumpFiles fs ps).1, (dumpFiles fs ps).2)

/-! ## gribjump-scan -/

/-- What the tool calls: reading a file, `MarsParser`, `MarsExpansion` and `FDBToolRequest::requestsFromString`. -/
structure ScanToolEnv where
  /-- the text of a file, if it can be opened -/
  text : String → Option Str
  parse : Str → Res (List String)
  expand : List String → Res (List String)
  fromString : Bool → String → Res (List String)

/-- The command line; an option not given is `none`. -/
structure ScanArgs where
  raw : Option Bool
  byfiles : Option Bool
  file : Option String
  positional : List String

/-- The requests, gribjump-scan.cc:58-101.  A file that cannot be opened sets `failbit`, but `bad()` tests `badbit`, so
`ReadError` is not thrown and the parser is given a stream with nothing in it. -/
def scanToolRequests (T : ScanToolEnv) (a : ScanArgs) : Res (List String) :=
  let raw := a.raw.getD false
  let file := a.file.getD ""
  if a.positional ≠ [] ∧ file ≠ "" then throwExn .userError
  else if file ≠ "" then do
    let parsed ← T.parse ((T.text file).getD [])
    if raw then .ok parsed else T.expand parsed
  else do
    let parsed ← a.positional.mapM (T.fromString raw)
    .ok parsed.flatten

/-- `Scan::execute`, gribjump-scan.cc:56-105. -/
def toolScan (E : ScanEnv) (C : ScanConf) (c : Cache) (T : ScanToolEnv) (a : ScanArgs) (sched : List ScanEv) :
    Res (Nat × Cache) := do
  let rs ← scanToolRequests T a
  apiScan E C c rs (a.byfiles.getD false) sched

end GJ
