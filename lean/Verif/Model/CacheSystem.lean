import Verif.Model.InfoCache

/-!
# The metadata cache under concurrent use

Lookups, scans, insertions and flushes from several threads.  `getCached` and `putCache` each run under
`infomutex_` (InfoCache.cc:109, 122), so a lookup is two atomic steps with the index and data files read in
between; a scan reads the index first and writes it later (InfoCache.cc:214-215: no lock).  Data files may
grow.  Appending to an index is one step (`InfoCache.cc:357` excludes concurrent appends and reads).
-/

namespace GJ

/-- The first part of `scan(path, offsets)`, InfoCache.cc:219-246: everything but the write. -/
def Cache.scanPlan (W : World) (c : Cache) (path : String) (offsets : List Nat) :
    Res (Option (Nat × InfoMap)) := do
  let m ← loadIndex c.fs (c.mode.indexPath path)
  let new := offsets.filter fun o => (indexFind m o).isNone
  if new = [] then .ok none
  else do
    let new := isort (fun a b => decide (a ≤ b)) new
    let infos ← extractInfos W path new
    .ok (some (infos.length, insertAll m (new.zip infos)))

/-- The first part of `scan(path, merge)`, InfoCache.cc:253-269: everything but the write. -/
def Cache.scanFilePlan (W : World) (c : Cache) (path : String) (merge : Bool) :
    Res (Option (Nat × InfoMap)) :=
  if merge then do
    let os ← W.offsetsOf path
    c.scanPlan W path os
  else do
    let m ← loadIndex c.fs (c.mode.indexPath path)
    let os ← W.offsetsOf path
    let infos ← extractInfos W path os
    .ok (some (infos.length, insertAll m (os.zip infos)))

/-- The write, InfoCache.cc:248-250 and 271-273. -/
def Cache.scanCommit (c : Cache) (path : String) : Option (Nat × InfoMap) → Res (Nat × Cache)
  | none => .ok (0, c)
  | some (n, m) => do
    let fs ← writeIndex c.fs (c.mode.indexPath path) m
    .ok (n, { c with fs := fs })

/-- A lookup between `getCached` and the rest. -/
structure Lookup where
  path : String
  offsets : List Nat
  found : AMap Nat Info

/-- The outcome of a lookup. -/
structure Answer where
  path : String
  offsets : List Nat
  result : Res (List Info)

/-- The cache, the data files, what threads are doing, and the answers so far. -/
structure Sys where
  W : World
  c : Cache
  lookups : List Lookup
  scans : List (String × Option (Nat × InfoMap))
  answers : List Answer

inductive CEv where
  | lookup (path : String) (offsets : List Nat)
  | answer (k : Nat)
  | scan (path : String) (offsets : List Nat)
  | scanFile (path : String) (merge : Bool)
  | commit (k : Nat)
  /-- the plugin inserts the metadata of a message it has just seen (InfoAggregator.cc:75, 129) -/
  | insert (path : String) (offset : Nat)
  | flush (append : Bool)
  | clear
  /-- another process that has the same index files rewrites some of them, or appends to them: InfoCache.cc:199-205,
  248-250, 271-273 of that process, where all that matters here is for which messages of which files it writes entries -/
  | elsewhere (append : Bool) (writes : List (String × List Nat))
  /-- data files change -/
  | grow (W' : World)

/-- What another process writes: `IndexFile::flush` or `write` for each of these files, InfoCache.cc:392-413, with the
metadata of these messages.  Nobody has metadata of what cannot be read. -/
def writtenElsewhere (W : World) (mode : CacheMode) (append : Bool) : FS → List (String × List Nat) → Res FS
  | fs, [] => .ok fs
  | fs, (path, offsets) :: rest => match extractInfos W path offsets with
    | .ok infos => do
      let fs' ← flushIndex append fs (mode.indexPath path) ((offsets.zip infos).map fun x => (x.1, some x.2))
      writtenElsewhere W mode append fs' rest
    | .error _ => writtenElsewhere W mode append fs rest

/-- The rest of `get`, InfoCache.cc:132-182. -/
def Sys.finish (s : Sys) (k : Nat) (l : Lookup) : Res Sys :=
  match resolve s.W s.c.lazy s.c.mode s.c.fs l.path l.offsets l.found with
  | .ok infos => do
    let c ← putCache s.c l.path (l.offsets.zip infos)
    .ok { s with c := c, lookups := s.lookups.eraseIdx k,
                 answers := s.answers ++ [⟨l.path, l.offsets, .ok infos⟩] }
  | .error .ub => undef
  | .error (.exn e) =>
    .ok { s with lookups := s.lookups.eraseIdx k,
                 answers := s.answers ++ [⟨l.path, l.offsets, throwExn e⟩] }

/-- A planned scan is remembered; one that throws leaves no trace. -/
def Sys.planned (s : Sys) (path : String) : Res (Option (Nat × InfoMap)) → Res Sys
  | .ok p => .ok { s with scans := s.scans ++ [(path, p)] }
  | .error .ub => undef
  | .error (.exn _) => .ok s

/-- One step.  Undefined behaviour anywhere is undefined behaviour of the process. -/
def Sys.step (s : Sys) : CEv → Res Sys
  | .lookup path offsets => do
    let (found, c) ← getCached s.c path offsets
    .ok { s with c := c, lookups := s.lookups ++ [⟨path, offsets, found⟩] }
  | .answer k => match s.lookups[k]? with
    | none => .ok s
    | some l => s.finish k l
  | .scan path offsets => s.planned path (s.c.scanPlan s.W path offsets)
  | .scanFile path merge => s.planned path (s.c.scanFilePlan s.W path merge)
  | .commit k => match s.scans[k]? with
    | none => .ok s
    | some (path, p) => do
      let (_, c) ← s.c.scanCommit path p
      .ok { s with c := c, scans := s.scans.eraseIdx k }
  | .insert path offset => match s.W.data path offset with
    | .ok i => .ok { s with c := s.c.insert path offset i }
    | .error _ => .ok s
  | .flush append => do
    let c ← s.c.flush append
    .ok { s with c := c }
  | .clear => .ok { s with c := s.c.clear }
  | .elsewhere append writes => do
    let fs ← writtenElsewhere s.W s.c.mode append s.c.fs writes
    .ok { s with c := { s.c with fs := fs } }
  | .grow W' => .ok { s with W := W' }

def Sys.run : Sys → List CEv → Res Sys
  | s, [] => .ok s
  | s, e :: es => do
    let s' ← s.step e
    s'.run es

/-- A process starting with an empty memory cache over existing index files. -/
def Sys.start (W : World) (mode : CacheMode) (lazy : Bool) (cap : Nat) (fs : FS) : Sys :=
  { W := W, c := { mode := mode, lazy := lazy, mem := .empty cap, staged := [], fs := fs },
    lookups := [], scans := [], answers := [] }

end GJ
