import Verif.Model.Execution
import Verif.Model.Service

/-!
# A process at work

Everything that goes on at the same time in a process serving extractions: calls with their tasks on the shared work
queue (`Execution`), the metadata cache with its index files, and data files that grow (`Service`).  Workers look up
metadata in the cache they share, in two steps with other threads in between, and read the files as they are at that
moment (`/repo/src/gribjump/Task.cc:190-236`, `/repo/src/gribjump/info/InfoCache.cc:107-182`).
-/

namespace GJ

/-- What a process works with: its configuration, how metadata is read, how messages are found in a file, how values are
extracted from a file (Task.cc:231-233) and from the store behind it (Task.cc:291-320), and for every call what it lists
and what other servers answer (`list` and `forward`; the rest of `calls g` is not used). -/
structure Site where
  conf : EngineConf
  reader : Reader UInt64
  offs : List UInt8 → Res (List Nat)
  jump : List UInt8 → Nat → Info → List Interval → Res WireResult
  fetch : Uri → List Interval → Res WireResult
  calls : Nat → ExtEnv

/-- The queue, the calls and the workers; files and cache; the workers that are in the middle of a lookup, in the order of
`svc.sys.lookups`. -/
structure Srv where
  x : XSys
  svc : Svc UInt64
  holders : List Nat

/-- What other threads of the process, and other processes, do to the cache, the index files and the data files: scans
(InfoCache.cc:212-274), insertions and flushes by the plugin (InfoAggregator.cc:75-85, 129-135), `clear`
(InfoCache.cc:207-210), growth of files. -/
inductive OEv where
  | scan (path : String) (offsets : List Nat)
  | scanFile (path : String) (merge : Bool)
  | commit (k : Nat)
  | insert (path : String) (offset : Nat)
  | flush (append : Bool)
  | clear
  /-- another process rewrites index files, or appends to them -/
  | elsewhere (append : Bool) (writes : List (String × List Nat))
  | append (path : String) (bytes : List UInt8)

def OEv.on : OEv → SEv
  | .scan p os => .cache (.scan p os)
  | .scanFile p m => .cache (.scanFile p m)
  | .commit k => .cache (.commit k)
  | .insert p o => .cache (.insert p o)
  | .flush a => .cache (.flush a)
  | .clear => .cache .clear
  | .elsewhere a ws => .cache (.elsewhere a ws)
  | .append p b => .append p b

inductive SrvEv where
  /-- of the queue, a call or a worker -/
  | queue (e : XEv)
  | other (e : OEv)

/-- The file and the offsets for which worker `w` needs metadata next, if it is executing a task that extracts from a
file and has not begun: Task.cc:190-208. -/
def XSys.asking (x : XSys) (w : Nat) : Option (String × List Nat) :=
  match x.t.workers[w]? with
  | some (.running g j) => match (x.job g).tasks[j]? with
    | some ⟨.file fname ks, .fresh⟩ => some (fname, (sortKeys (x.job g).items ks).map (offsetOf (x.job g).items))
    | _ => none
  | _ => none

/-- Extraction from a file as it is. -/
def Site.jumpOn (p : Site) (d : Disk) (f : String) (o : Nat) (i : Info) (is : List Interval) : Res WireResult :=
  match d f with
  | none => throwExn .ioError
  | some file => p.jump file o i is

/-- What a task meets at one moment: the outcome of its lookup, the files as they are, the store and other servers. -/
def Site.env (p : Site) (d : Disk) (r : Res (List Info)) (g : Nat) : ExtEnv where
  list := (p.calls g).list
  infos := fun _ _ _ => r
  jump := fun _ f o i is => p.jumpOn d f o i is
  fetch := fun _ u is => p.fetch u is
  forward := (p.calls g).forward

/-- The outcome of the lookup that ended with a step of the cache. -/
def outcomeOf (before after : Svc UInt64) : Res (List Info) :=
  match after.sys.answers[before.sys.answers.length]? with
  | some a => a.result
  | none => undef

/-- The next step of worker `w`.  If its task needs metadata: first the entries in memory (`getCached`,
InfoCache.cc:107-118), in another step the index file, the data file and `putCache` (InfoCache.cc:132-182).  Otherwise
the next item (Task.cc:216-236). -/
def Srv.work (p : Site) (s : Srv) (w : Nat) : Res Srv :=
  match s.x.asking w with
  | none => do
    let x ← s.x.step (p.env s.svc.disk undef) p.conf (.work w)
    .ok ⟨x, s.svc, s.holders⟩
  | some (f, os) =>
    if w ∈ s.holders then do
      let svc ← s.svc.step p.reader p.offs (.cache (.answer (s.holders.idxOf w)))
      let x ← s.x.step (p.env s.svc.disk (outcomeOf s.svc svc)) p.conf (.work w)
      .ok ⟨x, svc, s.holders.eraseIdx (s.holders.idxOf w)⟩
    else do
      let svc ← s.svc.step p.reader p.offs (.cache (.lookup f os))
      .ok ⟨s.x, svc, s.holders ++ [w]⟩

/-- One step. -/
def Srv.step (p : Site) (s : Srv) : SrvEv → Res Srv
  | .queue (.work w) => s.work p w
  | .queue e => do
    let x ← s.x.step (p.env s.svc.disk undef) p.conf e
    .ok ⟨x, s.svc, s.holders⟩
  | .other e => do
    let svc ← s.svc.step p.reader p.offs e.on
    .ok ⟨s.x, svc, s.holders⟩

def Srv.run (p : Site) : Srv → List SrvEv → Res Srv
  | s, [] => .ok s
  | s, e :: es => do
    let s' ← s.step p e
    s'.run p es

/-- A process that has just started, over existing data and index files, with `n` workers; call `g` will have the items
and tasks `P g`. -/
def Srv.start (p : Site) (n : Nat) (P : Nat → ItemMap × List FTask) (d : Disk) (mode : CacheMode) (lazy : Bool) (cap : Nat)
    (fs : FS) : Srv :=
  ⟨XSys.init n P, Svc.start p.reader p.offs d mode lazy cap fs, []⟩

end GJ
