import Verif.Model.Canon
import Verif.Model.Discover
import Verif.Model.InfoCache

/-!
# The FDB plugin

Models `/repo/src/gribjump/FDBPlugin.cc` and `info/InfoAggregator.cc` (`InfoAggregator`; the plugin does not use
`SerialAggregator`).
-/

namespace GJ

/-- What the plugin calls. -/
structure PlugEnv where
  /-- `eckit::Regex(p)` succeeds -/
  compiles : Str → Bool
  /-- `eckit::Regex(p).match(v)` -/
  rx : Str → Str → Bool
  /-- `fdb5::Key::get` of a name the key does not have -/
  absent : Res Str
  /-- `InfoFactory::build` on the archived data -/
  build : List UInt8 → Res Info

/-! ## Selection -/

/-- `configParsed_` and `selectDict_`, FDBPlugin.h:37-38. -/
structure PlugConf where
  parsed : Bool
  dict : AMap Str Str

def PlugConf.new : PlugConf := ⟨false, []⟩

/-- The loop of `parseConfig`, FDBPlugin.cc:98-109: what is in the dictionary afterwards, and the outcome.  A pattern
that does not compile throws before the entry is made. -/
def parseLoop (E : PlugEnv) : AMap Str Str → List Str → AMap Str Str × Res Unit
  | d, [] => (d, .ok ())
  | d, kv :: rest =>
    match tokens '=' kv with
    | [k, v] =>
      if (d.find k).isSome then (d, throwExn .userError)
      else if E.compiles v then parseLoop E (d.set k v) rest
      else (d, throwExn .seriousBug)
    | _ => (d, throwExn .userError)

/-- `parseConfig`, FDBPlugin.cc:86-117.  The flag is set before the text is looked at. -/
def parseConfig (E : PlugEnv) (select : Str) (p : PlugConf) : PlugConf × Res Unit :=
  if p.parsed then (p, .ok ())
  else
    let r := parseLoop E p.dict (tokens ',' select)
    (⟨true, r.1⟩, r.2)

/-- The loop of `matches`, FDBPlugin.cc:125-130. -/
def matchLoop (E : PlugEnv) (key : FdbKey) : List (Str × Str) → Res Bool
  | [] => .ok true
  | (k, p) :: rest => do
    let v ← match key.find k with
      | some v => .ok v
      | none => E.absent
    if E.rx p v then matchLoop E key rest else .ok false

/-- `matches`, FDBPlugin.cc:120-133.  The dictionary is iterated in order of names. -/
def matchesKey (E : PlugEnv) (dict : AMap Str Str) (key : FdbKey) : Res Bool :=
  if dict = [] then .ok false
  else matchLoop E key (isort (fun a b => strLe a.1 b.1) dict)

/-! ## Archiving and indexing -/

/-- An archived field: key, data, and the location its future will deliver (`none`: the future throws). -/
structure ArchField where
  key : FdbKey
  data : List UInt8
  loc : Option (String × Nat)

/-- Members of `InfoAggregator`, InfoAggregator.h:52-55, and the state of its thread. -/
structure Agg where
  queue : List (ArchField × Info)
  closed : Bool
  /-- popped and not yet inserted -/
  holding : Option (ArchField × Info)
  /-- the thread has ended -/
  exited : Bool

/-- Constructor, InfoAggregator.cc:35-46. -/
def Agg.new : Agg := ⟨[], false, none, false⟩

/-- `AGGREGATOR_QUEUE_SIZE`, InfoAggregator.cc:33. -/
def aggQueueSize : Nat := 8

/-- `isGrib`, InfoAggregator.cc:22-28, on at least four bytes. -/
def isGrib (data : List UInt8) : Bool := data.take 4 == gribMark

/-- Every FDB object of the process has its own aggregator, created on demand; the cache is shared. -/
structure PlugSys where
  dict : AMap Str Str
  aggs : Nat → Option Agg
  c : Cache
  /-- archive callbacks that returned normally, with their FDB -/
  archived : List (Nat × ArchField)

def PlugSys.setAgg (s : PlugSys) (n : Nat) (a : Option Agg) : PlugSys :=
  { s with aggs := fun k => if k = n then a else s.aggs k }

def PlugSys.done (s : PlugSys) (n : Nat) (f : ArchField) : PlugSys := { s with archived := s.archived ++ [(n, f)] }

inductive PlugEv where
  | archive (n : Nat) (f : ArchField)
  | take (n : Nat)
  | store (n : Nat)
  | quit (n : Nat)
  | close (n : Nat)
  | finish (n : Nat)

/-- The archive callback, FDBPlugin.cc:60-72, and `InfoAggregator::add`, InfoAggregator.cc:52-67.  An exception goes to the
archiving caller.  A full queue makes the caller wait: the step changes nothing and can be tried again.  A closed queue
cannot happen, as one FDB is not used by two threads at a time (InfoAggregator.h:31). -/
def stepArchive (E : PlugEnv) (s : PlugSys) (n : Nat) (f : ArchField) : Res PlugSys :=
  match matchesKey E s.dict f.key with
  | .error .ub => undef
  | .error (.exn _) => .ok s
  | .ok sel =>
    if !sel || decide (f.data.length < 4) then .ok (s.done n f)
    else
      let a := (s.aggs n).getD .new
      if a.closed then .ok s
      else if !isGrib f.data then .ok ((s.setAgg n (some a)).done n f)
      else match E.build f.data with
        | .error .ub => undef
        | .error (.exn _) => .ok (s.setAgg n (some a))
        | .ok i =>
          if a.queue.length ≥ aggQueueSize then .ok s
          else .ok ((s.setAgg n (some { a with queue := a.queue ++ [(f, i)] })).done n f)

/-- `futures_.pop(elem)`, InfoAggregator.cc:39. -/
def stepTake (s : PlugSys) (n : Nat) : PlugSys :=
  match s.aggs n with
  | some ⟨x :: rest, closed, none, false⟩ => s.setAgg n (some ⟨rest, closed, some x, false⟩)
  | _ => s

/-- `elem.first.get()` and `insert`, InfoAggregator.cc:41-43, 69-76. -/
def stepStore (s : PlugSys) (n : Nat) : Res PlugSys :=
  match s.aggs n with
  | some ⟨q, closed, some (f, i), exited⟩ =>
    match f.loc with
    | none => throwExn .terminated
    | some (path, o) => .ok ({ s with c := s.c.insert path o i }.setAgg n (some ⟨q, closed, none, exited⟩))
  | _ => .ok s

/-- `pop` returns -1 on a closed empty queue: the thread ends, InfoAggregator.cc:39-40. -/
def stepQuit (s : PlugSys) (n : Nat) : PlugSys :=
  match s.aggs n with
  | some ⟨[], true, none, _⟩ => s.setAgg n (some ⟨[], true, none, true⟩)
  | _ => s

/-- Start of the flush callback, FDBPlugin.cc:75-79, and `futures_.close()`, InfoAggregator.cc:95-96. -/
def stepClose (s : PlugSys) (n : Nat) : PlugSys :=
  match s.aggs n with
  | some a => s.setAgg n (some { a with closed := true })
  | none => s

/-- The rest of the flush callback: `join`, the assertion, `InfoCache::flush(true)` and `reset`,
InfoAggregator.cc:79-100 and FDBPlugin.cc:79-80. -/
def stepEnd (s : PlugSys) (n : Nat) : Res PlugSys :=
  match s.aggs n with
  | some ⟨q, true, _, true⟩ => do
    cassert q.isEmpty
    let c ← s.c.flush true
    .ok ({ s with c := c }.setAgg n none)
  | _ => .ok s

def PlugSys.step (E : PlugEnv) (s : PlugSys) : PlugEv → Res PlugSys
  | .archive n f => stepArchive E s n f
  | .take n => .ok (stepTake s n)
  | .store n => stepStore s n
  | .quit n => .ok (stepQuit s n)
  | .close n => .ok (stepClose s n)
  | .finish n => stepEnd s n

def PlugSys.run (E : PlugEnv) : PlugSys → List PlugEv → Res PlugSys
  | s, [] => .ok s
  | s, e :: es => do
    let s' ← s.step E e
    s'.run E es

/-- A process that has opened FDBs and archived nothing yet. -/
def PlugSys.start (dict : AMap Str Str) (mode : CacheMode) (lazy : Bool) (cap : Nat) (fs : FS) : PlugSys :=
  { dict := dict, aggs := fun _ => none,
    c := { mode := mode, lazy := lazy, mem := .empty cap, staged := [], fs := fs }, archived := [] }

end GJ
