import Verif.Model.Sort
import Verif.Model.Codec
import Verif.Model.LRU

/-!
# Index files and the metadata cache

Models `/repo/src/gribjump/info/InfoCache.cc` and the parts of `InfoExtractor.cc` it calls.

An index file is a token list.  `std::map<Offset, shared_ptr<JumpInfo>>` is an `AMap` whose values may
be null pointers (`none`): a null pointer is stored when a file ends inside an entry.  The map iterates
in insertion order here and in offset order in C++; `C73_order_does_not_show` proves that answers do not depend on it.
-/

namespace GJ

/-- `IndexFile::infomap_t`, InfoCache.h:106. -/
abbrev InfoMap := AMap Nat (Option Info)

/-! ## Index files -/

/-- One entry, InfoCache.cc:325-328. -/
def encEntry (o : Nat) (i : Info) : List Tok := .objStart :: .off o :: (encInfo i ++ [.objEnd])

/-- The loop of `encode` and `appendToFile`, InfoCache.cc:324-329, 367-372.  A null pointer is
dereferenced. -/
def encEntries : InfoMap → Res (List Tok)
  | [] => .ok []
  | (_, none) :: _ => undef
  | (o, some i) :: rest => do
    let tl ← encEntries rest
    .ok (encEntry o i ++ tl)

/-- `IndexFile::currentVersion_`, InfoCache.h:163. -/
def indexVersion : Nat := 1

/-- `IndexFile::encode`, InfoCache.cc:320-330. -/
def encIndex (m : InfoMap) : Res (List Tok) := do
  let es ← encEntries m
  .ok (.u8 indexVersion :: es)

/-- The loop of `decode`, InfoCache.cc:338-344.  The first argument bounds the number of rounds; every
round consumes a token, so one more than the number of tokens is enough. -/
def decEntries : Nat → InfoMap → Dec InfoMap
  | 0, _ => Dec.ub
  | n + 1, m => do
    let more ← Dec.next
    if more then do
      let o ← Dec.off
      let i ← reanimate
      decEntries n (m.insert o i)
    else pure m

/-- The loop run to the end of the stream. -/
def decAllEntries : Dec InfoMap := fun s => decEntries (s.length + 1) [] s

/-- `IndexFile::decode`, InfoCache.cc:332-346. -/
def decIndex : Dec InfoMap := do
  let v ← Dec.u8
  Dec.lift (cassert (decide (v = indexVersion)))
  decAllEntries

/-- The file system, restricted to index files. -/
abbrev FS := AMap String (List Tok)

/-- `IndexFile::load` of an unloaded object, InfoCache.cc:299-312 (and `fromFile`, 376-380). -/
def loadIndex (fs : FS) (path : String) : Res InfoMap :=
  match fs.find path with
  | none => .ok []
  | some toks => match decIndex toks with
    | .ok (m, _) => .ok m
    | .error e => .error e

/-- `IndexFile::write`, InfoCache.cc:392-403, as one step: the content is written to a temporary file
which is then renamed.  `Model/Crash.lean` has the separate steps. -/
def writeIndex (fs : FS) (path : String) (m : InfoMap) : Res FS := do
  let toks ← encIndex m
  .ok (fs.set path toks)

/-- `IndexFile::appendToFile`, InfoCache.cc:355-374. -/
def appendIndex (fs : FS) (path : String) (m : InfoMap) : Res FS :=
  match fs.find path with
  | none => do
    let toks ← encIndex m
    .ok (fs.set path toks)
  | some old => do
    let toks ← encEntries m
    .ok (fs.set path (old ++ toks))

/-- `IndexFile::flush`, InfoCache.cc:405-413. -/
def flushIndex (append : Bool) (fs : FS) (path : String) (m : InfoMap) : Res FS :=
  if append then appendIndex fs path m else writeIndex fs path m

/-- `IndexFile::find`, InfoCache.cc:427-434: a stored null pointer is not found. -/
def indexFind (m : InfoMap) (o : Nat) : Option Info := (m.find o).join

/-- `IndexFile::get` once loaded, InfoCache.cc:449-458. -/
def indexGet (m : InfoMap) (offsets : List Nat) : AMap Nat Info :=
  offsets.foldl (fun r o => match indexFind m o with
    | some i => r.insert o i
    | none => r) []

/-! ## The cache -/

/-- What the data files hold, as the extractor sees it: the metadata of the message at an offset
(`InfoFactory::build`), and the message offsets of a file (`InfoExtractor::offsets`). -/
structure World where
  data : String → Nat → Res Info
  offsetsOf : String → Res (List Nat)

/-- `InfoExtractor::extract(path, offsets)`, InfoExtractor.cc:104-121. -/
def extractInfos (W : World) (path : String) (offsets : List Nat) : Res (List Info) :=
  offsets.mapM (W.data path)

/-- Where index files live: `shadowCache_` or `cacheDir_`, InfoCache.cc:48-77. -/
inductive CacheMode where
  | shadow
  | directory (dir : String)
  deriving DecidableEq, Repr

/-- `eckit::PathName::baseName`: what follows the last slash. -/
def baseName (path : String) : String :=
  String.ofList (path.toList.reverse.takeWhile (· ≠ '/')).reverse

/-- `cacheFilePath`, InfoCache.cc:79-85. -/
def CacheMode.indexPath : CacheMode → String → String
  | .shadow, path => path ++ ".gribjump"
  | .directory d, path => d ++ "/" ++ baseName path ++ ".gribjump"

/-- `cachekey`, InfoCache.cc:34-36. -/
def cachekey (path : String) (offset : Nat) : String := baseName path ++ toString offset

/-- `InfoCache` and the index files on disk. -/
structure Cache where
  mode : CacheMode
  lazy : Bool
  mem : LRU String Info
  staged : AMap String InfoMap
  fs : FS

/-- `getCached`, InfoCache.cc:107-118. -/
def getCachedLoop (path : String) : LRU String Info → AMap Nat Info → List Nat →
    Res (AMap Nat Info × LRU String Info)
  | mem, r, [] => .ok (r, mem)
  | mem, r, o :: os =>
    if mem.exists? (cachekey path o) then do
      let (i, mem') ← mem.get (cachekey path o)
      getCachedLoop path mem' (r.set o i) os
    else getCachedLoop path mem r os

/-- `getCached`, InfoCache.cc:107-118. -/
def getCached (c : Cache) (path : String) (offsets : List Nat) : Res (AMap Nat Info × Cache) := do
  let (r, mem) ← getCachedLoop path c.mem [] offsets
  .ok (r, { c with mem := mem })

/-- `putCache`, InfoCache.cc:120-126. -/
def putLoop (path : String) : LRU String Info → List (Nat × Info) → Res (LRU String Info)
  | mem, [] => .ok mem
  | mem, (o, i) :: rest => do
    let mem' ← mem.put (cachekey path o) i
    putLoop path mem' rest

/-- `putCache`, InfoCache.cc:120-126. -/
def putCache (c : Cache) (path : String) (pairs : List (Nat × Info)) : Res Cache := do
  let mem ← putLoop path c.mem pairs
  .ok { c with mem := mem }

/-- The middle of `get`, InfoCache.cc:132-178: from the entries found in memory to the answer, given
the index files. -/
def resolve (W : World) (lazy : Bool) (mode : CacheMode) (fs : FS) (path : String) (offsets : List Nat)
    (result : AMap Nat Info) : Res (List Info) := do
  let result ← (if result.length ≠ offsets.length then do
      let fileOffsets := offsets.filter fun o => (result.find o).isNone
      let m ← loadIndex fs (mode.indexPath path)
      let fileinfos := indexGet m fileOffsets
      let missing := fileOffsets.filter fun o => (fileinfos.find o).isNone
      let result := fileOffsets.foldl (fun r o => match fileinfos.find o with
        | some i => r.set o i
        | none => r) result
      if missing = [] then .ok result
      else if lazy = false then throwExn .jumpInfoDisabled
      else do
        let infos ← extractInfos W path missing
        .ok ((missing.zip infos).foldl (fun r p => r.set p.1 p.2) result)
    else .ok result : Res (AMap Nat Info))
  cassert (decide (result.length = offsets.length))
  offsets.mapM fun o => match result.find o with
    | some i => .ok i
    | none => undef

/-- `get(path, offsets)`, InfoCache.cc:128-182. -/
def Cache.get (W : World) (c : Cache) (path : String) (offsets : List Nat) : Res (List Info × Cache) := do
  let (found, c) ← getCached c path offsets
  let infos ← resolve W c.lazy c.mode c.fs path offsets found
  let c ← putCache c path (offsets.zip infos)
  .ok (infos, c)

/-- `insert`, InfoCache.cc:184-197 (`IndexFile::insert`, 421-424, does not overwrite). -/
def Cache.insert (c : Cache) (path : String) (offset : Nat) (info : Info) : Cache :=
  let f := c.mode.indexPath path
  match c.staged.find f with
  | some m => { c with staged := c.staged.set f (AMap.insert m offset (some info)) }
  | none => { c with staged := c.staged.set f (AMap.insert [] offset (some info)) }

/-- The loop of `flush`, InfoCache.cc:201-203. -/
def flushLoop (append : Bool) : FS → AMap String InfoMap → Res FS
  | fs, [] => .ok fs
  | fs, (path, m) :: rest => do
    let fs' ← flushIndex append fs path m
    flushLoop append fs' rest

/-- `flush`, InfoCache.cc:199-205. -/
def Cache.flush (c : Cache) (append : Bool) : Res Cache := do
  let fs ← flushLoop append c.fs c.staged
  .ok { c with fs := fs, staged := [] }

/-- `clear`, InfoCache.cc:207-210. -/
def Cache.clear (c : Cache) : Cache := { c with mem := c.mem.clear }

/-- `IndexFile::insert` of several entries. -/
def insertAll (m : InfoMap) (es : List (Nat × Info)) : InfoMap :=
  es.foldl (fun m p => m.insert p.1 (some p.2)) m

/-- `scan(path, offsets)`, InfoCache.cc:212-251: the reported number and the new state. -/
def Cache.scan (W : World) (c : Cache) (path : String) (offsets : List Nat) : Res (Nat × Cache) := do
  let m ← loadIndex c.fs (c.mode.indexPath path)
  let new := offsets.filter fun o => (indexFind m o).isNone
  if new = [] then .ok (0, c)
  else do
    let new := isort (fun a b => decide (a ≤ b)) new
    let infos ← extractInfos W path new
    let fs ← writeIndex c.fs (c.mode.indexPath path) (insertAll m (new.zip infos))
    .ok (infos.length, { c with fs := fs })

/-- `scan(path, merge)`, InfoCache.cc:253-274.  `reload` is `clear` then `load`, so the old entries are
read again. -/
def Cache.scanFile (W : World) (c : Cache) (path : String) (merge : Bool) : Res (Nat × Cache) :=
  if merge then do
    let os ← W.offsetsOf path
    c.scan W path os
  else do
    let m ← loadIndex c.fs (c.mode.indexPath path)
    let os ← W.offsetsOf path
    let infos ← extractInfos W path os
    let fs ← writeIndex c.fs (c.mode.indexPath path) (insertAll m (os.zip infos))
    .ok (infos.length, { c with fs := fs })

end GJ
