import Verif.Model.Engine
import Verif.Model.Scan

/-!
# A node that serves others

Models what a server does with a forwarded extraction: `ForwardedExtractRequest` of
`/repo/src/gribjump/remote/Request.cc` and `Engine::scheduleExtractionTasks` on the file map it received.
-/

namespace GJ

/-- The items of a forwarded request, by pointer: a number stands for the address of an item. -/
def numItems : Nat → List Item → ItemMap
  | _, [] => []
  | k, i :: is => (toString k, i) :: numItems (k + 1) is

/-- `items_` and `filemap_` of a forwarded request, Request.cc:126-128 and Protocol.cc:252-272: the items, and for every
file the pointers to its items. -/
def numFiles : Nat → FileMap → ItemMap × KeyMap
  | _, [] => ([], [])
  | k, f :: fs =>
    let here := numItems k f.2
    let (m, km) := numFiles (k + f.2.length) fs
    (here ++ m, (f.1, here.keys) :: km)

/-- `ForwardedExtractRequest::execute`, Request.cc:141-143, with `Engine::scheduleExtractionTasks(filemap, false)`,
Engine.cc:153-179.  The tasks sort the vectors of the file map in place (Task.cc:193-194), and the reply is written in
that order (Request.cc:145-147). -/
def serverForward (E : ExtEnv) (C : EngineConf) (sched : List Nat) (fm : FileMap) :
    Res (FileMap × List String) := do
  let (m, km) := numFiles 0 fm
  let (m', errs) ← scheduleTasks E C false m km sched
  .ok (km.map fun f => (f.1, itemsOf m' (sortKeys m' f.2)), errs)

/-- `ForwardedScanRequest::execute`, Request.cc:168-172.  What becomes of the server's cache is the third component of
`scheduleScan`. -/
def serverForwardScan (E : ScanEnv) (c : Cache) (sched : List ScanEv) (sm : ScanMap) : Res (Nat × List String) := do
  let (n, errs, _) ← scheduleScan E c sm sched
  .ok (n, errs)

/-- The engine of a node, as its connections use it.  Scans and axes are parameters. -/
def nodeEngine (E : ExtEnv) (C : EngineConf) (sched : List Nat)
    (axes : String → Int → Res (AMap String (List String))) (scan : List String → Bool → Res (Nat × List String))
    (forwardScan : AMap String (List Nat) → Res (Nat × List String)) : Engine where
  extract rs := engineExtract E C sched rs
  axes := axes
  scan := scan
  forwardExtract fm := serverForward E C sched fm
  forwardScan := forwardScan

end GJ
