import Verif.Model.Direct
import Verif.Model.CacheSystem

/-!
# Extraction through the metadata cache

The cache of `CacheSystem.lean` over data files with bytes in them, together with the last step of an extraction:
`FileExtractionTask::extract` of `/repo/src/gribjump/Task.cc` takes metadata from the cache and jumps into the file.
-/

namespace GJ

/-- The data files: the content of those that exist. -/
abbrev Disk := String → Option (List UInt8)

/-- What the extractor of metadata sees of the data files.  `offsets` finds the messages of a file. -/
def diskWorld {V : Type} (R : Reader V) (offsets : List UInt8 → Res (List Nat)) (d : Disk) : World where
  data f o := match d f with
    | none => throwExn .ioError
    | some file => buildInfo R file o
  offsetsOf f := match d f with
    | none => throwExn .ioError
    | some file => offsets file

/-- `Jumper::extract` on the file, Task.cc:210-213 and 231-233 (the check of the grid is in `Engine.lean`). -/
def diskJump {V : Type} (R : Reader V) (d : Disk) (f : String) (o : Nat) (info : Info) (is : List Interval) :
    Res (ExResult V) :=
  match d f with
  | none => throwExn .ioError
  | some file => jumperExtract R file o info is

/-- One extraction done, with the content of the file at that time. -/
structure Pick (V : Type) where
  path : String
  offset : Nat
  ranges : List Interval
  file : List UInt8
  result : Res (ExResult V)

structure Svc (V : Type) where
  disk : Disk
  sys : Sys
  picks : List (Pick V)

inductive SEv where
  /-- a step of the cache (data files change by `append` only) -/
  | cache (e : CEv)
  /-- somebody appends to a data file, or creates it -/
  | append (path : String) (bytes : List UInt8)
  /-- a task uses the metadata of its lookup: message `j` of answer `k` -/
  | jump (k j : Nat) (ranges : List Interval)

def Disk.append (d : Disk) (path : String) (bytes : List UInt8) : Disk :=
  fun f => if f = path then some ((d f).getD [] ++ bytes) else d f

/-- One step. -/
def Svc.step {V : Type} (R : Reader V) (offsets : List UInt8 → Res (List Nat)) (s : Svc V) : SEv → Res (Svc V)
  | .cache e => do
    let y ← s.sys.step e
    .ok { s with sys := y }
  | .append path bytes =>
    let d := s.disk.append path bytes
    .ok { s with disk := d, sys := { s.sys with W := diskWorld R offsets d } }
  | .jump k j ranges =>
    match s.sys.answers[k]? with
    | some ⟨path, os, .ok infos⟩ =>
      match os[j]?, infos[j]?, s.disk path with
      | some o, some i, some file =>
        .ok { s with picks := s.picks ++ [⟨path, o, ranges, file, diskJump R s.disk path o i ranges⟩] }
      | _, _, _ => .ok s
    | _ => .ok s

def Svc.run {V : Type} (R : Reader V) (offsets : List UInt8 → Res (List Nat)) : Svc V → List SEv → Res (Svc V)
  | s, [] => .ok s
  | s, e :: es => do
    let s' ← s.step R offsets e
    s'.run R offsets es

/-- A process starting over existing data and index files. -/
def Svc.start {V : Type} (R : Reader V) (offsets : List UInt8 → Res (List Nat)) (d : Disk) (mode : CacheMode)
    (lazy : Bool) (cap : Nat) (fs : FS) : Svc V :=
  { disk := d, sys := Sys.start (diskWorld R offsets d) mode lazy cap fs, picks := [] }

end GJ
