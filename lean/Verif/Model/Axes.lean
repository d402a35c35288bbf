import Verif.Model.PyRequest
import Verif.Model.Server

/-!
# Axes queries

Models `FDBLister::axes` in `/repo/src/gribjump/Lister.cc`, `GribJump::axes`, the axes functions of
`/repo/src/gribjump/gribjump_c.cc`, the Python method `axes` and the Rust function `axes`.  What FDB itself answers is a
parameter.
-/

namespace GJ

/-- Axes: names, and for each the set of its values. -/
abbrev Axes := AMap String (List String)

/-- What the lister calls: parsing a text into requests, and FDB's own axes query. -/
structure AxesEnv (Q : Type) where
  /-- `fdb5::FDBToolRequest::requestsFromString` -/
  parse : String → Res (List Q)
  /-- `fdb.axes(request, level)`, as `IndexAxis::map()` lists it -/
  fdb : Q → Int → Res (List (String × List String))

/-- The loop of `FDBLister::axes`, Lister.cc:248-259. -/
def axesOf (fdbValues : List (String × List String)) : Axes :=
  fdbValues.foldl (fun values kv => values.set kv.1 (kv.2.foldl setInsert [])) []

/-- `FDBLister::axes`, Lister.cc:227-263; also `Engine::axes` and `LocalGribJump::axes`. -/
def localAxes {Q : Type} (E : AxesEnv Q) (request : String) (level : Int) : Res Axes := do
  let requests ← E.parse request
  match requests with
  | [r] => do
    let values ← E.fdb r level
    .ok (axesOf values)
  | _ => throwExn .assertFailed

/-- `GribJump::axes`, GribJump.cc:110-120. -/
def gjAxes (impl : String → Int → Res Axes) (request : String) (level : Int) : Res Axes :=
  if request = "" then throwExn .userError else impl request level

/-! ## C API -/

/-- `gribjump_axes_keys_size`, gribjump_c.cc:117 and 340-345. -/
def cAxesKeysSize (a : Axes) : Nat := a.length

/-- `gribjump_axes_keys`, gribjump_c.cc:136-143 and 333-338: pointers to the names. -/
def cAxesKeys (a : Axes) (size : Nat) : Res (List String) :=
  if size = a.length then .ok a.keys else throwExn .assertFailed

/-- `std::string` from a `const char*` that points to a string. -/
def cString (s : String) : String := String.ofList (cstr s.toList)

/-- `gribjump_axes_values_size`, gribjump_c.cc:119-125 and 347-353. -/
def cAxesValuesSize (a : Axes) (key : String) : Nat :=
  match a.find (cString key) with
  | some vs => vs.length
  | none => 0

/-- `gribjump_axes_values`, gribjump_c.cc:127-134 and 355-362. -/
def cAxesValues (a : Axes) (key : String) (size : Nat) : Res (List String) :=
  match a.find (cString key) with
  | some vs => if size = vs.length then .ok vs else throwExn .assertFailed
  | none => throwExn .assertFailed

/-! ## Python -/

/-- `ffi.string(p).decode('ascii')`. -/
def pyDecode (s : String) : Res String :=
  if (cstr s.toList).all (fun c => c.toNat < 128) then .ok (cString s) else throwExn .badValue

/-- `dict(zip(keys, values))`. -/
def pyDict (keys : List String) (values : List (List String)) : AMap String (List String) :=
  (keys.zip values).foldl (fun d kv => d.set kv.1 kv.2) []

/-- The values of one key, pygribjump.py:533-538. -/
def pyAxisValues (a : Axes) (key : String) : Res (List String) := do
  let vs ← cAxesValues a key (cAxesValuesSize a key)
  vs.mapM pyDecode

/-- `GribJump.axes`, pygribjump.py:515-541. -/
def pyAxes (impl : String → Int → Res Axes) (dic : List (Str × Str)) (level : Int) : Res (AMap String (List String)) :=
  if (dicToRequest dic).all (fun c => c.toNat < 128) then do
    let level ← pyToInt level
    let a ← gjAxes impl (String.ofList (cstr (dicToRequest dic))) level
    let keys ← cAxesKeys a (cAxesKeysSize a)
    let values ← keys.mapM (pyAxisValues a)
    let keys ← keys.mapM pyDecode
    .ok (pyDict keys values)
  else throwExn .badValue

/-! ## Rust -/

/-- `axes`, gribjump_bridge.cpp:243-262 and handle.rs:173-178: entries collected into a `HashMap`. -/
def rustAxes (impl : String → Int → Res Axes) (request : String) (level : Int) : Res (AMap String (List String)) := do
  let a ← gjAxes impl request level
  .ok (a.foldl (fun m e => m.set e.1 e.2) [])

end GJ
