import Verif.Model.Rust
import Verif.Model.Api

/-!
# Calls of the Rust client

Models the methods of `/repo/rust/crates/gribjump/src/handle.rs` together with the functions of
`/repo/rust/crates/gribjump-sys/cpp/gribjump_bridge.cpp` that they call.  The mutex of a handle lets one call run at a time,
so each method is a function.  `axes` is in `Model/Axes`.  The bridge passes no context: `ctx` is the default one, GribJump.h:43-62.
-/

namespace GJ

/-- `ExtractionRequest`, request.rs:64-101. -/
structure RustRequest where
  request : String
  ranges : List Interval
  gridHash : String
  deriving DecidableEq

/-- `GribJump::extract`, handle.rs:76-82, and `extract`, gribjump_bridge.cpp:184-189.  The iterator starts before the first
result, GribJump.cc:66. -/
def rustExtract (A : Around) (h : Handle) (ctx : String) (rs : List RustRequest) : Res (VecSource WireResult) := do
  let out ← h.extract A ctx (rs.map fun r => rustRequest r.request r.ranges r.gridHash)
  .ok ⟨out.map some, 0⟩

/-- `GribJump::extract_from_paths`, handle.rs:93-102, and gribjump_bridge.cpp:191-196. -/
def rustExtractPaths (A : Around) (h : Handle) (rs : List RustPath) : Res (VecSource WireResult) := do
  let out ← h.extractPaths A (rs.map RustPath.toCxx)
  .ok ⟨out.map some, 0⟩

/-- `FileExtraction`, request.rs:232-271. -/
structure RustFile where
  path : String
  messages : List (Nat × List Interval)

def rustFile (path : String) : RustFile := ⟨path, []⟩

/-- `with_message`, request.rs:258-262. -/
def RustFile.withMessage (f : RustFile) (offset : Nat) (ranges : List Interval) : RustFile :=
  { f with messages := f.messages ++ [(offset, ranges)] }

/-- `with_messages`, request.rs:265-269. -/
def RustFile.withMessages (f : RustFile) (ms : List (Nat × List Interval)) : RustFile :=
  { f with messages := f.messages ++ ms }

/-- `GribJump::extract_from_file`, handle.rs:140-146, and gribjump_bridge.cpp:208-237. -/
def rustExtractFile (A : Around) (h : Handle) (f : RustFile) : Res (VecSource WireResult) := do
  let p ← cxxUnflatten (rustFlatten f.messages)
  let out ← h.extractAt A f.path p.1 p.2
  .ok ⟨out.map some, 0⟩

/-- `GribJump::extract_mars`, handle.rs:118-129, gribjump_bridge.cpp:198-206, and `GribJump::extract(request, ranges, hash)`,
GribJump.cc:78-90.  `expand` is metkit: `MarsRequest::parse`, `MarsExpansion::flatten` and `asString` of each part. -/
def rustExtractMars (expand : String → Res (List String)) (A : Around) (h : Handle) (ctx text : String)
    (ranges : List Interval) (hash : String) : Res (VecSource WireResult) := do
  let parts ← expand text
  let out ← h.extract A ctx (parts.map fun t => ⟨t, ranges, hash⟩)
  .ok ⟨out.map some, 0⟩

/-- `GribJump::scan_paths`, handle.rs:195-201, and gribjump_bridge.cpp:266-273. -/
def rustScanPaths (A : Around) (h : Handle) (paths : List String) : Res Nat :=
  h.scanPaths A paths

/-- `metkit::mars::MarsRequest`: a verb, and keys with values. -/
structure MarsObj where
  verb : String
  params : List (String × List String)
  deriving DecidableEq

/-- `GribJump::scan_requests`, handle.rs:217-223, and gribjump_bridge.cpp:275-283.  `emplace_back(std::string(r))` calls
the constructor `MarsRequest(verb)`: the text becomes the verb of a request without keys.  `code` is the text by which the
rest of the model names a request. -/
def rustScanRequests (code : MarsObj → String) (A : Around) (h : Handle) (ctx : String) (rs : List String)
    (byFiles : Bool) : Res Nat :=
  h.scan A ctx (rs.map fun r => code ⟨r, []⟩) byFiles

end GJ
