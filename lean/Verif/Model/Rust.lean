import Verif.Model.Engine
import Verif.Model.Client

/-!
# Rust client

Models `/repo/rust/crates/gribjump/src` (`request.rs`, `iterator.rs`, `result.rs`, `error.rs`) and the bridge
`/repo/rust/crates/gribjump-sys/cpp`.  The flattening of per-message ranges and `is_valid` are in `Model/Client`.
-/

namespace GJ

/-! ## Requests -/

/-- `Range::new`, request.rs:23-30. -/
def rustRange (start stop : Nat) : Res Interval :=
  if start ≥ stop then throwExn .userError else .ok ⟨start, stop⟩

/-- `Range::from(start..stop)`, request.rs:54-61. -/
def rustRangeFrom (start stop : Nat) : Interval := ⟨start, stop⟩

/-- `PathExtractionRequest`, request.rs:116-131. -/
structure RustPath where
  filename : String
  scheme : String
  offset : Nat
  host : Option String
  port : Int
  ranges : List Interval
  gridHash : String

/-- `PathExtractionRequest::new`, request.rs:139-153. -/
def rustPath (filename : String) (ranges : List Interval) (hash : String) : RustPath :=
  { filename, scheme := "file", offset := 0, host := none, port := 0, ranges, gridHash := hash }

/-- `PathExtractionRequest::from_parts`, request.rs:169-187. -/
def rustPathParts (filename scheme : String) (offset : Nat) (host : Option String) (port : Int) (ranges : List Interval)
    (hash : String) : RustPath :=
  { filename, scheme, offset, host, port, ranges, gridHash := hash }

/-- The builder methods, request.rs:191-215. -/
def RustPath.withScheme (p : RustPath) (s : String) : RustPath := { p with scheme := s }
def RustPath.withOffset (p : RustPath) (o : Nat) : RustPath := { p with offset := o }
def RustPath.withHost (p : RustPath) (h : String) : RustPath := { p with host := some h }
def RustPath.withPort (p : RustPath) (n : Int) : RustPath := { p with port := n }

/-- `PathExtractionRequest::to_cxx`, request.rs:219-229, and `to_cpp_path_requests`, gribjump_bridge.cpp:51-60. -/
def RustPath.toCxx (p : RustPath) : PathReq :=
  ⟨p.filename, p.scheme, p.offset, p.host.getD "", p.port, p.ranges, p.gridHash⟩

/-- `ExtractionRequest::to_cxx`, request.rs:103-109, and `to_cpp_requests`, gribjump_bridge.cpp:41-48. -/
def rustRequest (text : String) (ranges : List Interval) (hash : String) : ExRequest := ⟨text, ranges, hash⟩

/-! ## Iterator -/

/-- `ExtractionIteratorHandle::next`, gribjump_bridge.cpp:78-85: the result pointer is dereferenced without a test.  The
sources of results make no null pointers, see `C35_iterator`. -/
def bridgeNext {R : Type} (s : VecSource R) : Res (R × VecSource R) :=
  if s.hasNext then
    match s.next with
    | (some r, s') => .ok (r, s')
    | (none, _) => undef
  else throwExn .seriousBug

/-- `Iterator::next`, iterator.rs:45-54: `none` at the end. -/
def rustNext {R : Type} (s : VecSource R) : Res (Option R × VecSource R) :=
  if s.hasNext then do
    let p ← bridgeNext s
    .ok (some p.1, p.2)
  else .ok (none, s)

/-- `next_result`, iterator.rs:32-39: `IteratorExhausted`, here `gribJump`, at the end. -/
def rustNextResult {R : Type} (s : VecSource R) : Res (R × VecSource R) :=
  if s.hasNext then bridgeNext s else throwExn .gribJump

/-- A call on an iterator, and what it shows. -/
inductive RustOp where
  | next | nextResult

inductive RustSeen (R : Type) where
  | item (r : R)
  | stop
  | exhausted
  deriving DecidableEq

/-- One call. -/
def rustStep {R : Type} (s : VecSource R) : RustOp → Res (RustSeen R × VecSource R)
  | .next => do
    let p ← rustNext s
    match p.1 with
    | some r => .ok (.item r, p.2)
    | none => .ok (.stop, p.2)
  | .nextResult =>
    match rustNextResult s with
    | .ok p => .ok (.item p.1, p.2)
    | .error (.exn .gribJump) => .ok (.exhausted, s)
    | .error e => .error e

/-- Any sequence of calls. -/
def rustRun {R : Type} : List RustOp → VecSource R → Res (List (RustSeen R))
  | [], _ => .ok []
  | op :: ops, s => do
    let p ← rustStep s op
    let rest ← rustRun ops p.2
    .ok (p.1 :: rest)

/-! ## Results -/

/-- `RangeView` and `RangeResult`, result.rs:41-59. -/
structure RangeView (V : Type) where
  values : List V
  masks : List Nat
  deriving DecidableEq

/-- `num_ranges`, gribjump_bridge.cpp:94-96. -/
def rustNumRanges {V : Type} (r : ExResult V) : Nat := r.values.length

/-- `values_ptr` and `values_len` for a range, gribjump_bridge.cpp:98-110, as the slice made of them: empty if there is
none. -/
def rustValuesAt {V : Type} (r : ExResult V) (i : Nat) : List V := (r.values[i]?).getD []

/-- `masks_ptr` and `masks_len`, gribjump_bridge.cpp:112-151.  The words are those of the bitsets, converted once. -/
def rustMasksAt {V : Type} (r : ExResult V) (i : Nat) : List Nat := (r.mask[i]?).getD []

/-- `ExtractionResult::range`, result.rs:83-115. -/
def rustRangeAt {V : Type} (r : ExResult V) (i : Nat) : Option (RangeView V) :=
  if i ≥ rustNumRanges r then none else some ⟨rustValuesAt r i, rustMasksAt r i⟩

/-- `total_values`, result.rs:136-140. -/
def rustTotal {V : Type} (r : ExResult V) : Nat :=
  ((List.range (rustNumRanges r)).map fun i => (rustValuesAt r i).length).sum

/-- `iter` and `to_owned_ranges`, result.rs:143-153. -/
def rustRanges {V : Type} (r : ExResult V) : List (RangeView V) :=
  (List.range (rustNumRanges r)).filterMap (rustRangeAt r)

/-- `iter_with_validity`, result.rs:219-224. -/
def RangeView.withValidity {V : Type} (v : RangeView V) : List (V × Bool) :=
  v.values.zipIdx.map fun p => (p.1, rustIsValid v.masks p.2)

/-- `valid_values`, result.rs:227-233. -/
def RangeView.validValues {V : Type} (v : RangeView V) : List V :=
  (v.values.zipIdx.filter fun p => rustIsValid v.masks p.2).map Prod.fst

/-! ## Errors -/

/-- The kinds of exception that the bridge tells apart, gribjump_bridge.h:22-57. -/
inductive CxxKind where
  | seriousBug | userError | badParameter | notImplemented | outOfRange | fileError | assertionFailed | eckit
  | std | other
  deriving DecidableEq, Repr

/-- The prefixes, gribjump_bridge.h:25-48, in the order in which error.rs:60-77 tests them. -/
def errorPrefixes : List (CxxKind × Str) :=
  [(.seriousBug, "ECKIT_SERIOUS_BUG: ".toList), (.userError, "ECKIT_USER_ERROR: ".toList),
   (.badParameter, "ECKIT_BAD_PARAMETER: ".toList), (.notImplemented, "ECKIT_NOT_IMPLEMENTED: ".toList),
   (.outOfRange, "ECKIT_OUT_OF_RANGE: ".toList), (.fileError, "ECKIT_FILE_ERROR: ".toList),
   (.assertionFailed, "ECKIT_ASSERTION_FAILED: ".toList), (.eckit, "ECKIT: ".toList)]

/-- The message that crosses the bridge, gribjump_bridge.h:22-57. -/
def bridgeMessage (kind : CxxKind) (what : Str) : Str :=
  match kind with
  | .seriousBug => "ECKIT_SERIOUS_BUG: ".toList ++ what
  | .userError => "ECKIT_USER_ERROR: ".toList ++ what
  | .badParameter => "ECKIT_BAD_PARAMETER: ".toList ++ what
  | .notImplemented => "ECKIT_NOT_IMPLEMENTED: ".toList ++ what
  | .outOfRange => "ECKIT_OUT_OF_RANGE: ".toList ++ what
  | .fileError => "ECKIT_FILE_ERROR: ".toList ++ what
  | .assertionFailed => "ECKIT_ASSERTION_FAILED: ".toList ++ what
  | .eckit => "ECKIT: ".toList ++ what
  | .std => what
  | .other => "unknown exception (non-std::exception type)".toList

/-- `From<Exception> for Error`, error.rs:54-80: the variant, by the kind it stands for (`Gribjump` is `std`), and the
message. -/
def rustError (msg : Str) : CxxKind × Str :=
  match errorPrefixes.find? fun p => p.2.isPrefixOf msg with
  | some p => (p.1, msg.drop p.2.length)
  | none => (.std, msg)

end GJ
