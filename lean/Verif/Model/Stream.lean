import Verif.Model.Basic

/-!
# Typed streams

`eckit::Stream` is an external component.  It writes every item with a type tag and, when reading,
throws if the tag found is not the expected one.  The model is a list of tagged items.

Two parts of it matter to gribjump and are kept: an exception written to the stream by the peer
(`s << e`, GribJumpUser.cc:46) makes any later read throw `RemoteException`; and reading past the end
throws.
-/

namespace GJ

/-- `eckit::URI` restricted to what gribjump uses.  The fragment is a decimal offset
(ExtractionItem.h:66-78), kept here as the number; `OffsetText` has the text and what other texts do. -/
structure Uri where
  scheme : String
  host : String
  port : Int
  path : String
  offset : Nat
  deriving DecidableEq, Repr

/-- One item of a stream, with its tag. -/
inductive Tok where
  /-- `unsigned char` -/
  | u8 (n : Nat)
  /-- `unsigned short` -/
  | u16 (n : Nat)
  | bool (b : Bool)
  /-- `int` -/
  | i32 (z : Int)
  /-- `long` -/
  | long (z : Int)
  /-- `unsigned long`, `size_t` -/
  | ulong (n : Nat)
  /-- `eckit::Offset`, `eckit::Length` (never negative here) -/
  | off (n : Nat)
  /-- `double`, as its bit pattern -/
  | dbl (bits : UInt64)
  | str (s : String)
  /-- `eckit::Buffer`: raw bytes -/
  | blob (bytes : List Nat)
  /-- `startObject` -/
  | objStart
  /-- `endObject` -/
  | objEnd
  /-- `eckit::URI` -/
  | uri (u : Uri)
  /-- an object of another library with its own encoding (`metkit::mars::MarsRequest`) -/
  | ext (s : String)
  /-- an exception sent by the peer -/
  | exc (what : String)
  deriving DecidableEq, Repr

/-- A reader: consumes a prefix of the stream. -/
def Dec (α : Type) := List Tok → Res (α × List Tok)

namespace Dec

instance : Monad Dec where
  pure a := fun s => .ok (a, s)
  bind d f := fun s => match d s with
    | .ok (a, s') => f a s'
    | .error e => .error e

theorem bind_ok {α β : Type} {d : Dec α} {f : α → Dec β} {s s' : List Tok} {a : α}
    (h : d s = .ok (a, s')) : (d >>= f) s = f a s' := by
  show (match d s with | .ok (a, s') => f a s' | .error e => .error e) = _
  rw [h]

theorem bind_error {α β : Type} {d : Dec α} {f : α → Dec β} {s : List Tok} {e : Fault}
    (h : d s = .error e) : (d >>= f) s = .error e := by
  show (match d s with | .ok (a, s') => f a s' | .error e => .error e) = _
  rw [h]

theorem pure_apply {α : Type} (a : α) (s : List Tok) : (pure a : Dec α) s = .ok (a, s) := rfl

/-- `throw` while reading. -/
def fail {α : Type} (e : Exn) : Dec α := fun _ => throwExn e

/-- Undefined behaviour while reading. -/
def ub {α : Type} : Dec α := fun _ => undef

/-- Lift a computation that does not read. -/
def lift {α : Type} (r : Res α) : Dec α := fun s => match r with
  | .ok a => .ok (a, s)
  | .error e => .error e

/-- `Stream::readTag`: what a failed expectation throws. -/
def mismatch {α : Type} : Dec α
  | .exc _ :: _ => throwExn .remote
  | _ => throwExn .streamError

def u8 : Dec Nat
  | .u8 n :: r => .ok (n, r)
  | s => mismatch s
def u16 : Dec Nat
  | .u16 n :: r => .ok (n, r)
  | s => mismatch s
def bool : Dec Bool
  | .bool b :: r => .ok (b, r)
  | s => mismatch s
def i32 : Dec Int
  | .i32 z :: r => .ok (z, r)
  | s => mismatch s
def long : Dec Int
  | .long z :: r => .ok (z, r)
  | s => mismatch s
def ulong : Dec Nat
  | .ulong n :: r => .ok (n, r)
  | s => mismatch s
def off : Dec Nat
  | .off n :: r => .ok (n, r)
  | s => mismatch s
def dbl : Dec UInt64
  | .dbl b :: r => .ok (b, r)
  | s => mismatch s
def str : Dec String
  | .str x :: r => .ok (x, r)
  | s => mismatch s
def blob : Dec (List Nat)
  | .blob x :: r => .ok (x, r)
  | s => mismatch s
def uri : Dec Uri
  | .uri x :: r => .ok (x, r)
  | s => mismatch s
def ext : Dec String
  | .ext x :: r => .ok (x, r)
  | s => mismatch s

/-- `Stream::next`: skips one pending end-of-object mark, then reports whether an object starts.
End of stream is `false`.  Anything else is a protocol error. -/
def next : Dec Bool
  | [] => .ok (false, [])
  | .objStart :: r => .ok (true, r)
  | .objEnd :: [] => .ok (false, [])
  | .objEnd :: .objStart :: r => .ok (true, r)
  | s => mismatch s

/-- `Stream::skipEndObject`. -/
def skipEnd : Dec Unit
  | .objEnd :: r => .ok ((), r)
  | s => mismatch s

/-- Read `n` items: `for (i = 0; i < n; i++)`. -/
def times {α : Type} : Nat → Dec α → Dec (List α)
  | 0, _ => pure []
  | n + 1, d => do
    let a ← d
    let rest ← times n d
    pure (a :: rest)

/-- `operator>>(Stream&, std::vector<T>&)`, eckit/serialisation/Stream.h: size then elements. -/
def vec {α : Type} (d : Dec α) : Dec (List α) := do
  let n ← ulong
  times n d

end Dec

/-- `operator<<(Stream&, const std::vector<T>&)`. -/
def encVec {α : Type} (e : α → List Tok) (l : List α) : List Tok :=
  .ulong l.length :: l.flatMap e

end GJ
