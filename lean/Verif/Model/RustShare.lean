import Verif.Model.Rust

/-!
# Rust client: what several threads may do with the same objects

Models `/repo/rust/crates/gribjump/src/handle.rs`, `iterator.rs`, `result.rs` and the state of the objects in
`/repo/rust/crates/gribjump-sys/cpp/gribjump_bridge.cpp`.  A call is two or three steps, so calls of different threads
overlap.  What a thread may begin is what the types allow: a handle is shared by its clones (a borrowed handle counts as a
clone); an iterator and a result have one owner and are not `Sync`, so only the owner uses them, by `&mut` or `&`; a view is
two slices, can be copied to any thread, and keeps its result from being moved or dropped.  Anything else does not compile
and changes nothing here.  `Arc` and `Mutex` (parking_lot, no poisoning) are modelled as documented.
-/

namespace GJ

/-- `RangeView`, result.rs:41-46, on a thread.  `moved` is where its mask pointer leads: a pointer into the cache as it was
after that many conversions. -/
structure RsView where
  thread : Nat
  result : Nat
  index : Nat
  moved : Nat
  deriving DecidableEq, Repr

/-- What a thread is in the middle of. -/
inductive RsWork where
  | waiting (h : Nat)
  | calling (h : Nat)
  | advancing (i : Nat)
  | ranging (r idx : Nat)
  | reading (v : RsView)
  deriving DecidableEq, Repr

/-- `Arc<Mutex<HandleInner>>`, handle.rs:42-44: the number of clones and who has the lock. -/
structure RsHandle where
  count : Nat
  lock : Option Nat
  deriving DecidableEq, Repr

/-- `ExtractionIterator`, iterator.rs:11-13, and its thread. -/
structure RsIter (V : Type) where
  owner : Nat
  src : VecSource (ExResult V)

/-- `ExtractionResult`, result.rs:12-15, and its thread; `masks_cache_` and `masks_converted_`, gribjump_bridge.h:164-165.
`moved` counts how often the cache was filled, which moves what is in it. -/
structure RsResult (V : Type) where
  owner : Nat
  r : ExResult V
  cache : List (List Nat)
  converted : Bool
  moved : Nat

/-- Everything the threads share.  `clones` has a pair for each clone of a handle; `busy` has the threads that are in the
middle of something. -/
structure RsSys (V : Type) where
  handles : Nat → Option RsHandle
  hNext : Nat
  clones : List (Nat × Nat)
  iters : Nat → Option (RsIter V)
  iNext : Nat
  results : Nat → Option (RsResult V)
  rNext : Nat
  views : List RsView
  busy : List (Nat × RsWork)

def RsSys.empty {V : Type} : RsSys V := ⟨fun _ => none, 0, [], fun _ => none, 0, fun _ => none, 0, [], []⟩

/-- What is undefined: two threads at one object of the library, one of them changing it, and using an object that is gone or
moved. -/
inductive RsFault where
  | race
  | dangling
  deriving DecidableEq, Repr

/-- What a step shows its thread. -/
inductive RsShown (V : Type) where
  | made (o : Nat)
  | content (v : RangeView V)
  | failed
  | ended
  | silent
  deriving DecidableEq

def rsPut {α : Type} (f : Nat → Option α) (i : Nat) (x : Option α) : Nat → Option α := fun j => if j = i then x else f j

/-- The thread is not in the middle of anything. -/
def RsSys.idle {V : Type} (s : RsSys V) (t : Nat) : Bool := s.busy.all fun p => decide (p.1 ≠ t)

/-- What the thread is in the middle of. -/
def RsSys.work {V : Type} (s : RsSys V) (t : Nat) : Option RsWork := (s.busy.find? fun p => decide (p.1 = t)).map Prod.snd

/-- Without the thread. -/
def RsSys.rest {V : Type} (s : RsSys V) (t : Nat) : List (Nat × RsWork) := s.busy.filter fun p => decide (p.1 ≠ t)

/-- Masks of the result have been converted. -/
def RsSys.fixed {V : Type} (s : RsSys V) (r : Nat) : Bool :=
  match s.results r with
  | some x => x.converted
  | none => false

/-- Two pieces of work touch the same object and one of them changes it: a handle and an iterator are changed by everything
done with them; a result is changed by looking at a range as long as its masks are not converted (gribjump_bridge.cpp:112-131).
Waiting touches only the lock. -/
def RsSys.clash {V : Type} (s : RsSys V) (a b : RsWork) : Bool :=
  match a, b with
  | .calling h, .calling h' => decide (h = h')
  | .advancing i, .advancing i' => decide (i = i')
  | .ranging r _, .ranging r' _ => decide (r = r') && !s.fixed r
  | .ranging r _, .reading v => decide (r = v.result) && !s.fixed r
  | .reading v, .ranging r _ => decide (r = v.result) && !s.fixed r
  | _, _ => false

/-- The thread begins `w`. -/
def RsSys.begin {V : Type} (s : RsSys V) (t : Nat) (w : RsWork) : Except RsFault (RsShown V × RsSys V) :=
  if (s.rest t).any fun p => s.clash w p.2 then .error .race
  else .ok (.silent, ⟨s.handles, s.hNext, s.clones, s.iters, s.iNext, s.results, s.rNext, s.views, s.rest t ++ [(t, w)]⟩)

/-- What threads do.  `t` is the thread; `answer` is the outcome of the library call, `none` for an exception. -/
inductive RsEv (V : Type) where
  | new (t : Nat) (ok : Bool)
  | clone (t h : Nat)
  | give (t u h : Nat)
  | dropHandle (t h : Nat)
  | lock (t h : Nat)
  | enter (t : Nat)
  | answer (t : Nat) (out : Option (List (ExResult V)))
  | next (t i : Nat)
  | advanced (t : Nat)
  | giveIter (t u i : Nat)
  | dropIter (t i : Nat)
  | giveResult (t u r : Nat)
  | dropResult (t r : Nat)
  | range (t r idx : Nat)
  | ranged (t : Nat)
  | copyView (t u : Nat) (v : RsView)
  | dropView (t : Nat) (v : RsView)
  | read (t : Nat) (v : RsView)
  | readDone (t : Nat)

/-- `try_convert_masks`, gribjump_bridge.cpp:112-131. -/
def RsResult.convert {V : Type} (x : RsResult V) : RsResult V :=
  if x.converted then x else ⟨x.owner, x.r, x.cache ++ x.r.mask, true, x.moved + 1⟩

/-- One step.  `new`: handle.rs:60-65.  `clone`: 46-52.  `dropHandle`: the last clone destroys the C++ handle.  `lock`: a method
is called and asks for the lock; `enter`: it gets the lock, 78.  `answer`: the library returns; the guard goes with `drop(guard)`,
80, or, with an error, by `?`, 79.  `next`, `advanced`: iterator.rs:45-54.  `range`, `ranged`: result.rs:83-115.  `read`,
`readDone`: a slice is looked at. -/
def RsSys.step {V : Type} (s : RsSys V) : RsEv V → Except RsFault (RsShown V × RsSys V)
  | .new t ok =>
    if s.idle t && ok then
      .ok (.made s.hNext, ⟨rsPut s.handles s.hNext (some ⟨1, none⟩), s.hNext + 1, s.clones ++ [(t, s.hNext)], s.iters, s.iNext,
        s.results, s.rNext, s.views, s.busy⟩)
    else .ok (.failed, s)
  | .clone t h =>
    if s.idle t && decide ((t, h) ∈ s.clones) then
      match s.handles h with
      | some b =>
        .ok (.made h, ⟨rsPut s.handles h (some ⟨b.count + 1, b.lock⟩), s.hNext, s.clones ++ [(t, h)], s.iters, s.iNext,
          s.results, s.rNext, s.views, s.busy⟩)
      | none => .error .dangling
    else .ok (.failed, s)
  | .give t u h =>
    if s.idle t && decide ((t, h) ∈ s.clones) then
      .ok (.silent, ⟨s.handles, s.hNext, s.clones.erase (t, h) ++ [(u, h)], s.iters, s.iNext, s.results, s.rNext, s.views, s.busy⟩)
    else .ok (.failed, s)
  | .dropHandle t h =>
    if s.idle t && decide ((t, h) ∈ s.clones) then
      match s.handles h with
      | some b =>
        if b.count = 1 then
          if b.lock = none then
            .ok (.silent, ⟨rsPut s.handles h none, s.hNext, s.clones.erase (t, h), s.iters, s.iNext, s.results, s.rNext, s.views,
              s.busy⟩)
          else .error .race
        else
          .ok (.silent, ⟨rsPut s.handles h (some ⟨b.count - 1, b.lock⟩), s.hNext, s.clones.erase (t, h), s.iters, s.iNext,
            s.results, s.rNext, s.views, s.busy⟩)
      | none => .error .dangling
    else .ok (.failed, s)
  | .lock t h =>
    if s.idle t && decide ((t, h) ∈ s.clones) then s.begin t (.waiting h) else .ok (.failed, s)
  | .enter t =>
    match s.work t with
    | some (.waiting h) =>
      match s.handles h with
      | some b =>
        if b.lock = none then
          RsSys.begin ⟨rsPut s.handles h (some ⟨b.count, some t⟩), s.hNext, s.clones, s.iters, s.iNext, s.results, s.rNext, s.views,
            s.busy⟩ t (.calling h)
        else .ok (.silent, s)
      | none => .error .dangling
    | _ => .ok (.failed, s)
  | .answer t out =>
    match s.work t with
    | some (.calling h) =>
      match s.handles h with
      | some b =>
        match out with
        | some rs =>
          .ok (.made s.iNext, ⟨rsPut s.handles h (some ⟨b.count, none⟩), s.hNext, s.clones,
            rsPut s.iters s.iNext (some ⟨t, ⟨rs.map some, 0⟩⟩), s.iNext + 1, s.results, s.rNext, s.views, s.rest t⟩)
        | none =>
          .ok (.failed, ⟨rsPut s.handles h (some ⟨b.count, none⟩), s.hNext, s.clones, s.iters, s.iNext, s.results, s.rNext,
            s.views, s.rest t⟩)
      | none => .error .dangling
    | _ => .ok (.failed, s)
  | .next t i =>
    match s.iters i with
    | some it => if s.idle t && decide (it.owner = t) then s.begin t (.advancing i) else .ok (.failed, s)
    | none => .ok (.failed, s)
  | .advanced t =>
    match s.work t with
    | some (.advancing i) =>
      match s.iters i with
      | some it =>
        match rustNext it.src with
        | .ok (some r, src) =>
          .ok (.made s.rNext, ⟨s.handles, s.hNext, s.clones, rsPut s.iters i (some ⟨it.owner, src⟩), s.iNext,
            rsPut s.results s.rNext (some ⟨t, r, [], false, 0⟩), s.rNext + 1, s.views, s.rest t⟩)
        | .ok (none, src) =>
          .ok (.ended, ⟨s.handles, s.hNext, s.clones, rsPut s.iters i (some ⟨it.owner, src⟩), s.iNext, s.results, s.rNext,
            s.views, s.rest t⟩)
        | .error _ => .error .dangling
      | none => .error .dangling
    | _ => .ok (.failed, s)
  | .giveIter t u i =>
    match s.iters i with
    | some it =>
      if s.idle t && decide (it.owner = t) then
        .ok (.silent, ⟨s.handles, s.hNext, s.clones, rsPut s.iters i (some ⟨u, it.src⟩), s.iNext, s.results, s.rNext, s.views, s.busy⟩)
      else .ok (.failed, s)
    | none => .ok (.failed, s)
  | .dropIter t i =>
    match s.iters i with
    | some it =>
      if s.idle t && decide (it.owner = t) then
        .ok (.silent, ⟨s.handles, s.hNext, s.clones, rsPut s.iters i none, s.iNext, s.results, s.rNext, s.views, s.busy⟩)
      else .ok (.failed, s)
    | none => .ok (.failed, s)
  | .giveResult t u r =>
    match s.results r with
    | some x =>
      if s.idle t && decide (x.owner = t) && s.views.all (fun v => decide (v.result ≠ r)) then
        .ok (.silent, ⟨s.handles, s.hNext, s.clones, s.iters, s.iNext,
          rsPut s.results r (some ⟨u, x.r, x.cache, x.converted, x.moved⟩), s.rNext, s.views, s.busy⟩)
      else .ok (.failed, s)
    | none => .ok (.failed, s)
  | .dropResult t r =>
    match s.results r with
    | some x =>
      if s.idle t && decide (x.owner = t) && s.views.all (fun v => decide (v.result ≠ r)) then
        .ok (.silent, ⟨s.handles, s.hNext, s.clones, s.iters, s.iNext, rsPut s.results r none, s.rNext, s.views, s.busy⟩)
      else .ok (.failed, s)
    | none => .ok (.failed, s)
  | .range t r idx =>
    match s.results r with
    | some x => if s.idle t && decide (x.owner = t) then s.begin t (.ranging r idx) else .ok (.failed, s)
    | none => .ok (.failed, s)
  | .ranged t =>
    match s.work t with
    | some (.ranging r idx) =>
      match s.results r with
      | some x =>
        if idx ≥ rustNumRanges x.r then
          .ok (.failed, ⟨s.handles, s.hNext, s.clones, s.iters, s.iNext, s.results, s.rNext, s.views, s.rest t⟩)
        else
          .ok (.silent, ⟨s.handles, s.hNext, s.clones, s.iters, s.iNext, rsPut s.results r (some x.convert), s.rNext,
            s.views ++ [⟨t, r, idx, x.convert.moved⟩], s.rest t⟩)
      | none => .error .dangling
    | _ => .ok (.failed, s)
  | .copyView t u v =>
    if s.idle t && decide (v ∈ s.views) && decide (v.thread = t) then
      .ok (.silent, ⟨s.handles, s.hNext, s.clones, s.iters, s.iNext, s.results, s.rNext,
        s.views ++ [⟨u, v.result, v.index, v.moved⟩], s.busy⟩)
    else .ok (.failed, s)
  | .dropView t v =>
    if s.idle t && decide (v.thread = t) then
      .ok (.silent, ⟨s.handles, s.hNext, s.clones, s.iters, s.iNext, s.results, s.rNext, s.views.erase v, s.busy⟩)
    else .ok (.failed, s)
  | .read t v =>
    if s.idle t && decide (v ∈ s.views) && decide (v.thread = t) then s.begin t (.reading v) else .ok (.failed, s)
  | .readDone t =>
    match s.work t with
    | some (.reading v) =>
      match s.results v.result with
      | some x =>
        if x.moved = v.moved then
          .ok (.content ⟨rustValuesAt x.r v.index, (x.cache[v.index]?).getD []⟩,
            ⟨s.handles, s.hNext, s.clones, s.iters, s.iNext, s.results, s.rNext, s.views, s.rest t⟩)
        else .error .dangling
      | none => .error .dangling
    | _ => .ok (.failed, s)

/-- Any interleaving. -/
def RsSys.run {V : Type} : List (RsEv V) → RsSys V → Except RsFault (List (RsShown V) × RsSys V)
  | [], s => .ok ([], s)
  | e :: es, s =>
    match s.step e with
    | .error f => .error f
    | .ok (o, s') =>
      match RsSys.run es s' with
      | .error f => .error f
      | .ok (os, t) => .ok (o :: os, t)

end GJ
