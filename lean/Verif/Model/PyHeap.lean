import Verif.Model.Python

/-!
# Python client: the objects a user holds and the memory behind them

Models `/repo/python/pygribjump/src/pygribjump/pygribjump.py` on top of `/repo/src/gribjump/gribjump_c.cc`.  Two heaps: the
objects the library allocates, which only its delete functions free, and the Python objects, which the interpreter may
collect as soon as neither the user nor a living object refers to them.  An address is never used again, so a use of freed
memory is visible.  A call is one step: while it runs its arguments are held by the caller.  The requests by path
(pygribjump.py:211-260, 341-351) go the same way as the others and are not distinguished; passing one kind where the other
is expected is a TypeError of cffi and changes nothing.
-/

namespace GJ

/-- The objects of the library that a client owns, gribjump_c.cc:72-147. -/
inductive CObj (V : Type) where
  | jump
  | request
  | axes
  | iterator (src : VecSource (ExResult V))
  | result (r : ExResult V)

/-- The two arrays of a result. -/
inductive PyCol where
  | vals
  | masks
  deriving DecidableEq, Repr

/-- The attributes of a result object that are filled on first use, pygribjump.py:580-589. -/
inductive PySlot where
  | buffer (c : PyCol)
  | split (c : PyCol)
  | flat (c : PyCol)
  deriving DecidableEq, Repr

def PySlot.all : List PySlot :=
  [.buffer .vals, .buffer .masks, .split .vals, .split .masks, .flat .vals, .flat .masks]

/-- Python objects.  `owner c`: what `ffi.gc(ptr, delete)` gives, the only object that frees `c`.  `buffer`: `ffi.new` of an
array; a cell is a value or a mask word.  `array b sizes`: what the properties of a result return, views of the buffer `b`,
split by `sizes` or whole; it keeps the buffer alive (`ffi.buffer`, pygribjump.py:667 and 702).  A list of views is one
object here.  A generator keeps the iterator it runs over until it ends. -/
inductive PyObj (V : Type) where
  | owner (c : Nat)
  | buffer (cells : List (V ⊕ Nat))
  | array (buf : Nat) (sizes : Option (List Nat))
  | jump (own : Nat)
  | request (own : Nat) (shape : List Nat)
  | iterator (own : Nat) (shapeOf : Nat → Option (List Nat))
  | generator (it : Nat) (at_ : Option Nat)
  | result (own : Nat) (shape : List Nat) (slot : PySlot → Option Nat)

/-- The objects an object refers to. -/
def PyObj.refs {V : Type} : PyObj V → List Nat
  | .owner _ => []
  | .buffer _ => []
  | .array b _ => [b]
  | .jump own => [own]
  | .request own _ => [own]
  | .iterator own _ => [own]
  | .generator it (some _) => [it]
  | .generator _ none => []
  | .result own _ slot => own :: PySlot.all.filterMap slot

/-- Both heaps, the next address in each, and what the user holds, once for every reference. -/
structure PyHeap (V : Type) where
  c : Nat → Option (CObj V)
  cNext : Nat
  py : Nat → Option (PyObj V)
  pyNext : Nat
  held : List Nat

/-- Nothing allocated. -/
def PyHeap.empty {V : Type} : PyHeap V := ⟨fun _ => none, 0, fun _ => none, 0, []⟩

/-- What is undefined: using an object after it was freed or as something it is not, and writing past a buffer. -/
inductive PyFault where
  | dangling
  | overflow
  deriving DecidableEq, Repr

/-- What a step shows the user: a new reference, the content of an array, an exception, the end of a loop, or nothing. -/
inductive PyShown (V : Type) where
  | made (o : Nat)
  | content (rows : List (List (V ⊕ Nat)))
  | raised
  | stopped
  | silent
  deriving DecidableEq, Repr

def PyHeap.put {α : Type} (f : Nat → Option α) (i : Nat) (x : Option α) : Nat → Option α :=
  fun j => if j = i then x else f j

/-- The object a user names: only what they hold. -/
def PyHeap.mine {V : Type} (s : PyHeap V) (o : Nat) : Option (PyObj V) := if o ∈ s.held then s.py o else none

/-- A pointer passed to the library. -/
def PyHeap.deref {V : Type} (s : PyHeap V) (own : Nat) : Except PyFault (Nat × CObj V) :=
  match s.py own with
  | some (.owner a) =>
    match s.c a with
    | some x => .ok (a, x)
    | none => .error .dangling
  | _ => .error .dangling

/-- The library makes `x`, `ffi.gc` takes it, and an object made by `mk` from its owner goes to the user. -/
def PyHeap.give {V : Type} (s : PyHeap V) (x : CObj V) (mk : Nat → PyObj V) : PyHeap V :=
  ⟨PyHeap.put s.c s.cNext (some x), s.cNext + 1,
    PyHeap.put (PyHeap.put s.py s.pyNext (some (.owner s.cNext))) (s.pyNext + 1) (some (mk s.pyNext)), s.pyNext + 2,
    s.held ++ [s.pyNext + 1]⟩

/-- The size of the buffer of a column and the sizes of its parts, pygribjump.py:575-576, 652, 679, 686 and 713. -/
def pyColShape (shape : List Nat) : PyCol → List Nat
  | .vals => shape
  | .masks => pyMaskShape shape

/-- What the library leaves in a zeroed buffer of `n` cells, and whether it reports success: `gribjump_result_values`
checks before it copies (gribjump_c.cc:226-239), `gribjump_result_mask` after (243-255). -/
def pyFill {V : Type} (zero : V) (r : ExResult V) (n : Nat) : PyCol → Except PyFault (List (V ⊕ Nat) × Bool)
  | .vals =>
    match cResultValues r (List.replicate n zero) n with
    | .ok out => .ok (out.map .inl, true)
    | .error .ub => .error .overflow
    | .error (.exn _) => .ok (List.replicate n (.inl zero), false)
  | .masks =>
    match writeRows (List.replicate n 0) r.mask 0 with
    | .ok (out, count) => .ok (out.map .inr, decide (count = n))
    | .error _ => .error .overflow

/-- `self.__x = …`. -/
def pySet (slot : PySlot → Option Nat) (k : PySlot) (o : Nat) : PySlot → Option Nat :=
  fun j => if j = k then some o else slot j

/-- What the user, the library and the interpreter may do.  `ok` and `answer` are the outcome of the library call. -/
inductive PyEv (V : Type) where
  | newJump (ok : Bool)
  | newRequest (rs : List Interval) (ok : Bool)
  | ctype (o : Nat)
  | extract (j : Nat) (reqs : List Nat) (answer : Option (List (ExResult V)))
  | single (j : Nat) (rs : List Interval) (answer : Option (List (ExResult V)))
  | axes (j : Nat) (ok : Bool)
  | iter (it : Nat)
  | next (g : Nat)
  | load (r : Nat) (k : PyCol)
  | view (r : Nat) (k : PyCol) (whole : Bool)
  | read (a : Nat)
  | poke (a i : Nat) (x : V ⊕ Nat)
  | drop (o : Nat)
  | collect (o : Nat)

/-- The owner and shape of a request the user holds. -/
def PyHeap.requestOf {V : Type} (s : PyHeap V) (o : Nat) : Option (Nat × List Nat) :=
  match s.mine o with
  | some (.request own sh) => some (own, sh)
  | _ => none

/-- All pointers of a call can be followed, and to requests. -/
def PyHeap.derefAll {V : Type} (s : PyHeap V) : List Nat → Except PyFault Unit
  | [] => .ok ()
  | own :: rest =>
    match s.deref own with
    | .ok (_, .request) => s.derefAll rest
    | .ok _ => .error .dangling
    | .error e => .error e

/-- The iterator is made from the library's answer, or the error is raised before anything is owned. -/
def PyHeap.answered {V : Type} (s : PyHeap V) (answer : Option (List (ExResult V))) (shapeOf : Nat → Option (List Nat)) :
    PyShown V × PyHeap V :=
  match answer with
  | none => (.raised, s)
  | some out =>
    (.made (s.pyNext + 1), s.give (.iterator ⟨out.map some, 0⟩) fun own => .iterator own shapeOf)

/-- One step.  `newJump`: `GribJump()`, pygribjump.py:393-398.  `newRequest`: 143-170.  `ctype`: 204-206 and 556-558.
`extract`: 289-298 with gribjump_c.cc:264-279, which copies the requests.  `single`: 357-377.  `axes`: 523-553, whose object
stays until it is collected.  `iter` and `next`: 300-309 and 379-387 with gribjump_c.cc:388-403.  `load`: 648-658 and
682-693: the attribute is set before the library is called.  `view`: the properties, 592-617, on a loaded buffer (660-680,
695-714).  `read`, `poke`: looking at and writing to an array.  `collect`: the interpreter frees an object and, for an owner,
calls its delete function. -/
def PyHeap.step {V : Type} (zero : V) (s : PyHeap V) : PyEv V → Except PyFault (PyShown V × PyHeap V)
  | .newJump ok => .ok (if ok then (.made (s.pyNext + 1), s.give .jump fun own => .jump own) else (.raised, s))
  | .newRequest rs ok =>
    .ok (if ok then (.made (s.pyNext + 1), s.give .request fun own => .request own (pyShape rs)) else (.raised, s))
  | .ctype o =>
    match s.mine o with
    | some (.jump own) => .ok (.made own, ⟨s.c, s.cNext, s.py, s.pyNext, s.held ++ [own]⟩)
    | some (.request own _) => .ok (.made own, ⟨s.c, s.cNext, s.py, s.pyNext, s.held ++ [own]⟩)
    | _ => .ok (.raised, s)
  | .extract j reqs answer =>
    match s.mine j with
    | some (.jump own) =>
      if (reqs.filterMap s.requestOf).length = reqs.length then
        match s.deref own with
        | .ok (_, .jump) =>
          match s.derefAll ((reqs.filterMap s.requestOf).map Prod.fst) with
          | .ok _ => .ok (s.answered answer fun i => ((reqs.filterMap s.requestOf).map Prod.snd)[i]?)
          | .error e => .error e
        | .ok _ => .error .dangling
        | .error e => .error e
      else .ok (.raised, s)
    | _ => .ok (.raised, s)
  | .single j rs answer =>
    match s.mine j with
    | some (.jump own) =>
      match s.deref own with
      | .ok (_, .jump) => .ok (s.answered answer fun _ => some (pyShape rs))
      | .ok _ => .error .dangling
      | .error e => .error e
    | _ => .ok (.raised, s)
  | .axes j ok =>
    match s.mine j with
    | some (.jump own) =>
      match s.deref own with
      | .ok (_, .jump) =>
        if ok then
          .ok (.silent, ⟨PyHeap.put s.c s.cNext (some .axes), s.cNext + 1,
            PyHeap.put s.py s.pyNext (some (.owner s.cNext)), s.pyNext + 1, s.held⟩)
        else .ok (.raised, s)
      | .ok _ => .error .dangling
      | .error e => .error e
    | _ => .ok (.raised, s)
  | .iter it =>
    match s.mine it with
    | some (.iterator _ _) =>
      .ok (.made s.pyNext, ⟨s.c, s.cNext, PyHeap.put s.py s.pyNext (some (.generator it (some 0))), s.pyNext + 1,
        s.held ++ [s.pyNext]⟩)
    | _ => .ok (.raised, s)
  | .next g =>
    match s.mine g with
    | some (.generator _ none) => .ok (.stopped, s)
    | some (.generator it (some i)) =>
      match s.py it with
      | some (.iterator own shapeOf) =>
        match s.deref own with
        | .ok (a, .iterator src) =>
          match cIterNext src with
          | (none, src') =>
            .ok (.stopped, ⟨PyHeap.put s.c a (some (.iterator src')), s.cNext,
              PyHeap.put s.py g (some (.generator it none)), s.pyNext, s.held⟩)
          | (some r, src') =>
            match shapeOf i with
            | none =>
              .ok (.raised, ⟨PyHeap.put (PyHeap.put s.c a (some (.iterator src'))) s.cNext (some (.result r)), s.cNext + 1,
                PyHeap.put s.py g (some (.generator it none)), s.pyNext, s.held⟩)
            | some sh =>
              .ok (.made (s.pyNext + 1),
                PyHeap.give ⟨PyHeap.put s.c a (some (.iterator src')), s.cNext,
                  PyHeap.put s.py g (some (.generator it (some (i + 1)))), s.pyNext, s.held⟩ (.result r)
                  fun own => .result own sh fun _ => none)
        | .ok _ => .error .dangling
        | .error e => .error e
      | _ => .error .dangling
    | _ => .ok (.raised, s)
  | .load r k =>
    match s.mine r with
    | some (.result own sh slot) =>
      match slot (.buffer k) with
      | some _ => .ok (.silent, s)
      | none =>
        match s.deref own with
        | .ok (_, .result x) =>
          match pyFill zero x (pyColShape sh k).sum k with
          | .ok (cells, ok) =>
            .ok (if ok then .silent else .raised, ⟨s.c, s.cNext,
              PyHeap.put (PyHeap.put s.py s.pyNext (some (.buffer cells))) r
                (some (.result own sh (pySet slot (.buffer k) s.pyNext))), s.pyNext + 1, s.held⟩)
          | .error e => .error e
        | .ok _ => .error .dangling
        | .error e => .error e
    | _ => .ok (.raised, s)
  | .view r k whole =>
    match s.mine r with
    | some (.result own sh slot) =>
      match slot (if whole then .flat k else .split k) with
      | some a => .ok (.made a, ⟨s.c, s.cNext, s.py, s.pyNext, s.held ++ [a]⟩)
      | none =>
        match slot (.buffer k) with
        | none => .ok (.raised, s)
        | some b =>
          .ok (.made s.pyNext, ⟨s.c, s.cNext,
            PyHeap.put (PyHeap.put s.py s.pyNext (some (.array b (if whole then none else some (pyColShape sh k))))) r
              (some (.result own sh (pySet slot (if whole then .flat k else .split k) s.pyNext))), s.pyNext + 1,
            s.held ++ [s.pyNext]⟩)
    | _ => .ok (.raised, s)
  | .read a =>
    match s.mine a with
    | some (.array b sizes) =>
      match s.py b with
      | some (.buffer cells) =>
        .ok (.content (match sizes with | some sh => npSplit cells sh | none => [cells]), s)
      | _ => .error .dangling
    | _ => .ok (.raised, s)
  | .poke a i x =>
    match s.mine a with
    | some (.array b _) =>
      match s.py b with
      | some (.buffer cells) =>
        if i < cells.length then
          .ok (.silent, ⟨s.c, s.cNext, PyHeap.put s.py b (some (.buffer (cells.set i x))), s.pyNext, s.held⟩)
        else .ok (.raised, s)
      | _ => .error .dangling
    | _ => .ok (.raised, s)
  | .drop o => .ok (.silent, ⟨s.c, s.cNext, s.py, s.pyNext, s.held.erase o⟩)
  | .collect o =>
    if o ∈ s.held ∨ (List.range s.pyNext).any (fun p => match s.py p with | some k => decide (o ∈ k.refs) | none => false)
    then .ok (.silent, s)
    else
      match s.py o with
      | some (.owner a) =>
        match s.c a with
        | some _ =>
          .ok (.silent, ⟨PyHeap.put s.c a none, s.cNext, PyHeap.put s.py o none, s.pyNext, s.held⟩)
        | none => .error .dangling
      | _ => .ok (.silent, ⟨s.c, s.cNext, PyHeap.put s.py o none, s.pyNext, s.held⟩)

/-- Any sequence of such steps. -/
def PyHeap.run {V : Type} (zero : V) : List (PyEv V) → PyHeap V → Except PyFault (List (PyShown V) × PyHeap V)
  | [], s => .ok ([], s)
  | e :: es, s =>
    match s.step zero e with
    | .error f => .error f
    | .ok (o, s') =>
      match PyHeap.run zero es s' with
      | .error f => .error f
      | .ok (os, t) => .ok (o :: os, t)

/-- `result.values`, `.masks`, `.values_flat` and `.masks_flat`, pygribjump.py:592-617: an attribute that is set is returned;
otherwise the buffer is loaded and viewed.  Only a result without that attribute loads. -/
def PyHeap.property {V : Type} (zero : V) (s : PyHeap V) (r : Nat) (k : PyCol) (whole : Bool) :
    Except PyFault (PyShown V × PyHeap V) :=
  match s.mine r with
  | some (.result _ _ slot) =>
    match slot (if whole then .flat k else .split k) with
    | some _ => s.step zero (.view r k whole)
    | none =>
      match s.step zero (.load r k) with
      | .ok (.silent, s') => s'.step zero (.view r k whole)
      | out => out
  | _ => .ok (.raised, s)

end GJ
