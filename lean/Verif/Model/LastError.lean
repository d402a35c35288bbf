import Verif.Model.Basic

/-!
# The error text of the C interface

Models `LAST_ERROR_STR`, `tryCatch` and `gribjump_error_string` of `/repo/src/gribjump/gribjump_c.cc:28-63`, and the wrapper
with which Python turns a failed call into an exception (`/repo/python/pygribjump/src/pygribjump/pygribjump.py:85-122`).

The text is one variable for all threads and is not protected by a lock; cffi releases Python's interpreter lock during a
call.  So the steps of different threads interleave in any order.  Assigning the text and copying it out take time: if
another thread assigns meanwhile, the behaviour is undefined.
-/

namespace GJ

/-- Where a thread is between the failure of its call and its exception; with what its call reported, and the name of the
function it called. -/
inductive ErrPc where
  | idle
  /-- assigning to `LAST_ERROR_STR` -/
  | writing (fn msg : String)
  /-- `tryCatch` has returned `GRIBJUMP_ERROR` -/
  | failed (fn msg : String)
  /-- between `gribjump_error_string` and the end of `ffi.string` -/
  | reading (fn msg : String)
  deriving DecidableEq

/-- An exception a user sees: for which call, with which message of that call, and the text it has. -/
structure Raised where
  thread : Nat
  fn : String
  msg : String
  text : String
  deriving DecidableEq

structure ErrSys where
  threads : List ErrPc
  last : String
  raised : List Raised
  /-- a data race has happened -/
  race : Bool

/-- gribjump_c.cc:30. -/
def ErrSys.init (n : Nat) : ErrSys := ⟨List.replicate n .idle, "Unknown error", [], false⟩

inductive ErrEv where
  /-- a call of thread `t` fails: the handler starts to assign -/
  | fail (t : Nat) (fn msg : String)
  | assigned (t : Nat)
  | ask (t : Nat)
  | raise (t : Nat)

def ErrPc.isWriting : ErrPc → Bool
  | .writing _ _ => true
  | _ => false

def ErrPc.isReading : ErrPc → Bool
  | .reading _ _ => true
  | _ => false

/-- The exception's text, pygribjump.py:103-106, 114-117. -/
def errorText (fn err : String) : String := "Error in function '" ++ fn ++ "': " ++ err

/-- One step; steps that are not possible change nothing. -/
def ErrSys.step (s : ErrSys) : ErrEv → ErrSys
  /- gribjump_c.cc:50-54 -/
  | .fail t fn msg => match s.threads[t]? with
    | some .idle =>
      { s with threads := s.threads.set t (.writing fn msg),
               race := s.race || s.threads.any fun x => x.isWriting || x.isReading }
    | _ => s
  | .assigned t => match s.threads[t]? with
    | some (.writing fn msg) => { s with threads := s.threads.set t (.failed fn msg), last := msg }
    | _ => s
  /- pygribjump.py:102-105, 113-116 -/
  | .ask t => match s.threads[t]? with
    | some (.failed fn msg) =>
      { s with threads := s.threads.set t (.reading fn msg), race := s.race || s.threads.any ErrPc.isWriting }
    | _ => s
  | .raise t => match s.threads[t]? with
    | some (.reading fn msg) =>
      { s with threads := s.threads.set t .idle, raised := s.raised ++ [⟨t, fn, msg, errorText fn s.last⟩] }
    | _ => s

def ErrSys.run (s : ErrSys) (es : List ErrEv) : ErrSys := es.foldl ErrSys.step s

end GJ
