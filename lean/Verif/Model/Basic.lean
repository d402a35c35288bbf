/-!
# Outcomes

Common outcome type of the model. A C++ function that may throw returns `Res`.
An exception is `Fault.exn`; undefined behaviour is `Fault.ub` and is never identified with
an exception or with a normal result.
-/

namespace GJ

/-- The exception classes the modelled code throws (eckit `ASSERT` throws `AssertionFailed`). -/
inductive Exn where
  | assertFailed
  | outOfRange
  | badValue
  | seriousBug
  | userError
  | readError
  | badJumpInfo
  | jumpInfoDisabled
  | dataNotFound
  | remote
  | notImplemented
  | lengthError
  | streamError
  | ioError
  /-- `GribJumpException` itself, not one of its subclasses -/
  | gribJump
  /-- `eckit::FailedLibraryCall` -/
  | libraryCall
  /-- `std::terminate`: an exception left a thread -/
  | terminated
  deriving DecidableEq, Repr

/-- A non-normal outcome: a thrown exception or undefined behaviour. -/
inductive Fault where
  | exn (e : Exn)
  | ub
  deriving DecidableEq, Repr

/-- Result of a modelled call. -/
abbrev Res (α : Type) := Except Fault α

instance {α : Type} [DecidableEq α] : DecidableEq (Res α)
  | .ok a, .ok b => if h : a = b then isTrue (by rw [h]) else isFalse (by intro h'; cases h'; exact h rfl)
  | .error a, .error b => if h : a = b then isTrue (by rw [h]) else isFalse (by intro h'; cases h'; exact h rfl)
  | .ok _, .error _ => isFalse (by intro h; cases h)
  | .error _, .ok _ => isFalse (by intro h; cases h)

/-- `throw` of a modelled exception. -/
@[reducible] def throwExn {α : Type} (e : Exn) : Res α := .error (.exn e)

/-- Undefined behaviour. -/
@[reducible] def undef {α : Type} : Res α := .error .ub

/-- eckit `ASSERT(c)`: throws when the condition is false. -/
def cassert (c : Bool) : Res Unit := if c then .ok () else throwExn .assertFailed

theorem ok_bind {α β : Type} (a : α) (f : α → Res β) : ((.ok a : Res α) >>= f) = f a := rfl

theorem error_bind {α β : Type} (e : Fault) (f : α → Res β) :
    ((.error e : Res α) >>= f) = .error e := rfl

end GJ
