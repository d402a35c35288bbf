/-! # Specification: what a bounded least-recently-used map holds, as a function of its history -/

namespace GJ.Spec

inductive CacheOp (K V : Type) where
  | put (k : K) (v : V)
  | get (k : K)
  | has (k : K)
  | clear

/-- What a user observes of one operation. -/
inductive CacheObs (V : Type) where
  | done
  | value (v : Option V)   -- `none`: reported as absent
  | found (b : Bool)
  deriving DecidableEq

variable {K V : Type} [DecidableEq K]

/-- All keys used since the last `clear`, most recently used first.  Storing uses a key; looking up a
key uses it if it is among the `cap` most recent ones. -/
def recency (cap : Nat) : List K → List (CacheOp K V) → List K
  | l, [] => l
  | l, .put k _ :: ops => recency cap (k :: l.filter (· ≠ k)) ops
  | l, .get k :: ops =>
    if k ∈ l.take cap then recency cap (k :: l.filter (· ≠ k)) ops else recency cap l ops
  | l, .has _ :: ops => recency cap l ops
  | _, .clear :: ops => recency cap [] ops

/-- The value last stored for a key since the last `clear`. -/
def lastPut (k : K) : Option V → List (CacheOp K V) → Option V
  | v, [] => v
  | v, .put k' v' :: ops => lastPut k (if k' = k then some v' else v) ops
  | v, .get _ :: ops => lastPut k v ops
  | v, .has _ :: ops => lastPut k v ops
  | _, .clear :: ops => lastPut k none ops

/-- What the next operation should observe after a history. -/
def cacheObs (cap : Nat) (history : List (CacheOp K V)) : CacheOp K V → CacheObs V
  | .put _ _ => .done
  | .get k => .value (if k ∈ (recency cap [] history).take cap then lastPut k none history else none)
  | .has k => .found (decide (k ∈ (recency cap [] history).take cap))
  | .clear => .done

end GJ.Spec
