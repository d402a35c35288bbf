import Verif.Model.Map

/-!
# Least-recently-used cache

Models `/repo/src/gribjump/info/LRUCache.h`.
-/

namespace GJ

/-- Members of `LRUCache`, LRUCache.h:67-69. -/
structure LRU (K V : Type) where
  cap : Nat
  list : List K
  map : AMap K V

namespace LRU

variable {K V : Type} [DecidableEq K]

/-- Constructor, LRUCache.h:26. -/
def empty (cap : Nat) : LRU K V := ⟨cap, [], []⟩

/-- `list_.remove(key); list_.push_front(key)`. -/
def touch (l : List K) (k : K) : List K := k :: l.filter (fun x => decide (x ≠ k))

/-- `put`, LRUCache.h:28-42.  `list_.back()` of an empty list is undefined. -/
def put (c : LRU K V) (k : K) (v : V) : Res (LRU K V) :=
  match c.map.find k with
  | none =>
    if c.list.length = c.cap then
      match c.list.getLast? with
      | none => undef
      | some last => .ok { c with list := k :: c.list.dropLast, map := (c.map.erase last).set k v }
    else .ok { c with list := k :: c.list, map := c.map.set k v }
  | some _ => .ok { c with list := touch c.list k, map := c.map.set k v }

/-- `get`, LRUCache.h:45-52. -/
def get (c : LRU K V) (k : K) : Res (V × LRU K V) :=
  match c.map.find k with
  | none => throwExn .badValue
  | some v => .ok (v, { c with list := touch c.list k })

/-- `exists`, LRUCache.h:54. -/
def exists? (c : LRU K V) (k : K) : Bool := (c.map.find k).isSome

/-- `clear`, LRUCache.h:60-63. -/
def clear (c : LRU K V) : LRU K V := { c with list := [], map := [] }

end LRU

end GJ
