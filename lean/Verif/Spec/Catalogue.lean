import Verif.Spec.Request
import Verif.Model.Engine

/-!
# The catalogue and the data behind it
-/

namespace GJ.Spec

open GJ

/-- Two entries name the same field. -/
def SameEntry (ig : Bool) (a b : FdbKey) : Prop :=
  ((essential ig a).filter fun p => p.2 ≠ []).Perm ((essential ig b).filter fun p => p.2 ≠ [])

/-- A catalogue: entries with the place of their field; no field twice; a path belongs to one place. -/
structure Catalogue (ig : Bool) (cat : List (FdbKey × Uri)) : Prop where
  good : ∀ e ∈ cat, GoodEntry e.1
  distinct : ∀ a ∈ cat, ∀ b ∈ cat, SameEntry ig a.1 b.1 → a = b
  place : ∀ a ∈ cat, ∀ b ∈ cat, a.2.path = b.2.path →
    a.2.scheme = b.2.scheme ∧ a.2.host = b.2.host ∧ a.2.port = b.2.port

/-- Listing the catalogue gives entries of it, each at most once. -/
def ListsOnly (E : ExtEnv) (cat : List (FdbKey × Uri)) : Prop :=
  ∀ u L, E.list u = .ok L → (∀ e ∈ L, e ∈ cat) ∧ L.Nodup

/-- An entry is covered by a union request: every name in the request occurs in the entry with one of the values asked
for (this is how the catalogue selects entries). -/
def Selected (ig : Bool) (u : Union) (e : FdbKey) : Prop :=
  ∀ k vs, u.find k = some vs → ∃ v ∈ vs, (k, v) ∈ (essential ig e).filter fun p => p.2 ≠ []

/-- Listing finds every entry selected. -/
def ListsAll (ig : Bool) (E : ExtEnv) (cat : List (FdbKey × Uri)) : Prop :=
  ∀ u, ∃ L, E.list u = .ok L ∧ ∀ e ∈ cat, Selected ig u e.1 → e ∈ L

/-- What is sent to a server: files, each once, with items in these files at an endpoint this server is responsible
for, by offset. -/
structure Addressed (C : EngineConf) (server : String × Int) (fm : FileMap) : Prop where
  files : fm.keys.Nodup
  place : ∀ f ∈ fm, ∀ i ∈ f.2, i.uri.path = f.1 ∧ C.servers.find (i.uri.host, i.uri.port) = some server
  sorted : ∀ f ∈ fm, f.2.Pairwise fun a b => a.uri.offset ≤ b.uri.offset

/-- What the rest of the system delivers is right: `info` is the metadata of the message at an offset of a file,
`content` the values in given ranges of the field at a place.  A server answers correctly for the places it serves. -/
structure Honest (E : ExtEnv) (C : EngineConf) (info : String → Nat → Info)
    (content : Uri → List Interval → WireResult) : Prop where
  infos : ∀ t f offs is, E.infos t f offs = .ok is → is = offs.map (info f)
  jump : ∀ t (u : Uri) rs r, u.scheme ≠ "fdb" → E.jump t u.path u.offset (info u.path u.offset) rs = .ok r →
    r = content u rs
  fetch : ∀ t u rs r, E.fetch t u rs = .ok r → r = content u rs
  forward : ∀ t server fm back, Addressed C server fm → E.forward t server fm = .ok back → ∀ f items, (f, items) ∈ fm →
    ∃ items', back.find f = some items' ∧ items'.length = items.length ∧
      ∀ (j : Nat) i i' r, items[j]? = some i → items'[j]? = some i' → i'.result = some r →
        r = content i.uri i.request.ranges

end GJ.Spec
