import Verif.Lemmas.Grow
import Verif.Props.C29
import Verif.Props.C31
import Verif.Props.C49

/-!
# C50: a request through the whole of a node

The theorems about the engine (C27) assume that metadata and values delivered to it are right.  Here these
assumptions are discharged: the metadata comes from the cache after any history, the values from the data files or the
store.
-/

namespace GJ
open Spec

/-- A disk now, and the same disk later: files were appended to or created. -/
def Disk.Before (d d' : Disk) : Prop := ∀ f c, d f = some c → ∃ more, d' f = some (c ++ more)

/-- What the message at a place holds in given ranges, by reading its header and decoding it: from the file, or from
the message kept in the store. -/
def FieldAt (R : Reader UInt64) (d : Disk) (stored : Uri → List UInt8) (u : Uri) (is : List Interval) (r : WireResult) :
    Prop :=
  if u.scheme = "fdb" then messageExtract R (stored u) 0 is = .ok r
  else ∃ file, d u.path = some file ∧ messageExtract R file u.offset is = .ok r

/-- The engine works on the files of this node: its lookups are answered by the cache in the course of its history, its
tasks read the data files as they were at some time. -/
structure Reads (E : ExtEnv) (R : Reader UInt64) (s : Svc UInt64) : Prop where
  infos : ∀ t f os is, E.infos t f os = .ok is → (⟨f, os, .ok is⟩ : Answer) ∈ s.sys.answers
  jump : ∀ t f o i is, ∃ d : Disk, d.Before s.disk ∧ E.jump t f o i is = diskJump R d f o i is

/-- The same with a store and other servers: messages come from the store, and other servers deliver right values. -/
structure Behind (E : ExtEnv) (C : EngineConf) (R : Reader UInt64) (s : Svc UInt64) (S : Store)
    (stored : Uri → List UInt8) : Prop extends Reads E R s where
  fetch : ∀ t u is, E.fetch t u is = slowExtract R S u is
  store : ∀ u msg answers, S.read u = .ok (msg, answers) → msg = stored u ∧ S.length u = some msg.length ∧
    AtOnce msg answers ∧ ∃ h, GoodMessage R msg h
  forward : ∀ t server fm back, Addressed C server fm → E.forward t server fm = .ok back → ∀ f items, (f, items) ∈ fm →
    ∃ items', back.find f = some items' ∧ items'.length = items.length ∧
      ∀ (j : Nat) i i' r, items[j]? = some i → items'[j]? = some i' → i'.result = some r →
        FieldAt R s.disk stored i.uri i.request.ranges r

/-- A total function for the values of a place; `dflt` where there are none. -/
def contentOf (R : Reader UInt64) (d : Disk) (stored : Uri → List UInt8) (dflt : WireResult) (u : Uri)
    (is : List Interval) : WireResult :=
  if u.scheme = "fdb" then ((messageExtract R (stored u) 0 is).toOption).getD dflt
  else match d u.path with
    | none => dflt
    | some file => ((messageExtract R file u.offset is).toOption).getD dflt

theorem FieldAt.content {R : Reader UInt64} {d : Disk} {stored : Uri → List UInt8} {u : Uri} {is : List Interval}
    {r : WireResult} (h : FieldAt R d stored u is r) (dflt : WireResult) : r = contentOf R d stored dflt u is := by
  unfold FieldAt at h
  unfold contentOf
  split
  · rename_i hs; rw [if_pos hs] at h; rw [h]; rfl
  · rename_i hs
    rw [if_neg hs] at h
    obtain ⟨file, hd, hm⟩ := h
    rw [hd]; simp only; rw [hm]; rfl

/-- With two defaults that differ, the same content means that there is one. -/
theorem contentOf_real {R : Reader UInt64} {d : Disk} {stored : Uri → List UInt8} {u : Uri} {is : List Interval}
    {a b : WireResult} (hab : a ≠ b) (h : contentOf R d stored a u is = contentOf R d stored b u is) :
    FieldAt R d stored u is (contentOf R d stored a u is) := by
  unfold FieldAt
  unfold contentOf at h ⊢
  split
  · rename_i hs
    rw [if_pos hs, if_pos hs] at h
    cases hm : messageExtract R (stored u) 0 is with
    | error e => rw [hm] at h; exact absurd h hab
    | ok r => rfl
  · rename_i hs
    rw [if_neg hs, if_neg hs] at h
    cases hd : d u.path with
    | none => rw [hd] at h; exact absurd h hab
    | some file =>
      rw [hd] at h
      simp only at h ⊢
      refine ⟨file, rfl, ?_⟩
      cases hm : messageExtract R file u.offset is with
      | error e => rw [hm] at h; exact absurd h hab
      | ok r => rfl

/-- The metadata of the message at a place, or metadata no jumper accepts. -/
def infoAt (R : Reader UInt64) (offs : List UInt8 → Res (List Nat)) (d : Disk) (f : String) (o : Nat) : Info :=
  (((diskWorld R offs d).data f o).toOption).getD (.unsupported ⟨0, 0, 0, 0, 0, 0, 0, 0, 0, 0, 0, 0, 0, "", ""⟩)

theorem mapM_infoAt {R : Reader UInt64} {offs : List UInt8 → Res (List Nat)} {d : Disk} {f : String} :
    ∀ {os : List Nat} {is : List Info}, os.mapM ((diskWorld R offs d).data f) = .ok is →
      is = os.map (infoAt R offs d f) := by
  intro os
  induction os with
  | nil => intro is h; rw [List.mapM_nil] at h; cases h; rfl
  | cons o os ih =>
    intro is h
    rw [mapM_res_cons] at h
    obtain ⟨i, hi, h⟩ := res_bind_inv h
    obtain ⟨is', his, h⟩ := res_bind_inv h
    cases h
    rw [List.map_cons, ← ih his]
    congr 1
    unfold infoAt
    rw [hi]; rfl

/-- The assumptions of the engine theorems hold on a node. -/
theorem honest_of_behind {E : ExtEnv} {C : EngineConf} {R : Reader UInt64} {offs : List UInt8 → Res (List Nat)}
    {s : Svc UInt64} {S : Store} {stored : Uri → List UInt8} {U : String → Prop} (g : SvcGood R offs U s)
    (b : Behind E C R s S stored) (dflt : WireResult) :
    Honest E C (infoAt R offs s.disk) (contentOf R s.disk stored dflt) where
  infos t f os is h := by
    have := g.cache.answers _ (b.infos t f os is h) is rfl
    rw [g.world] at this
    exact mapM_infoAt this
  jump t u rs r hs h := by
    obtain ⟨d, hb, hj⟩ := b.jump t u.path u.offset (infoAt R offs s.disk u.path u.offset) rs
    rw [hj] at h
    apply FieldAt.content
    unfold FieldAt
    rw [if_neg hs]
    unfold diskJump at h
    cases hd : d u.path with
    | none => rw [hd] at h; cases h
    | some file =>
      rw [hd] at h
      obtain ⟨more, hnow⟩ := hb _ _ hd
      refine ⟨_, hnow, ?_⟩
      have hx := jumperExtract_grown R file more u.offset _ rs r h
      cases hi : buildInfo R (file ++ more) u.offset with
      | error e =>
        have : infoAt R offs s.disk u.path u.offset =
            .unsupported ⟨0, 0, 0, 0, 0, 0, 0, 0, 0, 0, 0, 0, 0, "", ""⟩ := by
          unfold infoAt diskWorld
          simp only [hnow, hi]
          rfl
        rw [this] at hx
        cases hx
      | ok i =>
        have : infoAt R offs s.disk u.path u.offset = i := by
          unfold infoAt diskWorld
          simp only [hnow, hi]
          rfl
        rw [this] at hx
        unfold messageExtract
        rw [hi, ok_bind]
        exact hx
  fetch t u rs r h := by
    rw [b.fetch] at h
    apply FieldAt.content
    unfold FieldAt
    by_cases hs : u.scheme = "fdb"
    · rw [if_pos hs]
      cases hr : S.read u with
      | error e =>
        unfold slowExtract at h
        rw [if_neg (fun hn => hn hs)] at h
        split at h
        · cases h
        · rw [hr, error_bind] at h; cases h
      | ok p =>
        obtain ⟨msg, answers⟩ := p
        obtain ⟨h1, h2, h3, hd, h4⟩ := b.store u msg answers hr
        subst h1
        rw [C46_fallback_equals_file_partial R S u _ hd h4 hs h2 answers hr h3 (stored u) 0
          ⟨[], [], by simp, rfl⟩ rs] at h
        exact h
    · rw [(C46_other_locations_refused R S u rs).1 hs] at h
      cases h
  forward t server fm back hk h f items hm := by
    obtain ⟨items', h1, h2, h3⟩ := b.forward t server fm back hk h f items hm
    exact ⟨items', h1, h2, fun j i i' r a b c => (h3 j i i' r a b c).content dflt⟩

/-- C50.  A node has a history of lookups, scans, insertions, flushes, restarts of its memory and growing files, and is
asked for fields.  If the call returns, there is one result per request, in order, and the result for a request holds
exactly what decoding the one matching message of the catalogue gives in the ranges asked for.  Missing from the full
property: file names the cache confuses (`ToldApart`, see C15), the store's delivery in several reads (see C46). -/
theorem C50_whole_node_partial (E : ExtEnv) (C : EngineConf) (R : Reader UInt64) (sound : SoundReader R)
    (offs : List UInt8 → Res (List Nat)) (hoffs : ∀ file, offs file ≠ undef) (U : String → Prop) (d : Disk)
    (mode : CacheMode) (lazy : Bool) (cap : Nat) (fs : FS) (apart : ToldApart mode U) (room : 0 < cap)
    (agree : GoodIndex (diskWorld R offs d) U mode fs) (es : List SEv) (allowed : ∀ e ∈ es, e.Allowed U)
    (s : Svc UInt64) (history : (Svc.start R offs d mode lazy cap fs).run R offs es = .ok s) (S : Store)
    (stored : Uri → List UInt8) (node : Behind E C R s S stored) (cat : List (FdbKey × Uri))
    (catalogue : Catalogue C.ignoreYearMonth cat) (lists : ListsOnly E cat) (sched : List Nat) (rs : List ExRequest)
    (ws : List WrittenRequest) (written : Written rs ws) (strict : C.allowMissing = false) (out : List WireResult)
    (returned : localExtract E C sched rs = .ok out) :
    out.length = rs.length ∧ ∀ i (hi : i < rs.length) (hj : i < ws.length),
      ∃ e ∈ cat, SameField C.ignoreYearMonth ws[i].pairs e.1 ∧
        (∀ e' ∈ cat, SameField C.ignoreYearMonth ws[i].pairs e'.1 → e' = e) ∧
        ∃ r, out[i]? = some r ∧ FieldAt R s.disk stored e.2 rs[i].ranges r := by
  obtain ⟨s', h1, g⟩ := (SvcGood.start (lazy := lazy) hoffs apart room agree).run sound hoffs es allowed
  rw [history] at h1
  cases h1
  obtain ⟨hlen, ha⟩ := C27_results_in_request_order E C _ _ (honest_of_behind g node ⟨[], []⟩) cat catalogue lists sched
    rs ws written strict out returned
  obtain ⟨-, hb⟩ := C27_results_in_request_order E C _ _ (honest_of_behind g node ⟨[[]], []⟩) cat catalogue lists sched
    rs ws written strict out returned
  refine ⟨hlen, fun i hi hj => ?_⟩
  obtain ⟨e, he, hs, hu, hr⟩ := ha i hi hj
  obtain ⟨e', he', hs', -, hr'⟩ := hb i hi hj
  have hee := hu e' he' hs'
  subst hee
  refine ⟨e', he', hs, hu, _, hr, contentOf_real (a := ⟨[], []⟩) (b := ⟨[[]], []⟩) (by decide) ?_⟩
  rw [hr] at hr'
  exact Option.some.inj hr'

/-- C50.  The same for requests by path: each result is what the message at its own place holds in its own ranges,
provided requests for the same path agree on scheme, host and port. -/
theorem C50_whole_node_paths_partial (E : ExtEnv) (C : EngineConf) (R : Reader UInt64) (sound : SoundReader R)
    (offs : List UInt8 → Res (List Nat)) (hoffs : ∀ file, offs file ≠ undef) (U : String → Prop) (d : Disk)
    (mode : CacheMode) (lazy : Bool) (cap : Nat) (fs : FS) (apart : ToldApart mode U) (room : 0 < cap)
    (agree : GoodIndex (diskWorld R offs d) U mode fs) (es : List SEv) (allowed : ∀ e ∈ es, e.Allowed U)
    (s : Svc UInt64) (history : (Svc.start R offs d mode lazy cap fs).run R offs es = .ok s) (S : Store)
    (stored : Uri → List UInt8) (node : Behind E C R s S stored) (sched : List Nat) (rs : List PathReq)
    (place : ∀ a ∈ rs, ∀ b ∈ rs, a.path = b.path → a.scheme = b.scheme ∧ a.host = b.host ∧ a.port = b.port)
    (out : List WireResult) (returned : localExtractPaths E C sched rs = .ok out) :
    out.length = rs.length ∧ ∀ (i : Nat) q, rs[i]? = some q →
      ∃ r, out[i]? = some r ∧ FieldAt R s.disk stored ⟨q.scheme, q.host, q.port, q.path, q.offset⟩ q.ranges r := by
  obtain ⟨s', h1, g⟩ := (SvcGood.start (lazy := lazy) hoffs apart room agree).run sound hoffs es allowed
  rw [history] at h1
  cases h1
  have ha := C27_path_results_in_request_order E C _ _ (honest_of_behind g node ⟨[], []⟩) sched rs place out returned
  have hb := C27_path_results_in_request_order E C _ _ (honest_of_behind g node ⟨[[]], []⟩) sched rs place out returned
  refine ⟨by rw [ha, List.length_map], fun i q hq => ?_⟩
  have h1 : out[i]? = some (contentOf R s.disk stored ⟨[], []⟩ q.uri q.ranges) := by
    rw [ha, List.getElem?_map, hq]; rfl
  have h2 : out[i]? = some (contentOf R s.disk stored ⟨[[]], []⟩ q.uri q.ranges) := by
    rw [hb, List.getElem?_map, hq]; rfl
  refine ⟨_, h1, contentOf_real (a := ⟨[], []⟩) (b := ⟨[[]], []⟩) (by decide) ?_⟩
  rw [h1] at h2
  exact Option.some.inj h2

/-- C50.  With grid checks on, values come only from messages whose own header states the grid hash of the request
(fields in files; see C39 for the others). -/
theorem C50_grid_of_the_message_partial (E : ExtEnv) (C : EngineConf) (R : Reader UInt64) (sound : SoundReader R)
    (offs : List UInt8 → Res (List Nat)) (hoffs : ∀ file, offs file ≠ undef) (U : String → Prop) (d : Disk)
    (mode : CacheMode) (lazy : Bool) (cap : Nat) (fs : FS) (apart : ToldApart mode U) (room : 0 < cap)
    (agree : GoodIndex (diskWorld R offs d) U mode fs) (es : List SEv) (allowed : ∀ e ∈ es, e.Allowed U)
    (s : Svc UInt64) (history : (Svc.start R offs d mode lazy cap fs).run R offs es = .ok s) (S : Store)
    (stored : Uri → List UInt8) (node : Behind E C R s S stored) (cat : List (FdbKey × Uri))
    (catalogue : Catalogue C.ignoreYearMonth cat) (lists : ListsOnly E cat) (inFiles : ∀ e ∈ cat, e.2.scheme ≠ "fdb")
    (sched : List Nat) (rs : List ExRequest) (ws : List WrittenRequest) (written : Written rs ws)
    (strict : C.allowMissing = false) (here : C.forward = false) (checks : C.ignoreGrid = false)
    (out : List WireResult) (returned : localExtract E C sched rs = .ok out) :
    ∀ i (hi : i < rs.length) (hj : i < ws.length), ∃ e ∈ cat, SameField C.ignoreYearMonth ws[i].pairs e.1 ∧
      ∃ file h, s.disk e.2.path = some file ∧ R.parse (file.drop e.2.offset) = some h ∧
        rs[i].gridHash = h.md5GridSection := by
  obtain ⟨s', h1, g⟩ := (SvcGood.start (lazy := lazy) hoffs apart room agree).run sound hoffs es allowed
  rw [history] at h1
  cases h1
  have hh := honest_of_behind g node ⟨[], []⟩
  intro i hi hj
  obtain ⟨e, he, hs, hne, hg⟩ := C39_grid_hash_checked E C _ hh.infos cat catalogue lists inFiles sched rs ws written
    strict here checks out returned i hi hj
  refine ⟨e, he, hs, ?_⟩
  have hd : ∃ x, (diskWorld R offs s.disk).data e.2.path e.2.offset = .ok x ∧
      infoAt R offs s.disk e.2.path e.2.offset = x := by
    unfold infoAt at hg ⊢
    cases hx : (diskWorld R offs s.disk).data e.2.path e.2.offset with
    | error y => rw [hx] at hg; exact absurd hg hne
    | ok x => exact ⟨x, rfl, rfl⟩
  obtain ⟨x, hx, hix⟩ := hd
  rw [hix] at hg
  simp only [diskWorld] at hx
  cases hf : s.disk e.2.path with
  | none => rw [hf] at hx; cases hx
  | some file =>
    rw [hf] at hx
    obtain ⟨h, hp, hm, -⟩ := C48_metadata_as_stated R file e.2.offset x hx
    exact ⟨file, h, rfl, hp, hg.trans hm⟩

/-! ## A case

Two fields in a file, one of them appended later, and one behind a store. -/

def c50Steps : List SEv :=
  [.cache (.lookup "/fdb/a.data" [0]), .append "/fdb/a.data" [0x47, 2, 7, 8], .cache (.answer 0),
   .cache (.lookup "/fdb/a.data" [0, 6]), .cache (.answer 0)]

def c50Run : Res (Svc UInt64) :=
  (Svc.start toyReader (fun _ => .ok []) toyDisk .shadow true 16 []).run toyReader (fun _ => .ok []) c50Steps

def c50State : Svc UInt64 := (c50Run.toOption).getD (Svc.start toyReader (fun _ => .ok []) toyDisk .shadow true 16 [])

def c50Cat : List (FdbKey × Uri) :=
  [(c27Key "0", ⟨"file", "", 0, "/fdb/a.data", 6⟩), (c27Key "12", ⟨"file", "", 0, "/fdb/a.data", 0⟩),
   (c27Key "6", ⟨"fdb", "host", 1, "x", 0⟩)]

def c50Store : Store := toyStore toyMessage 6 [some 100]

def c50Env : ExtEnv where
  list _ := .ok c50Cat
  infos _ f os := match c50State.sys.answers.find? fun a => a.path = f && a.offsets = os with
    | some a => a.result
    | none => throwExn .ioError
  jump _ f o i is := diskJump toyReader c50State.disk f o i is
  fetch _ u is := slowExtract toyReader c50Store u is
  forward _ _ _ := throwExn .ioError

def c50Conf : EngineConf := { c27Conf with inefficient := true }

def c50Reqs : List ExRequest :=
  [⟨"retrieve,step=6,date=20250101", [⟨0, 4⟩], "g"⟩, ⟨"retrieve,step=12,date=20250101", [⟨1, 2⟩, ⟨2, 4⟩], "g"⟩,
   ⟨"retrieve,step=0,date=20250101", [⟨0, 2⟩], "g"⟩]

theorem c50_behind : Behind c50Env c50Conf toyReader c50State c50Store (fun _ => toyMessage) where
  infos t f os is h := by
    simp only [c50Env] at h
    split at h
    · rename_i a ha
      have h1 := List.mem_of_find?_eq_some ha
      have h2 := List.find?_some ha
      simp only [Bool.and_eq_true, decide_eq_true_iff] at h2
      obtain ⟨p, o, r⟩ := a
      simp only at h h2
      rw [← h2.1, ← h2.2, ← h]
      exact h1
    · cases h
  jump t f o i is := ⟨c50State.disk, fun f c h => ⟨[], by rw [List.append_nil]; exact h⟩, rfl⟩
  fetch t u is := rfl
  store u msg answers h := by
    cases h
    exact ⟨rfl, rfl, ⟨100, [], rfl, by decide, fun a ha => by cases ha⟩, _, toyGood⟩
  forward t server fm back _ h := by cases h

/-- Non-vacuity of C50: a node with a history, and a call that returns. -/
example : Behind c50Env c50Conf toyReader c50State c50Store (fun _ => toyMessage) ∧ c50Run = .ok c50State ∧
    (∀ e ∈ c50Steps, e.Allowed oneFile) ∧ Written c50Reqs c27Written ∧ Catalogue true c50Cat ∧
    ListsOnly c50Env c50Cat ∧
    localExtract c50Env c50Conf [1, 0, 1, 0, 0, 1] c50Reqs =
      .ok [⟨[[10, 11, 12, 13]], [[15]]⟩, ⟨[[11], [12, 13]], [[1], [3]]⟩, ⟨[[7, 8]], [[3]]⟩] := by
  refine ⟨c50_behind, ?_, ?_, ?_, catalogue_of (by decide +kernel) (by decide +kernel) (by decide +kernel), ?_, ?_⟩
  · have : c50Run.toOption.isSome = true := by decide +kernel
    unfold c50State
    cases h : c50Run with
    | error e => rw [h] at this; cases this
    | ok s => rfl
  · intro e he
    simp only [c50Steps, List.mem_cons, List.mem_nil_iff, or_false] at he
    rcases he with rfl | rfl | rfl | rfl | rfl <;> first | rfl | trivial
  · exact ⟨by decide +kernel, c27_written.2⟩
  · intro u L h
    have := Except.ok.inj h
    subst this
    exact ⟨fun e he => he, by decide +kernel⟩
  · decide +kernel

end GJ
