import Verif.Model.Cluster
import Verif.Props.C22
import Verif.Props.C51

/-!
# C52: scans forwarded to several nodes
-/

namespace GJ
open Spec

/-- The server responsible for a location. -/
def serverOf (C : ScanConf) (u : Uri) : Option (String × Int) := C.servers.find (u.host, u.port)

/-- A listed message that the server responsible for it has not indexed. -/
def missingThere (C : ScanConf) (cache : String × Int → Cache) (u : Uri) : Bool :=
  match serverOf C u with
  | none => false
  | some s => ((cache s).indexed u.path u.offset).isNone

/-- Each location counts at exactly one server. -/
theorem count_by_server (C : ScanConf) (cache : String × Int → Cache) (us : List Uri) (ks : List (String × Int))
    (hn : ks.Nodup) (hall : ∀ u ∈ us, ∃ s ∈ ks, serverOf C u = some s) :
    (ks.map fun s => ((sentTo C us s).filter fun u => ((cache s).indexed u.path u.offset).isNone).length).sum
      = (us.filter (missingThere C cache)).length := by
  induction us with
  | nil =>
    simp only [sentTo, List.filter_nil, List.length_nil]
    clear hn hall
    induction ks with
    | nil => rfl
    | cons k ks ih => rw [List.map_cons, List.sum_cons, ih]
  | cons u us ih =>
    obtain ⟨s, hs, hsu⟩ := hall u (List.mem_cons_self ..)
    have ih := ih fun v hv => hall v (List.mem_cons_of_mem _ hv)
    have hone : ∀ (ks : List (String × Int)), ks.Nodup →
        (ks.map fun s => ((sentTo C (u :: us) s).filter fun u => ((cache s).indexed u.path u.offset).isNone).length).sum
        = (ks.map fun s => ((sentTo C us s).filter fun u => ((cache s).indexed u.path u.offset).isNone).length).sum
          + (if s ∈ ks ∧ ((cache s).indexed u.path u.offset).isNone = true then 1 else 0) := by
      intro ks hn
      induction ks with
      | nil => simp
      | cons k ks ihk =>
        rw [List.nodup_cons] at hn
        rw [List.map_cons, List.sum_cons, List.map_cons, List.sum_cons, ihk hn.2]
        have hsent : sentTo C (u :: us) k = if s = k then u :: sentTo C us k else sentTo C us k := by
          unfold sentTo
          rw [List.filter_cons]
          have : C.servers.find (u.host, u.port) = some s := hsu
          simp only [this, Option.some.injEq, decide_eq_true_iff]
        rw [hsent]
        by_cases hk : s = k
        · subst hk
          rw [if_pos rfl, List.filter_cons]
          by_cases hq : ((cache s).indexed u.path u.offset).isNone = true
          · rw [if_pos hq, if_neg (fun h => hn.1 h.1), if_pos ⟨List.mem_cons_self .., hq⟩, List.length_cons]
            omega
          · rw [if_neg hq, if_neg (fun h => hq h.2), if_neg (fun h => hq h.2)]
            omega
        · rw [if_neg hk]
          have : (s ∈ k :: ks ∧ ((cache s).indexed u.path u.offset).isNone = true) ↔
              (s ∈ ks ∧ ((cache s).indexed u.path u.offset).isNone = true) := by
            simp [hk]
          simp only [this]
          omega
    rw [hone ks hn, ih, List.filter_cons]
    have hm : missingThere C cache u = ((cache s).indexed u.path u.offset).isNone := by
      unfold missingThere
      rw [hsu]
    rw [hm]
    by_cases hq : ((cache s).indexed u.path u.offset).isNone = true
    · rw [if_pos ⟨hs, hq⟩, if_pos hq, List.length_cons]
    · rw [if_neg (fun h => hq h.2), if_neg hq]
      rfl

/-- C52.  A scan is forwarded to several servers, each with its own files and indexes.  It reports how many of the listed
messages were not indexed on the server responsible for them; afterwards every server that was concerned has indexed the
messages it is responsible for, besides what it had indexed before, and nothing else; the indexes of the forwarding node
are untouched.  For all schedules on all nodes. -/
theorem C52_forwarded_scan (E : ScanEnv) (C : ScanConf) (c : Cache) (rs : List String) (us : List Uri) (byfiles : Bool)
    (forward : C.forwardScan = true) (listed : listUris E rs = .ok us) (found : us ≠ [])
    (known : ∀ u ∈ us, ∃ s, serverOf C u = some s) (env : String × Int → ScanEnv) (cache : String × Int → Cache)
    (steps : String × Int → List ScanEv)
    (wire : ∀ t s fm, ∃ EE CC sched axes scan ctx, E.forward t s fm =
      remoteForwardScan (nodeEngine EE CC sched axes scan (serverForwardScan (env s) (cache s) (steps s))) ctx fm)
    (apart : ∀ s, UrisApart (cache s) (sentTo C us s))
    (possible : ∀ u ∈ us, ∀ s, serverOf C u = some s → (cache s).readable u.path ∧
      ((cache s).indexed u.path u.offset = none → ∃ i, (env s).W.data u.path u.offset = .ok i)) (sched : List ScanEv) :
    ∃ c', engineScan E C c rs byfiles sched = .ok ((us.filter (missingThere C cache)).length, [], c') ∧
      c' = { c with fs := c'.fs } ∧ (∀ p, c'.fs.find p = c.fs.find p) ∧
      ∀ s, sentTo C us s ≠ [] → ∃ n cs,
        scheduleScan (env s) (cache s) (filesOffsets (sentTo C us s)) (steps s) = .ok (n, [], cs) ∧
        (∀ u ∈ us, serverOf C u = some s → cs.readable u.path) ∧
        ∀ f, (∀ u ∈ us, serverOf C u = some s → (cache s).mode.indexPath f = (cache s).mode.indexPath u.path →
            f = u.path) → ∀ o i, cs.indexed f o = some i ↔ ((cache s).indexed f o = some i ∨
          ((cache s).indexed f o = none ∧ (∃ u ∈ us, serverOf C u = some s ∧ u.path = f ∧ u.offset = o) ∧
            (env s).W.data f o = .ok i)) := by
  have hsent : ∀ s u, u ∈ sentTo C us s ↔ u ∈ us ∧ serverOf C u = some s := by
    intro s u
    simp [sentTo, serverOf]
  have hscan : ∀ s, sentTo C us s ≠ [] → ∃ cs, _ := fun s hne =>
    scan_listed (env s) (cache s) (sentTo C us s) hne (apart s)
      (fun u hu => possible u ((hsent s u).mp hu).1 s ((hsent s u).mp hu).2) (steps s)
  have hfwd : ∀ t s, sentTo C us s ≠ [] → E.forward t s (filesOffsets (sentTo C us s)) =
      .ok (((sentTo C us s).filter fun u => ((cache s).indexed u.path u.offset).isNone).length) := by
    intro t s hne
    obtain ⟨cs, h1, -⟩ := hscan s hne
    obtain ⟨EE, CC, sd, axes, scan, ctx, hw⟩ := wire t s (filesOffsets (sentTo C us s))
    rw [hw, C41_forward_scan _ _ _ (filesOffsets_nodup _)]
    simp only [nodeEngine, serverForwardScan, h1, ok_bind, if_true]
  obtain ⟨m, n, errs, c', hn, hmem, hrun, hc, hfs, hok, herr⟩ := C51_forwarded E C c rs us byfiles forward listed found known (by
    intro t s
    by_cases hne : sentTo C us s = []
    · obtain ⟨EE, CC, sd, axes, scan, ctx, hw⟩ := wire t s (filesOffsets (sentTo C us s))
      rw [hw, hne]
      intro h
      cases h
    · rw [hfwd t s hne]
      intro h; cases h) sched
  have he : errs = [] := by
    by_cases he : errs = []
    · exact he
    · obtain ⟨s, fm, t, e, hm, hf⟩ := herr he
      obtain ⟨rfl, hne⟩ := (hmem s fm).mp hm
      rw [hfwd t s hne] at hf
      cases hf
  subst he
  obtain ⟨ns, hsum, hlen, hns⟩ := hok rfl
  have hns' : ns = m.keys.map fun s => ((sentTo C us s).filter fun u => ((cache s).indexed u.path u.offset).isNone).length := by
    apply List.ext_getElem?
    intro j
    rw [AMap.keys, List.map_map, List.getElem?_map]
    cases hj : m[j]? with
    | none =>
      rw [Option.map_none, List.getElem?_eq_none_iff, hlen]
      exact List.getElem?_eq_none_iff.mp hj
    | some e =>
      obtain ⟨s, fm⟩ := e
      have hlt : j < ns.length := by rw [hlen]; exact (List.getElem?_eq_some_iff.mp hj).1
      obtain ⟨t, ht⟩ := hns j s fm _ hj (List.getElem?_eq_getElem hlt)
      obtain ⟨rfl, hne⟩ := (hmem s fm).mp (List.mem_of_getElem? hj)
      rw [hfwd t s hne] at ht
      rw [List.getElem?_eq_getElem hlt, ← Except.ok.inj ht]
      rfl
  refine ⟨c', ?_, hc, hfs, ?_⟩
  · rw [hrun, hsum, hns', count_by_server C cache us m.keys hn]
    intro u hu
    obtain ⟨s, hs⟩ := known u hu
    refine ⟨s, List.mem_map.mpr ⟨(s, filesOffsets (sentTo C us s)), (hmem _ _).mpr ⟨rfl, ?_⟩, rfl⟩, hs⟩
    exact List.ne_nil_of_mem ((hsent s u).mpr ⟨hu, hs⟩)
  · intro s hne
    obtain ⟨cs, h1, -, h3, h4⟩ := hscan s hne
    refine ⟨_, cs, h1, fun u hu hs => h3 u ((hsent s u).mpr ⟨hu, hs⟩), fun f hf o i => ?_⟩
    rw [h4 f (fun u hu => hf u ((hsent s u).mp hu).1 ((hsent s u).mp hu).2)]
    simp only [hsent, and_assoc]

/-- C52.  If a server fails to scan any of its messages, the forwarded scan reports an error.  Without errors, every
server concerned scanned all it was asked for, and the number is the sum of theirs. -/
theorem C52_forwarded_scan_errors (E : ScanEnv) (C : ScanConf) (c : Cache) (rs : List String) (us : List Uri)
    (byfiles : Bool) (forward : C.forwardScan = true) (listed : listUris E rs = .ok us) (found : us ≠ [])
    (known : ∀ u ∈ us, ∃ s, serverOf C u = some s) (env : String × Int → ScanEnv) (cache : String × Int → Cache)
    (steps : String × Int → List ScanEv)
    (wire : ∀ t s fm, ∃ EE CC sched axes scan ctx, E.forward t s fm =
      remoteForwardScan (nodeEngine EE CC sched axes scan (serverForwardScan (env s) (cache s) (steps s))) ctx fm)
    (defined : ∀ s, scheduleScan (env s) (cache s) (filesOffsets (sentTo C us s)) (steps s) ≠ undef)
    (sched : List ScanEv) :
    ∃ n errs c', engineScan E C c rs byfiles sched = .ok (n, errs, c') ∧
      (errs = [] ↔ ∀ s, sentTo C us s ≠ [] → ∃ k cs,
        scheduleScan (env s) (cache s) (filesOffsets (sentTo C us s)) (steps s) = .ok (k, [], cs)) ∧
      (errs = [] → ∃ (servers : List (String × Int)) (ns : List Nat), servers.Nodup ∧
        (∀ s, s ∈ servers ↔ sentTo C us s ≠ []) ∧ n = ns.sum ∧ ns.length = servers.length ∧
        ∀ (j : Nat) s k, servers[j]? = some s → ns[j]? = some k → ∃ cs,
          scheduleScan (env s) (cache s) (filesOffsets (sentTo C us s)) (steps s) = .ok (k, [], cs)) := by
  have hfwd : ∀ t s, (∃ k cs, E.forward t s (filesOffsets (sentTo C us s)) = .ok k ∧
        scheduleScan (env s) (cache s) (filesOffsets (sentTo C us s)) (steps s) = .ok (k, [], cs)) ∨
      (E.forward t s (filesOffsets (sentTo C us s)) = throwExn .remote ∧ ∀ k cs,
        scheduleScan (env s) (cache s) (filesOffsets (sentTo C us s)) (steps s) ≠ .ok (k, [], cs)) := by
    intro t s
    obtain ⟨EE, CC, sd, axes, scan, ctx, hw⟩ := wire t s (filesOffsets (sentTo C us s))
    rw [hw, C41_forward_scan _ _ _ (filesOffsets_nodup _)]
    simp only [nodeEngine, serverForwardScan]
    have hd := defined s
    cases hsc : scheduleScan (env s) (cache s) (filesOffsets (sentTo C us s)) (steps s) with
    | error e =>
      rw [hsc] at hd
      cases e with
      | ub => exact absurd rfl hd
      | exn x => exact Or.inr ⟨rfl, fun k cs h => (by cases h)⟩
    | ok r =>
      obtain ⟨k, errs, cs⟩ := r
      simp only [ok_bind]
      by_cases he : errs = []
      · subst he
        exact Or.inl ⟨k, cs, by rw [if_pos rfl], rfl⟩
      · refine Or.inr ⟨by rw [if_neg he], fun k' cs' h => he ?_⟩
        cases h
        rfl
  obtain ⟨m, n, errs, c', hn, hmem, hrun, hc, hfs, hok, herr⟩ := C51_forwarded E C c rs us byfiles forward listed found known (by
    intro t s h
    rcases hfwd t s with ⟨k, cs, h1, -⟩ | ⟨h1, -⟩ <;> rw [h1] at h <;> cases h) sched
  have hthen : errs = [] → ∃ (servers : List (String × Int)) (ns : List Nat), servers.Nodup ∧
        (∀ s, s ∈ servers ↔ sentTo C us s ≠ []) ∧ n = ns.sum ∧ ns.length = servers.length ∧
        ∀ (j : Nat) s k, servers[j]? = some s → ns[j]? = some k → ∃ cs,
          scheduleScan (env s) (cache s) (filesOffsets (sentTo C us s)) (steps s) = .ok (k, [], cs) := by
    intro he
    obtain ⟨ns, hsum, hlen, hns⟩ := hok he
    refine ⟨m.keys, ns, hn, ?_, hsum, by rw [AMap.keys, List.length_map]; exact hlen, ?_⟩
    · intro s
      constructor
      · intro hs
        obtain ⟨e, he, rfl⟩ := List.mem_map.mp hs
        exact ((hmem e.1 e.2).mp he).2
      · intro hs
        exact List.mem_map.mpr ⟨(s, _), (hmem s _).mpr ⟨rfl, hs⟩, rfl⟩
    · intro j s k hj hk
      rw [AMap.keys, List.getElem?_map, Option.map_eq_some_iff] at hj
      obtain ⟨e, he, rfl⟩ := hj
      obtain ⟨t, ht⟩ := hns j e.1 e.2 k he hk
      obtain ⟨h1, -⟩ := (hmem e.1 e.2).mp (List.mem_of_getElem? he)
      rw [h1] at ht
      rcases hfwd t e.1 with ⟨k', cs, h2, h3⟩ | ⟨h2, -⟩
      · rw [ht] at h2
        cases h2
        exact ⟨cs, h3⟩
      · rw [ht] at h2; cases h2
  refine ⟨n, errs, c', hrun, ⟨?_, ?_⟩, hthen⟩
  · intro he s hs
    obtain ⟨servers, ns, -, h2, -, h4, h5⟩ := hthen he
    obtain ⟨j, hj⟩ := List.getElem?_of_mem ((h2 s).mpr hs)
    have hlt : j < ns.length := by rw [h4]; exact (List.getElem?_eq_some_iff.mp hj).1
    obtain ⟨cs, h6⟩ := h5 j s _ hj (List.getElem?_eq_getElem hlt)
    exact ⟨_, cs, h6⟩
  · intro hall
    by_cases he : errs = []
    · exact he
    · obtain ⟨s, fm, t, e, hm, hf⟩ := herr he
      obtain ⟨rfl, hne⟩ := (hmem s fm).mp hm
      obtain ⟨k, cs, h1⟩ := hall s hne
      rcases hfwd t s with ⟨k', cs', h2, -⟩ | ⟨-, h2⟩
      · rw [h2] at hf; cases hf
      · exact absurd h1 (h2 k cs)

/-! ## A case: two servers with a file each; the first has indexed one of its messages -/

def c52Uris : List Uri :=
  [⟨"fdb", "h", 7, "/fdb/a", 408⟩, ⟨"fdb", "k", 7, "/fdb/b", 0⟩, ⟨"fdb", "h", 7, "/fdb/a", 0⟩]

def c52ScanConf : ScanConf := ⟨true, [(("h", 7), ("s", 9)), (("k", 7), ("t", 9))]⟩

def c52Node : Engine :=
  nodeEngine ⟨fun _ => throwExn .ioError, fun _ _ _ => throwExn .ioError, fun _ _ _ _ _ => throwExn .ioError,
    fun _ _ _ => throwExn .ioError, fun _ _ _ => throwExn .ioError⟩ ⟨true, false, false, false, false, []⟩ []
    (fun _ _ => throwExn .ioError) (fun _ _ => throwExn .ioError) (serverForwardScan c51Env c51Cache [.run 0])

def c52ScanEnv : ScanEnv where
  W := c51World
  list r := if r = "q" then .ok c52Uris else .ok []
  forward _ _ fm := remoteForwardScan c52Node "ctx" fm

/-- Non-vacuity of the theorem above: two of three messages are new. -/
example (sched : List ScanEv) : ∃ c', engineScan c52ScanEnv c52ScanConf c51Cache ["q"] false sched = .ok (2, [], c') := by
  have hposs : ∀ u ∈ c52Uris, c51Cache.readable u.path ∧
      (c51Cache.indexed u.path u.offset = none → ∃ i, c51Env.W.data u.path u.offset = .ok i) := by
    intro u hu
    simp only [c52Uris, List.mem_cons, List.not_mem_nil, or_false] at hu
    rcases hu with rfl | rfl | rfl
    · exact ⟨c51_readable (by decide +kernel), fun _ => ⟨_, rfl⟩⟩
    · exact ⟨c51_readable (by decide +kernel), fun _ => ⟨_, rfl⟩⟩
    · exact ⟨c51_readable (by decide +kernel), fun _ => ⟨_, rfl⟩⟩
  have hap : UrisApart c51Cache c52Uris := by unfold UrisApart; decide +kernel
  obtain ⟨c', h1, -⟩ := C52_forwarded_scan c52ScanEnv c52ScanConf c51Cache ["q"] c52Uris false rfl (by decide +kernel)
    (by decide) (by
      intro u hu
      simp only [c52Uris, List.mem_cons, List.not_mem_nil, or_false] at hu
      rcases hu with rfl | rfl | rfl <;> exact ⟨_, rfl⟩) (fun _ => c51Env) (fun _ => c51Cache) (fun _ => [.run 0])
    (fun t s fm => ⟨_, _, _, _, _, _, rfl⟩) (by
      intro s u hu v hv he
      exact hap u (List.mem_filter.mp hu).1 v (List.mem_filter.mp hv).1 he) (fun u hu s _ => hposs u hu) sched
  have hc : (c52Uris.filter (missingThere c52ScanConf fun _ => c51Cache)).length = 2 := by decide +kernel
  rw [hc] at h1
  exact ⟨c', h1⟩

/-- Non-vacuity of `C52_forwarded_scan_errors`: servers that cannot read one of the messages, and the scan reports it. -/
example : (∀ s : String × Int, scheduleScan c51Env c51Cache (filesOffsets (sentTo c52ScanConf
      [⟨"fdb", "h", 7, "/fdb/a", 1⟩, ⟨"fdb", "k", 7, "/fdb/b", 0⟩] s)) [.run 0] ≠ undef) ∧
    (engineScan { c52ScanEnv with list := fun _ => .ok [⟨"fdb", "h", 7, "/fdb/a", 1⟩, ⟨"fdb", "k", 7, "/fdb/b", 0⟩] }
      c52ScanConf c51Cache ["q"] false []).map (fun r => (r.1, r.2.1)) = .ok (1, ["error"]) := by
  refine ⟨?_, by decide +kernel⟩
  intro s
  have h1 : sentTo c52ScanConf [⟨"fdb", "h", 7, "/fdb/a", 1⟩, ⟨"fdb", "k", 7, "/fdb/b", 0⟩] s =
      if s = ("s", 9) then [⟨"fdb", "h", 7, "/fdb/a", 1⟩] else if s = ("t", 9) then [⟨"fdb", "k", 7, "/fdb/b", 0⟩] else [] := by
    have e1 : c52ScanConf.servers.find ("h", 7) = some ("s", 9) := by decide
    have e2 : c52ScanConf.servers.find ("k", 7) = some ("t", 9) := by decide
    simp only [sentTo, List.filter_cons, List.filter_nil, e1, e2, Option.some.injEq, decide_eq_true_iff]
    by_cases hs : ("s", 9) = s
    · subst hs; simp
    · by_cases ht : ("t", 9) = s
      · subst ht; simp
      · rw [if_neg hs, if_neg ht, if_neg (fun h => hs h.symm), if_neg (fun h => ht h.symm)]
  have chk : ∀ us : List Uri, (match scheduleScan c51Env c51Cache (filesOffsets us) [.run 0] with
      | .error .ub => false | _ => true) = true → scheduleScan c51Env c51Cache (filesOffsets us) [.run 0] ≠ undef := by
    intro us h he
    rw [he] at h
    cases h
  rw [h1]
  split
  · exact chk _ (by decide +kernel)
  · split
    · exact chk _ (by decide +kernel)
    · exact chk _ (by decide +kernel)

end GJ
