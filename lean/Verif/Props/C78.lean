import Verif.Lemmas.NetDefined

/-!
# C78: several servers with the machine's arithmetic

The network of C76, whose processes compute with 64-bit numbers in limited memory (`Model/Machine.lean`).  Values: what C76
states for exact arithmetic holds for fields and intervals of ordinary size.  Definedness: no step of any process is
undefined, whatever is sent, lost, appended or scanned meanwhile.
-/

namespace GJ
open Spec

/-- C78 (partial).  Processes compute with the numbers of the machine.  A client's call on a process that forwards has
returned without an error, while other calls, scans and forwarded requests went on at all processes and connections were
lost.  Then there is one result per request, in order, and it is what decoding the one matching message gives, as it is in
the files of the process responsible for it.
Missing: messages whose metadata is not `Ordinary`, intervals beyond `2^58` (C53), and what is missing in C76. -/
theorem C78_forwarded_values_partial (N : Net) (U : Nat → String → Prop) (asked : Nat → Nat → Asked)
    (written : Nat → Nat → List ExRequest) (sound : N.Sound U asked written) (mem : Nat → Nat)
    (machine : ∀ a, (N.site a).jump = machineExtract (mem a) (N.site a).reader) (limit : Nat) (small : limit < 2 ^ 58)
    (s : NetSys) (reached : N.Reached U s) (a g : Nat) (client : N.origin a g = none)
    (forwards : (N.site a).conf.forward = true) (returned : ((s a).x.t.grp g).phase = .returned)
    (strict : (N.site a).conf.allowMissing = false) (cat : List (FdbKey × Uri))
    (catalogue : Catalogue (N.site a).conf.ignoreYearMonth cat) (lists : ListsOnly ((N.site a).calls g) cat)
    (rs : List ExRequest) (ws : List WrittenRequest) (text : Written rs ws)
    (intervals : ∀ q ∈ rs, ∀ i ∈ q.ranges, i.b ≤ i.e ∧ i.e ≤ limit)
    (ordinary : ∀ e ∈ cat, ∀ b file i, (s b).svc.disk e.2.path = some file →
      buildInfo (N.site b).reader file e.2.offset = .ok i → Ordinary limit e.2.offset i)
    (request : asked a g = .fields rs) (out : List WireResult) (got : Net.outcome written s a g = .ok out) :
    out.length = rs.length ∧ ∀ i (hi : i < rs.length) (hj : i < ws.length),
      ∃ e ∈ cat, SameField (N.site a).conf.ignoreYearMonth ws[i].pairs e.1 ∧
        (∀ e' ∈ cat, SameField (N.site a).conf.ignoreYearMonth ws[i].pairs e'.1 → e' = e) ∧
        ∃ server r, (N.site a).conf.servers.find (e.2.host, e.2.port) = some server ∧ out[i]? = some r ∧
          ∃ file h, (s (N.host server)).svc.disk e.2.path = some file ∧
            (N.site (N.host server)).reader.parse (file.drop e.2.offset) = some h ∧
            messageExtract (N.site (N.host server)).reader file e.2.offset rs[i].ranges = .ok r ∧
            ((N.site (N.host server)).conf.ignoreGrid = false → rs[i].gridHash ≠ "" ∧ rs[i].gridHash = h.md5GridSection) := by
  obtain ⟨hlen, h⟩ := forwarded_holds sound (fun a => machine_sends (machine a)) reached client forwards returned strict
    catalogue lists text (fun q hq i hi => by have := intervals q hq i hi; omega) request got
  refine ⟨hlen, fun i hi hj => ?_⟩
  obtain ⟨e, he, hs, hu, server, x, hfind, hx, q, hq, hg, hold⟩ := h i hi hj
  obtain ⟨file, hh, h1, h2, h3, h4⟩ := hold.machine (machine _) small (fun file i => ordinary e he _ file i)
    (by rw [hq]; exact intervals _ (List.getElem_mem hi))
  rw [hq] at h3
  rw [hg] at h4
  exact ⟨e, he, hs, hu, server, x, hfind, hx, file, hh, h1, h2, h3, h4⟩

/-- C78 (partial).  The same for requests by path with host and port.  Missing: as above. -/
theorem C78_forwarded_paths_partial (N : Net) (U : Nat → String → Prop) (asked : Nat → Nat → Asked)
    (written : Nat → Nat → List ExRequest) (sound : N.Sound U asked written) (mem : Nat → Nat)
    (machine : ∀ a, (N.site a).jump = machineExtract (mem a) (N.site a).reader) (limit : Nat) (small : limit < 2 ^ 58)
    (s : NetSys) (reached : N.Reached U s) (a g : Nat) (client : N.origin a g = none)
    (returned : ((s a).x.t.grp g).phase = .returned) (rs : List PathReq)
    (remote : ∀ q ∈ rs, q.host ≠ "" ∨ q.port ≠ 0) (intervals : ∀ q ∈ rs, ∀ i ∈ q.ranges, i.b ≤ i.e ∧ i.e ≤ limit)
    (place : ∀ a ∈ rs, ∀ b ∈ rs, a.path = b.path → a.scheme = b.scheme ∧ a.host = b.host ∧ a.port = b.port)
    (ordinary : ∀ q ∈ rs, ∀ b file i, (s b).svc.disk q.path = some file →
      buildInfo (N.site b).reader file q.offset = .ok i → Ordinary limit q.offset i)
    (request : asked a g = .paths rs) (out : List WireResult) (got : Net.outcome written s a g = .ok out) :
    out.length = rs.length ∧ ∀ (i : Nat) q, rs[i]? = some q →
      ∃ server r, (N.site a).conf.servers.find (q.host, q.port) = some server ∧ out[i]? = some r ∧
        ∃ file h, (s (N.host server)).svc.disk q.path = some file ∧
          (N.site (N.host server)).reader.parse (file.drop q.offset) = some h ∧
          messageExtract (N.site (N.host server)).reader file q.offset q.ranges = .ok r ∧
          ((N.site (N.host server)).conf.ignoreGrid = false → q.gridHash ≠ "" ∧ q.gridHash = h.md5GridSection) := by
  obtain ⟨hlen, h⟩ := forwarded_paths_hold sound (fun a => machine_sends (machine a)) reached client returned remote
    (fun q hq i hi => by have := intervals q hq i hi; omega) place request got
  refine ⟨hlen, fun i q hq => ?_⟩
  obtain ⟨server, x, hfind, hx, q', hr, hg, hold⟩ := h i q hq
  have hm := List.mem_of_getElem? hq
  obtain ⟨file, hh, h1, h2, h3, h4⟩ := hold.machine (machine _) small (fun file i => ordinary q hm _ file i)
    (by rw [hr]; exact intervals q hm)
  rw [hr] at h3
  rw [hg] at h4
  exact ⟨server, x, hfind, hx, file, hh, h1, h2, h3, h4⟩

/-- C78 (partial).  A client's call on a process that does not forward, while its process also works for others.
Missing: as above. -/
theorem C78_local_values_partial (N : Net) (U : Nat → String → Prop) (asked : Nat → Nat → Asked)
    (written : Nat → Nat → List ExRequest) (sound : N.Sound U asked written) (mem : Nat) (s : NetSys)
    (reached : N.Reached U s) (a g : Nat) (machine : (N.site a).jump = machineExtract mem (N.site a).reader) (limit : Nat)
    (small : limit < 2 ^ 58) (client : N.origin a g = none) (stays : (N.site a).conf.forward = false)
    (returned : ((s a).x.t.grp g).phase = .returned) (strict : (N.site a).conf.allowMissing = false)
    (cat : List (FdbKey × Uri)) (catalogue : Catalogue (N.site a).conf.ignoreYearMonth cat)
    (lists : ListsOnly ((N.site a).calls g) cat) (rs : List ExRequest) (ws : List WrittenRequest) (text : Written rs ws)
    (intervals : ∀ q ∈ rs, ∀ i ∈ q.ranges, i.b ≤ i.e ∧ i.e ≤ limit)
    (ordinary : ∀ e ∈ cat, ∀ file i, (s a).svc.disk e.2.path = some file →
      buildInfo (N.site a).reader file e.2.offset = .ok i → Ordinary limit e.2.offset i)
    (request : asked a g = .fields rs) (out : List WireResult) (got : Net.outcome written s a g = .ok out) :
    out.length = rs.length ∧ ∀ i (hi : i < rs.length) (hj : i < ws.length),
      ∃ e ∈ cat, SameField (N.site a).conf.ignoreYearMonth ws[i].pairs e.1 ∧
        (∀ e' ∈ cat, SameField (N.site a).conf.ignoreYearMonth ws[i].pairs e'.1 → e' = e) ∧
        ∃ r, out[i]? = some r ∧ (e.2.scheme = "fdb" → (N.site a).fetch e.2 rs[i].ranges = .ok r) ∧
          (e.2.scheme ≠ "fdb" → ∃ file h, (s a).svc.disk e.2.path = some file ∧
            (N.site a).reader.parse (file.drop e.2.offset) = some h ∧
            messageExtract (N.site a).reader file e.2.offset rs[i].ranges = .ok r ∧
            ((N.site a).conf.ignoreGrid = false → rs[i].gridHash ≠ "" ∧ rs[i].gridHash = h.md5GridSection)) := by
  obtain ⟨hlen, h⟩ := local_holds sound reached client stays returned strict catalogue lists text request got
  refine ⟨hlen, fun i hi hj => ?_⟩
  obtain ⟨e, he, hs, hu, x, hx, q, hq, hg, hf, hh⟩ := h i hi hj
  refine ⟨e, he, hs, hu, x, hx, ?_, fun hn => ?_⟩
  · rw [← hq]; exact hf
  · obtain ⟨file, hd, h1, h2, h3, h4⟩ := (hh hn).machine machine small (ordinary e he)
      (by rw [hq]; exact intervals _ (List.getElem_mem hi))
    rw [hq] at h3
    rw [hg] at h4
    exact ⟨file, hd, h1, h2, h3, h4⟩

/-- C78 (partial).  The same for requests by path without host and port.  Missing: as above. -/
theorem C78_local_paths_partial (N : Net) (U : Nat → String → Prop) (asked : Nat → Nat → Asked)
    (written : Nat → Nat → List ExRequest) (sound : N.Sound U asked written) (mem : Nat) (s : NetSys)
    (reached : N.Reached U s) (a g : Nat) (machine : (N.site a).jump = machineExtract mem (N.site a).reader) (limit : Nat)
    (small : limit < 2 ^ 58) (client : N.origin a g = none)
    (returned : ((s a).x.t.grp g).phase = .returned) (rs : List PathReq)
    (here : ∀ q ∈ rs, q.host = "" ∧ q.port = 0) (place : ∀ a ∈ rs, ∀ b ∈ rs, a.path = b.path → a.scheme = b.scheme)
    (intervals : ∀ q ∈ rs, ∀ i ∈ q.ranges, i.b ≤ i.e ∧ i.e ≤ limit)
    (ordinary : ∀ q ∈ rs, ∀ file i, (s a).svc.disk q.path = some file →
      buildInfo (N.site a).reader file q.offset = .ok i → Ordinary limit q.offset i)
    (request : asked a g = .paths rs) (out : List WireResult) (got : Net.outcome written s a g = .ok out) :
    out.length = rs.length ∧ ∀ (i : Nat) q, rs[i]? = some q →
      ∃ r, out[i]? = some r ∧ (q.scheme = "fdb" → (N.site a).fetch q.uri q.ranges = .ok r) ∧
        (q.scheme ≠ "fdb" → ∃ file h, (s a).svc.disk q.path = some file ∧
          (N.site a).reader.parse (file.drop q.offset) = some h ∧
          messageExtract (N.site a).reader file q.offset q.ranges = .ok r ∧
          ((N.site a).conf.ignoreGrid = false → q.gridHash ≠ "" ∧ q.gridHash = h.md5GridSection)) := by
  obtain ⟨hlen, h⟩ := local_paths_hold sound reached client returned here place request got
  refine ⟨hlen, fun i q hq => ?_⟩
  obtain ⟨x, hx, hf, hh⟩ := h i q hq
  have hm := List.mem_of_getElem? hq
  exact ⟨x, hx, hf, fun hn => (hh hn).machine machine small (ordinary q hm) (intervals q hm)⟩

/-! ## No undefined behaviour -/

theorem alone_undef {q : Asked} {E : ExtEnv} {C : EngineConf} (h : (q.call E).start C = undef) :
    (q.call E).alone C [] = undef := by
  rw [Call.alone_eq, h]; rfl

/-- A request that may be made is prepared without undefined behaviour. -/
theorem start_defined {q : Asked} {E : ExtEnv} {C : EngineConf} {Known : String → Nat → Info → Prop}
    (list : ∀ u, E.list u ≠ undef) (h : q.Acceptable E C Known) : (q.call E).start C ≠ undef := by
  intro hu
  let E' : ExtEnv := ⟨E.list, fun _ _ _ => throwExn .ioError, fun _ _ _ _ _ => throwExn .ioError,
    fun _ _ _ => throwExn .ioError, fun _ _ _ => throwExn .ioError⟩
  have hs : Steady E' (Askable Known) :=
    ⟨list, fun _ _ _ => Safe.throw _, fun _ _ _ _ _ _ _ _ _ _ _ _ _ h => (by cases h), fun _ _ _ _ h => (by cases h),
      fun _ _ _ _ _ => Safe.throw _⟩
  have hc := C55_local_calls_defined E' C [] _ hs
  rw [← q.start_congr (E' := E) (E := E') rfl] at hu
  have ha := alone_undef hu
  cases q with
  | fields rs => exact hc.1 rs h.1 h.2 ha
  | paths rs => exact hc.2 rs h.1 h.2.1 h.2.2 ha

/-- C78 (partial).  Processes that compute with the numbers of the machine, in at most `2^60` bytes of memory, serve clients
and each other; connections are lost, files grow, scans run, in any order.  If the requests of clients may be made, no step
of any process is undefined behaviour, nor is the preparation of a
request, nor what a call returns.  (Requests that arrive from other
processes need no condition.)
Missing: requests that may not be made (C53, C55), a library that breaks its contract, compressed messages with an empty
block; scans run through the cache's own steps here. -/
theorem C78_defined_partial (N : Net) (U : Nat → String → Prop) (asked : Nat → Nat → Asked)
    (written : Nat → Nat → List ExRequest) (sound : N.Sound U asked written) (mem : Nat → Nat) (memory : ∀ a, mem a ≤ 2 ^ 60)
    (lib : ∀ a, AecContract (N.site a).reader.lib) (stored : Nat → Uri → Info → Prop)
    (machine : ∀ a, (N.site a).Machine (mem a) (stored a)) (st : NetSys) (began : N.Began U st) (es : List NetEv)
    (allowed : ∀ e ∈ es, NetEv.Allowed U e)
    (blocks : ∀ a f o i x, (N.site a).Known (stored a) (netDisks st.disks es a) f o (.ccsds i x) → x.rsi * x.blockSize ≠ 0)
    (acceptable : ∀ a g, N.origin a g = none → (N.jobs a g).2 ≠ [] →
      (asked a g).Acceptable ((N.site a).calls g) (N.site a).conf (N.Known stored (netDisks st.disks es))) :
    (∃ s, N.run st es = .ok s ∧ ∀ a g, Net.outcome written s a g ≠ undef) ∧
    ∀ a (q : Asked) g, q.Acceptable ((N.site a).calls g) (N.site a).conf (N.Known stored (netDisks st.disks es)) →
      (q.call ((N.site a).calls g)).start (N.site a).conf ≠ undef := by
  refine ⟨?_, fun a q g h => start_defined ((machine a).list g) h⟩
  have run : ∃ s, N.run st es = .ok s := by
    generalize hD : netDisks st.disks es = D at blocks acceptable
    have hb : ∀ es1 es2, es = es1 ++ es2 → ∃ s, N.run st es1 = .ok s ∧ s.disks = netDisks st.disks es1 := by
      intro es1
      generalize hn : es1.length = n
      induction n generalizing es1 with
      | zero =>
        intro es2 _
        cases List.length_eq_zero_iff.mp hn
        exact ⟨st, rfl, rfl⟩
      | succ n ih =>
        intro es2 he
        have hne : es1 ≠ [] := by intro h; rw [h] at hn; cases hn
        obtain ⟨es0, e, rfl⟩ : ∃ es0 e, es1 = es0 ++ [e] := ⟨_, _, (List.dropLast_concat_getLast hne).symm⟩
        rw [List.append_assoc] at he
        obtain ⟨s0, h0, hd0⟩ := ih es0 (by rw [List.length_append] at hn; exact Nat.succ.inj hn) _ he
        have hal : ∀ x ∈ es0 ++ [e], NetEv.Allowed U x := by
          intro x hx
          refine allowed x ?_
          rw [he, ← List.append_assoc]
          exact List.mem_append_left _ hx
        have hdisk : ∀ a, (s0.disks a).Before (D a) := by
          intro a
          rw [hd0, ← hD, he]
          show (netDisks _ _ a).Before (netDisks _ (es0 ++ _) a)
          unfold netDisks
          rw [List.foldl_append]
          exact netDisks_before _ _ a
        obtain ⟨s1, h1⟩ := net_defined_step sound memory lib machine began blocks acceptable hal h0 hdisk
        refine ⟨s1, net_snoc h0 h1, ?_⟩
        rw [net_step_disks h1, hd0]
        unfold netDisks
        rw [List.foldl_append]
        rfl
    obtain ⟨s, h, -⟩ := hb es [] (List.append_nil es).symm
    exact ⟨s, h⟩
  obtain ⟨s, h⟩ := run
  refine ⟨s, h, fun a g => ?_⟩
  unfold Net.outcome callEnd
  exact (localTail_safe _ _).1

/-! ## Cases -/

/-- The network of C76 with the machine's arithmetic, in a thousand bytes of memory. -/
def c78Site (a : Nat) : Site :=
  { c76Site a with
    jump := machineExtract 1000 (c76Site a).reader
    fetch := fun _ is => do
      let i ← buildInfo (c76Site a).reader toyMessage 0
      machineExtract 1000 (c76Site a).reader toyMessage 0 i is }

def c78Net : Net := { c76Net with site := c78Site }

def c78Start : NetSys := c78Net.start c76Disk (fun _ => .shadow) (fun _ => true) (fun _ => 4) (fun _ => [])

/-- As in C76; at the end connections break that are not there. -/
def c78At (k : Nat) : Res NetSys := c78Net.run c78Start (((List.range k).map c76Ev) ++ [.lost 0 1, .lost 1 0])

def c78Seen (k : Nat) : Option (Phase × Phase × Phase × Phase) :=
  match c78At k with
  | .ok s => some (((s 0).x.t.grp 0).phase, ((s 0).x.t.grp 1).phase, ((s 1).x.t.grp 0).phase, ((s 1).x.t.grp 2).phase)
  | .error _ => none

def c78Out (k a g : Nat) : Res (List WireResult) := do
  let s ← c78At k
  Net.outcome c76Written s a g

theorem c78_reader (a : Nat) : (c78Net.site a).reader = toyReader := by
  match a with
  | 0 => rfl
  | a + 1 => rfl

theorem c78_list (a g : Nat) (u : Union) : ((c78Net.site a).calls g).list u = .ok (if a = 0 then c52Cat else c50Cat) := by
  match a with
  | 0 => rfl
  | a + 1 => rfl

theorem c78_sound : c78Net.Sound c76Names c76Asked c76Written :=
  ⟨c76_sound.reader, c76_sound.offs, c76_sound.back, c76_sound.sent, c76_sound.client, c76_sound.within⟩

theorem c78_began : c78Net.Began c76Names c78Start :=
  ⟨c76Disk, fun _ => .shadow, fun _ => true, fun _ => 4, fun _ => [], c76_apart, fun _ => Nat.succ_pos 3,
    fun a => c76_agree _ a, rfl⟩

theorem toy_ordinary {file : List UInt8} {o : Nat} {i : Info} (h : buildInfo toyReader file o = .ok i) (ho : o ≤ 1000) :
    Ordinary 1000 o i := by
  unfold buildInfo at h
  change (match toyParse (file.drop o) with | none => _ | some h => _) = _ at h
  unfold toyParse at h
  split at h
  · cases h
  · rename_i hd hp
    split at hp
    · rename_i n rest _
      split at hp
      · cases hp
        cases h
        have := n.toNat_lt
        refine ⟨?_, ?_, (fun j x e => by cases e), fun e => absurd rfl e⟩
        · show (2 : Nat) ≤ 2 + n.toNat; omega
        · show o + (2 + n.toNat) < 2 ^ 63; omega
      · cases hp
    · cases hp

/-- Non-vacuity of the theorems on values: the calls return, with the values of C76, and the hypotheses hold. -/
example : c78Seen 774 = some (.returned, .returned, .returned, .returned) ∧
    c78Out 774 0 0 = .ok [⟨[[10, 11, 12, 13]], [[15]]⟩, ⟨[[21], [22, 23]], [[1], [3]]⟩, ⟨[[7, 8]], [[3]]⟩] ∧
    c78Out 774 0 1 = .ok [⟨[[20, 21]], [[3]]⟩] ∧ c78Out 774 1 0 = .ok [⟨[[7]], [[1]]⟩] ∧
    c78Out 774 1 2 = .ok [⟨[[11], [12, 13]], [[1], [3]]⟩, ⟨[[7, 8]], [[3]]⟩] ∧
    (∀ s, c78At 774 = .ok s → c78Net.Reached c76Names s) ∧
    (∀ a, (c78Net.site a).jump = machineExtract 1000 (c78Net.site a).reader) ∧
    (∀ e ∈ c52Cat ++ c50Cat, ∀ b file i, buildInfo (c78Net.site b).reader file e.2.offset = .ok i →
      Ordinary 1000 e.2.offset i) ∧
    (∀ q ∈ c50Reqs, ∀ i ∈ q.ranges, i.b ≤ i.e ∧ i.e ≤ 1000) := by
  refine ⟨by decide +kernel, by decide +kernel, by decide +kernel, by decide +kernel, by decide +kernel,
    fun s h => ⟨_, _, c78_began, ?_, h⟩, fun a => rfl, ?_, by decide⟩
  · intro e he
    rcases List.mem_append.mp he with he | he
    · obtain ⟨i, -, rfl⟩ := List.mem_map.mp he
      exact c76_allowed i
    · simp only [List.mem_cons, List.mem_nil_iff, or_false] at he
      rcases he with rfl | rfl <;> trivial
  · intro e he b file i h
    rw [c78_reader] at h
    refine toy_ordinary h ?_
    have : ((c52Cat ++ c50Cat).all fun e => decide (e.2.offset ≤ 1000)) = true := by decide +kernel
    exact of_decide_eq_true (p := e.2.offset ≤ 1000) (List.all_eq_true.mp this e he)

def c78Stored (_ : Nat) (_ : Uri) (i : Info) : Prop := buildInfo toyReader toyMessage 0 = .ok i

theorem c78_known {a : Nat} {d : Disk} {f : String} {o : Nat} {i : Info} (h : (c78Net.site a).Known (c78Stored a) d f o i) :
    (∃ b, i = .simple b) ∧ i.base.offsetBeforeBitmap = 0 := by
  rcases h with ⟨file, -, h⟩ | ⟨u, -, -, h⟩
  · rw [c78_reader] at h; exact toy_info h
  · exact toy_info h

/-- Non-vacuity of `C78_defined_partial`: its hypotheses hold for this network, over any files. -/
example : c78Net.Sound c76Names c76Asked c76Written ∧ c78Net.Began c76Names c78Start ∧
    (∀ a, AecContract (c78Net.site a).reader.lib) ∧ (∀ a, (c78Net.site a).Machine 1000 (c78Stored a)) ∧
    (∀ a d f o i x, (c78Net.site a).Known (c78Stored a) d f o (.ccsds i x) → x.rsi * x.blockSize ≠ 0) ∧
    ∀ D a g, c78Net.origin a g = none → (c78Net.jobs a g).2 ≠ [] →
      (c76Asked a g).Acceptable ((c78Net.site a).calls g) (c78Net.site a).conf (c78Net.Known c78Stored D) := by
  have askable : ∀ {D f o is}, (∀ i ∈ is, i.b ≤ i.e ∧ i.e < 2 ^ 64) → Askable (c78Net.Known c78Stored D) f o is :=
    fun h => ⟨h, fun info ⟨_, hk⟩ _ hb => absurd (c78_known hk).2 hb⟩
  have fields : ∀ {E : ExtEnv} {C : EngineConf} {D rs}, C.ignoreYearMonth = true →
      (∀ r ∈ canonAll true false rs, ∀ i ∈ r.ranges, i.b ≤ i.e ∧ i.e < 2 ^ 64) →
      Acceptable E C (Askable (c78Net.Known c78Stored D)) (.extract rs) := by
    intro E C D rs hC h u L hL r hr e he e' he' _ _
    rw [hC] at hr
    exact askable (h r hr)
  refine ⟨c78_sound, c78_began, fun a => ?_, fun a => ⟨rfl, fun u is => ?_, fun g u h => ?_⟩, ?_, ?_⟩
  · rw [c78_reader]; exact ⟨(fun h => by cases h), (fun h => by cases h), (fun h => by cases h)⟩
  · have h : (buildInfo toyReader toyMessage 0).toOption.isSome = true := by decide +kernel
    cases hb : buildInfo toyReader toyMessage 0 with
    | error e => rw [hb] at h; cases h
    | ok i =>
      refine .inr ⟨toyMessage, i, hb, ?_⟩
      show (buildInfo (c78Net.site a).reader toyMessage 0 >>= fun i => machineExtract 1000 (c78Net.site a).reader toyMessage 0 i is) = _
      rw [c78_reader, hb, ok_bind]
  · rw [c78_list] at h; cases h
  · intro a d f o i x h
    obtain ⟨⟨b, hb⟩, -⟩ := c78_known h
    cases hb
  · intro D a g _ hne
    match a, g, hne with
    | 0, 0, _ => exact ⟨.inl rfl, fields rfl (by decide +kernel)⟩
    | 0, 1, _ => exact ⟨by simp, fun r hr => by rw [List.mem_singleton] at hr; subst hr; exact askable (by decide),
        .inl fun r hr => by cases hr; exact .inr (by decide)⟩
    | 1, 0, _ => exact ⟨by simp, fun r hr => by rw [List.mem_singleton] at hr; subst hr; exact askable (by decide),
        .inr (.inr fun r hr => by rw [List.mem_singleton] at hr; subst hr; decide)⟩
    | 1, 2, _ => exact ⟨.inr (.inl rfl), fields rfl (by decide +kernel)⟩
    | 1, 1, _ => exact absurd ‹_› (by decide)
    | 0, g + 2, h => exact absurd rfl h
    | 1, g + 3, h => exact absurd rfl h
    | 2, 0, _ => exact absurd ‹_› (by decide)
    | 2, 1, _ => exact absurd ‹_› (by decide)
    | 2, g + 2, h => exact absurd rfl h
    | a + 3, g, h => exact absurd rfl h

end GJ
