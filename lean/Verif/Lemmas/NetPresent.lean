import Verif.Props.C76
import Verif.Props.C69

/-!
# Processes that forward to each other: requests that can be met

Lemmas on calls whose fields are there at a moment when none of their tasks has begun.
-/

namespace GJ
open Spec

/-! ## A moment -/

/-- As `Began`; all processes build metadata on demand. -/
def Net.LazyBegan (N : Net) (U : Nat → String → Prop) (st : NetSys) : Prop :=
  ∃ d mode cap fs, (∀ a, ToldApart (mode a) (U a)) ∧ (∀ a, 0 < cap a) ∧
    (∀ a, GoodIndex (diskWorld (N.site a).reader (N.site a).offs (d a)) (U a) (mode a) (fs a)) ∧
    st = N.start d mode (fun _ => true) cap fs

theorem Net.LazyBegan.began {N : Net} {U : Nat → String → Prop} {st : NetSys} (h : N.LazyBegan U st) : N.Began U st := by
  obtain ⟨d, mode, cap, fs, h1, h2, h3, h4⟩ := h
  exact ⟨d, mode, fun _ => true, cap, fs, h1, h2, h3, h4⟩

/-- The network has come to state `s`, and all processes build metadata on demand. -/
def Net.LazyReached (N : Net) (U : Nat → String → Prop) (s : NetSys) : Prop :=
  ∃ st es, N.LazyBegan U st ∧ (∀ e ∈ es, NetEv.Allowed U e) ∧ N.run st es = .ok s

theorem Net.LazyReached.reached {N : Net} {U : Nat → String → Prop} {s : NetSys} (h : N.LazyReached U s) : N.Reached U s := by
  obtain ⟨st, es, h1, h2, h3⟩ := h
  exact ⟨st, es, h1.began, h2, h3⟩

theorem Net.LazyReached.ran {N : Net} {U : Nat → String → Prop} {s s' : NetSys} (h : N.LazyReached U s) {es : List NetEv}
    (ha : ∀ e ∈ es, NetEv.Allowed U e) (hr : N.run s es = .ok s') : N.LazyReached U s' := by
  obtain ⟨st, es0, h1, h2, h3⟩ := h
  refine ⟨st, es0 ++ es, h1, ?_, by rw [net_append, h3, ok_bind]; exact hr⟩
  intro e he
  rcases List.mem_append.mp he with he | he
  · exact h2 e he
  · exact ha e he

/-- No task of request `g` of process `a` has begun. -/
def NetSys.Unbegun (s : NetSys) (a g : Nat) : Prop := ∀ j, (g, j) ∉ (s a).x.t.started

section
variable {N : Net} {U : Nat → String → Prop} {asked : Nat → Nat → Asked} {written : Nat → Nat → List ExRequest}

theorem Net.Reached.ok (sound : N.Sound U asked written) {s : NetSys} (h : N.Reached U s) : NetOk N s := by
  obtain ⟨st, es, h1, h2, h3⟩ := h
  exact net_ok sound h1 es s h3 h2

theorem Net.Reached.unbegun (sound : N.Sound U asked written) {s : NetSys} (h : N.Reached U s) {a g : Nat}
    (hu : s.Unbegun a g) : ((s a).x.job g).time = 0 := by
  obtain ⟨st, es, h1, h2, h3⟩ := h
  obtain ⟨fwd, -, inv, -⟩ := net_srv sound h1 h3 h2 a
  obtain ⟨E, -, hx⟩ := inv.x (sound.fresh a)
  obtain ⟨js, hj, hs⟩ := hx.run g
  cases js with
  | nil => rw [← Except.ok.inj hj]
  | cons j js => exact absurd (hs j List.mem_cons_self) (hu j)

/-- What arrives from a request that has not begun has not begun. -/
theorem Net.Reached.unsent (sound : N.Sound U asked written) {s : NetSys} (h : N.Reached U s) {a g t b k : Nat}
    (hu : s.Unbegun a g) (ht : N.target a g t = some (b, k)) : s.Unbegun b k := by
  intro j hj
  exact hu t ((C76_sent_first N U asked written sound s h a g t b k ((sound.back a g t b k).mp ht)).1 j hj)

theorem Net.LazyReached.node (sound : N.Sound U asked written) {s : NetSys} (h : N.LazyReached U s) (a : Nat) :
    SvcGood (N.site a).reader (N.site a).offs (U a) (s a).svc ∧
      ∀ S d E, ((N.site a).node (U a) S (s a).svc d E).Began := by
  obtain ⟨st, es, h1, h2, h3⟩ := h
  obtain ⟨fwd, -, inv, -⟩ := net_srv sound h1.began h3 h2 a
  refine ⟨inv.good, fun S d E => ?_⟩
  obtain ⟨es', h4, h5⟩ := inv.reach 0
  obtain ⟨d0, mode, cap, fs, a1, a2, a3, rfl⟩ := h1
  exact ⟨d0 a, mode a, cap a, fs a, es', a1 a, a2 a, a3 a, h4, h5⟩

/-- One process, from a moment on. -/
theorem net_since (sound : N.Sound U asked written) {st s1 s2 : NetSys} (began : N.Began U st) {a : Nat}
    {dflt fwd : Nat → Nat → String × Int → FileMap → Res FileMap} {heard : List NetEv}
    (h : N.Follows U st s1 a dflt heard s2 fwd) :
    ∃ from_, (∀ g, ((s1 a).x.job g).time = 0 → from_ g = (s1 a).svc) ∧
      SrvInv ((N.site a).told fwd) (U a) (N.threads a) (N.jobs a) from_ (s2 a) := by
  obtain ⟨es1', es2', ha1, ha2, hr1, hr2, -⟩ := h
  obtain ⟨d, mode, lazy, cap, fs, h1, h2, h3, rfl⟩ := began
  have h0 : SrvInv ((N.site a).told fwd) (U a) (N.threads a) (N.jobs a)
      (fun _ => Svc.start (N.site a).reader (N.site a).offs (d a) (mode a) (lazy a) (cap a) (fs a))
      (Srv.start ((N.site a).told fwd) (N.threads a) (N.jobs a) (d a) (mode a) (lazy a) (cap a) (fs a)) :=
    SrvInv.start (p := (N.site a).told fwd) (sound.reader a) (sound.offs a) (h1 a) (h2 a) (h3 a) (sound.within a)
  have i1 := SrvInv.ran (p := (N.site a).told fwd) (sound.reader a) (sound.offs a) (sound.fresh a) h0 ha1 hr1
  have i2 := SrvInv.follow (p := (N.site a).told fwd) (sound.reader a) (sound.offs a) i1
  exact ⟨_, fun g hg => if_pos hg,
    SrvInv.ran (p := (N.site a).told fwd) (sound.reader a) (sound.offs a) (sound.fresh a) i2 ha2 hr2⟩

/-- An answer depends on what becomes of what arrives. -/
theorem remote_congr {E E' : Engine} {ctx c : String} {fm fm0 : FileMap} {rest : List Tok}
    (hd : dispatch (encHeader .forwardExtract ctx ++ (encForwardExtract fm).1) = .ok ((c, .forwardExtract fm0), rest))
    (h : E.forwardExtract fm0 = E'.forwardExtract fm0) : remoteForwardExtract E ctx fm = remoteForwardExtract E' ctx fm := by
  rw [remoteForwardExtract, remoteForwardExtract, remoteCall, remoteCall, serve, serve, hd]
  simp only [handle, h]

/-- Tasks that do not forward. -/
theorem localTasks_here {C : EngineConf} {m : ItemMap} {queued : Bool} {fm : KeyMap} {ts : List FTask}
    (h : localTasks C m queued fm = .ok ts) : ∀ T ∈ ts, ∀ server files, T.kind ≠ .forward server files := by
  induction fm generalizing queued ts with
  | nil => rw [localTasks] at h; cases h; intro T hT; cases hT
  | cons x rest ih =>
    obtain ⟨f, ks⟩ := x
    rw [localTasks] at h
    obtain ⟨u, -, h⟩ := res_bind_inv h
    by_cases hs : u.scheme = "fdb"
    · rw [if_pos hs] at h
      by_cases hi : C.inefficient = true
      · rw [if_pos hi] at h
        obtain ⟨tl, h1, h2⟩ := res_bind_inv h
        cases h2
        intro T hT server files
        rcases List.mem_cons.mp hT with rfl | hT
        · intro e; cases e
        · exact ih h1 T hT server files
      · rw [if_neg hi] at h
        cases queued <;> cases h
    · rw [if_neg hs] at h
      obtain ⟨tl, h1, h2⟩ := res_bind_inv h
      cases h2
      intro T hT server files
      rcases List.mem_cons.mp hT with rfl | hT
      · intro e; cases e
      · exact ih h1 T hT server files

/-! ## Requests that can be met -/

/-- The process at this address, as a node. -/
def Net.peer (N : Net) (U : Nat → String → Prop) (S : Nat → Store) (s : NetSys) (server : String × Int) : Node :=
  (s (N.host server)).node (N.site (N.host server)) (U (N.host server)) (S (N.host server)) 0

/-- From `s1` on, no connection of request `g` of process `a` breaks. -/
def Net.Kept (N : Net) (s1 : NetSys) (es : List NetEv) (a g : Nat) : Prop :=
  ∀ es1 e es2 s w j, es = es1 ++ e :: es2 → N.run s1 es1 = .ok s → (s a).x.connected w = some (g, j) → e ≠ .lost a w

/-- The connections of request `g` of process `a` are accepted. -/
def Net.Accepted (N : Net) (a g : Nat) : Prop :=
  ∀ (j : Nat) server files, (N.jobs a g).2[j]? = some ⟨.forward server files, .fresh⟩ → N.target a g j ≠ none

theorem Net.Kept.less {s1 : NetSys} {es more : List NetEv} {a g : Nat} (h : N.Kept s1 (es ++ more) a g) :
    N.Kept s1 es a g := by
  intro es1 e es2 s w j he hr hc
  exact h es1 e (es2 ++ more) s w j (by rw [he, List.append_assoc, List.cons_append]) hr hc

/-- What comes back to a request that had not begun is the answer of the process that was asked, as the node it was. -/
theorem heard_relays (sound : N.Sound U asked written) {S : Nat → Store} (ex : ∀ a, (N.site a).Exact (S a)) {s1 : NetSys}
    (reached : N.LazyReached U s1) {es2 : List NetEv} (allowed : ∀ e ∈ es2, NetEv.Allowed U e) {a g : Nat}
    (unbegun : s1.Unbegun a g) (kept : N.Kept s1 es2 a g) (accepted : N.Accepted a g) {server : String × Int} {fm : FileMap}
    {res : Res FileMap} (h : N.Heard s1 es2 a g server fm res) :
    ∃ n : Node, n.Up ∧ (∀ u is hash r, (N.peer U S s1 server).Gives u is hash r → n.Gives u is hash r) ∧
      ∃ ctx sched axes scan forwardScan,
        res = remoteForwardExtract (nodeEngine n.env n.conf sched axes scan forwardScan) ctx fm := by
  obtain ⟨ea, e, eb, sx, w, j, files, rfl, hrun, hconn, hT, hfm, hcase⟩ := h
  have hal : ∀ e ∈ ea, NetEv.Allowed U e := fun x hx => allowed x (List.mem_append_left _ hx)
  have ok := (reached.ran hal hrun).reached.ok sound
  rcases hcase with ⟨r, hr, rfl⟩ | ⟨he, -⟩
  case inr => exact absurd he (kept ea e eb sx w j rfl hrun hconn)
  have hk := ok.kinds a g j
  rw [hT] at hk
  cases hJ : (N.jobs a g).2[j]? with
  | none => rw [hJ] at hk; cases hk
  | some T =>
    rw [hJ] at hk
    simp only [Option.map_some, Option.some.injEq] at hk
    have hfresh := sound.fresh a g T (List.mem_of_getElem? hJ)
    obtain ⟨kind, pc⟩ := T
    simp only at hk hfresh
    subst hk hfresh
    cases htg : N.target a g j with
    | none => exact absurd htg (accepted j server files hJ)
    | some q =>
      obtain ⟨b, k⟩ := q
      rw [Net.reply, htg] at hr
      simp only [] at hr
      split at hr
      case isFalse => cases hr
      rename_i hph
      cases hr
      obtain ⟨server', files', fm0, hjob, hhost, hdis, hitems, htasks⟩ := sound.sent _ _ _ _ _ htg
      rw [hJ] at hjob
      cases hjob
      rw [← sentFiles_bytes (ok.items a g), ← hfm] at hdis
      subst hhost
      -- the process that was asked
      obtain ⟨st, es0, began, al0, h0⟩ := id reached
      obtain ⟨fwdB, hF⟩ := net_hears h0 al0 (N.host server) (fun _ _ _ _ => throwExn .ioError) ea sx hrun hal
      obtain ⟨from_, hfrom, invB⟩ := net_since sound began.began hF
      have hub := reached.reached.unsent sound unbegun htg
      have hfk := hfrom k (reached.reached.unbegun sound hub)
      obtain ⟨EB, qsB, hLB, hrB⟩ := invB.run
      obtain ⟨sched, s', hrt, hit, her, -⟩ := C71_refines (N.threads (N.host server)) EB _ (N.jobs (N.host server))
        (sound.fresh (N.host server)) qsB _ hrB k hph
      have hL := hLB k
      rw [hfk] at hL
      refine ⟨(N.site (N.host server)).node (U _) (S _) (s1 (N.host server)).svc (sx (N.host server)).svc.disk (EB k),
        Lived.up (p := (N.site (N.host server)).told fwdB) (sound.reader _) (sound.offs _) (ex (N.host server)) hL
          ((reached.node sound (N.host server)).2 _ _ _), fun u is hash r h => h, N.ctx a g, sched,
        (fun _ _ => throwExn .notImplemented), (fun _ _ => throwExn .notImplemented), (fun _ => throwExn .notImplemented),
        remote_congr hdis ?_⟩
      show Except.ok _ = serverForward (EB k) (N.site (N.host server)).conf sched fm0
      rw [serverForward]
      simp only []
      rw [scheduleTasks]
      simp only [Bool.false_eq_true, if_false]
      rw [htasks, ok_bind, ← hitems]
      rw [show runTasks (EB k) (N.site (N.host server)).conf (N.jobs (N.host server) k).1 (N.jobs (N.host server) k).2 sched =
        .ok s' from hrt, ok_bind, ok_bind]
      simp only []
      rw [hit, her]

/-- What is offered at a moment for an item: by the process responsible for it, or by the process that is asked itself. -/
def Net.Offers (N : Net) (U : Nat → String → Prop) (S : Nat → Store) (s : NetSys) (a : Nat) (forward : Bool) (u : Uri)
    (is : List Interval) (hash : String) (r : WireResult) : Prop :=
  if forward = true then Answering (N.site a).conf (N.peer U S s) u is hash r
  else ((s a).node (N.site a) (U a) (S a) 0).Gives u is hash r

/-- The request can be met: fields are asked for in a well-formed way, are listed, and are there. -/
structure Net.CanServe (N : Net) (U : Nat → String → Prop) (S : Nat → Store) (s : NetSys) (a g : Nat)
    (cat : List (FdbKey × Uri)) (rs : List ExRequest) (ws : List WrittenRequest) : Prop where
  catalogue : Catalogue (N.site a).conf.ignoreYearMonth cat
  lists : ListsOnly ((N.site a).calls g) cat
  complete : ListsAll (N.site a).conf.ignoreYearMonth ((N.site a).calls g) cat
  places : ∀ x ∈ cat, ∀ y ∈ cat, x.2.path = y.2.path → x.2.offset = y.2.offset → x = y
  written : Written rs ws
  nonempty : rs ≠ []
  fit : (N.site a).conf.forward = true → ∀ q ∈ rs, q.Fits
  different : ws.Pairwise fun x y =>
    ¬ (essential (N.site a).conf.ignoreYearMonth x.pairs).Perm (essential (N.site a).conf.ignoreYearMonth y.pairs)
  sameKeywords : ∀ x ∈ ws, ∀ y ∈ ws, ∀ k, k ∈ (essential (N.site a).conf.ignoreYearMonth x.pairs).map Prod.fst →
    k ∈ (essential (N.site a).conf.ignoreYearMonth y.pairs).map Prod.fst
  found : ∀ i (hi : i < rs.length) (hj : i < ws.length), ∃ e ∈ cat,
    SameField (N.site a).conf.ignoreYearMonth ws[i].pairs e.1 ∧
      ∃ r, N.Offers U S s a (N.site a).conf.forward e.2 rs[i].ranges rs[i].gridHash r

/-- One right result per request. -/
def Net.Serves (N : Net) (U : Nat → String → Prop) (S : Nat → Store) (s : NetSys) (a : Nat) (cat : List (FdbKey × Uri))
    (rs : List ExRequest) (ws : List WrittenRequest) (out : List WireResult) : Prop :=
  out.length = rs.length ∧
    ∀ i (hi : i < rs.length) (hj : i < ws.length), ∃ e ∈ cat,
      SameField (N.site a).conf.ignoreYearMonth ws[i].pairs e.1 ∧
      ∃ r, out[i]? = some r ∧ N.Offers U S s a (N.site a).conf.forward e.2 rs[i].ranges rs[i].gridHash r

/-- The same for requests by path, all with host and port or all without. -/
structure Net.CanServePaths (N : Net) (U : Nat → String → Prop) (S : Nat → Store) (s : NetSys) (a : Nat) (forward : Bool)
    (rs : List PathReq) : Prop where
  nonempty : rs ≠ []
  remote : forward = true → ∀ q ∈ rs, (q.host ≠ "" ∨ q.port ≠ 0) ∧ ∀ i ∈ q.ranges, i.b < 2 ^ 64 ∧ i.e < 2 ^ 64
  here : forward = false → ∀ q ∈ rs, q.host = "" ∧ q.port = 0
  place : ∀ x ∈ rs, ∀ y ∈ rs, x.path = y.path → x.scheme = y.scheme ∧ x.host = y.host ∧ x.port = y.port
  different : (rs.map PathReq.text).Nodup
  found : ∀ q ∈ rs, ∃ r, N.Offers U S s a forward ⟨q.scheme, q.host, q.port, q.path, q.offset⟩ q.ranges q.gridHash r

def Net.ServesPaths (N : Net) (U : Nat → String → Prop) (S : Nat → Store) (s : NetSys) (a : Nat) (forward : Bool)
    (rs : List PathReq) (out : List WireResult) : Prop :=
  out.length = rs.length ∧ ∀ (i : Nat) q, rs[i]? = some q →
    ∃ r, out[i]? = some r ∧ N.Offers U S s a forward ⟨q.scheme, q.host, q.port, q.path, q.offset⟩ q.ranges q.gridHash r

/-- What is asked for can be met. -/
inductive Net.Can (N : Net) (U : Nat → String → Prop) (S : Nat → Store) (s : NetSys) (a g : Nat) : Asked → Prop where
  | fields (cat : List (FdbKey × Uri)) (rs : List ExRequest) (ws : List WrittenRequest)
      (h : N.CanServe U S s a g cat rs ws) : N.Can U S s a g (.fields rs)
  | paths (forward : Bool) (rs : List PathReq) (h : N.CanServePaths U S s a forward rs) : N.Can U S s a g (.paths rs)

/-- A request that can be met is met in all surroundings the call can meet. -/
theorem net_serves (sound : N.Sound U asked written) {S : Nat → Store} (ex : ∀ a, (N.site a).Exact (S a)) {s1 : NetSys}
    (reached : N.LazyReached U s1) {a g : Nat} {fwd : Nat → Nat → String × Int → FileMap → Res FileMap} {d : Disk}
    {E : ExtEnv} (hL : Lived ((N.site a).told fwd) (U a) (s1 a).svc d g E)
    (wire : RelaysVia E (N.site a).conf (N.peer U S s1)) (sched : List Nat) :
    (∀ cat rs ws, N.CanServe U S s1 a g cat rs ws →
      ∃ out, localExtract E (N.site a).conf sched rs = .ok out ∧ N.Serves U S s1 a cat rs ws out) ∧
    (∀ forward rs, N.CanServePaths U S s1 a forward rs →
      ∃ out, localExtractPaths E (N.site a).conf sched rs = .ok out ∧ N.ServesPaths U S s1 a forward rs out) := by
  have up := Lived.up (p := (N.site a).told fwd) (sound.reader a) (sound.offs a) (ex a) hL
    ((reached.node sound a).2 _ _ _)
  constructor
  · intro cat rs ws c
    have hl : ListsOnly E cat := by unfold ListsOnly; rw [hL.list]; exact c.lists
    have hall : ListsAll (N.site a).conf.ignoreYearMonth E cat := by unfold ListsAll; rw [hL.list]; exact c.complete
    have hfound := c.found
    unfold Net.Serves
    cases hf : (N.site a).conf.forward with
    | true =>
      rw [hf] at hfound
      simp only [Net.Offers, if_true] at hfound ⊢
      obtain ⟨out, h1, h2, h3, -⟩ := relayed_extract E (N.site a).conf hf (N.peer U S s1) wire cat c.catalogue hl hall c.places
        sched rs ws c.written c.nonempty (c.fit hf) c.different c.sameKeywords hfound
      exact ⟨out, h1, h2, h3⟩
    | false =>
      rw [hf] at hfound
      simp only [Net.Offers, Bool.false_eq_true, if_false] at hfound ⊢
      exact up.extract hf c.catalogue hl hall c.places sched c.written c.nonempty c.different c.sameKeywords hfound
  · intro forward rs c
    have hfound := c.found
    unfold Net.ServesPaths
    cases forward with
    | true =>
      simp only [Net.Offers, if_true] at hfound ⊢
      exact relayed_paths E (N.site a).conf (N.peer U S s1) wire sched rs c.nonempty (fun q hq => (c.remote rfl q hq).1)
        (fun q hq => (c.remote rfl q hq).2) c.place c.different hfound
    | false =>
      simp only [Net.Offers, Bool.false_eq_true, if_false] at hfound ⊢
      exact C69_path_request_succeeds_partial _ up sched rs c.nonempty (c.here rfl)
        (fun x hx y hy e => (c.place x hx y hy e).1) c.different hfound

/-- What a process sends on is a client's request. -/
theorem Net.Sound.sender (sound : N.Sound U asked written) {a g t b k : Nat} (h : N.origin b k = some (a, g, t)) :
    N.origin a g = none := by
  cases ho : N.origin a g with
  | none => rfl
  | some q =>
    obtain ⟨c, i, l⟩ := q
    obtain ⟨server, files, -, h1, -⟩ := sound.sent _ _ _ _ _ ((sound.back _ _ _ _ _).mpr h)
    obtain ⟨-, -, fm, -, -, -, -, h5⟩ := sound.sent _ _ _ _ _ ((sound.back _ _ _ _ _).mpr ho)
    exact absurd rfl (localTasks_here h5 _ (List.mem_of_getElem? h1) server files)

/-- Where nothing was heard, the answer is one the process could have given. -/
theorem net_default (sound : N.Sound U asked written) {S : Nat → Store} (ex : ∀ a, (N.site a).Exact (S a)) {s1 : NetSys}
    (reached : N.LazyReached U s1) :
    ∃ dflt : String × Int → FileMap → Res FileMap, ∀ server, ∃ n : Node, n.Up ∧
      (∀ u is hash r, (N.peer U S s1 server).Gives u is hash r → n.Gives u is hash r) ∧
      ∃ ctx sched axes scan forwardScan, ∀ fm,
        dflt server fm = remoteForwardExtract (nodeEngine n.env n.conf sched axes scan forwardScan) ctx fm := by
  have h : ∀ server, ∃ E, Lived (N.site (N.host server)) (U (N.host server)) (s1 (N.host server)).svc
      (s1 (N.host server)).svc.disk 0 E := fun server =>
    lived_any (sound.reader _) (sound.offs _) (reached.node sound (N.host server)).1 0
  refine ⟨fun server fm => remoteForwardExtract (nodeEngine (Classical.choose (h server)) (N.site (N.host server)).conf []
    (fun _ _ => throwExn .notImplemented) (fun _ _ => throwExn .notImplemented) (fun _ => throwExn .notImplemented)) "" fm,
    fun server => ?_⟩
  exact ⟨(N.site (N.host server)).node (U _) (S _) (s1 (N.host server)).svc (s1 (N.host server)).svc.disk
      (Classical.choose (h server)),
    Lived.up (sound.reader _) (sound.offs _) (ex (N.host server)) (Classical.choose_spec (h server))
      ((reached.node sound (N.host server)).2 _ _ _), fun _ _ _ _ h => h, "", [], _, _, _, fun _ => rfl⟩

/-- A request that had not begun gets answers of processes as the nodes they were. -/
theorem follows_relays (sound : N.Sound U asked written) {S : Nat → Store} (ex : ∀ a, (N.site a).Exact (S a)) {st s1 s2 : NetSys}
    (reached : N.LazyReached U s1) {heard : List NetEv} (allowed : ∀ e ∈ heard, NetEv.Allowed U e) {a g : Nat}
    (unbegun : s1.Unbegun a g) (kept : N.Kept s1 heard a g) (accepted : N.Accepted a g)
    {dflt : String × Int → FileMap → Res FileMap} {fwd : Nat → Nat → String × Int → FileMap → Res FileMap}
    (hd : ∀ server, ∃ n : Node, n.Up ∧
      (∀ u is hash r, (N.peer U S s1 server).Gives u is hash r → n.Gives u is hash r) ∧
      ∃ ctx sched axes scan forwardScan, ∀ fm,
        dflt server fm = remoteForwardExtract (nodeEngine n.env n.conf sched axes scan forwardScan) ctx fm)
    (h : N.Follows U st s1 a (fun _ _ => dflt) heard s2 fwd) {E : ExtEnv} (hE : E.forward = fwd g) :
    RelaysVia E (N.site a).conf (N.peer U S s1) := by
  obtain ⟨-, -, -, -, -, -, hf⟩ := h
  intro t server fm _
  rw [hE]
  rcases hf g t server fm (by rw [reached.reached.unbegun sound unbegun]; exact Nat.zero_le _) with e | hh
  · obtain ⟨n, h1, h2, ctx, sched, axes, scan, fscan, h3⟩ := hd server
    exact ⟨n, fun _ => h1, h2, ctx, sched, axes, scan, fscan, by rw [e]; exact h3 fm⟩
  · obtain ⟨n, h1, h2, h3⟩ := heard_relays sound ex reached allowed unbegun kept accepted hh
    exact ⟨n, fun _ => h1, h2, h3⟩

/-- A call that can be met succeeds alone in all surroundings it can meet. -/
theorem can_alone (sound : N.Sound U asked written) {S : Nat → Store} (ex : ∀ a, (N.site a).Exact (S a)) {s1 : NetSys}
    (reached : N.LazyReached U s1) {a g : Nat} {fwd : Nat → Nat → String × Int → FileMap → Res FileMap} {d : Disk}
    {E : ExtEnv} (hL : Lived ((N.site a).told fwd) (U a) (s1 a).svc d g E)
    (wire : RelaysVia E (N.site a).conf (N.peer U S s1)) {q : Asked} (can : N.Can U S s1 a g q) (sched : List Nat) :
    ∃ out, (q.call E).alone (N.site a).conf sched = .ok out := by
  obtain ⟨h1, h2⟩ := net_serves sound ex reached hL wire sched
  cases can with
  | fields cat rs ws c => obtain ⟨out, h, -⟩ := h1 cat rs ws c; exact ⟨out, h⟩
  | paths forward rs c => obtain ⟨out, h, -⟩ := h2 forward rs c; exact ⟨out, h⟩

/-- The tasks of a client's call that can be met succeed in all surroundings they can meet. -/
theorem client_runs (sound : N.Sound U asked written) {S : Nat → Store} (ex : ∀ a, (N.site a).Exact (S a)) {s1 : NetSys}
    (reached : N.LazyReached U s1) {a g : Nat} (client : N.origin a g = none) (tasks : (N.jobs a g).2 ≠ [])
    (can : N.Can U S s1 a g (asked a g)) {fwd : Nat → Nat → String × Int → FileMap → Res FileMap} {d : Disk}
    {E : ExtEnv} (hL : Lived ((N.site a).told fwd) (U a) (s1 a).svc d g E)
    (wire : RelaysVia E (N.site a).conf (N.peer U S s1)) (sched : List Nat) :
    ∃ s, runTasks E (N.site a).conf (N.jobs a g).1 (N.jobs a g).2 sched = .ok s ∧ s.errors = [] := by
  have hstart := (sound.client a g client).resolve_right tasks
  rw [← (asked a g).start_congr (show E.list = ((N.site a).calls g).list from hL.list)] at hstart
  obtain ⟨out, ho⟩ := can_alone sound ex reached hL wire can sched
  exact Asked.runs hstart ho

/-- The tasks of a request that arrives from a call that can be met succeed in all surroundings they can meet. -/
theorem arrived_runs (sound : N.Sound U asked written) {S : Nat → Store} (ex : ∀ a, (N.site a).Exact (S a)) {s1 : NetSys}
    (reached : N.LazyReached U s1) {a g t b k : Nat} (arrived : N.origin b k = some (a, g, t))
    (can : N.Can U S s1 a g (asked a g)) {fwdB : Nat → Nat → String × Int → FileMap → Res FileMap} {d : Disk}
    {EB : ExtEnv} (hLB : Lived ((N.site b).told fwdB) (U b) (s1 b).svc d k EB) (sched : List Nat) :
    ∃ s, runTasks EB (N.site b).conf (N.jobs b k).1 (N.jobs b k).2 sched = .ok s ∧ s.errors = [] := by
  obtain ⟨server, files, fm0, hJ, hhost, hdis, hitems, htasks⟩ := sound.sent _ _ _ _ _ ((sound.back _ _ _ _ _).mpr arrived)
  obtain ⟨dflt, hd⟩ := net_default sound ex reached
  let eng := nodeEngine EB (N.site b).conf sched (fun _ _ => throwExn .notImplemented)
    (fun _ _ => throwExn .notImplemented) (fun _ => throwExn .notImplemented)
  let fwd : Nat → Nat → String × Int → FileMap → Res FileMap := fun _ _ server fm =>
    if N.host server = b then remoteForwardExtract eng (N.ctx a g) fm else dflt server fm
  obtain ⟨E, hL⟩ := lived_any (p := (N.site a).told fwd) (sound.reader a) (sound.offs a) (reached.node sound a).1 g
  have wire : RelaysVia E (N.site a).conf (N.peer U S s1) := by
    intro t' server' fm _
    rw [hL.forward]
    show ∃ n : Node, _ ∧ _ ∧ ∃ ctx sched' axes scan forwardScan, (if N.host server' = b then
      remoteForwardExtract eng (N.ctx a g) fm else dflt server' fm) = _
    by_cases hb : N.host server' = b
    · simp only [if_pos hb]
      refine ⟨(N.site b).node (U b) (S b) (s1 b).svc d EB, fun _ =>
        Lived.up (p := (N.site b).told fwdB) (sound.reader _) (sound.offs _) (ex b) hLB ((reached.node sound b).2 _ _ _),
        ?_, N.ctx a g, sched, _, _, _, rfl⟩
      subst hb
      exact fun _ _ _ _ h => h
    · simp only [if_neg hb]
      obtain ⟨n, h1, h2, ctx, sched, axes, scan, fscan, h3⟩ := hd server'
      exact ⟨n, fun _ => h1, h2, ctx, sched, axes, scan, fscan, h3 fm⟩
  have hne : (N.jobs a g).2 ≠ [] := by intro e; rw [e] at hJ; cases hJ
  obtain ⟨s, hrun, herr⟩ := client_runs sound ex reached (sound.sender arrived) hne can hL wire [t]
  rw [runTasks] at hrun
  obtain ⟨⟨⟩, -, hrun⟩ := res_bind_inv hrun
  obtain ⟨s1', hrun1, hrun2⟩ := res_bind_inv hrun
  rw [FSys.run] at hrun1
  obtain ⟨s0, hstep, hrest⟩ := res_bind_inv hrun1
  cases hrest
  have he0 := run_errors hrun2 herr
  rw [FSys.step] at hstep
  simp only [hJ] at hstep
  have hback : ∃ back, E.forward 0 server (sentFiles (N.jobs a g).1 files) = .ok back := by
    cases hf : E.forward 0 server (sentFiles (N.jobs a g).1 files) with
    | ok back => exact ⟨back, rfl⟩
    | error e =>
      have hT : FTask.step E (N.site a).conf 0 (N.jobs a g).1 ⟨.forward server files, .fresh⟩ = .error e := by
        rw [FTask.step.eq_def]
        simp only []
        rw [show E.forward 0 server ((files.map fun f => (f.1, sortKeys (N.jobs a g).1 f.2)).map
          fun f => (f.1, itemsOf (N.jobs a g).1 f.2)) = .error e from hf]
        rfl
      rw [hT] at hstep
      cases e with
      | ub => cases hstep
      | exn x =>
        simp only at hstep
        cases hstep
        cases he0
  obtain ⟨back, hback⟩ := hback
  rw [hL.forward] at hback
  have hback : (if N.host server = b then remoteForwardExtract eng (N.ctx a g) (sentFiles (N.jobs a g).1 files)
    else dflt server (sentFiles (N.jobs a g).1 files)) = .ok back := hback
  rw [if_pos hhost] at hback
  obtain ⟨body, hh, -⟩ := remoteCall_ok_inv hdis hback
  rw [handle] at hh
  obtain ⟨⟨served, errs⟩, hser, hh⟩ := res_bind_inv hh
  simp only [] at hh
  have herrs := (Prod.mk.inj (Except.ok.inj hh)).1
  subst herrs
  have hser : serverForward EB (N.site b).conf sched fm0 = .ok (served, []) := hser
  rw [serverForward] at hser
  simp only [] at hser
  obtain ⟨⟨m', errs'⟩, hsch, hser⟩ := res_bind_inv hser
  simp only [] at hser
  have e2 := (Prod.mk.inj (Except.ok.inj hser)).2
  subst e2
  rw [scheduleTasks] at hsch
  simp only [Bool.false_eq_true, if_false] at hsch
  rw [htasks, ok_bind, ← hitems] at hsch
  obtain ⟨sB, h1, h2⟩ := res_bind_inv hsch
  exact ⟨sB, h1, (Prod.mk.inj (Except.ok.inj h2)).2⟩

/-- A client's call that could be met when it had not begun: no task fails or is cancelled, and what it returns is what it
can return alone. -/
theorem client_clean (sound : N.Sound U asked written) {S : Nat → Store} (ex : ∀ a, (N.site a).Exact (S a)) {s1 s2 : NetSys}
    (reached : N.LazyReached U s1) {es : List NetEv} (allowed : ∀ e ∈ es, NetEv.Allowed U e) (hrun : N.run s1 es = .ok s2)
    {a g : Nat} (client : N.origin a g = none) (tasks : (N.jobs a g).2 ≠ []) (unbegun : s1.Unbegun a g)
    (kept : N.Kept s1 es a g) (accepted : N.Accepted a g) (can : N.Can U S s1 a g (asked a g)) :
    (((s2 a).x.t.grp g).errors = [] ∧ .cancelled ∉ ((s2 a).x.t.grp g).tasks) ∧
      (((s2 a).x.t.grp g).phase = .returned → ∃ fwd E sched,
        Lived ((N.site a).told fwd) (U a) (s1 a).svc (s2 a).svc.disk g E ∧ RelaysVia E (N.site a).conf (N.peer U S s1) ∧
        ((asked a g).call E).alone (N.site a).conf sched = Net.outcome written s2 a g) := by
  obtain ⟨st, es0, began, al0, h0⟩ := id reached
  obtain ⟨dflt, hd⟩ := net_default sound ex reached
  obtain ⟨fwd, hF⟩ := net_hears h0 al0 a (fun _ _ => dflt) es s2 hrun allowed
  obtain ⟨from_, hfrom, inv⟩ := net_since sound began.began hF
  have hfg := hfrom g (reached.reached.unbegun sound unbegun)
  have wire : ∀ {d E}, Lived ((N.site a).told fwd) (U a) (s1 a).svc d g E → RelaysVia E (N.site a).conf (N.peer U S s1) :=
    fun hL => follows_relays sound ex reached allowed unbegun kept accepted hd hF hL.forward
  refine ⟨inv.clean (sound.fresh a) fun E hL sched => ?_, fun returned => ?_⟩
  · rw [hfg] at hL
    exact client_runs sound ex reached client tasks can hL (wire hL) sched
  · obtain ⟨E, qs, hL, hr⟩ := inv.run
    obtain ⟨sched, s', h1, h2, h3, -⟩ := C71_refines (N.threads a) E _ (N.jobs a) (sound.fresh a) qs _ hr g returned
    have hLg := hL g
    rw [hfg] at hLg
    refine ⟨fwd, E g, sched, hLg, wire hLg, ?_⟩
    have hstart := (sound.client a g client).resolve_right tasks
    rw [Call.alone_eq, (asked a g).start_congr (show (E g).list = ((N.site a).calls g).list from hLg.list), hstart, ok_bind,
      (asked a g).env]
    rw [show runTasks (E g) (N.site a).conf (N.jobs a g).1 (N.jobs a g).2 sched = .ok s' from h1, ok_bind, h2, h3]
    rfl

/-- What arrives from a call that could be met when it had not begun: no task fails or is cancelled. -/
theorem arrived_clean (sound : N.Sound U asked written) {S : Nat → Store} (ex : ∀ a, (N.site a).Exact (S a)) {s1 s2 : NetSys}
    (reached : N.LazyReached U s1) {es : List NetEv} (allowed : ∀ e ∈ es, NetEv.Allowed U e) (hrun : N.run s1 es = .ok s2)
    {a g t b k : Nat} (arrived : N.origin b k = some (a, g, t)) (unbegun : s1.Unbegun a g)
    (can : N.Can U S s1 a g (asked a g)) :
    ((s2 b).x.t.grp k).errors = [] ∧ .cancelled ∉ ((s2 b).x.t.grp k).tasks := by
  obtain ⟨st, es0, began, al0, h0⟩ := id reached
  obtain ⟨fwd, hF⟩ := net_hears h0 al0 b (fun _ _ _ _ => throwExn .ioError) es s2 hrun allowed
  obtain ⟨from_, hfrom, inv⟩ := net_since sound began.began hF
  have hfk := hfrom k (reached.reached.unbegun sound
    (reached.reached.unsent sound unbegun ((sound.back _ _ _ _ _).mpr arrived)))
  refine inv.clean (sound.fresh b) fun E hL sched => ?_
  rw [hfk] at hL
  exact arrived_runs sound ex reached arrived can hL sched

/-- If all calls could be met when none had begun, the next step is defined. -/
theorem net_steps (sound : N.Sound U asked written) {S : Nat → Store} (ex : ∀ a, (N.site a).Exact (S a)) {s1 s2 : NetSys}
    (reached : N.LazyReached U s1) {es : List NetEv} {e : NetEv} (allowed : ∀ x ∈ es ++ [e], NetEv.Allowed U x)
    (hrun : N.run s1 es = .ok s2)
    (all : ∀ a g, N.origin a g = none → (N.jobs a g).2 ≠ [] → s1.Unbegun a g ∧ N.Kept s1 (es ++ [e]) a g ∧ N.Accepted a g ∧
      N.Can U S s1 a g (asked a g)) : ∃ s3, N.step s2 e = .ok s3 := by
  obtain ⟨st, es0, began, al0, h0⟩ := id reached
  have hal : ∀ x ∈ es, NetEv.Allowed U x := fun x hx => allowed x (List.mem_append_left _ hx)
  cases hact : (N.act s2 e).2 with
  | none => exact ⟨s2, by rw [Net.step, hact]⟩
  | some q =>
    obtain ⟨p, e'⟩ := q
    generalize hc : (N.act s2 e).1 = c
    have hact' : N.act s2 e = (c, some (p, e')) := Prod.ext hc hact
    obtain ⟨dflt, hd⟩ := net_default sound ex reached
    obtain ⟨fwd0, hF0⟩ := net_hears h0 al0 c (fun _ _ => dflt) es s2 hrun hal
    obtain ⟨fwd, hF, hnext⟩ := net_next hrun hF0 e
    obtain ⟨from_, hfrom, inv⟩ := net_since sound began.began hF
    have hae : e'.Allowed (U c) := by
      have := allowed e (List.mem_append_right _ (List.mem_singleton.mpr rfl))
      rcases net_act_inv hact' with ⟨-, he, -⟩ | ⟨w, g, j, r, he', -⟩
      · subst he; exact this
      · subst he'; trivial
    obtain ⟨y, hy⟩ := inv.steps (p := (N.site c).told fwd) (sound.reader c) (sound.offs c) (sound.fresh c) (e := e') (by
      intro g E hL hne sched hu
      cases ho : N.origin c g with
      | none =>
        obtain ⟨hub, hk, hacc, hcan⟩ := all c g ho hne
        rw [hfrom g (reached.reached.unbegun sound hub)] at hL
        obtain ⟨s, h1, -⟩ := client_runs sound ex reached ho hne hcan hL
          (follows_relays sound ex reached allowed hub hk hacc hd hF hL.forward) sched
        exact nomatch h1.symm.trans hu
      | some q =>
        obtain ⟨a, i, t⟩ := q
        have hsome := (sound.back _ _ _ _ _).mpr ho
        have hne' : (N.jobs a i).2 ≠ [] := by
          obtain ⟨_, _, _, hJ, -⟩ := sound.sent _ _ _ _ _ hsome
          intro e; rw [e] at hJ; cases hJ
        obtain ⟨hub, -, -, hcan⟩ := all a i (sound.sender ho) hne'
        rw [hfrom g (reached.reached.unbegun sound (reached.reached.unsent sound hub hsome))] at hL
        obtain ⟨s, h1, -⟩ := arrived_runs sound ex reached ho hcan hL sched
        exact nomatch h1.symm.trans hu) hae
    rw [← hnext p e' hact'] at hy
    exact ⟨_, by rw [Net.step, hact]; simp only []; rw [hc, hy, ok_bind]⟩

end

end GJ
