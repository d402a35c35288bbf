import Verif.Lemmas.NetFleet
import Verif.Props.C80

/-!
# Processes that forward scans and extractions, without values

Leaving out values, files and caches, a history of them is a history of the servers of `Fleet`.
-/

namespace GJ
open Spec

/-- Where a task forwards to. -/
def Mesh.aim (X : Mesh) (a g t : Nat) : Option (Nat × Nat) := if X.scan a g then X.link a g t else X.net.target a g t

/-- Who waits for a call. -/
def Mesh.sender (X : Mesh) (b h : Nat) : Option (Nat × Nat × Nat) := if X.scan b h then X.source b h else X.net.origin b h

/-- The processes without values. -/
def Mesh.fleet (X : Mesh) : Fleet := ⟨X.net.threads, fun a g => (X.tasks a g).2.length, X.aim, X.sender⟩

/-- The queues, groups and workers of the processes. -/
def MeshSys.groups (s : MeshSys) : FleetSys := fun a => (s a).srv.x.t

/-- What is forwarded are files, each of them once (Forwarder.cc:27-50: a task for every server that has files). -/
def Mesh.Parcels (X : Mesh) : Prop :=
  ∀ a g ks server files, X.scans a g = some ks → ScanKind.forward server files ∈ ks →
    (AMap.keys files).Nodup ∧ files ≠ []

theorem Mesh.Sound.fleet {X : Mesh} {U : Nat → String → Prop} {asked : Nat → Nat → Asked}
    {written : Nat → Nat → List ExRequest} (sound : X.Sound U asked written) (parcels : X.Parcels) : X.fleet.Sound where
  back := by
    intro a g t b h
    show X.aim a g t = _ ↔ X.sender b h = _
    rw [Mesh.aim, Mesh.sender]
    constructor
    · intro ht
      by_cases hs : X.scan a g = true
      · rw [if_pos hs] at ht
        obtain ⟨ks, server, files, sm, -, -, -, -, h5⟩ := sound.sent _ _ _ _ _ ht
        rw [if_pos (by rw [Mesh.scan, h5]; rfl)]
        exact (sound.back _ _ _ _ _).mp ht
      · rw [if_neg hs] at ht
        rw [if_neg (by rw [mesh_scan_none (sound.apart _ _ _ _ _ ht).2]; decide)]
        exact (sound.net.back _ _ _ _ _).mp ht
    · intro ht
      by_cases hs : X.scan b h = true
      · rw [if_pos hs] at ht
        have ht := (sound.back _ _ _ _ _).mpr ht
        obtain ⟨ks, server, files, sm, h1, -⟩ := sound.sent _ _ _ _ _ ht
        rw [if_pos (by rw [Mesh.scan, h1]; rfl)]
        exact ht
      · rw [if_neg hs] at ht
        have ht := (sound.net.back _ _ _ _ _).mpr ht
        rw [if_neg (by rw [mesh_scan_none (sound.apart _ _ _ _ _ ht).1]; decide)]
        exact ht
  here := by
    intro b h ho t
    show X.aim b h t = none
    have ho : X.sender b h ≠ none := ho
    rw [Mesh.sender] at ho
    rw [Mesh.aim]
    by_cases hs : X.scan b h = true
    · rw [if_pos hs] at ho ⊢
      cases hx : X.source b h with
      | none => exact absurd hx ho
      | some q =>
        obtain ⟨a, g, j⟩ := q
        cases ht : X.link b h t with
        | none => rfl
        | some p =>
          obtain ⟨ks, server, files, sm, -, -, -, -, h5⟩ := sound.sent _ _ _ _ _ ((sound.back _ _ _ _ _).mpr hx)
          obtain ⟨ks', server', files', sm', h1, h2, -⟩ := sound.sent _ _ _ _ _ ht
          rw [h5] at h1
          cases h1
          rw [List.getElem?_map] at h2
          obtain ⟨f, -, h2⟩ := Option.map_eq_some_iff.mp h2
          cases h2
    · rw [if_neg hs] at ho ⊢
      exact sound.net.fleet.here b h ho t
  tasks := by
    intro b h ho
    show 0 < (X.tasks b h).2.length
    have ho : X.sender b h ≠ none := ho
    rw [Mesh.sender] at ho
    rw [Mesh.tasks, MixSite.tasks]
    by_cases hs : X.scan b h = true
    · rw [if_pos hs] at ho
      rw [if_pos (show (X.alone b).scan h = true from hs)]
      cases hx : X.source b h with
      | none => exact absurd hx ho
      | some q =>
        obtain ⟨a, g, j⟩ := q
        obtain ⟨ks, server, files, sm, h1, h2, -, h4, h5⟩ := sound.sent _ _ _ _ _ ((sound.back _ _ _ _ _).mpr hx)
        obtain ⟨p1, p2⟩ := parcels _ _ _ _ _ h1 (List.mem_of_getElem? h2)
        rw [forwardScan_arrives p1 h4] at h5
        show 0 < (((X.scans b h).getD []).map _).length
        rw [h5, Option.getD_some, List.length_map, List.length_map]
        exact List.length_pos_iff.mpr p2
    · rw [if_neg hs] at ho
      rw [if_neg (show ¬ (X.alone b).scan h = true from hs)]
      exact sound.net.fleet.tasks b h ho

/-! ## Steps inside tasks -/

theorem fleet_forwarding {F : Fleet} {S : FleetSys} {a w g j : Nat} (hw : (S a).workers[w]? = some (.running g j)) :
    F.forwarding S a w = F.target a g j := by
  rw [Fleet.forwarding.eq_def, hw]

theorem fleet_idle {F : Fleet} {S : FleetSys} {a w : Nat} (hw : ∀ g j, (S a).workers[w]? ≠ some (.running g j)) :
    F.forwarding S a w = none := by
  rw [Fleet.forwarding.eq_def]
  split
  · rename_i g j h; exact absurd h (hw g j)
  · rfl

/-- A step inside a task, for the servers without values. -/
theorem fleet_work {F : Fleet} {S : FleetSys} {a w : Nat} {E : Nat → ExtEnv} {C : EngineConf} {x y : XSys} (hS : S a = x.t)
    (task : ∀ (w g j : Nat), x.t.workers[w]? = some (.running g j) → ∃ T, (x.job g).tasks[j]? = some T ∧ T.pc ≠ .failed)
    (done : ∀ g (j : Nat) T b h, (x.job g).tasks[j]? = some T → T.pc = .finished → F.target a g j = some (b, h) →
      ((S b).grp h).phase = .returned ∧ ((S b).grp h).errors = [])
    (h : x.step E C (.work w) = .ok y) :
    ∃ fe, F.step S fe = .ok (fun b => if b = a then y.t else S b) ∧
      ((F.seen S fe a = .finish w ∨ ∃ msg, F.seen S fe a = .fail w msg) ∨
      ∃ g j, x.t.workers[w]? = some (.running g j) ∧ (y.job g).leftOf j < (x.job g).leftOf j) := by
  rcases working h with ⟨h1, h2⟩ | ⟨g, j, T, h1, h2, h3, h4, h5⟩ | ⟨g, j, T, T', m, h1, h2, h3, h4, h5, h6⟩ |
    ⟨g, j, T, h1, h2, h3, h4, h5, h6⟩
  · have hact : F.act S (.thread a (.finish w)) = (a, some (.finish w)) := by
      show (a, if _ then _ else _) = _
      rw [if_pos (fleet_idle (by rw [hS]; exact h1))]
    refine ⟨.thread a (.finish w), fleet_step_of hact ?_, Or.inl (Or.inl (seen_of hact))⟩
    rw [hS]
    show stepFinish x.t w = _
    rw [h2, stepFinish.eq_def]
    split
    · rename_i g j hw; exact absurd hw (h1 g j)
    · rfl
  · have h1' : (S a).workers[w]? = some (.running g j) := by rw [hS]; exact h1
    cases htg : F.target a g j with
    | none =>
      have hact : F.act S (.thread a (.finish w)) = (a, some (.finish w)) := by
        show (a, if _ then _ else _) = _
        rw [if_pos ((fleet_forwarding h1').trans htg)]
      exact ⟨.thread a (.finish w), fleet_step_of hact (by rw [hS]; exact h5), Or.inl (Or.inl (seen_of hact))⟩
    | some p =>
      obtain ⟨b, k⟩ := p
      obtain ⟨hr, he⟩ := done g j T b k h2 h3 htg
      have hact : F.act S (.reply a w) = (a, some (.finish w)) := by
        show (a, match F.forwarding S a w with | some (b, h) => replied ((S b).grp h) w | none => none) = _
        rw [(fleet_forwarding h1').trans htg]
        show (a, replied ((S b).grp k) w) = _
        rw [replied.eq_def, hr]
        simp only []
        rw [if_pos he]
      exact ⟨.reply a w, fleet_step_of hact (by rw [hS]; exact h5), Or.inl (Or.inl (seen_of hact))⟩
  · obtain ⟨T0, hT0, hpf⟩ := task w g j h1
    rw [h2] at hT0
    cases hT0
    refine ⟨.thread a (.abandon 0), ?_, Or.inr ⟨g, j, h1, ?_⟩⟩
    · rw [fleet_still, h6, ← hS]
      congr 1
      funext b
      split
      · rename_i e; rw [e]
      · rfl
    · rw [h5, setJob_self]
      exact leftOf_inside h2 h4 hpf h3
  · have h1' : (S a).workers[w]? = some (.running g j) := by rw [hS]; exact h1
    cases htg : F.target a g j with
    | none =>
      have hact : F.act S (.thread a (.fail w "error")) = (a, some (.fail w "error")) := by
        show (a, if _ then _ else _) = _
        rw [if_pos ((fleet_forwarding h1').trans htg)]
      exact ⟨.thread a (.fail w "error"), fleet_step_of hact (by rw [hS]; exact h6), Or.inl (Or.inr ⟨_, seen_of hact⟩)⟩
    | some p =>
      have hact : F.act S (.lost a w "error") = (a, some (.fail w "error")) := by
        show (a, if _ then _ else _) = _
        rw [if_neg (by rw [(fleet_forwarding h1').trans htg]; simp)]
      exact ⟨.lost a w "error", fleet_step_of hact (by rw [hS]; exact h6), Or.inl (Or.inr ⟨_, seen_of hact⟩)⟩

/-! ## Calls that have returned -/

/-- A step of one process, for its groups. -/
theorem mesh_groups_step {X : Mesh} {U : Nat → String → Prop} {asked : Nat → Nat → Asked} {written : Nat → Nat → List ExRequest}
    (sound : X.Sound U asked written) {s s' : MeshSys} {e : NetEv}
    (good : ∀ a, SvcGood (X.net.site a).reader (X.net.site a).offs (U a) (s a).srv.svc) (h : X.step s e = .ok s') (b : Nat) :
    ∃ o, (s b).srv.x.t.stepIf o = .ok (s' b).srv.x.t ∧ ∀ g, o ≠ some (.abandon g) := by
  rcases mesh_step_inv h with rfl | ⟨a, M, e', y, hact, hy, rfl⟩
  · exact ⟨none, rfl, fun _ e => by cases e⟩
  obtain ⟨fw, n, rfl⟩ := mesh_act_site hact
  by_cases hb : b = a
  · subst hb
    simp only [if_pos]
    have h1 := mix_part (M := ⟨(X.net.site b).told fw, X.scans b, n⟩) (n := (s b).srv.x.t.workers.length)
      (sound.net.reader b) (sound.net.offs b) (good b) (List.getElem?_eq_none (Nat.le_refl _)) hy
    obtain ⟨o, h2, h3⟩ := step_inv h1
    exact ⟨o, h3, act_abandons h2⟩
  · simp only [if_neg hb]
    exact ⟨none, rfl, fun _ e => by cases e⟩

/-- What has returned without errors stays so. -/
theorem mesh_returned_stays {X : Mesh} {U : Nat → String → Prop} {asked : Nat → Nat → Asked} {written : Nat → Nat → List ExRequest}
    (sound : X.Sound U asked written) {st : MeshSys} (began : X.Began U st) {es1 es2 : List NetEv} {Y s : MeshSys}
    (allowed : ∀ e ∈ es1 ++ es2, NetEv.Allowed U e) (h1 : X.run st es1 = .ok Y) (h2 : X.run Y es2 = .ok s) {b g : Nat}
    (hr : ((Y b).srv.x.t.grp g).phase = .returned) (he : ((Y b).srv.x.t.grp g).errors = []) :
    ((s b).srv.x.t.grp g).phase = .returned ∧ ((s b).srv.x.t.grp g).errors = [] := by
  refine mesh_induct (X := X) (st := Y) (fun es s => (∀ e ∈ es1 ++ es, NetEv.Allowed U e) →
    ((s b).srv.x.t.grp g).phase = .returned ∧ ((s b).srv.x.t.grp g).errors = []) (fun _ => ⟨hr, he⟩) ?_ es2 s h2 allowed
  intro es s e s' hrun ih hs ha
  have ha' : ∀ e ∈ es1 ++ es, NetEv.Allowed U e := fun e he => ha e (by
    rw [← List.append_assoc]; exact List.mem_append_left _ he)
  obtain ⟨i1, i2⟩ := ih ha'
  have hrun' : X.run st (es1 ++ es) = .ok s := by rw [mesh_append, h1, ok_bind]; exact hrun
  have mi := mesh_ran sound began ha' hrun'
  obtain ⟨E, xi⟩ := mi.calls b
  have ti : TInv (s b).srv.x.t := xi.t
  obtain ⟨o, o1, o2⟩ := mesh_groups_step sound (mi.good sound began) hs b
  cases o with
  | none => rw [← Except.ok.inj o1]; exact ⟨i1, i2⟩
  | some x =>
    have hx : ∀ g, x ≠ .abandon g := fun g e => o2 g (by rw [e])
    have o1 : (s b).srv.x.t.step x = .ok (s' b).srv.x.t := o1
    exact ⟨returned_stays o1 (hx g) i1, (errors_stay ti o1 hx i1).trans i2⟩

/-! ## What holds at every moment -/

structure MeshOk (X : Mesh) (U : Nat → String → Prop) (s : MeshSys) : Prop where
  fleet : FleetInv X.fleet s.groups
  good : ∀ a, SvcGood (X.net.site a).reader (X.net.site a).offs (U a) (s a).srv.svc
  size : ∀ a g, (((s a).calls (X.alone a)).job g).tasks.length = (X.tasks a g).2.length
  task : ∀ a (w g j : Nat), (s a).srv.x.t.workers[w]? = some (.running g j) →
    ∃ T, (((s a).calls (X.alone a)).job g).tasks[j]? = some T ∧ T.pc ≠ .failed
  hold : ∀ a w, w ∈ (s a).srv.holders → ∀ g j, X.line s a w ≠ some (g, j)
  done : ∀ a g (j : Nat) T b h, (((s a).calls (X.alone a)).job g).tasks[j]? = some T → T.pc = .finished →
    X.aim a g j = some (b, h) → ((s b).srv.x.t.grp h).phase = .returned ∧ ((s b).srv.x.t.grp h).errors = []

/-- Tasks that forward have ended only if what they forwarded has. -/
theorem mesh_done {X : Mesh} {U : Nat → String → Prop} {asked : Nat → Nat → Asked} {written : Nat → Nat → List ExRequest}
    (sound : X.Sound U asked written) {st : MeshSys} (began : X.Began U st) {es : List NetEv} {s : MeshSys}
    (allowed : ∀ e ∈ es, NetEv.Allowed U e) (hrun : X.run st es = .ok s)
    (a g j : Nat) (T : FTask) (b h : Nat) (hT : (((s a).calls (X.alone a)).job g).tasks[j]? = some T) (hp : T.pc = .finished)
    (ht : X.aim a g j = some (b, h)) : ((s b).srv.x.t.grp h).phase = .returned ∧ ((s b).srv.x.t.grp h).errors = [] := by
  have mi := mesh_ran sound began allowed hrun
  rw [Mesh.aim] at ht
  by_cases hs : X.scan a g = true
  · rw [if_pos hs] at ht
    have hj : ((s a).calls (X.alone a)).job g = fakeCall ((s a).jobs g) ((s a).srv.x.t.grp g).errors := if_pos hs
    rw [hj] at hT
    have hT : (((s a).jobs g).tasks.map fakeTask)[j]? = some T := hT
    rw [List.getElem?_map] at hT
    obtain ⟨⟨k, at_⟩, hq, hT2⟩ := Option.map_eq_some_iff.mp hT
    have hat : ∃ n, at_ = .done n := by
      rw [← hT2] at hp
      cases at_ with
      | done n => exact ⟨n, rfl⟩
      | fresh => cases hp
      | planned => cases hp
      | failed => cases hp
    obtain ⟨n, rfl⟩ := hat
    obtain ⟨ks, server, files, sm, h1, h2, -⟩ := sound.sent _ _ _ _ _ ht
    have hk : k = .forward server files := by
      have := mi.kinds a g
      rw [show (X.alone a).scans g = some ks from h1] at this
      rw [show ks = ((s a).jobs g).tasks.map Prod.fst from this.symm, List.getElem?_map, hq] at h2
      exact Option.some.inj h2
    subst hk
    have hd : X.Heard st es a g j n := (mesh_scans sound began allowed hrun a).done g j n _ hq
    obtain ⟨b', h', es1, es2, Y, d1, rfl, d3, -, d5, d6⟩ := hd
    rw [ht] at d1
    cases d1
    have d7 : ((Y b).srv.x.t.grp h).errors = [] := by
      rw [Mix.scanOutcome] at d6
      split at d6
      · cases d6
      · rename_i hc; exact Classical.not_not.mp hc
    have d8 : X.run Y es2 = .ok s := by
      rw [mesh_append, d3, ok_bind] at hrun; exact hrun
    exact mesh_returned_stays sound began allowed d3 d8 d5 d7
  · rw [if_neg hs] at ht
    have hj : ((s a).calls (X.alone a)).job g = (s a).srv.x.job g := if_neg hs
    rw [hj] at hT
    obtain ⟨fs, hf, hr⟩ := mi.seen
    have ok := net_ok sound.net (mesh_view_began began) fs (X.view s) hr hf
    have := ok.done a g j T b h hT hp ht
    rw [mesh_group (sound.apart _ _ _ _ _ ht).2] at this
    exact this

theorem mesh_hold {X : Mesh} {U : Nat → String → Prop} {asked : Nat → Nat → Asked} {written : Nat → Nat → List ExRequest}
    (sound : X.Sound U asked written) {st : MeshSys} (began : X.Began U st) {es : List NetEv} {s : MeshSys}
    (allowed : ∀ e ∈ es, NetEv.Allowed U e) (hrun : X.run st es = .ok s) (a w : Nat) (hw : w ∈ (s a).srv.holders) (g j : Nat) :
    X.line s a w ≠ some (g, j) := by
  intro hl
  have mi := mesh_ran sound began allowed hrun
  obtain ⟨fs, hf, hr⟩ := mi.seen
  have ok := net_ok sound.net (mesh_view_began began) fs (X.view s) hr hf
  have hne := ok.hold a w hw
  obtain ⟨hwr, ⟨hs, -⟩ | ⟨hs, hc⟩⟩ := line_inv hl
  · refine hne ?_
    have hv : (X.view s a).x.t.workers[w]? = some .idle := by
      show ((s a).srv.x.t.view (X.scan a)).workers[w]? = _
      rw [view_worker, hwr]
      simp [viewW, hs]
    rw [XSys.asking.eq_def]
    simp only [hv]
  · have hq : XEv.ofScan (X.scan a) (s a).srv.x.t (.work w) = false := by
      simpa [XEv.ofScan, hwr, WPc.group] using hs
    have hcv : (X.view s a).x.connected w = some (g, j) := by rw [line_view hq]; exact hl
    obtain ⟨c1, server, files, c2⟩ := connected_inv hcv
    exact hne (asking_forward c1 c2)

/-! ## Steps -/

/-- What the step of the processes is, for the servers without values. -/
structure MeshTrack (X : Mesh) (s s' : MeshSys) (e : NetEv) (fe : FleetEv) : Prop where
  step : X.fleet.step s.groups fe = .ok s'.groups
  add : ∀ a g, e = .on a (.queue (.add g)) → fe = .thread a (.add g)
  push : ∀ a g, e = .on a (.queue (.push g)) → fe = .thread a (.push g)
  wait : ∀ a g, e = .on a (.queue (.wait g)) → fe = .thread a (.wait g)
  ret : ∀ a g, e = .on a (.queue (.ret g)) → fe = .thread a (.ret g)
  pop : ∀ a w, e = .on a (.queue (.pop w)) → fe = .thread a (.pop w)
  start : ∀ a w, e = .on a (.queue (.start w)) → fe = .thread a (.start w)
  work : ∀ a w, e = .on a (.queue (.work w)) →
    (X.fleet.seen s.groups fe a = .finish w ∨ ∃ msg, X.fleet.seen s.groups fe a = .fail w msg) ∨
    (X.fleet.forwarding s.groups a w ≠ none ∧ fe = .reply a w) ∨
    ((s a).srv.looks w = true ∧ w ∈ (s' a).srv.holders) ∨
    ∃ g j, (s a).srv.x.t.workers[w]? = some (.running g j) ∧
      (((s' a).calls (X.alone a)).job g).leftOf j < (((s a).calls (X.alone a)).job g).leftOf j

theorem mesh_groups_update {s : MeshSys} {a : Nat} {y : Mix} :
    MeshSys.groups (fun b => if b = a then y else s b) = fun b => if b = a then y.srv.x.t else s.groups b := by
  funext b
  show (if b = a then y else s b).srv.x.t = if b = a then y.srv.x.t else (s b).srv.x.t
  split <;> rfl

theorem mesh_groups_still {s : MeshSys} {a : Nat} {y : Mix} (h : y.srv.x.t = (s a).srv.x.t) :
    MeshSys.groups (fun b => if b = a then y else s b) = s.groups := by
  rw [mesh_groups_update]
  funext b
  show (if b = a then y.srv.x.t else (s b).srv.x.t) = (s b).srv.x.t
  split
  · rename_i e; rw [e, h]
  · rfl

/-- A worker at a connection does not look anything up. -/
theorem line_looks {X : Mesh} {s : MeshSys} {a w g j : Nat} (h : X.line s a w = some (g, j)) :
    (s a).scanning (X.alone a) w = true ∨ (s a).srv.looks w = false := by
  obtain ⟨hw, ⟨hs, -⟩ | ⟨-, hc⟩⟩ := line_inv h
  · refine .inl ?_
    rw [Mix.scanning, hw]; exact hs
  · obtain ⟨c1, server, files, c2⟩ := connected_inv hc
    exact .inr (by rw [Srv.looks, asking_forward c1 c2]; rfl)

theorem mesh_part {X : Mesh} {U : Nat → String → Prop} {asked : Nat → Nat → Asked} {written : Nat → Nat → List ExRequest}
    (sound : X.Sound U asked written) {s : MeshSys} (good : ∀ a, SvcGood (X.net.site a).reader (X.net.site a).offs (U a) (s a).srv.svc)
    (lens : ∀ a, (s a).srv.x.t.workers[X.net.threads a]? = none) {e : NetEv} {a : Nat} {M : MixSite} {e' : SrvEv} {y : Mix}
    (hact : X.act s e = (a, some (M, e'))) (hy : (s a).step M e' = .ok y) :
    ∃ E, ((s a).calls (X.alone a)).step E (X.net.site a).conf ((s a).part (X.alone a) (X.net.threads a) e') =
      .ok (y.calls (X.alone a)) := by
  obtain ⟨fw, n, rfl⟩ := mesh_act_site hact
  exact ⟨_, mix_part (M := ⟨(X.net.site a).told fw, X.scans a, n⟩) (n := X.net.threads a)
    (sound.net.reader a) (sound.net.offs a) (good a) (lens a) hy⟩

theorem mesh_track {X : Mesh} {U : Nat → String → Prop} {asked : Nat → Nat → Asked} {written : Nat → Nat → List ExRequest}
    (sound : X.Sound U asked written) (parcels : X.Parcels) {s s' : MeshSys} {e : NetEv} (ok : MeshOk X U s)
    (h : X.step s e = .ok s') : ∃ fe, MeshTrack X s s' e fe := by
  have lens : ∀ a, (s a).srv.x.t.workers[X.net.threads a]? = none := fun a =>
    List.getElem?_eq_none (Nat.le_of_eq (ok.fleet.workers a))
  -- steps of the threads of calls and of workers between tasks
  have plain : ∀ a (q : XEv) (te : TEv) o, (∀ w, q ≠ .work w) →
      (∀ E C, ((s a).calls (X.alone a)).act E C q = .ok (o, ((s a).calls (X.alone a)).job)) →
      X.act s e = (a, some (X.alone a, .queue q)) →
      X.fleet.act s.groups (.thread a te) = (a, o) → X.fleet.step s.groups (.thread a te) = .ok s'.groups := by
    intro a q te o hq hx hact hf
    rw [Mesh.step, hact] at h
    simp only [] at h
    obtain ⟨y, h1, h⟩ := res_bind_inv h
    rw [← Except.ok.inj h, mesh_groups_update]
    refine fleet_step_of hf ?_
    obtain ⟨E, h2⟩ := mesh_part sound ok.good lens hact h1
    have hp : (s a).part (X.alone a) (X.net.threads a) (.queue q) = q := by
      cases q with
      | work w => exact absurd rfl (hq w)
      | _ => rfl
    rw [hp] at h2
    obtain ⟨o', h3, h4⟩ := step_inv h2
    rw [hx] at h3
    have := (Prod.mk.inj (Except.ok.inj h3)).1
    subst this
    exact h4
  have shut : ∀ a (te : TEv), X.act s e = (a, none) → X.fleet.act s.groups (.thread a te) = (a, none) →
      X.fleet.step s.groups (.thread a te) = .ok s'.groups := by
    intro a te hact hf
    rw [Mesh.step, hact] at h
    simp only [] at h
    cases h
    rw [fleet_step_of hf (t := (s a).srv.x.t) rfl]
    congr 1
    funext b
    split
    · rename_i e; rw [e]; rfl
    · rfl
  -- steps inside tasks
  have inside : ∀ a M w, X.act s e = (a, some (M, .queue (.work w))) →
      (s a).scanning (X.alone a) w = true ∨ (s a).srv.looks w = false →
      ∃ fe, X.fleet.step s.groups fe = .ok s'.groups ∧
        ((X.fleet.seen s.groups fe a = .finish w ∨ ∃ msg, X.fleet.seen s.groups fe a = .fail w msg) ∨
        ∃ g j, (s a).srv.x.t.workers[w]? = some (.running g j) ∧
          (((s' a).calls (X.alone a)).job g).leftOf j < (((s a).calls (X.alone a)).job g).leftOf j) := by
    intro a M w hact hl
    rw [Mesh.step, hact] at h
    simp only [] at h
    obtain ⟨y, h1, h⟩ := res_bind_inv h
    obtain ⟨E, h2⟩ := mesh_part sound ok.good lens hact h1
    have hpa : (s a).part (X.alone a) (X.net.threads a) (.queue (.work w)) = .work w := by
      rw [Mix.part]
      by_cases hs : (s a).scanning (X.alone a) w = true
      · rw [if_pos hs]
      · rw [if_neg hs, Srv.part, if_neg (by rw [hl.resolve_left hs]; decide)]
    rw [hpa] at h2
    rw [← Except.ok.inj h]
    obtain ⟨fe, h3, h4⟩ := fleet_work (F := X.fleet) (S := s.groups) (a := a) (x := (s a).calls (X.alone a)) rfl (ok.task a) (ok.done a) h2
    refine ⟨fe, ?_, ?_⟩
    · rw [h3, mesh_groups_update]; rfl
    · simp only [if_pos]
      exact h4
  cases e with
  | lost a w =>
    cases hc : X.line s a w with
    | none =>
      refine ⟨.thread a (.abandon 0), shut a _ (by rw [Mesh.act, hc]) rfl, ?_, ?_, ?_, ?_, ?_, ?_, ?_⟩ <;>
        (intro _ _ e; cases e)
    | some q =>
      obtain ⟨g, j⟩ := q
      obtain ⟨fe, hfe, -⟩ := inside a (X.hears a (fun _ => throwExn .ioError) fun _ => throwExn .ioError) w
        (by rw [Mesh.act, hc]) (line_looks hc)
      refine ⟨fe, hfe, ?_, ?_, ?_, ?_, ?_, ?_, ?_⟩ <;> (intro _ _ e; cases e)
  | on a e =>
    cases e with
    | other e =>
      have hs' : X.fleet.step s.groups (.thread a (.abandon 0)) = .ok s'.groups := by
        rw [Mesh.step, Mesh.act] at h
        · simp only [] at h
          obtain ⟨y, h1, h⟩ := res_bind_inv h
          rw [← Except.ok.inj h]
          obtain ⟨E, h2⟩ := mesh_part (e := .on a (.other e)) (M := X.alone a) sound ok.good lens rfl h1
          have h2 : ((s a).calls (X.alone a)).step E _ (.work (X.net.threads a)) = _ := h2
          rw [no_worker (s := (s a).calls (X.alone a)) (lens a)] at h2
          have h2 := congrArg XSys.t (Except.ok.inj h2)
          have h3 : (s a).srv.x.t = y.srv.x.t := h2
          rw [mesh_groups_still h3.symm]
          exact fleet_still _ _ _
        all_goals (intro _ e; cases e)
      refine ⟨.thread a (.abandon 0), hs', ?_, ?_, ?_, ?_, ?_, ?_, ?_⟩ <;> (intro _ _ e; cases e)
    | queue q =>
      cases q with
      | add g =>
        have hs' : X.fleet.step s.groups (.thread a (.add g)) = .ok s'.groups := by
          cases ho : X.opened s a g with
          | false =>
            refine shut a _ (by rw [Mesh.act, ho]; rfl) ?_
            show (a, if _ then _ else _) = _
            rw [if_neg]
            rw [show X.fleet.opened s.groups a g = X.opened s a g from rfl, ho]; simp
          | true =>
            refine plain a (.add g) (.add g)
              (if ((s a).srv.x.t.grp g).tasks.length < (((s a).calls (X.alone a)).job g).tasks.length then some (.add g) else none)
              (fun _ e => by cases e) (fun _ _ => rfl) (by rw [Mesh.act, ho]; rfl) ?_
            show (a, if X.fleet.opened s.groups a g ∧ ((s a).srv.x.t.grp g).tasks.length < (X.tasks a g).2.length then _ else _) = _
            rw [show X.fleet.opened s.groups a g = X.opened s a g from rfl, ho, ok.size]
            simp only [true_and]
        refine ⟨.thread a (.add g), hs', ?_, ?_, ?_, ?_, ?_, ?_, ?_⟩ <;> (intro _ _ e; cases e; try rfl)
      | wait g =>
        have hs' : X.fleet.step s.groups (.thread a (.wait g)) = .ok s'.groups := by
          cases ho : X.opened s a g with
          | false =>
            refine shut a _ (by rw [Mesh.act, ho]; rfl) ?_
            show (a, if _ then _ else _) = _
            rw [if_neg]
            rw [show X.fleet.opened s.groups a g = X.opened s a g from rfl, ho]; simp
          | true =>
            refine plain a (.wait g) (.wait g)
              (if ((s a).srv.x.t.grp g).tasks.length = (((s a).calls (X.alone a)).job g).tasks.length then some (.wait g) else none)
              (fun _ e => by cases e) (fun _ _ => rfl) (by rw [Mesh.act, ho]; rfl) ?_
            show (a, if X.fleet.opened s.groups a g ∧ ((s a).srv.x.t.grp g).tasks.length = (X.tasks a g).2.length then _ else _) = _
            rw [show X.fleet.opened s.groups a g = X.opened s a g from rfl, ho, ok.size]
            simp only [true_and]
        refine ⟨.thread a (.wait g), hs', ?_, ?_, ?_, ?_, ?_, ?_, ?_⟩ <;> (intro _ _ e; cases e; try rfl)
      | push g =>
        refine ⟨.thread a (.push g), plain a (.push g) (.push g) _ (fun _ e => by cases e) (fun _ _ => rfl) rfl rfl,
          ?_, ?_, ?_, ?_, ?_, ?_, ?_⟩ <;> (intro _ _ e; cases e; try rfl)
      | ret g =>
        refine ⟨.thread a (.ret g), plain a (.ret g) (.ret g) _ (fun _ e => by cases e) (fun _ _ => rfl) rfl rfl,
          ?_, ?_, ?_, ?_, ?_, ?_, ?_⟩ <;> (intro _ _ e; cases e; try rfl)
      | pop g =>
        refine ⟨.thread a (.pop g), plain a (.pop g) (.pop g) _ (fun _ e => by cases e) (fun _ _ => rfl) rfl rfl,
          ?_, ?_, ?_, ?_, ?_, ?_, ?_⟩ <;> (intro _ _ e; cases e; try rfl)
      | start g =>
        refine ⟨.thread a (.start g), plain a (.start g) (.start g) _ (fun _ e => by cases e) (fun _ _ => rfl) rfl rfl,
          ?_, ?_, ?_, ?_, ?_, ?_, ?_⟩ <;> (intro _ _ e; cases e; try rfl)
      | work w =>
        have fin : ∀ fe, X.fleet.step s.groups fe = .ok s'.groups →
            ((X.fleet.seen s.groups fe a = .finish w ∨ ∃ msg, X.fleet.seen s.groups fe a = .fail w msg) ∨
              ∃ g j, (s a).srv.x.t.workers[w]? = some (.running g j) ∧
                (((s' a).calls (X.alone a)).job g).leftOf j < (((s a).calls (X.alone a)).job g).leftOf j) →
            ∃ fe, MeshTrack X s s' (.on a (.queue (.work w))) fe := by
          intro fe h1 h2
          refine ⟨fe, h1, ?_, ?_, ?_, ?_, ?_, ?_, ?_⟩
          case refine_7 =>
            intro _ _ e
            cases e
            rcases h2 with h2 | h2
            · exact Or.inl h2
            · exact Or.inr (Or.inr (Or.inr h2))
          all_goals (intro _ _ e; cases e)
        cases hc : X.line s a w with
        | none =>
          have hact : X.act s (.on a (.queue (.work w))) = (a, some (X.alone a, .queue (.work w))) := by rw [Mesh.act, hc]
          by_cases hl : (s a).scanning (X.alone a) w = true ∨ (s a).srv.looks w = false
          · obtain ⟨fe, h1, h2⟩ := inside a _ w hact hl
            exact fin fe h1 h2
          · -- a lookup in the cache begins
            have hsc : (s a).scanning (X.alone a) w = false := by
              cases hb : (s a).scanning (X.alone a) w with
              | false => rfl
              | true => exact absurd (.inl hb) hl
            have hlk : (s a).srv.looks w = true := by
              cases hb : (s a).srv.looks w with
              | true => rfl
              | false => exact absurd (.inr hb) hl
            rw [Mesh.step, hact] at h
            simp only [] at h
            obtain ⟨y, h1, h⟩ := res_bind_inv h
            obtain ⟨E, h2⟩ := mesh_part sound ok.good lens hact h1
            have hpa : (s a).part (X.alone a) (X.net.threads a) (.queue (.work w)) = .work (X.net.threads a) := by
              rw [Mix.part, if_neg (by rw [hsc]; decide), Srv.part, if_pos hlk]
            rw [hpa, no_worker (s := (s a).calls (X.alone a)) (lens a)] at h2
            have h2 := congrArg XSys.t (Except.ok.inj h2)
            have h3 : (s a).srv.x.t = y.srv.x.t := h2
            have hs'a : s' a = y := by rw [← Except.ok.inj h]; exact if_pos rfl
            refine ⟨.thread a (.abandon 0), ?_, ?_, ?_, ?_, ?_, ?_, ?_, ?_⟩
            · rw [← Except.ok.inj h, mesh_groups_still h3.symm]; exact fleet_still _ _ _
            case refine_8 =>
              intro _ _ e
              cases e
              refine Or.inr (Or.inr (Or.inl ⟨hlk, ?_⟩))
              rw [hs'a]
              rw [step_work hsc, Mix.plain] at h1
              obtain ⟨z, h4, h5⟩ := res_bind_inv h1
              rw [← Except.ok.inj h5]
              exact looks_holds h4 hlk
            all_goals (intro _ _ e; cases e)
        | some q =>
          obtain ⟨g, j⟩ := q
          obtain ⟨c1, c2⟩ := line_inv hc
          cases hr : X.reply s a g j with
          | some M =>
            obtain ⟨fe, h1, h2⟩ := inside a M w (by rw [Mesh.act, hc]; simp only []; rw [hr]; rfl) (line_looks hc)
            exact fin fe h1 h2
          | none =>
            -- the reply has not come
            have hna : X.act s (.on a (.queue (.work w))) = (a, none) := by
              rw [Mesh.act, hc]
              simp only []
              rw [hr]; rfl
            have hwait : ∃ b k, X.aim a g j = some (b, k) ∧ ((s b).srv.x.t.grp k).phase ≠ .returned := by
              rw [Mesh.reply] at hr
              rw [Mesh.aim]
              by_cases hs : X.scan a g = true
              · rw [if_pos hs] at hr ⊢
                cases htg : X.link a g j with
                | none => rw [htg] at hr; cases hr
                | some p =>
                  obtain ⟨b, k⟩ := p
                  rw [htg] at hr
                  simp only [] at hr
                  split at hr
                  · cases hr
                  · rename_i hph; exact ⟨b, k, rfl, hph⟩
              · rw [if_neg hs] at hr ⊢
                have hr := Option.map_eq_none_iff.mp hr
                rw [Net.reply] at hr
                cases htg : X.net.target a g j with
                | none => rw [htg] at hr; cases hr
                | some p =>
                  obtain ⟨b, k⟩ := p
                  rw [htg] at hr
                  simp only [] at hr
                  split at hr
                  · cases hr
                  · rename_i hph; exact ⟨b, k, rfl, hph⟩
            obtain ⟨b, k, htg, hph⟩ := hwait
            have hfs := sound.fleet parcels
            have hor : X.fleet.origin b k ≠ none := by rw [(hfs.back _ _ _ _ _).mp htg]; simp
            have hrep : replied ((s b).srv.x.t.grp k) w = none := by
              rw [replied.eq_def]
              cases hp : ((s b).srv.x.t.grp k).phase with
              | returned => exact absurd hp hph
              | enqueuing => rfl
              | waiting => rfl
              | gone =>
                exfalso
                have h1 := ok.fleet.full b k (show ((s b).srv.x.t.grp k).phase ≠ _ by rw [hp]; simp)
                have h2 : ((s b).srv.x.t.grp k).tasks = [] := ((ok.fleet.inv b).grp k).gone hp
                have h3 := hfs.tasks b k hor
                have h1 : ((s b).srv.x.t.grp k).tasks.length = _ := h1
                rw [h2] at h1
                rw [← h1] at h3
                cases h3
            have hfw : X.fleet.forwarding s.groups a w = some (b, k) :=
              (fleet_forwarding (F := X.fleet) (S := s.groups) c1).trans htg
            have hact : X.fleet.act s.groups (.reply a w) = (a, none) := by
              show (a, match X.fleet.forwarding s.groups a w with
                | some (b, h) => replied ((s.groups b).grp h) w | none => none) = _
              rw [hfw]
              exact congrArg (Prod.mk a) hrep
            rw [Mesh.step, hna] at h
            simp only [] at h
            cases h
            refine ⟨.reply a w, ?_, ?_, ?_, ?_, ?_, ?_, ?_, ?_⟩
            · rw [fleet_step_of hact (t := (s a).srv.x.t) rfl]
              congr 1
              funext b
              split
              · rename_i e; rw [e]; rfl
              · rfl
            case refine_8 =>
              intro _ _ e
              cases e
              exact Or.inr (Or.inl ⟨by rw [hfw]; simp, rfl⟩)
            all_goals (intro _ _ e; cases e)

theorem mesh_ok {X : Mesh} {U : Nat → String → Prop} {asked : Nat → Nat → Asked} {written : Nat → Nat → List ExRequest}
    (sound : X.Sound U asked written) (parcels : X.Parcels) {st : MeshSys} (began : X.Began U st) {es : List NetEv} {s : MeshSys}
    (allowed : ∀ e ∈ es, NetEv.Allowed U e) (h : X.run st es = .ok s) : MeshOk X U s := by
  have rest : ∀ {es : List NetEv} {s : MeshSys}, (∀ e ∈ es, NetEv.Allowed U e) → X.run st es = .ok s →
      FleetInv X.fleet s.groups → MeshOk X U s := by
    intro es s ha hr hf
    have mi := mesh_ran sound began ha hr
    refine ⟨hf, mi.good sound began, fun a => ?_, fun a => ?_, mesh_hold sound began ha hr, mesh_done sound began ha hr⟩
    · obtain ⟨E, xi⟩ := mi.calls a; exact xi.size
    · obtain ⟨E, xi⟩ := mi.calls a
      intro w g j hw
      exact xi.task hw
  refine rest allowed h ?_
  refine mesh_induct (X := X) (st := st) (fun es s => (∀ e ∈ es, NetEv.Allowed U e) → FleetInv X.fleet s.groups) ?_ ?_ es s h allowed
  · intro _
    obtain ⟨d, mode, lazy, cap, fs, -, -, -, rfl⟩ := began
    exact FleetInv.start X.fleet
  · intro es s e s' hr ih hs ha
    have ha' : ∀ e ∈ es, NetEv.Allowed U e := fun e he => ha e (List.mem_append_left _ he)
    obtain ⟨fe, tr⟩ := mesh_track sound parcels (rest ha' hr (ih ha')) hs
    exact (ih ha').step tr.step

/-! ## Infinite histories -/

/-- An infinite history of the processes. -/
structure MeshExecution (X : Mesh) (U : Nat → String → Prop) (ev : Nat → NetEv) (st : Nat → MeshSys) : Prop where
  began : X.Began U (st 0)
  step : ∀ k, X.step (st k) (ev k) = .ok (st (k + 1))
  allowed : ∀ k, NetEv.Allowed U (ev k)

/-- The process always has a worker that does not wait for another process. -/
def MeshSpare (X : Mesh) (st : Nat → MeshSys) (b : Nat) : Prop :=
  ∀ k, ∃ w, w < X.net.threads b ∧ ∀ g j, ((st k) b).srv.x.t.workers[w]? = some (.running g j) → X.aim b g j = none

theorem MeshExecution.since {X : Mesh} {U : Nat → String → Prop} {ev : Nat → NetEv} {st : Nat → MeshSys}
    (h : MeshExecution X U ev st) (k m : Nat) :
    X.run (st k) ((List.range m).map fun i => ev (k + i)) = .ok (st (k + m)) := by
  induction m with
  | zero => rfl
  | succ m ih =>
    rw [List.range_succ, List.map_append]
    exact mesh_snoc ih (h.step (k + m))

theorem MeshExecution.events {X : Mesh} {U : Nat → String → Prop} {ev : Nat → NetEv} {st : Nat → MeshSys}
    (h : MeshExecution X U ev st) (k m : Nat) : ∀ e ∈ (List.range m).map (fun i => ev (k + i)), NetEv.Allowed U e := by
  intro e he
  obtain ⟨i, -, rfl⟩ := List.mem_map.mp he
  exact h.allowed _

theorem MeshExecution.run {X : Mesh} {U : Nat → String → Prop} {ev : Nat → NetEv} {st : Nat → MeshSys}
    (h : MeshExecution X U ev st) (k : Nat) : X.run (st 0) ((List.range k).map fun i => ev (0 + i)) = .ok (st k) := by
  have := h.since 0 k
  rwa [show 0 + k = k from by omega] at this

theorem MeshExecution.ok {X : Mesh} {U : Nat → String → Prop} {asked : Nat → Nat → Asked} {written : Nat → Nat → List ExRequest}
    (sound : X.Sound U asked written) (parcels : X.Parcels) {ev : Nat → NetEv} {st : Nat → MeshSys}
    (h : MeshExecution X U ev st) (k : Nat) : MeshOk X U (st k) :=
  mesh_ok sound parcels h.began (h.events 0 k) (h.run k)

/-- Nothing adds to what a task has left to do. -/
theorem mesh_left {X : Mesh} {U : Nat → String → Prop} {asked : Nat → Nat → Asked} {written : Nat → Nat → List ExRequest}
    (sound : X.Sound U asked written) {s s' : MeshSys} {e : NetEv} (ok : MeshOk X U s) (h : X.step s e = .ok s') (a g j : Nat) :
    (((s' a).calls (X.alone a)).job g).leftOf j ≤ (((s a).calls (X.alone a)).job g).leftOf j := by
  have lens : ∀ a, (s a).srv.x.t.workers[X.net.threads a]? = none := fun a =>
    List.getElem?_eq_none (Nat.le_of_eq (ok.fleet.workers a))
  rcases mesh_step_inv h with rfl | ⟨c, M, e', y, hact, hy, rfl⟩
  · exact Nat.le_refl _
  by_cases hc : a = c
  · subst hc
    simp only [if_pos]
    obtain ⟨E, h2⟩ := mesh_part sound ok.good lens hact hy
    exact xstep_left h2 (ok.task a) g j
  · simp only [if_neg hc]; exact Nat.le_refl _

/-- A worker in the middle of a lookup stays there until it steps. -/
theorem mesh_holders {X : Mesh} {U : Nat → String → Prop} {s s' : MeshSys} {e : NetEv} (ok : MeshOk X U s)
    (h : X.step s e = .ok s') {a w : Nat} (hne : e ≠ .on a (.queue (.work w))) (hw : w ∈ (s a).srv.holders) :
    w ∈ (s' a).srv.holders := by
  rcases mesh_step_inv h with rfl | ⟨c, M, e', y, hact, hy, rfl⟩
  · exact hw
  by_cases hc : a = c
  · subst hc
    simp only [if_pos]
    refine mix_holders hy ?_ hw
    rintro rfl
    rcases mesh_act_inv hact with ⟨-, he, -⟩ | ⟨w', g, j, hw', hline, -⟩
    · exact hne he
    · cases hw'
      exact ok.hold a w hw g j hline
  · simp only [if_neg hc]; exact hw

/-- The history of the servers without values. -/
theorem MeshExecution.fleet {X : Mesh} {U : Nat → String → Prop} {asked : Nat → Nat → Asked} {written : Nat → Nat → List ExRequest}
    (sound : X.Sound U asked written) (parcels : X.Parcels) {ev : Nat → NetEv} {st : Nat → MeshSys} (h : MeshExecution X U ev st) :
    ∃ fev : Nat → FleetEv, FleetExecution X.fleet fev (fun k => (st k).groups) ∧
      ∀ k, MeshTrack X (st k) (st (k + 1)) (ev k) (fev k) := by
  have hex := fun k => mesh_track sound parcels (h.ok sound parcels k) (h.step k)
  refine ⟨fun k => Classical.choose (hex k), ⟨?_, fun k => (Classical.choose_spec (hex k)).step⟩,
    fun k => Classical.choose_spec (hex k)⟩
  obtain ⟨d, mode, lazy, cap, fs, -, -, -, e⟩ := h.began
  rw [e]; rfl

theorem MeshExecution.tries {X : Mesh} {U : Nat → String → Prop} {asked : Nat → Nat → Asked} {written : Nat → Nat → List ExRequest}
    (sound : X.Sound U asked written) (parcels : X.Parcels) {ev : Nat → NetEv} {st : Nat → MeshSys} (h : MeshExecution X U ev st)
    {fev : Nat → FleetEv} (hF : FleetExecution X.fleet fev (fun k => (st k).groups))
    (tr : ∀ k, MeshTrack X (st k) (st (k + 1)) (ev k) (fev k)) {a : Nat} (fair : NetWorkersFairAt X.net ev a) :
    FleetTriesAt X.fleet fev (fun k => (st k).groups) a := by
  intro w hw k
  obtain ⟨⟨m1, a1, b1⟩, ⟨m2, a2, b2⟩, -⟩ := fair w hw k
  refine ⟨⟨m1, a1, by rw [(tr m1).pop a w b1]; exact seen_thread rfl⟩,
    ⟨m2, a2, by rw [(tr m2).start a w b2]; exact seen_thread rfl⟩, ?_⟩
  apply Classical.byContradiction
  intro hno
  have hno' : ∀ m, k ≤ m → X.fleet.seen (st m).groups (fev m) a ≠ .finish w ∧
      ∀ msg, X.fleet.seen (st m).groups (fev m) a ≠ .fail w msg :=
    fun m hm => ⟨fun e => hno ⟨m, hm, Or.inl (Or.inl e)⟩, fun msg e => hno ⟨m, hm, Or.inl (Or.inr ⟨msg, e⟩)⟩⟩
  -- every step of the worker is a lookup or goes on
  have works : ∀ m, k ≤ m → ev m = .on a (.queue (.work w)) →
      ((st m a).srv.looks w = true ∧ w ∈ (st (m + 1) a).srv.holders) ∨
      ∃ g j, (st m a).srv.x.t.workers[w]? = some (.running g j) ∧
        (((st (m + 1) a).calls (X.alone a)).job g).leftOf j < (((st m a).calls (X.alone a)).job g).leftOf j := by
    intro m hm em
    rcases (tr m).work a w em with (e | e) | e | e | e
    · exact absurd e (hno' m hm).1
    · obtain ⟨msg, e⟩ := e; exact absurd e ((hno' m hm).2 msg)
    · exact absurd ⟨m, hm, Or.inr e⟩ hno
    · exact Or.inl e
    · exact Or.inr e
  have goes : ∀ m, k ≤ m → ∃ m', m ≤ m' ∧ ∃ g j, (st m' a).srv.x.t.workers[w]? = some (.running g j) ∧
        (((st (m' + 1) a).calls (X.alone a)).job g).leftOf j < (((st m' a).calls (X.alone a)).job g).leftOf j := by
    intro m hm
    obtain ⟨m1, hm1, e1⟩ := (fair w hw m).2.2
    rcases works m1 (by omega) e1 with ⟨hl, hold⟩ | hg
    · obtain ⟨m2, hm2, e2, hfirst⟩ := first_from (fair w hw (m1 + 1)).2.2
      have : ∀ i, m1 + 1 + i ≤ m2 → w ∈ (st (m1 + 1 + i) a).srv.holders := by
        intro i
        induction i with
        | zero => intro _; exact hold
        | succ i ih =>
          intro hle
          exact mesh_holders (h.ok sound parcels _) (h.step (m1 + 1 + i)) (hfirst _ (by omega) (by omega)) (ih (by omega))
      have hin := this (m2 - (m1 + 1)) (by omega)
      rw [show m1 + 1 + (m2 - (m1 + 1)) = m2 from by omega] at hin
      rcases works m2 (by omega) e2 with ⟨hl2, -⟩ | hg
      · rw [Srv.looks, Bool.and_eq_true] at hl2
        exact absurd hin (of_decide_eq_true hl2.2)
      · exact ⟨m2, by omega, hg⟩
    · exact ⟨m1, hm1, hg⟩
  have stays : ∀ m g j, k ≤ m → (st m a).srv.x.t.workers[w]? = some (.running g j) → ∀ d,
      (st (m + d) a).srv.x.t.workers[w]? = some (.running g j) ∧
        (((st (m + d) a).calls (X.alone a)).job g).leftOf j ≤ (((st m a).calls (X.alone a)).job g).leftOf j := by
    intro m g j hm hr d
    induction d with
    | zero => exact ⟨hr, Nat.le_refl _⟩
    | succ d ih =>
      have hq := hno' (m + d) (by omega)
      exact ⟨worker_stays (seen_step (hF.inv (m + d)) (hF.step (m + d)) a) ih.1 hq.1 hq.2,
        Nat.le_trans (mesh_left sound (h.ok sound parcels _) (h.step (m + d)) a g j) ih.2⟩
  obtain ⟨m0, hm0, g, j, hr, -⟩ := goes k (Nat.le_refl _)
  have main : ∀ L m, m0 ≤ m → (((st m a).calls (X.alone a)).job g).leftOf j ≤ L → False := by
    intro L
    induction L with
    | zero =>
      intro m hm hl
      obtain ⟨m', hm', g', j', hr', hlt⟩ := goes m (by omega)
      have h1 := (stays m0 g j (by omega) hr (m' - m0)).1
      rw [show m0 + (m' - m0) = m' from by omega, hr'] at h1
      cases h1
      have h2 := (stays m g j (by omega) (by
        have := (stays m0 g j (by omega) hr (m - m0)).1
        rwa [show m0 + (m - m0) = m from by omega] at this) (m' - m)).2
      rw [show m + (m' - m) = m' from by omega] at h2
      omega
    | succ L ih =>
      intro m hm hl
      obtain ⟨m', hm', g', j', hr', hlt⟩ := goes m (by omega)
      have h1 := (stays m0 g j (by omega) hr (m' - m0)).1
      rw [show m0 + (m' - m0) = m' from by omega, hr'] at h1
      cases h1
      have h2 := (stays m g j (by omega) (by
        have := (stays m0 g j (by omega) hr (m - m0)).1
        rwa [show m0 + (m - m0) = m from by omega] at this) (m' - m)).2
      rw [show m + (m' - m) = m' from by omega] at h2
      exact ih (m' + 1) (by omega) (by omega)
  exact main _ m0 (Nat.le_refl _) (Nat.le_refl _)

theorem MeshExecution.threads {X : Mesh} {ev : Nat → NetEv} {st : Nat → MeshSys} {fev : Nat → FleetEv}
    (tr : ∀ k, MeshTrack X (st k) (st (k + 1)) (ev k) (fev k)) {a g : Nat} (fair : NetThreadFair a g ev) :
    FleetThreadFair a g fev := by
  intro k
  obtain ⟨⟨m1, a1, b1⟩, ⟨m2, a2, b2⟩, ⟨m3, a3, b3⟩, ⟨m4, a4, b4⟩⟩ := fair k
  exact ⟨⟨m1, a1, (tr m1).add a g b1⟩, ⟨m2, a2, (tr m2).push a g b2⟩, ⟨m3, a3, (tr m3).wait a g b3⟩,
    ⟨m4, a4, (tr m4).ret a g b4⟩⟩

/-- Scans and extractions on processes that forward to each other return, whatever other processes do. -/
theorem MeshExecution.calls {X : Mesh} {U : Nat → String → Prop} {asked : Nat → Nat → Asked} {written : Nat → Nat → List ExRequest}
    (sound : X.Sound U asked written) (parcels : X.Parcels) {ev : Nat → NetEv} {st : Nat → MeshSys} (h : MeshExecution X U ev st)
    (P : Nat → Prop) (within : ∀ a g t b i, P a → X.aim a g t = Option.some (b, i) → P b)
    (workers : ∀ a, P a → NetWorkersFairAt X.net ev a) (threads : ∀ b g, P b → (X.tasks b g).2 ≠ [] → NetThreadFair b g ev)
    (some : ∀ b g, P b → (X.tasks b g).2 ≠ [] → 0 < X.net.threads b) (rank : Nat → Nat)
    (room : ∀ b j, P b → X.sender b j ≠ none →
      MeshSpare X st b ∨ ∀ g t c i, X.aim b g t = Option.some (c, i) → rank c < rank b)
    (calm : ∀ b j, P b → X.sender b j ≠ none → ∀ k, .cancelled ∉ ((st k b).srv.x.t.grp j).tasks)
    {a g : Nat} (inside : P a) (client : X.sender a g = none) (tasks : (X.tasks a g).2 ≠ []) :
    (∃ k, ((st k a).srv.x.t.grp g).phase = .returned) ∨ (∃ k, .cancelled ∈ ((st k a).srv.x.t.grp g).tasks) := by
  obtain ⟨fev, hF, tr⟩ := h.fleet sound parcels
  have pos : ∀ {b g}, 0 < X.fleet.size b g → (X.tasks b g).2 ≠ [] := fun hp => List.length_pos_iff.mp hp
  refine hF.calls_in (F := X.fleet) (sound.fleet parcels) P within (fun a ha => h.tries sound parcels hF tr (workers a ha))
    (fun b g pb hb => MeshExecution.threads tr (threads b g pb (pos hb))) (fun b g pb hb => some b g pb (pos hb)) rank ?_ calm
    inside client (List.length_pos_iff.mpr tasks)
  intro b j pb hj
  rcases room b j pb hj with hr | hr
  · refine Or.inl fun k => ?_
    obtain ⟨w, hw, hn⟩ := hr k
    refine ⟨w, hw, ?_⟩
    by_cases hx : ∃ g j, (st k b).srv.x.t.workers[w]? = Option.some (.running g j)
    · obtain ⟨g, j, hx⟩ := hx
      rw [fleet_forwarding (F := X.fleet) (S := (st k).groups) hx]
      exact hn g j hx
    · exact fleet_idle fun g j e => hx ⟨g, j, e⟩
  · exact Or.inr hr

end GJ
