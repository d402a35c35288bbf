import Verif.Lemmas.MeshFleet
import Verif.Props.C77
import Verif.Props.C80

/-!
# Scans and extractions that processes forward to each other: which do not fail
-/

namespace GJ
open Spec

/-! ## Processes that build metadata on demand -/

/-- All processes have just started, and build metadata on demand. -/
def Mesh.LazyBegan (X : Mesh) (U : Nat → String → Prop) (st : MeshSys) : Prop :=
  ∃ d mode cap fs, (∀ a, ToldApart (mode a) (U a)) ∧ (∀ a, 0 < cap a) ∧
    (∀ a, GoodIndex (diskWorld (X.net.site a).reader (X.net.site a).offs (d a)) (U a) (mode a) (fs a)) ∧
    st = X.start d mode (fun _ => true) cap fs

theorem mesh_lazy_view {X : Mesh} {U : Nat → String → Prop} {st : MeshSys} (h : X.LazyBegan U st) :
    X.net.LazyBegan U (X.view st) := by
  obtain ⟨d, mode, cap, fs, h1, h2, h3, rfl⟩ := h
  exact ⟨d, mode, cap, fs, h1, h2, h3, mesh_view_start X d mode _ cap fs⟩

section
variable {X : Mesh} {U : Nat → String → Prop} {asked : Nat → Nat → Asked} {written : Nat → Nat → List ExRequest}

/-! ## Steps of scans -/

/-- A step of one of the processes, as one with scans. -/
theorem mesh_scan_step (sound : X.Sound U asked written) {st : MeshSys} (began : X.Began U st) {es : List NetEv} {e : NetEv}
    {s s' : MeshSys} (allowed : ∀ e ∈ es, NetEv.Allowed U e) (hr : X.run st es = .ok s) (hs : X.step s e = .ok s') (c : Nat) :
    s' c = s c ∨ ∃ M e', X.act s e = (c, some (M, e')) ∧ ScanStep M e' (s c) (s' c) := by
  have mi := mesh_ran sound began allowed hr
  have len := (mesh_scans sound began allowed hr c).len
  have good := mi.good sound began c
  rcases mesh_step_inv hs with h | ⟨a, M, e', y, hact, hy, h⟩
  · exact .inl (by rw [h])
  by_cases hc : c = a
  case neg => exact .inl (by rw [h]; exact if_neg hc)
  subst hc
  obtain ⟨fw, n, hM⟩ := mesh_act_site hact
  refine .inr ⟨M, e', hact, ?_⟩
  rw [show s' c = y by rw [h]; exact if_pos rfl]
  rw [hM] at hy ⊢
  exact scan_step (M := ⟨(X.net.site c).told fw, X.scans c, n⟩) (U := U c) (sound.net.reader c) (sound.net.offs c) good len hy

/-- Why a task of a scan fails. -/
def Mesh.Trouble (X : Mesh) (s : MeshSys) (e : NetEv) (a g j : Nat) : ScanKind → Prop
  | .file path os => ¬ Readable (X.net.site a).reader (X.net.site a).offs (s a).srv.svc path os
  | .forward _ _ => X.link a g j = none ∨ (∃ w, e = .lost a w ∧ X.line s a w = some (g, j)) ∨
      ∃ b h, X.link a g j = some (b, h) ∧ ((s b).srv.x.t.grp h).errors ≠ []

theorem mesh_broken_step (sound : X.Sound U asked written) {st : MeshSys} (began : X.Began U st) {es : List NetEv} {e : NetEv}
    {s s' : MeshSys} (allowed : ∀ e ∈ es, NetEv.Allowed U e) (hr : X.run st es = .ok s) (hs : X.step s e = .ok s') {c g : Nat}
    {ks : List ScanKind} (hg : X.scans c g = some ks) :
    (ScanBroken (s c) g → ScanBroken (s' c) g) ∧
    (ScanBroken (s' c) g → ScanBroken (s c) g ∨ ∃ (j : Nat) (k : ScanKind), ks[j]? = some k ∧ X.Trouble s e c g j k) := by
  have mi := mesh_ran sound began allowed hr
  rcases mesh_scan_step sound began allowed hr hs c with h | ⟨M, e', hact, hstep⟩
  · rw [h]; exact ⟨id, .inl⟩
  refine ⟨(broken_step hstep g).1, fun hb => ?_⟩
  have hk : ((s c).jobs g).tasks.map Prod.fst = ks := by
    have := mi.kinds c g
    rw [show (X.alone c).scans g = some ks from hg] at this
    exact this
  have hscan : X.scan c g = true := by rw [Mesh.scan, hg]; rfl
  rcases (broken_step hstep g).2 hb with hb | ⟨j, k, hj, why⟩
  · exact .inl hb
  have hkj : ks[j]? = some k := by rw [← hk, List.getElem?_map, hj]; rfl
  refine .inr ⟨j, k, hkj, ?_⟩
  rcases why with ⟨path, os, x, rfl, hp⟩ | ⟨⟨server, files, x, rfl, hp⟩, w, he, hw⟩
  · intro hread
    obtain ⟨pl, hpl⟩ := (scanTaskPlan_spec (mi.good sound began c)
      (sound.within c g ks hg _ (List.mem_of_getElem? hkj) path os rfl) os).2 hread
    rw [hpl] at hp
    cases hp
  · have hline : X.line s c w = some (g, j) := by
      rw [Mesh.line, hw]
      simp only []
      rw [if_pos hscan, hj]
    rcases mesh_act_inv hact with ⟨-, -, hno, -⟩ | ⟨w', g', j', he', hline', hcase⟩
    · rw [hno w he] at hline; cases hline
    · rw [he] at he'
      cases he'
      rw [hline] at hline'
      cases hline'
      rcases hcase with ⟨-, hrep⟩ | ⟨he, -⟩
      · rw [Mesh.reply, if_pos hscan] at hrep
        cases hl : X.link c g j with
        | none => exact .inl hl
        | some q =>
          obtain ⟨b, h⟩ := q
          rw [hl] at hrep
          simp only [] at hrep
          split at hrep
          · cases hrep
            obtain ⟨ks', server', files', sm, h1, h2, h3, h4, h5⟩ := sound.sent _ _ _ _ _ hl
            rw [hg] at h1
            cases h1
            rw [hkj] at h2
            cases h2
            have hp : remoteForwardScan (Mesh.answering s b h) (X.net.ctx c g) files = throwExn x := hp
            rw [answering_scan h4] at hp
            refine .inr (.inr ⟨b, h, hl, fun hn => ?_⟩)
            rw [if_pos hn] at hp
            cases hp
          · cases hrep
      · exact .inr (.inl ⟨w, he, hline⟩)

theorem mesh_disk_before {s s' : MeshSys} {e : NetEv} (h : X.step s e = .ok s') (b : Nat) :
    (s b).srv.svc.disk.Before (s' b).srv.svc.disk := by
  have hd := congrFun (mesh_step_disks h) b
  have hd : (s' b).srv.svc.disk = e.grow (MeshSys.disks s) b := hd
  rw [hd]
  exact net_grow_before (MeshSys.disks s) e b

/-! ## Scans that do not fail -/

/-- From moment `k` on, the files of scan `g` of process `a` can be read; for a file given with offsets it is enough that its
messages can be read at that moment. -/
def Mesh.Reads (X : Mesh) (st : Nat → MeshSys) (k a g : Nat) : Prop :=
  ∀ ks path os, X.scans a g = some ks → .file path os ∈ ks →
    Readable (X.net.site a).reader (X.net.site a).offs (st k a).srv.svc path os ∧
    (os = [] → ∀ i, Readable (X.net.site a).reader (X.net.site a).offs (st (k + i) a).srv.svc path os)

/-- From moment `k` on, no connection of group `g` of process `a` breaks. -/
def MeshKept (X : Mesh) (ev : Nat → NetEv) (st : Nat → MeshSys) (k a g : Nat) : Prop :=
  ∀ m w j, k ≤ m → X.line (st m) a w = some (g, j) → ev m ≠ .lost a w

variable {ev : Nat → NetEv} {st : Nat → MeshSys}

theorem MeshExecution.inv (sound : X.Sound U asked written) (h : MeshExecution X U ev st) (k : Nat) : MeshInv X U (st 0) (st k) :=
  mesh_ran sound h.began (h.events 0 k) (h.run k)

/-- A scan is in order if and only if none of its tasks has failed. -/
theorem MeshExecution.errors (sound : X.Sound U asked written) (h : MeshExecution X U ev st) {a g : Nat} {ks : List ScanKind}
    (hg : X.scans a g = some ks) (k : Nat) : ((st k a).srv.x.t.grp g).errors ≠ [] ↔ ScanBroken (st k a) g := by
  obtain ⟨E, hE⟩ := (h.inv sound k).calls a
  exact scan_errors hE (show (X.alone a).scan g = true by show (X.scans a g).isSome = true; rw [hg]; rfl)

/-- A scan whose files can be read, and whose connections hold and lead to scans that do not fail, does not fail. -/
theorem MeshExecution.whole (sound : X.Sound U asked written) (h : MeshExecution X U ev st) {a g k : Nat} {ks : List ScanKind}
    (hg : X.scans a g = some ks) (clean : ((st k a).srv.x.t.grp g).errors = []) (reads : X.Reads st k a g)
    (kept : MeshKept X ev st k a g)
    (sent : ∀ (j : Nat) server files, ks[j]? = some (.forward server files) →
      ∃ b i, X.link a g j = some (b, i) ∧ ∀ m, ((st m b).srv.x.t.grp i).errors = []) :
    ∀ m, ((st m a).srv.x.t.grp g).errors = [] ∧ .cancelled ∉ ((st m a).srv.x.t.grp g).tasks := by
  have hstep := fun m => mesh_broken_step sound h.began (h.events 0 m) (h.run m) (h.step m) hg
  have disk : ∀ c, (st k a).srv.svc.disk.Before (st (k + c) a).srv.svc.disk := by
    intro c
    induction c with
    | zero => exact Disk.Before.refl _
    | succ c ih => exact ih.trans (mesh_disk_before (h.step (k + c)) a)
  have forward : ∀ c, ¬ ScanBroken (st (k + c) a) g := by
    intro c
    induction c with
    | zero => exact fun hb => (h.errors sound hg k).mpr hb clean
    | succ c ih =>
      intro hb
      rcases (hstep (k + c)).2 hb with hb | ⟨j, kd, hj, why⟩
      · exact ih hb
      · cases kd with
        | file path os =>
          obtain ⟨r1, r2⟩ := reads ks path os hg (List.mem_of_getElem? hj)
          refine why ?_
          by_cases hos : os = []
          · exact r2 hos c
          · exact readable_stays (sound.net.reader a) (disk c) hos r1
        | forward server files =>
          obtain ⟨b, i, hl, hb⟩ := sent j server files hj
          rcases why with hn | ⟨w, he, hline⟩ | ⟨b', i', hl', hne⟩
          · rw [hl] at hn; cases hn
          · exact kept (k + c) w j (Nat.le_add_right _ _) hline he
          · rw [hl] at hl'
            cases hl'
            exact hne (hb _)
  have mono : ∀ m c, ScanBroken (st m a) g → ScanBroken (st (m + c) a) g := by
    intro m c hb
    induction c with
    | zero => exact hb
    | succ c ih => exact (hstep (m + c)).1 ih
  have never : ∀ m, ((st m a).srv.x.t.grp g).errors = [] := by
    intro m
    apply Classical.byContradiction
    intro he
    have hb := mono m k ((h.errors sound hg m).mp he)
    rw [Nat.add_comm] at hb
    exact forward m hb
  refine fun m => ⟨never m, fun hc => ?_⟩
  obtain ⟨E, hE⟩ := (h.inv sound m).calls a
  exact absurd (never m) ((hE.t.grp g).canc hc)

/-- The same for a scan that arrived: all its tasks are about files. -/
theorem MeshExecution.arrived_whole (sound : X.Sound U asked written) (h : MeshExecution X U ev st) {b i a g t k : Nat}
    (arrived : X.source b i = some (a, g, t)) (clean : ((st k b).srv.x.t.grp i).errors = []) (reads : X.Reads st k b i) :
    ∀ m, ((st m b).srv.x.t.grp i).errors = [] ∧ .cancelled ∉ ((st m b).srv.x.t.grp i).tasks := by
  obtain ⟨ks, server, files, sm, h1, h2, h3, h4, h5⟩ := sound.sent _ _ _ _ _ ((sound.back _ _ _ _ _).mpr arrived)
  have files_only : ∀ (j : Nat) server files, (sm.map fun f => ScanKind.file f.1 f.2)[j]? ≠ some (.forward server files) := by
    intro j server files e
    rw [List.getElem?_map] at e
    obtain ⟨f, -, hf⟩ := Option.map_eq_some_iff.mp e
    cases hf
  refine h.whole sound h5 clean reads ?_ fun j server files hj => absurd hj (files_only j server files)
  intro m w j _ hline _
  rcases (line_inv hline).2 with ⟨-, server, files, hT⟩ | ⟨hs, -⟩
  · have hk := (h.inv sound m).kinds b i
    rw [show (X.alone b).scans i = some _ from h5] at hk
    have hk : ((st m b).jobs i).tasks.map Prod.fst = sm.map fun f => ScanKind.file f.1 f.2 := hk
    refine files_only j server files ?_
    rw [← hk, List.getElem?_map, hT]; rfl
  · rw [Mesh.scan, h5] at hs; cases hs

/-! ## Extractions that do not fail -/

/-- Nobody has begun to execute a task of group `g` of process `a`. -/
def MeshSys.Unbegun (s : MeshSys) (a g : Nat) : Prop := ∀ j, (g, j) ∉ (s a).srv.x.t.started

theorem unbegun_view {s : MeshSys} {a g : Nat} (h : s.Unbegun a g) : (X.view s).Unbegun a g := by
  intro j hj
  exact h j (List.mem_filter.mp hj).1

/-- A connection, for those who extract, is a connection. -/
theorem view_line {s : MeshSys} {a w g j : Nat} (h : (X.view s a).x.connected w = some (g, j)) : X.line s a w = some (g, j) := by
  rw [← h]
  symm
  refine line_view ?_
  obtain ⟨hw, -⟩ := connected_inv h
  have hw : ((s a).srv.x.t.view (X.scan a)).workers[w]? = some (.running g j) := hw
  rw [view_worker] at hw
  cases hp : (s a).srv.x.t.workers[w]? with
  | none => rw [hp] at hw; cases hw
  | some p =>
    rw [hp] at hw
    cases p with
    | idle => cases hw
    | got a' b' =>
      have hw : some (viewW (X.scan a) (.got a' b')) = some (.running g j) := hw
      simp only [viewW] at hw
      split at hw <;> cases hw
    | running a' b' =>
      have hw : some (viewW (X.scan a) (.running a' b')) = some (.running g j) := hw
      simp only [viewW] at hw
      split at hw
      · cases hw
      · rename_i hg
        cases hw
        simpa [XEv.ofScan, hp, WPc.group] using hg

/-- The history, for those who extract, from a moment on. -/
theorem MeshExecution.seen (sound : X.Sound U asked written) (h : MeshExecution X U ev st) {k a g : Nat}
    (kept : MeshKept X ev st k a g) (i : Nat) :
    ∃ fs, (∀ e ∈ fs, NetEv.Allowed U e) ∧ X.net.run (X.view (st k)) fs = .ok (X.view (st (k + i))) ∧
      X.net.Kept (X.view (st k)) fs a g := by
  induction i with
  | zero =>
    refine ⟨[], (fun _ h => by cases h), rfl, ?_⟩
    intro es1 e es2 s w j he
    cases es1 <;> cases he
  | succ i ih =>
    obtain ⟨fs, hf, hr, hk⟩ := ih
    have inv := h.inv sound (k + i)
    rcases mesh_view_step sound (inv.good sound h.began) inv.kinds (h.allowed (k + i)) (h.step (k + i)) with hv | ⟨f, haf, hv, hlost⟩
    · refine ⟨fs, hf, ?_, hk⟩
      rw [hr]
      exact congrArg Except.ok hv.symm
    · refine ⟨fs ++ [f], ?_, net_snoc hr hv, ?_⟩
      · intro e he
        rcases List.mem_append.mp he with he | he
        · exact hf e he
        · rw [List.mem_singleton] at he; rw [he]; exact haf
      · intro es1 e es2 s w j he hr1 hc
        rcases List.eq_nil_or_concat es2 with rfl | ⟨es3, x, rfl⟩
        · have h1 : fs = es1 ∧ f = e := by
            obtain ⟨h1, h2⟩ := List.append_inj' he rfl
            exact ⟨h1, (List.cons.inj h2).1⟩
          obtain ⟨rfl, rfl⟩ := h1
          rw [hr] at hr1
          cases hr1
          intro hfe
          exact kept (k + i) w j (Nat.le_add_right _ _) (view_line hc) (hlost a w hfe)
        · rw [List.concat_eq_append, ← List.cons_append, ← List.append_assoc] at he
          obtain ⟨h1, -⟩ := List.append_inj' he rfl
          exact hk es1 e es3 s w j h1 hr1 hc

theorem MeshExecution.views (sound : X.Sound U asked written) (h : MeshExecution X U ev st) (k i : Nat) :
    ∃ fs, (∀ e ∈ fs, NetEv.Allowed U e) ∧ X.net.run (X.view (st k)) fs = .ok (X.view (st (k + i))) := by
  induction i with
  | zero => exact ⟨[], (fun _ h => by cases h), rfl⟩
  | succ i ih =>
    obtain ⟨fs, hf, hr⟩ := ih
    have inv := h.inv sound (k + i)
    rcases mesh_view_step sound (inv.good sound h.began) inv.kinds (h.allowed (k + i)) (h.step (k + i)) with hv | ⟨f, haf, hv, -⟩
    · refine ⟨fs, hf, ?_⟩
      rw [hr]
      exact congrArg Except.ok hv.symm
    · refine ⟨fs ++ [f], ?_, net_snoc hr hv⟩
      intro e he
      rcases List.mem_append.mp he with he | he
      · exact hf e he
      · rw [List.mem_singleton] at he; rw [he]; exact haf

theorem MeshExecution.reached (sound : X.Sound U asked written) (h : MeshExecution X U ev st) (onDemand : X.LazyBegan U (st 0))
    (k : Nat) : X.net.LazyReached U (X.view (st k)) := by
  obtain ⟨fs, h1, h2⟩ := (h.inv sound k).seen
  exact ⟨_, fs, mesh_lazy_view onDemand, h1, h2⟩

theorem MeshExecution.earlier (sound : X.Sound U asked written) (parcels : X.Parcels) (h : MeshExecution X U ev st) {a g k m : Nat}
    (hkm : k ≤ m) (hu : (st m).Unbegun a g) : (st k).Unbegun a g := by
  obtain ⟨fev, hF, -⟩ := h.fleet sound parcels
  intro j hj
  refine hu j ?_
  obtain ⟨i, rfl⟩ := Nat.exists_eq_add_of_le hkm
  clear hkm hu
  induction i with
  | zero => exact hj
  | succ i ih =>
    have hs := hF.step (k + i)
    rw [Fleet.step] at hs
    obtain ⟨y, hy, hs⟩ := res_bind_inv hs
    have hs := congrFun (Except.ok.inj hs) a
    by_cases hc : a = (X.fleet.act (st (k + i)).groups (fev (k + i))).1
    · rw [if_pos hc] at hs
      rw [← hc] at hy
      show (g, j) ∈ ((st (k + (i + 1))).groups a).started
      rw [show (st (k + (i + 1))).groups a = y from hs.symm]
      generalize (X.fleet.act (st (k + i)).groups (fev (k + i))).2 = o at hy
      cases o with
      | none => cases hy; exact ih
      | some e => exact started_stays hy ih
    · rw [if_neg hc] at hs
      show (g, j) ∈ ((st (k + (i + 1))).groups a).started
      rw [show (st (k + (i + 1))).groups a = (st (k + i)).groups a from hs.symm]
      exact ih

/-- What can be met depends on files and metadata only. -/
theorem mesh_offers {S : Nat → Store} {s : MeshSys} {a : Nat} {forward : Bool} {u : Uri} {is : List Interval} {hash : String}
    {r : WireResult} : X.net.Offers U S (fun a => (s a).srv) a forward u is hash r ↔ X.net.Offers U S (X.view s) a forward u is hash r :=
  Iff.rfl

theorem mesh_can {S : Nat → Store} {s : MeshSys} {a g : Nat} {q : Asked} (h : X.net.Can U S (fun a => (s a).srv) a g q) :
    X.net.Can U S (X.view s) a g q := by
  cases h with
  | fields cat rs ws h =>
    exact .fields cat rs ws ⟨h.catalogue, h.lists, h.complete, h.places, h.written, h.nonempty, h.fit, h.different, h.sameKeywords,
      h.found⟩
  | paths forward rs h => exact .paths forward rs ⟨h.nonempty, h.remote, h.here, h.place, h.different, h.found⟩

/-- No extraction that arrives from a call that could be met has a task cancelled, ever. -/
theorem MeshExecution.calm (sound : X.Sound U asked written) (parcels : X.Parcels) {S : Nat → Store}
    (ex : ∀ a, (X.net.site a).Exact (S a)) (h : MeshExecution X U ev st) (onDemand : X.LazyBegan U (st 0)) {b j a g t m : Nat}
    (here : X.scans b j = none) (arrived : X.net.origin b j = some (a, g, t)) (unbegun : (st m).Unbegun a g)
    (can : X.net.Can U S (fun a => (st m a).srv) a g (asked a g)) (k : Nat) : .cancelled ∉ ((st k b).srv.x.t.grp j).tasks := by
  rw [← mesh_group (X := X) here]
  by_cases hk : k ≤ m
  · have hr := (h.reached sound onDemand k).reached
    have hu := hr.unsent sound.net (unbegun_view (h.earlier sound parcels hk unbegun)) ((sound.net.back _ _ _ _ _).mpr arrived)
    have ht := hr.unbegun sound.net hu
    obtain ⟨st0, es, h1, h2, h3⟩ := hr
    obtain ⟨fwd, -, inv, -⟩ := net_srv sound.net h1 h3 h2 b
    obtain ⟨E, -, hx⟩ := inv.x (sound.net.fresh b)
    exact (hx.unbegun (sound.net.fresh b) ht).2
  · obtain ⟨i, rfl⟩ := Nat.exists_eq_add_of_le (Nat.le_of_not_le hk)
    obtain ⟨fs, h1, h2⟩ := h.views sound m i
    exact (arrived_clean sound.net ex (h.reached sound onDemand m) h1 h2 arrived (unbegun_view unbegun) (mesh_can can)).2

/-- The processes of a set `P` forward to each other only; whoever works there keeps working, and such a process that is asked by
others always gets to its requests.  Other processes may do anything, or nothing any more. -/
structure MeshGoes (X : Mesh) (P : Nat → Prop) (ev : Nat → NetEv) (st : Nat → MeshSys) : Prop where
  within : ∀ a g t b i, P a → X.aim a g t = Option.some (b, i) → P b
  workers : ∀ a, P a → NetWorkersFairAt X.net ev a
  threads : ∀ b g, P b → (X.tasks b g).2 ≠ [] → NetThreadFair b g ev
  some : ∀ b g, P b → (X.tasks b g).2 ≠ [] → 0 < X.net.threads b
  room : ∃ rank : Nat → Nat, ∀ b j, P b → X.sender b j ≠ none →
    MeshSpare X st b ∨ ∀ g t c i, X.aim b g t = Option.some (c, i) → rank c < rank b

/-- What is forwarded to processes of `P` can be done: files that arrive to be scanned can be read from some moment on, before which the scan
has not failed; extractions come from calls that can be met at a moment when they have not begun. -/
structure MeshCan (X : Mesh) (U : Nat → String → Prop) (asked : Nat → Nat → Asked) (S : Nat → Store) (P : Nat → Prop)
    (st : Nat → MeshSys) : Prop where
  scans : ∀ b j a g t, P b → X.source b j = some (a, g, t) → ∃ m, ((st m b).srv.x.t.grp j).errors = [] ∧ X.Reads st m b j
  calls : ∀ b j a g t, P b → X.net.origin b j = some (a, g, t) →
    ∃ m, (st m).Unbegun a g ∧ X.net.Can U S (fun a => (st m a).srv) a g (asked a g)

/-- Scans and extractions return, or have a task cancelled. -/
theorem MeshExecution.ends (sound : X.Sound U asked written) (parcels : X.Parcels) {S : Nat → Store}
    (ex : ∀ a, (X.net.site a).Exact (S a)) (h : MeshExecution X U ev st) (onDemand : X.LazyBegan U (st 0)) {P : Nat → Prop}
    (goes : MeshGoes X P ev st) (others : MeshCan X U asked S P st) {a g : Nat} (inside : P a) (client : X.sender a g = none) (tasks : (X.tasks a g).2 ≠ []) :
    (∃ k, ((st k a).srv.x.t.grp g).phase = .returned) ∨ (∃ k, .cancelled ∈ ((st k a).srv.x.t.grp g).tasks) := by
  obtain ⟨rank, room⟩ := goes.room
  refine h.calls sound parcels P goes.within goes.workers goes.threads goes.some rank room (fun b j pb hj k => ?_) inside client tasks
  by_cases hs : X.scan b j = true
  · rw [Mesh.sender, if_pos hs] at hj
    cases ho : X.source b j with
    | none => exact absurd ho hj
    | some q =>
      obtain ⟨a', g', t⟩ := q
      obtain ⟨m, hm, hr⟩ := others.scans b j a' g' t pb ho
      exact (h.arrived_whole sound ho hm hr k).2
  · rw [Mesh.sender, if_neg hs] at hj
    have hn : X.scans b j = none := by
      cases he : X.scans b j with
      | none => rfl
      | some ks => rw [Mesh.scan, he] at hs; exact absurd rfl hs
    cases ho : X.net.origin b j with
    | none => exact absurd ho hj
    | some q =>
      obtain ⟨a', g', t⟩ := q
      obtain ⟨m, hu, hc⟩ := others.calls b j a' g' t pb ho
      exact h.calm sound parcels ex onDemand hn ho hu hc k

/-- A client's extraction that could be met returns. -/
theorem MeshExecution.returns (sound : X.Sound U asked written) (parcels : X.Parcels) {S : Nat → Store}
    (ex : ∀ a, (X.net.site a).Exact (S a)) (h : MeshExecution X U ev st) (onDemand : X.LazyBegan U (st 0)) {P : Nat → Prop}
    (goes : MeshGoes X P ev st) (others : MeshCan X U asked S P st) {a g k0 : Nat} (inside : P a) (extraction : X.scans a g = none) (client : X.net.origin a g = none)
    (tasks : (X.net.jobs a g).2 ≠ []) (unbegun : (st k0).Unbegun a g) (kept : MeshKept X ev st k0 a g)
    (accepted : X.net.Accepted a g) (can : X.net.Can U S (fun a => (st k0 a).srv) a g (asked a g)) :
    ∃ i, ((st (k0 + i) a).srv.x.t.grp g).phase = .returned := by
  have hs := mesh_scan_none extraction
  have clean : ∀ i, .cancelled ∉ ((st (k0 + i) a).srv.x.t.grp g).tasks := by
    intro i
    obtain ⟨fs, h1, h2, h3⟩ := h.seen sound kept i
    rw [← mesh_group (X := X) extraction]
    exact (client_clean sound.net ex (h.reached sound onDemand k0) h1 h2 client tasks (unbegun_view unbegun) h3
      accepted (mesh_can can)).1.2
  have before : ∀ k, k ≤ k0 → ((st k a).srv.x.t.grp g).phase ≠ .returned ∧ .cancelled ∉ ((st k a).srv.x.t.grp g).tasks := by
    intro k hk
    rw [← mesh_group (X := X) extraction]
    have hr := (h.reached sound onDemand k).reached
    have ht := hr.unbegun sound.net (unbegun_view (h.earlier sound parcels hk unbegun))
    obtain ⟨st0, es, h1, h2, h3⟩ := hr
    obtain ⟨fwd, -, inv, -⟩ := net_srv sound.net h1 h3 h2 a
    obtain ⟨E, -, hx⟩ := inv.x (sound.net.fresh a)
    exact hx.unbegun (sound.net.fresh a) ht
  rcases h.ends sound parcels ex onDemand goes others (a := a) (g := g) inside
      (by rw [Mesh.sender, hs]; exact client)
      (by rw [Mesh.tasks, MixSite.tasks, show (X.alone a).scan g = false from hs]; exact tasks) with ⟨k, hk⟩ | ⟨k, hk⟩
  · by_cases hle : k ≤ k0
    · exact absurd hk (before k hle).1
    · obtain ⟨i, rfl⟩ := Nat.exists_eq_add_of_le (Nat.le_of_not_le hle)
      exact ⟨i, hk⟩
  · by_cases hle : k ≤ k0
    · exact absurd hk (before k hle).2
    · obtain ⟨i, rfl⟩ := Nat.exists_eq_add_of_le (Nat.le_of_not_le hle)
      exact absurd hk (clean i)

end

end GJ
