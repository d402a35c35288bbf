import Verif.Lemmas.MeshLive

/-!
# C81: scans and extractions among processes that forward both come to an end

The processes of C80 (`Model/Mesh.lean`).
-/

namespace GJ
open Spec

/-! ## Order -/

/-- **C81.**  What arrives was sent: whenever a process has begun to work on a scan or an extraction that arrived from another
process, that process has begun to execute the task that sends it. -/
theorem C81_sent_first (X : Mesh) (U : Nat → String → Prop) (asked : Nat → Nat → Asked)
    (written : Nat → Nat → List ExRequest) (sound : X.Sound U asked written) (parcels : X.Parcels) (s : MeshSys)
    (reached : X.Reached U s) (a g t b h : Nat)
    (arrived : X.source b h = some (a, g, t) ∨ X.net.origin b h = some (a, g, t)) :
    (∀ j, (h, j) ∈ (s b).srv.x.t.started → (g, t) ∈ (s a).srv.x.t.started) ∧
    (((s b).srv.x.t.grp h).tasks ≠ [] → (g, t) ∈ (s a).srv.x.t.started) := by
  obtain ⟨st, es, began, allowed, hrun⟩ := reached
  have ok := mesh_ok sound parcels began allowed hrun
  have hs : X.sender b h = some (a, g, t) := by
    rcases arrived with h1 | h1
    · obtain ⟨ks, server, files, sm, -, -, -, -, h5⟩ := sound.sent _ _ _ _ _ ((sound.back _ _ _ _ _).mpr h1)
      rw [Mesh.sender, if_pos (show X.scan b h = true by rw [Mesh.scan, h5]; rfl)]
      exact h1
    · rw [Mesh.sender, mesh_scan_none (sound.apart _ _ _ _ _ ((sound.net.back _ _ _ _ _).mpr h1)).2]
      exact h1
  have key : ((s b).srv.x.t.grp h).tasks ≠ [] → (g, t) ∈ (s a).srv.x.t.started := by
    intro hne
    cases ho : X.fleet.opened s.groups b h with
    | false => exact absurd (ok.fleet.shut b h ho) hne
    | true =>
      rw [Fleet.opened, show X.fleet.origin b h = some (a, g, t) from hs] at ho
      exact of_decide_eq_true ho
  refine ⟨fun j hj => key fun e => ?_, key⟩
  have hc := (ok.fleet.inv b).cell h j
  rw [show s.groups b = (s b).srv.x.t from rfl, e] at hc
  have hz : (s b).srv.x.t.started.count (h, j) = 0 := hc.2.2.1
  have := List.count_pos_iff.mpr hj
  omega

/-! ## Scans -/

/-- C81 (partial).  In an infinite history of processes that forward scans and extractions to each other, of which a set `P`
forwards only to itself, and in which whoever works in `P` keeps working: a client's scan that has not failed at a moment, whose files can be read from then on, and no
connection of which is refused or breaks from then on, returns a number, if it was asked for in `P`.  What other clients forward
to processes of `P` can be done, too; what they do not forward may fail.  Processes that are not in `P` may do anything, or stop.
Missing: a scan a task of which fails may wait for ever (C79); two processes all of whose workers wait for each other (C75). -/
theorem C81_scan_returns_partial (X : Mesh) (U : Nat → String → Prop) (asked : Nat → Nat → Asked)
    (written : Nat → Nat → List ExRequest) (sound : X.Sound U asked written) (parcels : X.Parcels) (S : Nat → Store)
    (exact_ : ∀ a, (X.net.site a).Exact (S a)) (ev : Nat → NetEv) (st : Nat → MeshSys) (h : MeshExecution X U ev st)
    (onDemand : X.LazyBegan U (st 0)) (P : Nat → Prop) (goes : MeshGoes X P ev st) (others : MeshCan X U asked S P st)
    (a g k : Nat) (inside : P a)
    (kinds : List ScanKind) (scan : X.scans a g = some kinds) (nonempty : kinds ≠ []) (client : X.source a g = none)
    (clean : ((st k a).srv.x.t.grp g).errors = []) (files : X.Reads st k a g) (unbroken : MeshKept X ev st k a g)
    (accepted : ∀ (j : Nat) server files, kinds[j]? = some (.forward server files) → X.link a g j ≠ none) :
    ∃ m c, ((st m a).srv.x.t.grp g).phase = .returned ∧ (st m a).scanOutcome g = .ok c := by
  have hs : X.scan a g = true := by rw [Mesh.scan, scan]; rfl
  have never := h.whole sound scan clean files unbroken fun j server fs hj => by
    cases hl : X.link a g j with
    | none => exact absurd hl (accepted j server fs hj)
    | some q =>
      obtain ⟨b, i⟩ := q
      have hsrc := (sound.back _ _ _ _ _).mp hl
      obtain ⟨m, hm, hr⟩ := others.scans b i a g j (goes.within a g j b i inside (by rw [Mesh.aim, if_pos hs]; exact hl)) hsrc
      exact ⟨b, i, rfl, fun n => (h.arrived_whole sound hsrc hm hr n).1⟩
  have tasks : (X.tasks a g).2 ≠ [] := by
    rw [Mesh.tasks, MixSite.tasks, if_pos (show (X.alone a).scan g = true from hs), show (X.alone a).scans g = some kinds from scan]
    intro e
    exact nonempty (List.map_eq_nil_iff.mp e)
  rcases h.ends sound parcels exact_ onDemand goes others (a := a) (g := g) inside (by rw [Mesh.sender, if_pos hs]; exact client) tasks with
    ⟨m, hm⟩ | ⟨m, hm⟩
  · exact ⟨m, _, hm, by rw [Mix.scanOutcome, if_neg (fun h => h (never m).1)]⟩
  · exact absurd hm (never m).2

/-! ## Extractions -/

/-- C81 (partial).  In such a history: a client's call for fields that are there at a moment when it has not begun returns, with
one right result per request, in order, if no connection of it is refused or breaks.  Scans take place at the same time.
Missing: as for C77. -/
theorem C81_fields_return_partial (X : Mesh) (U : Nat → String → Prop) (asked : Nat → Nat → Asked)
    (written : Nat → Nat → List ExRequest) (sound : X.Sound U asked written) (parcels : X.Parcels) (S : Nat → Store)
    (exact_ : ∀ a, (X.net.site a).Exact (S a)) (ev : Nat → NetEv) (st : Nat → MeshSys) (h : MeshExecution X U ev st)
    (onDemand : X.LazyBegan U (st 0)) (P : Nat → Prop) (goes : MeshGoes X P ev st) (others : MeshCan X U asked S P st)
    (a g k0 : Nat) (inside : P a)
    (extraction : X.scans a g = none) (client : X.net.origin a g = none) (tasks : (X.net.jobs a g).2 ≠ [])
    (unbegun : (st k0).Unbegun a g) (unbroken : MeshKept X ev st k0 a g) (accepted : X.net.Accepted a g)
    (cat : List (FdbKey × Uri)) (rs : List ExRequest) (ws : List WrittenRequest) (request : asked a g = .fields rs)
    (can : X.net.CanServe U S (fun a => (st k0 a).srv) a g cat rs ws) :
    ∃ k, ((st k a).srv.x.t.grp g).phase = .returned ∧ ∃ out, Net.outcome written (fun a => (st k a).srv) a g = .ok out ∧
      X.net.Serves U S (fun a => (st k0 a).srv) a cat rs ws out := by
  obtain ⟨i, hi⟩ := h.returns sound parcels exact_ onDemand goes others inside extraction client tasks unbegun unbroken accepted
    (by rw [request]; exact .fields cat rs ws can)
  obtain ⟨fs, h1, h2, h3⟩ := h.seen sound unbroken i
  obtain ⟨-, -, h4⟩ := C77_present_fields_served_partial X.net U asked written sound.net S exact_ _ (h.reached sound onDemand k0) fs h1
    _ h2 a g client tasks (unbegun_view unbegun) h3 accepted cat rs ws request
    ⟨can.catalogue, can.lists, can.complete, can.places, can.written, can.nonempty, can.fit, can.different, can.sameKeywords,
      can.found⟩
  obtain ⟨out, h5, h6⟩ := h4 (by rw [mesh_group extraction]; exact hi)
  exact ⟨_, hi, out, by rw [← mesh_outcome (X := X) extraction]; exact h5, h6⟩

/-- C81 (partial).  The same for requests by path.  Missing: as for C77. -/
theorem C81_paths_return_partial (X : Mesh) (U : Nat → String → Prop) (asked : Nat → Nat → Asked)
    (written : Nat → Nat → List ExRequest) (sound : X.Sound U asked written) (parcels : X.Parcels) (S : Nat → Store)
    (exact_ : ∀ a, (X.net.site a).Exact (S a)) (ev : Nat → NetEv) (st : Nat → MeshSys) (h : MeshExecution X U ev st)
    (onDemand : X.LazyBegan U (st 0)) (P : Nat → Prop) (goes : MeshGoes X P ev st) (others : MeshCan X U asked S P st)
    (a g k0 : Nat) (inside : P a)
    (extraction : X.scans a g = none) (client : X.net.origin a g = none) (tasks : (X.net.jobs a g).2 ≠ [])
    (unbegun : (st k0).Unbegun a g) (unbroken : MeshKept X ev st k0 a g) (accepted : X.net.Accepted a g)
    (forward : Bool) (rs : List PathReq) (request : asked a g = .paths rs)
    (can : X.net.CanServePaths U S (fun a => (st k0 a).srv) a forward rs) :
    ∃ k, ((st k a).srv.x.t.grp g).phase = .returned ∧ ∃ out, Net.outcome written (fun a => (st k a).srv) a g = .ok out ∧
      X.net.ServesPaths U S (fun a => (st k0 a).srv) a forward rs out := by
  obtain ⟨i, hi⟩ := h.returns sound parcels exact_ onDemand goes others inside extraction client tasks unbegun unbroken accepted
    (by rw [request]; exact .paths forward rs can)
  obtain ⟨fs, h1, h2, h3⟩ := h.seen sound unbroken i
  obtain ⟨-, -, h4⟩ := C77_present_paths_served_partial X.net U asked written sound.net S exact_ _ (h.reached sound onDemand k0) fs h1
    _ h2 a g client tasks (unbegun_view unbegun) h3 accepted forward rs request
    ⟨can.nonempty, can.remote, can.here, can.place, can.different, can.found⟩
  obtain ⟨out, h5, h6⟩ := h4 (by rw [mesh_group extraction]; exact hi)
  exact ⟨_, hi, out, by rw [← mesh_outcome (X := X) extraction]; exact h5, h6⟩

/-! ## Histories go on -/

/-- Connections that those who extract see break do break. -/
theorem mesh_seen_lost {X : Mesh} {U : Nat → String → Prop} {asked : Nat → Nat → Asked} {written : Nat → Nat → List ExRequest}
    (sound : X.Sound U asked written) {st : MeshSys} (began : X.Began U st) (es : List NetEv) :
    ∀ s, (∀ e ∈ es, NetEv.Allowed U e) → X.run st es = .ok s →
      ∃ fs, (∀ e ∈ fs, NetEv.Allowed U e) ∧ X.net.run (X.view st) fs = .ok (X.view s) ∧ ∀ b w, .lost b w ∈ fs → .lost b w ∈ es := by
  generalize hn : es.length = n
  induction n generalizing es with
  | zero =>
    intro s _ hr
    cases List.length_eq_zero_iff.mp hn
    cases hr
    exact ⟨[], (fun _ h => by cases h), rfl, fun _ _ h => h⟩
  | succ n ih =>
    intro s al hr
    have hne : es ≠ [] := by intro h; rw [h] at hn; cases hn
    obtain ⟨es0, e, rfl⟩ : ∃ es0 e, es = es0 ++ [e] := ⟨_, _, (List.dropLast_concat_getLast hne).symm⟩
    rw [mesh_append] at hr
    obtain ⟨s0, h0, h1⟩ := res_bind_inv hr
    have al0 : ∀ e ∈ es0, NetEv.Allowed U e := fun x hx => al x (List.mem_append_left _ hx)
    obtain ⟨fs, hf, hv, hl⟩ := ih es0 (by rw [List.length_append] at hn; exact Nat.succ.inj hn) s0 al0 h0
    have inv := mesh_ran sound began al0 h0
    have h1 : X.step s0 e = .ok s := by
      have h2 : (X.step s0 e >>= fun s => X.run s []) = .ok s := h1
      obtain ⟨s', h3, h4⟩ := res_bind_inv h2
      cases h4
      exact h3
    rcases mesh_view_step sound (inv.good sound began) inv.kinds (al e (List.mem_append_right _ (List.mem_singleton.mpr rfl))) h1 with
      hs | ⟨f, haf, hs, hlost⟩
    · exact ⟨fs, hf, by rw [hv]; exact congrArg Except.ok hs.symm, fun b w h => List.mem_append_left _ (hl b w h)⟩
    · refine ⟨fs ++ [f], ?_, net_snoc hv hs, ?_⟩
      · intro x hx
        rcases List.mem_append.mp hx with hx | hx
        · exact hf x hx
        · rw [List.mem_singleton] at hx; rw [hx]; exact haf
      · intro b w hx
        rcases List.mem_append.mp hx with hx | hx
        · exact List.mem_append_left _ (hl b w hx)
        · rw [List.mem_singleton] at hx
          rw [hlost b w hx.symm]
          exact List.mem_append_right _ (List.mem_singleton.mpr rfl)

/-- C81 (partial).  If all extractions that clients ask for can be met when the processes start, nothing is undefined, whatever
scans there are: every schedule can be carried on by any step, as long as no connection breaks.
Missing: extractions that cannot be met, connections that break (for these: C80_defined_partial). -/
theorem C81_goes_on_partial (X : Mesh) (U : Nat → String → Prop) (asked : Nat → Nat → Asked)
    (written : Nat → Nat → List ExRequest) (sound : X.Sound U asked written) (S : Nat → Store)
    (exact_ : ∀ a, (X.net.site a).Exact (S a)) (st : MeshSys) (onDemand : X.LazyBegan U st) (es : List NetEv) (e : NetEv)
    (allowed : ∀ x ∈ es ++ [e], NetEv.Allowed U x) (unbroken : ∀ b w, .lost b w ∉ es ++ [e]) (s : MeshSys)
    (run : X.run st es = .ok s)
    (all : ∀ a g, X.net.origin a g = none → (X.net.jobs a g).2 ≠ [] →
      X.net.Accepted a g ∧ X.net.Can U S (fun a => (st a).srv) a g (asked a g)) : ∃ s', X.step s e = .ok s' := by
  have began : X.Began U st := by
    obtain ⟨d, mode, cap, fs, h⟩ := onDemand
    exact ⟨d, mode, fun _ => true, cap, fs, h⟩
  have al0 : ∀ x ∈ es, NetEv.Allowed U x := fun x hx => allowed x (List.mem_append_left _ hx)
  have hae := allowed e (List.mem_append_right _ (List.mem_singleton.mpr rfl))
  refine mesh_defined_of sound began (mesh_ran sound began al0 run) hae fun f haf hlost => ?_
  obtain ⟨fs, hf, hr, hl⟩ := mesh_seen_lost sound began es s al0 run
  have none_ : ∀ b w, .lost b w ∉ fs ++ [f] := by
    intro b w hx
    rcases List.mem_append.mp hx with hx | hx
    · exact unbroken b w (List.mem_append_left _ (hl b w hx))
    · rw [List.mem_singleton] at hx
      have := hlost b w hx.symm
      exact unbroken b w (List.mem_append_right _ (List.mem_singleton.mpr this.symm))
  refine net_steps sound.net exact_ ⟨_, [], mesh_lazy_view onDemand, (fun _ h => by cases h), rfl⟩ (es := fs) ?_ hr
    fun a g client tasks => ⟨?_, ?_, (all a g client tasks).1, mesh_can (all a g client tasks).2⟩
  · intro x hx
    rcases List.mem_append.mp hx with hx | hx
    · exact hf x hx
    · rw [List.mem_singleton] at hx; rw [hx]; exact haf
  · obtain ⟨d, mode, cap, fs, -, -, -, rfl⟩ := onDemand
    rw [mesh_view_start]
    intro j hj
    cases hj
  · intro es1 x es2 s w j he _ _ hx
    exact none_ a w (by rw [he, hx]; exact List.mem_append_right _ List.mem_cons_self)

/-! ## Cases -/

/-- The states of an infinite schedule. -/
def meshStates (X : Mesh) (s : MeshSys) (ev : Nat → NetEv) : Nat → MeshSys
  | 0 => s
  | k + 1 => match X.step (meshStates X s ev k) (ev k) with
    | .ok s => s
    | .error _ => meshStates X s ev k

theorem meshStates_run {X : Mesh} {s : MeshSys} {ev : Nat → NetEv}
    (h : ∀ k s', X.run s ((List.range k).map ev) = .ok s' → ∃ s'', X.step s' (ev k) = .ok s'') (k : Nat) :
    X.run s ((List.range k).map ev) = .ok (meshStates X s ev k) ∧
      X.step (meshStates X s ev k) (ev k) = .ok (meshStates X s ev (k + 1)) := by
  induction k with
  | zero =>
    obtain ⟨s', h1⟩ := h 0 s rfl
    exact ⟨rfl, by rw [meshStates.eq_2]; simp only [meshStates.eq_1]; rw [h1]⟩
  | succ k ih =>
    have hr : X.run s ((List.range (k + 1)).map ev) = .ok (meshStates X s ev (k + 1)) := by
      rw [List.range_succ, List.map_append]
      exact mesh_snoc ih.1 ih.2
    obtain ⟨s', h1⟩ := h (k + 1) _ hr
    exact ⟨hr, by rw [meshStates.eq_2 X s ev (k + 1), h1]⟩

/-- The processes of C76, with the scans of C80. -/
def c81Mesh : Mesh := ⟨c76Net, c80Scans, c80Link, c80Source⟩

def c81Start : MeshSys := c81Mesh.start c76Disk (fun _ => .shadow) (fun _ => true) (fun _ => 4) (fun _ => [])

def c81States : Nat → MeshSys := meshStates c81Mesh c81Start c80Ev

theorem c81_sound : c81Mesh.Sound c76Names c76Asked c76Written where
  net := c76_sound
  apart := c80_sound.apart
  back := c80_sound.back
  sent := c80_sound.sent
  within := c80_sound.within

theorem c81_parcels : c81Mesh.Parcels := by
  intro a g ks server files hk hm
  have hk : c80Scans a g = some ks := hk
  unfold c80Scans at hk
  split at hk
  all_goals first | (cases hk; done) | skip
  all_goals
    cases hk
    simp only [List.mem_cons, List.mem_nil_iff, or_false, ScanKind.forward.injEq, reduceCtorEq] at hm
  rcases hm with ⟨-, rfl⟩ | ⟨-, rfl⟩ <;> decide

theorem c81_began : c81Mesh.LazyBegan c76Names c81Start :=
  ⟨c76Disk, fun _ => .shadow, fun _ => 4, fun _ => [], c76_apart, fun _ => Nat.succ_pos 3, fun a => c76_agree _ a, rfl⟩

theorem c81_turn (i : Nat) (hi : i < 59) (k : Nat) : ∃ m, k ≤ m ∧ c80Ev m = c80Turns[i]?.getD (.on 0 (.other .clear)) :=
  ⟨59 * (k + 1) + i, by omega, by rw [c80Ev, Nat.mul_add_mod, Nat.mod_eq_of_lt hi]⟩

theorem c81_unbroken (k a w : Nat) : c80Ev k ≠ .lost a w := by
  have h : ∀ e ∈ c80Turns, e ≠ .lost a w := by
    intro e he
    simp only [c80Turns, c76Turns, List.cons_append, List.nil_append, List.mem_cons, List.mem_nil_iff, or_false] at he
    repeat' (rcases he with rfl | he <;> first | (intro h; cases h; done) | skip)
    all_goals (subst he; intro h; cases h)
  unfold c80Ev
  cases he : c80Turns[k % 59]? with
  | none => intro h; cases h
  | some e => exact h e (List.mem_of_getElem? he)

/-- Calls of C77, with scans at the side. -/
theorem c81_can (a g : Nat) (client : c76Net.origin a g = none) (tasks : (c76Net.jobs a g).2 ≠ []) :
    c76Net.Can c76Names (fun _ => c50Store) (fun a => (c81Start a).srv) a g (c76Asked a g) := by
  have h := c77_can a g client tasks
  generalize c76Asked a g = q at h ⊢
  cases h with
  | fields cat rs ws h =>
    exact .fields cat rs ws ⟨h.catalogue, h.lists, h.complete, h.places, h.written, h.nonempty, h.fit, h.different, h.sameKeywords,
      h.found⟩
  | paths forward rs h => exact .paths forward rs ⟨h.nonempty, h.remote, h.here, h.place, h.different, h.found⟩

theorem c81_execution : MeshExecution c81Mesh c76Names c80Ev c81States := by
  refine ⟨?_, fun k => (meshStates_run ?_ k).2, c80_allowed⟩
  · obtain ⟨d, mode, cap, fs, h⟩ := c81_began
    exact ⟨d, mode, fun _ => true, cap, fs, h⟩
  intro k s' hr
  have hs : (List.range k).map c80Ev ++ [c80Ev k] = (List.range (k + 1)).map c80Ev := by
    rw [List.range_succ, List.map_append]; rfl
  refine C81_goes_on_partial _ c76Names c76Asked c76Written c81_sound (fun _ => c50Store) c77_exact c81Start c81_began
    ((List.range k).map c80Ev) (c80Ev k) (by rw [hs]; exact c80_history _) ?_ s' hr
    fun a g client tasks => ⟨c77_accepted a g client tasks, c81_can a g client tasks⟩
  intro b w hx
  rw [hs] at hx
  obtain ⟨i, -, hi⟩ := List.mem_map.mp hx
  exact c81_unbroken i b w hi

theorem c81_tasks (a g : Nat) (h : c80Scans a g = none) : (c81Mesh.tasks a g).2 = (c76Net.jobs a g).2 := by
  rw [Mesh.tasks, MixSite.tasks, show (c81Mesh.alone a).scan g = false by show (c80Scans a g).isSome = false; rw [h]; rfl]
  rfl

theorem c81_goes : MeshGoes c81Mesh (fun _ => True) c80Ev c81States where
  within _ _ _ _ _ _ _ := trivial
  workers a _ w hw k := by
    match a, w, hw with
    | 0, 0, _ => exact ⟨c81_turn 18 (by decide) k, c81_turn 19 (by decide) k, c81_turn 51 (by decide) k⟩
    | 0, 1, _ => exact ⟨c81_turn 20 (by decide) k, c81_turn 21 (by decide) k, c81_turn 52 (by decide) k⟩
    | 1, 0, _ => exact ⟨c81_turn 31 (by decide) k, c81_turn 32 (by decide) k, c81_turn 33 (by decide) k⟩
    | 2, 0, _ => exact ⟨c81_turn 44 (by decide) k, c81_turn 45 (by decide) k, c81_turn 46 (by decide) k⟩
    | 0, w + 2, hw => exact absurd (show w + 2 < 2 from hw) (by omega)
    | 1, w + 1, hw => exact absurd (show w + 1 < 1 from hw) (by omega)
    | 2, w + 1, hw => exact absurd (show w + 1 < 1 from hw) (by omega)
    | a + 3, w, hw =>
      exfalso
      have hw : w < (if a + 3 = 0 then 2 else if a + 3 < 3 then 1 else 0) := hw
      rw [if_neg (by omega), if_neg (by omega)] at hw
      cases hw
  threads b g _ hne k := by
    match b, g, hne with
    | 0, 5, _ => exact ⟨c81_turn 0 (by decide) k, c81_turn 1 (by decide) k, c81_turn 2 (by decide) k, c81_turn 55 (by decide) k⟩
    | 1, 5, _ => exact ⟨c81_turn 3 (by decide) k, c81_turn 4 (by decide) k, c81_turn 5 (by decide) k, c81_turn 56 (by decide) k⟩
    | 1, 6, _ => exact ⟨c81_turn 6 (by decide) k, c81_turn 7 (by decide) k, c81_turn 8 (by decide) k, c81_turn 57 (by decide) k⟩
    | 2, 5, _ => exact ⟨c81_turn 9 (by decide) k, c81_turn 10 (by decide) k, c81_turn 11 (by decide) k, c81_turn 58 (by decide) k⟩
    | 0, 0, _ => exact ⟨c81_turn 12 (by decide) k, c81_turn 13 (by decide) k, c81_turn 16 (by decide) k, c81_turn 53 (by decide) k⟩
    | 0, 1, _ => exact ⟨c81_turn 14 (by decide) k, c81_turn 15 (by decide) k, c81_turn 17 (by decide) k, c81_turn 54 (by decide) k⟩
    | 1, 0, _ => exact ⟨c81_turn 22 (by decide) k, c81_turn 23 (by decide) k, c81_turn 24 (by decide) k, c81_turn 35 (by decide) k⟩
    | 1, 1, _ => exact ⟨c81_turn 25 (by decide) k, c81_turn 26 (by decide) k, c81_turn 27 (by decide) k, c81_turn 36 (by decide) k⟩
    | 1, 2, _ => exact ⟨c81_turn 28 (by decide) k, c81_turn 29 (by decide) k, c81_turn 30 (by decide) k, c81_turn 37 (by decide) k⟩
    | 2, 0, _ => exact ⟨c81_turn 38 (by decide) k, c81_turn 39 (by decide) k, c81_turn 40 (by decide) k, c81_turn 49 (by decide) k⟩
    | 2, 1, _ => exact ⟨c81_turn 41 (by decide) k, c81_turn 42 (by decide) k, c81_turn 43 (by decide) k, c81_turn 50 (by decide) k⟩
    | 0, 2, hne => exact absurd rfl hne
    | 0, 3, hne => exact absurd rfl hne
    | 0, 4, hne => exact absurd rfl hne
    | 0, g + 6, hne => exact absurd rfl hne
    | 1, 3, hne => exact absurd rfl hne
    | 1, 4, hne => exact absurd rfl hne
    | 1, g + 7, hne => exact absurd rfl hne
    | 2, 2, hne => exact absurd rfl hne
    | 2, 3, hne => exact absurd rfl hne
    | 2, 4, hne => exact absurd rfl hne
    | 2, g + 6, hne => exact absurd rfl hne
    | a + 3, g, hne => exact absurd rfl hne
  some b g _ hne := by
    match b, hne with
    | 0, _ => exact Nat.succ_pos 1
    | 1, _ => exact Nat.succ_pos 0
    | 2, _ => exact Nat.succ_pos 0
    | b + 3, hne => exact absurd rfl hne
  room := by
    refine ⟨fun _ => 0, fun b j _ hb => .inr fun g t c i ht => ?_⟩
    exfalso
    have ht : (if c81Mesh.scan b g then c80Link b g t else c76Target b g t) = some (c, i) := ht
    match b, hb, ht with
    | 0, hb, _ =>
      refine hb ?_
      show (if c81Mesh.scan 0 j then c80Source 0 j else c76Origin 0 j) = none
      split <;> rfl
    | b + 1, _, ht =>
      split at ht
      · cases ht
      · cases ht

theorem c81_reads (a g : Nat) : c81Mesh.Reads c81States 0 a g := by
  have a0 : ∀ os, (os = [0, 6] ∨ os = [0] ∨ os = [6]) →
      Readable toyReader c74Site.offs (c81Start 1).srv.svc "/fdb/a.data" os ∧ os ≠ [] := by
    intro os h
    have ok : ∀ o ∈ [0, 6], ((diskWorld toyReader c74Site.offs (c81Start 1).srv.svc.disk).data "/fdb/a.data" o).toOption.isSome = true := by
      decide +kernel
    have get : ∀ o ∈ [0, 6], ∃ i, (diskWorld toyReader c74Site.offs (c81Start 1).srv.svc.disk).data "/fdb/a.data" o = .ok i := by
      intro o ho
      cases hd : (diskWorld toyReader c74Site.offs (c81Start 1).srv.svc.disk).data "/fdb/a.data" o with
      | error e => have := ok o ho; rw [hd] at this; cases this
      | ok i => exact ⟨i, rfl⟩
    rcases h with rfl | rfl | rfl
    · exact ⟨⟨[0, 6], rfl, get⟩, by simp⟩
    · exact ⟨⟨[0], rfl, fun o ho => get o (by simp at ho; simp [ho])⟩, by simp⟩
    · exact ⟨⟨[6], rfl, fun o ho => get o (by simp at ho; simp [ho])⟩, by simp⟩
  have b0 : Readable toyReader c74Site.offs (c81Start 2).srv.svc "/fdb/b.data" [0] := by
    have ok : ((diskWorld toyReader c74Site.offs (c81Start 2).srv.svc.disk).data "/fdb/b.data" 0).toOption.isSome = true := by
      decide +kernel
    refine ⟨[0], rfl, fun o ho => ?_⟩
    rw [List.mem_singleton] at ho
    subst ho
    cases hd : (diskWorld toyReader c74Site.offs (c81Start 2).srv.svc.disk).data "/fdb/b.data" 0 with
    | error e => rw [hd] at ok; cases ok
    | ok i => exact ⟨i, rfl⟩
  intro ks path os hk hm
  have hk : c80Scans a g = some ks := hk
  unfold c80Scans at hk
  split at hk
  all_goals first | (cases hk; done) | skip
  all_goals
    cases hk
    simp only [List.mem_cons, List.mem_nil_iff, or_false, ScanKind.file.injEq, reduceCtorEq] at hm
  · obtain ⟨rfl, rfl⟩ := hm
    exact ⟨(a0 _ (.inl rfl)).1, fun h => absurd h (by simp)⟩
  · obtain ⟨rfl, rfl⟩ := hm
    exact ⟨b0, fun h => absurd h (by simp)⟩
  · rcases hm with ⟨rfl, rfl⟩ | ⟨rfl, rfl⟩
    · exact ⟨(a0 _ (.inr (.inl rfl))).1, fun h => absurd h (by simp)⟩
    · exact ⟨(a0 _ (.inr (.inr rfl))).1, fun h => absurd h (by simp)⟩

theorem c81_unbegun (a g : Nat) : (c81States 0).Unbegun a g := fun j h => by cases h

theorem c81_others : MeshCan c81Mesh c76Names c76Asked (fun _ => c50Store) (fun _ => True) c81States where
  scans b j a g t _ _ := ⟨0, rfl, c81_reads b j⟩
  calls b j a g t _ h := by
    have hc := c76_sound.sender h
    obtain ⟨_, _, _, hJ, -⟩ := c76_sound.sent _ _ _ _ _ ((c76_sound.back _ _ _ _ _).mpr h)
    exact ⟨0, c81_unbegun a g, c81_can a g hc (by intro e; rw [e] at hJ; cases hJ)⟩

theorem c81_kept (a g : Nat) : MeshKept c81Mesh c80Ev c81States 0 a g := fun m w _ _ _ => c81_unbroken m a w

/-- Non-vacuity: the schedule of C80, repeated for ever, is such a history.  By the theorems the scan that is forwarded to two
processes returns a number, and so does the one that is not; the extractions return the fields. -/
example : (∃ m c, ((c81States m 0).srv.x.t.grp 5).phase = .returned ∧ (c81States m 0).scanOutcome 5 = .ok c) ∧
    (∃ m c, ((c81States m 1).srv.x.t.grp 6).phase = .returned ∧ (c81States m 1).scanOutcome 6 = .ok c) ∧
    (∃ k, ((c81States k 0).srv.x.t.grp 0).phase = .returned ∧ ∃ out,
      Net.outcome c76Written (fun a => (c81States k a).srv) 0 0 = .ok out ∧
      c76Net.Serves c76Names (fun _ => c50Store) (fun a => (c81States 0 a).srv) 0 c52Cat c50Reqs c27Written out) ∧
    (∃ k, ((c81States k 0).srv.x.t.grp 1).phase = .returned ∧ ∃ out,
      Net.outcome c76Written (fun a => (c81States k a).srv) 0 1 = .ok out ∧
      c76Net.ServesPaths c76Names (fun _ => c50Store) (fun a => (c81States 0 a).srv) 0 true
        [⟨"/fdb/b.data", "fdb", 0, "y", 2, [⟨0, 2⟩], "g"⟩] out) := by
  have t0 : (c76Net.jobs 0 0).2 ≠ [] := fun e => by
    have h0 : (c76Net.jobs 0 0).2.length = 2 := by decide +kernel
    rw [e] at h0; cases h0
  have t1 : (c76Net.jobs 0 1).2 ≠ [] := fun e => by
    have h0 : (c76Net.jobs 0 1).2.length = 1 := by decide +kernel
    rw [e] at h0; cases h0
  refine ⟨?_, ?_, ?_, ?_⟩
  · refine C81_scan_returns_partial c81Mesh c76Names c76Asked c76Written c81_sound c81_parcels (fun _ => c50Store) c77_exact c80Ev
      c81States c81_execution c81_began _ c81_goes c81_others 0 5 0 trivial _ rfl (by simp) rfl rfl (c81_reads 0 5) (c81_kept 0 5) ?_
    intro j server files hj
    match j, hj with
    | 0, _ => intro h; cases h
    | 1, _ => intro h; cases h
    | j + 2, hj => cases hj
  · refine C81_scan_returns_partial c81Mesh c76Names c76Asked c76Written c81_sound c81_parcels (fun _ => c50Store) c77_exact c80Ev
      c81States c81_execution c81_began _ c81_goes c81_others 1 6 0 trivial _ rfl (by simp) rfl rfl (c81_reads 1 6) (c81_kept 1 6) ?_
    intro j server files hj
    match j, hj with
    | 0, hj => cases hj
    | 1, hj => cases hj
    | j + 2, hj => cases hj
  · exact C81_fields_return_partial c81Mesh c76Names c76Asked c76Written c81_sound c81_parcels (fun _ => c50Store) c77_exact c80Ev
      c81States c81_execution c81_began _ c81_goes c81_others 0 0 0 trivial rfl rfl t0 (c81_unbegun 0 0) (c81_kept 0 0)
      (c77_accepted 0 0 rfl t0) _ _ _ rfl ⟨c77_front.catalogue, c77_front.lists, c77_front.complete, c77_front.places,
        c77_front.written, c77_front.nonempty, c77_front.fit, c77_front.different, c77_front.sameKeywords, c77_front.found⟩
  · exact C81_paths_return_partial c81Mesh c76Names c76Asked c76Written c81_sound c81_parcels (fun _ => c50Store) c77_exact c80Ev
      c81States c81_execution c81_began _ c81_goes c81_others 0 1 0 trivial rfl rfl t1 (c81_unbegun 0 1) (c81_kept 0 1)
      (c77_accepted 0 1 rfl t1) _ _ rfl ⟨c77_frontPaths.nonempty, c77_frontPaths.remote, c77_frontPaths.here, c77_frontPaths.place,
        c77_frontPaths.different, c77_frontPaths.found⟩

/-- Non-vacuity of the theorem on order: after 1300 steps process 1 works on a scan (5) and an extraction (1) that the front sent,
process 2 on an extraction (1). -/
example : (match c81Mesh.run c81Start ((List.range 1300).map c80Ev) with
    | .ok s => ((s 0).srv.x.t.started, (s 1).srv.x.t.started, (s 2).srv.x.t.started)
    | .error _ => ([], [], [])) =
      ([(5, 0), (0, 0), (1, 0), (5, 1)], [(6, 0), (0, 0), (1, 0), (2, 0), (5, 0)], [(1, 0)]) ∧
    c81Mesh.source 1 5 = some (0, 5, 0) ∧ c81Mesh.net.origin 1 1 = some (0, 0, 0) := by
  refine ⟨by decide +kernel, rfl, rfl⟩

end GJ
