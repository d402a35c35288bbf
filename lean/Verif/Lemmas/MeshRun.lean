import Verif.Lemmas.Mesh
import Verif.Spec.MeshScans
import Verif.Props.C79

/-!
# Histories of processes that forward scans and extractions to each other
-/

namespace GJ
open Spec

/-! ## Calls in changing surroundings -/

theorem fsys_time_le {E : ExtEnv} {C : EngineConf} {js : List Nat} {s s' : FSys} (h : s.run E C js = .ok s') :
    s.time ≤ s'.time := by
  induction js generalizing s with
  | nil => cases h; exact Nat.le_refl _
  | cons j js ih =>
    rw [FSys.run] at h
    obtain ⟨s1, h1, h2⟩ := res_bind_inv h
    refine Nat.le_trans ?_ (ih h2)
    rw [FSys.step] at h1
    split at h1
    · rw [← Except.ok.inj h1]; exact Nat.le_succ _
    · split at h1
      · rw [← Except.ok.inj h1]; exact Nat.le_succ _
      · cases h1
      · rw [← Except.ok.inj h1]; exact Nat.le_succ _

/-- Only surroundings at times that have passed matter. -/
theorem fsys_run_congr {E E' : ExtEnv} {C : EngineConf} {js : List Nat} {s s' : FSys} (h : s.run E C js = .ok s')
    (ag : ∀ t, t < s'.time → AgreeAt E E' t) : s.run E' C js = .ok s' := by
  induction js generalizing s with
  | nil => exact h
  | cons j js ih =>
    rw [FSys.run] at h ⊢
    obtain ⟨s1, h1, h2⟩ := res_bind_inv h
    have hle := fsys_time_le h2
    have ht : s1.time = s.time + 1 := by
      rw [FSys.step] at h1
      split at h1
      · rw [← Except.ok.inj h1]
      · split at h1
        · rw [← Except.ok.inj h1]
        · cases h1
        · rw [← Except.ok.inj h1]
    have : s.step E' C j = s.step E C j := by
      rw [FSys.step, FSys.step]
      split
      · rfl
      · rw [(ag s.time (by omega)).step C]
    rw [this, h1, ok_bind]
    exact ih h2

/-- First these surroundings, then those. -/
def firstThen (n : Nat → Nat) (E E' : Nat → ExtEnv) (g : Nat) : ExtEnv where
  list := (E g).list
  infos := fun t => if t < n g then (E g).infos t else (E' g).infos t
  jump := fun t => if t < n g then (E g).jump t else (E' g).jump t
  fetch := fun t => if t < n g then (E g).fetch t else (E' g).fetch t
  forward := fun t => if t < n g then (E g).forward t else (E' g).forward t

/-- The calls stay in order whatever they meet. -/
theorem XInv.any {E E' : Nat → ExtEnv} {C : EngineConf} {P : Nat → ItemMap × List FTask} {s s' : XSys} {e : XEv}
    (inv : XInv E C P s) (h : s.step E' C e = .ok s') : ∃ E'', XInv E'' C P s' := by
  refine ⟨firstThen (fun g => (s.job g).time) E E', XInv.stepped (s := s) (e := e) ⟨inv.t, fun g => ?_, inv.errs, inv.pcs,
    inv.len, inv.full, inv.size⟩ ?_⟩
  · obtain ⟨js, h1, h2⟩ := inv.run g
    refine ⟨js, fsys_run_congr h1 fun t ht => ⟨?_, ?_, ?_, ?_⟩, h2⟩
    · exact if_pos ht
    · exact if_pos ht
    · exact if_pos ht
    · exact if_pos ht
  · rw [← h]
    refine xstep_congr fun w g j T _ _ _ => ?_
    refine AgreeAt.step (E := E' g) ⟨?_, ?_, ?_, ?_⟩ C _ T
    · exact if_neg (Nat.lt_irrefl _)
    · exact if_neg (Nat.lt_irrefl _)
    · exact if_neg (Nat.lt_irrefl _)
    · exact if_neg (Nat.lt_irrefl _)

/-! ## Histories -/

/-- All processes have just started over index files that agree with their data. -/
def Mesh.Began (X : Mesh) (U : Nat → String → Prop) (st : MeshSys) : Prop :=
  ∃ d mode lazy cap fs, (∀ a, ToldApart (mode a) (U a)) ∧ (∀ a, 0 < cap a) ∧
    (∀ a, GoodIndex (diskWorld (X.net.site a).reader (X.net.site a).offs (d a)) (U a) (mode a) (fs a)) ∧
    st = X.start d mode lazy cap fs

/-- Processes that started like this, and then anything happened. -/
def Mesh.Reached (X : Mesh) (U : Nat → String → Prop) (s : MeshSys) : Prop :=
  ∃ st es, X.Began U st ∧ (∀ e ∈ es, NetEv.Allowed U e) ∧ X.run st es = .ok s

/-- The tasks of all calls of a process, with stand-ins for those of scans. -/
def Mesh.tasks (X : Mesh) (a g : Nat) : ItemMap × List FTask := (X.alone a).tasks (fun g => ([], X.net.jobs a g)) g

theorem mesh_view_start (X : Mesh) (d : Nat → Disk) (mode : Nat → CacheMode) (lazy : Nat → Bool) (cap : Nat → Nat)
    (fs : Nat → FS) : X.view (X.start d mode lazy cap fs) = X.net.start d mode lazy cap fs := by
  funext a
  exact Mix.view_start (X.alone a) _ _ _ _ _ _ _

theorem mesh_view_began {X : Mesh} {U : Nat → String → Prop} {st : MeshSys} (h : X.Began U st) : X.net.Began U (X.view st) := by
  obtain ⟨d, mode, lazy, cap, fs, h1, h2, h3, rfl⟩ := h
  exact ⟨d, mode, lazy, cap, fs, h1, h2, h3, mesh_view_start X d mode lazy cap fs⟩

theorem mesh_tasks_fresh {X : Mesh} {U : Nat → String → Prop} {asked : Nat → Nat → Asked} {written : Nat → Nat → List ExRequest}
    (sound : X.Sound U asked written) (a g : Nat) : ∀ T ∈ (X.tasks a g).2, T.pc = .fresh := by
  rw [Mesh.tasks, MixSite.tasks]
  split
  · intro T hT
    obtain ⟨k, -, rfl⟩ := List.mem_map.mp hT
    rfl
  · exact sound.net.fresh a g

/-- What holds after every history. -/
structure MeshInv (X : Mesh) (U : Nat → String → Prop) (st s : MeshSys) : Prop where
  seen : ∃ fs, (∀ e ∈ fs, NetEv.Allowed U e) ∧ X.net.run (X.view st) fs = .ok (X.view s)
  kinds : ∀ a, (s a).Kinds (X.alone a)
  direct : ∀ a, (s a).Direct
  calls : ∀ a, ∃ E, XInv E (X.net.site a).conf (X.tasks a) ((s a).calls (X.alone a))

theorem MeshInv.good {X : Mesh} {U : Nat → String → Prop} {asked : Nat → Nat → Asked} {written : Nat → Nat → List ExRequest}
    (sound : X.Sound U asked written) {st s : MeshSys} (began : X.Began U st) (inv : MeshInv X U st s) (a : Nat) :
    SvcGood (X.net.site a).reader (X.net.site a).offs (U a) (s a).srv.svc := by
  obtain ⟨fs, hf, hr⟩ := inv.seen
  obtain ⟨fwd, -, h, -⟩ := net_srv sound.net (mesh_view_began began) hr hf a
  exact h.good

theorem MeshInv.start {X : Mesh} {U : Nat → String → Prop} {asked : Nat → Nat → Asked} {written : Nat → Nat → List ExRequest}
    (sound : X.Sound U asked written) {st : MeshSys} (began : X.Began U st) : MeshInv X U st st := by
  obtain ⟨d, mode, lazy, cap, fs, h1, h2, h3, rfl⟩ := began
  refine ⟨⟨[], (fun _ h => by cases h), rfl⟩, fun a => start_kinds _ _ _ _ _ _ _ _, fun a => start_direct _ _ _ _ _ _ _ _, fun a => ?_⟩
  have he : (X.start d mode lazy cap fs a).calls (X.alone a) = XSys.init (X.net.threads a) (X.tasks a) :=
    start_calls (X.alone a) (X.net.threads a) (fun g => ([], X.net.jobs a g)) (d a) (mode a) (lazy a) (cap a) (fs a)
  rw [he]
  exact ⟨(X.net.site a).calls, XInv.init (mesh_tasks_fresh sound a)⟩

/-- One process of those that step. -/
theorem mesh_update {s : MeshSys} {a : Nat} {y : Mix} {Q : Nat → Mix → Prop} (h : ∀ b, Q b (s b)) (hy : Q a y) :
    ∀ b, Q b ((fun b => if b = a then y else s b) b) := by
  intro b
  by_cases hb : b = a
  · subst hb; simp only [if_pos]; exact hy
  · simp only [if_neg hb]; exact h b

theorem MeshInv.step {X : Mesh} {U : Nat → String → Prop} {asked : Nat → Nat → Asked} {written : Nat → Nat → List ExRequest}
    (sound : X.Sound U asked written) {st s s' : MeshSys} (began : X.Began U st) (inv : MeshInv X U st s) {e : NetEv}
    (ha : NetEv.Allowed U e) (h : X.step s e = .ok s') : MeshInv X U st s' := by
  have good := inv.good sound began
  refine ⟨?_, ?_, ?_, ?_⟩
  · obtain ⟨fs, hf, hr⟩ := inv.seen
    rcases mesh_view_step sound good inv.kinds ha h with hv | ⟨f, haf, hv, -⟩
    · exact ⟨fs, hf, by rw [hv]; exact hr⟩
    · refine ⟨fs ++ [f], fun e he => ?_, net_snoc hr hv⟩
      rcases List.mem_append.mp he with he | he
      · exact hf e he
      · rw [List.mem_singleton] at he; rw [he]; exact haf
  · rcases mesh_step_inv h with rfl | ⟨a, M, e', y, hact, hy, rfl⟩
    · exact inv.kinds
    · obtain ⟨fw, n, rfl⟩ := mesh_act_site hact
      refine mesh_update (Q := fun b z => z.Kinds (X.alone b)) inv.kinds ?_
      exact Mix.Kinds.step (M := ⟨(X.net.site a).told fw, X.scans a, n⟩) (inv.kinds a) hy
  · rcases mesh_step_inv h with rfl | ⟨a, M, e', y, hact, hy, rfl⟩
    · exact inv.direct
    · exact mesh_update (Q := fun b z => z.Direct) inv.direct ((inv.direct a).step hy)
  · rcases mesh_step_inv h with rfl | ⟨a, M, e', y, hact, hy, rfl⟩
    · exact inv.calls
    · obtain ⟨fw, n, rfl⟩ := mesh_act_site hact
      refine mesh_update (Q := fun b z => ∃ E, XInv E (X.net.site b).conf (X.tasks b) (z.calls (X.alone b))) inv.calls ?_
      obtain ⟨E, hE⟩ := inv.calls a
      exact hE.any (mix_part (M := ⟨(X.net.site a).told fw, X.scans a, n⟩) (n := (s a).srv.x.t.workers.length)
        (sound.net.reader a) (sound.net.offs a) (good a) (List.getElem?_eq_none (Nat.le_refl _)) hy)

theorem mesh_ran {X : Mesh} {U : Nat → String → Prop} {asked : Nat → Nat → Asked} {written : Nat → Nat → List ExRequest}
    (sound : X.Sound U asked written) {st : MeshSys} (began : X.Began U st) {es : List NetEv} {s : MeshSys}
    (allowed : ∀ e ∈ es, NetEv.Allowed U e) (h : X.run st es = .ok s) : MeshInv X U st s := by
  refine mesh_induct (X := X) (st := st) (fun es s => (∀ e ∈ es, NetEv.Allowed U e) → MeshInv X U st s)
    (fun _ => MeshInv.start sound began) ?_ es s h allowed
  intro es s e s' _ ih hs ha
  exact (ih fun e he => ha e (List.mem_append_left _ he)).step sound began (ha e (by simp)) hs

/-- For those who extract, the processes are those of a network without scans. -/
theorem mesh_reached {X : Mesh} {U : Nat → String → Prop} {asked : Nat → Nat → Asked} {written : Nat → Nat → List ExRequest}
    (sound : X.Sound U asked written) {s : MeshSys} (h : X.Reached U s) : X.net.Reached U (X.view s) := by
  obtain ⟨st, es, began, allowed, hr⟩ := h
  obtain ⟨fs, hf, hv⟩ := (mesh_ran sound began allowed hr).seen
  exact ⟨X.view st, fs, mesh_view_began began, hf, hv⟩

end GJ
