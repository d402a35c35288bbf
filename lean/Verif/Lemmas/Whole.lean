import Verif.Model.Whole
import Verif.Props.C71

/-!
# A process at work: lemmas

A history of the whole process is, for the calls, a history of `XSys` with surroundings `E` that tell for each moment
what the cache and the files gave.  This file finds `E` and relates it to the history of the cache.
-/

namespace GJ
open Spec

/-! ## Steps depend on what they ask for -/

theorem ftask_congr {E E' : ExtEnv} {C : EngineConf} {t : Nat} {m : ItemMap} {T : FTask}
    (hi : ∀ f ks, T = ⟨.file f ks, .fresh⟩ →
      E'.infos t f ((sortKeys m ks).map (offsetOf m)) = E.infos t f ((sortKeys m ks).map (offsetOf m)))
    (hj : E'.jump t = E.jump t) (hf : E'.fetch t = E.fetch t) (hw : E'.forward t = E.forward t) :
    T.step E' C t m = T.step E C t m := by
  obtain ⟨kind, pc⟩ := T
  cases kind with
  | file f ks =>
    cases pc with
    | fresh => rw [FTask.step, FTask.step]; simp only []; rw [hi f ks rfl]
    | work todo =>
      cases todo with
      | nil => rfl
      | cons y todo =>
        obtain ⟨k, o, i⟩ := y
        rw [FTask.step, FTask.step, hj]
    | fetching todo => cases todo <;> rfl
    | finished => rfl
    | failed => rfl
  | inefficient f ks =>
    cases pc with
    | fetching todo =>
      cases todo with
      | nil => rfl
      | cons k todo => rw [FTask.step, FTask.step, hf]
    | work todo => cases todo <;> rfl
    | _ => rfl
  | forward s fm =>
    cases pc with
    | fresh => rw [FTask.step, FTask.step, hw]
    | work todo => cases todo <;> rfl
    | fetching todo => cases todo <;> rfl
    | _ => rfl

/-- A step keeps the places and requests of the items, and the kind of the task. -/
theorem ftask_same {E : ExtEnv} {C : EngineConf} {t : Nat} {m m' : ItemMap} {T T' : FTask}
    (h : T.step E C t m = .ok (m', T')) : SameItems m m' ∧ T'.kind = T.kind := by
  have put : ∀ {k r m''}, setResult m k r = .ok m'' → SameItems m m'' := fun h =>
    (setResult_spec (P := fun _ _ _ => True) h (fun _ _ => trivial)).1
  obtain ⟨kind, pc⟩ := T
  cases kind with
  | file f ks =>
    cases pc with
    | fresh =>
      rw [FTask.step] at h
      obtain ⟨is, -, h⟩ := res_bind_inv h
      obtain ⟨todo, -, h⟩ := res_bind_inv h
      cases h
      exact ⟨SameItems.refl _, rfl⟩
    | work todo =>
      cases todo with
      | nil => cases h; exact ⟨SameItems.refl _, rfl⟩
      | cons y todo =>
        obtain ⟨k, o, i⟩ := y
        rw [FTask.step] at h
        simp only [] at h
        split at h
        · cases h
        · obtain ⟨_, -, h⟩ := res_bind_inv h
          obtain ⟨r, -, h⟩ := res_bind_inv h
          obtain ⟨m1, h1, h⟩ := res_bind_inv h
          cases h
          exact ⟨put h1, rfl⟩
    | fetching todo => cases todo <;> cases h <;> exact ⟨SameItems.refl _, rfl⟩
    | finished => cases h; exact ⟨SameItems.refl _, rfl⟩
    | failed => cases h; exact ⟨SameItems.refl _, rfl⟩
  | inefficient f ks =>
    cases pc with
    | fetching todo =>
      cases todo with
      | nil => cases h; exact ⟨SameItems.refl _, rfl⟩
      | cons k todo =>
        rw [FTask.step] at h
        simp only [] at h
        split at h
        · cases h
        · split at h
          · cases h
          · obtain ⟨r, -, h⟩ := res_bind_inv h
            obtain ⟨m1, h1, h⟩ := res_bind_inv h
            cases h
            exact ⟨put h1, rfl⟩
    | fresh => cases h; exact ⟨SameItems.refl _, rfl⟩
    | work todo => cases todo <;> cases h <;> exact ⟨SameItems.refl _, rfl⟩
    | finished => cases h; exact ⟨SameItems.refl _, rfl⟩
    | failed => cases h; exact ⟨SameItems.refl _, rfl⟩
  | forward s fm =>
    cases pc with
    | fresh =>
      rw [FTask.step] at h
      obtain ⟨back, -, h⟩ := res_bind_inv h
      obtain ⟨m1, h1, h⟩ := res_bind_inv h
      cases h
      exact ⟨(storeAll_spec (P := fun _ _ _ => True) h1 (fun _ _ _ _ _ _ _ _ _ _ _ => trivial)).1, rfl⟩
    | work todo => cases todo <;> cases h <;> exact ⟨SameItems.refl _, rfl⟩
    | fetching todo => cases todo <;> cases h <;> exact ⟨SameItems.refl _, rfl⟩
    | finished => cases h; exact ⟨SameItems.refl _, rfl⟩
    | failed => cases h; exact ⟨SameItems.refl _, rfl⟩

theorem xstep_congr {E E' : Nat → ExtEnv} {C : EngineConf} {s : XSys} {e : XEv}
    (ag : ∀ w g j T, e = .work w → s.t.workers[w]? = some (.running g j) → (s.job g).tasks[j]? = some T →
      T.step (E' g) C (s.job g).time (s.job g).items = T.step (E g) C (s.job g).time (s.job g).items) :
    s.step E' C e = s.step E C e := by
  have : s.act E' C e = s.act E C e := by
    cases e with
    | work w =>
      rw [XSys.act, XSys.act]
      cases hw : s.t.workers[w]? with
      | none => rfl
      | some q =>
        cases q with
        | idle => rfl
        | got g j => rfl
        | running g j =>
          simp only []
          cases hT : (s.job g).tasks[j]? with
          | none => rfl
          | some T =>
            simp only []
            rw [ag w g j T rfl hw hT]
    | _ => rfl
  rw [XSys.step, XSys.step, this]

/-- What a step does to the calls: nothing, or a step of one task. -/
theorem xstep_job {E : Nat → ExtEnv} {C : EngineConf} {s s' : XSys} {e : XEv} (h : s.step E C e = .ok s') :
    s'.job = s.job ∨ ∃ w g j T T', e = .work w ∧ s.t.workers[w]? = some (.running g j) ∧
      (s.job g).tasks[j]? = some T ∧ T.pc ≠ .finished ∧ (∀ k, k ≠ g → s'.job k = s.job k) ∧
      (s'.job g).time = (s.job g).time + 1 ∧ (s'.job g).tasks = (s.job g).tasks.set j T' ∧ T'.kind = T.kind ∧
      SameItems (s.job g).items (s'.job g).items := by
  obtain ⟨a, ha, -⟩ := step_inv h
  have same : ∀ {b : Option TEv}, (.ok (b, s.job) : Res (Option TEv × (Nat → FSys))) = .ok (a, s'.job) → s'.job = s.job :=
    fun h => (Prod.mk.inj (Except.ok.inj h)).2.symm
  cases e with
  | work w =>
    rw [XSys.act] at ha
    cases hw : s.t.workers[w]? with
    | none => rw [hw] at ha; exact Or.inl (same ha)
    | some q =>
      rw [hw] at ha
      cases q with
      | idle => exact Or.inl (same ha)
      | got g j => exact Or.inl (same ha)
      | running g j =>
        simp only [] at ha
        cases hT : (s.job g).tasks[j]? with
        | none => rw [hT] at ha; cases ha
        | some T =>
          rw [hT] at ha
          simp only [] at ha
          by_cases hd : T.pc = .finished
          · rw [if_pos hd] at ha; exact Or.inl (same ha)
          · rw [if_neg hd] at ha
            right
            cases hb : T.step (E g) C (s.job g).time (s.job g).items with
            | ok y =>
              obtain ⟨m, T'⟩ := y
              rw [hb] at ha
              have hj := (Prod.mk.inj (Except.ok.inj ha)).2
              obtain ⟨h1, h2⟩ := ftask_same hb
              refine ⟨w, g, j, T, T', rfl, hw, hT, hd, ?_, ?_, ?_, h2, ?_⟩
              · intro k hk; rw [← hj, setJob_ne _ _ hk]
              · rw [← hj, setJob_self]
              · rw [← hj, setJob_self]
              · rw [← hj, setJob_self]; exact h1
            | error f =>
              rw [hb] at ha
              cases f with
              | ub => cases ha
              | exn x =>
                have hj := (Prod.mk.inj (Except.ok.inj ha)).2
                refine ⟨w, g, j, T, { T with pc := .failed }, rfl, hw, hT, hd, ?_, ?_, ?_, rfl, ?_⟩
                · intro k hk; rw [← hj, setJob_ne _ _ hk]
                · rw [← hj, setJob_self]
                · rw [← hj, setJob_self]
                · rw [← hj, setJob_self]; exact SameItems.refl _
  | add g => exact Or.inl (same ha)
  | push g => exact Or.inl (same ha)
  | wait g => exact Or.inl (same ha)
  | ret g => exact Or.inl (same ha)
  | pop g => exact Or.inl (same ha)
  | start g => exact Or.inl (same ha)

theorem xstep_time {E : Nat → ExtEnv} {C : EngineConf} {s s' : XSys} {e : XEv} (h : s.step E C e = .ok s') (g : Nat) :
    (s.job g).time ≤ (s'.job g).time := by
  rcases xstep_job h with h | ⟨w, k, j, T, T', -, -, -, -, h1, h2, -⟩
  · rw [h]; exact Nat.le_refl _
  · by_cases hk : g = k
    · rw [hk, h2]; omega
    · rw [h1 g hk]; exact Nat.le_refl _

theorem xrun_time {E : Nat → ExtEnv} {C : EngineConf} {es : List XEv} {s s' : XSys} (h : s.run E C es = .ok s') (g : Nat) :
    (s.job g).time ≤ (s'.job g).time := by
  induction es generalizing s with
  | nil => cases h; exact Nat.le_refl _
  | cons e es ih =>
    rw [XSys.run] at h
    obtain ⟨s1, h1, h2⟩ := res_bind_inv h
    exact Nat.le_trans (xstep_time h1 g) (ih h2)

theorem xrun_append {E : Nat → ExtEnv} {C : EngineConf} (es fs : List XEv) (s : XSys) :
    s.run E C (es ++ fs) = s.run E C es >>= fun s' => s'.run E C fs := by
  induction es generalizing s with
  | nil => rfl
  | cons e es ih =>
    rw [List.cons_append, XSys.run, XSys.run]
    cases hs : s.step E C e with
    | error f => rfl
    | ok s' => rw [ok_bind, ok_bind, ih]

theorem xrun_snoc {E : Nat → ExtEnv} {C : EngineConf} {es : List XEv} {e : XEv} {s s1 s2 : XSys}
    (h1 : s.run E C es = .ok s1) (h2 : s1.step E C e = .ok s2) : s.run E C (es ++ [e]) = .ok s2 := by
  rw [xrun_append, h1, ok_bind, XSys.run, h2, ok_bind, XSys.run]

/-- Two surroundings give the same at one time. -/
structure AgreeAt (E E' : ExtEnv) (t : Nat) : Prop where
  infos : E'.infos t = E.infos t
  jump : E'.jump t = E.jump t
  fetch : E'.fetch t = E.fetch t
  forward : E'.forward t = E.forward t

theorem AgreeAt.refl (E : ExtEnv) (t : Nat) : AgreeAt E E t := ⟨rfl, rfl, rfl, rfl⟩

theorem AgreeAt.step {E E' : ExtEnv} {t : Nat} (h : AgreeAt E E' t) (C : EngineConf) (m : ItemMap) (T : FTask) :
    T.step E' C t m = T.step E C t m :=
  ftask_congr (fun _ _ _ => by rw [h.infos]) h.jump h.fetch h.forward

/-- Only surroundings at times that have passed matter. -/
theorem xrun_congr {E E' : Nat → ExtEnv} {C : EngineConf} {es : List XEv} {s s' : XSys} (h : s.run E C es = .ok s')
    (ag : ∀ g t, t < (s'.job g).time → AgreeAt (E g) (E' g) t) : s.run E' C es = .ok s' := by
  induction es generalizing s with
  | nil => exact h
  | cons e es ih =>
    rw [XSys.run] at h ⊢
    obtain ⟨s1, h1, h2⟩ := res_bind_inv h
    rw [xstep_congr (E := E), h1, ok_bind]
    · exact ih h2
    · intro w g j T he hw hT
      by_cases hd : T.pc = .finished
      · obtain ⟨kind, pc⟩ := T
        simp only at hd
        subst hd
        cases kind <;> rfl
      · refine (ag g _ ?_).step C _ T
        have hle := xrun_time h2 g
        rcases xstep_job h1 with hj | ⟨w', g', j', T1, T', he', hw', -, -, -, ht, -⟩
        · exfalso
          obtain ⟨a, ha, -⟩ := step_inv h1
          rw [he, XSys.act, hw] at ha
          simp only [] at ha
          rw [hT] at ha
          simp only [] at ha
          rw [if_neg hd] at ha
          have hji : s1.job g = s.job g := by rw [hj]
          cases hb : T.step (E g) C (s.job g).time (s.job g).items with
          | ok y =>
            obtain ⟨m, T'⟩ := y
            rw [hb] at ha
            have hjj := (Prod.mk.inj (Except.ok.inj ha)).2
            rw [← hjj, setJob_self] at hji
            have := congrArg FSys.time hji
            simp at this
          | error f =>
            rw [hb] at ha
            cases f with
            | ub => cases ha
            | exn x =>
              have hjj := (Prod.mk.inj (Except.ok.inj ha)).2
              rw [← hjj, setJob_self] at hji
              have := congrArg FSys.time hji
              simp at this
        · rw [he] at he'
          cases he'
          rw [hw] at hw'
          cases hw'
          omega

/-! ## A worker that needs metadata goes on needing it -/

theorem running_once {s : TSys} (h : TInv s) {w w' g j : Nat} (h1 : s.workers[w]? = some (.running g j))
    (h2 : s.workers[w']? = some (.running g j)) : w = w' := by
  apply Classical.byContradiction
  intro hne
  have hc := count_set_add s.workers w (.running g j) .idle (.running g j) h1
  have hmem : WPc.running g j ∈ s.workers.set w .idle := by
    refine List.mem_of_getElem? (i := w') ?_
    rw [List.getElem?_set_ne hne]; exact h2
  have hpos := List.count_pos_iff.mpr hmem
  rw [if_pos rfl, if_neg (by intro e; cases e)] at hc
  have hcell := h.cell g j
  cases hst : (s.grp g).tasks[j]? with
  | none => rw [hst] at hcell; have := hcell.2.1; omega
  | some st =>
    rw [hst] at hcell
    cases st <;> (have := hcell.2.1; omega)

theorem asking_inv {x : XSys} {w : Nat} {a : String × List Nat} (h : x.asking w = some a) :
    ∃ g j f ks, x.t.workers[w]? = some (.running g j) ∧ (x.job g).tasks[j]? = some ⟨.file f ks, .fresh⟩ ∧
      a = (f, (sortKeys (x.job g).items ks).map (offsetOf (x.job g).items)) := by
  rw [XSys.asking] at h
  split at h
  · rename_i g j hw
    split at h
    · rename_i f ks hT
      exact ⟨g, j, f, ks, hw, hT, (Option.some.inj h).symm⟩
    · cases h
  · cases h

theorem asking_of {x : XSys} {w g j : Nat} {f : String} {ks : List String} (hw : x.t.workers[w]? = some (.running g j))
    (hT : (x.job g).tasks[j]? = some ⟨.file f ks, .fresh⟩) :
    x.asking w = some (f, (sortKeys (x.job g).items ks).map (offsetOf (x.job g).items)) := by
  rw [XSys.asking, hw]
  simp only [hT]

theorem sortKeys_same {m m' : ItemMap} (h : SameItems m m') (ks : List String) :
    sortKeys m' ks = sortKeys m ks ∧ (sortKeys m' ks).map (offsetOf m') = (sortKeys m ks).map (offsetOf m) := by
  have e : offsetOf m' = offsetOf m := funext fun k => h.offsetOf k
  rw [sortKeys, sortKeys, e]
  exact ⟨rfl, rfl⟩

theorem asking_stays {E : Nat → ExtEnv} {C : EngineConf} {s s' : XSys} (hi : TInv s.t) {e : XEv}
    (h : s.step E C e = .ok s') {w : Nat} (hne : e ≠ .work w) {a : String × List Nat} (ha : s.asking w = some a) :
    s'.asking w = some a := by
  obtain ⟨g, j, f, ks, hw, hT, rfl⟩ := asking_inv ha
  have hw' : s'.t.workers[w]? = some (.running g j) := by
    obtain ⟨b, hb, ht⟩ := step_inv h
    cases b with
    | none => rw [← Except.ok.inj ht]; exact hw
    | some b =>
      have hb' : ∀ v, (b = .finish v ∨ ∃ msg, b = .fail v msg) → e = .work v := by
        intro v hv
        clear h ht
        generalize s'.job = jobs at hb
        cases e with
        | add k => rw [XSys.act] at hb; split at hb <;> cases hb; rcases hv with hv | ⟨_, hv⟩ <;> cases hv
        | wait k => rw [XSys.act] at hb; split at hb <;> cases hb; rcases hv with hv | ⟨_, hv⟩ <;> cases hv
        | push k => cases hb; rcases hv with hv | ⟨_, hv⟩ <;> cases hv
        | ret k => cases hb; rcases hv with hv | ⟨_, hv⟩ <;> cases hv
        | pop k => cases hb; rcases hv with hv | ⟨_, hv⟩ <;> cases hv
        | start k => cases hb; rcases hv with hv | ⟨_, hv⟩ <;> cases hv
        | work u =>
          rw [XSys.act.eq_def] at hb
          simp only [] at hb
          split at hb
          · split at hb
            · cases hb
            · split at hb
              · cases hb
                rcases hv with hv | ⟨_, hv⟩ <;> cases hv
                rfl
              · split at hb
                · cases hb
                · cases hb
                · cases hb
                  rcases hv with hv | ⟨_, hv⟩ <;> cases hv
                  rfl
          · cases hb
      exact worker_stays ht hw (fun e' => hne (hb' w (Or.inl e'))) (fun msg e' => hne (hb' w (Or.inr ⟨msg, e'⟩)))
  rcases xstep_job h with hj | ⟨v, k, i, T, T', he, hv, hvT, -, ho, -, hts, -, hit⟩
  · rw [asking_of hw' (by rw [hj]; exact hT), hj]
  · by_cases hk : g = k
    · subst hk
      have hij : i ≠ j := by
        intro e'
        subst e'
        have := running_once hi hw hv
        subst this
        exact hne he
      rw [asking_of (f := f) (ks := ks) hw' (by rw [hts, List.getElem?_set_ne hij]; exact hT), (sortKeys_same hit ks).2]
    · rw [asking_of (f := f) (ks := ks) hw' (by rw [ho g hk]; exact hT), ho g hk]

/-! ## Steps of the cache -/

section
variable {R : Reader UInt64} {offs : List UInt8 → Res (List Nat)}

theorem svc_append (es fs : List SEv) (s : Svc UInt64) :
    s.run R offs (es ++ fs) = s.run R offs es >>= fun s' => s'.run R offs fs := by
  induction es generalizing s with
  | nil => rfl
  | cons e es ih =>
    rw [List.cons_append, Svc.run, Svc.run]
    cases hs : s.step R offs e with
    | error f => rfl
    | ok s' => rw [ok_bind, ok_bind, ih]

theorem svc_snoc {es : List SEv} {e : SEv} {s s1 s2 : Svc UInt64} (h1 : s.run R offs es = .ok s1)
    (h2 : s1.step R offs e = .ok s2) : s.run R offs (es ++ [e]) = .ok s2 := by
  rw [svc_append, h1, ok_bind, Svc.run, h2, ok_bind, Svc.run]

theorem svc_step_before {s s' : Svc UInt64} {e : SEv} (h : s.step R offs e = .ok s') : s.disk.Before s'.disk := by
  cases e with
  | cache e =>
    rw [Svc.step] at h
    obtain ⟨y, -, h⟩ := res_bind_inv h
    cases h
    exact Disk.Before.refl _
  | append p b => cases h; exact Disk.append_before _ _ _
  | jump k j is =>
    rw [Svc.step] at h
    split at h
    · split at h <;> (cases h; exact Disk.Before.refl _)
    · cases h; exact Disk.Before.refl _

theorem svc_run_before {es : List SEv} {s s' : Svc UInt64} (h : s.run R offs es = .ok s') : s.disk.Before s'.disk := by
  induction es generalizing s with
  | nil => cases h; exact Disk.Before.refl _
  | cons e es ih =>
    rw [Svc.run] at h
    obtain ⟨s1, h1, h2⟩ := res_bind_inv h
    exact (svc_step_before h1).trans (ih h2)

/-- Other threads do not touch the lookups of workers. -/
theorem other_lookups {s s' : Svc UInt64} {e : OEv} (h : s.step R offs e.on = .ok s') :
    s'.sys.lookups = s.sys.lookups ∧ s'.sys.answers = s.sys.answers := by
  have pl : ∀ {y : Sys} {p r}, s.sys.planned p r = .ok y →
      y.lookups = s.sys.lookups ∧ y.answers = s.sys.answers := by
    intro y p r h
    cases r with
    | ok x => cases h; exact ⟨rfl, rfl⟩
    | error f => cases f with
      | ub => cases h
      | exn e => cases h; exact ⟨rfl, rfl⟩
  cases e with
  | scan p os =>
    obtain ⟨y, hy, h⟩ := res_bind_inv (show (s.sys.step _ >>= fun y => _) = _ from h)
    cases h; exact pl hy
  | scanFile p m =>
    obtain ⟨y, hy, h⟩ := res_bind_inv (show (s.sys.step _ >>= fun y => _) = _ from h)
    cases h; exact pl hy
  | commit k =>
    obtain ⟨y, hy, h⟩ := res_bind_inv (show (s.sys.step _ >>= fun y => _) = _ from h)
    cases h
    rw [Sys.step] at hy
    split at hy
    · cases hy; exact ⟨rfl, rfl⟩
    · obtain ⟨⟨n, c⟩, -, hy⟩ := res_bind_inv hy
      cases hy; exact ⟨rfl, rfl⟩
  | insert p o =>
    obtain ⟨y, hy, h⟩ := res_bind_inv (show (s.sys.step _ >>= fun y => _) = _ from h)
    cases h
    rw [Sys.step] at hy
    split at hy <;> (cases hy; exact ⟨rfl, rfl⟩)
  | flush a =>
    obtain ⟨y, hy, h⟩ := res_bind_inv (show (s.sys.step _ >>= fun y => _) = _ from h)
    cases h
    rw [Sys.step] at hy
    obtain ⟨c, -, hy⟩ := res_bind_inv hy
    cases hy; exact ⟨rfl, rfl⟩
  | clear => cases h; exact ⟨rfl, rfl⟩
  | elsewhere a ws =>
    obtain ⟨y, hy, h⟩ := res_bind_inv (show (s.sys.step _ >>= fun y => _) = _ from h)
    cases h
    rw [Sys.step] at hy
    obtain ⟨c, -, hy⟩ := res_bind_inv hy
    cases hy; exact ⟨rfl, rfl⟩
  | append p b => cases h; exact ⟨rfl, rfl⟩

theorem svc_step_answers {s s' : Svc UInt64} {e : SEv} (h : s.step R offs e = .ok s') :
    s.sys.answers.length ≤ s'.sys.answers.length := by
  have via : ∀ {e : OEv}, s.step R offs e.on = .ok s' → s.sys.answers.length ≤ s'.sys.answers.length :=
    fun h => by rw [(other_lookups h).2]; exact Nat.le_refl _
  cases e with
  | append p b => exact via (e := .append p b) h
  | jump k j is =>
    rw [Svc.step] at h
    split at h
    · split at h <;> (cases h; exact Nat.le_refl _)
    · cases h; exact Nat.le_refl _
  | cache e =>
    cases e with
    | scan p os => exact via (e := .scan p os) h
    | scanFile p m => exact via (e := .scanFile p m) h
    | commit k => exact via (e := .commit k) h
    | insert p o => exact via (e := .insert p o) h
    | flush a => exact via (e := .flush a) h
    | clear => exact via (e := .clear) h
    | elsewhere a ws => exact via (e := .elsewhere a ws) h
    | grow W => cases h; exact Nat.le_refl _
    | lookup f os => 
      rw [Svc.step] at h
      obtain ⟨y, hy, h⟩ := res_bind_inv h
      cases h
      rw [Sys.step] at hy
      obtain ⟨⟨found, c⟩, -, hy⟩ := res_bind_inv hy
      cases hy
      exact Nat.le_refl _
    | answer k =>
      rw [Svc.step] at h
      obtain ⟨y, hy, h⟩ := res_bind_inv h
      cases h
      rw [Sys.step] at hy
      split at hy
      · cases hy; exact Nat.le_refl _
      · obtain ⟨r, hr⟩ := Sys.finish_answers hy
        show s.sys.answers.length ≤ y.answers.length
        rw [hr, List.length_append]; exact Nat.le_add_right _ _

theorem svc_run_answers {es : List SEv} {s s' : Svc UInt64} (h : s.run R offs es = .ok s') :
    s.sys.answers.length ≤ s'.sys.answers.length := by
  induction es generalizing s with
  | nil => cases h; exact Nat.le_refl _
  | cons e es ih =>
    rw [Svc.run] at h
    obtain ⟨s1, h1, h2⟩ := res_bind_inv h
    exact Nat.le_trans (svc_step_answers h1) (ih h2)

theorem lookup_step {s s' : Svc UInt64} {f : String} {os : List Nat}
    (h : s.step R offs (.cache (.lookup f os)) = .ok s') :
    s'.disk = s.disk ∧ s'.sys.answers = s.sys.answers ∧ ∃ l : Lookup, l.path = f ∧ l.offsets = os ∧
      s'.sys.lookups = s.sys.lookups ++ [l] := by
  rw [Svc.step] at h
  obtain ⟨y, hy, h⟩ := res_bind_inv h
  cases h
  rw [Sys.step] at hy
  obtain ⟨⟨found, c⟩, -, hy⟩ := res_bind_inv hy
  cases hy
  exact ⟨rfl, rfl, _, rfl, rfl, rfl⟩

theorem answer_step {s s' : Svc UInt64} {k : Nat} {l : Lookup} (hl : s.sys.lookups[k]? = some l)
    (h : s.step R offs (.cache (.answer k)) = .ok s') :
    s'.disk = s.disk ∧ s'.sys.lookups = s.sys.lookups.eraseIdx k ∧
      s'.sys.answers = s.sys.answers ++ [⟨l.path, l.offsets, outcomeOf s s'⟩] ∧ outcomeOf s s' ≠ undef := by
  rw [Svc.step] at h
  obtain ⟨y, hy, h⟩ := res_bind_inv h
  cases h
  rw [Sys.step, hl] at hy
  simp only [] at hy
  rw [Sys.finish] at hy
  split at hy
  · obtain ⟨c, -, hy⟩ := res_bind_inv hy
    cases hy
    refine ⟨rfl, rfl, ?_, ?_⟩
    · simp only [outcomeOf, List.getElem?_concat_length]
    · simp only [outcomeOf, List.getElem?_concat_length]; intro h; cases h
  · cases hy
  · cases hy
    refine ⟨rfl, rfl, ?_, ?_⟩
    · simp only [outcomeOf, List.getElem?_concat_length]
    · simp only [outcomeOf, List.getElem?_concat_length]; intro h; cases h

end

/-! ## Surroundings of a call -/

def OEv.Allowed (U : String → Prop) (e : OEv) : Prop := e.on.Allowed U

def SrvEv.Allowed (U : String → Prop) : SrvEv → Prop
  | .queue _ => True
  | .other e => e.Allowed U

/-- Some lookup in a history that continues `start`, up to `later`, had this outcome. -/
def LookedUp (p : Site) (U : String → Prop) (start : Svc UInt64) (later : Disk) (f : String) (os : List Nat)
    (r : Res (List Info)) : Prop :=
  ∃ es s, (∀ e ∈ es, SEv.Allowed U e) ∧ start.run p.reader p.offs es = .ok s ∧ s.disk.Before later ∧
    (⟨f, os, r⟩ : Answer) ∈ s.sys.answers.drop start.sys.answers.length

/-- What call `g` met from `start` on, up to now: outcomes of lookups, and files as they were. -/
structure Lived (p : Site) (U : String → Prop) (start : Svc UInt64) (later : Disk) (g : Nat) (E : ExtEnv) : Prop where
  list : E.list = (p.calls g).list
  infos : ∀ t f os, U f → LookedUp p U start later f os (E.infos t f os) ∧ E.infos t f os ≠ undef
  outside : ∀ t f os, ¬ U f → E.infos t f os = throwExn .ioError
  jump : ∀ t f o i is, ∃ d : Disk, start.disk.Before d ∧ d.Before later ∧ E.jump t f o i is = p.jumpOn d f o i is
  fetch : ∀ t u is, E.fetch t u is = p.fetch u is
  forward : E.forward = (p.calls g).forward

theorem Lived.before {p : Site} {U : String → Prop} {start : Svc UInt64} {later : Disk} {g : Nat} {E : ExtEnv}
    (h : Lived p U start later g E) {d : Disk} (hd : later.Before d) : Lived p U start d g E where
  list := h.list
  infos t f os hf := by
    obtain ⟨⟨es, s, h1, h2, h3, h4⟩, h5⟩ := h.infos t f os hf
    exact ⟨⟨es, s, h1, h2, h3.trans hd, h4⟩, h5⟩
  outside := h.outside
  jump t f o i is := by
    obtain ⟨d', h1, h2, h3⟩ := h.jump t f o i is
    exact ⟨d', h1, h2.trans hd, h3⟩
  fetch := h.fetch
  forward := h.forward

/-- The surroundings at one moment are changed. -/
def ExtEnv.put (E : ExtEnv) (t : Nat) (ask : Option (String × List Nat)) (r : Res (List Info))
    (jump : String → Nat → Info → List Interval → Res WireResult) : ExtEnv where
  list := E.list
  infos := fun t' f os => if t' = t ∧ ask = some (f, os) then r else E.infos t' f os
  jump := fun t' => if t' = t then jump else E.jump t'
  fetch := E.fetch
  forward := E.forward

theorem ExtEnv.put_agrees {E : ExtEnv} {t t' : Nat} (h : t' < t) (ask : Option (String × List Nat)) (r : Res (List Info))
    (jump : String → Nat → Info → List Interval → Res WireResult) : AgreeAt E (E.put t ask r jump) t' where
  infos := by
    funext f os
    show (if t' = t ∧ ask = some (f, os) then r else E.infos t' f os) = _
    rw [if_neg (by rintro ⟨e, -⟩; omega)]
  jump := by
    show (if t' = t then jump else E.jump t') = _
    rw [if_neg (by omega)]
  fetch := rfl
  forward := rfl

theorem Lived.put {p : Site} {U : String → Prop} {start : Svc UInt64} {later : Disk} {g : Nat} {E : ExtEnv}
    (h : Lived p U start later g E) (t : Nat) {ask : Option (String × List Nat)} {r : Res (List Info)} {d : Disk}
    (hask : ∀ f os, ask = some (f, os) → U f ∧ LookedUp p U start later f os r ∧ r ≠ undef)
    (h1 : start.disk.Before d) (h2 : d.Before later) :
    Lived p U start later g (E.put t ask r (fun f o i is => p.jumpOn d f o i is)) where
  list := h.list
  infos t' f os hf := by
    show LookedUp p U start later f os (if t' = t ∧ ask = some (f, os) then r else E.infos t' f os) ∧
      (if t' = t ∧ ask = some (f, os) then r else E.infos t' f os) ≠ undef
    split
    · rename_i hc
      exact (hask f os hc.2).2
    · exact h.infos t' f os hf
  outside t' f os hf := by
    show (if t' = t ∧ ask = some (f, os) then r else E.infos t' f os) = _
    rw [if_neg (by rintro ⟨-, e⟩; exact hf (hask f os e).1)]
    exact h.outside t' f os hf
  jump t' f o i is := by
    show ∃ d', _ ∧ _ ∧ (if t' = t then (fun f o i is => p.jumpOn d f o i is) else E.jump t') f o i is = _
    split
    · exact ⟨d, h1, h2, rfl⟩
    · exact h.jump t' f o i is
  fetch := h.fetch
  forward := h.forward

/-! ## The invariant -/

/-- Between steps.  `from_ g` is the state of files and cache from which on call `g` is followed. -/
structure SrvInv (p : Site) (U : String → Prop) (n : Nat) (P : Nat → ItemMap × List FTask) (from_ : Nat → Svc UInt64)
    (s : Srv) : Prop where
  good : SvcGood p.reader p.offs U s.svc
  reach : ∀ g, ∃ es, (∀ e ∈ es, SEv.Allowed U e) ∧ (from_ g).run p.reader p.offs es = .ok s.svc
  run : ∃ E qs, (∀ g, Lived p U (from_ g) s.svc.disk g (E g)) ∧ (XSys.init n P).run E p.conf qs = .ok s.x
  len : s.holders.length = s.svc.sys.lookups.length
  nodup : s.holders.Nodup
  asks : ∀ (k w : Nat) l, s.holders[k]? = some w → s.svc.sys.lookups[k]? = some l →
    s.x.asking w = some (l.path, l.offsets)
  files : ∀ g, ∀ T ∈ (s.x.job g).tasks, ∀ f ks, T.kind = .file f ks → U f

theorem SrvInv.x {p : Site} {U : String → Prop} {n : Nat} {P : Nat → ItemMap × List FTask} {from_ : Nat → Svc UInt64}
    {s : Srv} (h : SrvInv p U n P from_ s) (fresh : ∀ g, ∀ T ∈ (P g).2, T.pc = .fresh) :
    ∃ E, (∀ g, Lived p U (from_ g) s.svc.disk g (E g)) ∧ XInv E p.conf P s.x := by
  obtain ⟨E, qs, h1, h2⟩ := h.run
  exact ⟨E, h1, (XInv.init fresh).ran h2⟩

/-- Kinds of tasks do not change. -/
theorem files_stay {U : String → Prop} {E : Nat → ExtEnv} {C : EngineConf} {x x' : XSys} {e : XEv}
    (h : x.step E C e = .ok x') (hf : ∀ g, ∀ T ∈ (x.job g).tasks, ∀ f ks, T.kind = .file f ks → U f) :
    ∀ g, ∀ T ∈ (x'.job g).tasks, ∀ f ks, T.kind = .file f ks → U f := by
  intro g T hT f ks hk
  rcases xstep_job h with hj | ⟨w, k, j, T0, T', -, -, h0, -, ho, -, hts, hkind, -⟩
  · rw [hj] at hT; exact hf g T hT f ks hk
  · by_cases e : g = k
    · subst e
      rw [hts] at hT
      rcases List.mem_or_eq_of_mem_set hT with hT | rfl
      · exact hf g T hT f ks hk
      · exact hf g T0 (List.mem_of_getElem? h0) f ks (by rw [← hkind]; exact hk)
    · rw [ho g e] at hT; exact hf g T hT f ks hk

/-- The surroundings of one moment, told by surroundings that tell of all moments. -/
theorem lived_moment {p : Site} {U : String → Prop} {n : Nat} {P : Nat → ItemMap × List FTask} {from_ : Nat → Svc UInt64}
    {x : XSys} {later d : Disk} {r : Res (List Info)} {w : Nat}
    (hrun : ∃ E qs, (∀ g, Lived p U (from_ g) later g (E g)) ∧ (XSys.init n P).run E p.conf qs = .ok x)
    (hask : ∀ f os, x.asking w = some (f, os) → U f ∧ (∀ g, LookedUp p U (from_ g) later f os r) ∧ r ≠ undef)
    (h1 : ∀ g, (from_ g).disk.Before d) (h2 : d.Before later) :
    ∃ E qs, (∀ g, Lived p U (from_ g) later g (E g)) ∧ (XSys.init n P).run E p.conf qs = .ok x ∧
      x.step E p.conf (.work w) = x.step (p.env d r) p.conf (.work w) := by
  obtain ⟨E, qs, hL, hr⟩ := hrun
  refine ⟨fun g => (E g).put (x.job g).time (x.asking w) r (fun f o i is => p.jumpOn d f o i is), qs,
    fun g => (hL g).put _ (fun f os e => ⟨(hask f os e).1, (hask f os e).2.1 g, (hask f os e).2.2⟩) (h1 g) h2,
    xrun_congr hr fun g t ht => ExtEnv.put_agrees ht _ _ _, ?_⟩
  refine xstep_congr fun w' g j T he hw hT => ?_
  cases he
  refine ftask_congr (fun f ks hTk => ?_) ?_ ?_ ?_
  · subst hTk
    show (if (x.job g).time = (x.job g).time ∧ x.asking w = some _ then r else _) = r
    rw [if_pos ⟨rfl, asking_of hw hT⟩]
  · show (if (x.job g).time = (x.job g).time then _ else _) = _
    rw [if_pos rfl]; rfl
  · funext u is; exact (hL g).fetch _ u is
  · show (E g).forward _ = _
    rw [(hL g).forward]; rfl

/-- A step of a worker, in the surroundings of that moment, is a step in surroundings that tell of all moments. -/
theorem lived_work {p : Site} {U : String → Prop} {n : Nat} {P : Nat → ItemMap × List FTask} {from_ : Nat → Svc UInt64}
    {x x' : XSys} {later d : Disk} {r : Res (List Info)} {w : Nat}
    (hrun : ∃ E qs, (∀ g, Lived p U (from_ g) later g (E g)) ∧ (XSys.init n P).run E p.conf qs = .ok x)
    (hstep : x.step (p.env d r) p.conf (.work w) = .ok x')
    (hask : ∀ f os, x.asking w = some (f, os) → U f ∧ (∀ g, LookedUp p U (from_ g) later f os r) ∧ r ≠ undef)
    (h1 : ∀ g, (from_ g).disk.Before d) (h2 : d.Before later) :
    ∃ E qs, (∀ g, Lived p U (from_ g) later g (E g)) ∧ (XSys.init n P).run E p.conf qs = .ok x' := by
  obtain ⟨E, qs, hL, hr, hs⟩ := lived_moment hrun hask h1 h2
  exact ⟨E, qs ++ [.work w], hL, xrun_snoc hr (hs.trans hstep)⟩

theorem getElem?_eraseIdx_cases {α : Type} {l : List α} {k i : Nat} {a : α} (h : (l.eraseIdx k)[i]? = some a) :
    ∃ i', i' ≠ k ∧ l[i']? = some a ∧ ∀ {β : Type} (m : List β), (m.eraseIdx k)[i]? = m[i']? := by
  rw [List.getElem?_eraseIdx] at h
  by_cases hi : i < k
  · rw [if_pos hi] at h
    exact ⟨i, by omega, h, fun m => by rw [List.getElem?_eraseIdx, if_pos hi]⟩
  · rw [if_neg hi] at h
    exact ⟨i + 1, by omega, h, fun m => by rw [List.getElem?_eraseIdx, if_neg hi]⟩

theorem idxOf_getElem? {l : List Nat} {w : Nat} (h : w ∈ l) : l[l.idxOf w]? = some w := by
  rw [List.getElem?_eq_getElem (List.idxOf_lt_length_iff.mpr h), List.getElem_idxOf]

theorem SrvInv.step {p : Site} {U : String → Prop} {n : Nat} {P : Nat → ItemMap × List FTask} {from_ : Nat → Svc UInt64}
    (sound : SoundReader p.reader) (hoffs : ∀ file, p.offs file ≠ undef) (fresh : ∀ g, ∀ T ∈ (P g).2, T.pc = .fresh)
    {s s' : Srv} (h : SrvInv p U n P from_ s) {e : SrvEv} (ha : e.Allowed U) (hs : s.step p e = .ok s') :
    SrvInv p U n P from_ s' := by
  obtain ⟨E0, -, hx0⟩ := h.x fresh
  have ht := hx0.t
  -- steps of the queue only
  have quiet : ∀ {e : XEv} {x' : XSys}, (∀ w, e ≠ .work w) → s.x.step (p.env s.svc.disk undef) p.conf e = .ok x' →
      SrvInv p U n P from_ ⟨x', s.svc, s.holders⟩ := by
    intro e x' hne hx
    refine ⟨h.good, h.reach, ?_, h.len, h.nodup, ?_, files_stay hx h.files⟩
    · obtain ⟨E, qs, hL, hr⟩ := h.run
      refine ⟨E, qs ++ [e], hL, xrun_snoc hr ?_⟩
      rw [← hx]
      exact xstep_congr fun w g j T he => absurd he (hne w)
    · intro k w l hk hl
      exact asking_stays ht hx (hne w) (h.asks k w l hk hl)
  have fromDisk : ∀ g, (from_ g).disk.Before s.svc.disk := fun g => by
    obtain ⟨es, -, h2⟩ := h.reach g
    exact svc_run_before h2
  have moves : ∀ {e : SEv} {y : Svc UInt64}, SEv.Allowed U e → s.svc.step p.reader p.offs e = .ok y →
      SvcGood p.reader p.offs U y ∧
      ∀ g, ∃ es, (∀ e ∈ es, SEv.Allowed U e) ∧ (from_ g).run p.reader p.offs es = .ok y := by
    intro e y hal hy
    refine ⟨?_, fun g => ?_⟩
    · obtain ⟨y', h1, h2⟩ := h.good.step sound hoffs e hal
      rw [hy] at h1; cases h1; exact h2
    · obtain ⟨es, h1, h2⟩ := h.reach g
      refine ⟨es ++ [e], fun e' he' => ?_, svc_snoc h2 hy⟩
      rcases List.mem_append.mp he' with he' | he'
      · exact h1 e' he'
      · rw [List.mem_singleton] at he'; subst he'; exact hal
  cases e with
  | other e =>
    rw [Srv.step] at hs
    obtain ⟨y, hy, hs⟩ := res_bind_inv hs
    cases hs
    obtain ⟨h1, h2⟩ := moves ha hy
    obtain ⟨h3, h4⟩ := other_lookups hy
    refine ⟨h1, h2, ?_, by rw [h.len, h3], h.nodup, by rw [h3]; exact h.asks, h.files⟩
    obtain ⟨E, qs, hL, hr⟩ := h.run
    exact ⟨E, qs, fun g => (hL g).before (svc_step_before hy), hr⟩
  | queue e =>
    cases e with
    | add g => obtain ⟨x', hx, hs⟩ := res_bind_inv hs; cases hs; exact quiet (fun _ e => by cases e) hx
    | push g => obtain ⟨x', hx, hs⟩ := res_bind_inv hs; cases hs; exact quiet (fun _ e => by cases e) hx
    | wait g => obtain ⟨x', hx, hs⟩ := res_bind_inv hs; cases hs; exact quiet (fun _ e => by cases e) hx
    | ret g => obtain ⟨x', hx, hs⟩ := res_bind_inv hs; cases hs; exact quiet (fun _ e => by cases e) hx
    | pop g => obtain ⟨x', hx, hs⟩ := res_bind_inv hs; cases hs; exact quiet (fun _ e => by cases e) hx
    | start g => obtain ⟨x', hx, hs⟩ := res_bind_inv hs; cases hs; exact quiet (fun _ e => by cases e) hx
    | work w =>
      rw [Srv.step, Srv.work.eq_def] at hs
      cases hask : s.x.asking w with
      | none =>
        rw [hask] at hs
        simp only [] at hs
        obtain ⟨x', hx, hs⟩ := res_bind_inv hs
        cases hs
        refine ⟨h.good, h.reach, ?_, h.len, h.nodup, ?_, files_stay hx h.files⟩
        · exact lived_work h.run hx (fun f os e => by rw [hask] at e; cases e) fromDisk (Disk.Before.refl _)
        · intro k w' l hk hl
          have hw' := h.asks k w' l hk hl
          refine asking_stays ht hx ?_ hw'
          intro e
          cases e
          rw [hask] at hw'; cases hw'
      | some a =>
        obtain ⟨f, os⟩ := a
        rw [hask] at hs
        simp only [] at hs
        have hU : U f := by
          obtain ⟨g, j, f', ks, -, hT, e⟩ := asking_inv hask
          cases e
          exact h.files g _ (List.mem_of_getElem? hT) f ks rfl
        by_cases hw : w ∈ s.holders
        · rw [if_pos hw] at hs
          obtain ⟨y, hy, hs⟩ := res_bind_inv hs
          obtain ⟨x', hx, hs⟩ := res_bind_inv hs
          cases hs
          have hk := idxOf_getElem? hw
          have hlt : s.holders.idxOf w < s.svc.sys.lookups.length := by
            rw [← h.len]; exact List.idxOf_lt_length_iff.mpr hw
          obtain ⟨l, hl⟩ : ∃ l, s.svc.sys.lookups[s.holders.idxOf w]? = some l := ⟨_, List.getElem?_eq_getElem hlt⟩
          generalize hi : s.holders.idxOf w = i at *
          obtain ⟨hd, hlk, han, hnu⟩ := answer_step hl hy
          have hal := h.asks i w l hk hl
          rw [hask] at hal
          cases hal
          obtain ⟨h1, h2⟩ := moves (e := .cache (.answer i)) trivial hy
          refine ⟨h1, h2, ?_, ?_, h.nodup.sublist (List.eraseIdx_sublist _ _), ?_, files_stay hx h.files⟩
          · refine lived_work (later := y.disk) ?_ hx ?_ fromDisk (by rw [hd]; exact Disk.Before.refl _)
            · rw [hd]; exact h.run
            · intro f os e
              rw [hask] at e
              cases e
              refine ⟨hU, fun g => ?_, hnu⟩
              obtain ⟨es, h3, h4⟩ := h.reach g
              obtain ⟨es', h5, h6⟩ := h2 g
              refine ⟨es', y, h5, h6, Disk.Before.refl _, ?_⟩
              rw [han]
              have hle : (from_ g).sys.answers.length ≤ s.svc.sys.answers.length := svc_run_answers h4
              rw [List.drop_append_of_le_length hle]
              exact List.mem_append_right _ (List.mem_singleton.mpr rfl)
          · rw [hlk, List.length_eraseIdx, List.length_eraseIdx, h.len]
          · intro k v l' hk' hl'
            simp only [] at hk' hl'
            rw [hlk] at hl'
            obtain ⟨k', hne, hk1, hsame⟩ := getElem?_eraseIdx_cases hk'
            rw [hsame] at hl'
            refine asking_stays ht hx ?_ (h.asks k' v l' hk1 hl')
            intro e
            cases e
            apply hne
            obtain ⟨a1, a2⟩ := List.getElem?_eq_some_iff.mp hk1
            obtain ⟨b1, b2⟩ := List.getElem?_eq_some_iff.mp hk
            exact (List.getElem_inj h.nodup).mp (a2.trans b2.symm)
        · rw [if_neg hw] at hs
          obtain ⟨y, hy, hs⟩ := res_bind_inv hs
          cases hs
          obtain ⟨hd, han, l, hlp, hlo, hlk⟩ := lookup_step hy
          obtain ⟨h1, h2⟩ := moves (e := .cache (.lookup f os)) hU hy
          refine ⟨h1, h2, ?_, ?_, ?_, ?_, h.files⟩
          · simp only [hd]; exact h.run
          · show (s.holders ++ [w]).length = y.sys.lookups.length
            rw [hlk, List.length_append, List.length_append, h.len]; rfl
          · rw [List.nodup_append]
            exact ⟨h.nodup, by simp, by intro a hin b hb e; rw [List.mem_singleton] at hb; rw [e, hb] at hin; exact hw hin⟩
          · intro k v l' hk' hl'
            simp only [] at hk' hl'
            rw [hlk] at hl'
            by_cases hlt : k < s.holders.length
            · rw [List.getElem?_append_left hlt] at hk'
              rw [List.getElem?_append_left (by rw [← h.len]; exact hlt)] at hl'
              exact h.asks k v l' hk' hl'
            · have hke : k = s.holders.length := by
                have := (List.getElem?_eq_some_iff.mp hk').1
                rw [List.length_append] at this
                simp at this
                omega
              subst hke
              rw [List.getElem?_concat_length] at hk'
              rw [h.len, List.getElem?_concat_length] at hl'
              cases hk'
              cases hl'
              rw [hlp, hlo]; exact hask

/-! ## Histories -/

/-- In a good state every lookup can be made. -/
theorem can_look {p : Site} {U : String → Prop} (sound : SoundReader p.reader) (hoffs : ∀ file, p.offs file ≠ undef)
    {s : Svc UInt64} (g : SvcGood p.reader p.offs U s) {f : String} (hf : U f) (os : List Nat) :
    ∃ r, LookedUp p U s s.disk f os r ∧ r ≠ undef := by
  obtain ⟨s1, h1, g1⟩ := g.step sound hoffs (.cache (.lookup f os)) hf
  obtain ⟨hd1, ha1, l, hlp, hlo, hlk⟩ := lookup_step h1
  obtain ⟨s2, h2, -⟩ := g1.step sound hoffs (.cache (.answer s.sys.lookups.length)) trivial
  obtain ⟨hd2, -, ha2, hr⟩ := answer_step (l := l) (by rw [hlk, List.getElem?_concat_length]) h2
  refine ⟨_, ⟨[.cache (.lookup f os), .cache (.answer s.sys.lookups.length)], s2, ?_, ?_, ?_, ?_⟩, hr⟩
  · intro e he
    rcases List.mem_cons.mp he with rfl | he
    · exact hf
    · rw [List.mem_singleton] at he; subst he; exact trivial
  · rw [Svc.run, h1, ok_bind, Svc.run, h2, ok_bind, Svc.run]
  · rw [hd2, hd1]; exact Disk.Before.refl _
  · rw [ha2, ha1, hlp, hlo, List.drop_left]; exact List.mem_singleton.mpr rfl

/-- A call that has done nothing has met nothing in particular. -/
theorem lived_any {p : Site} {U : String → Prop} (sound : SoundReader p.reader) (hoffs : ∀ file, p.offs file ≠ undef)
    {s : Svc UInt64} (good : SvcGood p.reader p.offs U s) (g : Nat) : ∃ E, Lived p U s s.disk g E := by
  have h : ∀ (f : String) (os : List Nat), ∃ r : Res (List Info), (U f → LookedUp p U s s.disk f os r ∧ r ≠ undef) ∧
      (¬ U f → r = throwExn .ioError) := by
    intro f os
    by_cases hf : U f
    · obtain ⟨r, hr⟩ := can_look sound hoffs good hf os
      exact ⟨r, fun _ => hr, fun h => absurd hf h⟩
    · exact ⟨throwExn .ioError, fun h => absurd h hf, fun _ => rfl⟩
  exact ⟨⟨(p.calls g).list, fun _ f os => Classical.choose (h f os), fun _ f o i is => p.jumpOn s.disk f o i is,
      fun _ u is => p.fetch u is, (p.calls g).forward⟩, rfl,
    fun _ f os hf => (Classical.choose_spec (h f os)).1 hf, fun _ f os hf => (Classical.choose_spec (h f os)).2 hf,
    fun _ _ _ _ _ => ⟨s.disk, Disk.Before.refl _, Disk.Before.refl _, rfl⟩, fun _ _ _ => rfl, rfl⟩

theorem SrvInv.start {p : Site} {U : String → Prop} (sound : SoundReader p.reader) (hoffs : ∀ file, p.offs file ≠ undef)
    {n : Nat} {P : Nat → ItemMap × List FTask} {d : Disk} {mode : CacheMode} {lazy : Bool} {cap : Nat} {fs : FS}
    (apart : ToldApart mode U) (room : 0 < cap) (agree : GoodIndex (diskWorld p.reader p.offs d) U mode fs)
    (files : ∀ g, ∀ T ∈ (P g).2, ∀ f ks, T.kind = .file f ks → U f) :
    SrvInv p U n P (fun _ => Svc.start p.reader p.offs d mode lazy cap fs) (Srv.start p n P d mode lazy cap fs) where
  good := SvcGood.start hoffs apart room agree
  reach g := ⟨[], (fun _ h => by cases h), rfl⟩
  run := by
    have h := fun g => lived_any sound hoffs (SvcGood.start (lazy := lazy) hoffs apart room agree) g
    exact ⟨fun g => Classical.choose (h g), [], fun g => Classical.choose_spec (h g), rfl⟩
  len := rfl
  nodup := List.nodup_nil
  asks k w l hk hl := by cases hk
  files := files

theorem SrvInv.ran {p : Site} {U : String → Prop} {n : Nat} {P : Nat → ItemMap × List FTask} {from_ : Nat → Svc UInt64}
    (sound : SoundReader p.reader) (hoffs : ∀ file, p.offs file ≠ undef) (fresh : ∀ g, ∀ T ∈ (P g).2, T.pc = .fresh)
    {es : List SrvEv} {s s' : Srv} (h : SrvInv p U n P from_ s) (ha : ∀ e ∈ es, SrvEv.Allowed U e)
    (hs : s.run p es = .ok s') : SrvInv p U n P from_ s' := by
  induction es generalizing s with
  | nil => cases hs; exact h
  | cons e es ih =>
    rw [Srv.run] at hs
    obtain ⟨s1, h1, h2⟩ := res_bind_inv hs
    exact ih (h.step sound hoffs fresh (ha e List.mem_cons_self) h1) (fun e he => ha e (List.mem_cons_of_mem _ he)) h2

theorem srv_append {p : Site} (es fs : List SrvEv) (s : Srv) :
    s.run p (es ++ fs) = s.run p es >>= fun s' => s'.run p fs := by
  induction es generalizing s with
  | nil => rfl
  | cons e es ih =>
    rw [List.cons_append, Srv.run, Srv.run]
    cases hs : s.step p e with
    | error f => rfl
    | ok s' => rw [ok_bind, ok_bind, ih]

/-- From now on, follow calls that have not begun from here. -/
def followed (from_ : Nat → Svc UInt64) (s : Srv) (g : Nat) : Svc UInt64 :=
  if (s.x.job g).time = 0 then s.svc else from_ g

theorem SrvInv.follow {p : Site} {U : String → Prop} {n : Nat} {P : Nat → ItemMap × List FTask} {from_ : Nat → Svc UInt64}
    (sound : SoundReader p.reader) (hoffs : ∀ file, p.offs file ≠ undef) {s : Srv} (h : SrvInv p U n P from_ s) :
    SrvInv p U n P (followed from_ s) s where
  good := h.good
  reach g := by
    by_cases ht : (s.x.job g).time = 0
    · rw [followed, if_pos ht]; exact ⟨[], (fun _ h => by cases h), rfl⟩
    · rw [followed, if_neg ht]; exact h.reach g
  run := by
    obtain ⟨E, qs, hL, hr⟩ := h.run
    have hd := fun g => lived_any sound hoffs h.good g
    refine ⟨fun g => if (s.x.job g).time = 0 then Classical.choose (hd g) else E g, qs, fun g => ?_, ?_⟩
    · by_cases ht : (s.x.job g).time = 0
      · simp only [followed, if_pos ht]; exact Classical.choose_spec (hd g)
      · simp only [followed, if_neg ht]; exact hL g
    · refine xrun_congr hr fun g t ht => ?_
      simp only [if_neg (show ¬ (s.x.job g).time = 0 by omega)]
      exact AgreeAt.refl _ _
  len := h.len
  nodup := h.nodup
  asks := h.asks
  files := h.files

/-! ## Calls -/

/-- What a call asks for. -/
inductive Asked where
  | fields (rs : List ExRequest)
  | paths (rs : List PathReq)

def Asked.call (E : ExtEnv) : Asked → Call
  | .fields rs => .fields E rs
  | .paths rs => .paths E rs

/-- All files that a call may get to are among these. -/
def Asked.Within (U : String → Prop) (E : ExtEnv) : Asked → Prop
  | .fields _ => ∀ u L, E.list u = .ok L → ∀ e ∈ L, U e.2.path
  | .paths rs => ∀ r ∈ rs, U r.path

theorem Asked.start_congr (a : Asked) {E E' : ExtEnv} (h : E.list = E'.list) (C : EngineConf) :
    (a.call E).start C = (a.call E').start C := by
  cases a with
  | fields rs => show callStart E C rs = callStart E' C rs; rw [callStart, callStart, h]
  | paths rs => rfl

theorem Asked.env (a : Asked) (E : ExtEnv) : (a.call E).env = E := by cases a <;> rfl

theorem addFile_keys {U : String → Prop} {fm : KeyMap} {f k : String} (hf : U f) (h : ∀ e ∈ fm, U e.1) :
    ∀ e ∈ addFile fm f k, U e.1 := by
  intro e he
  have hk : e.1 ∈ (addFile fm f k).keys := List.mem_map.mpr ⟨e, he, rfl⟩
  rw [addFile, AMap.keys_set] at hk
  split at hk
  · obtain ⟨e', h1, h2⟩ := List.mem_map.mp hk
    rw [← h2]; exact h e' h1
  · rcases List.mem_append.mp hk with hk | hk
    · obtain ⟨e', h1, h2⟩ := List.mem_map.mp hk
      rw [← h2]; exact h e' h1
    · rw [List.mem_singleton] at hk; rw [hk]; exact hf

theorem listLoop_files {U : String → Prop} {ig : Bool} {L : List (FdbKey × Uri)} :
    ∀ {m m' : ItemMap} {fm fm' : KeyMap} {n n' : Nat}, listLoop ig L m fm n = (m', fm', n') → (∀ e ∈ L, U e.2.path) →
      (∀ e ∈ fm, U e.1) → ∀ e ∈ fm', U e.1 := by
  induction L with
  | nil => intro m m' fm fm' n n' h _ hf; cases h; exact hf
  | cons x L ih =>
    obtain ⟨key, uri⟩ := x
    intro m m' fm fm' n n' h hL hf
    rw [listLoop] at h
    split at h
    · exact ih h (fun e he => hL e (List.mem_cons_of_mem _ he)) hf
    · exact ih h (fun e he => hL e (List.mem_cons_of_mem _ he)) (addFile_keys (hL _ List.mem_cons_self) hf)

theorem localTasks_files {C : EngineConf} {m : ItemMap} {fm : KeyMap} {U : String → Prop} (hf : ∀ e ∈ fm, U e.1) :
    ∀ {q : Bool} {ts : List FTask}, localTasks C m q fm = .ok ts → ∀ T ∈ ts, ∀ f ks, T.kind = .file f ks → U f := by
  induction fm with
  | nil => intro q ts h; cases h; intro T hT; cases hT
  | cons x fm ih =>
    obtain ⟨f, ks⟩ := x
    intro q ts h
    rw [localTasks] at h
    obtain ⟨u, -, h⟩ := res_bind_inv h
    have ih' := fun {q ts} => @ih (fun e he => hf e (List.mem_cons_of_mem _ he)) q ts
    split at h
    · split at h
      · obtain ⟨tl, h1, h⟩ := res_bind_inv h
        cases h
        intro T hT f' ks' hk
        rcases List.mem_cons.mp hT with rfl | hT
        · cases hk
        · exact ih' h1 T hT f' ks' hk
      · split at h <;> cases h
    · obtain ⟨tl, h1, h⟩ := res_bind_inv h
      cases h
      intro T hT f' ks' hk
      rcases List.mem_cons.mp hT with rfl | hT
      · cases hk; exact hf _ List.mem_cons_self
      · exact ih' h1 T hT f' ks' hk

theorem planned_files {C : EngineConf} {fwd : Bool} {m : ItemMap} {fm : KeyMap} {U : String → Prop}
    (hf : ∀ e ∈ fm, U e.1) {ts : List FTask} (h : plannedTasks C fwd m fm = .ok ts) :
    ∀ T ∈ ts, ∀ f ks, T.kind = .file f ks → U f := by
  rw [plannedTasks] at h
  split at h
  · obtain ⟨sm, -, h⟩ := res_bind_inv h
    cases h
    intro T hT f ks hk
    obtain ⟨e, -, rfl⟩ := List.mem_map.mp hT
    cases hk
  · exact localTasks_files hf h

theorem fromPaths_files {U : String → Prop} (m : ItemMap) (hm : ∀ e ∈ m, U e.2.uri.path) :
    ∀ (fm : KeyMap), (∀ e ∈ fm, U e.1) → ∀ e ∈ m.foldl (fun fm e => addFile fm e.2.uri.path e.1) fm, U e.1 := by
  induction m with
  | nil => intro fm hf; exact hf
  | cons x m ih =>
    intro fm hf
    exact ih (fun e he => hm e (List.mem_cons_of_mem _ he)) _ (addFile_keys (hm _ List.mem_cons_self) hf)

theorem pathMap_files {U : String → Prop} (rs : List PathReq) (hr : ∀ r ∈ rs, U r.path) :
    ∀ (m : ItemMap), (∀ e ∈ m, U e.2.uri.path) →
      ∀ e ∈ rs.foldl (fun (m : ItemMap) r => m.insert r.text
        { request := r.base, uri := ⟨r.scheme, r.host, r.port, r.path, r.offset⟩, result := some emptyResult }) m,
        U e.2.uri.path := by
  induction rs with
  | nil => intro m hm; exact hm
  | cons x rs ih =>
    intro m hm
    refine ih (fun r h => hr r (List.mem_cons_of_mem _ h)) _ ?_
    intro e he
    rcases mem_insert_cases _ _ _ _ he with he | he
    · exact hm e he
    · subst he; exact hr _ List.mem_cons_self

theorem Asked.files {a : Asked} {U : String → Prop} {E : ExtEnv} (h : a.Within U E) {C : EngineConf}
    {x : List ExRequest × ItemMap × List FTask} (hx : (a.call E).start C = .ok x) :
    ∀ T ∈ x.2.2, ∀ f ks, T.kind = .file f ks → U f := by
  cases a with
  | fields rs =>
    rw [Asked.call, Call.start, callStart] at hx
    obtain ⟨⟨rs', u, m⟩, -, hx⟩ := res_bind_inv hx
    obtain ⟨L, hL, hx⟩ := res_bind_inv hx
    obtain ⟨⟨m1, fm⟩, hfm, hx⟩ := res_bind_inv hx
    obtain ⟨ts, h1, hx⟩ := res_bind_inv hx
    cases hx
    refine planned_files ?_ h1
    simp only [fileMap] at hfm
    split at hfm
    · cases hfm
    · obtain ⟨e1, e2⟩ := Prod.mk.inj (Except.ok.inj hfm)
      rw [← e2]
      exact listLoop_files (m := m) (fm := []) (n := 0) (L := L) (ig := C.ignoreYearMonth) rfl (h u L hL)
        (fun e he => by cases he)
  | paths rs =>
    rw [Asked.call, Call.start] at hx
    obtain ⟨y, h1, hx⟩ := res_bind_inv hx
    cases hx
    rw [pathStart.eq_def] at h1
    split at h1
    · cases h1
    · obtain ⟨ts, h2, h1⟩ := res_bind_inv h1
      cases h1
      refine planned_files ?_ h2
      exact fromPaths_files _ (pathMap_files _ h [] (fun e he => by cases he)) [] (fun e he => by cases he)

/-! ## What a call gets -/

/-- Every call of the process was prepared, or failed before it had a task. -/
def Site.Prepared (p : Site) (asked : Nat → Asked) (x : Nat → List ExRequest × ItemMap × List FTask) : Prop :=
  GJ.Prepared p.conf (fun g => (asked g).call (p.calls g)) x

theorem Site.Prepared.of {p : Site} {asked : Nat → Asked} {x : Nat → List ExRequest × ItemMap × List FTask}
    (h : p.Prepared asked x) {E : Nat → ExtEnv} (hE : ∀ g, (E g).list = (p.calls g).list) :
    GJ.Prepared p.conf (fun g => (asked g).call (E g)) x := fun g => by
  rcases h g with h | h
  · exact Or.inl (by rw [← h]; exact (asked g).start_congr (hE g) _)
  · exact Or.inr h

theorem Site.Prepared.files {p : Site} {asked : Nat → Asked} {x : Nat → List ExRequest × ItemMap × List FTask}
    (h : p.Prepared asked x) {U : String → Prop} (within : ∀ g, (asked g).Within U (p.calls g)) (g : Nat) :
    ∀ T ∈ (x g).2.2, ∀ f ks, T.kind = .file f ks → U f := by
  rcases h g with h | h
  · exact Asked.files (within g) h
  · rw [h]; intro T hT; cases hT

/-- A call that has returned got what it gets alone in surroundings it has met. -/
theorem SrvInv.alone {p : Site} {U : String → Prop} {n : Nat} {asked : Nat → Asked}
    {x : Nat → List ExRequest × ItemMap × List FTask} {from_ : Nat → Svc UInt64} (prepared : p.Prepared asked x) {s : Srv}
    (h : SrvInv p U n (fun g => (x g).2) from_ s) {g : Nat} (returned : (s.x.t.grp g).phase = .returned) :
    ∃ E sched, Lived p U (from_ g) s.svc.disk g E ∧ ((asked g).call E).alone p.conf sched = s.x.outcome x g := by
  obtain ⟨E, qs, hL, hr⟩ := h.run
  have hrun : (XSys.of n x).run (fun g => ((asked g).call (E g)).env) p.conf qs = .ok s.x := by
    rw [show (fun g => ((asked g).call (E g)).env) = E from funext fun g => (asked g).env (E g)]
    exact hr
  obtain ⟨sched, hs⟩ := C71_calls_as_alone n p.conf _ x (prepared.of fun g => (hL g).list) qs s.x hrun g returned
  exact ⟨E g, sched, hL g, hs⟩

/-- If the tasks of a request succeed in all surroundings they can meet, none has failed or was cancelled. -/
theorem SrvInv.clean {p : Site} {U : String → Prop} {n : Nat} {P : Nat → ItemMap × List FTask} {from_ : Nat → Svc UInt64}
    (fresh : ∀ g, ∀ T ∈ (P g).2, T.pc = .fresh) {s : Srv} (h : SrvInv p U n P from_ s) {g : Nat}
    (succeeds : ∀ E, Lived p U (from_ g) s.svc.disk g E → ∀ sched, ∃ s, runTasks E p.conf (P g).1 (P g).2 sched = .ok s ∧
      s.errors = []) : (s.x.t.grp g).errors = [] ∧ .cancelled ∉ (s.x.t.grp g).tasks := by
  obtain ⟨E, hL, hi⟩ := h.x fresh
  have hrun := succeeds (E g) (hL g)
  have hne : (P g).2 ≠ [] := by
    intro e
    obtain ⟨s, h1, -⟩ := hrun []
    rw [e] at h1
    cases h1
  have herr : (s.x.t.grp g).errors = [] := by
    apply Classical.byContradiction
    intro he
    rw [← hi.errs g] at he
    obtain ⟨js, hj, -⟩ := hi.run g
    obtain ⟨s, h1, h2⟩ := hrun js
    rw [runTasks, decide_eq_true (List.length_pos_iff.mpr hne)] at h1
    have h1' : (FSys.run (E g) p.conf ⟨(P g).1, (P g).2, [], 0⟩ js >>= fun s => _) = .ok s := h1
    rw [hj, ok_bind] at h1'
    exact fsys_errors_grow h1' he h2
  exact ⟨herr, fun hc => (hi.t.grp g).canc hc herr⟩

/-- The tasks of a call that succeeds alone succeed. -/
theorem Asked.runs {a : Asked} {E : ExtEnv} {C : EngineConf} {x : List ExRequest × ItemMap × List FTask}
    (started : (a.call E).start C = .ok x) {sched : List Nat} {out : List WireResult}
    (h : (a.call E).alone C sched = .ok out) : ∃ s, runTasks E C x.2.1 x.2.2 sched = .ok s ∧ s.errors = [] := by
  rw [Call.alone_eq, started, ok_bind, a.env] at h
  obtain ⟨s, h1, h2⟩ := res_bind_inv h
  refine ⟨s, h1, ?_⟩
  apply Classical.byContradiction
  intro hne
  rw [callEnd, if_pos hne] at h2
  cases h2

/-- If a call succeeds in all surroundings it can meet, no task of it has failed or was cancelled. -/
theorem SrvInv.unharmed {p : Site} {U : String → Prop} {n : Nat} {asked : Nat → Asked}
    {x : Nat → List ExRequest × ItemMap × List FTask} {from_ : Nat → Svc UInt64} (prepared : p.Prepared asked x) {s : Srv}
    (h : SrvInv p U n (fun g => (x g).2) from_ s) {g : Nat} (started : ((asked g).call (p.calls g)).start p.conf = .ok (x g))
    (succeeds : ∀ E, Lived p U (from_ g) s.svc.disk g E → ∀ sched, ∃ out,
      ((asked g).call E).alone p.conf sched = .ok out) :
    (s.x.t.grp g).errors = [] ∧ .cancelled ∉ (s.x.t.grp g).tasks :=
  h.clean (fun g => prepared.fresh g) fun E hL sched => by
    obtain ⟨out, ho⟩ := succeeds E hL sched
    exact Asked.runs (by rw [(asked g).start_congr hL.list]; exact started) ho

/-! ## Values -/

/-- Extraction from bytes returns only what the extraction of `Direct` returns. -/
def Site.Faithful (p : Site) (S : Store) : Prop :=
  (∀ file o i is r, p.jump file o i is = .ok r → jumperExtract p.reader file o i is = .ok r) ∧
  (∀ u is r, p.fetch u is = .ok r → slowExtract p.reader S u is = .ok r)

/-- What a call met is honest. -/
theorem honest_of_lived {p : Site} {U : String → Prop} (sound : SoundReader p.reader)
    (hoffs : ∀ file, p.offs file ≠ undef) {start : Svc UInt64} (good : SvcGood p.reader p.offs U start) {d : Disk} {g : Nat}
    {E : ExtEnv} (h : Lived p U start d g E) {S : Store} (faithful : p.Faithful S) {stored : Uri → List UInt8}
    (store : ∀ u msg answers, S.read u = .ok (msg, answers) → msg = stored u ∧ S.length u = some msg.length ∧
      AtOnce msg answers ∧ ∃ h, GoodMessage p.reader msg h)
    (peers : ∀ t server fm back, Addressed p.conf server fm → (p.calls g).forward t server fm = .ok back →
      ∀ f items, (f, items) ∈ fm → ∃ items', back.find f = some items' ∧ items'.length = items.length ∧
        ∀ (j : Nat) i i' r, items[j]? = some i → items'[j]? = some i' → i'.result = some r →
          FieldAt p.reader d stored i.uri i.request.ranges r) (dflt : WireResult) :
    Honest E p.conf (infoAt p.reader p.offs d) (contentOf p.reader d stored dflt) where
  infos t f os is hi := by
    by_cases hf : U f
    · obtain ⟨⟨es, s, h1, h2, h3, h4⟩, -⟩ := h.infos t f os hf
      obtain ⟨s', h5, g'⟩ := good.run sound hoffs es h1
      rw [h2] at h5
      cases h5
      rw [hi] at h4
      have := g'.cache.answers _ (List.mem_of_mem_drop h4) is rfl
      rw [g'.world] at this
      exact mapM_infoAt (extractInfos_grow (h3.grown sound) this)
    · rw [h.outside t f os hf] at hi; cases hi
  jump t u rs r hs hj := by
    obtain ⟨d', -, hb, he⟩ := h.jump t u.path u.offset (infoAt p.reader p.offs d u.path u.offset) rs
    rw [he] at hj
    apply FieldAt.content
    unfold FieldAt
    rw [if_neg hs]
    unfold Site.jumpOn at hj
    cases hd : d' u.path with
    | none => rw [hd] at hj; cases hj
    | some file =>
      rw [hd] at hj
      obtain ⟨more, hnow⟩ := hb _ _ hd
      refine ⟨_, hnow, ?_⟩
      have hx := jumperExtract_grown p.reader file more u.offset _ rs r (faithful.1 _ _ _ _ _ hj)
      cases hi : buildInfo p.reader (file ++ more) u.offset with
      | error e =>
        have : infoAt p.reader p.offs d u.path u.offset =
            .unsupported ⟨0, 0, 0, 0, 0, 0, 0, 0, 0, 0, 0, 0, 0, "", ""⟩ := by
          unfold infoAt diskWorld
          simp only [hnow, hi]
          rfl
        rw [this] at hx
        cases hx
      | ok i =>
        have : infoAt p.reader p.offs d u.path u.offset = i := by
          unfold infoAt diskWorld
          simp only [hnow, hi]
          rfl
        rw [this] at hx
        unfold messageExtract
        rw [hi, ok_bind]
        exact hx
  fetch t u rs r hf := by
    rw [h.fetch] at hf
    have hf := faithful.2 _ _ _ hf
    apply FieldAt.content
    unfold FieldAt
    by_cases hs : u.scheme = "fdb"
    · rw [if_pos hs]
      cases hr : S.read u with
      | error e =>
        unfold slowExtract at hf
        rw [if_neg (fun hn => hn hs)] at hf
        split at hf
        · cases hf
        · rw [hr, error_bind] at hf; cases hf
      | ok q =>
        obtain ⟨msg, answers⟩ := q
        obtain ⟨h1, h2, h3, hd, h4⟩ := store u msg answers hr
        subst h1
        rw [C46_fallback_equals_file_partial p.reader S u _ hd h4 hs h2 answers hr h3 (stored u) 0
          ⟨[], [], by simp, rfl⟩ rs] at hf
        exact hf
    · rw [(C46_other_locations_refused p.reader S u rs).1 hs] at hf
      cases hf
  forward t server fm back hk hb f items hm := by
    rw [h.forward] at hb
    obtain ⟨items', h1, h2, h3⟩ := peers t server fm back hk hb f items hm
    exact ⟨items', h1, h2, fun j i i' r a b c => (h3 j i i' r a b c).content dflt⟩

/-- The node as it is when a call is followed from `start` and meets `E`. -/
def Site.node (p : Site) (U : String → Prop) (S : Store) (start : Svc UInt64) (later : Disk) (E : ExtEnv) : Node :=
  ⟨E, p.conf, p.reader, p.offs, U, S, start, later⟩

theorem Lived.up {p : Site} {U : String → Prop} (sound : SoundReader p.reader) (hoffs : ∀ file, p.offs file ≠ undef)
    {S : Store} (exact_ : p.jump = jumperExtract p.reader ∧ p.fetch = slowExtract p.reader S) {start : Svc UInt64}
    {d : Disk} {g : Nat} {E : ExtEnv} (h : Lived p U start d g E)
    (began : (p.node U S start d E).Began) : (p.node U S start d E).Up where
  reader := sound
  offs := hoffs
  began := began
  infos t f os hf := (h.infos t f os hf).1
  jump t f o i is := by
    obtain ⟨d', h1, h2, h3⟩ := h.jump t f o i is
    refine ⟨d', h1, h2, ?_⟩
    show E.jump t f o i is = _
    rw [h3, Site.jumpOn, exact_.1]; rfl
  fetch t u is := by
    show E.fetch t u is = _
    rw [h.fetch, exact_.2]; rfl

end GJ
