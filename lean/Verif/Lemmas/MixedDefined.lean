import Verif.Lemmas.MixedScan

/-!
# Histories with scans: what they keep, and that they go on
-/

namespace GJ
open Spec

/-! ## Every step is defined -/

theorem stepIf_defined {t : TSys} (inv : TInv t) {a : Option TEv} (h : ∀ g, a ≠ some (.abandon g)) :
    ∃ t', t.stepIf a = .ok t' := by
  cases a with
  | none => exact ⟨t, rfl⟩
  | some a =>
    obtain ⟨t', h1, -⟩ := inv.step a fun g e => h g (by rw [e])
    exact ⟨t', h1⟩

theorem act_abandons {E : Nat → ExtEnv} {C : EngineConf} {s : XSys} {e : XEv} {a : Option TEv} {job : Nat → FSys}
    (h : s.act E C e = .ok (a, job)) (g : Nat) : a ≠ some (.abandon g) := by
  have := act_scope (E := E) (C := C) (s := s) (e := e) g
  rw [XSys.shadow.eq_def, h] at this
  intro ha
  rw [ha] at this
  exact this rfl

/-- A step of the calls is defined if the tasks allow it. -/
theorem xstep_ok {E : Nat → ExtEnv} {C : EngineConf} {s : XSys} (inv : TInv s.t) {e : XEv} {a : Option TEv}
    {job : Nat → FSys} (h : s.act E C e = .ok (a, job)) : ∃ s', s.step E C e = .ok s' := by
  obtain ⟨t', ht⟩ := stepIf_defined inv (act_abandons h)
  exact ⟨_, xstep_of h ht⟩

/-- A step of a worker busy with no scan is defined if it is for those who do not see scans. -/
theorem work_defined {M : MixSite} {s : Mix} (inv : TInv s.srv.x.t) {w : Nat}
    (hs : XEv.ofScan M.scan s.srv.x.t (.work w) = false)
    (h : ∃ y, (s.view M).step M.site (.queue (.work w)) = .ok y) : ∃ y, s.srv.step M.site (.queue (.work w)) = .ok y := by
  obtain ⟨y, h⟩ := h
  have hstep : ∀ {E : Nat → ExtEnv} {x'}, (s.srv.x.view M.scan).step E M.site.conf (.work w) = .ok x' →
      ∃ x', s.srv.x.step E M.site.conf (.work w) = .ok x' := by
    intro E x' hx
    obtain ⟨a, h1, -⟩ := step_inv hx
    rw [act_view hs] at h1
    exact xstep_ok inv h1
  rw [Srv.step, Srv.work.eq_def] at h ⊢
  rw [show (s.view M).x.asking w = s.srv.x.asking w from asking_view hs] at h
  cases hask : s.srv.x.asking w with
  | none =>
    rw [hask] at h
    obtain ⟨x', h1, -⟩ := res_bind_inv h
    obtain ⟨x2, h2⟩ := hstep h1
    have h2 : s.srv.x.step (M.site.env s.srv.svc.disk undef) M.site.conf (.work w) = .ok x2 := h2
    exact ⟨_, by simp only; rw [h2, ok_bind]⟩
  | some q =>
    obtain ⟨f, os⟩ := q
    rw [hask] at h
    simp only at h ⊢
    by_cases hw : w ∈ s.srv.holders
    · rw [if_pos (show w ∈ (s.view M).holders from hw)] at h
      rw [if_pos hw]
      obtain ⟨svc, h1, h2⟩ := res_bind_inv h
      obtain ⟨x', h3, -⟩ := res_bind_inv h2
      obtain ⟨x2, h4⟩ := hstep h3
      have h4 : s.srv.x.step (M.site.env s.srv.svc.disk (outcomeOf s.srv.svc svc)) M.site.conf (.work w) = .ok x2 := h4
      exact ⟨_, by
        rw [show s.srv.svc.step M.site.reader M.site.offs (.cache (.answer (s.srv.holders.idxOf w))) = .ok svc from h1, ok_bind,
          h4, ok_bind]⟩
    · rw [if_neg (show w ∉ (s.view M).holders from hw)] at h
      rw [if_neg hw]
      obtain ⟨svc, h1, -⟩ := res_bind_inv h
      exact ⟨_, by rw [show s.srv.svc.step M.site.reader M.site.offs (.cache (.lookup f os)) = .ok svc from h1, ok_bind]⟩

theorem plain_defined {M : MixSite} {s : Mix} {e : SrvEv} (h : ∃ y, s.srv.step M.site e = .ok y) :
    ∃ s', s.plain M e = .ok s' := by
  obtain ⟨y, h⟩ := h
  exact ⟨_, by rw [Mix.plain, h, ok_bind]⟩

theorem group_defined {s : Mix} (inv : TInv s.srv.x.t) {a : Option TEv} (h : ∀ g, a ≠ some (.abandon g)) :
    ∃ s', s.group a = .ok s' := by
  obtain ⟨t', ht⟩ := stepIf_defined inv h
  exact ⟨_, by rw [Mix.group, ht, ok_bind]⟩

theorem scanFail_defined {s : Mix} (inv : TInv s.srv.x.t) (g j w : Nat) (k : ScanKind) : ∃ s', s.scanFail g j w k = .ok s' := by
  obtain ⟨t', ht, -⟩ := inv.step (.fail w "error") (fun g e => by cases e)
  exact ⟨_, by rw [Mix.scanFail, ht, ok_bind]⟩

/-- The task of a scan that a worker executes. -/
theorem scan_running {M : MixSite} {E : Nat → ExtEnv} {C : EngineConf} {P : Nat → ItemMap × List FTask} {s : Mix}
    (inv : XInv E C P (s.calls M)) {w g j : Nat} (hg : M.scan g = true)
    (hw : s.srv.x.t.workers[w]? = some (.running g j)) : ∃ T, (s.jobs g).tasks[j]? = some T ∧ T.2 ≠ .failed := by
  have hr : (s.srv.x.t.grp g).tasks[j]? = some .executing := inv.t.running hw
  have hlen := inv.len g
  rw [fake_job hg] at hlen
  have hlt : j < (s.jobs g).tasks.length := by
    have h1 := (List.getElem?_eq_some_iff.mp hr).1
    have h2 : (s.srv.x.t.grp g).tasks.length ≤ ((s.jobs g).tasks.map fakeTask).length := hlen
    rw [List.length_map] at h2
    omega
  refine ⟨(s.jobs g).tasks[j], List.getElem?_eq_getElem hlt, fun e => ?_⟩
  have := inv.pcs g j (fakeTask (s.jobs g).tasks[j]) (by
    rw [fake_job hg]
    show ((s.jobs g).tasks.map fakeTask)[j]? = _
    rw [List.getElem?_map, List.getElem?_eq_getElem hlt]; rfl)
  rw [show ((s.calls M).t.grp g).tasks[j]? = some .executing from hr] at this
  exact this (by rw [fakeTask, e]; rfl)

/-- A step is defined if what others answer is, and what those who extract do. -/
theorem mix_defined_of {M : MixSite} {U : String → Prop} {E : Nat → ExtEnv} {C : EngineConf}
    {P : Nat → ItemMap × List FTask} {s : Mix} (sound : SoundReader M.site.reader)
    (hoffs : ∀ file, M.site.offs file ≠ undef) (within : M.Within U) (inv : XInv E C P (s.calls M))
    (good : SvcGood M.site.reader M.site.offs U s.srv.svc) (kinds : s.Kinds M) (direct : s.Direct) {e : SrvEv}
    (forward : ∀ (w g j : Nat) (server : String × Int) (files : ScanMap), e = .queue (.work w) →
      s.srv.x.t.workers[w]? = some (.running g j) → M.scan g = true →
      (s.jobs g).tasks[j]? = some (.forward server files, .fresh) → M.forward g (s.jobs g).time server files ≠ undef)
    (ha : e.Allowed U)
    (seen : ∀ w, e = .queue (.work w) → XEv.ofScan M.scan s.srv.x.t (.work w) = false → ∃ y, (s.view M).step M.site e = .ok y) :
    ∃ s', s.step M e = .ok s' := by
  have tinv : TInv s.srv.x.t := inv.t
  rw [Mix.step.eq_def]
  split
  · rename_i g
    split
    · refine group_defined tinv fun k => ?_
      split <;> (intro e; cases e)
    · exact plain_defined (by
        obtain ⟨x', hx⟩ := xstep_ok (E := M.site.env s.srv.svc.disk undef) (C := M.site.conf) tinv (e := .add g) rfl
        exact ⟨_, by rw [Srv.step, hx, ok_bind]; intro _ e; cases e⟩)
  · rename_i g
    split
    · refine group_defined tinv fun k => ?_
      split <;> (intro e; cases e)
    · exact plain_defined (by
        obtain ⟨x', hx⟩ := xstep_ok (E := M.site.env s.srv.svc.disk undef) (C := M.site.conf) tinv (e := .wait g) rfl
        exact ⟨_, by rw [Srv.step, hx, ok_bind]; intro _ e; cases e⟩)
  · rename_i w
    split
    · rename_i g j hr
      split
      · rename_i hg
        obtain ⟨⟨k, a⟩, hj, hf⟩ := scan_running inv hg hr
        rw [Mix.scanWork.eq_def]
        split
        · exact group_defined tinv (fun k e => by cases e)
        · rename_i path os hj
          rw [Mix.scanRead]
          obtain ⟨svc, h1, -⟩ := good.step sound hoffs (scanRequest path os).on
            (scanRequest_allowed (kinds.file within hj) os)
          rw [h1, ok_bind]
          split
          · exact ⟨_, rfl⟩
          · exact scanFail_defined (s := ⟨⟨s.srv.x, svc, s.srv.holders⟩, s.jobs, s.scanners⟩) tinv g j w _
        · rename_i path os hj
          rw [Mix.scanWrite]
          obtain ⟨svc, h1, -⟩ := good.step sound hoffs (.cache (.commit (s.scanners.idxOf (some w)))) trivial
          simp only [h1]
          exact ⟨_, rfl⟩
        · rename_i server files hj
          rw [Mix.scanAsk]
          split
          · exact ⟨_, rfl⟩
          · rename_i hu; exact absurd hu (forward w g j server files rfl hr hg hj)
          · exact scanFail_defined tinv _ _ _ _
        · rename_i h1 h2 h3 h4
          exfalso
          cases a with
          | done n => exact h1 _ _ hj
          | failed => exact hf rfl
          | fresh =>
            cases k with
            | file path os => exact h2 _ _ hj
            | forward server files => exact h4 _ _ hj
          | planned =>
            cases k with
            | file path os => exact h3 _ _ hj
            | forward server files =>
              obtain ⟨path, os, e⟩ := direct g _ (List.mem_of_getElem? hj) rfl
              cases e
      · rename_i hg
        have hq : XEv.ofScan M.scan s.srv.x.t (.work w) = false := by
          rw [XEv.ofScan, hr]
          simpa [WPc.group] using hg
        exact plain_defined (work_defined tinv hq (seen w rfl hq))
    · rename_i hnr
      refine plain_defined ?_
      have ha : s.srv.x.asking w = none := by
        rw [XSys.asking.eq_def]
        split
        · rename_i g j hr; exact absurd hr (hnr _ _)
        · rfl
      obtain ⟨x', hx⟩ : ∃ x', s.srv.x.step (M.site.env s.srv.svc.disk undef) M.site.conf (.work w) = .ok x' := by
        refine xstep_ok (a := none) (job := s.srv.x.job) tinv ?_
        rw [XSys.act.eq_def]
        simp only
      exact ⟨_, by rw [Srv.step, Srv.work.eq_def, ha]; simp only; rw [hx, ok_bind]⟩
  · rename_i k
    split
    · obtain ⟨svc, h1, -⟩ := good.step sound hoffs (OEv.commit k).on ha
      exact ⟨_, by rw [Srv.step, h1, ok_bind]; rfl⟩
    · exact ⟨_, rfl⟩
  · rename_i o _
    obtain ⟨svc, h1, -⟩ := good.step sound hoffs o.on ha
    exact ⟨_, by rw [Srv.step, h1, ok_bind]; rfl⟩
  · rename_i q h1 h2 h3
    refine plain_defined ?_
    cases q with
    | add g => exact absurd rfl (h1 g)
    | wait g => exact absurd rfl (h2 g)
    | work w => exact absurd rfl (h3 w)
    | push g =>
      obtain ⟨x', hx⟩ := xstep_ok (E := M.site.env s.srv.svc.disk undef) (C := M.site.conf) tinv (e := .push g) rfl
      exact ⟨_, by rw [Srv.step, hx, ok_bind]; intro _ e; cases e⟩
    | ret g =>
      obtain ⟨x', hx⟩ := xstep_ok (E := M.site.env s.srv.svc.disk undef) (C := M.site.conf) tinv (e := .ret g) rfl
      exact ⟨_, by rw [Srv.step, hx, ok_bind]; intro _ e; cases e⟩
    | pop g =>
      obtain ⟨x', hx⟩ := xstep_ok (E := M.site.env s.srv.svc.disk undef) (C := M.site.conf) tinv (e := .pop g) rfl
      exact ⟨_, by rw [Srv.step, hx, ok_bind]; intro _ e; cases e⟩
    | start g =>
      obtain ⟨x', hx⟩ := xstep_ok (E := M.site.env s.srv.svc.disk undef) (C := M.site.conf) tinv (e := .start g) rfl
      exact ⟨_, by rw [Srv.step, hx, ok_bind]; intro _ e; cases e⟩

theorem mix_defined {M : MixSite} {U : String → Prop} {asked : Nat → Asked}
    {x : Nat → List ExRequest × ItemMap × List FTask} (sane : M.Sane U asked x) {n : Nat} {lazy : Bool} {s : Mix}
    (r : M.Reached U n x lazy s) (forward : ∀ g t server files, M.forward g t server files ≠ undef)
    {e : SrvEv} (ha : e.Allowed U) (seen : ∃ y, (s.view M).step M.site e = .ok y) : ∃ s', s.step M e = .ok s' := by
  obtain ⟨-, E, inv⟩ := r.calls sane
  obtain ⟨-, kinds, direct⟩ := r.parts sane
  exact mix_defined_of sane.site.reader sane.site.offs sane.within inv (r.good sane) kinds direct
    (fun _ _ _ _ _ _ _ _ _ => forward _ _ _ _) ha fun _ _ _ => seen

/-! ## What the scans have done -/

theorem start_scans (M : MixSite) (n : Nat) (P : Nat → ItemMap × List FTask) (d : Disk) (mode : CacheMode) (lazy : Bool)
    (cap : Nat) (fs : FS) (F : Nat → Nat → Nat → String × Int → ScanMap → Prop) (A : Mix → Prop) (Q : Mix → Mix → Prop) :
    ScansInv F M.scan M.site.reader M.site.offs A Q (Mix.start M n P d mode lazy cap fs) where
  len := rfl
  once i i' w h := by cases h
  owner i w h := by cases h
  held g j path os _ h := by
    obtain ⟨k, -, e⟩ := List.mem_map.mp (show _ ∈ ((M.scans g).getD []).map fun k => (k, ScanAt.fresh) from List.mem_of_getElem? h)
    cases e
  done g j n k h := by
    obtain ⟨k, -, e⟩ := List.mem_map.mp (show _ ∈ ((M.scans g).getD []).map fun k => (k, ScanAt.fresh) from List.mem_of_getElem? h)
    cases e
  count g := by
    show 0 = ((((M.scans g).getD []).map fun k => (k, ScanAt.fresh)).map fun T => T.2.added).sum
    rw [List.map_map]
    induction (M.scans g).getD [] with
    | nil => rfl
    | cons k l ih => rw [List.map_cons, List.sum_cons, ← ih]; rfl

/-- What the tasks of scans have done, in the whole history. -/
theorem scans_ran {M : MixSite} {U : String → Prop} {asked : Nat → Asked}
    {x : Nat → List ExRequest × ItemMap × List FTask} (sane : M.Sane U asked x) {n : Nat} {lazy : Bool} {start : Mix}
    (r : M.Reached U n x lazy start) (h0 : ∀ A Q, MixScanInv M A Q start) :
    ∀ (k : Nat) (es : List SrvEv) (s : Mix), es.length = k → (∀ e ∈ es, SrvEv.Allowed U e) → start.run M es = .ok s →
      MixScanInv M (fun y => Passed M start es y y ∧ Passed M start es y s) (Passed M start es) s := by
  intro k
  induction k with
  | zero => intro es s hk _ h; rw [List.length_eq_zero_iff.mp hk] at h ⊢; rw [← Except.ok.inj h]; exact h0 _ _
  | succ k ih =>
    intro es s hk ha h
    obtain ⟨es, e, rfl⟩ : ∃ es' e, es = es' ++ [e] := by
      refine ⟨es.dropLast, es.getLast (by intro e; rw [e] at hk; cases hk), (List.dropLast_concat_getLast _).symm⟩
    rw [mix_append] at h
    obtain ⟨y, h1, h2⟩ := res_bind_inv h
    have hstep : y.step M e = .ok s := by
      rw [Mix.run] at h2
      obtain ⟨z, h2, h3⟩ := res_bind_inv h2
      rw [h2]; exact h3
    have ha' : ∀ e ∈ es, SrvEv.Allowed U e := fun e he => ha e (List.mem_append_left _ he)
    have ry := r.ran ha' h1
    have inv := ih es y (by rw [List.length_append, List.length_singleton] at hk; omega) ha' h1
    obtain ⟨-, E, xinv⟩ := ry.calls sane
    have more : ∀ y z, Passed M start es y z → Passed M start (es ++ [e]) y z := by
      rintro y z ⟨es1, es2, es3, rfl, p1, p2⟩
      exact ⟨es1, es2, es3 ++ [e], by rw [List.append_assoc], p1, p2⟩
    have later : ∀ z, Passed M start es z y → Passed M start (es ++ [e]) z s := by
      rintro z ⟨es1, es2, es3, he, p1, p2⟩
      have h3 : z.run M (es2 ++ es3) = .ok y := by
        rw [he, List.append_assoc, mix_append, p1, ok_bind] at h1; exact h1
      refine ⟨es1, es2 ++ es3 ++ [e], [], by rw [he]; simp, p1, ?_⟩
      rw [mix_append, h3, ok_bind, Mix.run, hstep]; rfl
    have self : Passed M start (es ++ [e]) y y := ⟨es, [], [e], by simp, h1, rfl⟩
    refine inv.step (U := U) sane.within (ry.parts sane).2.1 xinv.t (ry.good sane) ?_ more ⟨self, ?_⟩ ?_
      (scan_step sane.site.reader sane.site.offs (ry.good sane) inv.len hstep)
    · intro z hz; exact ⟨more z z hz.1, later z hz.2⟩
    · exact ⟨es, [e], [], by simp, h1, by rw [Mix.run, hstep]; rfl⟩
    · intro z hz; exact ⟨more z z hz.1, later z hz.2⟩

/-- The tasks of a scan that has returned without an error are done. -/
theorem scan_all_done {M : MixSite} {E : Nat → ExtEnv} {C : EngineConf} {P : Nat → ItemMap × List FTask} {s : Mix}
    (inv : XInv E C P (s.calls M)) {g : Nat} (hg : M.scan g = true) (returned : (s.srv.x.t.grp g).phase = .returned)
    (clean : (s.srv.x.t.grp g).errors = []) {j : Nat} {T : ScanKind × ScanAt} (hj : (s.jobs g).tasks[j]? = some T) :
    ∃ n, T.2 = .done n := by
  have full := (inv.full g (.inr returned)).1
  rw [fake_job hg] at full
  have full : (s.srv.x.t.grp g).tasks.length = ((s.jobs g).tasks.map fakeTask).length := full
  rw [List.length_map] at full
  have hlt : j < (s.srv.x.t.grp g).tasks.length := by
    rw [full]; exact (List.getElem?_eq_some_iff.mp hj).1
  have pc := inv.pcs g j (fakeTask T) (by
    rw [fake_job hg]
    show ((s.jobs g).tasks.map fakeTask)[j]? = _
    rw [List.getElem?_map, hj]; rfl)
  have hnf : (s.srv.x.t.grp g).tasks.count .failed = 0 := by
    have := (inv.t.grp g).nfail
    rw [show ((s.calls M).t.grp g).errors = [] from clean] at this
    exact this
  rcases (inv.t.returned returned j).1 with h | h | h
  · have h : (s.srv.x.t.grp g).tasks[j]? = none := h
    rw [List.getElem?_eq_none_iff] at h; omega
  · rw [show ((s.calls M).t.grp g).tasks[j]? = some .done from h] at pc
    have pc : T.2.pc = .finished := pc
    cases hT : T.2 with
    | done n => exact ⟨n, rfl⟩
    | fresh => rw [hT] at pc; cases pc
    | planned => rw [hT] at pc; cases pc
    | failed => rw [hT] at pc; cases pc
  · have h : (s.srv.x.t.grp g).tasks[j]? = some .failed := h
    have : 0 < (s.srv.x.t.grp g).tasks.count .failed := List.count_pos_iff.mpr (List.mem_of_getElem? h)
    omega

/-! ## Failed tasks of scans -/

/-- A task of the scan has failed. -/
def ScanBroken (s : Mix) (g : Nat) : Prop := ∃ (j : Nat) (k : ScanKind), (s.jobs g).tasks[j]? = some (k, .failed)

/-- A scan has reported an error if a task of it has failed. -/
theorem scan_errors {M : MixSite} {E : Nat → ExtEnv} {C : EngineConf} {P : Nat → ItemMap × List FTask} {s : Mix}
    (inv : XInv E C P (s.calls M)) {g : Nat} (hg : M.scan g = true) :
    (s.srv.x.t.grp g).errors ≠ [] ↔ ScanBroken s g := by
  have hn : (s.srv.x.t.grp g).tasks.count .failed = (s.srv.x.t.grp g).errors.length := (inv.t.grp g).nfail
  have hlen := inv.len g
  rw [fake_job hg] at hlen
  have hlen : (s.srv.x.t.grp g).tasks.length ≤ ((s.jobs g).tasks.map fakeTask).length := hlen
  rw [List.length_map] at hlen
  have pcs : ∀ (j : Nat) (T : ScanKind × ScanAt), (s.jobs g).tasks[j]? = some T → PcOf (s.srv.x.t.grp g).tasks[j]? T.2.pc := by
    intro j T hj
    refine inv.pcs g j (fakeTask T) ?_
    rw [fake_job hg]
    show ((s.jobs g).tasks.map fakeTask)[j]? = _
    rw [List.getElem?_map, hj]; rfl
  constructor
  · intro h
    have hpos := List.length_pos_iff.mpr h
    rw [← hn] at hpos
    obtain ⟨j, hj⟩ := List.mem_iff_getElem?.mp (List.count_pos_iff.mp hpos)
    have hlt : j < (s.jobs g).tasks.length := by
      have := (List.getElem?_eq_some_iff.mp hj).1; omega
    have pc := pcs j _ (List.getElem?_eq_getElem hlt)
    rw [hj] at pc
    have pc : (s.jobs g).tasks[j].2.pc = .failed := pc
    refine ⟨j, (s.jobs g).tasks[j].1, ?_⟩
    rw [List.getElem?_eq_getElem hlt]
    cases hT : (s.jobs g).tasks[j] with
    | mk k a =>
      rw [hT] at pc
      cases a with
      | failed => rfl
      | fresh => cases pc
      | planned => cases pc
      | done m => cases pc
  · rintro ⟨j, k, hj⟩ he
    have pc := pcs j _ hj
    have : (s.srv.x.t.grp g).tasks[j]? = some .failed := by
      revert pc
      cases (s.srv.x.t.grp g).tasks[j]? with
      | none => intro h; cases h
      | some st =>
        cases st with
        | failed => intro _; rfl
        | pending => intro h; cases h
        | cancelled => intro h; cases h
        | executing => intro h; exact absurd rfl h
        | done => intro h; cases h
    have := List.count_pos_iff.mpr (List.mem_of_getElem? this)
    rw [hn, he] at this
    cases this

/-- Tasks fail in steps of this kind only, and stay failed. -/
theorem broken_step {M : MixSite} {e : SrvEv} {s s' : Mix} (h : ScanStep M e s s') (g : Nat) :
    (ScanBroken s g → ScanBroken s' g) ∧
    (ScanBroken s' g → ScanBroken s g ∨ ∃ (j : Nat) (k : ScanKind), (s.jobs g).tasks[j]? = some (k, .fresh) ∧
      ((∃ path os e, k = .file path os ∧ scanTaskPlan s.srv.svc.sys.W s.srv.svc.sys.c path os = throwExn e) ∨
        (∃ server files e, k = .forward server files ∧ M.forward g (s.jobs g).time server files = throwExn e) ∧
          ∃ w, e = .queue (.work w) ∧ s.srv.x.t.workers[w]? = some (.running g j))) := by
  have set : ∀ {i j : Nat} {k : ScanKind} {a b : ScanAt}, (s.jobs i).tasks[j]? = some (k, a) → a ≠ .failed → b ≠ .failed →
      (s'.jobs i).tasks = (s.jobs i).tasks.set j (k, b) → (∀ l, l ≠ i → s'.jobs l = s.jobs l) →
      (ScanBroken s' g ↔ ScanBroken s g) := by
    intro i j k a b hj ha hb hs hr
    by_cases hi : g = i
    · subst hi
      constructor
      · rintro ⟨l, k', hl⟩
        rw [hs, getElem?_set' _ _ _ _ _ hj] at hl
        split at hl
        · exact absurd (Prod.mk.inj (Option.some.inj hl)).2 hb
        · exact ⟨l, k', hl⟩
      · rintro ⟨l, k', hl⟩
        refine ⟨l, k', ?_⟩
        rw [hs, getElem?_set' _ _ _ _ _ hj, if_neg]
        · exact hl
        · rintro rfl
          rw [hj] at hl
          exact ha (Prod.mk.inj (Option.some.inj hl)).2
    · unfold ScanBroken
      rw [hr g hi]
  cases h with
  | quiet ext jobs => unfold ScanBroken; rw [jobs]; exact ⟨id, .inl⟩
  | others k jobs => unfold ScanBroken; rw [jobs]; exact ⟨id, .inl⟩
  | read w i j path os pl scan running task plan scanners scans t rest job =>
    have := set task (by simp) (b := .planned) (by simp) (by rw [job]) rest
    exact ⟨this.mpr, fun h => .inl (this.mp h)⟩
  | write w i j path os k n scan running task place number commit scanners t rest job =>
    have := set task (by simp) (b := .done n) (by simp) (by rw [job]) rest
    exact ⟨this.mpr, fun h => .inl (this.mp h)⟩
  | ask w i j server files n event scan running task answer scanners svc t rest job =>
    have := set task (by simp) (b := .done n) (by simp) (by rw [job]) rest
    exact ⟨this.mpr, fun h => .inl (this.mp h)⟩
  | failed w i j k event scan running task scanners scans t rest job why =>
    by_cases hi : g = i
    · subst hi
      refine ⟨fun _ => ⟨j, k, ?_⟩, fun _ => .inr ⟨j, k, task, why.imp id fun h => ⟨h, w, event, running⟩⟩⟩
      rw [job]
      exact List.getElem?_set_self (List.getElem?_eq_some_iff.mp task).1
    · unfold ScanBroken
      rw [rest g hi]
      exact ⟨id, .inl⟩

/-- Files only grow. -/
theorem mix_disk {M : MixSite} {U : String → Prop} {asked : Nat → Asked}
    {x : Nat → List ExRequest × ItemMap × List FTask} (sane : M.Sane U asked x) {n : Nat} {lazy : Bool} {s s' : Mix}
    (r : M.Reached U n x lazy s) {e : SrvEv} (ha : e.Allowed U) (h : s.step M e = .ok s') :
    s.srv.svc.disk.Before s'.srv.svc.disk := by
  rcases view_step sane.site.reader sane.site.offs (r.good sane) sane.within (r.parts sane).2.1 ha h with hv | ⟨f, -, hv⟩
  · have : (s'.view M).svc = (s.view M).svc := by rw [hv]
    have : s'.srv.svc = s.srv.svc := this
    rw [this]; exact Disk.Before.refl _
  · have := srv_disk hv
    rw [show s'.srv.svc.disk = f.grow s.srv.svc.disk from this]
    exact grow_before _ _

/-- Messages that can be read stay readable. -/
theorem readable_stays {R : Reader UInt64} (sound : SoundReader R) {offs : List UInt8 → Res (List Nat)} {y z : Svc UInt64}
    (h : y.disk.Before z.disk) {path : String} {os : List Nat} (hos : os ≠ []) (r : Readable R offs y path os) :
    Readable R offs z path os := by
  obtain ⟨l, h1, h2⟩ := r
  rw [scanned, if_neg hos] at h1
  refine ⟨l, by rw [scanned, if_neg hos]; exact h1, fun o ho => ?_⟩
  obtain ⟨i, hi⟩ := h2 o ho
  exact ⟨i, h.grown sound path o i hi⟩

end GJ
