import Verif.Lemmas.Mixed

/-!
# Scans as calls

For the groups, a scan of a file is a task of two steps, of which the first may throw, and a forwarded scan is a task of one
step.  So a history with scans is one of calls on a queue (C71), with stand-ins for the scans.
-/

namespace GJ
open Spec

/-- A task with the same steps. -/
def ScanKind.fake : ScanKind → FKind
  | .file path _ => .file path []
  | .forward server _ => .forward server []

def ScanAt.pc : ScanAt → FPc
  | .fresh => .fresh
  | .planned => .work []
  | .done _ => .finished
  | .failed => .failed

def fakeTask (T : ScanKind × ScanAt) : FTask := ⟨T.1.fake, T.2.pc⟩

/-- A call with the same tasks. -/
def fakeCall (J : ScanJob) (errors : List String) : FSys := ⟨[], J.tasks.map fakeTask, errors, J.time⟩

/-- The calls, with stand-ins for the scans. -/
def Mix.calls (M : MixSite) (s : Mix) : XSys :=
  ⟨s.srv.x.t, fun g => if M.scan g then fakeCall (s.jobs g) (s.srv.x.t.grp g).errors else s.srv.x.job g⟩

/-- The worker executes a task of a scan. -/
def Mix.scanning (M : MixSite) (s : Mix) (w : Nat) : Bool := match s.srv.x.t.workers[w]? with
  | some (.running g _) => M.scan g
  | _ => false

/-- The step of the calls that a step is. -/
def Mix.part (M : MixSite) (n : Nat) (s : Mix) : SrvEv → XEv
  | .queue (.work w) => if s.scanning M w then .work w else s.srv.part n (.queue (.work w))
  | e => s.srv.part n e

/-- What a scan meets in a step. -/
def scanEnv (E : ExtEnv) (failed : Bool) : ExtEnv :=
  ⟨E.list, fun _ _ _ => if failed then throwExn .gribJump else .ok [], E.jump, E.fetch,
    fun _ _ _ => if failed then throwExn .gribJump else .ok []⟩

/-- What calls meet in a step. -/
def mixEnv (M : MixSite) (s s' : Mix) (g : Nat) : ExtEnv :=
  if M.scan g then scanEnv (M.site.calls g) (decide ((s'.srv.x.t.grp g).errors ≠ (s.srv.x.t.grp g).errors))
  else M.site.env s.srv.svc.disk (outcomeOf s.srv.svc s'.srv.svc) g

/-- Errors are reported by workers that execute a task of the group. -/
theorem shared_errors_stay {t t' : TSys} {a : TEv} (h : t.step a = .ok t') (hab : ∀ g, a ≠ .abandon g) (g : Nat)
    (hf : ∀ w msg j, a = .fail w msg → t.workers[w]? ≠ some (.running g j)) : (t'.grp g).errors = (t.grp g).errors := by
  cases a with
  | add k => rw [← Except.ok.inj h]; exact (add_calm t k).errs g
  | wait k => rw [← Except.ok.inj h]; exact (wait_calm t k).errs g
  | ret k => rw [← Except.ok.inj h]; exact (ret_calm t k).errs g
  | abandon k => exact absurd rfl (hab k)
  | push k => exact (push_calm h).1.errs g
  | pop w => exact (pop_calm h).1.errs g
  | start w => exact (start_calm h).1.errs g
  | finish w =>
    by_cases hr : ∃ k j, t.workers[w]? = some (.running k j)
    · obtain ⟨k, j, hr⟩ := hr
      rw [(finish_grp hr h g).1]
      split
      · rename_i e; rw [e]
      · rfl
    · have h : stepFinish t w = .ok t' := h
      rw [stepFinish.eq_def] at h
      split at h
      · rename_i k j hw; exact absurd ⟨k, j, hw⟩ hr
      · rw [Except.ok.inj h]
  | fail w msg =>
    by_cases hr : ∃ k j, t.workers[w]? = some (.running k j)
    · obtain ⟨k, j, hr⟩ := hr
      rw [(fail_grp hr h g).1]
      split
      · rename_i e; subst e; exact absurd hr (hf w msg j rfl)
      · rfl
    · have h : stepFail t w msg = .ok t' := h
      rw [stepFail.eq_def] at h
      split at h
      · rename_i k j hw; exact absurd ⟨k, j, hw⟩ hr
      · rw [Except.ok.inj h]

/-- The event is not one of a scan that depends on its tasks. -/
def XEv.Own (M : MixSite) (s : Mix) : XEv → Prop
  | .add g | .wait g => M.scan g = false
  | .work w => s.scanning M w = false
  | _ => True

theorem act_own {M : MixSite} {s : Mix} {E E' : Nat → ExtEnv} {C : EngineConf} {q : XEv} {a : Option TEv} {job : Nat → FSys}
    (own : q.Own M s) (env : ∀ g, M.scan g = false → E' g = E g) (h : s.srv.x.act E C q = .ok (a, job)) :
    (s.calls M).act E' C q = .ok (a, fun g => if M.scan g then fakeCall (s.jobs g) (s.srv.x.t.grp g).errors else job g) ∧
    (∀ g, a ≠ some (.abandon g)) ∧
    (∀ w msg g j, a = some (.fail w msg) → s.srv.x.t.workers[w]? = some (.running g j) → M.scan g = false) := by
  have hjob : ∀ g, M.scan g = false → (s.calls M).job g = s.srv.x.job g := fun g hg => by
    show (if M.scan g then _ else _) = _
    rw [hg]; rfl
  have same : ∀ {b : Option TEv}, (.ok (b, s.srv.x.job) : Res (Option TEv × (Nat → FSys))) = .ok (a, job) →
      (.ok (b, (s.calls M).job) : Res (Option TEv × (Nat → FSys))) =
        .ok (a, fun g => if M.scan g then fakeCall (s.jobs g) (s.srv.x.t.grp g).errors else job g) := fun h => by
    rw [← (Prod.mk.inj (Except.ok.inj h)).1, ← (Prod.mk.inj (Except.ok.inj h)).2]; rfl
  cases q with
  | add g =>
    have own : M.scan g = false := own
    refine ⟨?_, ?_, ?_⟩
    · rw [XSys.act, hjob g own]; exact same h
    · intro k e
      have h' : (if _ then some (TEv.add g) else none) = a := (Prod.mk.inj (Except.ok.inj h)).1
      rw [e] at h'; split at h' <;> cases h'
    · intro w msg k j e
      have h' : (if _ then some (TEv.add g) else none) = a := (Prod.mk.inj (Except.ok.inj h)).1
      rw [e] at h'; split at h' <;> cases h'
  | wait g =>
    have own : M.scan g = false := own
    refine ⟨?_, ?_, ?_⟩
    · rw [XSys.act, hjob g own]; exact same h
    · intro k e
      have h' : (if _ then some (TEv.wait g) else none) = a := (Prod.mk.inj (Except.ok.inj h)).1
      rw [e] at h'; split at h' <;> cases h'
    · intro w msg k j e
      have h' : (if _ then some (TEv.wait g) else none) = a := (Prod.mk.inj (Except.ok.inj h)).1
      rw [e] at h'; split at h' <;> cases h'
  | push g =>
    refine ⟨same h, ?_, ?_⟩ <;> rw [← (Prod.mk.inj (Except.ok.inj h)).1]
    · intro k e; cases e
    · intro w msg k j e; cases e
  | ret g =>
    refine ⟨same h, ?_, ?_⟩ <;> rw [← (Prod.mk.inj (Except.ok.inj h)).1]
    · intro k e; cases e
    · intro w msg k j e; cases e
  | pop g =>
    refine ⟨same h, ?_, ?_⟩ <;> rw [← (Prod.mk.inj (Except.ok.inj h)).1]
    · intro k e; cases e
    · intro w msg k j e; cases e
  | start g =>
    refine ⟨same h, ?_, ?_⟩ <;> rw [← (Prod.mk.inj (Except.ok.inj h)).1]
    · intro k e; cases e
    · intro w msg k j e; cases e
  | work w =>
    have own : s.scanning M w = false := own
    have htt : (s.calls M).t = s.srv.x.t := rfl
    rw [XSys.act.eq_def] at h ⊢
    simp only [htt] at h ⊢
    rw [Mix.scanning] at own
    cases hw : s.srv.x.t.workers[w]? with
    | none =>
      rw [hw] at h
      refine ⟨same h, ?_, ?_⟩ <;> rw [← (Prod.mk.inj (Except.ok.inj h)).1]
      · intro k e; cases e
      · intro w msg k j e; cases e
    | some p =>
      rw [hw] at h own
      cases p with
      | idle =>
        refine ⟨same h, ?_, ?_⟩ <;> rw [← (Prod.mk.inj (Except.ok.inj h)).1]
        · intro k e; cases e
        · intro w msg k j e; cases e
      | got a b =>
        refine ⟨same h, ?_, ?_⟩ <;> rw [← (Prod.mk.inj (Except.ok.inj h)).1]
        · intro k e; cases e
        · intro w msg k j e; cases e
      | running g j =>
        have own : M.scan g = false := own
        have set : ∀ f : FSys, setJob (s.calls M).job g f =
            fun k => if M.scan k then fakeCall (s.jobs k) (s.srv.x.t.grp k).errors else setJob s.srv.x.job g f k := by
          intro f
          funext k
          by_cases hk : k = g
          · subst hk; rw [setJob_self, own, setJob_self]; rfl
          · rw [setJob_ne _ _ hk, setJob_ne _ _ hk]; rfl
        simp only [hjob g own, env g own] at h ⊢
        split at h
        · cases h
        · rename_i T hT
          split at h
          · rename_i hp
            rw [if_pos hp]
            refine ⟨same h, ?_, ?_⟩ <;> rw [← (Prod.mk.inj (Except.ok.inj h)).1]
            · intro k e; cases e
            · intro w msg k j e; cases e
          · rename_i hp
            rw [if_neg hp]
            split at h
            · refine ⟨?_, ?_, ?_⟩ <;> rw [← (Prod.mk.inj (Except.ok.inj h)).1]
              · rw [← (Prod.mk.inj (Except.ok.inj h)).2, set]
              · intro k e; cases e
              · intro w msg k j e; cases e
            · cases h
            · refine ⟨?_, ?_, ?_⟩ <;> rw [← (Prod.mk.inj (Except.ok.inj h)).1]
              · rw [← (Prod.mk.inj (Except.ok.inj h)).2, set]
              · intro k e; cases e
              · intro v msg k i e hv
                cases e
                rw [hw] at hv
                cases hv
                exact own

/-- A step of the calls of the process that is not one of a scan. -/
theorem calls_own {M : MixSite} {s : Mix} {x' : XSys} {E E' : Nat → ExtEnv} {C : EngineConf} {q : XEv}
    (own : q.Own M s) (env : ∀ g, M.scan g = false → E' g = E g) (h : s.srv.x.step E C q = .ok x') (svc : Svc UInt64)
    (hs : List Nat) (sc : List (Option Nat)) :
    (s.calls M).step E' C q = .ok ((⟨⟨x', svc, hs⟩, s.jobs, sc⟩ : Mix).calls M) := by
  obtain ⟨a, h1, h2⟩ := step_inv h
  obtain ⟨k1, k2, k3⟩ := act_own own env h1
  have he : ∀ g, M.scan g = true → (x'.t.grp g).errors = (s.srv.x.t.grp g).errors := by
    intro g hg
    cases a with
    | none => rw [show x'.t = s.srv.x.t from (Except.ok.inj h2).symm]
    | some a =>
      refine shared_errors_stay h2 (fun k e => k2 k (by rw [e])) g fun w msg j e hw => ?_
      have := k3 w msg g j (by rw [e]) hw
      rw [hg] at this; cases this
  refine (xstep_of k1 h2).trans ?_
  congr 1
  show (⟨x'.t, _⟩ : XSys) = ⟨x'.t, _⟩
  congr 1
  funext g
  by_cases hg : M.scan g = true
  · show (if M.scan g then _ else _) = if M.scan g then _ else _
    rw [if_pos hg, if_pos hg, he g hg]
  · show (if M.scan g then _ else _) = if M.scan g then _ else _
    rw [if_neg hg, if_neg hg]

/-! ## The steps of scans -/

theorem fake_job {M : MixSite} {s : Mix} {g : Nat} (hg : M.scan g = true) :
    (s.calls M).job g = fakeCall (s.jobs g) (s.srv.x.t.grp g).errors := if_pos hg

/-- The groups change and the tasks of scans do not. -/
theorem group_calls {M : MixSite} {s s' : Mix} {a : Option TEv} (h : s.group a = .ok s') (hab : ∀ g, a ≠ some (.abandon g))
    (hf : ∀ w msg, a ≠ some (.fail w msg)) : s.srv.x.t.stepIf a = .ok s'.srv.x.t ∧ s'.calls M = ⟨s'.srv.x.t, (s.calls M).job⟩ := by
  rw [Mix.group] at h
  obtain ⟨t, h1, h2⟩ := res_bind_inv h
  have e := Except.ok.inj h2
  rw [← e]
  refine ⟨h1, ?_⟩
  show (⟨t, _⟩ : XSys) = ⟨t, _⟩
  congr 1
  funext g
  have he : (t.grp g).errors = (s.srv.x.t.grp g).errors := by
    cases a with
    | none => rw [show t = s.srv.x.t from (Except.ok.inj h1).symm]
    | some a => exact shared_errors_stay h1 (fun k e => hab k (by rw [e])) g fun w msg j e => absurd (by rw [e]) (hf w msg)
  show (if M.scan g then fakeCall (s.jobs g) (t.grp g).errors else _) = if M.scan g then _ else _
  rw [he]; rfl

theorem scanFail_calls {M : MixSite} {s s' : Mix} {g j w : Nat} {k : ScanKind} {a : ScanAt} (h : s.scanFail g j w k = .ok s')
    (hg : M.scan g = true) (hw : s.srv.x.t.workers[w]? = some (.running g j)) (hj : (s.jobs g).tasks[j]? = some (k, a)) :
    s.srv.x.t.step (.fail w "error") = .ok s'.srv.x.t ∧ (s'.srv.x.t.grp g).errors = (s.srv.x.t.grp g).errors ++ ["error"] ∧
    s'.calls M = ⟨s'.srv.x.t, setJob (s.calls M).job g
      ⟨[], ((s.jobs g).tasks.map fakeTask).set j ⟨k.fake, .failed⟩, (s.srv.x.t.grp g).errors ++ ["error"], (s.jobs g).time + 1⟩⟩ := by
  rw [Mix.scanFail] at h
  obtain ⟨t, h1, h2⟩ := res_bind_inv h
  have e := Except.ok.inj h2
  rw [← e]
  have hge := fun k => (fail_grp hw h1 k).1
  have he : (t.grp g).errors = (s.srv.x.t.grp g).errors ++ ["error"] := by rw [hge g, if_pos rfl]
  refine ⟨h1, he, ?_⟩
  show (⟨t, _⟩ : XSys) = ⟨t, _⟩
  congr 1
  funext i
  by_cases hi : i = g
  · subst hi
    rw [setJob_self]
    show (if M.scan i then fakeCall (if i = i then _ else _) (t.grp i).errors else _) = _
    rw [if_pos hg, if_pos rfl, he, fakeCall, List.map_set]
    rfl
  · rw [setJob_ne _ _ hi]
    show (if M.scan i then fakeCall (if i = g then _ else _) (t.grp i).errors else _) = if M.scan i then _ else _
    rw [if_neg hi, hge i, if_neg hi]
    rfl

theorem scanSet_calls {M : MixSite} {s : Mix} {g j : Nat} {k : ScanKind} {a : ScanAt} {c : Nat} {svc : Svc UInt64}
    {sc : List (Option Nat)} (hg : M.scan g = true) :
    (Mix.setJob ⟨⟨s.srv.x, svc, s.srv.holders⟩, s.jobs, sc⟩ g ⟨(s.jobs g).tasks.set j (k, a), c, (s.jobs g).time + 1⟩).calls M =
      ⟨s.srv.x.t, setJob (s.calls M).job g
        ⟨[], ((s.jobs g).tasks.map fakeTask).set j ⟨k.fake, a.pc⟩, (s.srv.x.t.grp g).errors, (s.jobs g).time + 1⟩⟩ := by
  show (⟨s.srv.x.t, _⟩ : XSys) = ⟨s.srv.x.t, _⟩
  congr 1
  funext i
  by_cases hi : i = g
  · subst hi
    rw [setJob_self]
    show (if M.scan i then fakeCall (if i = i then _ else _) _ else _) = _
    rw [if_pos hg, if_pos rfl, fakeCall, List.map_set]
    rfl
  · rw [setJob_ne _ _ hi]
    show (if M.scan i then fakeCall (if i = g then _ else _) _ else _) = if M.scan i then _ else _
    rw [if_neg hi]
    rfl

theorem act_fake {M : MixSite} {s : Mix} {E : Nat → ExtEnv} {C : EngineConf} {w g j : Nat} {T : ScanKind × ScanAt}
    (hg : M.scan g = true) (hw : s.srv.x.t.workers[w]? = some (.running g j)) (hj : (s.jobs g).tasks[j]? = some T) :
    (s.calls M).act E C (.work w) =
      if T.2.pc = .finished then .ok (some (.finish w), (s.calls M).job)
      else match (fakeTask T).step (E g) C (s.jobs g).time [] with
        | .ok (m, T') => .ok (none, setJob (s.calls M).job g
            ⟨m, ((s.jobs g).tasks.map fakeTask).set j T', (s.srv.x.t.grp g).errors, (s.jobs g).time + 1⟩)
        | .error .ub => undef
        | .error (.exn _) => .ok (some (.fail w "error"), setJob (s.calls M).job g
            ⟨[], ((s.jobs g).tasks.map fakeTask).set j ⟨T.1.fake, .failed⟩, (s.srv.x.t.grp g).errors ++ ["error"],
              (s.jobs g).time + 1⟩) := by
  have hT : (fakeCall (s.jobs g) (s.srv.x.t.grp g).errors).tasks[j]? = some (fakeTask T) := by
    show ((s.jobs g).tasks.map fakeTask)[j]? = _
    rw [List.getElem?_map, hj]; rfl
  rw [XSys.act.eq_def]
  simp only [show (s.calls M).t.workers[w]? = some (.running g j) from hw, fake_job hg, hT]
  rfl

/-- A step of a process with scans is a step of calls. -/
theorem mix_part {M : MixSite} {U : String → Prop} {n : Nat} {s s' : Mix} {e : SrvEv} (sound : SoundReader M.site.reader)
    (hoffs : ∀ file, M.site.offs file ≠ undef) (good : SvcGood M.site.reader M.site.offs U s.srv.svc)
    (hn : s.srv.x.t.workers[n]? = none) (h : s.step M e = .ok s') :
    (s.calls M).step (mixEnv M s s') M.site.conf (s.part M n e) = .ok (s'.calls M) := by
  have env : ∀ y sc, s' = ⟨y, s.jobs, sc⟩ → ∀ g, M.scan g = false → mixEnv M s s' g = M.site.env s.srv.svc.disk (outcomeOf s.srv.svc y.svc) g := by
    rintro y sc rfl g hg
    rw [mixEnv, hg]; rfl
  have plain : ∀ e y sc, s.srv.step M.site e = .ok y → s' = ⟨y, s.jobs, sc⟩ → (s.srv.part n e).Own M s →
      s.part M n e = s.srv.part n e → (s.calls M).step (mixEnv M s s') M.site.conf (s.part M n e) = .ok (s'.calls M) := by
    intro e y sc h1 h2 h3 h4
    rw [h4]
    have := calls_own (E' := mixEnv M s s') h3 (env y sc h2) (part_step hn h1) y.svc y.holders sc
    rw [this, h2]
  have nScan : s.scanning M n = false := by rw [Mix.scanning, hn]
  have other : ∀ o y sc, s.srv.step M.site (.other o) = .ok y → s' = ⟨y, s.jobs, sc⟩ →
      (s.calls M).step (mixEnv M s s') M.site.conf (s.part M n (.other o)) = .ok (s'.calls M) := fun o y sc h1 h2 =>
    plain _ y sc h1 h2 nScan rfl
  have plainQ : ∀ q : XEv, s.plain M (.queue q) = .ok s' → (s.srv.part n (.queue q)).Own M s →
      s.part M n (.queue q) = s.srv.part n (.queue q) →
      (s.calls M).step (mixEnv M s s') M.site.conf (s.part M n (.queue q)) = .ok (s'.calls M) := by
    intro q h h3 h4
    obtain ⟨y, h1, h2⟩ := res_bind_inv h
    exact plain _ y s.scanners h1 (Except.ok.inj h2).symm h3 h4
  have workOwn : ∀ w, s.scanning M w = false → (s.srv.part n (.queue (.work w))).Own M s := by
    intro w hw
    rw [Srv.part]
    split
    · exact nScan
    · exact hw
  rw [Mix.step.eq_def] at h
  split at h
  · rename_i g
    by_cases hg : M.scan g = true
    · rw [if_pos hg] at h
      obtain ⟨h1, h2⟩ := group_calls (M := M) h (fun k => by split <;> (intro e; cases e)) (fun w m => by split <;> (intro e; cases e))
      rw [h2]
      refine xstep_of ?_ h1
      show (XSys.act _ _ _ (.add g)) = _
      rw [XSys.act, fake_job hg]
      show Except.ok (if _ < ((s.jobs g).tasks.map fakeTask).length then _ else _, _) = _
      rw [List.length_map]; rfl
    · rw [if_neg hg] at h
      exact plainQ _ h (by simpa [Srv.part, XEv.Own] using hg) rfl
  · rename_i g
    by_cases hg : M.scan g = true
    · rw [if_pos hg] at h
      obtain ⟨h1, h2⟩ := group_calls (M := M) h (fun k => by split <;> (intro e; cases e)) (fun w m => by split <;> (intro e; cases e))
      rw [h2]
      refine xstep_of ?_ h1
      show (XSys.act _ _ _ (.wait g)) = _
      rw [XSys.act, fake_job hg]
      show Except.ok (if _ = ((s.jobs g).tasks.map fakeTask).length then _ else _, _) = _
      rw [List.length_map]; rfl
    · rw [if_neg hg] at h
      exact plainQ _ h (by simpa [Srv.part, XEv.Own] using hg) rfl
  · rename_i w
    split at h
    · rename_i g j hr
      by_cases hg : M.scan g = true
      · have hsc : s.scanning M w = true := by rw [Mix.scanning, hr]; exact hg
        have hpart : s.part M n (.queue (.work w)) = .work w := if_pos hsc
        rw [hpart]
        have henv : ∀ {failed : Bool}, decide ((s'.srv.x.t.grp g).errors ≠ (s.srv.x.t.grp g).errors) = failed →
            mixEnv M s s' g = scanEnv (M.site.calls g) failed := fun h => by rw [mixEnv, if_pos hg, h]
        have failed : ∀ {y : Mix} {k : ScanKind} {a : ScanAt}, y.srv.x = s.srv.x → y.jobs = s.jobs → y.scanFail g j w k = .ok s' →
            (s.jobs g).tasks[j]? = some (k, a) → a = .fresh →
            (s.calls M).step (mixEnv M s s') M.site.conf (.work w) = .ok (s'.calls M) := by
          intro y k a ex ej hf hj ha
          subst ha
          obtain ⟨k1, k2, k3⟩ := scanFail_calls (M := M) hf hg (by rw [ex]; exact hr) (by rw [ej]; exact hj)
          have hc : y.calls M = s.calls M := by rw [Mix.calls, Mix.calls, ex, ej]
          rw [k3, hc]
          rw [ex] at k1 k2 ⊢
          rw [ej]
          refine xstep_of (a := some (.fail w "error")) ?_ k1
          rw [act_fake hg hr hj, if_neg (by intro e; cases e),
            henv (failed := true) (by rw [k2]; simp)]
          cases k <;> rfl
        have moved : ∀ {k : ScanKind} {a b : ScanAt} {c : Nat} {svc : Svc UInt64} {sc : List (Option Nat)},
            s' = Mix.setJob ⟨⟨s.srv.x, svc, s.srv.holders⟩, s.jobs, sc⟩ g ⟨(s.jobs g).tasks.set j (k, b), c, (s.jobs g).time + 1⟩ →
            (s.jobs g).tasks[j]? = some (k, a) → a.pc ≠ .finished →
            (fakeTask (k, a)).step (scanEnv (M.site.calls g) false) M.site.conf (s.jobs g).time [] = .ok ([], fakeTask (k, b)) →
            (s.calls M).step (mixEnv M s s') M.site.conf (.work w) = .ok (s'.calls M) := by
          intro k a b c svc sc hs' hj ha hst
          have he : s'.srv.x.t = s.srv.x.t := by rw [hs']; rfl
          have hE : mixEnv M s s' g = scanEnv (M.site.calls g) false := henv (by rw [he]; simp)
          have h2 := (congrArg (Mix.calls M) hs').trans (scanSet_calls hg)
          rw [h2]
          refine xstep_of (a := none) ?_ rfl
          rw [act_fake hg hr hj, if_neg ha, hE, hst]
          rfl
        rw [if_pos hg, Mix.scanWork.eq_def] at h
        split at h
        · rename_i k n' hj
          obtain ⟨h1, h2⟩ := group_calls (M := M) h (fun k => by intro e; cases e) (fun w m => by intro e; cases e)
          rw [h2]
          refine xstep_of ?_ h1
          rw [act_fake hg hr hj, if_pos (show (ScanAt.done n').pc = .finished from rfl)]
        · rename_i path os hj
          rw [Mix.scanRead] at h
          obtain ⟨svc, h1, h⟩ := res_bind_inv h
          split at h
          · exact moved (Except.ok.inj h).symm hj (by intro e; cases e) rfl
          · exact failed (y := ⟨⟨s.srv.x, svc, s.srv.holders⟩, s.jobs, s.scanners⟩) rfl rfl h hj rfl
        · rename_i path os hj
          rw [Mix.scanWrite] at h
          obtain ⟨svc, h1, -⟩ := good.step sound hoffs (.cache (.commit (s.scanners.idxOf (some w)))) trivial
          simp only [h1] at h
          exact moved (Except.ok.inj h).symm hj (by intro e; cases e) rfl
        · rename_i server files hj
          rw [Mix.scanAsk] at h
          split at h
          · exact moved (Except.ok.inj h).symm hj (by intro e; cases e) rfl
          · cases h
          · exact failed rfl rfl h hj rfl
        · cases h
      · rw [if_neg hg] at h
        have hsc : s.scanning M w = false := by rw [Mix.scanning, hr]; simpa using hg
        exact plainQ _ h (workOwn w hsc) (if_neg (by rw [hsc]; simp))
    · rename_i hnr
      have hsc : s.scanning M w = false := by
        rw [Mix.scanning]
        split
        · rename_i hr; exact absurd hr (hnr _ _)
        · rfl
      exact plainQ _ h (workOwn w hsc) (if_neg (by rw [hsc]; simp))
  · rename_i k
    by_cases hk : s.scanners[k]? = some none
    · rw [if_pos hk] at h
      obtain ⟨y, h1, h⟩ := res_bind_inv h
      exact other _ y _ h1 (Except.ok.inj h).symm
    · rw [if_neg hk] at h
      rw [← Except.ok.inj h]
      exact no_worker (s := s.calls M) hn _ _
  · rename_i o _
    obtain ⟨y, h1, h⟩ := res_bind_inv h
    exact other _ y _ h1 (Except.ok.inj h).symm
  · rename_i q hq1 hq2 hq
    have e1 : s.part M n (.queue q) = s.srv.part n (.queue q) := by
      cases q with
      | work w => exact absurd rfl (hq w)
      | _ => rfl
    refine plainQ q h ?_ e1
    cases q with
    | work w => exact absurd rfl (hq w)
    | add g => exact absurd rfl (hq1 g)
    | wait g => exact absurd rfl (hq2 g)
    | _ => trivial

/-! ## Tasks of scans -/

theorem set_kind {l : List (ScanKind × ScanAt)} {j : Nat} {k : ScanKind} {a b : ScanAt} (h : l[j]? = some (k, a)) :
    (l.set j (k, b)).map Prod.fst = l.map Prod.fst := by
  rw [List.map_set]
  exact set_same (by rw [List.getElem?_map, h]; rfl)

/-- What a step does to the scans. -/
theorem jobs_step {M : MixSite} {s s' : Mix} {e : SrvEv} (h : s.step M e = .ok s') :
    s'.jobs = s.jobs ∨ ∃ w g j k a b c, e = .queue (.work w) ∧ s.srv.x.t.workers[w]? = some (.running g j) ∧ M.scan g = true ∧
      (s.jobs g).tasks[j]? = some (k, a) ∧
      (∀ i, i ≠ g → s'.jobs i = s.jobs i) ∧ s'.jobs g = ⟨(s.jobs g).tasks.set j (k, b), c, (s.jobs g).time + 1⟩ ∧
      (b = .planned → ∃ path os, k = .file path os) := by
  have plain : ∀ {e : SrvEv}, s.plain M e = .ok s' → s'.jobs = s.jobs := fun h => by
    obtain ⟨y, h1, h2⟩ := res_bind_inv h
    rw [← Except.ok.inj h2]
  have group : ∀ {a : Option TEv}, s.group a = .ok s' → s'.jobs = s.jobs := fun h => by
    obtain ⟨y, h1, h2⟩ := res_bind_inv h
    rw [← Except.ok.inj h2]
  rw [Mix.step.eq_def] at h
  split at h
  · split at h
    · exact .inl (group h)
    · exact .inl (plain h)
  · split at h
    · exact .inl (group h)
    · exact .inl (plain h)
  · rename_i w
    split at h
    · rename_i g j hr
      split at h
      · rename_i hg
        have set : ∀ {k : ScanKind} {a b : ScanAt} {c : Nat}, (s.jobs g).tasks[j]? = some (k, a) →
            (s'.jobs = fun i => if i = g then ⟨(s.jobs g).tasks.set j (k, b), c, (s.jobs g).time + 1⟩ else s.jobs i) →
            (b = .planned → ∃ path os, k = .file path os) →
            s'.jobs = s.jobs ∨ ∃ w' g j k a b c, SrvEv.queue (.work w) = .queue (.work w') ∧
              s.srv.x.t.workers[w']? = some (.running g j) ∧ M.scan g = true ∧
              (s.jobs g).tasks[j]? = some (k, a) ∧ (∀ i, i ≠ g → s'.jobs i = s.jobs i) ∧
              s'.jobs g = ⟨(s.jobs g).tasks.set j (k, b), c, (s.jobs g).time + 1⟩ ∧
              (b = .planned → ∃ path os, k = .file path os) := fun hj hs hb =>
          .inr ⟨w, g, j, _, _, _, _, rfl, hr, hg, hj, fun i hi => by rw [hs]; exact if_neg hi, by rw [hs]; exact if_pos rfl, hb⟩
        rw [Mix.scanWork.eq_def] at h
        split at h
        · exact .inl (group h)
        · rename_i path os hj
          rw [Mix.scanRead] at h
          obtain ⟨svc, h1, h⟩ := res_bind_inv h
          split at h
          · exact set hj (by rw [← Except.ok.inj h]; rfl) fun _ => ⟨_, _, rfl⟩
          · obtain ⟨t, h1, h2⟩ := res_bind_inv h
            exact set hj (by rw [← Except.ok.inj h2]; rfl) (fun e => by cases e)
        · rename_i path os hj
          rw [Mix.scanWrite] at h
          simp only at h
          split at h
          · exact set hj (by rw [← Except.ok.inj h]; rfl) (fun e => by cases e)
          · cases h
          · obtain ⟨t, h1, h2⟩ := res_bind_inv h
            exact set hj (by rw [← Except.ok.inj h2]; rfl) (fun e => by cases e)
        · rename_i server files hj
          rw [Mix.scanAsk] at h
          split at h
          · exact set hj (by rw [← Except.ok.inj h]; rfl) (fun e => by cases e)
          · cases h
          · obtain ⟨t, h1, h2⟩ := res_bind_inv h
            exact set hj (by rw [← Except.ok.inj h2]; rfl) (fun e => by cases e)
        · cases h
      · exact .inl (plain h)
    · exact .inl (plain h)
  · split at h
    · obtain ⟨y, h1, h2⟩ := res_bind_inv h
      left; rw [← Except.ok.inj h2]
    · left; rw [← Except.ok.inj h]
  · obtain ⟨y, h1, h2⟩ := res_bind_inv h
    left; rw [← Except.ok.inj h2]
  · exact .inl (plain h)

theorem Mix.Kinds.step {M : MixSite} {s s' : Mix} {e : SrvEv} (h : s.Kinds M) (hs : s.step M e = .ok s') : s'.Kinds M := by
  intro i
  rcases jobs_step hs with e | ⟨w, g, j, k, a, b, c, -, -, -, hj, ho, hg, -⟩
  · rw [e]; exact h i
  · by_cases hi : i = g
    · subst hi; rw [hg, set_kind hj]; exact h i
    · rw [ho i hi]; exact h i

/-- Forwarded scans have no second step. -/
def Mix.Direct (s : Mix) : Prop := ∀ g, ∀ T ∈ (s.jobs g).tasks, T.2 = .planned → ∃ path os, T.1 = .file path os

theorem Mix.Direct.step {M : MixSite} {s s' : Mix} {e : SrvEv} (h : s.Direct) (hs : s.step M e = .ok s') : s'.Direct := by
  intro i T hT hp
  rcases jobs_step hs with e | ⟨w, g, j, k, a, b, c, -, -, -, hj, ho, hg, hb⟩
  · rw [e] at hT; exact h i T hT hp
  · by_cases hi : i = g
    · subst hi
      rw [hg] at hT
      rcases List.mem_or_eq_of_mem_set hT with hT | rfl
      · exact h i T hT hp
      · exact hb hp
    · rw [ho i hi] at hT; exact h i T hT hp

/-! ## Infinite histories -/

/-- The step with which a clock went from `t` to `t + 1`. -/
noncomputable def momentOf (f : Nat → Nat) (t : Nat) : Nat :=
  open Classical in
  if h : ∃ k, f k = t ∧ f (k + 1) = t + 1 then Classical.choose h else 0

theorem momentOf_eq {f : Nat → Nat} (mono : ∀ k, f k ≤ f (k + 1)) {k t : Nat} (h1 : f k = t) (h2 : f (k + 1) = t + 1) :
    momentOf f t = k := by
  have hm : ∀ i j, i ≤ j → f i ≤ f j := by
    intro i j hij
    obtain ⟨c, rfl⟩ := Nat.le.dest hij
    induction c with
    | zero => exact Nat.le_refl _
    | succ c ih => exact Nat.le_trans (ih (by omega)) (mono _)
  have hex : ∃ k, f k = t ∧ f (k + 1) = t + 1 := ⟨k, h1, h2⟩
  rw [momentOf, dif_pos hex]
  obtain ⟨h3, h4⟩ := Classical.choose_spec hex
  generalize Classical.choose hex = c at *
  rcases Nat.lt_trichotomy c k with h | h | h
  · have := hm (c + 1) k (by omega); omega
  · exact h
  · have := hm (k + 1) c (by omega); omega

/-- Calls that meet something else in every step. -/
noncomputable def alongEnv (x : Nat → XSys) (E : Nat → Nat → ExtEnv) (g : Nat) : ExtEnv where
  list := (E 0 g).list
  infos := fun t => (E (momentOf (fun k => ((x k).job g).time) t) g).infos t
  jump := fun t => (E (momentOf (fun k => ((x k).job g).time) t) g).jump t
  fetch := fun t => (E (momentOf (fun k => ((x k).job g).time) t) g).fetch t
  forward := fun t => (E (momentOf (fun k => ((x k).job g).time) t) g).forward t

/-- Steps in changing surroundings are an execution. -/
theorem along_execution {n : Nat} {C : EngineConf} {P : Nat → ItemMap × List FTask} {ev : Nat → XEv} {x : Nat → XSys}
    {E : Nat → Nat → ExtEnv} (start : x 0 = XSys.init n P) (fresh : ∀ g, ∀ T ∈ (P g).2, T.pc = .fresh)
    (step : ∀ k, (x k).step (E k) C (ev k) = .ok (x (k + 1))) : XExecution n (alongEnv x E) C P ev x := by
  refine ⟨start, fun k => ?_, fresh⟩
  rw [← step k]
  refine xstep_congr fun w g j T he hw hT => ?_
  by_cases hp : T.pc = .finished
  · exact finished_step hp _ _ _ _ _
  · have h1 := step k
    rw [he] at h1
    have ht := xstep_worked h1 hw hT hp
    have hs := momentOf_eq (f := fun k => ((x k).job g).time) (fun k => xstep_time (step k) g) rfl ht
    refine ftask_congr (fun f ks _ => ?_) ?_ ?_ ?_
    · show (E (momentOf _ _) g).infos _ _ _ = _
      rw [hs]
    · show (E (momentOf _ _) g).jump _ = _
      rw [hs]
    · show (E (momentOf _ _) g).fetch _ = _
      rw [hs]
    · show (E (momentOf _ _) g).forward _ = _
      rw [hs]

end GJ
