import Verif.Model.Execution
import Verif.Lemmas.Engine
import Verif.Props.C25

/-!
# Calls on the work queue: the invariant
-/

namespace GJ

open Spec

/-- How far the body of a task is, given its status in the group. -/
def PcOf : Option TStat → FPc → Prop
  | none, p => p = .fresh
  | some .pending, p => p = .fresh
  | some .cancelled, p => p = .fresh
  | some .executing, p => p ≠ .failed
  | some .done, p => p = .finished
  | some .failed, p => p = .failed

/-- The changes of a status by an event that is not the end of a task. -/
def Quiet (a b : Option TStat) : Prop :=
  b = a ∨ (a = none ∧ b = some .pending) ∨ (a = some .pending ∧ b = some .executing)

theorem PcOf.quiet {a b : Option TStat} {p : FPc} (h : PcOf a p) (q : Quiet a b) : PcOf b p := by
  rcases q with rfl | ⟨rfl, rfl⟩ | ⟨rfl, rfl⟩
  · exact h
  · exact h
  · rw [show p = .fresh from h]; intro e; cases e

/-- The state of a composite execution: the groups are in order, the items of every call are those after some
interleaving of the steps of its started tasks, and the group knows about the errors and ends of its tasks. -/
structure XInv (E : Nat → ExtEnv) (C : EngineConf) (P : Nat → ItemMap × List FTask) (s : XSys) : Prop where
  t : TInv s.t
  run : ∀ g, ∃ js, FSys.run (E g) C ⟨(P g).1, (P g).2, [], 0⟩ js = .ok (s.job g) ∧ ∀ j ∈ js, (g, j) ∈ s.t.started
  errs : ∀ g, (s.job g).errors = (s.t.grp g).errors
  pcs : ∀ g (j : Nat) (T : FTask), (s.job g).tasks[j]? = some T → PcOf (s.t.grp g).tasks[j]? T.pc
  len : ∀ g, (s.t.grp g).tasks.length ≤ (s.job g).tasks.length
  full : ∀ g, (s.t.grp g).phase = .waiting ∨ (s.t.grp g).phase = .returned →
    (s.t.grp g).tasks.length = (s.job g).tasks.length ∧ 0 < (s.t.grp g).tasks.length
  size : ∀ g, (s.job g).tasks.length = (P g).2.length

theorem fsys_run_append {E : ExtEnv} {C : EngineConf} (js ks : List Nat) (s : FSys) :
    s.run E C (js ++ ks) = (s.run E C js) >>= fun s' => s'.run E C ks := by
  induction js generalizing s with
  | nil => rfl
  | cons j js ih =>
    rw [List.cons_append, FSys.run, FSys.run]
    cases h : s.step E C j with
    | error e => rfl
    | ok s' => rw [ok_bind, ok_bind, ih]

theorem fsys_run_snoc {E : ExtEnv} {C : EngineConf} {js : List Nat} {j : Nat} {s s1 s2 : FSys}
    (h1 : s.run E C js = .ok s1) (h2 : s1.step E C j = .ok s2) : s.run E C (js ++ [j]) = .ok s2 := by
  rw [fsys_run_append, h1, ok_bind, FSys.run, h2, ok_bind, FSys.run]

theorem XInv.init {E : Nat → ExtEnv} {C : EngineConf} {n : Nat} {P : Nat → ItemMap × List FTask}
    (hP : ∀ g, ∀ T ∈ (P g).2, T.pc = .fresh) : XInv E C P (XSys.init n P) where
  t := TInv.init n
  run := fun g => ⟨[], rfl, fun _ h => by cases h⟩
  errs := fun _ => rfl
  pcs := fun g j T h => hP g T (List.mem_of_getElem? h)
  len := fun g => Nat.zero_le _
  full := fun g h => by rcases h with h | h <;> cases h
  size := fun _ => rfl

/-- What an event that ends no task leaves of the groups. -/
structure Calm (s s' : TSys) : Prop where
  errs : ∀ g, (s'.grp g).errors = (s.grp g).errors
  stat : ∀ g (j : Nat), Quiet (s.grp g).tasks[j]? (s'.grp g).tasks[j]?
  started : ∀ x ∈ s.started, x ∈ s'.started

theorem Calm.refl (s : TSys) : Calm s s := ⟨fun _ => rfl, fun _ _ => Or.inl rfl, fun _ h => h⟩

/-- The number of tasks and the phase are unchanged. -/
def SamePhase (s s' : TSys) : Prop :=
  ∀ g, (s'.grp g).tasks.length = (s.grp g).tasks.length ∧ (s'.grp g).phase = (s.grp g).phase

theorem calm_setGrp {s : TSys} {g : Nat} {x : Grp} (he : x.errors = (s.grp g).errors)
    (ht : ∀ j : Nat, Quiet (s.grp g).tasks[j]? x.tasks[j]?) : Calm s (s.setGrp g x) := by
  refine ⟨fun h => ?_, fun h j => ?_, fun _ h => h⟩
  · rw [grp_set]; split
    · rename_i e; rw [e, he]
    · rfl
  · rw [grp_set]; split
    · rename_i e; rw [e]; exact ht j
    · exact Or.inl rfl

theorem add_calm (s : TSys) (g : Nat) : Calm s (stepAdd s g) := by
  rw [stepAdd]; split
  · refine calm_setGrp rfl fun j => ?_
    by_cases h : j < (s.grp g).tasks.length
    · left; exact List.getElem?_append_left h
    · by_cases h' : j = (s.grp g).tasks.length
      · right; left
        subst h'
        exact ⟨List.getElem?_eq_none (Nat.le_refl _), List.getElem?_concat_length⟩
      · left
        rw [List.getElem?_eq_none (by simp; omega), List.getElem?_eq_none (by omega)]
  · exact Calm.refl s

theorem push_calm {s s' : TSys} {g : Nat} (h : stepPush s g = .ok s') : Calm s s' ∧ SamePhase s s' := by
  rw [stepPush.eq_def] at h
  simp only [] at h
  split at h
  · cases h; exact ⟨Calm.refl _, fun _ => ⟨rfl, rfl⟩⟩
  · obtain ⟨q, -, h⟩ := res_bind_inv h
    cases h
    refine ⟨?_, fun k => ?_⟩
    · have := calm_setGrp (s := { s with q := q }) (g := g) (x := { s.grp g with pushing := none }) rfl fun _ => Or.inl rfl
      exact ⟨this.errs, this.stat, this.started⟩
    · rw [grp_set]; split
      · rename_i e; rw [e]; exact ⟨rfl, rfl⟩
      · exact ⟨rfl, rfl⟩

theorem wait_calm (s : TSys) (g : Nat) : Calm s (stepWait s g) := by
  rw [stepWait]; split
  · exact calm_setGrp rfl fun _ => Or.inl rfl
  · exact Calm.refl s

theorem ret_calm (s : TSys) (g : Nat) : Calm s (stepRet s g) := by
  rw [stepRet]; split
  · exact calm_setGrp rfl fun _ => Or.inl rfl
  · exact Calm.refl s

theorem pop_calm {s s' : TSys} {w : Nat} (h : stepPop s w = .ok s') : Calm s s' ∧ SamePhase s s' := by
  rw [stepPop] at h
  split at h
  · obtain ⟨⟨p, q⟩, -, h⟩ := res_bind_inv h
    simp only [] at h
    split at h <;> cases h <;> exact ⟨⟨fun _ => rfl, fun _ _ => Or.inl rfl, fun _ h => h⟩, fun _ => ⟨rfl, rfl⟩⟩
  · cases h; exact ⟨Calm.refl _, fun _ => ⟨rfl, rfl⟩⟩

theorem start_calm {s s' : TSys} {w : Nat} (h : stepStart s w = .ok s') : Calm s s' ∧ SamePhase s s' := by
  rw [stepStart.eq_def] at h
  split at h
  · rename_i g t _
    simp only [] at h
    split at h
    · split at h
      · rename_i hp
        cases h
        refine ⟨⟨fun k => ?_, fun k j => ?_, fun x hx => List.mem_append_left _ hx⟩, fun k => ?_⟩
        · show (TSys.grp (TSys.setGrp _ _ _) k).errors = _
          rw [grp_set]; split
          · rename_i e; rw [e]
          · rfl
        · show Quiet _ (TSys.grp (TSys.setGrp _ _ _) k).tasks[j]?
          rw [grp_set]; split
          · rename_i e; rw [e]
            by_cases hj : j = t
            · subst hj
              right; right
              exact ⟨hp, List.getElem?_set_self (List.getElem?_eq_some_iff.mp hp).1⟩
            · left; exact List.getElem?_set_ne (fun e => hj e.symm)
          · exact Or.inl rfl
        · show (TSys.grp (TSys.setGrp _ _ _) k).tasks.length = _ ∧ (TSys.grp (TSys.setGrp _ _ _) k).phase = _
          rw [grp_set]; split
          · rename_i e; rw [e]; exact ⟨List.length_set, rfl⟩
          · exact ⟨rfl, rfl⟩
      · cases h; exact ⟨⟨fun _ => rfl, fun _ _ => Or.inl rfl, fun _ h => h⟩, fun _ => ⟨rfl, rfl⟩⟩
    · cases h
  · cases h; exact ⟨Calm.refl _, fun _ => ⟨rfl, rfl⟩⟩

/-- Groups change calmly, items do not. -/
theorem XInv.calm {E : Nat → ExtEnv} {C : EngineConf} {P : Nat → ItemMap × List FTask} {s : XSys} (h : XInv E C P s)
    {t : TSys} (ht : TInv t) (c : Calm s.t t)
    (hlen : ∀ g, (t.grp g).tasks.length ≤ (s.job g).tasks.length)
    (hfull : ∀ g, (t.grp g).phase = .waiting ∨ (t.grp g).phase = .returned →
      (t.grp g).tasks.length = (s.job g).tasks.length ∧ 0 < (t.grp g).tasks.length) : XInv E C P ⟨t, s.job⟩ where
  t := ht
  run := fun g => by
    obtain ⟨js, h1, h2⟩ := h.run g
    exact ⟨js, h1, fun j hj => c.started _ (h2 j hj)⟩
  errs := fun g => by rw [c.errs]; exact h.errs g
  pcs := fun g j T hT => (h.pcs g j T hT).quiet (c.stat g j)
  len := hlen
  full := hfull
  size := h.size

theorem XInv.same {E : Nat → ExtEnv} {C : EngineConf} {P : Nat → ItemMap × List FTask} {s : XSys} (h : XInv E C P s)
    {t : TSys} (ht : TInv t) (c : Calm s.t t ∧ SamePhase s.t t) : XInv E C P ⟨t, s.job⟩ :=
  h.calm ht c.1 (fun g => by rw [(c.2 g).1]; exact h.len g) fun g hg => by
    rw [(c.2 g).2] at hg; rw [(c.2 g).1]; exact h.full g hg

theorem tinv_stepped {s s' : TSys} (h : TInv s) {e : TEv} (he : ∀ g, e ≠ .abandon g) (hs : s.step e = .ok s') :
    TInv s' := by
  obtain ⟨s1, h1, h2⟩ := h.step e he
  rw [hs] at h1; cases h1; exact h2

theorem running_started {s : TSys} (h : TInv s) {w g j : Nat} (hw : s.workers[w]? = some (.running g j)) :
    (g, j) ∈ s.started := by
  have hc := h.cell g j
  rw [h.running hw] at hc
  exact List.count_pos_iff.mp (by rw [hc.2.2.1]; exact Nat.one_pos)

theorem setJob_self (job : Nat → FSys) (g : Nat) (f : FSys) : setJob job g f g = f := if_pos rfl

theorem setJob_ne (job : Nat → FSys) {g h : Nat} (f : FSys) (hne : h ≠ g) : setJob job g f h = job h := if_neg hne

/-- A step that does not throw leads the task forward. -/
theorem ftask_forward {E : ExtEnv} {C : EngineConf} {t : Nat} {m m' : ItemMap} {T T' : FTask}
    (h : T.step E C t m = .ok (m', T')) (hf : T.pc ≠ .failed) (hd : T.pc ≠ .finished) :
    T'.pc ≠ .failed ∧ T'.left < T.left := by
  obtain ⟨kind, pc⟩ := T
  cases pc with
  | failed => exact absurd rfl hf
  | finished => exact absurd rfl hd
  | fresh =>
    cases kind with
    | file f ks =>
      rw [FTask.step] at h; simp only [] at h
      obtain ⟨infos, -, h⟩ := res_bind_inv h
      obtain ⟨todo, h3, h⟩ := res_bind_inv h
      cases h
      refine ⟨(by intro e; cases e), ?_⟩
      obtain ⟨e, -⟩ := pairInfos_spec h3
      have : todo.length = ks.length := by
        rw [← (sortKeys_perm m ks).length_eq, ← e, List.length_map]
      simp only [FTask.left, FTask.fuel]
      omega
    | inefficient f ks =>
      rw [FTask.step] at h; cases h
      refine ⟨(by intro e; cases e), ?_⟩
      simp only [FTask.left, FTask.fuel, (sortKeys_perm m ks).length_eq]
      omega
    | forward a b =>
      rw [FTask.step] at h; simp only [] at h
      obtain ⟨_, -, h⟩ := res_bind_inv h
      obtain ⟨_, -, h⟩ := res_bind_inv h
      cases h
      exact ⟨(by intro e; cases e), Nat.one_pos⟩
  | work todo =>
    cases kind with
    | file f ks =>
      cases todo with
      | nil =>
        cases h; exact ⟨(by intro e; cases e), Nat.one_pos⟩
      | cons x todo =>
        obtain ⟨k, o, i⟩ := x
        rw [FTask.step] at h; simp only [] at h
        split at h
        · cases h
        · obtain ⟨_, -, h⟩ := res_bind_inv h
          obtain ⟨_, -, h⟩ := res_bind_inv h
          obtain ⟨_, -, h⟩ := res_bind_inv h
          cases h
          exact ⟨(by intro e; cases e), Nat.lt_succ_self _⟩
    | inefficient f ks =>
      cases todo <;> (cases h; exact ⟨(by intro e; cases e), Nat.succ_pos _⟩)
    | forward a b =>
      cases todo <;> (cases h; exact ⟨(by intro e; cases e), Nat.succ_pos _⟩)
  | fetching todo =>
    cases kind with
    | file f ks =>
      cases todo <;> (cases h; exact ⟨(by intro e; cases e), Nat.succ_pos _⟩)
    | forward a b =>
      cases todo <;> (cases h; exact ⟨(by intro e; cases e), Nat.succ_pos _⟩)
    | inefficient f ks =>
      cases todo with
      | nil =>
        cases h; exact ⟨(by intro e; cases e), Nat.one_pos⟩
      | cons k todo =>
        rw [FTask.step] at h; simp only [] at h
        split at h
        · cases h
        · split at h
          · cases h
          · obtain ⟨_, -, h⟩ := res_bind_inv h
            obtain ⟨_, -, h⟩ := res_bind_inv h
            cases h
            exact ⟨(by intro e; cases e), Nat.lt_succ_self _⟩

/-- The parts of the groups after a task has ended. -/
theorem finish_grp {s s' : TSys} {w g j : Nat} (hw : s.workers[w]? = some (.running g j))
    (h : stepFinish s w = .ok s') (k : Nat) :
    s'.grp k = (if k = g then
      { s.grp g with tasks := (s.grp g).tasks.set j TStat.done, nComplete := (s.grp g).nComplete + 1 }
      else s.grp k) ∧ s'.started = s.started := by
  rw [stepFinish.eq_def, hw] at h
  simp only [] at h
  split at h
  · cases h; exact ⟨rfl, rfl⟩
  · cases h

theorem fail_grp {s s' : TSys} {w g j : Nat} {msg : String} (hw : s.workers[w]? = some (.running g j))
    (h : stepFail s w msg = .ok s') (k : Nat) :
    s'.grp k = (if k = g then
      { s.grp g with tasks := ((s.grp g).tasks.set j .failed).map cancelOne,
                     nComplete := (s.grp g).nComplete + 1, errors := (s.grp g).errors ++ [msg] } else s.grp k) ∧
      s'.started = s.started := by
  rw [stepFail.eq_def, hw] at h
  simp only [] at h
  split at h
  · cases h; exact ⟨rfl, rfl⟩
  · cases h

/-- The invariant after one call's items and tasks and its group have changed, and nothing else. -/
theorem XInv.update {E : Nat → ExtEnv} {C : EngineConf} {P : Nat → ItemMap × List FTask} {s : XSys} (h : XInv E C P s)
    {t : TSys} (ht : TInv t) {g j : Nat} {f : FSys} (hst : t.started = s.t.started)
    (hj : (g, j) ∈ s.t.started) (hf : (s.job g).step (E g) C j = .ok f)
    (hsz : f.tasks.length = (s.job g).tasks.length)
    (ho : ∀ k, k ≠ g → t.grp k = s.t.grp k) (he : f.errors = (t.grp g).errors)
    (hp : ∀ (i : Nat) (T : FTask), f.tasks[i]? = some T → PcOf (t.grp g).tasks[i]? T.pc)
    (hl : (t.grp g).tasks.length = (s.t.grp g).tasks.length) (hph : (t.grp g).phase = (s.t.grp g).phase) :
    XInv E C P ⟨t, setJob s.job g f⟩ := by
  refine ⟨ht, fun k => ?_, fun k => ?_, fun k i T hT => ?_, fun k => ?_, fun k => ?_, fun k => ?_⟩ <;>
    by_cases hk : k = g
  · subst hk
    obtain ⟨js, h1, h2⟩ := h.run k
    refine ⟨js ++ [j], ?_, ?_⟩
    · show _ = Except.ok (setJob s.job k f k)
      rw [setJob_self]; exact fsys_run_snoc h1 hf
    · intro i hi
      show (k, i) ∈ t.started
      rw [hst]
      rcases List.mem_append.mp hi with hi | hi
      · exact h2 i hi
      · rw [List.mem_singleton.mp hi]; exact hj
  · show ∃ js, _ = Except.ok (setJob s.job g f k) ∧ ∀ i ∈ js, (k, i) ∈ t.started
    rw [setJob_ne _ _ hk, hst]; exact h.run k
  · subst hk
    show (setJob s.job k f k).errors = _
    rw [setJob_self]; exact he
  · show (setJob s.job g f k).errors = (t.grp k).errors
    rw [setJob_ne _ _ hk, ho k hk]; exact h.errs k
  · subst hk
    have hT' : (setJob s.job k f k).tasks[i]? = some T := hT
    rw [setJob_self] at hT'; exact hp i T hT'
  · have hT' : (setJob s.job g f k).tasks[i]? = some T := hT
    rw [setJob_ne _ _ hk] at hT'
    show PcOf (t.grp k).tasks[i]? T.pc
    rw [ho k hk]; exact h.pcs k i T hT'
  · subst hk
    show _ ≤ (setJob s.job k f k).tasks.length
    rw [setJob_self, hsz, hl]; exact h.len k
  · show (t.grp k).tasks.length ≤ (setJob s.job g f k).tasks.length
    rw [setJob_ne _ _ hk, ho k hk]; exact h.len k
  · subst hk
    show _ → _ = (setJob s.job k f k).tasks.length ∧ _
    intro hw
    rw [setJob_self, hsz, hl]
    exact h.full k (by rw [← hph]; exact hw)
  · show (t.grp k).phase = _ ∨ (t.grp k).phase = _ →
      (t.grp k).tasks.length = (setJob s.job g f k).tasks.length ∧ 0 < (t.grp k).tasks.length
    rw [setJob_ne _ _ hk, ho k hk]; exact h.full k
  · subst hk
    show (setJob s.job k f k).tasks.length = _
    rw [setJob_self, hsz]; exact h.size k
  · show (setJob s.job g f k).tasks.length = _
    rw [setJob_ne _ _ hk]; exact h.size k

/-- The body of the task a worker is executing. -/
theorem XInv.task {E : Nat → ExtEnv} {C : EngineConf} {P : Nat → ItemMap × List FTask} {s : XSys} (h : XInv E C P s)
    {w g j : Nat} (hw : s.t.workers[w]? = some (.running g j)) :
    ∃ T, (s.job g).tasks[j]? = some T ∧ T.pc ≠ .failed := by
  have h1 := h.t.running hw
  have h2 := (List.getElem?_eq_some_iff.mp h1).1
  have h3 := h.len g
  have h4 : j < (s.job g).tasks.length := by omega
  refine ⟨_, List.getElem?_eq_getElem h4, ?_⟩
  have := h.pcs g j _ (List.getElem?_eq_getElem h4)
  rw [h1] at this
  exact this

theorem set_pcs {ts : List FTask} {st st' : List TStat} {j : Nat} {T' : FTask}
    (h : ∀ (i : Nat) (T : FTask), ts[i]? = some T → PcOf st[i]? T.pc) (hj : PcOf st'[j]? T'.pc)
    (ho : ∀ i : Nat, i ≠ j → ∀ p, PcOf st[i]? p → PcOf st'[i]? p) :
    ∀ (i : Nat) (T : FTask), (ts.set j T')[i]? = some T → PcOf st'[i]? T.pc := by
  intro i T hT
  by_cases hi : i = j
  · subst hi
    have hlt := (List.getElem?_eq_some_iff.mp hT).1
    rw [List.length_set] at hlt
    rw [List.getElem?_set_self hlt] at hT
    rw [← Option.some.inj hT]; exact hj
  · rw [List.getElem?_set_ne (fun e => hi e.symm)] at hT
    exact ho i hi _ (h i T hT)

theorem xstep_of {E : Nat → ExtEnv} {C : EngineConf} {s : XSys} {e : XEv} {a : Option TEv} {job : Nat → FSys} {t : TSys}
    (ha : s.act E C e = .ok (a, job)) (ht : s.t.stepIf a = .ok t) : s.step E C e = .ok ⟨t, job⟩ := by
  rw [XSys.step, ha, ok_bind]
  show (s.t.stepIf a >>= fun t => _) = _
  rw [ht, ok_bind]

/-- Every step keeps the invariant.  It is not an exception, and is undefined only if a step of the body of a task is. -/
theorem XInv.step {E : Nat → ExtEnv} {C : EngineConf} {P : Nat → ItemMap × List FTask} {s : XSys} (h : XInv E C P s)
    (e : XEv) : (∃ s', s.step E C e = .ok s' ∧ XInv E C P s') ∨
      (s.step E C e = undef ∧ ∃ g j, (s.job g).step (E g) C j = undef) := by
  cases e with
  | add g =>
    left
    refine ⟨⟨if (s.t.grp g).tasks.length < (s.job g).tasks.length then stepAdd s.t g else s.t, s.job⟩, ?_, ?_⟩
    · refine xstep_of rfl ?_
      split <;> rfl
    · split
      · rename_i hlt
        refine h.calm (h.t.add g) (add_calm _ _) (fun k => ?_) (fun k => ?_)
        · rw [stepAdd]; split
          · rw [grp_set]; split
            · rename_i e; subst e
              rw [List.length_append]; exact hlt
            · exact h.len k
          · exact h.len k
        · rw [stepAdd]; split
          · rename_i hc
            rw [grp_set]; split
            · intro hw
              rw [show Grp.phase _ = (s.t.grp g).phase from rfl, hc.1] at hw
              rcases hw with hw | hw <;> cases hw
            · exact h.full k
          · exact h.full k
      · exact h
  | push g =>
    left
    obtain ⟨t, h1, h2⟩ := h.t.push g
    exact ⟨⟨t, s.job⟩, xstep_of rfl h1, h.same h2 (push_calm h1)⟩
  | wait g =>
    left
    refine ⟨⟨if (s.t.grp g).tasks.length = (s.job g).tasks.length then stepWait s.t g else s.t, s.job⟩, ?_, ?_⟩
    · refine xstep_of rfl ?_
      split <;> rfl
    · split
      · rename_i heq
        refine h.calm (tinv_stepped h.t (e := .wait g) (fun _ e => by cases e) rfl) (wait_calm _ _) (fun k => ?_)
          (fun k => ?_)
        · rw [stepWait]; split
          · rw [grp_set]; split
            · rename_i e; subst e; exact h.len k
            · exact h.len k
          · exact h.len k
        · rw [stepWait]; split
          · rw [grp_set]; split
            · rename_i e; subst e
              intro hw
              refine ⟨heq, List.length_pos_iff.mpr fun e => ?_⟩
              rw [show Grp.phase _ = if (s.t.grp k).tasks = [] then Phase.gone else .waiting from rfl,
                if_pos (show (s.t.grp k).tasks = [] from e)] at hw
              rcases hw with hw | hw <;> cases hw
            · exact h.full k
          · exact h.full k
      · exact h
  | ret g =>
    left
    refine ⟨⟨stepRet s.t g, s.job⟩, xstep_of rfl rfl, ?_⟩
    refine h.calm (tinv_stepped h.t (e := .ret g) (fun _ e => by cases e) rfl) (ret_calm _ _) (fun k => ?_)
      (fun k => ?_)
    · rw [stepRet]; split
      · rw [grp_set]; split
        · rename_i e; subst e; exact h.len k
        · exact h.len k
      · exact h.len k
    · rw [stepRet]; split
      · rename_i hc
        rw [grp_set]; split
        · rename_i e; subst e; intro _; exact h.full k (Or.inl hc.1)
        · exact h.full k
      · exact h.full k
  | pop w =>
    left
    obtain ⟨t, h1, h2⟩ := h.t.pop w
    exact ⟨⟨t, s.job⟩, xstep_of rfl h1, h.same h2 (pop_calm h1)⟩
  | start w =>
    left
    obtain ⟨t, h1, h2⟩ := h.t.start w
    exact ⟨⟨t, s.job⟩, xstep_of rfl h1,
      h.same h2 (start_calm h1)⟩
  | work w =>
    have idle : (∀ g j, s.t.workers[w]? ≠ some (.running g j)) → s.act E C (.work w) = .ok (none, s.job) := by
      intro hno
      rw [XSys.act]
      split
      · rename_i g j hw; exact absurd hw (hno g j)
      · rfl
    by_cases hr : ∃ g j, s.t.workers[w]? = some (.running g j)
    · obtain ⟨g, j, hw⟩ := hr
      obtain ⟨T, hT, hnf⟩ := h.task hw
      have hex := h.t.running hw
      have hst := running_started h.t hw
      have hlt := (List.getElem?_eq_some_iff.mp hex).1
      by_cases hd : T.pc = .finished
      · left
        obtain ⟨t, h1, h2⟩ := h.t.finish w
        refine ⟨⟨t, s.job⟩, ?_, ?_⟩
        · refine xstep_of (a := some (.finish w)) ?_ h1
          rw [XSys.act]
          simp only [hw, hT, if_pos hd]
        · have hg := finish_grp hw h1
          refine ⟨h2, fun k => ?_, fun k => ?_, fun k i T' hT' => ?_, fun k => ?_, fun k => ?_, h.size⟩
          · show ∃ js, _ ∧ ∀ i ∈ js, (k, i) ∈ t.started
            rw [(hg 0).2]; exact h.run k
          · show _ = (t.grp k).errors
            rw [(hg k).1]; split
            · rename_i e; subst e; exact h.errs k
            · exact h.errs k
          · show PcOf (t.grp k).tasks[i]? T'.pc
            have := h.pcs k i T' hT'
            rw [(hg k).1]; split
            · rename_i e; subst e
              by_cases hi : i = j
              · subst hi
                show PcOf ((s.t.grp k).tasks.set i .done)[i]? T'.pc
                have e : T = T' := by
                  have a : (s.job k).tasks[i]? = some T' := hT'
                  rw [hT] at a; exact Option.some.inj a
                subst e
                rw [List.getElem?_set_self hlt]; exact hd
              · show PcOf ((s.t.grp k).tasks.set j .done)[i]? T'.pc
                rw [List.getElem?_set_ne (fun e => hi e.symm)]; exact this
            · exact this
          · show (t.grp k).tasks.length ≤ _
            rw [(hg k).1]; split
            · rename_i e; subst e
              show (List.set _ _ _).length ≤ _
              rw [List.length_set]; exact h.len k
            · exact h.len k
          · show (t.grp k).phase = _ ∨ (t.grp k).phase = _ → (t.grp k).tasks.length = _ ∧ 0 < (t.grp k).tasks.length
            rw [(hg k).1]; split
            · rename_i e; subst e
              show _ → (List.set _ _ _).length = _ ∧ 0 < (List.set _ _ _).length
              rw [List.length_set]; exact h.full k
            · exact h.full k
      · cases hb : T.step (E g) C (s.job g).time (s.job g).items with
        | ok x =>
          obtain ⟨m, T'⟩ := x
          left
          have hfw := ftask_forward hb hnf hd
          have hs1 : (s.job g).step (E g) C j =
              .ok { s.job g with items := m, tasks := (s.job g).tasks.set j T', time := (s.job g).time + 1 } := by
            rw [FSys.step.eq_def]; simp only [hT, hb]
          refine ⟨_, ?_, h.update (t := s.t) h.t rfl hst hs1 ?_ (fun _ _ => rfl) (h.errs g) ?_ rfl rfl⟩
          · refine xstep_of (a := none) ?_ rfl
            rw [XSys.act]
            simp only [hw, hT, if_neg hd, hb]
          · exact List.length_set
          · refine set_pcs (h.pcs g) ?_ (fun _ _ _ a => a)
            rw [hex]; exact hfw.1
        | error f =>
          cases f with
          | ub =>
            right
            refine ⟨?_, g, j, ?_⟩
            · rw [XSys.step, XSys.act]
              simp only [hw, hT, if_neg hd, hb]
              rfl
            · rw [FSys.step.eq_def]; simp only [hT, hb]
          | exn x =>
            left
            obtain ⟨t, h1, h2⟩ := h.t.fail w "error"
            have hg := fail_grp hw h1
            have hs1 : (s.job g).step (E g) C j =
                .ok { s.job g with tasks := (s.job g).tasks.set j { T with pc := .failed },
                                   errors := (s.job g).errors ++ ["error"], time := (s.job g).time + 1 } := by
              rw [FSys.step.eq_def]; simp only [hT, hb]
            have hgg := (hg g).1
            rw [if_pos rfl] at hgg
            refine ⟨_, ?_, h.update h2 (hg 0).2 hst hs1 ?_ (fun k hk => ?_) ?_ ?_ ?_ ?_⟩
            · refine xstep_of (a := some (.fail w "error")) ?_ h1
              rw [XSys.act]
              simp only [hw, hT, if_neg hd, hb]
            · exact List.length_set
            · rw [(hg k).1, if_neg hk]
            · rw [hgg]
              show _ ++ _ = _ ++ _
              rw [h.errs g]
            · rw [hgg]
              refine set_pcs (h.pcs g) ?_ (fun i hi p hp => ?_)
              · show PcOf (((s.t.grp g).tasks.set j .failed).map cancelOne)[j]? _
                rw [List.getElem?_map, List.getElem?_set_self hlt]; exact rfl
              · show PcOf (((s.t.grp g).tasks.set j .failed).map cancelOne)[i]? _
                rw [List.getElem?_map, List.getElem?_set_ne (fun e => hi e.symm)]
                revert hp
                cases (s.t.grp g).tasks[i]? with
                | none => exact id
                | some st => cases st <;> exact id
            · rw [hgg]
              show (List.map _ (List.set _ _ _)).length = _
              rw [List.length_map, List.length_set]
            · rw [hgg]
    · left
      have hno : ∀ g j, s.t.workers[w]? ≠ some (.running g j) := fun g j e => hr ⟨g, j, e⟩
      refine ⟨s, ?_, h⟩
      rw [XSys.step, idle hno]; rfl

theorem XInv.stepped {E : Nat → ExtEnv} {C : EngineConf} {P : Nat → ItemMap × List FTask} {s s' : XSys}
    (h : XInv E C P s) {e : XEv} (hs : s.step E C e = .ok s') : XInv E C P s' := by
  rcases h.step e with ⟨s1, h1, h2⟩ | ⟨h1, -⟩
  · rw [hs] at h1; cases h1; exact h2
  · rw [hs] at h1; cases h1

theorem XInv.ran {E : Nat → ExtEnv} {C : EngineConf} {P : Nat → ItemMap × List FTask} {es : List XEv} {s s' : XSys}
    (h : XInv E C P s) (hs : s.run E C es = .ok s') : XInv E C P s' := by
  induction es generalizing s with
  | nil => cases hs; exact h
  | cons e es ih =>
    rw [XSys.run] at hs
    obtain ⟨s1, h1, h2⟩ := res_bind_inv hs
    exact ih (h.stepped h1) h2

end GJ
