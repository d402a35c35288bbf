import Verif.Lemmas.EngineFiles

namespace GJ

open Spec

/-! ## Items no task works on -/

theorem setResult_frame {m m' : ItemMap} {k k' : String} {r : WireResult} (h : setResult m k r = .ok m') (hk : k' ≠ k) :
    m'.find k' = m.find k' := by
  rw [setResult] at h
  cases hf : m.find k with
  | none => rw [hf] at h; cases h
  | some it => rw [hf] at h; cases h; rw [AMap.find_set, if_neg (fun e => hk e.symm)]

theorem storeResults_frame {m m' : ItemMap} {ks : List String} {is : List Item} {k' : String}
    (h : storeResults m ks is = .ok m') (hk : k' ∉ ks) : m'.find k' = m.find k' := by
  induction ks generalizing m is with
  | nil => rw [storeResults] at h; cases h; rfl
  | cons k ks ih =>
    cases is with
    | nil => cases h
    | cons i is =>
      rw [storeResults] at h
      cases hr : i.result with
      | none => rw [hr] at h; cases h
      | some r =>
        rw [hr] at h
        obtain ⟨m1, h1, h2⟩ := res_bind_inv h
        rw [List.mem_cons, not_or] at hk
        rw [ih h2 hk.2, setResult_frame h1 hk.1]

theorem storeAll_frame {m m' : ItemMap} {fs : KeyMap} {g : FileMap} {k' : String}
    (h : storeAll m fs g = .ok m') (hk : ∀ f ∈ fs, k' ∉ f.2) : m'.find k' = m.find k' := by
  induction fs generalizing m with
  | nil => rw [storeAll] at h; cases h; rfl
  | cons f fs ih =>
    rw [storeAll] at h
    obtain ⟨m1, h1, h2⟩ := res_bind_inv h
    rw [ih h2 (fun x hx => hk x (List.mem_cons_of_mem _ hx)), storeResults_frame h1 (hk f (List.mem_cons_self ..))]

/-- The keys a task may still write. -/
def FTask.writes (T : FTask) : List String :=
  T.covers ++ match T.pc with
    | .work todo => todo.map Prod.fst
    | .fetching todo => todo
    | _ => []

theorem step_frame {E : ExtEnv} {C : EngineConf} {t : Nat} {m m' : ItemMap} {T T' : FTask} {k' : String}
    (h : T.step E C t m = .ok (m', T')) (hk : k' ∉ T.writes) : m'.find k' = m.find k' ∧ k' ∉ T'.writes := by
  obtain ⟨kind, pc⟩ := T
  cases pc with
  | failed =>
    have : (m', T') = (m, ⟨kind, .failed⟩) := by cases kind <;> exact (Except.ok.inj h).symm
    cases this
    exact ⟨rfl, hk⟩
  | finished =>
    have : (m', T') = (m, ⟨kind, .finished⟩) := by cases kind <;> exact (Except.ok.inj h).symm
    cases this
    exact ⟨rfl, hk⟩
  | fresh =>
    have hc : k' ∉ (⟨kind, .fresh⟩ : FTask).covers := fun hm => hk (List.mem_append.mpr (Or.inl hm))
    cases kind with
    | file f ks =>
      rw [FTask.step] at h
      simp only [] at h
      obtain ⟨infos, h1, h2⟩ := res_bind_inv h
      obtain ⟨todo, h3, h4⟩ := res_bind_inv h2
      cases h4
      refine ⟨rfl, ?_⟩
      rw [FTask.writes, List.mem_append, not_or]
      refine ⟨hc, ?_⟩
      simp only []
      rw [(pairInfos_spec h3).1]
      exact fun hm => hc ((sortKeys_perm m ks).mem_iff.mp hm)
    | inefficient f ks =>
      rw [FTask.step] at h
      cases h
      refine ⟨rfl, ?_⟩
      rw [FTask.writes, List.mem_append, not_or]
      exact ⟨hc, fun hm => hc ((sortKeys_perm m ks).mem_iff.mp hm)⟩
    | forward server files =>
      rw [FTask.step] at h
      simp only [] at h
      obtain ⟨back, h1, h2⟩ := res_bind_inv h
      obtain ⟨m1, h3, h4⟩ := res_bind_inv h2
      cases h4
      refine ⟨storeAll_frame h3 ?_, ?_⟩
      · intro f hf hm
        obtain ⟨g, hg, rfl⟩ := List.mem_map.mp hf
        exact hc (List.mem_flatMap.mpr ⟨g, hg, (sortKeys_perm m g.2).mem_iff.mp hm⟩)
      · rw [FTask.writes, List.mem_append, not_or]
        exact ⟨hc, by simp⟩
  | work todo =>
    cases kind with
    | file f ks =>
      cases todo with
      | nil =>
        rw [FTask.step] at h
        · cases h; exact ⟨rfl, hk⟩
        all_goals simp
      | cons x todo =>
        obtain ⟨k, o, i⟩ := x
        rw [FTask.step] at h
        simp only [] at h
        have hw : k' ≠ k ∧ k' ∉ (⟨.file f ks, .work todo⟩ : FTask).writes := by
          simp only [FTask.writes, FTask.covers, List.mem_append, List.map_cons, List.mem_cons, not_or] at hk ⊢
          exact ⟨hk.2.1, hk.1, hk.2.2⟩
        cases hf : m.find k with
        | none => rw [hf] at h; cases h
        | some it =>
          simp only [hf] at h
          obtain ⟨⟨⟩, hg, h⟩ := res_bind_inv h
          obtain ⟨r, hj, h⟩ := res_bind_inv h
          obtain ⟨m1, hs, h⟩ := res_bind_inv h
          cases h
          exact ⟨setResult_frame hs hw.1, hw.2⟩
    | inefficient f ks =>
      have : (m', T') = (m, ⟨.inefficient f ks, .finished⟩) := by
        rcases todo with _ | ⟨⟨k, o, i⟩, todo⟩ <;> exact (Except.ok.inj h).symm
      cases this
      refine ⟨rfl, ?_⟩
      rw [FTask.writes, List.mem_append, not_or] at hk ⊢
      exact ⟨hk.1, by simp⟩
    | forward s fs =>
      have : (m', T') = (m, ⟨.forward s fs, .finished⟩) := by
        rcases todo with _ | ⟨⟨k, o, i⟩, todo⟩ <;> exact (Except.ok.inj h).symm
      cases this
      refine ⟨rfl, ?_⟩
      rw [FTask.writes, List.mem_append, not_or] at hk ⊢
      exact ⟨hk.1, by simp⟩
  | fetching todo =>
    cases kind with
    | inefficient f ks =>
      cases todo with
      | nil =>
        rw [FTask.step] at h
        · cases h; exact ⟨rfl, hk⟩
        all_goals simp
      | cons k todo =>
        rw [FTask.step] at h
        simp only [] at h
        have hw : k' ≠ k ∧ k' ∉ (⟨.inefficient f ks, .fetching todo⟩ : FTask).writes := by
          simp only [FTask.writes, FTask.covers, List.mem_append, List.mem_cons, not_or] at hk ⊢
          exact ⟨hk.2.1, hk.1, hk.2.2⟩
        cases hf : m.find k with
        | none => rw [hf] at h; cases h
        | some it =>
          simp only [hf] at h
          split at h
          · cases h
          · obtain ⟨r, hj, h⟩ := res_bind_inv h
            obtain ⟨m1, hs, h⟩ := res_bind_inv h
            cases h
            exact ⟨setResult_frame hs hw.1, hw.2⟩
    | file f ks =>
      have : (m', T') = (m, ⟨.file f ks, .finished⟩) := by
        cases todo <;> exact (Except.ok.inj h).symm
      cases this
      refine ⟨rfl, ?_⟩
      rw [FTask.writes, List.mem_append, not_or] at hk ⊢
      exact ⟨hk.1, by simp⟩
    | forward s fs =>
      have : (m', T') = (m, ⟨.forward s fs, .finished⟩) := by
        cases todo <;> exact (Except.ok.inj h).symm
      cases this
      refine ⟨rfl, ?_⟩
      rw [FTask.writes, List.mem_append, not_or] at hk ⊢
      exact ⟨hk.1, by simp⟩

theorem sysStep_frame {E : ExtEnv} {C : EngineConf} {s s' : FSys} {j : Nat} {k' : String}
    (h : s.step E C j = .ok s') (hk : ∀ T ∈ s.tasks, k' ∉ T.writes) :
    s'.items.find k' = s.items.find k' ∧ ∀ T ∈ s'.tasks, k' ∉ T.writes := by
  rw [FSys.step] at h
  cases ht : s.tasks[j]? with
  | none => rw [ht] at h; cases h; exact ⟨rfl, hk⟩
  | some T =>
    rw [ht] at h
    simp only [] at h
    have hT := hk T (List.mem_of_getElem? ht)
    split at h
    · rename_i m1 T1 hst
      cases h
      obtain ⟨h1, h2⟩ := step_frame hst hT
      refine ⟨h1, ?_⟩
      intro T2 hT2
      rcases List.mem_or_eq_of_mem_set hT2 with h3 | rfl
      · exact hk T2 h3
      · exact h2
    · cases h
    · cases h
      refine ⟨rfl, ?_⟩
      intro T2 hT2
      rcases List.mem_or_eq_of_mem_set hT2 with h3 | rfl
      · exact hk T2 h3
      · rw [FTask.writes, List.mem_append, not_or] at hT ⊢
        exact ⟨hT.1, by simp⟩

theorem run_frame {E : ExtEnv} {C : EngineConf} {js : List Nat} {s s' : FSys} {k' : String}
    (h : s.run E C js = .ok s') (hk : ∀ T ∈ s.tasks, k' ∉ T.writes) :
    s'.items.find k' = s.items.find k' ∧ ∀ T ∈ s'.tasks, k' ∉ T.writes := by
  induction js generalizing s with
  | nil => rw [FSys.run] at h; cases h; exact ⟨rfl, hk⟩
  | cons j js ih =>
    rw [FSys.run] at h
    obtain ⟨s1, h1, h2⟩ := res_bind_inv h
    obtain ⟨a, b⟩ := sysStep_frame h1 hk
    obtain ⟨c, d⟩ := ih h2 b
    exact ⟨c.trans a, d⟩

theorem runTasks_frame {E : ExtEnv} {C : EngineConf} {m : ItemMap} {tasks : List FTask} {sched : List Nat} {s : FSys}
    {k' : String} (h : runTasks E C m tasks sched = .ok s) (hf : ∀ T ∈ tasks, T.pc = .fresh)
    (hk : ∀ T ∈ tasks, k' ∉ T.covers) : s.items.find k' = m.find k' := by
  rw [runTasks] at h
  obtain ⟨⟨⟩, hpos, h⟩ := res_bind_inv h
  obtain ⟨s1, h1, h2⟩ := res_bind_inv h
  have h0 : ∀ T ∈ tasks, k' ∉ T.writes := by
    intro T hT
    rw [FTask.writes, hf T hT, List.mem_append, not_or]
    exact ⟨hk T hT, by simp⟩
  obtain ⟨a, b⟩ := run_frame h1 h0
  obtain ⟨c, -⟩ := run_frame h2 b
  exact c.trans a

theorem localTasks_covers {C : EngineConf} {m : ItemMap} {fm : KeyMap} {q : Bool} {ts : List FTask}
    (h : localTasks C m q fm = .ok ts) :
    (∀ T ∈ ts, T.pc = .fresh) ∧ ts.flatMap FTask.covers = fm.flatMap Prod.snd := by
  induction fm generalizing q ts with
  | nil => rw [localTasks] at h; cases h; exact ⟨(fun _ h => by cases h), rfl⟩
  | cons e fm ih =>
    obtain ⟨f, ks⟩ := e
    rw [localTasks] at h
    obtain ⟨u, hu, h⟩ := res_bind_inv h
    split at h
    · split at h
      · obtain ⟨tl, htl, h⟩ := res_bind_inv h
        cases h
        obtain ⟨h1, h3⟩ := ih htl
        refine ⟨?_, by rw [List.flatMap_cons, List.flatMap_cons, h3]; rfl⟩
        intro T hT
        rcases List.mem_cons.mp hT with rfl | hT
        · rfl
        · exact h1 T hT
      · split at h <;> cases h
    · obtain ⟨tl, htl, h⟩ := res_bind_inv h
      cases h
      obtain ⟨h1, h3⟩ := ih htl
      refine ⟨?_, by rw [List.flatMap_cons, List.flatMap_cons, h3]; rfl⟩
      intro T hT
      rcases List.mem_cons.mp hT with rfl | hT
      · rfl
      · exact h1 T hT

/-- Items outside the file map are left alone. -/
theorem scheduleTasks_frame {E : ExtEnv} {C : EngineConf} {fwd : Bool} {m m' : ItemMap} {fm : KeyMap} {done : List String}
    {sched : List Nat} {errs : List String} {k : String} (g : Groups m fm done)
    (h : scheduleTasks E C fwd m fm sched = .ok (m', errs)) (hk : k ∉ done) : m'.find k = m.find k := by
  have hfm : k ∉ fm.flatMap Prod.snd := fun hm => hk (g.part.mem_iff.mp hm)
  rw [scheduleTasks] at h
  cases fwd with
  | true =>
    rw [if_pos rfl] at h
    obtain ⟨sm, hsm, h⟩ := res_bind_inv h
    obtain ⟨s, hs, h⟩ := res_bind_inv h
    obtain ⟨e1, e2⟩ := Prod.mk.inj (Except.ok.inj h)
    subst e1
    obtain ⟨-, hperm, -, -, hserv⟩ := serverFileMap_spec g.files hsm
    refine runTasks_frame hs ?_ ?_
    · intro T hT
      obtain ⟨e, -, rfl⟩ := List.mem_map.mp hT
      rfl
    · intro T hT hm
      obtain ⟨e, he, rfl⟩ := List.mem_map.mp hT
      obtain ⟨f, hf, hkf⟩ := List.mem_flatMap.mp hm
      exact hfm (List.mem_flatMap.mpr ⟨f, (hserv e he f hf).1, hkf⟩)
  | false =>
    rw [if_neg (by simp)] at h
    obtain ⟨ts, hts, h⟩ := res_bind_inv h
    obtain ⟨s, hs, h⟩ := res_bind_inv h
    obtain ⟨e1, e2⟩ := Prod.mk.inj (Except.ok.inj h)
    subst e1
    obtain ⟨h1, h3⟩ := localTasks_covers hts
    refine runTasks_frame hs h1 ?_
    intro T hT hm
    apply hfm
    rw [← h3]
    exact List.mem_flatMap.mpr ⟨T, hT, hm⟩

/-! ## Success -/

/-- The environment answers for the item at `u` asked for with `q`. -/
def Answers (E : ExtEnv) (C : EngineConf) (info : String → Nat → Info) (u : Uri) (q : ExRequest) : Prop :=
  gridCheck C.ignoreGrid q.gridHash (info u.path u.offset).base.md5GridSection = .ok () ∧
  (∀ t offs, E.infos t u.path offs = .ok (offs.map (info u.path))) ∧
  ∀ t, ∃ r, E.jump t u.path u.offset (info u.path u.offset) q.ranges = .ok r

theorem pairInfos_ok (m : ItemMap) (ks : List String) (is : List Info) (h : ks.length = is.length) :
    ∃ todo, pairInfos m ks is = .ok todo := by
  induction ks generalizing is with
  | nil => exact ⟨[], rfl⟩
  | cons k ks ih =>
    cases is with
    | nil => simp at h
    | cons i is =>
      obtain ⟨tl, ht⟩ := ih is (by simpa using h)
      exact ⟨_, by rw [pairInfos, ht]; rfl⟩

/-- A local task. -/
def FTask.isFile (T : FTask) : Prop := ∃ f ks, T.kind = .file f ks ∧ ks ≠ []

theorem step_ok {E : ExtEnv} {C : EngineConf} {P : Uri → ExRequest → WireResult → Prop} {fwd : Bool}
    {info : String → Nat → Info} {t : Nat} {m : ItemMap} {T : FTask} (hfile : T.isFile) (hv : T.Valid C fwd m)
    (hp : T.Progress E P m)
    (ha : ∀ k ∈ T.covers, ∀ it, m.find k = some it → Answers E C info it.uri it.request) :
    ∃ r, T.step E C t m = .ok r := by
  obtain ⟨kind, pc⟩ := T
  obtain ⟨f, ks, hkind, hne⟩ := hfile
  simp only [] at hkind
  subst hkind
  cases pc with
  | failed => exact ⟨_, rfl⟩
  | finished => exact ⟨_, rfl⟩
  | fetching todo => exact absurd hp (by simp [FTask.Progress])
  | fresh =>
    rw [FTask.step]
    simp only []
    obtain ⟨k0, hk0⟩ : ∃ k, k ∈ ks := List.exists_mem_of_ne_nil ks hne
    obtain ⟨it0, hit0, hp0, -⟩ := hv k0 hk0
    have := (ha k0 hk0 it0 hit0).2.1 t ((sortKeys m ks).map (offsetOf m))
    rw [hp0] at this
    rw [this, ok_bind]
    obtain ⟨todo, ht⟩ := pairInfos_ok m (sortKeys m ks) (((sortKeys m ks).map (offsetOf m)).map (info f)) (by simp)
    rw [ht]
    exact ⟨_, rfl⟩
  | work todo =>
    cases todo with
    | nil => exact ⟨_, rfl⟩
    | cons x todo =>
      obtain ⟨k, o, i⟩ := x
      rw [FTask.step]
      obtain ⟨hko, t0, offs, infos, j, hinf, hoj, hij⟩ := (hp.2 _ (List.mem_cons_self ..)).2
      have hkm := (hp.2 _ (List.mem_cons_self ..)).1
      obtain ⟨it, hit, hpath, hsch⟩ := hv k hkm
      obtain ⟨h1, h2, h3⟩ := ha k hkm it hit
      simp only [hit]
      simp only [] at hko hoj hij
      have ho : o = it.uri.offset := by rw [hko, offsetOf, hit]; rfl
      have hi : i = info it.uri.path it.uri.offset := by
        have h2 := h2 t0 offs
        rw [hpath, hinf] at h2
        have e := Except.ok.inj h2
        rw [e, List.getElem?_map, hoj, Option.map_some] at hij
        rw [← Option.some.inj hij, ho, hpath]
      rw [hi, h1, ok_bind]
      obtain ⟨r, hr⟩ := h3 t
      rw [ho, ← hpath, hr, ok_bind]
      obtain ⟨m', hm'⟩ := setResult_ok r hit
      rw [hm']
      exact ⟨_, rfl⟩

theorem run_ok {E : ExtEnv} {C : EngineConf} {P : Uri → ExRequest → WireResult → Prop} {fwd : Bool}
    {info : String → Nat → Info} (hE : Produces E C fwd P) {m : ItemMap} {tasks : List FTask} {js : List Nat} {s : FSys}
    (hi : RunInv E C fwd P m tasks s) (he : s.errors = []) (hfile : ∀ T ∈ tasks, T.isFile)
    (ha : ∀ T ∈ tasks, ∀ k ∈ T.covers, ∀ it, m.find k = some it → Answers E C info it.uri it.request) :
    ∃ s', s.run E C js = .ok s' ∧ s'.errors = [] ∧ RunInv E C fwd P m tasks s' := by
  induction js generalizing s with
  | nil => exact ⟨s, rfl, he, hi⟩
  | cons j js ih =>
    have hstep : ∃ s1, s.step E C j = .ok s1 ∧ s1.errors = [] := by
      rw [FSys.step]
      cases ht : s.tasks[j]? with
      | none => exact ⟨_, rfl, he⟩
      | some T =>
        simp only []
        have hTm := List.mem_of_getElem? ht
        have hk : T.kind ∈ tasks.map FTask.kind := by
          rw [← hi.kinds]; exact List.mem_map.mpr ⟨T, hTm, rfl⟩
        obtain ⟨T0, hT0, ek⟩ := List.mem_map.mp hk
        have hfT : T.isFile := by
          obtain ⟨f, ks, h1, h2⟩ := hfile T0 hT0
          exact ⟨f, ks, by rw [← ek, h1], h2⟩
        obtain ⟨r, hr⟩ := step_ok (t := s.time) hfT (hi.valid T hTm) (hi.progress he T hTm) (info := info) (by
          intro k hk it hit
          have hc : T.covers = T0.covers := by rw [FTask.covers, FTask.covers, ek]
          have := hi.same.rest k
          rw [hit] at this
          cases hm : m.find k with
          | none => rw [hm] at this; cases this
          | some it0 =>
            rw [hm] at this
            simp only [Option.map_some, Option.some.injEq, Prod.mk.injEq] at this
            rw [this.1, this.2]
            exact ha T0 hT0 k (by rw [← hc]; exact hk) it0 hm)
        rw [hr]
        exact ⟨_, rfl, he⟩
    obtain ⟨s1, h1, h2⟩ := hstep
    obtain ⟨i1, -⟩ := sysStep_spec hE hi h1 h2
    obtain ⟨s2, h3, h4, h5⟩ := ih i1 h2
    exact ⟨s2, by rw [FSys.run, h1, ok_bind, h3], h4, h5⟩

theorem runTasks_ok {E : ExtEnv} {C : EngineConf} {info : String → Nat → Info} {m : ItemMap} {tasks : List FTask}
    {sched : List Nat} (hne : tasks ≠ []) (hf : ∀ T ∈ tasks, T.pc = .fresh) (hv : ∀ T ∈ tasks, T.Valid C false m)
    (hfile : ∀ T ∈ tasks, T.isFile)
    (ha : ∀ T ∈ tasks, ∀ k ∈ T.covers, ∀ it, m.find k = some it → Answers E C info it.uri it.request) :
    ∃ s, runTasks E C m tasks sched = .ok s ∧ s.errors = [] := by
  have hE : Produces E C false (fun _ _ _ => True) :=
    ⟨fun _ _ _ _ _ _ _ _ _ _ _ _ _ _ _ _ => trivial, fun _ _ _ _ _ _ _ => trivial, fun h => by cases h⟩
  have i0 : RunInv E C false (fun _ _ _ => True) m tasks ⟨m, tasks, [], 0⟩ := by
    refine ⟨SameItems.refl _, rfl, hv, ?_⟩
    intro _ T hT
    have := hf T hT
    obtain ⟨kind, pc⟩ := T
    simp only [] at this
    subst this
    cases kind <;> trivial
  have hpos : cassert (decide (0 < tasks.length)) = .ok () := by
    rw [decide_eq_true (List.length_pos_iff.mpr hne)]
    rfl
  obtain ⟨s1, h1, h2, h3⟩ := run_ok hE i0 rfl hfile ha (js := sched)
  obtain ⟨s2, h4, h5, -⟩ := run_ok hE h3 h2 hfile ha
    (js := (List.range tasks.length).flatMap fun j => List.replicate ((tasks[j]?.map FTask.fuel).getD 0) j)
  exact ⟨s2, by rw [runTasks, hpos, ok_bind, h1, ok_bind, h4], h5⟩

theorem localTasks_ok {C : EngineConf} {m : ItemMap} {fm : KeyMap} {q : Bool}
    (hpath : ∀ e ∈ fm, ∀ k ∈ e.2, ∃ it, m.find k = some it ∧ it.uri.path = e.1) (hne : ∀ e ∈ fm, e.2 ≠ [])
    (hs : ∀ e ∈ fm, ∀ k ∈ e.2, ∀ it, m.find k = some it → it.uri.scheme ≠ "fdb") :
    localTasks C m q fm = .ok (fm.map fun e => ⟨.file e.1 e.2, .fresh⟩) := by
  induction fm generalizing q with
  | nil => rfl
  | cons e fm ih =>
    obtain ⟨f, ks⟩ := e
    cases hks : ks with
    | nil => exact absurd hks (hne (f, ks) (List.mem_cons_self ..))
    | cons k0 ks0 =>
      obtain ⟨it, hit, -⟩ := hpath (f, ks) (List.mem_cons_self ..) k0 (by rw [hks]; exact List.mem_cons_self ..)
      have hsch := hs (f, ks) (List.mem_cons_self ..) k0 (by rw [hks]; exact List.mem_cons_self ..) it hit
      have hfu : firstUri m (k0 :: ks0) = .ok it.uri := by simp only [firstUri, hit]
      rw [localTasks, hfu, ok_bind, if_neg hsch, ih (fun e he => hpath e (List.mem_cons_of_mem _ he))
        (fun e he => hne e (List.mem_cons_of_mem _ he)) (fun e he => hs e (List.mem_cons_of_mem _ he))]
      rfl

/-- Local scheduling succeeds without errors when the environment answers. -/
theorem scheduleTasks_ok {E : ExtEnv} {C : EngineConf} {info : String → Nat → Info} {m : ItemMap} {fm : KeyMap}
    {done : List String} {sched : List Nat} (g : Groups m fm done) (hd : done ≠ [])
    (hs : ∀ k ∈ done, ∀ it, m.find k = some it → it.uri.scheme ≠ "fdb")
    (ha : ∀ k ∈ done, ∀ it, m.find k = some it → Answers E C info it.uri it.request) :
    ∃ m', scheduleTasks E C false m fm sched = .ok (m', []) := by
  have hlt : localTasks C m false fm = .ok (fm.map fun e => ⟨.file e.1 e.2, .fresh⟩) :=
    localTasks_ok g.path g.nonempty (fun e he k hk => hs k (g.mem_done he hk))
  have hne : (fm.map fun e => (⟨.file e.1 e.2, .fresh⟩ : FTask)) ≠ [] := by
    intro h
    rw [List.map_eq_nil_iff] at h
    subst h
    have := g.part
    rw [List.flatMap_nil] at this
    exact hd (List.nil_perm.mp this)
  obtain ⟨s, h1, h2⟩ := runTasks_ok (E := E) (C := C) (info := info) (m := m) (sched := sched) hne (by
      intro T hT
      obtain ⟨e, -, rfl⟩ := List.mem_map.mp hT
      rfl) (by
      intro T hT
      obtain ⟨e, he, rfl⟩ := List.mem_map.mp hT
      intro k hk
      obtain ⟨it, hit, hp⟩ := g.path e he k hk
      exact ⟨it, hit, hp, hs k (g.mem_done he hk) it hit, rfl⟩) (by
      intro T hT
      obtain ⟨e, he, rfl⟩ := List.mem_map.mp hT
      exact ⟨e.1, e.2, rfl, g.nonempty e he⟩) (by
      intro T hT k hk
      obtain ⟨e, he, rfl⟩ := List.mem_map.mp hT
      exact ha k (g.mem_done he hk))
  refine ⟨s.items, ?_⟩
  rw [scheduleTasks, if_neg (by simp), hlt, ok_bind, h1, ok_bind, h2]

end GJ
