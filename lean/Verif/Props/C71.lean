import Verif.Lemmas.Execution
import Verif.Props.C69

/-!
# C71: calls that share the work queue

C27 to C69 say what a call returns for every interleaving of the steps of its tasks; C23 to C26 say how the queue, the
workers and the groups behave whatever tasks do.  Here both are one program: any number of calls, each with its own
tasks, on one queue with any number of workers.
-/

namespace GJ
open Spec

/-! ## What a call gets is what one of its interleavings gives -/

theorem ended_step {E : ExtEnv} {C : EngineConf} {s : FSys} (j : Nat)
    (h : ∀ T ∈ s.tasks, T.pc = .finished ∨ T.pc = .failed) :
    s.step E C j = .ok { s with time := s.time + 1 } := by
  rw [FSys.step.eq_def]
  cases ht : s.tasks[j]? with
  | none => rfl
  | some T =>
    have hT : T.step E C s.time s.items = .ok (s.items, T) := by
      obtain ⟨kind, pc⟩ := T
      rcases h _ (List.mem_of_getElem? ht) with e | e <;> (simp only [] at e; subst e; cases kind <;> rfl)
    simp only [hT]
    obtain ⟨hj, e⟩ := List.getElem?_eq_some_iff.mp ht
    rw [← e, List.set_getElem_self]

theorem ended_run {E : ExtEnv} {C : EngineConf} (js : List Nat) {s : FSys}
    (h : ∀ T ∈ s.tasks, T.pc = .finished ∨ T.pc = .failed) :
    ∃ s', s.run E C js = .ok s' ∧ s'.items = s.items ∧ s'.errors = s.errors := by
  induction js generalizing s with
  | nil => exact ⟨s, rfl, rfl, rfl⟩
  | cons j js ih =>
    obtain ⟨s', h1, h2, h3⟩ := ih (s := { s with time := s.time + 1 }) h
    exact ⟨s', by rw [FSys.run, ended_step j h, ok_bind, h1], h2, h3⟩

/-- C71.  When the wait of a call has returned, the items and the error report of the call are those that its tasks give
in some interleaving of their own steps, whatever the other calls did and however the workers were shared; the
interleaving has steps of started tasks only. -/
theorem C71_refines (n : Nat) (E : Nat → ExtEnv) (C : EngineConf) (P : Nat → ItemMap × List FTask)
    (hP : ∀ g, ∀ T ∈ (P g).2, T.pc = .fresh) (es : List XEv) (s : XSys)
    (hs : (XSys.init n P).run E C es = .ok s) (g : Nat) (hr : (s.t.grp g).phase = .returned) :
    ∃ sched s', runTasks (E g) C (P g).1 (P g).2 sched = .ok s' ∧ s'.items = (s.job g).items ∧
      s'.errors = (s.t.grp g).errors ∧ ∀ j ∈ sched, (g, j) ∈ s.t.started := by
  have h := (XInv.init (E := E) (C := C) (n := n) hP).ran hs
  obtain ⟨js, h1, h2⟩ := h.run g
  have hend : ∀ T ∈ (s.job g).tasks, T.pc = .finished ∨ T.pc = .failed := by
    intro T hT
    obtain ⟨j, hj⟩ := List.getElem?_of_mem hT
    have hp := h.pcs g j T hj
    have hlt := (List.getElem?_eq_some_iff.mp hj).1
    rw [← (h.full g (Or.inr hr)).1] at hlt
    rcases (h.t.returned hr j).1 with e | e | e
    · rw [List.getElem?_eq_none_iff] at e; omega
    · rw [e] at hp; exact Or.inl hp
    · rw [e] at hp; exact Or.inr hp
  obtain ⟨s', h3, h4, h5⟩ := ended_run (E := E g) (C := C)
    ((List.range (P g).2.length).flatMap fun j => List.replicate (((P g).2[j]?.map FTask.fuel).getD 0) j) hend
  refine ⟨js, s', ?_, h4, ?_, h2⟩
  · have hpos : 0 < (P g).2.length := by
      rw [← h.size g, ← (h.full g (Or.inr hr)).1]; exact (h.full g (Or.inr hr)).2
    rw [runTasks, decide_eq_true hpos]
    show (FSys.run _ _ _ _ >>= fun s => _) = _
    rw [h1, ok_bind, h3]
  · rw [h5, h.errs g]

theorem scheduleTasks_eq (E : ExtEnv) (C : EngineConf) (fwd : Bool) (m : ItemMap) (fm : KeyMap) (sched : List Nat) :
    scheduleTasks E C fwd m fm sched = (do
      let ts ← plannedTasks C fwd m fm
      let s ← runTasks E C m ts sched
      .ok (s.items, s.errors)) := by
  rw [scheduleTasks, plannedTasks]
  cases fwd with
  | true =>
    rw [if_pos rfl, if_pos rfl]
    cases serverFileMap C m fm with
    | error e => rfl
    | ok sm => rfl
  | false => rfl

/-- A call is its beginning, its tasks and its end. -/
theorem localExtract_eq (E : ExtEnv) (C : EngineConf) (sched : List Nat) (rs : List ExRequest) :
    localExtract E C sched rs = (do
      let x ← callStart E C rs
      let s ← runTasks E C x.2.1 x.2.2 sched
      callEnd x.1 s.items s.errors) := by
  rw [localExtract, engineExtract, callStart]
  cases buildRequestMap C.ignoreYearMonth rs with
  | error e => rfl
  | ok a =>
    obtain ⟨rs', u, m⟩ := a
    simp only [ok_bind]
    cases E.list u with
    | error e => rfl
    | ok L =>
      simp only [ok_bind]
      cases fileMap C L m with
      | error e => rfl
      | ok b =>
        obtain ⟨m1, fm⟩ := b
        simp only [ok_bind]
        rw [scheduleTasks_eq]
        cases plannedTasks C C.forward m1 fm with
        | error e => rfl
        | ok ts =>
          simp only [ok_bind]
          cases runTasks E C m1 ts sched with
          | error e => rfl
          | ok s => rfl

theorem localExtractPaths_eq (E : ExtEnv) (C : EngineConf) (sched : List Nat) (rs : List PathReq) :
    localExtractPaths E C sched rs = (do
      let x ← pathStart C rs
      let s ← runTasks E C x.1 x.2 sched
      callEnd (rs.map PathReq.base) s.items s.errors) := by
  rw [localExtractPaths, engineExtractPaths.eq_def, pathStart.eq_def]
  cases rs with
  | nil => rfl
  | cons r rest =>
    simp only []
    rw [scheduleTasks_eq]
    cases plannedTasks C (!(decide (r.host = "") && decide (r.port = 0))) (buildPathMap (r :: rest))
        (fileMapFromPaths (buildPathMap (r :: rest))) with
    | error e => rfl
    | ok ts =>
      simp only [ok_bind]
      cases runTasks E C (buildPathMap (r :: rest)) ts sched with
      | error e => rfl
      | ok s =>
        show (if s.errors ≠ [] then _ else _) = callEnd _ _ _
        rw [callEnd, List.length_map]

theorem localTasks_fresh {C : EngineConf} {m : ItemMap} {q : Bool} {fm : KeyMap} {ts : List FTask}
    (h : localTasks C m q fm = .ok ts) : ∀ T ∈ ts, T.pc = .fresh := by
  induction fm generalizing q ts with
  | nil => cases h; intro _ h; cases h
  | cons e fm ih =>
    obtain ⟨f, ks⟩ := e
    rw [localTasks] at h
    obtain ⟨u, -, h⟩ := res_bind_inv h
    split at h
    · split at h
      · obtain ⟨tl, h1, h⟩ := res_bind_inv h
        cases h
        intro T hT
        rcases List.mem_cons.mp hT with rfl | hT
        · rfl
        · exact ih h1 T hT
      · split at h <;> cases h
    · obtain ⟨tl, h1, h⟩ := res_bind_inv h
      cases h
      intro T hT
      rcases List.mem_cons.mp hT with rfl | hT
      · rfl
      · exact ih h1 T hT

theorem plannedTasks_fresh {C : EngineConf} {fwd : Bool} {m : ItemMap} {fm : KeyMap} {ts : List FTask}
    (h : plannedTasks C fwd m fm = .ok ts) : ∀ T ∈ ts, T.pc = .fresh := by
  rw [plannedTasks] at h
  split at h
  · obtain ⟨sm, -, h⟩ := res_bind_inv h
    cases h
    intro T hT
    obtain ⟨e, -, rfl⟩ := List.mem_map.mp hT
    rfl
  · exact localTasks_fresh h

/-- The calls of a process: requests by field or by path, with what they list and read. -/
inductive Call where
  | fields (E : ExtEnv) (rs : List ExRequest)
  | paths (E : ExtEnv) (rs : List PathReq)

def Call.env : Call → ExtEnv
  | .fields E _ => E
  | .paths E _ => E

/-- The call alone, with the given interleaving of its tasks. -/
def Call.alone (C : EngineConf) (sched : List Nat) : Call → Res (List WireResult)
  | .fields E rs => localExtract E C sched rs
  | .paths E rs => localExtractPaths E C sched rs

/-- The requests as they are at the end of the call, the items and the tasks. -/
def Call.start (C : EngineConf) : Call → Res (List ExRequest × ItemMap × List FTask)
  | .fields E rs => callStart E C rs
  | .paths _ rs => do
    let x ← pathStart C rs
    .ok (rs.map PathReq.base, x)

theorem Call.alone_eq (c : Call) (C : EngineConf) (sched : List Nat) :
    c.alone C sched = (do
      let x ← c.start C
      let s ← runTasks c.env C x.2.1 x.2.2 sched
      callEnd x.1 s.items s.errors) := by
  cases c with
  | fields E rs => exact localExtract_eq E C sched rs
  | paths E rs =>
    rw [Call.alone, localExtractPaths_eq, Call.start]
    cases pathStart C rs with
    | error e => rfl
    | ok x => rfl

theorem Call.start_fresh {c : Call} {C : EngineConf} {x : List ExRequest × ItemMap × List FTask}
    (h : c.start C = .ok x) : ∀ T ∈ x.2.2, T.pc = .fresh := by
  cases c with
  | fields E rs =>
    rw [Call.start, callStart] at h
    obtain ⟨⟨rs', u, m⟩, -, h⟩ := res_bind_inv h
    obtain ⟨L, -, h⟩ := res_bind_inv h
    obtain ⟨⟨m1, fm⟩, -, h⟩ := res_bind_inv h
    obtain ⟨ts, h1, h⟩ := res_bind_inv h
    cases h
    exact plannedTasks_fresh h1
  | paths E rs =>
    rw [Call.start] at h
    obtain ⟨y, h1, h⟩ := res_bind_inv h
    cases h
    rw [pathStart.eq_def] at h1
    split at h1
    · cases h1
    · obtain ⟨ts, h2, h1⟩ := res_bind_inv h1
      cases h1
      exact plannedTasks_fresh h2

/-- The process in which call `g` has been prepared as `x g`. -/
def XSys.of (n : Nat) (x : Nat → List ExRequest × ItemMap × List FTask) : XSys := XSys.init n fun g => (x g).2

/-- What call `g` returns to its caller, from the state of the process when its wait has returned. -/
def XSys.outcome (s : XSys) (x : Nat → List ExRequest × ItemMap × List FTask) (g : Nat) : Res (List WireResult) :=
  callEnd (x g).1 (s.job g).items (s.t.grp g).errors

/-- Every call was prepared, or failed before it had a task. -/
def Prepared (C : EngineConf) (calls : Nat → Call) (x : Nat → List ExRequest × ItemMap × List FTask) : Prop :=
  ∀ g, (calls g).start C = .ok (x g) ∨ (x g).2.2 = []

theorem Prepared.fresh {C : EngineConf} {calls : Nat → Call} {x : Nat → List ExRequest × ItemMap × List FTask}
    (h : Prepared C calls x) (g : Nat) : ∀ T ∈ (x g).2.2, T.pc = .fresh := by
  rcases h g with h | h
  · exact Call.start_fresh h
  · rw [h]; intro _ h; cases h

theorem Prepared.inv {C : EngineConf} {calls : Nat → Call} {x : Nat → List ExRequest × ItemMap × List FTask}
    (h : Prepared C calls x) {n : Nat} {es : List XEv} {s : XSys}
    (hs : (XSys.of n x).run (fun g => (calls g).env) C es = .ok s) :
    XInv (fun g => (calls g).env) C (fun g => (x g).2) s :=
  (XInv.init (E := fun g => (calls g).env) (C := C) (n := n) (P := fun g => (x g).2) h.fresh).ran hs

/-- A call with tasks was prepared. -/
theorem Prepared.start {C : EngineConf} {calls : Nat → Call} {x : Nat → List ExRequest × ItemMap × List FTask}
    (h : Prepared C calls x) {g : Nat} (hne : 0 < (x g).2.2.length) : (calls g).start C = .ok (x g) := by
  rcases h g with h | h
  · exact h
  · rw [h] at hne; cases hne

/-- C71.  What a call gets while sharing the queue and the workers with any number of other calls is what it gets alone,
for some interleaving of its own tasks.  So all that is proved of a call for every interleaving holds of calls that run
at the same time. -/
theorem C71_calls_as_alone (n : Nat) (C : EngineConf) (calls : Nat → Call)
    (x : Nat → List ExRequest × ItemMap × List FTask) (prepared : Prepared C calls x) (es : List XEv)
    (s : XSys) (hs : (XSys.of n x).run (fun g => (calls g).env) C es = .ok s) (g : Nat)
    (returned : (s.t.grp g).phase = .returned) : ∃ sched, (calls g).alone C sched = s.outcome x g := by
  obtain ⟨sched, s', h1, h2, h3, -⟩ := C71_refines n (fun g => (calls g).env) C (fun g => (x g).2)
    prepared.fresh es s hs g returned
  have hi := prepared.inv hs
  have hpos : 0 < (x g).2.2.length := by
    rw [← hi.size g, ← (hi.full g (Or.inr returned)).1]; exact (hi.full g (Or.inr returned)).2
  refine ⟨sched, ?_⟩
  rw [Call.alone_eq, prepared.start hpos, ok_bind, h1, ok_bind, XSys.outcome, h2, h3]

/-! ## No shared execution is undefined unless a call alone is -/

theorem runTasks_prefix {E : ExtEnv} {C : EngineConf} {m : ItemMap} {ts : List FTask} {js : List Nat}
    (hne : 0 < ts.length) (h : FSys.run E C ⟨m, ts, [], 0⟩ js = undef) : runTasks E C m ts js = undef := by
  rw [runTasks, decide_eq_true hne]
  show (FSys.run _ _ _ _ >>= fun s => _) = _
  rw [h]; rfl

theorem XInv.defined {E : Nat → ExtEnv} {C : EngineConf} {P : Nat → ItemMap × List FTask}
    (hb : ∀ g js, 0 < (P g).2.length → FSys.run (E g) C ⟨(P g).1, (P g).2, [], 0⟩ js ≠ undef) (es : List XEv)
    {s : XSys} (h : XInv E C P s) : ∃ s', s.run E C es = .ok s' := by
  induction es generalizing s with
  | nil => exact ⟨s, rfl⟩
  | cons e es ih =>
    rcases h.step e with ⟨s1, h1, h2⟩ | ⟨-, g, j, hu⟩
    · obtain ⟨s2, h3⟩ := ih h2
      exact ⟨s2, by rw [XSys.run, h1, ok_bind, h3]⟩
    · exfalso
      obtain ⟨js, h1, -⟩ := h.run g
      refine hb g (js ++ [j]) ?_ ?_
      · rw [← h.size g]
        apply Classical.byContradiction
        intro hz
        have : (s.job g).tasks[j]? = none := List.getElem?_eq_none (by omega)
        rw [FSys.step.eq_def] at hu
        simp only [this] at hu
        cases hu
      · rw [fsys_run_append, h1, ok_bind, FSys.run, hu]; rfl

/-- C71.  If no call alone is undefined, in any interleaving of its tasks, then no execution of calls that share the
queue is undefined, and none throws in a worker or in the queue. -/
theorem C71_defined (n : Nat) (C : EngineConf) (calls : Nat → Call)
    (x : Nat → List ExRequest × ItemMap × List FTask) (prepared : Prepared C calls x)
    (alone : ∀ g sched, (calls g).alone C sched ≠ undef) (es : List XEv) :
    ∃ s, (XSys.of n x).run (fun g => (calls g).env) C es = .ok s := by
  refine XInv.defined ?_ es (XInv.init (E := fun g => (calls g).env) (C := C) (n := n) (P := fun g => (x g).2)
    prepared.fresh)
  intro g js hpos hu
  refine alone g js ?_
  rw [Call.alone_eq, prepared.start hpos, ok_bind, runTasks_prefix hpos hu]; rfl

/-! ## A call returns -/

/-- An infinite execution of calls on a queue. -/
structure XExecution (n : Nat) (E : Nat → ExtEnv) (C : EngineConf) (P : Nat → ItemMap × List FTask) (ev : Nat → XEv)
    (st : Nat → XSys) : Prop where
  start : st 0 = XSys.init n P
  step : ∀ k, (st k).step E C (ev k) = .ok (st (k + 1))
  fresh : ∀ g, ∀ T ∈ (P g).2, T.pc = .fresh

/-- Every worker keeps running. -/
def XWorkersFair (n : Nat) (ev : Nat → XEv) : Prop :=
  ∀ w, w < n → ∀ k, (∃ m, k ≤ m ∧ ev m = .pop w) ∧ (∃ m, k ≤ m ∧ ev m = .start w) ∧ (∃ m, k ≤ m ∧ ev m = .work w)

/-- The thread of call `g` keeps running. -/
def XCallFair (g : Nat) (ev : Nat → XEv) : Prop :=
  ∀ k, (∃ m, k ≤ m ∧ ev m = .add g) ∧ (∃ m, k ≤ m ∧ ev m = .push g) ∧ (∃ m, k ≤ m ∧ ev m = .wait g) ∧
    (∃ m, k ≤ m ∧ ev m = .ret g)

theorem XExecution.inv {n : Nat} {E : Nat → ExtEnv} {C : EngineConf} {P : Nat → ItemMap × List FTask} {ev : Nat → XEv}
    {st : Nat → XSys} (h : XExecution n E C P ev st) (k : Nat) : XInv E C P (st k) := by
  induction k with
  | zero => rw [h.start]; exact XInv.init h.fresh
  | succ k ih => exact ih.stepped (h.step k)

theorem XExecution.ran {n : Nat} {E : Nat → ExtEnv} {C : EngineConf} {P : Nat → ItemMap × List FTask} {ev : Nat → XEv}
    {st : Nat → XSys} (h : XExecution n E C P ev st) (k : Nat) : ∃ es, (XSys.init n P).run E C es = .ok (st k) := by
  induction k with
  | zero => exact ⟨[], by rw [h.start]; rfl⟩
  | succ k ih =>
    obtain ⟨es, he⟩ := ih
    refine ⟨es ++ [ev k], ?_⟩
    have app : ∀ (es : List XEv) (s : XSys), s.run E C (es ++ [ev k]) = s.run E C es >>= fun s' => s'.run E C [ev k] := by
      intro es
      induction es with
      | nil => intro s; rfl
      | cons e es ih =>
        intro s
        rw [List.cons_append, XSys.run, XSys.run]
        cases hs : s.step E C e with
        | error f => rfl
        | ok s' => rw [ok_bind, ok_bind, ih]
    rw [app, he, ok_bind, XSys.run, h.step k]; rfl

/-- What a step does to the groups, as a step of the groups: an event with no effect there stands for the steps inside
a task. -/
def XSys.shadow (E : Nat → ExtEnv) (C : EngineConf) (s : XSys) (e : XEv) : TEv :=
  match s.act E C e with
  | .ok (some a, _) => a
  | _ => match e with
    | .work w => match s.t.workers[w]? with
      | some (.running _ _) => .start w
      | _ => .finish w
    | _ => .finish s.t.workers.length

theorem step_inv {E : Nat → ExtEnv} {C : EngineConf} {s s' : XSys} {e : XEv} (h : s.step E C e = .ok s') :
    ∃ a, s.act E C e = .ok (a, s'.job) ∧ s.t.stepIf a = .ok s'.t := by
  rw [XSys.step] at h
  obtain ⟨⟨a, job⟩, h1, h⟩ := res_bind_inv h
  obtain ⟨t, h2, h⟩ := res_bind_inv h
  cases h
  exact ⟨a, h1, h2⟩

theorem act_none {E : Nat → ExtEnv} {C : EngineConf} {s : XSys} {e : XEv} {job : Nat → FSys}
    (h : s.act E C e = .ok (none, job)) : s.t.step (s.shadow E C e) = .ok s.t := by
  rw [XSys.shadow.eq_def, h]
  have hnone : s.t.step (.finish s.t.workers.length) = .ok s.t := by
    rw [TSys.step, stepFinish.eq_def, List.getElem?_eq_none (Nat.le_refl _)]
  cases e with
  | add g => exact hnone
  | push g => exact hnone
  | wait g => exact hnone
  | ret g => exact hnone
  | pop w => exact hnone
  | start w => exact hnone
  | work w =>
    simp only []
    cases hw : s.t.workers[w]? with
    | none => simp only []; rw [TSys.step, stepFinish.eq_def, hw]
    | some p =>
      cases p with
      | idle => simp only []; rw [TSys.step, stepFinish.eq_def, hw]
      | got g t => simp only []; rw [TSys.step, stepFinish.eq_def, hw]
      | running g t => simp only []; rw [TSys.step, stepStart.eq_def, hw]

theorem act_scope {E : Nat → ExtEnv} {C : EngineConf} {s : XSys} {e : XEv} (g : Nat) :
    s.shadow E C e ≠ .abandon g := by
  rw [XSys.shadow.eq_def]
  cases ha : s.act E C e with
  | error f =>
    simp only []
    split
    · split <;> (intro h; cases h)
    · intro h; cases h
  | ok x =>
    obtain ⟨a, job⟩ := x
    cases a with
    | none =>
      simp only []
      split
      · split <;> (intro h; cases h)
      · intro h; cases h
    | some a =>
      simp only []
      cases e with
      | add k =>
        rw [XSys.act] at ha
        split at ha <;> (cases ha; try (intro h; cases h))
      | wait k =>
        rw [XSys.act] at ha
        split at ha <;> (cases ha; try (intro h; cases h))
      | push k => cases ha; intro h; cases h
      | ret k => cases ha; intro h; cases h
      | pop k => cases ha; intro h; cases h
      | start k => cases ha; intro h; cases h
      | work w =>
        rw [XSys.act.eq_def] at ha
        simp only [] at ha
        split at ha
        · split at ha
          · cases ha
          · split at ha
            · cases ha; intro h; cases h
            · split at ha
              · cases ha
              · cases ha
              · cases ha; intro h; cases h
        · cases ha

theorem XExecution.groups {n : Nat} {E : Nat → ExtEnv} {C : EngineConf} {P : Nat → ItemMap × List FTask}
    {ev : Nat → XEv} {st : Nat → XSys} (h : XExecution n E C P ev st) :
    Execution n (fun k => (st k).shadow E C (ev k)) (fun k => (st k).t) where
  start := by rw [h.start]; rfl
  step := fun k => by
    obtain ⟨a, h1, h2⟩ := step_inv (h.step k)
    cases a with
    | none =>
      show (st k).t.step ((st k).shadow E C (ev k)) = _
      rw [act_none h1]
      exact h2
    | some a =>
      show (st k).t.step ((st k).shadow E C (ev k)) = _
      rw [XSys.shadow.eq_def, h1]
      exact h2
  inScope := fun k g => act_scope g

/-- A worker executes its task until it reports its end. -/
theorem worker_stays {s s' : TSys} {e : TEv} {w g j : Nat} (h : s.step e = .ok s')
    (hw : s.workers[w]? = some (.running g j)) (h1 : e ≠ .finish w) (h2 : ∀ msg, e ≠ .fail w msg) :
    s'.workers[w]? = some (.running g j) := by
  have keep : ∀ (v : Nat) (p : WPc), v ≠ w → (s.workers.set v p)[w]? = some (.running g j) := fun v p hv => by
    rw [List.getElem?_set_ne hv]; exact hw
  have other : ∀ (v : Nat) (q : WPc), s.workers[v]? = some q → q ≠ .running g j → v ≠ w := fun v q hv hq e => by
    subst e; rw [hw] at hv; exact hq (Option.some.inj hv).symm
  cases e with
  | add k => cases h; rw [stepAdd]; split <;> exact hw
  | wait k => cases h; rw [stepWait]; split <;> exact hw
  | ret k => cases h; rw [stepRet]; split <;> exact hw
  | abandon k => cases h; rw [stepAbandon]; split <;> exact hw
  | push k =>
    rw [TSys.step, stepPush.eq_def] at h
    simp only [] at h
    split at h
    · cases h; exact hw
    · obtain ⟨q, -, h⟩ := res_bind_inv h
      cases h; exact hw
  | pop v =>
    rw [TSys.step, stepPop] at h
    split at h
    · rename_i hv
      have hne := other v _ hv (by intro e; cases e)
      obtain ⟨⟨p, q⟩, -, h⟩ := res_bind_inv h
      simp only [] at h
      split at h
      · cases h; exact keep v _ hne
      · cases h; exact hw
    · cases h; exact hw
  | start v =>
    rw [TSys.step, stepStart.eq_def] at h
    split at h
    · rename_i hv
      have hne := other v _ hv (by intro e; cases e)
      simp only [] at h
      split at h
      · split at h
        · cases h; exact keep v _ hne
        · cases h; exact keep v _ hne
      · cases h
    · cases h; exact hw
  | finish v =>
    have hne : v ≠ w := fun e => h1 (by rw [e])
    rw [TSys.step, stepFinish.eq_def] at h
    split at h
    · simp only [] at h
      split at h
      · cases h; exact keep v _ hne
      · cases h
    · cases h; exact hw
  | fail v msg =>
    have hne : v ≠ w := fun e => h2 msg (by rw [e])
    rw [TSys.step, stepFail.eq_def] at h
    split at h
    · simp only [] at h
      split at h
      · cases h; exact keep v _ hne
      · cases h
    · cases h; exact hw

/-- The steps a task has left. -/
def FSys.leftOf (f : FSys) (j : Nat) : Nat := ((f.tasks[j]?).map FTask.left).getD 0

theorem leftOf_set {f : FSys} {j i : Nat} {T T' : FTask} {m : ItemMap} {es : List String} {t : Nat}
    (hT : f.tasks[j]? = some T) (hl : T'.left ≤ T.left) :
    FSys.leftOf ⟨m, f.tasks.set j T', es, t⟩ i ≤ f.leftOf i := by
  rw [FSys.leftOf, FSys.leftOf]
  by_cases hi : i = j
  · subst hi
    rw [List.getElem?_set_self (List.getElem?_eq_some_iff.mp hT).1, hT]
    exact hl
  · rw [List.getElem?_set_ne (fun e => hi e.symm)]
    exact Nat.le_refl _

/-- No step adds to what a task has left to do. -/
theorem XInv.left {E : Nat → ExtEnv} {C : EngineConf} {P : Nat → ItemMap × List FTask} {s s' : XSys} (h : XInv E C P s)
    {e : XEv} (hs : s.step E C e = .ok s') (g j : Nat) : (s'.job g).leftOf j ≤ (s.job g).leftOf j := by
  obtain ⟨a, h1, -⟩ := step_inv hs
  cases e with
  | add k => rw [← (Prod.mk.inj (Except.ok.inj h1)).2]; exact Nat.le_refl _
  | wait k => rw [← (Prod.mk.inj (Except.ok.inj h1)).2]; exact Nat.le_refl _
  | push k => rw [← (Prod.mk.inj (Except.ok.inj h1)).2]; exact Nat.le_refl _
  | ret k => rw [← (Prod.mk.inj (Except.ok.inj h1)).2]; exact Nat.le_refl _
  | pop k => rw [← (Prod.mk.inj (Except.ok.inj h1)).2]; exact Nat.le_refl _
  | start k => rw [← (Prod.mk.inj (Except.ok.inj h1)).2]; exact Nat.le_refl _
  | work w =>
    rw [XSys.act.eq_def] at h1
    simp only [] at h1
    split at h1
    · rename_i g' j' hw
      obtain ⟨T, hT, hnf⟩ := h.task hw
      simp only [hT] at h1
      split at h1
      · rw [← (Prod.mk.inj (Except.ok.inj h1)).2]; exact Nat.le_refl _
      · rename_i hd
        split at h1
        · rename_i m T' hb
          have e := (Prod.mk.inj (Except.ok.inj h1)).2
          rw [← e]
          by_cases hg : g = g'
          · subst hg
            rw [setJob_self]
            exact leftOf_set hT (Nat.le_of_lt (ftask_forward hb hnf hd).2)
          · rw [setJob_ne _ _ hg]; exact Nat.le_refl _
        · cases h1
        · have e := (Prod.mk.inj (Except.ok.inj h1)).2
          rw [← e]
          by_cases hg : g = g'
          · subst hg
            rw [setJob_self]
            exact leftOf_set hT (Nat.zero_le _)
          · rw [setJob_ne _ _ hg]; exact Nat.le_refl _
    · rw [← (Prod.mk.inj (Except.ok.inj h1)).2]; exact Nat.le_refl _

/-- A worker that makes a step of a task and does not report its end brings it forward. -/
theorem XInv.forward {E : Nat → ExtEnv} {C : EngineConf} {P : Nat → ItemMap × List FTask} {s s' : XSys}
    (h : XInv E C P s) {w g j : Nat} (hw : s.t.workers[w]? = some (.running g j)) (hs : s.step E C (.work w) = .ok s')
    (h1 : s.shadow E C (.work w) ≠ .finish w) (h2 : ∀ msg, s.shadow E C (.work w) ≠ .fail w msg) :
    (s'.job g).leftOf j < (s.job g).leftOf j := by
  obtain ⟨a, ha, -⟩ := step_inv hs
  obtain ⟨T, hT, hnf⟩ := h.task hw
  rw [XSys.shadow.eq_def, ha] at h1 h2
  rw [XSys.act.eq_def] at ha
  simp only [hw, hT] at ha
  split at ha
  · have e := (Prod.mk.inj (Except.ok.inj ha)).1
    rw [← e] at h1
    exact absurd rfl h1
  · rename_i hd
    split at ha
    · rename_i m T' hb
      have e := (Prod.mk.inj (Except.ok.inj ha)).2
      rw [← e, setJob_self, FSys.leftOf, FSys.leftOf, hT,
        List.getElem?_set_self (List.getElem?_eq_some_iff.mp hT).1]
      exact (ftask_forward hb hnf hd).2
    · cases ha
    · have e := (Prod.mk.inj (Except.ok.inj ha)).1
      rw [← e] at h2
      exact absurd rfl (h2 "error")

theorem XExecution.ends {n : Nat} {E : Nat → ExtEnv} {C : EngineConf} {P : Nat → ItemMap × List FTask}
    {ev : Nat → XEv} {st : Nat → XSys} (h : XExecution n E C P ev st) (hf : XWorkersFair n ev) {w : Nat} (hw : w < n)
    (k : Nat) : ∃ m, k ≤ m ∧ ((st m).shadow E C (ev m) = .finish w ∨ ∃ msg, (st m).shadow E C (ev m) = .fail w msg) := by
  apply Classical.byContradiction
  intro hno
  have h1 : ∀ m, k ≤ m → (st m).shadow E C (ev m) ≠ .finish w := fun m hm e => hno ⟨m, hm, Or.inl e⟩
  have h2 : ∀ m, k ≤ m → ∀ msg, (st m).shadow E C (ev m) ≠ .fail w msg := fun m hm msg e => hno ⟨m, hm, Or.inr ⟨msg, e⟩⟩
  have stays : ∀ m g j, k ≤ m → (st m).t.workers[w]? = some (.running g j) → ∀ d,
      (st (m + d)).t.workers[w]? = some (.running g j) ∧ ((st (m + d)).job g).leftOf j ≤ ((st m).job g).leftOf j := by
    intro m g j hm hr d
    induction d with
    | zero => exact ⟨hr, Nat.le_refl _⟩
    | succ d ih =>
      exact ⟨worker_stays (h.groups.step (m + d)) ih.1 (h1 _ (by omega)) (h2 _ (by omega)),
        Nat.le_trans ((h.inv (m + d)).left (h.step (m + d)) g j) ih.2⟩
  have main : ∀ L m g j, k ≤ m → (st m).t.workers[w]? = some (.running g j) → ((st m).job g).leftOf j ≤ L → False := by
    intro L
    induction L with
    | zero =>
      intro m g j hm hr hl
      obtain ⟨m', hm', em⟩ := (hf w hw m).2.2
      obtain ⟨hr', hl'⟩ := stays m g j hm hr (m' - m)
      rw [show m + (m' - m) = m' from by omega] at hr' hl'
      have hs := h.step m'
      have a := h1 m' (by omega)
      have b := h2 m' (by omega)
      rw [em] at hs a b
      have := (h.inv m').forward hr' hs a b
      omega
    | succ L ih =>
      intro m g j hm hr hl
      obtain ⟨m', hm', em⟩ := (hf w hw m).2.2
      obtain ⟨hr', hl'⟩ := stays m g j hm hr (m' - m)
      rw [show m + (m' - m) = m' from by omega] at hr' hl'
      have hs := h.step m'
      have a := h1 m' (by omega)
      have b := h2 m' (by omega)
      rw [em] at hs a b
      have := (h.inv m').forward hr' hs a b
      refine ih (m' + 1) g j (by omega) ?_ (by omega)
      exact (stays m' g j (by omega) hr' 1).1
  obtain ⟨m, hm, em⟩ := (hf w hw k).2.2
  by_cases hr : ∃ g j, (st m).t.workers[w]? = some (.running g j)
  · obtain ⟨g, j, hr⟩ := hr
    exact main _ m g j hm hr (Nat.le_refl _)
  · refine h1 m hm ?_
    have hno' : ∀ g j, (st m).t.workers[w]? ≠ some (.running g j) := fun g j e => hr ⟨g, j, e⟩
    have hact : (st m).act E C (.work w) = .ok (none, (st m).job) := by
      rw [XSys.act]
      split
      · rename_i g j hw; exact absurd hw (hno' g j)
      · rfl
    rw [em, XSys.shadow.eq_def, hact]
    show (match (st m).t.workers[w]? with | some (.running _ _) => TEv.start w | _ => .finish w) = _
    split
    · rename_i hw; exact absurd hw (hno' _ _)
    · rfl

theorem XExecution.workers {n : Nat} {E : Nat → ExtEnv} {C : EngineConf} {P : Nat → ItemMap × List FTask}
    {ev : Nat → XEv} {st : Nat → XSys} (h : XExecution n E C P ev st) (hf : XWorkersFair n ev) :
    WorkersFair n (fun k => (st k).shadow E C (ev k)) := by
  intro w hw k
  obtain ⟨⟨m1, a1, b1⟩, ⟨m2, a2, b2⟩, -⟩ := hf w hw k
  refine ⟨⟨m1, a1, ?_⟩, ⟨m2, a2, ?_⟩, h.ends hf hw k⟩
  · simp only [b1]; rfl
  · simp only [b2]; rfl

/-! The thread of a call reaches its wait. -/

/-- What the thread of a call has left to do before it waits. -/
def XSys.toEnqueue (s : XSys) (g : Nat) : Nat :=
  2 * ((s.job g).tasks.length - (s.t.grp g).tasks.length) + if (s.t.grp g).pushing = none then 0 else 1

/-- The part of a group that its own thread changes. -/
def Grp.shape (x : Grp) : Nat × Option Nat × Phase := (x.tasks.length, x.pushing, x.phase)

theorem shape_set {s : TSys} {k g : Nat} {x : Grp} (hx : k = g → x.shape = (s.grp g).shape) :
    ((s.setGrp k x).grp g).shape = (s.grp g).shape := by
  rw [grp_set]; split
  · rename_i e; exact hx e.symm
  · rfl

/-- Only the thread of a call changes that part. -/
theorem shape_others {s s' : TSys} {e : TEv} {g : Nat} (h : s.step e = .ok s') (h1 : e ≠ .add g) (h2 : e ≠ .push g)
    (h3 : e ≠ .wait g) (h4 : e ≠ .ret g) (h5 : e ≠ .abandon g) : (s'.grp g).shape = (s.grp g).shape := by
  cases e with
  | add k =>
    cases h; rw [stepAdd]; split
    · exact shape_set fun e => absurd (by rw [e]) h1
    · rfl
  | wait k =>
    cases h; rw [stepWait]; split
    · exact shape_set fun e => absurd (by rw [e]) h3
    · rfl
  | ret k =>
    cases h; rw [stepRet]; split
    · exact shape_set fun e => absurd (by rw [e]) h4
    · rfl
  | abandon k =>
    cases h; rw [stepAbandon]; split
    · exact shape_set fun e => absurd (by rw [e]) h5
    · rfl
  | push k =>
    rw [TSys.step, stepPush.eq_def] at h
    simp only [] at h
    split at h
    · cases h; rfl
    · obtain ⟨q, -, h⟩ := res_bind_inv h
      cases h
      exact shape_set (s := { s with q := q }) fun e => absurd (by rw [e]) h2
  | pop v =>
    rw [TSys.step, stepPop] at h
    split at h
    · obtain ⟨⟨p, q⟩, -, h⟩ := res_bind_inv h
      simp only [] at h
      split at h <;> (cases h; rfl)
    · cases h; rfl
  | start v =>
    rw [TSys.step, stepStart.eq_def] at h
    split at h
    · simp only [] at h
      split at h
      · split at h
        · cases h
          refine shape_set (s := { s with started := _ }) fun e => ?_
          subst e
          show ((List.set _ _ _).length, _, _) = _
          rw [List.length_set]; rfl
        · cases h; rfl
      · cases h
    · cases h; rfl
  | finish v =>
    rw [TSys.step, stepFinish.eq_def] at h
    split at h
    · simp only [] at h
      split at h
      · cases h
        refine shape_set (s := { s with completed := _ }) fun e => ?_
        subst e
        show ((List.set _ _ _).length, _, _) = _
        rw [List.length_set]; rfl
      · cases h
    · cases h; rfl
  | fail v msg =>
    rw [TSys.step, stepFail.eq_def] at h
    split at h
    · simp only [] at h
      split at h
      · cases h
        refine shape_set (s := { s with failures := _ }) fun e => ?_
        subst e
        show ((List.map _ (List.set _ _ _)).length, _, _) = _
        rw [List.length_map, List.length_set]; rfl
      · cases h
    · cases h; rfl

/-- What one step does to a call that is enqueuing its tasks. -/
theorem XInv.enqueues {E : Nat → ExtEnv} {C : EngineConf} {P : Nat → ItemMap × List FTask} {s s' : XSys}
    (h : XInv E C P s) {e : XEv} (hs : s.step E C e = .ok s') {g : Nat} (hp : (s.t.grp g).phase = .enqueuing)
    (hne : 0 < (P g).2.length) :
    (s'.t.grp g).phase = .waiting ∨
      ((s'.t.grp g).phase = .enqueuing ∧ s'.toEnqueue g ≤ s.toEnqueue g ∧
        (s'.toEnqueue g = s.toEnqueue g → (e = .push g → (s.t.grp g).pushing = none) ∧
          (e = .add g → (s.t.grp g).pushing = none → (s.t.grp g).tasks.length = (s.job g).tasks.length) ∧
          (e = .wait g → (s.t.grp g).pushing = none → (s.t.grp g).tasks.length ≠ (s.job g).tasks.length))) := by
  have hz : (s'.job g).tasks.length = (s.job g).tasks.length := by rw [(h.stepped hs).size g, h.size g]
  have hpos : 0 < (s.job g).tasks.length := by rw [h.size g]; exact hne
  have hlen := h.len g
  obtain ⟨a, ha, ht⟩ := step_inv hs
  have same : (s'.t.grp g).shape = (s.t.grp g).shape → (s'.t.grp g).phase = .enqueuing ∧ s'.toEnqueue g = s.toEnqueue g := by
    intro e
    have e1 : (s'.t.grp g).tasks.length = (s.t.grp g).tasks.length := congrArg Prod.fst e
    have e2 : (s'.t.grp g).pushing = (s.t.grp g).pushing := congrArg (fun x => x.2.1) e
    have e3 : (s'.t.grp g).phase = (s.t.grp g).phase := congrArg (fun x => x.2.2) e
    exact ⟨by rw [e3, hp], by rw [XSys.toEnqueue, XSys.toEnqueue, e1, e2, hz]⟩
  have other : (∀ b, a = some b → b ≠ .add g ∧ b ≠ .push g ∧ b ≠ .wait g ∧ b ≠ .ret g ∧ b ≠ .abandon g) →
      (s'.t.grp g).shape = (s.t.grp g).shape := by
    intro hb
    cases a with
    | none => rw [Except.ok.inj ht]
    | some b =>
      obtain ⟨b1, b2, b3, b4, b5⟩ := hb b rfl
      exact shape_others ht b1 b2 b3 b4 b5
  have quiet : (∀ b, a = some b → b ≠ .add g ∧ b ≠ .push g ∧ b ≠ .wait g ∧ b ≠ .ret g ∧ b ≠ .abandon g) →
      e ≠ .push g → e ≠ .add g → e ≠ .wait g →
      ((s'.t.grp g).phase = .enqueuing ∧ s'.toEnqueue g ≤ s.toEnqueue g ∧
        (s'.toEnqueue g = s.toEnqueue g → (e = .push g → (s.t.grp g).pushing = none) ∧
          (e = .add g → (s.t.grp g).pushing = none → (s.t.grp g).tasks.length = (s.job g).tasks.length) ∧
          (e = .wait g → (s.t.grp g).pushing = none → (s.t.grp g).tasks.length ≠ (s.job g).tasks.length))) := by
    intro hb n1 n2 n3
    obtain ⟨q1, q2⟩ := same (other hb)
    exact ⟨q1, Nat.le_of_eq q2, fun _ => ⟨fun x => absurd x n1, fun x => absurd x n2, fun x => absurd x n3⟩⟩
  cases e with
  | add k =>
    have hd := (Prod.mk.inj (Except.ok.inj ha)).1
    by_cases hk : k = g
    · subst hk
      right
      by_cases hc : (s.t.grp k).tasks.length < (s.job k).tasks.length
      · rw [if_pos hc] at hd
        subst hd
        have hst : s'.t = stepAdd s.t k := (Except.ok.inj ht).symm
        rw [stepAdd] at hst
        by_cases hpu : (s.t.grp k).pushing = none
        · rw [if_pos ⟨hp, hpu⟩] at hst
          have hg : s'.t.grp k = { s.t.grp k with tasks := (s.t.grp k).tasks ++ [.pending], pushing := some (s.t.grp k).tasks.length } := by
            rw [hst, grp_set, if_pos rfl]
          have hlt : s'.toEnqueue k < s.toEnqueue k := by
            rw [XSys.toEnqueue, XSys.toEnqueue, hz, hg, hpu, if_pos rfl, if_neg (by simp)]
            simp only [List.length_append, List.length_singleton]
            omega
          exact ⟨by rw [hg]; exact hp, Nat.le_of_lt hlt, fun e => absurd e (Nat.ne_of_lt hlt)⟩
        · rw [if_neg (fun x => hpu x.2)] at hst
          obtain ⟨q1, q2⟩ := same (by rw [hst])
          exact ⟨q1, Nat.le_of_eq q2, fun _ => ⟨(fun x => by cases x), fun _ y => absurd y hpu, (fun x => by cases x)⟩⟩
      · rw [if_neg hc] at hd
        subst hd
        obtain ⟨q1, q2⟩ := same (by rw [Except.ok.inj ht])
        exact ⟨q1, Nat.le_of_eq q2, fun _ => ⟨(fun x => by cases x), fun _ _ => by omega, (fun x => by cases x)⟩⟩
    · right
      refine quiet ?_ (by intro x; cases x) (by intro x; cases x; exact hk rfl) (by intro x; cases x)
      intro b hb
      rw [← hd] at hb
      split at hb
      · cases hb
        exact ⟨fun x => by cases x; exact hk rfl, (by intro x; cases x), (by intro x; cases x), (by intro x; cases x),
          (by intro x; cases x)⟩
      · cases hb
  | push k =>
    have hd := (Prod.mk.inj (Except.ok.inj ha)).1
    subst hd
    by_cases hk : k = g
    · subst hk
      right
      have ht' : stepPush s.t k = .ok s'.t := ht
      rw [stepPush.eq_def] at ht'
      simp only [] at ht'
      split at ht'
      · rename_i hpu
        obtain ⟨q1, q2⟩ := same (by rw [Except.ok.inj ht'])
        exact ⟨q1, Nat.le_of_eq q2, fun _ => ⟨fun _ => hpu, (fun x => by cases x), (fun x => by cases x)⟩⟩
      · rename_i t hpu
        obtain ⟨q, -, ht'⟩ := res_bind_inv ht'
        have hg : s'.t.grp k = { s.t.grp k with pushing := none } := by
          rw [← Except.ok.inj ht', grp_set, if_pos rfl]
        have hlt : s'.toEnqueue k < s.toEnqueue k := by
          rw [XSys.toEnqueue, XSys.toEnqueue, hz, hg, hpu, if_pos rfl, if_neg (by simp)]
          show 2 * (_ - (s.t.grp k).tasks.length) + 0 < _
          omega
        exact ⟨by rw [hg]; exact hp, Nat.le_of_lt hlt, fun e => absurd e (Nat.ne_of_lt hlt)⟩
    · right
      refine quiet ?_ (by intro x; cases x; exact hk rfl) (by intro x; cases x) (by intro x; cases x)
      intro b hb
      cases hb
      exact ⟨(by intro x; cases x), fun x => by cases x; exact hk rfl, (by intro x; cases x), (by intro x; cases x),
          (by intro x; cases x)⟩
  | wait k =>
    have hd := (Prod.mk.inj (Except.ok.inj ha)).1
    by_cases hk : k = g
    · subst hk
      by_cases hc : (s.t.grp k).tasks.length = (s.job k).tasks.length
      · rw [if_pos hc] at hd
        subst hd
        have hst : s'.t = stepWait s.t k := (Except.ok.inj ht).symm
        rw [stepWait] at hst
        by_cases hpu : (s.t.grp k).pushing = none
        · left
          rw [if_pos ⟨hp, hpu⟩] at hst
          rw [hst, grp_set, if_pos rfl]
          show (if (s.t.grp k).tasks = [] then Phase.gone else .waiting) = _
          rw [if_neg (by intro e; rw [e] at hc; rw [← hc] at hpos; cases hpos)]
        · right
          rw [if_neg (fun x => hpu x.2)] at hst
          obtain ⟨q1, q2⟩ := same (by rw [hst])
          exact ⟨q1, Nat.le_of_eq q2, fun _ => ⟨(fun x => by cases x), (fun x => by cases x), fun _ y => absurd y hpu⟩⟩
      · right
        rw [if_neg hc] at hd
        subst hd
        obtain ⟨q1, q2⟩ := same (by rw [Except.ok.inj ht])
        exact ⟨q1, Nat.le_of_eq q2, fun _ => ⟨(fun x => by cases x), (fun x => by cases x), fun _ _ => hc⟩⟩
    · right
      refine quiet ?_ (by intro x; cases x) (by intro x; cases x) (by intro x; cases x; exact hk rfl)
      intro b hb
      rw [← hd] at hb
      split at hb
      · cases hb
        exact ⟨(by intro x; cases x), (by intro x; cases x), fun x => by cases x; exact hk rfl, (by intro x; cases x),
          (by intro x; cases x)⟩
      · cases hb
  | ret k =>
    have hd := (Prod.mk.inj (Except.ok.inj ha)).1
    subst hd
    right
    by_cases hk : k = g
    · subst hk
      have hst : s'.t = stepRet s.t k := (Except.ok.inj ht).symm
      rw [stepRet, if_neg (by intro x; rw [hp] at x; cases x.1)] at hst
      obtain ⟨q1, q2⟩ := same (by rw [hst])
      exact ⟨q1, Nat.le_of_eq q2, fun _ => ⟨(fun x => by cases x), (fun x => by cases x), (fun x => by cases x)⟩⟩
    · refine quiet ?_ (by intro x; cases x) (by intro x; cases x) (by intro x; cases x)
      intro b hb
      cases hb
      exact ⟨(by intro x; cases x), (by intro x; cases x), (by intro x; cases x), fun x => by cases x; exact hk rfl,
          (by intro x; cases x)⟩
  | pop w =>
    have hd := (Prod.mk.inj (Except.ok.inj ha)).1
    subst hd
    right
    refine quiet ?_ (by intro x; cases x) (by intro x; cases x) (by intro x; cases x)
    intro b hb
    cases hb
    exact ⟨(by intro x; cases x), (by intro x; cases x), (by intro x; cases x), (by intro x; cases x),
      (by intro x; cases x)⟩
  | start w =>
    have hd := (Prod.mk.inj (Except.ok.inj ha)).1
    subst hd
    right
    refine quiet ?_ (by intro x; cases x) (by intro x; cases x) (by intro x; cases x)
    intro b hb
    cases hb
    exact ⟨(by intro x; cases x), (by intro x; cases x), (by intro x; cases x), (by intro x; cases x),
      (by intro x; cases x)⟩
  | work w =>
    right
    refine quiet ?_ (by intro x; cases x) (by intro x; cases x) (by intro x; cases x)
    intro b hb
    subst hb
    have : b = .finish w ∨ b = .fail w "error" := by
      rw [XSys.act.eq_def] at ha
      simp only [] at ha
      split at ha
      · split at ha
        · cases ha
        · split at ha
          · have e := (Prod.mk.inj (Except.ok.inj ha)).1
            exact Or.inl (Option.some.inj e).symm
          · split at ha
            · have e := (Prod.mk.inj (Except.ok.inj ha)).1
              cases e
            · cases ha
            · have e := (Prod.mk.inj (Except.ok.inj ha)).1
              exact Or.inr (Option.some.inj e).symm
      · have e := (Prod.mk.inj (Except.ok.inj ha)).1
        cases e
    rcases this with rfl | rfl <;> exact ⟨(by intro x; cases x), (by intro x; cases x), (by intro x; cases x),
      (by intro x; cases x), (by intro x; cases x)⟩

/-- The thread of a call that has tasks reaches its wait. -/
theorem XExecution.reaches {n : Nat} {E : Nat → ExtEnv} {C : EngineConf} {P : Nat → ItemMap × List FTask}
    {ev : Nat → XEv} {st : Nat → XSys} (h : XExecution n E C P ev st) {g : Nat} (hf : XCallFair g ev)
    (hne : 0 < (P g).2.length) : ∃ k, ((st k).t.grp g).phase = .waiting := by
  apply Classical.byContradiction
  intro hno
  have hno' : ∀ k, ((st k).t.grp g).phase ≠ .waiting := fun k e => hno ⟨k, e⟩
  have enq : ∀ k, ((st k).t.grp g).phase = .enqueuing := by
    intro k
    induction k with
    | zero => rw [h.start]; rfl
    | succ k ih =>
      rcases (h.inv k).enqueues (h.step k) ih hne with e | e
      · exact absurd e (hno' _)
      · exact e.1
  have go : ∀ k, ((st (k + 1)).toEnqueue g ≤ (st k).toEnqueue g ∧
      ((st (k + 1)).toEnqueue g = (st k).toEnqueue g → (ev k = .push g → ((st k).t.grp g).pushing = none) ∧
          (ev k = .add g → ((st k).t.grp g).pushing = none →
            ((st k).t.grp g).tasks.length = ((st k).job g).tasks.length) ∧
          (ev k = .wait g → ((st k).t.grp g).pushing = none →
            ((st k).t.grp g).tasks.length ≠ ((st k).job g).tasks.length))) := by
    intro k
    rcases (h.inv k).enqueues (h.step k) (enq k) hne with e | e
    · exact absurd e (hno' _)
    · exact e.2
  -- the measure does not stay what it is
  have main : ∀ M k, (st k).toEnqueue g ≤ M → False := by
    intro M
    induction M with
    | zero =>
      intro k hk
      have hz : ∀ d, (st (k + d)).toEnqueue g = 0 := by
        intro d
        induction d with
        | zero => exact Nat.le_zero.mp hk
        | succ d ih => have := (go (k + d)).1; rw [ih] at this; exact Nat.le_zero.mp this
      obtain ⟨m, hm, em⟩ := (hf k).2.2.1
      have h0 := hz (m - k)
      rw [show k + (m - k) = m from by omega] at h0
      have h1 := hz (m + 1 - k)
      rw [show k + (m + 1 - k) = m + 1 from by omega] at h1
      have hg := ((go m).2 (by rw [h0, h1])).2.2 em
      have hlen := (h.inv m).len g
      rw [XSys.toEnqueue] at h0
      by_cases hpu : ((st m).t.grp g).pushing = none
      · exact hg hpu (by omega)
      · rw [if_neg hpu] at h0; omega
    | succ M ih =>
      intro k hk
      by_cases hd : ∃ d, (st (k + d)).toEnqueue g ≤ M
      · obtain ⟨d, hd⟩ := hd; exact ih _ hd
      · have hz : ∀ d, (st (k + d)).toEnqueue g = M + 1 := by
          intro d
          have h1 : ¬ (st (k + d)).toEnqueue g ≤ M := fun e => hd ⟨d, e⟩
          have h2 : (st (k + d)).toEnqueue g ≤ M + 1 := by
            clear h1
            induction d with
            | zero => exact hk
            | succ d ih => exact Nat.le_trans (go (k + d)).1 ih
          omega
        have hz' : ∀ m, k ≤ m → (st m).toEnqueue g = M + 1 := by
          intro m hm
          have := hz (m - k)
          rw [show k + (m - k) = m from by omega] at this
          exact this
        obtain ⟨m, hm, em⟩ := (hf k).2.1
        have hp1 := ((go m).2 (by rw [hz' m hm, hz' (m + 1) (by omega)])).1 em
        -- from then on the thread is not in the middle of adding a task, or the measure has changed
        have hpn : ∀ d, ((st (m + d)).t.grp g).pushing = none := by
          intro d
          have hpar : (st (m + d)).toEnqueue g = (st m).toEnqueue g := by rw [hz' m hm, hz' (m + d) (by omega)]
          rw [XSys.toEnqueue, XSys.toEnqueue, hp1, if_pos rfl] at hpar
          apply Classical.byContradiction
          intro hx
          rw [if_neg hx] at hpar
          omega
        obtain ⟨m1, hm1, em1⟩ := (hf m).1
        have e1 := ((go m1).2 (by rw [hz' m1 (by omega), hz' (m1 + 1) (by omega)])).2.1 em1 (by
          have := hpn (m1 - m)
          rw [show m + (m1 - m) = m1 from by omega] at this
          exact this)
        have e2 := hz' m1 (by omega)
        have e3 := hpn (m1 - m)
        rw [show m + (m1 - m) = m1 from by omega] at e3
        rw [XSys.toEnqueue, e3, if_pos rfl] at e2
        omega
  exact main _ 0 (Nat.le_refl _)

/-- C71 (partial).  With at least one worker, fair workers, and fair threads, a call returns, unless one of its tasks was
cancelled after another one failed.
Missing: calls with a cancelled task, for which the claim is false (`C25_cancelled_never_returns`). -/
theorem C71_returns_partial (n : Nat) (hn : 0 < n) (E : Nat → ExtEnv) (C : EngineConf) (P : Nat → ItemMap × List FTask)
    (ev : Nat → XEv) (st : Nat → XSys) (h : XExecution n E C P ev st) (workers : XWorkersFair n ev) (g : Nat)
    (thread : XCallFair g ev) (tasks : (P g).2 ≠ []) :
    (∃ k, ((st k).t.grp g).phase = .returned) ∨ (∃ k, .cancelled ∈ ((st k).t.grp g).tasks) := by
  obtain ⟨k, hk⟩ := h.reaches thread (List.length_pos_iff.mpr tasks)
  have hr : WaiterFair g (fun k => (st k).shadow E C (ev k)) := by
    intro k
    obtain ⟨m, hm, em⟩ := (thread k).2.2.2
    exact ⟨m, hm, by simp only [em]; rfl⟩
  rcases C25_always_returns_partial n hn _ _ h.groups (h.workers workers) g k hr hk with ⟨m, -, e⟩ | ⟨m, -, e⟩
  · exact Or.inl ⟨m, e⟩
  · exact Or.inr ⟨m, e⟩

theorem fsys_errors_grow {E : ExtEnv} {C : EngineConf} {js : List Nat} {s s' : FSys} (h : s.run E C js = .ok s')
    (hne : s.errors ≠ []) : s'.errors ≠ [] := fun e => hne (run_errors h e)

/-- C71 (partial).  A call that succeeds alone in every interleaving of its tasks returns, and succeeds with a result it
may have alone, on any number of shared workers and whatever the other calls do, also if they fail or never return.
Missing: calls of which a task throws (see `C71_returns_partial`). -/
theorem C71_call_completes_partial (n : Nat) (hn : 0 < n) (C : EngineConf) (calls : Nat → Call)
    (x : Nat → List ExRequest × ItemMap × List FTask) (prepared : Prepared C calls x) (ev : Nat → XEv) (st : Nat → XSys)
    (h : XExecution n (fun g => (calls g).env) C (fun g => (x g).2) ev st) (workers : XWorkersFair n ev) (g : Nat)
    (thread : XCallFair g ev) (Q : List WireResult → Prop) (start : (calls g).start C = .ok (x g))
    (alone : ∀ sched, ∃ out, (calls g).alone C sched = .ok out ∧ Q out) :
    ∃ k, ((st k).t.grp g).phase = .returned ∧ ∃ out, (st k).outcome x g = .ok out ∧ Q out := by
  have hrun : ∀ sched, ∃ s, runTasks (calls g).env C (x g).2.1 (x g).2.2 sched = .ok s ∧ s.errors = [] := by
    intro sched
    obtain ⟨out, ho, -⟩ := alone sched
    rw [Call.alone_eq, start, ok_bind] at ho
    obtain ⟨s, h1, h2⟩ := res_bind_inv ho
    refine ⟨s, h1, ?_⟩
    apply Classical.byContradiction
    intro hne
    rw [callEnd, if_pos hne] at h2
    cases h2
  have hne : (x g).2.2 ≠ [] := by
    intro e
    obtain ⟨s, h1, -⟩ := hrun []
    rw [e] at h1
    cases h1
  have hret : ∃ k, ((st k).t.grp g).phase = .returned := by
    rcases C71_returns_partial n hn _ C _ ev st h workers g thread hne with hr | ⟨k, hc⟩
    · exact hr
    · exfalso
      have hi := h.inv k
      have he := (hi.t.grp g).canc hc
      rw [← hi.errs g] at he
      obtain ⟨js, hj, -⟩ := hi.run g
      obtain ⟨s, h1, h2⟩ := hrun js
      rw [runTasks, decide_eq_true (List.length_pos_iff.mpr hne)] at h1
      have h1' : (FSys.run (calls g).env C ⟨(x g).2.1, (x g).2.2, [], 0⟩ js >>= fun s => _) = .ok s := h1
      rw [hj, ok_bind] at h1'
      exact fsys_errors_grow h1' he h2
  obtain ⟨k, hk⟩ := hret
  obtain ⟨es, hes⟩ := h.ran k
  obtain ⟨sched, e⟩ := C71_calls_as_alone n C calls x prepared es (st k) hes g hk
  obtain ⟨out, ho, hq⟩ := alone sched
  exact ⟨k, hk, out, by rw [← e, ho], hq⟩

/-- C71 (partial).  On a node with any history, while files grow and other calls run: a well-formed request for fields
that are there returns, on shared workers, with the value of every field asked for.
Missing: as for C69 and C71. -/
theorem C71_node_request_completes_partial (n : Node) (up : n.Up) (here : n.conf.forward = false)
    (cat : List (FdbKey × Uri)) (catalogue : Catalogue n.conf.ignoreYearMonth cat) (lists : ListsOnly n.env cat)
    (complete : ListsAll n.conf.ignoreYearMonth n.env cat)
    (places : ∀ a ∈ cat, ∀ b ∈ cat, a.2.path = b.2.path → a.2.offset = b.2.offset → a = b)
    (rs : List ExRequest) (ws : List WrittenRequest) (written : Written rs ws) (nonempty : rs ≠ [])
    (different : ws.Pairwise fun a b =>
      ¬ (essential n.conf.ignoreYearMonth a.pairs).Perm (essential n.conf.ignoreYearMonth b.pairs))
    (sameKeywords : ∀ a ∈ ws, ∀ b ∈ ws, ∀ k, k ∈ (essential n.conf.ignoreYearMonth a.pairs).map Prod.fst →
      k ∈ (essential n.conf.ignoreYearMonth b.pairs).map Prod.fst)
    (found : ∀ i (hi : i < rs.length) (hj : i < ws.length), ∃ e ∈ cat,
      SameField n.conf.ignoreYearMonth ws[i].pairs e.1 ∧ ∃ r, n.Gives e.2 rs[i].ranges rs[i].gridHash r)
    (nw : Nat) (hn : 0 < nw) (calls : Nat → Call) (x : Nat → List ExRequest × ItemMap × List FTask)
    (prepared : Prepared n.conf calls x) (ev : Nat → XEv) (st : Nat → XSys)
    (h : XExecution nw (fun g => (calls g).env) n.conf (fun g => (x g).2) ev st) (workers : XWorkersFair nw ev) (g : Nat)
    (thread : XCallFair g ev) (call : calls g = .fields n.env rs) (start : (calls g).start n.conf = .ok (x g)) :
    ∃ k, ((st k).t.grp g).phase = .returned ∧ ∃ out, (st k).outcome x g = .ok out ∧ out.length = rs.length ∧
      ∀ i (hi : i < rs.length) (hj : i < ws.length), ∃ e ∈ cat, SameField n.conf.ignoreYearMonth ws[i].pairs e.1 ∧
        ∃ r, out[i]? = some r ∧ n.Gives e.2 rs[i].ranges rs[i].gridHash r := by
  refine C71_call_completes_partial nw hn n.conf calls x prepared ev st h workers g thread
    (fun out => out.length = rs.length ∧
      ∀ i (hi : i < rs.length) (hj : i < ws.length), ∃ e ∈ cat, SameField n.conf.ignoreYearMonth ws[i].pairs e.1 ∧
        ∃ r, out[i]? = some r ∧ n.Gives e.2 rs[i].ranges rs[i].gridHash r) start ?_
  intro sched
  rw [call]
  exact up.extract here catalogue lists complete places sched written nonempty different sameKeywords found

/-! ## Cases -/

/-- Prepare every call; those that fail have no task. -/
def prepareAll (C : EngineConf) (calls : Nat → Call) (g : Nat) : List ExRequest × ItemMap × List FTask :=
  match (calls g).start C with
  | .ok x => x
  | .error _ => ([], [], [])

theorem prepareAll_ok (C : EngineConf) (calls : Nat → Call) : Prepared C calls (prepareAll C calls) := by
  intro g
  rw [prepareAll]
  cases (calls g).start C with
  | ok x => exact Or.inl rfl
  | error e => exact Or.inr rfl

/-- The states of an infinite schedule. -/
def xStates (n : Nat) (E : Nat → ExtEnv) (C : EngineConf) (P : Nat → ItemMap × List FTask) (ev : Nat → XEv) : Nat → XSys
  | 0 => XSys.init n P
  | k + 1 => match (xStates n E C P ev k).step E C (ev k) with
    | .ok s => s
    | .error _ => xStates n E C P ev k

/-- Every infinite schedule of calls that are defined alone is an execution. -/
theorem xExecution_of (n : Nat) (C : EngineConf) (calls : Nat → Call) (ev : Nat → XEv)
    (alone : ∀ g sched, (calls g).alone C sched ≠ undef) :
    XExecution n (fun g => (calls g).env) C (fun g => (prepareAll C calls g).2) ev
      (xStates n (fun g => (calls g).env) C (fun g => (prepareAll C calls g).2) ev) := by
  have hp := prepareAll_ok C calls
  have one : ∀ s, XInv (fun g => (calls g).env) C (fun g => (prepareAll C calls g).2) s → ∀ e,
      ∃ s', s.step (fun g => (calls g).env) C e = .ok s' := by
    intro s hs e
    obtain ⟨s', h⟩ := XInv.defined (E := fun g => (calls g).env) (C := C) (P := fun g => (prepareAll C calls g).2) (by
      intro g js hpos hu
      refine alone g js ?_
      rw [Call.alone_eq, hp.start hpos, ok_bind, runTasks_prefix hpos hu]; rfl) [e] hs
    rw [XSys.run] at h
    obtain ⟨s1, h1, -⟩ := res_bind_inv h
    exact ⟨s1, h1⟩
  have inv : ∀ k, XInv (fun g => (calls g).env) C (fun g => (prepareAll C calls g).2)
      (xStates n (fun g => (calls g).env) C (fun g => (prepareAll C calls g).2) ev k) := by
    intro k
    induction k with
    | zero => exact XInv.init hp.fresh
    | succ k ih =>
      obtain ⟨s', h⟩ := one _ ih (ev k)
      rw [xStates, h]; exact ih.stepped h
  refine ⟨rfl, fun k => ?_, hp.fresh⟩
  obtain ⟨s', h⟩ := one _ (inv k) (ev k)
  rw [xStates, h]

/-- A schedule in which two threads and two workers take turns. -/
def turns : List XEv :=
  [.add 0, .push 0, .pop 0, .start 0, .add 1, .work 0, .push 1, .wait 0, .pop 1, .start 1, .work 1, .wait 1, .work 0,
   .ret 0, .ret 1]

def turnEv (k : Nat) : XEv := turns[k % 15]?.getD (.ret 0)

theorem turn_at (i : Nat) (hi : i < 15) (k : Nat) : ∃ m, k ≤ m ∧ turnEv m = turns[i]?.getD (.ret 0) :=
  ⟨15 * (k + 1) + i, by omega, by rw [turnEv, Nat.mul_add_mod, Nat.mod_eq_of_lt hi]⟩

theorem turns_fair : XWorkersFair 2 turnEv ∧ XCallFair 0 turnEv ∧ XCallFair 1 turnEv := by
  refine ⟨fun w hw k => ?_, fun k => ?_, fun k => ?_⟩
  · match w, hw with
    | 0, _ => exact ⟨turn_at 2 (by decide) k, turn_at 3 (by decide) k, turn_at 5 (by decide) k⟩
    | 1, _ => exact ⟨turn_at 8 (by decide) k, turn_at 9 (by decide) k, turn_at 10 (by decide) k⟩
  · exact ⟨turn_at 0 (by decide) k, turn_at 1 (by decide) k, turn_at 7 (by decide) k, turn_at 13 (by decide) k⟩
  · exact ⟨turn_at 4 (by decide) k, turn_at 6 (by decide) k, turn_at 11 (by decide) k, turn_at 14 (by decide) k⟩

/-- A call for three fields, in a file and behind the store, and calls for one field by path. -/
def c71Calls : Nat → Call
  | 0 => .fields c69Node.env c50Reqs
  | _ => .paths c69Node.env [⟨"/fdb/a.data", "file", 6, "", 0, [⟨0, 1⟩], "g"⟩]

def c71Prepared : Nat → List ExRequest × ItemMap × List FTask := prepareAll c50Conf c71Calls

/-- The first `k` events of the schedule. -/
def c71At (k : Nat) : Res XSys :=
  (XSys.of 2 c71Prepared).run (fun g => (c71Calls g).env) c50Conf ((List.range k).map turnEv)

/-- Where the threads of the two calls are. -/
def c71Seen (k : Nat) : Option (Phase × Phase) :=
  match c71At k with
  | .ok s => some ((s.t.grp 0).phase, (s.t.grp 1).phase)
  | .error _ => none

/-- What a call gets. -/
def c71Out (k g : Nat) : Res (List WireResult) := do
  let s ← c71At k
  s.outcome c71Prepared g

/-- Non-vacuity of `C71_calls_as_alone`: two calls share two workers; both return, with their own values. -/
example : c71Seen 75 = some (.returned, .returned) ∧
    c71Out 75 0 = .ok [⟨[[10, 11, 12, 13]], [[15]]⟩, ⟨[[11], [12, 13]], [[1], [3]]⟩, ⟨[[7, 8]], [[3]]⟩] ∧
    c71Out 75 1 = .ok [⟨[[7]], [[1]]⟩] := by
  decide +kernel

theorem c71_alone_zero (sched : List Nat) : ∃ out, (c71Calls 0).alone c50Conf sched = .ok out := by
  have hg : ∀ i (hi : i < c50Reqs.length) (hj : i < c27Written.length), ∃ e ∈ c50Cat,
      SameField true c27Written[i].pairs e.1 ∧ ∃ r, c69Node.Gives e.2 c50Reqs[i].ranges c50Reqs[i].gridHash r := by
    refine c69_at (p := fun i hi _ e => ∃ r, c69Node.Gives e.2 c50Reqs[i].ranges c50Reqs[i].gridHash r)
      (cat := c50Cat) rfl ?_ ?_ ?_
    · refine ⟨⟨[[10, 11, 12, 13]], [[15]]⟩, ?_⟩
      unfold Node.Gives
      rw [if_pos (by decide)]
      exact ⟨rfl, toyMessage, _, [some 100], rfl, rfl, ⟨100, [], rfl, by decide, fun a ha => by cases ha⟩, toyGood,
        by decide +kernel⟩
    · exact ⟨⟨[[11], [12, 13]], [[1], [3]]⟩, c69_file (file := toyMessage ++ [0x47, 2, 7, 8]) (h := (toyParse toyMessage).get (by decide))
        (by decide) rfl (by decide +kernel) (by decide +kernel) (by decide +kernel) (by decide +kernel)⟩
    · exact ⟨⟨[[7, 8]], [[3]]⟩, c69_file (file := toyMessage ++ [0x47, 2, 7, 8]) (h := (toyParse [0x47, 2, 7, 8]).get (by decide))
        (by decide) rfl (by decide +kernel) (by decide +kernel) (by decide +kernel) (by decide +kernel)⟩
  obtain ⟨out, ho, -⟩ := c69_up.extract rfl
    (catalogue_of (by decide +kernel) (by decide +kernel) (by decide +kernel) : Catalogue true c50Cat) (by
      intro u L h
      have := Except.ok.inj h
      subst this
      exact ⟨fun e he => he, by decide +kernel⟩) (fun u => ⟨c50Cat, rfl, fun e he _ => he⟩) (by decide +kernel) sched
    (⟨by decide +kernel, c27_written.2⟩ : Written c50Reqs c27Written) (by decide) c27_different c27_sameKeywords hg
  exact ⟨out, ho⟩

theorem c71_alone_one (g : Nat) (sched : List Nat) : ∃ out, (c71Calls (g + 1)).alone c50Conf sched = .ok out := by
  obtain ⟨out, ho, -⟩ := C69_path_request_succeeds_partial c69Node c69_up sched
    [(⟨"/fdb/a.data", "file", 6, "", 0, [⟨0, 1⟩], "g"⟩ : PathReq)] (by simp) (by
      intro r hr
      rw [List.mem_singleton] at hr
      subst hr
      exact ⟨rfl, rfl⟩) (by
      intro a ha b hb _
      rw [List.mem_singleton] at ha hb
      rw [ha, hb]) (by simp) (by
      intro r hr
      rw [List.mem_singleton] at hr
      subst hr
      exact ⟨⟨[[7]], [[1]]⟩, c69_file (file := toyMessage ++ [0x47, 2, 7, 8]) (h := (toyParse [0x47, 2, 7, 8]).get (by decide))
        (by decide) rfl (by decide +kernel) (by decide +kernel) (by decide +kernel) (by decide +kernel)⟩)
  exact ⟨out, ho⟩

/-- Non-vacuity of the theorems on infinite executions: the schedule above, repeated for ever, is an execution of the two
calls with fair workers and threads, and both calls succeed alone in every interleaving. -/
example : XExecution 2 (fun g => (c71Calls g).env) c50Conf (fun g => (c71Prepared g).2) turnEv
      (xStates 2 (fun g => (c71Calls g).env) c50Conf (fun g => (c71Prepared g).2) turnEv) ∧
    XWorkersFair 2 turnEv ∧ XCallFair 0 turnEv ∧ Prepared c50Conf c71Calls c71Prepared ∧
    (∀ sched, ∃ out, (c71Calls 0).alone c50Conf sched = .ok out ∧ True) ∧ (c71Prepared 0).2.2.length = 2 := by
  refine ⟨xExecution_of 2 c50Conf c71Calls turnEv ?_, turns_fair.1, turns_fair.2.1, prepareAll_ok _ _,
    fun sched => ?_, by decide +kernel⟩
  · intro g sched h
    cases g with
    | zero => obtain ⟨out, ho⟩ := c71_alone_zero sched; rw [ho] at h; cases h
    | succ g => obtain ⟨out, ho⟩ := c71_alone_one g sched; rw [ho] at h; cases h
  · obtain ⟨out, ho⟩ := c71_alone_zero sched
    exact ⟨out, ho, trivial⟩

/-! ## Where the code differs -/

theorem shadow_step {E : Nat → ExtEnv} {C : EngineConf} {s s' : XSys} {e : XEv} (h : s.step E C e = .ok s') :
    s.t.step (s.shadow E C e) = .ok s'.t := by
  obtain ⟨a, h1, h2⟩ := step_inv h
  cases a with
  | none => rw [act_none h1]; exact h2
  | some a => rw [XSys.shadow.eq_def, h1]; exact h2

/-- A call that waits and has a cancelled task never returns. -/
theorem XInv.hangs {E : Nat → ExtEnv} {C : EngineConf} {P : Nat → ItemMap × List FTask} (es : List XEv) {s s' : XSys}
    (h : XInv E C P s) {g : Nat} (hp : (s.t.grp g).phase = .waiting) (hc : .cancelled ∈ (s.t.grp g).tasks)
    (hs : s.run E C es = .ok s') : (s'.t.grp g).phase = .waiting := by
  induction es generalizing s with
  | nil => cases hs; exact hp
  | cons e es ih =>
    rw [XSys.run] at hs
    obtain ⟨s1, h1, h2⟩ := res_bind_inv hs
    obtain ⟨q1, q2⟩ := h.t.stuck g hp hc _ (fun k => act_scope k) _ (shadow_step h1)
    exact ih (h.stepped h1) q1 q2 h2

/-- Three fields in two files are asked for, with the wrong grid. -/
def c71Bad : Nat → Call := fun _ =>
  .fields (c27Env c27Cat) [⟨"retrieve,step=6,date=20250101", [⟨0, 4⟩], "other"⟩,
    ⟨"retrieve,step=12,date=20250101", [⟨1, 2⟩], "other"⟩, ⟨"retrieve,step=0,date=20250101", [⟨8, 9⟩], "other"⟩]

def c71BadEvents : List XEv :=
  [.add 0, .push 0, .add 0, .push 0, .wait 0, .pop 0, .start 0, .work 0, .work 0]

def c71BadRun : Res XSys :=
  (XSys.of 1 (prepareAll c27Conf c71Bad)).run (fun g => (c71Bad g).env) c27Conf c71BadEvents

/-- The phase of the call, its task states, its errors. -/
def badSeen : Res XSys → Option (Phase × List TStat × Nat)
  | .ok s => some ((s.t.grp 0).phase, (s.t.grp 0).tasks, (s.t.grp 0).errors.length)
  | .error _ => none

theorem c71_bad : badSeen c71BadRun = some (.waiting, [.failed, .cancelled], 1) := by decide +kernel

/-- C71 (the full statement fails).  A request for fields in two files that names the wrong grid gets an error when its
tasks run to their end.  But with one worker the second task is cancelled when the first one fails, and
the call never returns: there is an execution after which, whatever happens, it waits. -/
theorem C71_failing_call_hangs :
    (c71Bad 0).alone c27Conf [0, 0, 1, 1] = throwExn .seriousBug ∧
    ∃ es s, (XSys.of 1 (prepareAll c27Conf c71Bad)).run (fun g => (c71Bad g).env) c27Conf es = .ok s ∧
      ∀ es' s', s.run (fun g => (c71Bad g).env) c27Conf es' = .ok s' → (s'.t.grp 0).phase = .waiting := by
  refine ⟨by decide +kernel, ?_⟩
  have hb := c71_bad
  cases hr : c71BadRun with
  | error e => rw [hr] at hb; cases hb
  | ok s =>
    rw [hr] at hb
    have h1 : ((s.t.grp 0).phase, (s.t.grp 0).tasks, (s.t.grp 0).errors.length) = (.waiting, [.failed, .cancelled], 1) :=
      Option.some.inj hb
    have hp : (s.t.grp 0).phase = .waiting := congrArg Prod.fst h1
    have ht : (s.t.grp 0).tasks = [.failed, .cancelled] := congrArg (fun x => x.2.1) h1
    refine ⟨c71BadEvents, s, hr, fun es' s' hs => ?_⟩
    exact ((prepareAll_ok c27Conf c71Bad).inv hr).hangs es' hp (by rw [ht]; decide) hs

end GJ
