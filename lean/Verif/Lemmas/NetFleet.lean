import Verif.Lemmas.NetServe
import Verif.Props.C75

/-!
# The network without values

Leaving out values, files and caches, a history of the network is a history of the servers of `Fleet`.
-/

namespace GJ
open Spec

/-- The network without values. -/
def Net.fleet (N : Net) : Fleet := ⟨N.threads, fun a g => (N.jobs a g).2.length, N.target, N.origin⟩

/-- The queues, groups and workers of the processes. -/
def NetSys.groups (s : NetSys) : FleetSys := fun a => (s a).x.t

/-- What a step of a worker inside its task can be. -/
inductive Working (E : Nat → ExtEnv) (C : EngineConf) (x x' : XSys) (w : Nat) : Prop where
  | nothing (h1 : ∀ g j, x.t.workers[w]? ≠ some (.running g j)) (h2 : x' = x)
  | finish (g j : Nat) (T : FTask) (h1 : x.t.workers[w]? = some (.running g j)) (h2 : (x.job g).tasks[j]? = some T)
      (h3 : T.pc = .finished) (h4 : x'.job = x.job) (h5 : x.t.step (.finish w) = .ok x'.t)
  | inside (g j : Nat) (T T' : FTask) (m : ItemMap) (h1 : x.t.workers[w]? = some (.running g j))
      (h2 : (x.job g).tasks[j]? = some T) (h3 : T.pc ≠ .finished)
      (h4 : T.step (E g) C (x.job g).time (x.job g).items = .ok (m, T'))
      (h5 : x'.job = setJob x.job g ⟨m, (x.job g).tasks.set j T', (x.job g).errors, (x.job g).time + 1⟩) (h6 : x'.t = x.t)
  | fail (g j : Nat) (T : FTask) (h1 : x.t.workers[w]? = some (.running g j)) (h2 : (x.job g).tasks[j]? = some T)
      (h3 : T.pc ≠ .finished) (h4 : ∃ e, T.step (E g) C (x.job g).time (x.job g).items = .error (.exn e))
      (h5 : x'.job = setJob x.job g ⟨(x.job g).items, (x.job g).tasks.set j { T with pc := .failed },
        (x.job g).errors ++ ["error"], (x.job g).time + 1⟩) (h6 : x.t.step (.fail w "error") = .ok x'.t)

theorem working {E : Nat → ExtEnv} {C : EngineConf} {x x' : XSys} {w : Nat} (h : x.step E C (.work w) = .ok x') :
    Working E C x x' w := by
  obtain ⟨a, ha, ht⟩ := step_inv h
  rw [XSys.act.eq_def] at ha
  simp only [] at ha
  split at ha
  · rename_i g j hw
    cases hT : (x.job g).tasks[j]? with
    | none => rw [hT] at ha; cases ha
    | some T =>
      rw [hT] at ha
      simp only [] at ha
      split at ha
      · rename_i hp
        obtain ⟨h1, h2⟩ := Prod.mk.inj (Except.ok.inj ha)
        rw [← h1] at ht
        exact .finish g j T hw hT hp h2.symm ht
      · rename_i hp
        cases hb : T.step (E g) C (x.job g).time (x.job g).items with
        | ok y =>
          obtain ⟨m, T'⟩ := y
          rw [hb] at ha
          obtain ⟨h1, h2⟩ := Prod.mk.inj (Except.ok.inj ha)
          rw [← h1] at ht
          exact .inside g j T T' m hw hT hp hb h2.symm (Except.ok.inj ht).symm
        | error f =>
          rw [hb] at ha
          cases f with
          | ub => cases ha
          | exn e =>
            obtain ⟨h1, h2⟩ := Prod.mk.inj (Except.ok.inj ha)
            rw [← h1] at ht
            exact .fail g j T hw hT hp ⟨e, hb⟩ h2.symm ht
  · rename_i hw
    obtain ⟨h1, h2⟩ := Prod.mk.inj (Except.ok.inj ha)
    rw [← h1] at ht
    have ht := Except.ok.inj ht
    obtain ⟨t, job⟩ := x
    obtain ⟨t', job'⟩ := x'
    simp only at ht h2
    subst ht h2
    exact .nothing (fun g j e => hw g j e) rfl

/-- A task that forwards has no steps in between. -/
theorem ftask_parts {E : ExtEnv} {C : EngineConf} {t : Nat} {m m' : ItemMap} {T T' : FTask} {server : String × Int}
    {files : KeyMap} (h : T.step E C t m = .ok (m', T')) (hk : T'.kind = .forward server files)
    (hp : T.kind = .forward server files → T.pc = .fresh ∨ T.pc = .finished ∨ T.pc = .failed) :
    T'.pc = .fresh ∨ T'.pc = .finished ∨ T'.pc = .failed := by
  have hkind := (ftask_same h).2
  rw [hk] at hkind
  replace hp := hp hkind.symm
  obtain ⟨kind, pc⟩ := T
  simp only at hkind hp
  subst hkind
  rcases hp with rfl | rfl | rfl
  · rw [FTask.step] at h
    simp only [] at h
    obtain ⟨back, -, h⟩ := res_bind_inv h
    obtain ⟨m1, -, h⟩ := res_bind_inv h
    rw [← (Prod.mk.inj (Except.ok.inj h)).2]
    exact Or.inr (Or.inl rfl)
  · rw [← (Prod.mk.inj (Except.ok.inj h)).2]
    exact Or.inr (Or.inl rfl)
  · rw [← (Prod.mk.inj (Except.ok.inj h)).2]
    exact Or.inr (Or.inr rfl)

theorem xrun_parts {E : Nat → ExtEnv} {C : EngineConf} {es : List XEv} {s s' : XSys} (h : s.run E C es = .ok s')
    (hs : ∀ g (j : Nat) T server files, (s.job g).tasks[j]? = some T → T.kind = .forward server files →
      T.pc = .fresh ∨ T.pc = .finished ∨ T.pc = .failed) :
    ∀ g (j : Nat) T server files, (s'.job g).tasks[j]? = some T → T.kind = .forward server files →
      T.pc = .fresh ∨ T.pc = .finished ∨ T.pc = .failed := by
  induction es generalizing s with
  | nil => cases h; exact hs
  | cons e es ih =>
    rw [XSys.run] at h
    obtain ⟨s1, h1, h2⟩ := res_bind_inv h
    refine ih h2 ?_
    intro g j T server files hT hk
    rcases xstep_job h1 with hj | ⟨w, g', j', T0, T', rfl, hw, hT0, hnf, ho, -, hts, hk', -⟩
    · rw [hj] at hT; exact hs g j T server files hT hk
    by_cases hg : g = g'
    case neg => rw [ho g hg] at hT; exact hs g j T server files hT hk
    subst hg
    by_cases hjj : j = j'
    case neg => rw [hts, List.getElem?_set_ne (Ne.symm hjj)] at hT; exact hs g j T server files hT hk
    subst hjj
    rcases working h1 with ⟨h3, h4⟩ | ⟨g', j', T1, h3, h4, h5, h6, h7⟩ | ⟨g', j', T1, T2, m, h3, h4, h5, h6, h7, h8⟩ |
      ⟨g', j', T1, h3, h4, h5, h6, h7, h8⟩
    · exact absurd hw (h3 g j)
    · rw [h6] at hT; exact hs g j T server files hT hk
    · rw [h3] at hw
      cases hw
      rw [h7, setJob_self] at hT
      simp only [] at hT
      rw [List.getElem?_set_self (List.getElem?_eq_some_iff.mp h4).1] at hT
      cases hT
      exact ftask_parts h6 hk (fun e => hs g j T1 server files h4 e)
    · rw [h3] at hw
      cases hw
      rw [h7, setJob_self] at hT
      simp only [] at hT
      rw [List.getElem?_set_self (List.getElem?_eq_some_iff.mp h4).1] at hT
      cases hT
      exact Or.inr (Or.inr rfl)

/-- Errors of a group that has returned stay the same. -/
theorem errors_stay {s s' : TSys} {e : TEv} (inv : TInv s) (h : s.step e = .ok s') {g : Nat} (he : ∀ g, e ≠ .abandon g)
    (hp : (s.grp g).phase = .returned) : (s'.grp g).errors = (s.grp g).errors := by
  have inv' := tinv_stepped inv he h
  rw [(inv'.grp g).errs, (inv.grp g).errs]
  by_cases hf : ∃ w msg, e = .fail w msg
  · obtain ⟨w, msg, rfl⟩ := hf
    have h : stepFail s w msg = .ok s' := h
    rw [stepFail.eq_def] at h
    split at h
    · rename_i k t hw
      simp only [] at h
      split at h
      · have hk : k ≠ g := by
          intro e
          subst e
          have h1 := inv.running hw
          rcases (inv.returned hp t).1 with h2 | h2 | h2 <;> (rw [h1] at h2; cases h2)
        cases h
        show ofGroup g (s.failures ++ [(k, msg)]) = _
        rw [ofGroup, ofGroup, List.filter_append, List.filter_cons_of_neg (by simpa using hk), List.filter_nil,
          List.append_nil]
      · cases h
    · cases h; rfl
  · rw [failures_keep h (fun w msg e => hf ⟨w, msg, e⟩)]

/-- What holds of the network at every moment. -/
structure NetOk (N : Net) (s : NetSys) : Prop where
  fleet : FleetInv N.fleet s.groups
  size : ∀ a g, ((s a).x.job g).tasks.length = (N.jobs a g).2.length
  kinds : ∀ a g (j : Nat), (((s a).x.job g).tasks[j]?).map FTask.kind = ((N.jobs a g).2[j]?).map FTask.kind
  items : ∀ a g, SameItems (N.jobs a g).1 ((s a).x.job g).items
  task : ∀ a (w g j : Nat), (s a).x.t.workers[w]? = some (.running g j) → ∃ T, ((s a).x.job g).tasks[j]? = some T ∧ T.pc ≠ .failed
  hold : ∀ a w, w ∈ (s a).holders → (s a).x.asking w ≠ none
  parts : ∀ a g (j : Nat) T server files, ((s a).x.job g).tasks[j]? = some T → T.kind = .forward server files →
    T.pc = .fresh ∨ T.pc = .finished ∨ T.pc = .failed
  done : ∀ a g (j : Nat) T b h, ((s a).x.job g).tasks[j]? = some T → T.pc = .finished → N.target a g j = some (b, h) →
    ((s b).x.t.grp h).phase = .returned ∧ ((s b).x.t.grp h).errors = []

/-- Only what is sent to a server forwards. -/
theorem NetOk.forward {N : Net} {U : Nat → String → Prop} {asked : Nat → Nat → Asked} {written : Nat → Nat → List ExRequest}
    (sound : N.Sound U asked written) {s : NetSys} (ok : NetOk N s) {a g j b h : Nat} {T : FTask}
    (ht : N.target a g j = some (b, h)) (hT : ((s a).x.job g).tasks[j]? = some T) :
    ∃ server files, T.kind = .forward server files := by
  obtain ⟨server, files, fm, h1, -⟩ := sound.sent _ _ _ _ _ ht
  have := ok.kinds a g j
  rw [hT, h1] at this
  exact ⟨server, files, Option.some.inj this⟩

/-- A forwarded request has tasks. -/
theorem Net.Sound.arrives {N : Net} {U : Nat → String → Prop} {asked : Nat → Nat → Asked}
    {written : Nat → Nat → List ExRequest} (sound : N.Sound U asked written) {a g t b h : Nat}
    (ht : N.target a g t = some (b, h)) : (N.jobs b h).2 ≠ [] ∧ ∀ T ∈ (N.jobs b h).2, ∀ server files, T.kind ≠ .forward server files := by
  obtain ⟨server, files, fm, h1, h2, h3, h4, h5⟩ := sound.sent _ _ _ _ _ ht
  constructor
  · have hne : fm ≠ [] := by
      intro e
      subst e
      rw [dispatch] at h3
      obtain ⟨⟨c, t⟩, rest, hh, h3⟩ := dec_bind_inv h3
      simp only at h3
      split at h3
      · obtain ⟨_, _, -, h3⟩ := dec_bind_inv h3; cases h3
      · obtain ⟨_, _, -, h3⟩ := dec_bind_inv h3
        obtain ⟨_, _, -, h3⟩ := dec_bind_inv h3; cases h3
      · obtain ⟨_, _, -, h3⟩ := dec_bind_inv h3; cases h3
      · obtain ⟨fm, r, -, h3⟩ := dec_bind_inv h3
        obtain ⟨_, _, hc, h3⟩ := dec_bind_inv h3
        cases h3
        cases hc
      · obtain ⟨_, _, -, h3⟩ := dec_bind_inv h3; cases h3
      · cases h3
    intro e
    rw [e] at h5
    cases fm with
    | nil => exact hne rfl
    | cons f fm =>
      rw [numFiles] at h5
      simp only [] at h5
      rw [localTasks] at h5
      obtain ⟨u, -, h5⟩ := res_bind_inv h5
      split at h5
      · split at h5
        · obtain ⟨tl, -, h5⟩ := res_bind_inv h5; cases h5
        · cases h5
      · obtain ⟨tl, -, h5⟩ := res_bind_inv h5; cases h5
  · have all : ∀ (fm : KeyMap) (m : ItemMap) (C : EngineConf) (q : Bool) (ts : List FTask), localTasks C m q fm = .ok ts →
        ∀ T ∈ ts, ∀ server files, T.kind ≠ .forward server files := by
      intro fm m C
      induction fm with
      | nil => intro q ts h; cases h; intro _ h; cases h
      | cons f fm ih =>
        intro q ts h T hT
        rw [localTasks] at h
        obtain ⟨u, -, h⟩ := res_bind_inv h
        split at h
        · split at h
          · obtain ⟨tl, h1, h⟩ := res_bind_inv h
            cases h
            rcases List.mem_cons.mp hT with rfl | hT
            · intro _ _ e; cases e
            · exact ih _ _ h1 T hT
          · split at h <;> cases h
        · obtain ⟨tl, h1, h⟩ := res_bind_inv h
          cases h
          rcases List.mem_cons.mp hT with rfl | hT
          · intro _ _ e; cases e
          · exact ih _ _ h1 T hT
    exact all _ _ _ _ _ h5

theorem Net.Sound.fleet {N : Net} {U : Nat → String → Prop} {asked : Nat → Nat → Asked}
    {written : Nat → Nat → List ExRequest} (sound : N.Sound U asked written) : N.fleet.Sound where
  back := sound.back
  here := by
    intro b h ho t
    cases hx : N.origin b h with
    | none => exact absurd hx ho
    | some q =>
      obtain ⟨a, g, j⟩ := q
      cases ht : N.target b h t with
      | none => exact ht
      | some p =>
        obtain ⟨server, files, fm, h1, -⟩ := sound.sent _ _ _ _ _ ht
        exact absurd rfl ((sound.arrives ((sound.back a g j b h).mpr hx)).2 _ (List.mem_of_getElem? h1) server files)
  tasks := by
    intro b h ho
    cases hx : N.origin b h with
    | none => exact absurd hx ho
    | some q =>
      obtain ⟨a, g, j⟩ := q
      exact List.length_pos_iff.mpr (sound.arrives ((sound.back a g j b h).mpr hx)).1

/-- What the step of the network is, for the servers without values. -/
structure NetTrack (N : Net) (s s' : NetSys) (e : NetEv) (fe : FleetEv) : Prop where
  step : N.fleet.step s.groups fe = .ok s'.groups
  add : ∀ a g, e = .on a (.queue (.add g)) → fe = .thread a (.add g)
  push : ∀ a g, e = .on a (.queue (.push g)) → fe = .thread a (.push g)
  wait : ∀ a g, e = .on a (.queue (.wait g)) → fe = .thread a (.wait g)
  ret : ∀ a g, e = .on a (.queue (.ret g)) → fe = .thread a (.ret g)
  pop : ∀ a w, e = .on a (.queue (.pop w)) → fe = .thread a (.pop w)
  start : ∀ a w, e = .on a (.queue (.start w)) → fe = .thread a (.start w)
  work : ∀ a w, e = .on a (.queue (.work w)) →
    (N.fleet.seen s.groups fe a = .finish w ∨ ∃ msg, N.fleet.seen s.groups fe a = .fail w msg) ∨
    (N.fleet.forwarding s.groups a w ≠ none ∧ fe = .reply a w) ∨
    ((s a).looks w = true ∧ w ∈ (s' a).holders) ∨
    ∃ g j, (s a).x.t.workers[w]? = some (.running g j) ∧ ((s' a).x.job g).leftOf j < ((s a).x.job g).leftOf j

theorem fleet_step_of {F : Fleet} {S : FleetSys} {fe : FleetEv} {a : Nat} {o : Option TEv} {t : TSys}
    (h : F.act S fe = (a, o)) (ht : (S a).stepIf o = .ok t) : F.step S fe = .ok fun b => if b = a then t else S b := by
  rw [Fleet.step, h]
  show (S a).stepIf o >>= _ = _
  rw [ht]; rfl

theorem groups_update {s : NetSys} {a : Nat} {y : Srv} :
    NetSys.groups (fun b => if b = a then y else s b) = fun b => if b = a then y.x.t else s.groups b := by
  funext b
  show (if b = a then y else s b).x.t = if b = a then y.x.t else (s b).x.t
  split <;> rfl

theorem groups_still {s : NetSys} {a : Nat} {y : Srv} (h : y.x.t = (s a).x.t) :
    NetSys.groups (fun b => if b = a then y else s b) = s.groups := by
  rw [groups_update]
  funext b
  show (if b = a then y.x.t else (s b).x.t) = (s b).x.t
  split
  · rename_i e; rw [e, h]
  · rfl

/-- Nothing happens. -/
theorem fleet_still (F : Fleet) (S : FleetSys) (a : Nat) : F.step S (.thread a (.abandon 0)) = .ok S := by
  rw [fleet_step_of (F := F) (S := S) (fe := .thread a (.abandon 0)) (a := a) (o := none) (t := S a) rfl rfl]
  congr 1
  funext b
  split
  · rename_i e; rw [e]
  · rfl

theorem seen_of {F : Fleet} {S : FleetSys} {fe : FleetEv} {a : Nat} {x : TEv} (h : F.act S fe = (a, some x)) :
    F.seen S fe a = x := by
  rw [Fleet.seen, h]; exact if_pos rfl

theorem opened_fleet (N : Net) (s : NetSys) (a g : Nat) : N.fleet.opened s.groups a g = N.opened s a g := rfl

theorem forwarding_of {N : Net} {s : NetSys} {a w g j : Nat} (hw : (s a).x.t.workers[w]? = some (.running g j)) :
    N.fleet.forwarding s.groups a w = N.target a g j := by
  rw [Fleet.forwarding.eq_def]
  show (match (s a).x.t.workers[w]? with | some (.running g t) => N.target a g t | _ => none) = _
  rw [hw]

theorem forwarding_idle {N : Net} {s : NetSys} {a w : Nat} (hw : ∀ g j, (s a).x.t.workers[w]? ≠ some (.running g j)) :
    N.fleet.forwarding s.groups a w = none := by
  rw [Fleet.forwarding.eq_def]
  split
  · rename_i g j h; exact absurd h (hw g j)
  · rfl

theorem leftOf_inside {f : FSys} {j : Nat} {T T' : FTask} {E : ExtEnv} {C : EngineConf} {t : Nat} {m m' : ItemMap}
    {es : List String} {t' : Nat} (hT : f.tasks[j]? = some T) (h : T.step E C t m = .ok (m', T')) (h1 : T.pc ≠ .failed)
    (h2 : T.pc ≠ .finished) : FSys.leftOf ⟨m', f.tasks.set j T', es, t'⟩ j < f.leftOf j := by
  rw [FSys.leftOf, FSys.leftOf, hT, List.getElem?_set_self (List.getElem?_eq_some_iff.mp hT).1]
  exact (ftask_forward h h1 h2).2

/-- A step inside a task, for the servers without values. -/
theorem track_work {N : Net} {s : NetSys} (ok : NetOk N s) {a w : Nat} {E : Nat → ExtEnv} {C : EngineConf} {y : Srv}
    (h : (s a).x.step E C (.work w) = .ok y.x) :
    ∃ fe, N.fleet.step s.groups fe = .ok (NetSys.groups fun b => if b = a then y else s b) ∧
      ((N.fleet.seen s.groups fe a = .finish w ∨ ∃ msg, N.fleet.seen s.groups fe a = .fail w msg) ∨
      ∃ g j, (s a).x.t.workers[w]? = some (.running g j) ∧ (y.x.job g).leftOf j < ((s a).x.job g).leftOf j) := by
  rcases working h with ⟨h1, h2⟩ | ⟨g, j, T, h1, h2, h3, h4, h5⟩ | ⟨g, j, T, T', m, h1, h2, h3, h4, h5, h6⟩ |
    ⟨g, j, T, h1, h2, h3, h4, h5, h6⟩
  · have hact : N.fleet.act s.groups (.thread a (.finish w)) = (a, some (.finish w)) := by
      show (a, if _ then _ else _) = _
      rw [if_pos (forwarding_idle h1)]
    refine ⟨.thread a (.finish w), ?_, Or.inl (Or.inl (seen_of hact))⟩
    rw [groups_update]
    refine fleet_step_of hact ?_
    show stepFinish (s a).x.t w = _
    rw [h2, stepFinish.eq_def]
    split
    · rename_i g j hw; exact absurd hw (h1 g j)
    · rfl
  · cases htg : N.target a g j with
    | none =>
      have hact : N.fleet.act s.groups (.thread a (.finish w)) = (a, some (.finish w)) := by
        show (a, if _ then _ else _) = _
        rw [if_pos ((forwarding_of h1).trans htg)]
      refine ⟨.thread a (.finish w), ?_, Or.inl (Or.inl (seen_of hact))⟩
      rw [groups_update]
      exact fleet_step_of hact h5
    | some p =>
      obtain ⟨b, k⟩ := p
      obtain ⟨hr, he⟩ := ok.done a g j T b k h2 h3 htg
      have hact : N.fleet.act s.groups (.reply a w) = (a, some (.finish w)) := by
        show (a, match N.fleet.forwarding s.groups a w with | some (b, h) => replied ((s.groups b).grp h) w | none => none) = _
        rw [(forwarding_of h1).trans htg]
        show (a, replied ((s b).x.t.grp k) w) = _
        rw [replied.eq_def, hr]
        simp only []
        rw [if_pos he]
      refine ⟨.reply a w, ?_, Or.inl (Or.inl (seen_of hact))⟩
      rw [groups_update]
      exact fleet_step_of hact h5
  · obtain ⟨T0, hT0, hpf⟩ := ok.task a w g j h1
    rw [h2] at hT0
    cases hT0
    refine ⟨.thread a (.abandon 0), ?_, Or.inr ⟨g, j, h1, ?_⟩⟩
    · rw [groups_still h6]; exact fleet_still _ _ _
    · rw [h5, setJob_self]
      exact leftOf_inside h2 h4 hpf h3
  · cases htg : N.target a g j with
    | none =>
      have hact : N.fleet.act s.groups (.thread a (.fail w "error")) = (a, some (.fail w "error")) := by
        show (a, if _ then _ else _) = _
        rw [if_pos ((forwarding_of h1).trans htg)]
      refine ⟨.thread a (.fail w "error"), ?_, Or.inl (Or.inr ⟨_, seen_of hact⟩)⟩
      rw [groups_update]
      exact fleet_step_of hact h6
    | some p =>
      have hact : N.fleet.act s.groups (.lost a w "error") = (a, some (.fail w "error")) := by
        show (a, if _ then _ else _) = _
        rw [if_neg (by rw [(forwarding_of h1).trans htg]; simp)]
      refine ⟨.lost a w "error", ?_, Or.inl (Or.inr ⟨_, seen_of hact⟩)⟩
      rw [groups_update]
      exact fleet_step_of hact h6

theorem net_track {N : Net} {U : Nat → String → Prop} {asked : Nat → Nat → Asked} {written : Nat → Nat → List ExRequest}
    (sound : N.Sound U asked written) {s s' : NetSys} {e : NetEv} (ok : NetOk N s) (h : N.step s e = .ok s') :
    ∃ fe, NetTrack N s s' e fe := by
  have lens : ∀ a, (s a).x.t.workers[N.threads a]? = none := fun a =>
    List.getElem?_eq_none (Nat.le_of_eq (ok.fleet.workers a))
  -- steps of the threads of requests and of workers between tasks
  have plain : ∀ a (q : XEv) (te : TEv) o, e = .on a (.queue q) → (∀ w, q ≠ .work w) →
      (∀ E C, (s a).x.act E C q = .ok (o, (s a).x.job)) → N.act s e = (a, some (N.site a, .queue q)) →
      N.fleet.act s.groups (.thread a te) = (a, o) → N.fleet.step s.groups (.thread a te) = .ok s'.groups := by
    intro a q te o he hq hx hact hf
    rw [Net.step, hact] at h
    simp only [] at h
    obtain ⟨y, h1, h⟩ := res_bind_inv h
    rw [← Except.ok.inj h, groups_update]
    refine fleet_step_of hf ?_
    have h2 := part_step (n := N.threads a) (lens a) h1
    have hp : (s a).part (N.threads a) (.queue q) = q := by
      cases q with
      | work w => exact absurd rfl (hq w)
      | _ => rfl
    rw [hp] at h2
    obtain ⟨o', h3, h4⟩ := step_inv h2
    rw [hx] at h3
    have := (Prod.mk.inj (Except.ok.inj h3)).1
    subst this
    exact h4
  have shut : ∀ a (te : TEv), N.act s e = (a, none) → N.fleet.act s.groups (.thread a te) = (a, none) →
      N.fleet.step s.groups (.thread a te) = .ok s'.groups := by
    intro a te hact hf
    rw [Net.step, hact] at h
    simp only [] at h
    cases h
    rw [fleet_step_of hf (t := (s a).x.t) rfl]
    congr 1
    funext b
    split
    · rename_i e; rw [e]; rfl
    · rfl
  -- steps inside tasks
  have inside : ∀ a p w, N.act s e = (a, some (p, .queue (.work w))) → p.conf = (N.site a).conf → (s a).looks w = false →
      ∃ fe, N.fleet.step s.groups fe = .ok s'.groups ∧
        ((N.fleet.seen s.groups fe a = .finish w ∨ ∃ msg, N.fleet.seen s.groups fe a = .fail w msg) ∨
        ∃ g j, (s a).x.t.workers[w]? = some (.running g j) ∧ ((s' a).x.job g).leftOf j < ((s a).x.job g).leftOf j) := by
    intro a p w hact hp hl
    rw [Net.step, hact] at h
    simp only [] at h
    obtain ⟨y, h1, h⟩ := res_bind_inv h
    have h2 := part_step (n := N.threads a) (lens a) h1
    have hpa : (s a).part (N.threads a) (.queue (.work w)) = .work w := by
      rw [Srv.part, if_neg (by rw [hl]; simp)]
    rw [hpa] at h2
    rw [← Except.ok.inj h]
    obtain ⟨fe, h3, h4⟩ := track_work ok h2
    refine ⟨fe, h3, ?_⟩
    simp only [if_pos]
    exact h4
  cases e with
  | lost a w =>
    cases hc : (s a).x.connected w with
    | none =>
      refine ⟨.thread a (.abandon 0), shut a _ (by rw [Net.act, hc]) rfl, ?_, ?_, ?_, ?_, ?_, ?_, ?_⟩ <;>
        (intro _ _ e; cases e)
    | some q =>
      obtain ⟨g, j⟩ := q
      obtain ⟨c1, server, files, c2⟩ := connected_inv hc
      obtain ⟨fe, hfe, -⟩ := inside a ((N.site a).hearing fun _ => throwExn .ioError) w (by rw [Net.act, hc]) rfl
        (by rw [Srv.looks, asking_forward c1 c2]; rfl)
      refine ⟨fe, hfe, ?_, ?_, ?_, ?_, ?_, ?_, ?_⟩ <;> (intro _ _ e; cases e)
  | on a e =>
    cases e with
    | other e =>
      have hs' : N.fleet.step s.groups (.thread a (.abandon 0)) = .ok s'.groups := by
        rw [Net.step, Net.act] at h
        · simp only [] at h
          obtain ⟨y, h1, h⟩ := res_bind_inv h
          rw [← Except.ok.inj h]
          obtain ⟨z, -, h1⟩ := res_bind_inv h1
          rw [groups_still (by rw [← Except.ok.inj h1])]
          exact fleet_still _ _ _
        all_goals (intro _ e; cases e)
      refine ⟨.thread a (.abandon 0), hs', ?_, ?_, ?_, ?_, ?_, ?_, ?_⟩ <;> (intro _ _ e; cases e)
    | queue q =>
      cases q with
      | add g =>
        have hs' : N.fleet.step s.groups (.thread a (.add g)) = .ok s'.groups := by
          cases ho : N.opened s a g with
          | false =>
            refine shut a _ (by rw [Net.act, ho]; rfl) ?_
            show (a, if _ then _ else _) = _
            rw [if_neg]
            rw [opened_fleet, ho]; simp
          | true =>
            refine plain a (.add g) (.add g)
              (if ((s a).x.t.grp g).tasks.length < ((s a).x.job g).tasks.length then some (.add g) else none) rfl
              (fun _ e => by cases e) (fun _ _ => rfl) (by rw [Net.act, ho]; rfl) ?_
            show (a, if N.fleet.opened s.groups a g ∧ ((s a).x.t.grp g).tasks.length < (N.jobs a g).2.length then _ else _) = _
            rw [opened_fleet, ho, ok.size]
            simp only [true_and]
        refine ⟨.thread a (.add g), hs', ?_, ?_, ?_, ?_, ?_, ?_, ?_⟩ <;> (intro _ _ e; cases e; try rfl)
      | wait g =>
        have hs' : N.fleet.step s.groups (.thread a (.wait g)) = .ok s'.groups := by
          cases ho : N.opened s a g with
          | false =>
            refine shut a _ (by rw [Net.act, ho]; rfl) ?_
            show (a, if _ then _ else _) = _
            rw [if_neg]
            rw [opened_fleet, ho]; simp
          | true =>
            refine plain a (.wait g) (.wait g)
              (if ((s a).x.t.grp g).tasks.length = ((s a).x.job g).tasks.length then some (.wait g) else none) rfl
              (fun _ e => by cases e) (fun _ _ => rfl) (by rw [Net.act, ho]; rfl) ?_
            show (a, if N.fleet.opened s.groups a g ∧ ((s a).x.t.grp g).tasks.length = (N.jobs a g).2.length then _ else _) = _
            rw [opened_fleet, ho, ok.size]
            simp only [true_and]
        refine ⟨.thread a (.wait g), hs', ?_, ?_, ?_, ?_, ?_, ?_, ?_⟩ <;> (intro _ _ e; cases e; try rfl)
      | push g =>
        refine ⟨.thread a (.push g), plain a (.push g) (.push g) _ rfl (fun _ e => by cases e) (fun _ _ => rfl) rfl rfl,
          ?_, ?_, ?_, ?_, ?_, ?_, ?_⟩ <;> (intro _ _ e; cases e; try rfl)
      | ret g =>
        refine ⟨.thread a (.ret g), plain a (.ret g) (.ret g) _ rfl (fun _ e => by cases e) (fun _ _ => rfl) rfl rfl,
          ?_, ?_, ?_, ?_, ?_, ?_, ?_⟩ <;> (intro _ _ e; cases e; try rfl)
      | pop g =>
        refine ⟨.thread a (.pop g), plain a (.pop g) (.pop g) _ rfl (fun _ e => by cases e) (fun _ _ => rfl) rfl rfl,
          ?_, ?_, ?_, ?_, ?_, ?_, ?_⟩ <;> (intro _ _ e; cases e; try rfl)
      | start g =>
        refine ⟨.thread a (.start g), plain a (.start g) (.start g) _ rfl (fun _ e => by cases e) (fun _ _ => rfl) rfl rfl,
          ?_, ?_, ?_, ?_, ?_, ?_, ?_⟩ <;> (intro _ _ e; cases e; try rfl)
      | work w =>
        cases hl : (s a).looks w with
        | true =>
          have hask : (s a).x.asking w ≠ none := by
            intro e
            rw [Srv.looks, e] at hl; cases hl
          have hc : (s a).x.connected w = none := by
            cases hc : (s a).x.connected w with
            | none => rfl
            | some q =>
              obtain ⟨c1, server, files, c2⟩ := connected_inv (g := q.1) (j := q.2) hc
              exact absurd (asking_forward c1 c2) hask
          have hact : N.act s (.on a (.queue (.work w))) = (a, some (N.site a, .queue (.work w))) := by rw [Net.act, hc]
          rw [Net.step, hact] at h
          simp only [] at h
          obtain ⟨y, h1, h⟩ := res_bind_inv h
          have h2 := part_step (n := N.threads a) (lens a) h1
          rw [Srv.part, if_pos hl, no_worker (lens a)] at h2
          have hx : y.x = (s a).x := (Except.ok.inj h2).symm
          have hs'a : s' a = y := by rw [← Except.ok.inj h]; exact if_pos rfl
          refine ⟨.thread a (.abandon 0), ?_, ?_, ?_, ?_, ?_, ?_, ?_, ?_⟩
          · rw [← Except.ok.inj h, groups_still (by rw [hx])]; exact fleet_still _ _ _
          case refine_8 =>
            intro _ _ e
            cases e
            exact Or.inr (Or.inr (Or.inl ⟨hl, by rw [hs'a]; exact looks_holds h1 hl⟩))
          all_goals (intro _ _ e; cases e)
        | false =>
          have fin : ∀ fe, N.fleet.step s.groups fe = .ok s'.groups →
              ((N.fleet.seen s.groups fe a = .finish w ∨ ∃ msg, N.fleet.seen s.groups fe a = .fail w msg) ∨
                ∃ g j, (s a).x.t.workers[w]? = some (.running g j) ∧ ((s' a).x.job g).leftOf j < ((s a).x.job g).leftOf j) →
              ∃ fe, NetTrack N s s' (.on a (.queue (.work w))) fe := by
            intro fe h1 h2
            refine ⟨fe, h1, ?_, ?_, ?_, ?_, ?_, ?_, ?_⟩
            case refine_7 =>
              intro _ _ e
              cases e
              rcases h2 with h2 | h2
              · exact Or.inl h2
              · exact Or.inr (Or.inr (Or.inr h2))
            all_goals (intro _ _ e; cases e)
          cases hc : (s a).x.connected w with
          | none =>
            obtain ⟨fe, h1, h2⟩ := inside a _ w (by rw [Net.act, hc]) rfl hl
            exact fin fe h1 h2
          | some q =>
            obtain ⟨g, j⟩ := q
            obtain ⟨c1, server, files, c2⟩ := connected_inv hc
            cases hr : N.reply s a g j with
            | some r =>
              obtain ⟨fe, h1, h2⟩ := inside a ((N.site a).hearing r) w (by rw [Net.act, hc]; simp only []; rw [hr]; rfl) rfl hl
              exact fin fe h1 h2
            | none =>
              -- the reply has not come
              rw [Net.reply] at hr
              cases htg : N.target a g j with
              | none => rw [htg] at hr; cases hr
              | some p =>
                obtain ⟨b, k⟩ := p
                rw [htg] at hr
                simp only [] at hr
                split at hr
                · cases hr
                rename_i hph
                have hor : N.origin b k ≠ none := by rw [(sound.back _ _ _ _ _).mp htg]; simp
                have hrep : replied ((s b).x.t.grp k) w = none := by
                  rw [replied.eq_def]
                  cases hp : ((s b).x.t.grp k).phase with
                  | returned => exact absurd hp hph
                  | enqueuing => rfl
                  | waiting => rfl
                  | gone =>
                    exfalso
                    have h1 := ok.fleet.full b k (show ((s b).x.t.grp k).phase ≠ _ by rw [hp]; simp)
                    have h2 : ((s b).x.t.grp k).tasks = [] := ((ok.fleet.inv b).grp k).gone hp
                    have h3 := sound.fleet.tasks b k hor
                    have h1 : ((s b).x.t.grp k).tasks.length = _ := h1
                    rw [h2] at h1
                    rw [← h1] at h3
                    cases h3
                have hfw : N.fleet.forwarding s.groups a w = some (b, k) := (forwarding_of c1).trans htg
                have hact : N.fleet.act s.groups (.reply a w) = (a, none) := by
                  show (a, match N.fleet.forwarding s.groups a w with
                    | some (b, h) => replied ((s.groups b).grp h) w | none => none) = _
                  rw [hfw]
                  exact congrArg (Prod.mk a) hrep
                have hna : N.act s (.on a (.queue (.work w))) = (a, none) := by
                  rw [Net.act, hc]
                  simp only []
                  rw [Net.reply, htg]
                  simp only []
                  rw [if_neg hph]; rfl
                rw [Net.step, hna] at h
                simp only [] at h
                cases h
                refine ⟨.reply a w, ?_, ?_, ?_, ?_, ?_, ?_, ?_, ?_⟩
                · rw [fleet_step_of hact (t := (s a).x.t) rfl]
                  congr 1
                  funext b
                  split
                  · rename_i e; rw [e]; rfl
                  · rfl
                case refine_8 =>
                  intro _ _ e
                  cases e
                  exact Or.inr (Or.inl ⟨by rw [hfw]; simp, rfl⟩)
                all_goals (intro _ _ e; cases e)

/-- A reply without errors is that of a request without errors. -/
theorem reply_clean {N : Net} {U : Nat → String → Prop} {asked : Nat → Nat → Asked} {written : Nat → Nat → List ExRequest}
    (sound : N.Sound U asked written) {s : NetSys} (ok : NetOk N s) {a g j b h : Nat} {server : String × Int} {files : KeyMap}
    (ht : N.target a g j = some (b, h)) (hT : ((s a).x.job g).tasks[j]? = some ⟨.forward server files, .fresh⟩) {back : FileMap}
    (hr : remoteForwardExtract (Net.answering s b h) (N.ctx a g) (sentFiles ((s a).x.job g).items files) = .ok back) :
    ((s b).x.t.grp h).errors = [] := by
  obtain ⟨server', files', fm, h1, -, h3, -⟩ := sound.sent _ _ _ _ _ ht
  have hk := ok.kinds a g j
  rw [hT, h1] at hk
  simp only [Option.map_some, Option.some.injEq] at hk
  cases hk
  rw [← sentFiles_bytes (ok.items a g)] at h3
  rw [remoteForwardExtract] at hr
  obtain ⟨body, hb, -⟩ := remoteCall_ok_inv h3 hr
  rw [handle] at hb
  obtain ⟨⟨fm', errs⟩, he, hb⟩ := res_bind_inv hb
  simp only [] at hb
  have h5 := (Prod.mk.inj (Except.ok.inj hb)).1
  rw [Net.answering] at he
  simp only [] at he
  have h6 := (Prod.mk.inj (Except.ok.inj he)).2
  rw [h6, h5]

theorem NetOk.done_step {N : Net} {U : Nat → String → Prop} {asked : Nat → Nat → Asked} {written : Nat → Nat → List ExRequest}
    (sound : N.Sound U asked written) {s s' : NetSys} {e : NetEv} (ok : NetOk N s) (h : N.step s e = .ok s')
    (a g j : Nat) (T : FTask) (b k : Nat) (hT : ((s' a).x.job g).tasks[j]? = some T) (hp : T.pc = .finished)
    (ht : N.target a g j = some (b, k)) :
    ((s' b).x.t.grp k).phase = .returned ∧ ((s' b).x.t.grp k).errors = [] := by
  obtain ⟨fe, tr⟩ := net_track sound ok h
  have stay : ((s b).x.t.grp k).phase = .returned ∧ ((s b).x.t.grp k).errors = [] →
      ((s' b).x.t.grp k).phase = .returned ∧ ((s' b).x.t.grp k).errors = [] := by
    rintro ⟨h1, h2⟩
    have hs := seen_step ok.fleet tr.step b
    exact ⟨returned_stays hs (seen_scoped _ _ _ _ _) h1,
      (errors_stay (ok.fleet.inv b) hs (seen_scoped _ _ _ _) h1).trans h2⟩
  have old : ((s a).x.job g).tasks[j]? = some T → ((s' b).x.t.grp k).phase = .returned ∧ ((s' b).x.t.grp k).errors = [] :=
    fun h => stay (ok.done a g j T b k h hp ht)
  rcases net_step_inv h with rfl | ⟨c, p, e', y, hact, hy, hs⟩
  · exact old hT
  by_cases hc : a = c
  case neg => rw [hs] at hT; simp only [if_neg hc] at hT; exact old hT
  subst hc
  have hsa : s' a = y := by rw [hs]; exact if_pos rfl
  rw [hsa] at hT
  have lens : (s a).x.t.workers[N.threads a]? = none := List.getElem?_eq_none (Nat.le_of_eq (ok.fleet.workers a))
  have h2 := part_step (n := N.threads a) lens hy
  rcases xstep_job h2 with hj | ⟨w, g', j', T0, T', hpart, hw, hT0, hnf, ho, -, hts, hk, -⟩
  · rw [hj] at hT; exact old hT
  by_cases hg : g = g'
  case neg => rw [ho g hg] at hT; exact old hT
  subst hg
  by_cases hjj : j = j'
  case neg => rw [hts, List.getElem?_set_ne (Ne.symm hjj)] at hT; exact old hT
  subst hjj
  rw [hpart] at h2
  -- the step that ended the forwarding task
  rcases working h2 with ⟨h3, h4⟩ | ⟨g', j', T1, h3, h4, h5, h6, h7⟩ | ⟨g', j', T1, T2, m, h3, h4, h5, h6, h7, h8⟩ |
    ⟨g', j', T1, h3, h4, h5, h6, h7, h8⟩
  · exact absurd hw (h3 g j)
  · rw [h3] at hw
    cases hw
    rw [h4] at hT0
    cases hT0
    exact absurd h5 hnf
  · rw [h3] at hw
    cases hw
    rw [h4] at hT0
    cases hT0
    obtain ⟨T3, h9, h10⟩ := ok.task a w g j h3
    rw [h4] at h9
    cases h9
    obtain ⟨server, files, hkind⟩ := ok.forward sound ht h4
    -- it was connected
    have hfr : T0 = ⟨.forward server files, .fresh⟩ := by
      obtain ⟨kind, pc⟩ := T0
      cases hkind
      cases pc with
      | fresh => rfl
      | finished => exact absurd rfl h5
      | failed => exact absurd rfl h10
      | work todo => rcases ok.parts a g j _ server files h4 rfl with e | e | e <;> cases e
      | fetching todo => rcases ok.parts a g j _ server files h4 rfl with e | e | e <;> cases e
    subst hfr
    have hconn : (s a).x.connected w = some (g, j) := by
      rw [XSys.connected.eq_def, h3]
      simp only []
      rw [h4]
    have he' : e' = .queue (.work w) := by
      cases e' with
      | other o =>
        have : (XEv.work (N.threads a)) = .work w := hpart
        cases this
        rw [lens] at h3
        cases h3
      | queue q =>
        cases q with
        | work v =>
          rw [Srv.part] at hpart
          split at hpart
          · cases hpart
            rw [lens] at h3
            cases h3
          · cases hpart; rfl
        | _ => cases hpart
    subst he'
    rcases net_act_inv hact with ⟨-, -, hfree⟩ | ⟨w', g', j', r, hw', hconn', hp', hcase⟩
    · rw [hfree w rfl] at hconn; cases hconn
    · cases hw'
      rw [hconn] at hconn'
      cases hconn'
      subst hp'
      rw [FTask.step] at h6
      simp only [] at h6
      obtain ⟨back, hb, h6⟩ := res_bind_inv h6
      have hb : r (sentFiles ((s a).x.job g).items files) = .ok back := hb
      rcases hcase with ⟨-, hrep⟩ | ⟨-, rfl⟩
      · rw [Net.reply, ht] at hrep
        simp only [] at hrep
        split at hrep
        · rename_i hph
          cases hrep
          exact stay ⟨hph, reply_clean sound ok ht h4 hb⟩
        · cases hrep
      · cases hb
  · rw [h3] at hw
    cases hw
    rw [h7, setJob_self] at hT
    simp only [] at hT
    rw [List.getElem?_set_self (List.getElem?_eq_some_iff.mp h4).1] at hT
    cases hT
    cases hp

/-- What holds of one process, seen from the network. -/
theorem srvinv_ok {p : Site} {U : String → Prop} {n : Nat} {P : Nat → ItemMap × List FTask} {from_ : Nat → Svc UInt64} {s : Srv}
    (inv : SrvInv p U n P from_ s) (fresh : ∀ g, ∀ T ∈ (P g).2, T.pc = .fresh) :
    (∀ g, (s.x.job g).tasks.length = (P g).2.length) ∧
    (∀ g (j : Nat), ((s.x.job g).tasks[j]?).map FTask.kind = ((P g).2[j]?).map FTask.kind) ∧
    (∀ g, SameItems (P g).1 (s.x.job g).items) ∧
    (∀ (w g j : Nat), s.x.t.workers[w]? = some (.running g j) → ∃ T, (s.x.job g).tasks[j]? = some T ∧ T.pc ≠ .failed) ∧
    (∀ w, w ∈ s.holders → s.x.asking w ≠ none) ∧
    (∀ g (j : Nat) T server files, (s.x.job g).tasks[j]? = some T → T.kind = .forward server files →
      T.pc = .fresh ∨ T.pc = .finished ∨ T.pc = .failed) := by
  obtain ⟨E, qs, hL, hr⟩ := inv.run
  have X := (XInv.init fresh).ran hr
  refine ⟨X.size, fun g => (xrun_same hr g).2, fun g => (xrun_same hr g).1, fun w g j hw => X.task hw, ?_, ?_⟩
  · intro w hw
    obtain ⟨k, hk⟩ := List.mem_iff_getElem?.mp hw
    have hlt := (List.getElem?_eq_some_iff.mp hk).1
    rw [inv.len] at hlt
    rw [inv.asks k w _ hk (List.getElem?_eq_getElem hlt)]
    simp
  · refine xrun_parts hr ?_
    intro g j T server files hT _
    exact Or.inl (fresh g T (List.mem_of_getElem? hT))

theorem net_ok {N : Net} {U : Nat → String → Prop} {asked : Nat → Nat → Asked} {written : Nat → Nat → List ExRequest}
    (sound : N.Sound U asked written) {st : NetSys} (began : N.Began U st) (es : List NetEv) (s : NetSys)
    (h : N.run st es = .ok s) (allowed : ∀ e ∈ es, NetEv.Allowed U e) : NetOk N s := by
  refine net_induct (st := st) (fun es s => (∀ e ∈ es, NetEv.Allowed U e) → NetOk N s) ?_ ?_ es s h allowed
  · intro _
    have hf := fun a => (net_srv sound began (es := []) (s := st) rfl (fun _ h => by cases h) a)
    refine ⟨?_, fun a g => ?_, fun a g => ?_, fun a g => ?_, fun a => ?_, fun a => ?_, fun a => ?_, ?_⟩
    · obtain ⟨d, mode, lazy, cap, fs, -, -, -, rfl⟩ := began
      exact FleetInv.start N.fleet
    case refine_8 =>
      intro a g j T b k hT hp ht
      obtain ⟨d, mode, lazy, cap, fs, -, -, -, rfl⟩ := began
      have := sound.fresh a g T (List.mem_of_getElem? hT)
      rw [hp] at this; cases this
    all_goals
      obtain ⟨fwd, -, inv, -⟩ := hf a
      have := srvinv_ok inv (sound.fresh a)
    · exact this.1 g
    · exact this.2.1 g
    · exact this.2.2.1 g
    · exact this.2.2.2.1
    · exact this.2.2.2.2.1
    · exact this.2.2.2.2.2
  · intro es s e s' hrun hq hs hal
    have ok := hq fun e he => hal e (List.mem_append_left _ he)
    have hf := fun a => (net_srv sound began (net_snoc hrun hs) hal a)
    refine ⟨?_, fun a g => ?_, fun a g => ?_, fun a g => ?_, fun a => ?_, fun a => ?_, fun a => ?_, ok.done_step sound hs⟩
    · obtain ⟨fe, tr⟩ := net_track sound ok hs
      exact ok.fleet.step tr.step
    all_goals
      obtain ⟨fwd, -, inv, -⟩ := hf a
      have := srvinv_ok inv (sound.fresh a)
    · exact this.1 g
    · exact this.2.1 g
    · exact this.2.2.1 g
    · exact this.2.2.2.1
    · exact this.2.2.2.2.1
    · exact this.2.2.2.2.2

/-! ## Infinite histories -/

/-- An infinite history of the network. -/
structure NetExecution (N : Net) (U : Nat → String → Prop) (ev : Nat → NetEv) (st : Nat → NetSys) : Prop where
  began : N.Began U (st 0)
  step : ∀ k, N.step (st k) (ev k) = .ok (st (k + 1))
  allowed : ∀ k, NetEv.Allowed U (ev k)

/-- The workers of process `a` keep asking for work, starting what they got and taking steps. -/
def NetWorkersFairAt (N : Net) (ev : Nat → NetEv) (a : Nat) : Prop :=
  ∀ w, w < N.threads a → ∀ k, (∃ m, k ≤ m ∧ ev m = .on a (.queue (.pop w))) ∧
    (∃ m, k ≤ m ∧ ev m = .on a (.queue (.start w))) ∧ (∃ m, k ≤ m ∧ ev m = .on a (.queue (.work w)))

/-- The workers of all processes keep running. -/
def NetWorkersFair (N : Net) (ev : Nat → NetEv) : Prop := ∀ a, NetWorkersFairAt N ev a

/-- The thread of request `g` of process `a` keeps running. -/
def NetThreadFair (a g : Nat) (ev : Nat → NetEv) : Prop :=
  ∀ k, (∃ m, k ≤ m ∧ ev m = .on a (.queue (.add g))) ∧ (∃ m, k ≤ m ∧ ev m = .on a (.queue (.push g))) ∧
    (∃ m, k ≤ m ∧ ev m = .on a (.queue (.wait g))) ∧ (∃ m, k ≤ m ∧ ev m = .on a (.queue (.ret g)))

/-- The process always has a worker that does not wait for another process. -/
def NetSpare (N : Net) (st : Nat → NetSys) (b : Nat) : Prop :=
  ∀ k, ∃ w, w < N.threads b ∧ ∀ g j, ((st k) b).x.t.workers[w]? = some (.running g j) → N.target b g j = none

theorem NetExecution.since {N : Net} {U : Nat → String → Prop} {ev : Nat → NetEv} {st : Nat → NetSys}
    (h : NetExecution N U ev st) (k m : Nat) :
    N.run (st k) ((List.range m).map fun i => ev (k + i)) = .ok (st (k + m)) := by
  induction m with
  | zero => rfl
  | succ m ih =>
    rw [List.range_succ, List.map_append]
    exact net_snoc ih (h.step (k + m))

theorem NetExecution.events {N : Net} {U : Nat → String → Prop} {ev : Nat → NetEv} {st : Nat → NetSys}
    (h : NetExecution N U ev st) (k m : Nat) : ∀ e ∈ (List.range m).map (fun i => ev (k + i)), NetEv.Allowed U e := by
  intro e he
  obtain ⟨i, -, rfl⟩ := List.mem_map.mp he
  exact h.allowed _

theorem NetExecution.run {N : Net} {U : Nat → String → Prop} {ev : Nat → NetEv} {st : Nat → NetSys}
    (h : NetExecution N U ev st) (k : Nat) : N.run (st 0) ((List.range k).map fun i => ev (0 + i)) = .ok (st k) := by
  have := h.since 0 k
  rwa [show 0 + k = k from by omega] at this

theorem NetExecution.ok {N : Net} {U : Nat → String → Prop} {asked : Nat → Nat → Asked} {written : Nat → Nat → List ExRequest}
    (sound : N.Sound U asked written) {ev : Nat → NetEv} {st : Nat → NetSys} (h : NetExecution N U ev st) (k : Nat) :
    NetOk N (st k) :=
  net_ok sound h.began _ _ (h.run k) (h.events 0 k)

/-- Nothing adds to what a task has left to do. -/
theorem xstep_left {E : Nat → ExtEnv} {C : EngineConf} {s s' : XSys} {e : XEv} (h : s.step E C e = .ok s')
    (task : ∀ (w g j : Nat), s.t.workers[w]? = some (.running g j) → ∃ T, (s.job g).tasks[j]? = some T ∧ T.pc ≠ .failed)
    (g j : Nat) : (s'.job g).leftOf j ≤ (s.job g).leftOf j := by
  rcases xstep_job h with hj | ⟨w, g', j', T0, T', rfl, hw, hT0, hnf, ho, -⟩
  · rw [hj]; exact Nat.le_refl _
  by_cases hg : g = g'
  case neg => rw [ho g hg]; exact Nat.le_refl _
  subst hg
  rcases working h with ⟨h3, h4⟩ | ⟨g', j', T1, h3, h4, h5, h6, h7⟩ | ⟨g', j', T1, T2, m, h3, h4, h5, h6, h7, h8⟩ |
    ⟨g', j', T1, h3, h4, h5, h6, h7, h8⟩
  · rw [h4]; exact Nat.le_refl _
  · rw [h6]; exact Nat.le_refl _
  · rw [h3] at hw
    cases hw
    obtain ⟨T3, h9, h10⟩ := task w g _ h3
    rw [h4] at h9
    cases h9
    rw [h7, setJob_self]
    exact leftOf_set h4 (Nat.le_of_lt (ftask_forward h6 h10 h5).2)
  · rw [h3] at hw
    cases hw
    rw [h7, setJob_self]
    exact leftOf_set h4 (Nat.zero_le _)

theorem net_left {N : Net} {s s' : NetSys} {e : NetEv} (ok : NetOk N s) (h : N.step s e = .ok s') (a g j : Nat) :
    ((s' a).x.job g).leftOf j ≤ ((s a).x.job g).leftOf j := by
  rcases net_step_inv h with rfl | ⟨c, p, e', y, hact, hy, rfl⟩
  · exact Nat.le_refl _
  by_cases hc : a = c
  · subst hc
    simp only [if_pos]
    have lens : (s a).x.t.workers[N.threads a]? = none := List.getElem?_eq_none (Nat.le_of_eq (ok.fleet.workers a))
    exact xstep_left (part_step (n := N.threads a) lens hy) (ok.task a) g j
  · simp only [if_neg hc]; exact Nat.le_refl _

/-- A worker in the middle of a lookup stays there until it steps. -/
theorem net_holders {N : Net} {s s' : NetSys} {e : NetEv} (ok : NetOk N s) (h : N.step s e = .ok s') {a w : Nat}
    (hne : e ≠ .on a (.queue (.work w))) (hw : w ∈ (s a).holders) : w ∈ (s' a).holders := by
  rcases net_step_inv h with rfl | ⟨c, p, e', y, hact, hy, rfl⟩
  · exact hw
  by_cases hc : a = c
  · subst hc
    simp only [if_pos]
    refine holders_stay hy ?_ hw
    rintro rfl
    rcases net_act_inv hact with ⟨-, he, -⟩ | ⟨w', g, j, r, hw', hconn, -, hcase⟩
    · exact hne he
    · cases hw'
      obtain ⟨c1, server, files, c2⟩ := connected_inv hconn
      exact ok.hold a w hw (asking_forward c1 c2)
  · simp only [if_neg hc]; exact hw

/-- The history of the servers without values. -/
theorem NetExecution.fleet {N : Net} {U : Nat → String → Prop} {asked : Nat → Nat → Asked} {written : Nat → Nat → List ExRequest}
    (sound : N.Sound U asked written) {ev : Nat → NetEv} {st : Nat → NetSys} (h : NetExecution N U ev st) :
    ∃ fev : Nat → FleetEv, FleetExecution N.fleet fev (fun k => (st k).groups) ∧
      ∀ k, NetTrack N (st k) (st (k + 1)) (ev k) (fev k) := by
  have hex := fun k => net_track sound (h.ok sound k) (h.step k)
  refine ⟨fun k => Classical.choose (hex k), ⟨?_, fun k => (Classical.choose_spec (hex k)).step⟩,
    fun k => Classical.choose_spec (hex k)⟩
  obtain ⟨d, mode, lazy, cap, fs, -, -, -, e⟩ := h.began
  rw [e]; rfl

theorem NetExecution.tries {N : Net} {U : Nat → String → Prop} {asked : Nat → Nat → Asked} {written : Nat → Nat → List ExRequest}
    (sound : N.Sound U asked written) {ev : Nat → NetEv} {st : Nat → NetSys} (h : NetExecution N U ev st)
    {fev : Nat → FleetEv} (hF : FleetExecution N.fleet fev (fun k => (st k).groups))
    (tr : ∀ k, NetTrack N (st k) (st (k + 1)) (ev k) (fev k)) (fair : NetWorkersFair N ev) :
    FleetWorkersTry N.fleet fev (fun k => (st k).groups) := by
  intro a w hw k
  obtain ⟨⟨m1, a1, b1⟩, ⟨m2, a2, b2⟩, -⟩ := fair a w hw k
  refine ⟨⟨m1, a1, by rw [(tr m1).pop a w b1]; exact seen_thread rfl⟩,
    ⟨m2, a2, by rw [(tr m2).start a w b2]; exact seen_thread rfl⟩, ?_⟩
  apply Classical.byContradiction
  intro hno
  have hno' : ∀ m, k ≤ m → N.fleet.seen (st m).groups (fev m) a ≠ .finish w ∧
      ∀ msg, N.fleet.seen (st m).groups (fev m) a ≠ .fail w msg :=
    fun m hm => ⟨fun e => hno ⟨m, hm, Or.inl (Or.inl e)⟩, fun msg e => hno ⟨m, hm, Or.inl (Or.inr ⟨msg, e⟩)⟩⟩
  -- every step of the worker is a lookup or goes on
  have works : ∀ m, k ≤ m → ev m = .on a (.queue (.work w)) → ((st m a).looks w = true ∧ w ∈ (st (m + 1) a).holders) ∨
      ∃ g j, (st m a).x.t.workers[w]? = some (.running g j) ∧
        ((st (m + 1) a).x.job g).leftOf j < ((st m a).x.job g).leftOf j := by
    intro m hm em
    rcases (tr m).work a w em with (e | e) | e | e | e
    · exact absurd e (hno' m hm).1
    · obtain ⟨msg, e⟩ := e; exact absurd e ((hno' m hm).2 msg)
    · exact absurd ⟨m, hm, Or.inr e⟩ hno
    · exact Or.inl e
    · exact Or.inr e
  have goes : ∀ m, k ≤ m → ∃ m', m ≤ m' ∧ ∃ g j, (st m' a).x.t.workers[w]? = some (.running g j) ∧
        ((st (m' + 1) a).x.job g).leftOf j < ((st m' a).x.job g).leftOf j := by
    intro m hm
    obtain ⟨m1, hm1, e1⟩ := (fair a w hw m).2.2
    rcases works m1 (by omega) e1 with ⟨hl, hold⟩ | hg
    · obtain ⟨m2, hm2, e2, hfirst⟩ := first_from (fair a w hw (m1 + 1)).2.2
      have : ∀ i, m1 + 1 + i ≤ m2 → w ∈ (st (m1 + 1 + i) a).holders := by
        intro i
        induction i with
        | zero => intro _; exact hold
        | succ i ih =>
          intro hle
          exact net_holders (h.ok sound _) (h.step (m1 + 1 + i)) (hfirst _ (by omega) (by omega)) (ih (by omega))
      have hin := this (m2 - (m1 + 1)) (by omega)
      rw [show m1 + 1 + (m2 - (m1 + 1)) = m2 from by omega] at hin
      rcases works m2 (by omega) e2 with ⟨hl2, -⟩ | hg
      · rw [Srv.looks, Bool.and_eq_true] at hl2
        exact absurd hin (of_decide_eq_true hl2.2)
      · exact ⟨m2, by omega, hg⟩
    · exact ⟨m1, hm1, hg⟩
  have stays : ∀ m g j, k ≤ m → (st m a).x.t.workers[w]? = some (.running g j) → ∀ d,
      (st (m + d) a).x.t.workers[w]? = some (.running g j) ∧ ((st (m + d) a).x.job g).leftOf j ≤ ((st m a).x.job g).leftOf j := by
    intro m g j hm hr d
    induction d with
    | zero => exact ⟨hr, Nat.le_refl _⟩
    | succ d ih =>
      have hq := hno' (m + d) (by omega)
      exact ⟨worker_stays (seen_step (hF.inv (m + d)) (hF.step (m + d)) a) ih.1 hq.1 hq.2,
        Nat.le_trans (net_left (h.ok sound _) (h.step (m + d)) a g j) ih.2⟩
  obtain ⟨m0, hm0, g, j, hr, -⟩ := goes k (Nat.le_refl _)
  have main : ∀ L m, m0 ≤ m → ((st m a).x.job g).leftOf j ≤ L → False := by
    intro L
    induction L with
    | zero =>
      intro m hm hl
      obtain ⟨m', hm', g', j', hr', hlt⟩ := goes m (by omega)
      have h1 := (stays m0 g j (by omega) hr (m' - m0)).1
      rw [show m0 + (m' - m0) = m' from by omega, hr'] at h1
      cases h1
      have h2 := (stays m g j (by omega) (by
        have := (stays m0 g j (by omega) hr (m - m0)).1
        rwa [show m0 + (m - m0) = m from by omega] at this) (m' - m)).2
      rw [show m + (m' - m) = m' from by omega] at h2
      omega
    | succ L ih =>
      intro m hm hl
      obtain ⟨m', hm', g', j', hr', hlt⟩ := goes m (by omega)
      have h1 := (stays m0 g j (by omega) hr (m' - m0)).1
      rw [show m0 + (m' - m0) = m' from by omega, hr'] at h1
      cases h1
      have h2 := (stays m g j (by omega) (by
        have := (stays m0 g j (by omega) hr (m - m0)).1
        rwa [show m0 + (m - m0) = m from by omega] at this) (m' - m)).2
      rw [show m + (m' - m) = m' from by omega] at h2
      exact ih (m' + 1) (by omega) (by omega)
  exact main _ m0 (Nat.le_refl _) (Nat.le_refl _)

theorem NetExecution.threads {N : Net} {ev : Nat → NetEv} {st : Nat → NetSys} {fev : Nat → FleetEv}
    (tr : ∀ k, NetTrack N (st k) (st (k + 1)) (ev k) (fev k)) {a g : Nat} (fair : NetThreadFair a g ev) :
    FleetThreadFair a g fev := by
  intro k
  obtain ⟨⟨m1, a1, b1⟩, ⟨m2, a2, b2⟩, ⟨m3, a3, b3⟩, ⟨m4, a4, b4⟩⟩ := fair k
  exact ⟨⟨m1, a1, (tr m1).add a g b1⟩, ⟨m2, a2, (tr m2).push a g b2⟩, ⟨m3, a3, (tr m3).wait a g b3⟩,
    ⟨m4, a4, (tr m4).ret a g b4⟩⟩

/-- Calls on processes that forward to each other return. -/
theorem NetExecution.calls {N : Net} {U : Nat → String → Prop} {asked : Nat → Nat → Asked} {written : Nat → Nat → List ExRequest}
    (sound : N.Sound U asked written) {ev : Nat → NetEv} {st : Nat → NetSys} (h : NetExecution N U ev st)
    (workers : NetWorkersFair N ev) (threads : ∀ b g, (N.jobs b g).2 ≠ [] → NetThreadFair b g ev)
    (some : ∀ b g, (N.jobs b g).2 ≠ [] → 0 < N.threads b) (rank : Nat → Nat)
    (room : ∀ b j, N.origin b j ≠ none →
      NetSpare N st b ∨ ∀ g t c i, N.target b g t = Option.some (c, i) → rank c < rank b)
    (calm : ∀ b j, N.origin b j ≠ none → ∀ k, .cancelled ∉ ((st k b).x.t.grp j).tasks)
    {a g : Nat} (client : N.origin a g = none) (tasks : (N.jobs a g).2 ≠ []) :
    (∃ k, ((st k a).x.t.grp g).phase = .returned) ∨ (∃ k, .cancelled ∈ ((st k a).x.t.grp g).tasks) := by
  obtain ⟨fev, hF, tr⟩ := h.fleet sound
  have pos : ∀ {b g}, 0 < N.fleet.size b g → (N.jobs b g).2 ≠ [] := fun hp => List.length_pos_iff.mp hp
  refine hF.calls (F := N.fleet) sound.fleet (h.tries sound hF tr workers)
    (fun b g hb => NetExecution.threads tr (threads b g (pos hb))) (fun b g hb => some b g (pos hb)) rank ?_ calm client
    (List.length_pos_iff.mpr tasks)
  intro b j hj
  rcases room b j hj with hr | hr
  · refine Or.inl fun k => ?_
    obtain ⟨w, hw, hn⟩ := hr k
    refine ⟨w, hw, ?_⟩
    by_cases hx : ∃ g j, (st k b).x.t.workers[w]? = Option.some (.running g j)
    · obtain ⟨g, j, hx⟩ := hx
      rw [forwarding_of hx]
      exact hn g j hx
    · exact forwarding_idle fun g j e => hx ⟨g, j, e⟩
  · exact Or.inr hr

end GJ
