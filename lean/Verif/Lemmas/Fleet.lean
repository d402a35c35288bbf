import Verif.Model.Fleet
import Verif.Props.C71

/-! # Lemmas about servers that forward to each other -/

namespace GJ

/-! ## One step of one process, seen from a group -/

theorem started_stays {s s' : TSys} {e : TEv} (h : s.step e = .ok s') {x : Nat × Nat} (hx : x ∈ s.started) :
    x ∈ s'.started := by
  cases e with
  | add k => cases h; rw [stepAdd]; split <;> exact hx
  | wait k => cases h; rw [stepWait]; split <;> exact hx
  | ret k => cases h; rw [stepRet]; split <;> exact hx
  | abandon k => cases h; rw [stepAbandon]; split <;> exact hx
  | push k =>
    rw [TSys.step, stepPush.eq_def] at h
    simp only [] at h
    split at h
    · cases h; exact hx
    · obtain ⟨q, -, h⟩ := res_bind_inv h
      cases h; exact hx
  | pop v =>
    rw [TSys.step, stepPop] at h
    split at h
    · obtain ⟨⟨p, q⟩, -, h⟩ := res_bind_inv h
      simp only [] at h
      split at h <;> (cases h; exact hx)
    · cases h; exact hx
  | start v =>
    rw [TSys.step, stepStart.eq_def] at h
    split at h
    · simp only [] at h
      split at h
      · split at h
        · cases h; exact List.mem_append_left _ hx
        · cases h; exact hx
      · cases h
    · cases h; exact hx
  | finish v =>
    rw [TSys.step, stepFinish.eq_def] at h
    split at h
    · simp only [] at h
      split at h
      · cases h; exact hx
      · cases h
    · cases h; exact hx
  | fail v msg =>
    rw [TSys.step, stepFail.eq_def] at h
    split at h
    · simp only [] at h
      split at h
      · cases h; exact hx
      · cases h
    · cases h; exact hx

/-- What a step does to the part of a group that its own thread changes. -/
inductive Shaping (x y : Grp) (e : TEv) (g : Nat) : Prop where
  | same (h : y.shape = x.shape) (h1 : e = .push g → x.pushing = none)
      (h2 : e = .add g → x.phase = .enqueuing → x.pushing ≠ none)
      (h3 : e = .wait g → x.phase = .enqueuing → x.pushing ≠ none)
  | added (he : e = .add g) (hp : x.phase = .enqueuing) (hpu : x.pushing = none)
      (h : y.shape = (x.tasks.length + 1, some x.tasks.length, .enqueuing))
  | pushed (he : e = .push g) (hpu : x.pushing ≠ none) (h : y.shape = (x.tasks.length, none, x.phase))
  | waits (he : e = .wait g) (hp : x.phase = .enqueuing) (hpu : x.pushing = none)
      (h : y.shape = (x.tasks.length, none, if x.tasks = [] then .gone else .waiting))
  | returns (he : e = .ret g) (hp : x.phase = .waiting) (h : y.shape = (x.tasks.length, x.pushing, .returned))

theorem shaping {s s' : TSys} {e : TEv} (h : s.step e = .ok s') (g : Nat) (he : e ≠ .abandon g) :
    Shaping (s.grp g) (s'.grp g) e g := by
  by_cases h1 : e = .add g
  · subst h1
    have hst : s' = stepAdd s g := (Except.ok.inj h).symm
    rw [stepAdd] at hst
    by_cases hc : (s.grp g).phase = .enqueuing ∧ (s.grp g).pushing = none
    · rw [if_pos hc] at hst
      refine .added rfl hc.1 hc.2 ?_
      rw [hst, grp_set, if_pos rfl]
      show ((_ ++ [_] : List TStat).length, _, _) = _
      rw [List.length_append, hc.1]; rfl
    · rw [if_neg hc] at hst
      rw [hst]
      exact .same rfl (fun x => by cases x) (fun _ a b => hc ⟨a, b⟩) (fun x => by cases x)
  by_cases h2 : e = .push g
  · subst h2
    have ht : stepPush s g = .ok s' := h
    rw [stepPush.eq_def] at ht
    simp only [] at ht
    split at ht
    · rename_i hpu
      rw [← Except.ok.inj ht]
      exact .same rfl (fun _ => hpu) (fun x => by cases x) (fun x => by cases x)
    · rename_i t hpu
      obtain ⟨q, -, ht⟩ := res_bind_inv ht
      refine .pushed rfl (by rw [hpu]; simp) ?_
      rw [← Except.ok.inj ht, grp_set, if_pos rfl]; rfl
  by_cases h3 : e = .wait g
  · subst h3
    have hst : s' = stepWait s g := (Except.ok.inj h).symm
    rw [stepWait] at hst
    by_cases hc : (s.grp g).phase = .enqueuing ∧ (s.grp g).pushing = none
    · rw [if_pos hc] at hst
      refine .waits rfl hc.1 hc.2 ?_
      rw [hst, grp_set, if_pos rfl]
      show (_, (s.grp g).pushing, _) = _
      rw [hc.2]
    · rw [if_neg hc] at hst
      rw [hst]
      exact .same rfl (fun x => by cases x) (fun x => by cases x) (fun _ a b => hc ⟨a, b⟩)
  by_cases h4 : e = .ret g
  · subst h4
    have hst : s' = stepRet s g := (Except.ok.inj h).symm
    rw [stepRet] at hst
    by_cases hc : (s.grp g).phase = .waiting ∧ (s.grp g).nComplete = (s.grp g).tasks.length
    · rw [if_pos hc] at hst
      refine .returns rfl hc.1 ?_
      rw [hst, grp_set, if_pos rfl]; rfl
    · rw [if_neg hc] at hst
      rw [hst]
      exact .same rfl (fun x => by cases x) (fun x => by cases x) (fun x => by cases x)
  exact .same (shape_others h h1 h2 h3 h4 he) (fun x => absurd x h2) (fun x => absurd x h1) (fun x => absurd x h3)

/-- A group that has returned stays so. -/
theorem returned_stays {s s' : TSys} {e : TEv} (h : s.step e = .ok s') {g : Nat} (he : e ≠ .abandon g)
    (hp : (s.grp g).phase = .returned) : (s'.grp g).phase = .returned := by
  cases shaping h g he with
  | same h => rw [← hp]; exact congrArg (fun x => x.2.2) h
  | added _ hp' => rw [hp] at hp'; cases hp'
  | pushed _ _ h => rw [← hp]; exact congrArg (fun x => x.2.2) h
  | waits _ hp' => rw [hp] at hp'; cases hp'
  | returns _ _ h => exact congrArg (fun x => x.2.2) h

/-! ## The processes together -/

theorem act_scoped (F : Fleet) (s : FleetSys) (e : FleetEv) (g : Nat) : (F.act s e).2 ≠ some (.abandon g) := by
  cases e with
  | thread a e =>
    cases e with
    | add g => show (if _ then _ else _) ≠ _; split <;> (intro h; cases h)
    | wait g => show (if _ then _ else _) ≠ _; split <;> (intro h; cases h)
    | finish w => show (if _ then _ else _) ≠ _; split <;> (intro h; cases h)
    | fail w msg => show (if _ then _ else _) ≠ _; split <;> (intro h; cases h)
    | abandon g => intro h; cases h
    | push g => intro h; cases h
    | ret g => intro h; cases h
    | pop w => intro h; cases h
    | start w => intro h; cases h
  | reply a w =>
    show (match F.forwarding s a w with | some (b, h) => replied ((s b).grp h) w | none => none) ≠ _
    cases F.forwarding s a w with
    | none => intro h; cases h
    | some p =>
      show replied _ w ≠ _
      rw [replied]
      split
      · split <;> (intro h; cases h)
      · intro h; cases h
      · intro h; cases h
  | lost a w msg => show (if _ then _ else _) ≠ _; split <;> (intro h; cases h)

/-- Only the thread of a request adds tasks, and only while there are some left. -/
theorem act_add {F : Fleet} {s : FleetSys} {e : FleetEv} {g : Nat} (h : (F.act s e).2 = some (.add g)) :
    e = .thread (F.act s e).1 (.add g) ∧ F.opened s (F.act s e).1 g = true ∧
      ((s (F.act s e).1).grp g).tasks.length < F.size (F.act s e).1 g := by
  cases e with
  | thread a e =>
    cases e with
    | add k =>
      have h' : (if F.opened s a k ∧ ((s a).grp k).tasks.length < F.size a k then some (TEv.add k) else none) = some (.add g) := h
      split at h'
      · rename_i hc
        cases h'
        exact ⟨rfl, hc.1, hc.2⟩
      · cases h'
    | wait k =>
      have h' : (if _ then some (TEv.wait k) else none) = some (.add g) := h
      split at h' <;> cases h'
    | finish w =>
      have h' : (if _ then some (TEv.finish w) else none) = some (.add g) := h
      split at h' <;> cases h'
    | fail w msg =>
      have h' : (if _ then some (TEv.fail w msg) else none) = some (.add g) := h
      split at h' <;> cases h'
    | abandon g => cases h
    | push g => cases h
    | ret g => cases h
    | pop w => cases h
    | start w => cases h
  | reply a w =>
    have h' : (match F.forwarding s a w with | some (b, h) => replied ((s b).grp h) w | none => none) = some (.add g) := h
    cases hf : F.forwarding s a w with
    | none => rw [hf] at h'; cases h'
    | some p =>
      rw [hf] at h'
      simp only at h'
      rw [replied] at h'
      split at h'
      · split at h' <;> cases h'
      · cases h'
      · cases h'
  | lost a w msg =>
    have h' : (if _ then none else some (TEv.fail w msg)) = some (.add g) := h
    split at h' <;> cases h'

theorem act_wait {F : Fleet} {s : FleetSys} {e : FleetEv} {g : Nat} (h : (F.act s e).2 = some (.wait g)) :
    ((s (F.act s e).1).grp g).tasks.length = F.size (F.act s e).1 g := by
  cases e with
  | thread a e =>
    cases e with
    | wait k =>
      have h' : (if F.opened s a k ∧ ((s a).grp k).tasks.length = F.size a k then some (TEv.wait k) else none) = some (.wait g) := h
      split at h'
      · rename_i hc
        cases h'
        exact hc.2
      · cases h'
    | add k =>
      have h' : (if _ then some (TEv.add k) else none) = some (.wait g) := h
      split at h' <;> cases h'
    | finish w =>
      have h' : (if _ then some (TEv.finish w) else none) = some (.wait g) := h
      split at h' <;> cases h'
    | fail w msg =>
      have h' : (if _ then some (TEv.fail w msg) else none) = some (.wait g) := h
      split at h' <;> cases h'
    | abandon g => cases h
    | push g => cases h
    | ret g => cases h
    | pop w => cases h
    | start w => cases h
  | reply a w =>
    have h' : (match F.forwarding s a w with | some (b, h) => replied ((s b).grp h) w | none => none) = some (.wait g) := h
    cases hf : F.forwarding s a w with
    | none => rw [hf] at h'; cases h'
    | some p =>
      rw [hf] at h'
      simp only at h'
      rw [replied] at h'
      split at h'
      · split at h' <;> cases h'
      · cases h'
      · cases h'
  | lost a w msg =>
    have h' : (if _ then none else some (TEv.fail w msg)) = some (.wait g) := h
    split at h' <;> cases h'

/-- A step with no effect. -/
def Fleet.idle (F : Fleet) (a : Nat) : TEv := .pop (F.threads a)

/-- What process `a` does in a step of all. -/
def Fleet.seen (F : Fleet) (s : FleetSys) (e : FleetEv) (a : Nat) : TEv :=
  if (F.act s e).1 = a then ((F.act s e).2).getD (F.idle a) else F.idle a

structure FleetInv (F : Fleet) (s : FleetSys) : Prop where
  inv : ∀ a, TInv (s a)
  workers : ∀ a, (s a).workers.length = F.threads a
  len : ∀ a g, ((s a).grp g).tasks.length ≤ F.size a g
  full : ∀ a g, ((s a).grp g).phase ≠ .enqueuing → ((s a).grp g).tasks.length = F.size a g
  shut : ∀ a g, F.opened s a g = false → ((s a).grp g).tasks = []

theorem FleetInv.start (F : Fleet) : FleetInv F F.start where
  inv := fun _ => TInv.init _
  workers := fun _ => List.length_replicate
  len := fun _ _ => Nat.zero_le _
  full := fun _ _ h => absurd rfl h
  shut := fun _ _ _ => rfl

theorem idle_step {F : Fleet} {s : FleetSys} (h : FleetInv F s) (a : Nat) : (s a).step (F.idle a) = .ok (s a) := by
  show stepPop (s a) (F.threads a) = _
  rw [stepPop, if_neg]
  rw [List.getElem?_eq_none (by rw [h.workers a]; exact Nat.le_refl _)]
  simp

theorem seen_scoped (F : Fleet) (s : FleetSys) (e : FleetEv) (a g : Nat) : F.seen s e a ≠ .abandon g := by
  rw [Fleet.seen]
  split
  · intro h
    cases hx : (F.act s e).2 with
    | none => rw [hx] at h; cases h
    | some x => rw [hx] at h; exact act_scoped F s e g (by rw [hx]; exact congrArg some h)
  · intro h; cases h

theorem seen_add {F : Fleet} {s : FleetSys} {e : FleetEv} {a g : Nat} (h : F.seen s e a = .add g) :
    F.opened s a g = true ∧ ((s a).grp g).tasks.length < F.size a g := by
  rw [Fleet.seen] at h
  split at h
  · rename_i ha
    cases hx : (F.act s e).2 with
    | none => rw [hx] at h; cases h
    | some x =>
      rw [hx] at h
      have := act_add (F := F) (s := s) (e := e) (g := g) (by rw [hx]; exact congrArg some h)
      rw [ha] at this
      exact this.2
  · cases h

theorem seen_wait {F : Fleet} {s : FleetSys} {e : FleetEv} {a g : Nat} (h : F.seen s e a = .wait g) :
    ((s a).grp g).tasks.length = F.size a g := by
  rw [Fleet.seen] at h
  split at h
  · rename_i ha
    cases hx : (F.act s e).2 with
    | none => rw [hx] at h; cases h
    | some x =>
      rw [hx] at h
      have := act_wait (F := F) (s := s) (e := e) (g := g) (by rw [hx]; exact congrArg some h)
      rw [ha] at this
      exact this
  · cases h

/-- In a step of all every process makes its step. -/
theorem seen_step {F : Fleet} {s s' : FleetSys} {e : FleetEv} (h : FleetInv F s) (hs : F.step s e = .ok s') (a : Nat) :
    (s a).step (F.seen s e a) = .ok (s' a) := by
  rw [Fleet.step] at hs
  obtain ⟨t, ht, hs⟩ := res_bind_inv hs
  have hs' : s' = fun b => if b = (F.act s e).1 then t else s b := (Except.ok.inj hs).symm
  rw [Fleet.seen, hs']
  by_cases ha : (F.act s e).1 = a
  · rw [if_pos ha]
    simp only [if_pos ha.symm]
    rw [ha] at ht
    cases hx : (F.act s e).2 with
    | none =>
      rw [hx] at ht
      rw [← Except.ok.inj ht]
      exact idle_step h a
    | some x => rw [hx] at ht; exact ht
  · rw [if_neg ha]
    simp only [if_neg (fun x => ha (Eq.symm x))]
    exact idle_step h a

theorem opened_stays {F : Fleet} {s s' : FleetSys} {e : FleetEv} (h : FleetInv F s) (hs : F.step s e = .ok s')
    {b g : Nat} (ho : F.opened s b g = true) : F.opened s' b g = true := by
  rw [Fleet.opened.eq_def] at ho ⊢
  cases hx : F.origin b g with
  | none => rfl
  | some p =>
    obtain ⟨a, g', t⟩ := p
    rw [hx] at ho
    exact decide_eq_true (started_stays (seen_step h hs a) (of_decide_eq_true ho))

theorem fleet_defined {F : Fleet} {s : FleetSys} (h : FleetInv F s) (e : FleetEv) : ∃ s', F.step s e = .ok s' := by
  rw [Fleet.step]
  cases hx : (F.act s e).2 with
  | none => exact ⟨_, rfl⟩
  | some x =>
    obtain ⟨t, ht, -⟩ := (h.inv (F.act s e).1).step x (fun g hg => act_scoped F s e g (by rw [hx, hg]))
    refine ⟨fun a => if a = (F.act s e).1 then t else s a, ?_⟩
    show ((s (F.act s e).1).step x >>= fun t => _) = _
    rw [ht]; rfl

theorem FleetInv.step {F : Fleet} {s s' : FleetSys} {e : FleetEv} (h : FleetInv F s) (hs : F.step s e = .ok s') :
    FleetInv F s' := by
  have sh := fun a g => shaping (seen_step h hs a) g (seen_scoped F s e a g)
  refine ⟨fun a => tinv_stepped (h.inv a) (seen_scoped F s e a) (seen_step h hs a), fun a => ?_, fun a g => ?_,
    fun a g hp => ?_, fun a g ho => ?_⟩
  · rw [step_workers_length (h.inv a) (seen_scoped F s e a) (seen_step h hs a), h.workers a]
  · cases sh a g with
    | same hh => rw [show ((s' a).grp g).tasks.length = _ from congrArg Prod.fst hh]; exact h.len a g
    | added he _ _ hh =>
      rw [show ((s' a).grp g).tasks.length = _ from congrArg Prod.fst hh]
      exact (seen_add he).2
    | pushed _ _ hh => rw [show ((s' a).grp g).tasks.length = _ from congrArg Prod.fst hh]; exact h.len a g
    | waits _ _ _ hh => rw [show ((s' a).grp g).tasks.length = _ from congrArg Prod.fst hh]; exact h.len a g
    | returns _ _ hh => rw [show ((s' a).grp g).tasks.length = _ from congrArg Prod.fst hh]; exact h.len a g
  · cases sh a g with
    | same hh =>
      rw [show ((s' a).grp g).tasks.length = _ from congrArg Prod.fst hh]
      exact h.full a g (fun x => hp (by rw [show ((s' a).grp g).phase = _ from congrArg (fun x => x.2.2) hh]; exact x))
    | added _ _ _ hh => exact absurd (congrArg (fun x => x.2.2) hh) hp
    | pushed _ _ hh =>
      rw [show ((s' a).grp g).tasks.length = _ from congrArg Prod.fst hh]
      exact h.full a g (fun x => hp (by rw [show ((s' a).grp g).phase = _ from congrArg (fun x => x.2.2) hh]; exact x))
    | waits he _ _ hh =>
      rw [show ((s' a).grp g).tasks.length = _ from congrArg Prod.fst hh]
      exact seen_wait he
    | returns _ hw hh =>
      rw [show ((s' a).grp g).tasks.length = _ from congrArg Prod.fst hh]
      exact h.full a g (by rw [hw]; simp)
  · have ho' : F.opened s a g = false := by
      cases hx : F.opened s a g with
      | false => rfl
      | true => rw [opened_stays h hs hx] at ho; cases ho
    have hnil := h.shut a g ho'
    apply List.eq_nil_of_length_eq_zero
    cases sh a g with
    | same hh => exact (congrArg Prod.fst hh).trans (congrArg List.length hnil)
    | added he _ _ hh =>
      have := (seen_add he).1
      rw [ho'] at this; cases this
    | pushed _ _ hh => exact (congrArg Prod.fst hh).trans (congrArg List.length hnil)
    | waits _ _ _ hh => exact (congrArg Prod.fst hh).trans (congrArg List.length hnil)
    | returns _ _ hh => exact (congrArg Prod.fst hh).trans (congrArg List.length hnil)

theorem FleetInv.ran {F : Fleet} {es : List FleetEv} {s s' : FleetSys} (h : FleetInv F s) (hs : F.run s es = .ok s') :
    FleetInv F s' := by
  induction es generalizing s with
  | nil => cases hs; exact h
  | cons e es ih =>
    rw [Fleet.run] at hs
    obtain ⟨s1, h1, hs⟩ := res_bind_inv hs
    exact ih (h.step h1) hs

theorem fleet_runs {F : Fleet} (es : List FleetEv) {s : FleetSys} (h : FleetInv F s) : ∃ s', F.run s es = .ok s' := by
  induction es generalizing s with
  | nil => exact ⟨s, rfl⟩
  | cons e es ih =>
    obtain ⟨s1, h1⟩ := fleet_defined h e
    rw [Fleet.run, h1]
    exact ih (h.step h1)

/-! ## Infinite histories -/

/-- An infinite history of all processes. -/
structure FleetExecution (F : Fleet) (ev : Nat → FleetEv) (st : Nat → FleetSys) : Prop where
  start : st 0 = F.start
  step : ∀ k, F.step (st k) (ev k) = .ok (st (k + 1))

/-- Workers keep asking for work, starting what they got, ending tasks that do not forward, and looking for replies. -/
def FleetWorkersFair (F : Fleet) (ev : Nat → FleetEv) : Prop :=
  ∀ a w, w < F.threads a → ∀ k, (∃ m, k ≤ m ∧ ev m = .thread a (.pop w)) ∧ (∃ m, k ≤ m ∧ ev m = .thread a (.start w)) ∧
    (∃ m, k ≤ m ∧ (ev m = .thread a (.finish w) ∨ ∃ msg, ev m = .thread a (.fail w msg))) ∧
    (∃ m, k ≤ m ∧ ev m = .reply a w)

/-- The workers of process `a` keep running, and each keeps ending a task or asking for the reply it waits for. -/
def FleetTriesAt (F : Fleet) (ev : Nat → FleetEv) (st : Nat → FleetSys) (a : Nat) : Prop :=
  ∀ w, w < F.threads a → ∀ k, (∃ m, k ≤ m ∧ F.seen (st m) (ev m) a = .pop w) ∧
    (∃ m, k ≤ m ∧ F.seen (st m) (ev m) a = .start w) ∧
    (∃ m, k ≤ m ∧ ((F.seen (st m) (ev m) a = .finish w ∨ ∃ msg, F.seen (st m) (ev m) a = .fail w msg) ∨
      (F.forwarding (st m) a w ≠ none ∧ ev m = .reply a w)))

/-- Workers keep running, and each of them keeps ending a task or asking for the reply it waits for. -/
def FleetWorkersTry (F : Fleet) (ev : Nat → FleetEv) (st : Nat → FleetSys) : Prop :=
  ∀ a, FleetTriesAt F ev st a

/-- The thread of request `g` of process `a` keeps running. -/
def FleetThreadFair (a g : Nat) (ev : Nat → FleetEv) : Prop :=
  ∀ k, (∃ m, k ≤ m ∧ ev m = .thread a (.add g)) ∧ (∃ m, k ≤ m ∧ ev m = .thread a (.push g)) ∧
    (∃ m, k ≤ m ∧ ev m = .thread a (.wait g)) ∧ (∃ m, k ≤ m ∧ ev m = .thread a (.ret g))

theorem FleetExecution.inv {F : Fleet} {ev : Nat → FleetEv} {st : Nat → FleetSys} (h : FleetExecution F ev st) (k : Nat) :
    FleetInv F (st k) := by
  induction k with
  | zero => rw [h.start]; exact FleetInv.start F
  | succ k ih => exact ih.step (h.step k)

/-- What one process does is an execution of its own. -/
theorem FleetExecution.node {F : Fleet} {ev : Nat → FleetEv} {st : Nat → FleetSys} (h : FleetExecution F ev st) (a : Nat) :
    Execution (F.threads a) (fun k => F.seen (st k) (ev k) a) (fun k => st k a) where
  start := by rw [h.start]; rfl
  step := fun k => seen_step (h.inv k) (h.step k) a
  inScope := fun k g => seen_scoped F (st k) (ev k) a g

theorem FleetExecution.opened {F : Fleet} {ev : Nat → FleetEv} {st : Nat → FleetSys} (h : FleetExecution F ev st)
    {k m b g : Nat} (hk : k ≤ m) (ho : F.opened (st k) b g = true) : F.opened (st m) b g = true := by
  have : ∀ d, F.opened (st (k + d)) b g = true := by
    intro d
    induction d with
    | zero => exact ho
    | succ d ih => exact opened_stays (h.inv (k + d)) (h.step (k + d)) ih
  have := this (m - k)
  rwa [show k + (m - k) = m from by omega] at this

theorem FleetExecution.returned {F : Fleet} {ev : Nat → FleetEv} {st : Nat → FleetSys} (h : FleetExecution F ev st)
    {k m b g : Nat} (hk : k ≤ m) (hr : ((st k b).grp g).phase = .returned) : ((st m b).grp g).phase = .returned := by
  have : ∀ d, ((st (k + d) b).grp g).phase = .returned := by
    intro d
    induction d with
    | zero => exact hr
    | succ d ih => exact returned_stays (seen_step (h.inv (k + d)) (h.step (k + d)) b) (seen_scoped _ _ _ _ _) ih
  have := this (m - k)
  rwa [show k + (m - k) = m from by omega] at this

theorem seen_thread {F : Fleet} {s : FleetSys} {a : Nat} {e x : TEv} (h : (F.act s (.thread a e)).2 = some x) :
    F.seen s (.thread a e) a = x := by
  rw [Fleet.seen, if_pos (show (F.act s (.thread a e)).1 = a from rfl), h]; rfl

/-- A worker that never ends a task again executes one that forwards, for ever. -/
theorem FleetExecution.stuck {F : Fleet} {ev : Nat → FleetEv} {st : Nat → FleetSys} (h : FleetExecution F ev st)
    {a : Nat} (hf : FleetTriesAt F ev st a) {w k : Nat} (hw : w < F.threads a)
    (hno : ∀ m, k ≤ m → F.seen (st m) (ev m) a ≠ .finish w ∧ ∀ msg, F.seen (st m) (ev m) a ≠ .fail w msg) :
    ∃ k' g t b j, k ≤ k' ∧ F.target a g t = some (b, j) ∧ ∀ m, k' ≤ m → (st m a).workers[w]? = some (.running g t) := by
  obtain ⟨m, hm, em⟩ := (hf w hw k).2.2
  have hfw : F.forwarding (st m) a w ≠ none := by
    rcases em with (em | ⟨msg, em⟩) | em
    · exact absurd em (hno m hm).1
    · exact absurd em ((hno m hm).2 msg)
    · exact em.1
  rw [Fleet.forwarding.eq_def] at hfw
  split at hfw
  · rename_i g t hr
    cases ht : F.target a g t with
    | none => exact absurd ht hfw
    | some p =>
      refine ⟨m, g, t, p.1, p.2, hm, ht, ?_⟩
      have : ∀ d, (st (m + d) a).workers[w]? = some (.running g t) := by
        intro d
        induction d with
        | zero => exact hr
        | succ d ih =>
          have := hno (m + d) (by omega)
          exact worker_stays (seen_step (h.inv (m + d)) (h.step (m + d)) a) ih this.1 this.2
      intro m' hm'
      have := this (m' - m)
      rwa [show m + (m' - m) = m' from by omega] at this
  · exact absurd rfl hfw

theorem FleetExecution.pops {F : Fleet} {ev : Nat → FleetEv} {st : Nat → FleetSys} {a : Nat} (hf : FleetTriesAt F ev st a) :
    ∀ w, w < F.threads a → ∀ k, (∃ m, k ≤ m ∧ F.seen (st m) (ev m) a = .pop w) ∧
      (∃ m, k ≤ m ∧ F.seen (st m) (ev m) a = .start w) :=
  fun w hw k => ⟨(hf w hw k).1, (hf w hw k).2.1⟩

theorem FleetExecution.tries {F : Fleet} {ev : Nat → FleetEv} {st : Nat → FleetSys} (h : FleetExecution F ev st)
    (hf : FleetWorkersFair F ev) : FleetWorkersTry F ev st := by
  intro a w hw k
  obtain ⟨⟨m1, a1, b1⟩, ⟨m2, a2, b2⟩, ⟨m3, a3, b3⟩, -⟩ := hf a w hw k
  refine ⟨⟨m1, a1, by rw [b1]; exact seen_thread rfl⟩, ⟨m2, a2, by rw [b2]; exact seen_thread rfl⟩, ?_⟩
  cases hx : F.forwarding (st m3) a w with
  | none =>
    refine ⟨m3, a3, Or.inl ?_⟩
    rcases b3 with em | ⟨msg, em⟩
    · refine Or.inl ?_
      rw [em]; exact seen_thread (show (if _ then _ else _) = _ from if_pos hx)
    · refine Or.inr ⟨msg, ?_⟩
      rw [em]; exact seen_thread (show (if _ then _ else _) = _ from if_pos hx)
  | some p =>
    -- it forwards until it is seen to end
    obtain ⟨m4, a4, b4⟩ := (hf a w hw m3).2.2.2
    apply Classical.byContradiction
    intro hno
    have hno' : ∀ m, k ≤ m → F.seen (st m) (ev m) a ≠ .finish w ∧ ∀ msg, F.seen (st m) (ev m) a ≠ .fail w msg :=
      fun m hm => ⟨fun e => hno ⟨m, hm, Or.inl (Or.inl e)⟩, fun msg e => hno ⟨m, hm, Or.inl (Or.inr ⟨msg, e⟩)⟩⟩
    rw [Fleet.forwarding.eq_def] at hx
    split at hx
    · rename_i g t hr
      have stay : ∀ d, (st (m3 + d) a).workers[w]? = some (.running g t) := by
        intro d
        induction d with
        | zero => exact hr
        | succ d ih =>
          have := hno' (m3 + d) (by omega)
          exact worker_stays (seen_step (h.inv (m3 + d)) (h.step (m3 + d)) a) ih this.1 this.2
      have := stay (m4 - m3)
      rw [show m3 + (m4 - m3) = m4 from by omega] at this
      refine hno ⟨m4, by omega, Or.inr ⟨?_, b4⟩⟩
      rw [Fleet.forwarding.eq_def, this]
      show F.target a g t ≠ none
      rw [hx]; simp
    · cases hx

/-- The thread of a request that has tasks reaches its wait. -/
theorem FleetExecution.reaches {F : Fleet} {ev : Nat → FleetEv} {st : Nat → FleetSys} (h : FleetExecution F ev st)
    {a g : Nat} (hf : FleetThreadFair a g ev) (hne : 0 < F.size a g) {k0 : Nat} (ho : F.opened (st k0) a g = true) :
    ∃ k, k0 ≤ k ∧ (((st k a).grp g).phase = .waiting ∨ ((st k a).grp g).phase = .returned) := by
  -- a request with tasks does not give up
  have hgone : ∀ k, ((st k a).grp g).phase ≠ .gone := by
    intro k hg
    have h1 := (h.inv k).full a g (by rw [hg]; simp)
    rw [(((h.inv k).inv a).grp g).gone hg] at h1
    rw [← h1] at hne
    cases hne
  apply Classical.byContradiction
  intro hno
  have enq : ∀ k, k0 ≤ k → ((st k a).grp g).phase = .enqueuing := by
    intro k hk
    cases hp : ((st k a).grp g).phase with
    | enqueuing => rfl
    | waiting => exact absurd ⟨k, hk, Or.inl hp⟩ hno
    | returned => exact absurd ⟨k, hk, Or.inr hp⟩ hno
    | gone => exact absurd hp (hgone k)
  have sh := fun k => shaping (seen_step (h.inv k) (h.step k) a) g (seen_scoped F (st k) (ev k) a g)
  -- what is left to do
  let M := fun k => 2 * (F.size a g - ((st k a).grp g).tasks.length) + if ((st k a).grp g).pushing = none then 0 else 1
  have go : ∀ k, k0 ≤ k → (((st (k + 1) a).grp g).tasks.length = ((st k a).grp g).tasks.length ∧
        ((st (k + 1) a).grp g).pushing = ((st k a).grp g).pushing ∧
        (F.seen (st k) (ev k) a = .push g → ((st k a).grp g).pushing = none) ∧
        (F.seen (st k) (ev k) a = .add g → ((st k a).grp g).pushing ≠ none) ∧
        (F.seen (st k) (ev k) a = .wait g → ((st k a).grp g).pushing ≠ none)) ∨ M (k + 1) < M k := by
    intro k hk
    cases sh k with
    | same hh h1 h2 h3 =>
      exact Or.inl ⟨congrArg Prod.fst hh, congrArg (fun x => x.2.1) hh, h1, fun e => h2 e (enq k hk),
        fun e => h3 e (enq k hk)⟩
    | added he _ hpu hh =>
      right
      have e1 : ((st (k + 1) a).grp g).tasks.length = ((st k a).grp g).tasks.length + 1 := congrArg Prod.fst hh
      have e2 : ((st (k + 1) a).grp g).pushing = some _ := congrArg (fun x => x.2.1) hh
      have e3 := (seen_add he).2
      show 2 * _ + (if _ then _ else _) < 2 * _ + (if _ then _ else _)
      rw [e1, e2, hpu, if_pos rfl, if_neg (by simp)]
      omega
    | pushed he hpu hh =>
      right
      have e1 : ((st (k + 1) a).grp g).tasks.length = ((st k a).grp g).tasks.length := congrArg Prod.fst hh
      have e2 : ((st (k + 1) a).grp g).pushing = none := congrArg (fun x => x.2.1) hh
      show 2 * _ + (if _ then _ else _) < 2 * _ + (if _ then _ else _)
      rw [e1, e2, if_pos rfl, if_neg hpu]
      omega
    | waits he _ hpu hh =>
      have e2 : ((st (k + 1) a).grp g).phase = _ := congrArg (fun x => x.2.2) hh
      rw [enq (k + 1) (by omega)] at e2
      simp only at e2
      split at e2 <;> cases e2
    | returns _ hp _ => rw [enq k hk] at hp; cases hp
  have mono : ∀ k, k0 ≤ k → M (k + 1) ≤ M k := by
    intro k hk
    rcases go k hk with ⟨e1, e2, -⟩ | hlt
    · show 2 * _ + (if _ then _ else _) ≤ 2 * _ + (if _ then _ else _)
      rw [e1, e2]; exact Nat.le_refl _
    · exact Nat.le_of_lt hlt
  obtain ⟨k1, hk1, hmin⟩ := exists_min M k0
  have const : ∀ m, k1 ≤ m → M m = M k1 := by
    intro m hm
    have : ∀ d, M (k1 + d) ≤ M k1 := by
      intro d
      induction d with
      | zero => exact Nat.le_refl _
      | succ d ih => exact Nat.le_trans (mono (k1 + d) (by omega)) ih
    have h1 := this (m - k1)
    rw [show k1 + (m - k1) = m from by omega] at h1
    have h2 := hmin m (by omega)
    omega
  have still : ∀ m, k1 ≤ m → ((st (m + 1) a).grp g).tasks.length = ((st m a).grp g).tasks.length ∧
        ((st (m + 1) a).grp g).pushing = ((st m a).grp g).pushing ∧
        (F.seen (st m) (ev m) a = .push g → ((st m a).grp g).pushing = none) ∧
        (F.seen (st m) (ev m) a = .add g → ((st m a).grp g).pushing ≠ none) ∧
        (F.seen (st m) (ev m) a = .wait g → ((st m a).grp g).pushing ≠ none) := by
    intro m hm
    rcases go m (by omega) with hh | hlt
    · exact hh
    · rw [const m hm, const (m + 1) (by omega)] at hlt; omega
  have same : ∀ m, k1 ≤ m → ((st m a).grp g).tasks.length = ((st k1 a).grp g).tasks.length ∧
      ((st m a).grp g).pushing = ((st k1 a).grp g).pushing := by
    intro m hm
    have : ∀ d, ((st (k1 + d) a).grp g).tasks.length = ((st k1 a).grp g).tasks.length ∧
        ((st (k1 + d) a).grp g).pushing = ((st k1 a).grp g).pushing := by
      intro d
      induction d with
      | zero => exact ⟨rfl, rfl⟩
      | succ d ih =>
        have := still (k1 + d) (by omega)
        exact ⟨this.1.trans ih.1, this.2.1.trans ih.2⟩
    have := this (m - k1)
    rwa [show k1 + (m - k1) = m from by omega] at this
  obtain ⟨m, hm, em⟩ := (hf k1).2.1
  have hpu : ((st k1 a).grp g).pushing = none := by
    rw [← (same m hm).2]
    exact (still m hm).2.2.1 (by rw [em]; exact seen_thread rfl)
  have hop := fun m (hm : k1 ≤ m) => h.opened (show k0 ≤ m by omega) ho
  by_cases hlt : ((st k1 a).grp g).tasks.length < F.size a g
  · obtain ⟨m, hm, em⟩ := (hf k1).1
    refine (still m hm).2.2.2.1 ?_ (by rw [(same m hm).2, hpu])
    rw [em]
    refine seen_thread (show (if _ then _ else _) = _ from if_pos ⟨hop m hm, ?_⟩)
    rw [(same m hm).1]; exact hlt
  · obtain ⟨m, hm, em⟩ := (hf k1).2.2.1
    refine (still m hm).2.2.2.2 ?_ (by rw [(same m hm).2, hpu])
    rw [em]
    refine seen_thread (show (if _ then _ else _) = _ from if_pos ⟨hop m hm, ?_⟩)
    have := (h.inv k1).len a g
    rw [(same m hm).1]; omega

theorem FleetExecution.waiter {F : Fleet} {ev : Nat → FleetEv} {st : Nat → FleetSys} {a g : Nat}
    (hf : FleetThreadFair a g ev) : WaiterFair g (fun k => F.seen (st k) (ev k) a) := by
  intro k
  obtain ⟨m, hm, em⟩ := (hf k).2.2.2
  exact ⟨m, hm, by simp only [em]; exact seen_thread rfl⟩

/-- Requests that arrive at server `b` are answered. -/
def FleetAnswers (F : Fleet) (st : Nat → FleetSys) (b : Nat) : Prop :=
  ∀ h, F.origin b h ≠ none → ∀ k, F.opened (st k) b h = true → ∃ m, k ≤ m ∧ ((st m b).grp h).phase = .returned

/-- If the servers that `a` forwards to answer, the tasks of all its workers end. -/
theorem FleetExecution.ends {F : Fleet} {ev : Nat → FleetEv} {st : Nat → FleetSys} (h : FleetExecution F ev st)
    (sound : F.Sound) {a : Nat} (hf : FleetTriesAt F ev st a)
    (hq : ∀ g t b j, F.target a g t = some (b, j) → FleetAnswers F st b) :
    WorkersFair (F.threads a) (fun k => F.seen (st k) (ev k) a) := by
  intro w hw k
  obtain ⟨p1, p2⟩ := FleetExecution.pops (st := st) hf w hw k
  refine ⟨p1, p2, ?_⟩
  apply Classical.byContradiction
  intro hno
  have hno' : ∀ m, k ≤ m → F.seen (st m) (ev m) a ≠ .finish w ∧ ∀ msg, F.seen (st m) (ev m) a ≠ .fail w msg :=
    fun m hm => ⟨fun e => hno ⟨m, hm, Or.inl e⟩, fun msg e => hno ⟨m, hm, Or.inr ⟨msg, e⟩⟩⟩
  obtain ⟨k', g, t, b, j, hk', ht, hr⟩ := h.stuck hf hw hno'
  have hor := (sound.back a g t b j).mp ht
  have hst := running_started ((h.inv k').inv a) (hr k' (Nat.le_refl _))
  have hop : F.opened (st k') b j = true := by
    rw [Fleet.opened.eq_def, hor]; exact decide_eq_true hst
  obtain ⟨m1, hm1, e1⟩ := hq g t b j ht j (by rw [hor]; simp) k' hop
  obtain ⟨m2, hm2, e2⟩ := (hf w hw (max k' m1)).2.2
  have hk2 : k' ≤ m2 := by omega
  have hm2 : m1 ≤ m2 := by omega
  have e2 : ev m2 = .reply a w := by
    rcases e2 with (e2 | ⟨msg, e2⟩) | e2
    · exact absurd e2 (hno' m2 (by omega)).1
    · exact absurd e2 ((hno' m2 (by omega)).2 msg)
    · exact e2.2
  have hret := h.returned hm2 e1
  have hact : (F.act (st m2) (.reply a w)).2 =
      some (if ((st m2 b).grp j).errors = [] then .finish w else .fail w "remote") := by
    show (match F.forwarding (st m2) a w with | some (b, h) => replied ((st m2 b).grp h) w | none => none) = _
    have hfw : F.forwarding (st m2) a w = some (b, j) := by
      rw [Fleet.forwarding.eq_def, hr m2 (by omega)]; exact ht
    rw [hfw]
    show replied ((st m2 b).grp j) w = _
    rw [replied.eq_def, hret]
  have hseen : F.seen (st m2) (ev m2) a = if ((st m2 b).grp j).errors = [] then .finish w else .fail w "remote" := by
    rw [e2, Fleet.seen, if_pos (show (F.act (st m2) (.reply a w)).1 = a from rfl), hact]; rfl
  by_cases he : ((st m2 b).grp j).errors = []
  · rw [if_pos he] at hseen
    exact (hno' m2 (by omega)).1 hseen
  · rw [if_neg he] at hseen
    exact (hno' m2 (by omega)).2 _ hseen

/-- Some worker of the server is never held by forwarding. -/
def FleetSpare (F : Fleet) (st : Nat → FleetSys) (b : Nat) : Prop :=
  ∀ k, ∃ w, w < F.threads b ∧ F.forwarding (st k) b w = none

theorem uniform_bound (P : Nat → Nat → Prop) (n : Nat) (h : ∀ w, w < n → ∃ k, ∀ m, k ≤ m → P w m) :
    ∃ k, ∀ w, w < n → ∀ m, k ≤ m → P w m := by
  induction n with
  | zero => exact ⟨0, fun w hw => absurd hw (Nat.not_lt_zero w)⟩
  | succ n ih =>
    obtain ⟨k1, h1⟩ := ih (fun w hw => h w (by omega))
    obtain ⟨k2, h2⟩ := h n (by omega)
    refine ⟨max k1 k2, fun w hw m hm => ?_⟩
    by_cases e : w = n
    · subst e; exact h2 m (by omega)
    · exact h1 w (by omega) m (by omega)

/-- With a spare worker at every moment there is one worker all of whose tasks end. -/
theorem FleetExecution.spare {F : Fleet} {ev : Nat → FleetEv} {st : Nat → FleetSys} (h : FleetExecution F ev st)
    {b : Nat} (hf : FleetTriesAt F ev st b) (hs : FleetSpare F st b) :
    ∃ v, v < F.threads b ∧ ∀ k, ∃ m, k ≤ m ∧
      (F.seen (st m) (ev m) b = .finish v ∨ ∃ msg, F.seen (st m) (ev m) b = .fail v msg) := by
  apply Classical.byContradiction
  intro hno
  have all : ∀ w, w < F.threads b → ∃ k, ∀ m, k ≤ m → F.forwarding (st m) b w ≠ none := by
    intro w hw
    have : ∃ k, ∀ m, k ≤ m → ¬ (F.seen (st m) (ev m) b = .finish w ∨ ∃ msg, F.seen (st m) (ev m) b = .fail w msg) := by
      apply Classical.byContradiction
      intro hno'
      refine hno ⟨w, hw, fun k => ?_⟩
      apply Classical.byContradiction
      intro hk
      exact hno' ⟨k, fun m hm e => hk ⟨m, hm, e⟩⟩
    obtain ⟨k, hk⟩ := this
    obtain ⟨k', g, t, c, j, -, ht, hr⟩ := h.stuck hf hw
      (fun m hm => ⟨fun e => hk m hm (Or.inl e), fun msg e => hk m hm (Or.inr ⟨msg, e⟩)⟩)
    refine ⟨k', fun m hm => ?_⟩
    rw [Fleet.forwarding.eq_def, hr m hm]
    show F.target b g t ≠ none
    rw [ht]; simp
  obtain ⟨k, hk⟩ := uniform_bound _ _ all
  obtain ⟨w, hw, e⟩ := hs k
  exact hk w hw k (Nat.le_refl _) e

/-- A request whose tasks do not forward returns, if one worker's tasks all end. -/
theorem FleetExecution.answered {F : Fleet} {ev : Nat → FleetEv} {st : Nat → FleetSys} (h : FleetExecution F ev st)
    {b : Nat} (hf : FleetTriesAt F ev st b) {j v : Nat} (hv : v < F.threads b)
    (hend : ∀ k, ∃ m, k ≤ m ∧ (F.seen (st m) (ev m) b = .finish v ∨ ∃ msg, F.seen (st m) (ev m) b = .fail v msg))
    (thread : FleetThreadFair b j ev) (hne : 0 < F.size b j) (hloc : ∀ t, F.target b j t = none)
    (hc : ∀ k, .cancelled ∉ ((st k b).grp j).tasks) {k : Nat} (ho : F.opened (st k) b j = true) :
    ∃ m, k ≤ m ∧ ((st m b).grp j).phase = .returned := by
  obtain ⟨k1, hk1, hp⟩ := h.reaches thread hne ho
  rcases hp with hp | hp
  · have hd := (h.node b).returns_by (FleetExecution.waiter thread) hp (fun hw =>
      (h.node b).drains_by (FleetExecution.pops hf) j k1 (fun w t k hwn hr => by
        apply Classical.byContradiction
        intro hno
        have hno' : ∀ m, k ≤ m → F.seen (st m) (ev m) b ≠ .finish w ∧ ∀ msg, F.seen (st m) (ev m) b ≠ .fail w msg :=
          fun m hm => ⟨fun e => hno ⟨m, hm, Or.inl e⟩, fun msg e => hno ⟨m, hm, Or.inr ⟨msg, e⟩⟩⟩
        obtain ⟨k', g, t', c, i, hk', ht', hr'⟩ := h.stuck hf hwn hno'
        have : ∀ d, (st (k + d) b).workers[w]? = some (.running j t) := by
          intro d
          induction d with
          | zero => exact hr
          | succ d ih =>
            have := hno' (k + d) (by omega)
            exact worker_stays (seen_step (h.inv (k + d)) (h.step (k + d)) b) ih this.1 this.2
        have := this (k' - k)
        rw [show k + (k' - k) = k' from by omega, hr' k' (Nat.le_refl _)] at this
        cases this
        rw [hloc] at ht'; cases ht') hv hend hw)
    rcases hd with ⟨m, hm, e⟩ | ⟨m, -, e⟩
    · exact ⟨m, by omega, e⟩
    · exact absurd e (hc m)
  · exact ⟨k1, hk1, hp⟩

end GJ
