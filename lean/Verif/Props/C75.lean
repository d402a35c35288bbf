import Verif.Lemmas.Fleet

/-!
# C75: calls on servers that forward return

Any number of servers that forward requests to each other, or to themselves.
-/

namespace GJ

/-- C75: whatever the servers do, and whatever they forward to each other, no step uses a task or a group that is gone. -/
theorem C75_defined (F : Fleet) (es : List FleetEv) : ∃ s, F.run F.start es = .ok s := fleet_runs es (FleetInv.start F)

/-- Calls at processes of a set that forwards to itself only: what the others do, if anything, is of no matter. -/
theorem FleetExecution.calls_in {F : Fleet} (sound : F.Sound) {ev : Nat → FleetEv} {st : Nat → FleetSys}
    (h : FleetExecution F ev st) (P : Nat → Prop) (within : ∀ a g t b i, P a → F.target a g t = Option.some (b, i) → P b)
    (workers : ∀ a, P a → FleetTriesAt F ev st a) (threads : ∀ b g, P b → 0 < F.size b g → FleetThreadFair b g ev)
    (some : ∀ b g, P b → 0 < F.size b g → 0 < F.threads b) (rank : Nat → Nat)
    (room : ∀ b j, P b → F.origin b j ≠ none →
      FleetSpare F st b ∨ ∀ g t c i, F.target b g t = Option.some (c, i) → rank c < rank b)
    (calm : ∀ b j, P b → F.origin b j ≠ none → ∀ k, .cancelled ∉ ((st k b).grp j).tasks)
    {a g : Nat} (inside : P a) (client : F.origin a g = none) (tasks : 0 < F.size a g) :
    (∃ k, ((st k a).grp g).phase = .returned) ∨ (∃ k, .cancelled ∈ ((st k a).grp g).tasks) := by
  -- requests that arrive are answered
  have answers : ∀ r b, P b → rank b < r → FleetAnswers F st b := by
    intro r
    induction r with
    | zero => intro b _ hb; cases hb
    | succ r ih =>
      intro b pb hb j hj k ho
      rcases room b j pb hj with hs | hd
      · obtain ⟨v, hv, hend⟩ := h.spare (workers b pb) hs
        exact h.answered (workers b pb) hv hend (threads b j pb (sound.tasks b j hj)) (sound.tasks b j hj) (sound.here b j hj)
          (calm b j pb hj) ho
      · have hw := h.ends (a := b) sound (workers b pb) (fun g t c i ht =>
          ih c (within b g t c i pb ht) (by have := hd g t c i ht; omega))
        have hb0 := some b j pb (sound.tasks b j hj)
        exact h.answered (workers b pb) hb0 (fun k => (hw 0 hb0 k).2.2) (threads b j pb (sound.tasks b j hj))
          (sound.tasks b j hj) (sound.here b j hj) (calm b j pb hj) ho
  have hw := h.ends (a := a) sound (workers a inside) (fun g t c i ht =>
    answers (rank c + 1) c (within a g t c i inside ht) (by omega))
  have ho : F.opened (st 0) a g = true := by rw [Fleet.opened.eq_def, client]
  obtain ⟨k, -, hp⟩ := h.reaches (threads a g inside tasks) tasks ho
  rcases hp with hp | hp
  · rcases C25_always_returns_partial _ (some a g inside tasks) _ _ (h.node a) hw g k
        (FleetExecution.waiter (threads a g inside tasks)) hp with ⟨m, -, e⟩ | ⟨m, -, e⟩
    · exact Or.inl ⟨m, e⟩
    · exact Or.inr ⟨m, e⟩
  · exact Or.inl ⟨k, hp⟩

theorem FleetExecution.calls {F : Fleet} (sound : F.Sound) {ev : Nat → FleetEv} {st : Nat → FleetSys}
    (h : FleetExecution F ev st) (workers : FleetWorkersTry F ev st) (threads : ∀ b g, 0 < F.size b g → FleetThreadFair b g ev)
    (some : ∀ b g, 0 < F.size b g → 0 < F.threads b) (rank : Nat → Nat)
    (room : ∀ b j, F.origin b j ≠ none →
      FleetSpare F st b ∨ ∀ g t c i, F.target b g t = Option.some (c, i) → rank c < rank b)
    (calm : ∀ b j, F.origin b j ≠ none → ∀ k, .cancelled ∉ ((st k b).grp j).tasks)
    {a g : Nat} (client : F.origin a g = none) (tasks : 0 < F.size a g) :
    (∃ k, ((st k a).grp g).phase = .returned) ∨ (∃ k, .cancelled ∈ ((st k a).grp g).tasks) :=
  h.calls_in sound (fun _ => True) (fun _ _ _ _ _ _ _ => trivial) (fun a _ => workers a) (fun b g _ => threads b g)
    (fun b g _ => some b g) rank (fun b j _ => room b j) (fun b j _ => calm b j) trivial client tasks

/-- C75 (partial).  Workers and threads keep running, and every server that others forward to either always has a worker
that is not held by forwarding, or forwards only down some order of the servers.  Then every call that has tasks returns,
unless one of its tasks is cancelled, provided that no task of a forwarded request is.
Missing: servers that forward in circles without a spare worker (`C75_single_worker_hangs`, `C75_documented_servers_hang`)
and failing requests (`C75_failure_blocks_others`), for which the claim is false. -/
theorem C75_calls_return_partial (F : Fleet) (sound : F.Sound) (ev : Nat → FleetEv) (st : Nat → FleetSys)
    (h : FleetExecution F ev st) (workers : FleetWorkersFair F ev) (threads : ∀ b g, 0 < F.size b g → FleetThreadFair b g ev)
    (some : ∀ b g, 0 < F.size b g → 0 < F.threads b) (rank : Nat → Nat)
    (room : ∀ b j, F.origin b j ≠ none →
      FleetSpare F st b ∨ ∀ g t c i, F.target b g t = Option.some (c, i) → rank c < rank b)
    (calm : ∀ b j, F.origin b j ≠ none → ∀ k, .cancelled ∉ ((st k b).grp j).tasks)
    (a g : Nat) (client : F.origin a g = none) (tasks : 0 < F.size a g) :
    (∃ k, ((st k a).grp g).phase = .returned) ∨ (∃ k, .cancelled ∈ ((st k a).grp g).tasks) :=
  h.calls sound (h.tries workers) threads some rank room calm client tasks

/-! ## Without failures -/

/-- No task fails by itself and no connection breaks. -/
def Flawless (e : FleetEv) : Prop := (∀ a w msg, e ≠ .thread a (.fail w msg)) ∧ ∀ a w msg, e ≠ .lost a w msg

theorem failures_keep {s s' : TSys} {e : TEv} (h : s.step e = .ok s') (he : ∀ w msg, e ≠ .fail w msg) :
    s'.failures = s.failures := by
  cases e with
  | add k => cases h; rw [stepAdd]; split <;> rfl
  | wait k => cases h; rw [stepWait]; split <;> rfl
  | ret k => cases h; rw [stepRet]; split <;> rfl
  | abandon k => cases h; rw [stepAbandon]; split <;> rfl
  | push k =>
    rw [TSys.step, stepPush.eq_def] at h
    simp only [] at h
    split at h
    · cases h; rfl
    · obtain ⟨q, -, h⟩ := res_bind_inv h
      cases h; rfl
  | pop v =>
    rw [TSys.step, stepPop] at h
    split at h
    · obtain ⟨⟨p, q⟩, -, h⟩ := res_bind_inv h
      simp only [] at h
      split at h <;> (cases h; rfl)
    · cases h; rfl
  | start v =>
    rw [TSys.step, stepStart.eq_def] at h
    split at h
    · simp only [] at h
      split at h
      · split at h <;> (cases h; rfl)
      · cases h
    · cases h; rfl
  | finish v =>
    rw [TSys.step, stepFinish.eq_def] at h
    split at h
    · simp only [] at h
      split at h
      · cases h; rfl
      · cases h
    · cases h; rfl
  | fail v msg => exact absurd rfl (he v msg)

/-- A flawless step of all is not a failure of any process, if none has failed before. -/
theorem flawless_seen {F : Fleet} (sound : F.Sound) {s : FleetSys} {e : FleetEv} (h : FleetInv F s) (he : Flawless e)
    (h0 : ∀ a, (s a).failures = []) (a w : Nat) (msg : String) : F.seen s e a ≠ .fail w msg := by
  rw [Fleet.seen]
  split
  · cases hact : (F.act s e).2 with
    | none => intro x; cases x
    | some y =>
      show y ≠ _
      cases e with
      | thread c e =>
        cases e with
        | add k =>
          have hh : (if _ then some (TEv.add k) else none) = some y := hact
          split at hh <;> cases hh
          intro x; cases x
        | wait k =>
          have hh : (if _ then some (TEv.wait k) else none) = some y := hact
          split at hh <;> cases hh
          intro x; cases x
        | finish v =>
          have hh : (if _ then some (TEv.finish v) else none) = some y := hact
          split at hh <;> cases hh
          intro x; cases x
        | fail v m => exact absurd rfl (he.1 c v m)
        | abandon k => cases hact
        | push k => cases hact; intro x; cases x
        | ret k => cases hact; intro x; cases x
        | pop k => cases hact; intro x; cases x
        | start k => cases hact; intro x; cases x
      | lost c v m => exact absurd rfl (he.2 c v m)
      | reply c v =>
        have hh : (match F.forwarding s c v with | some (b, h) => replied ((s b).grp h) v | none => none) = some y := hact
        cases hv : F.forwarding s c v with
        | none => rw [hv] at hh; cases hh
        | some q =>
          rw [hv] at hh
          have hh : replied ((s q.1).grp q.2) v = some y := hh
          have ho : F.origin q.1 q.2 ≠ none := by
            rw [Fleet.forwarding.eq_def] at hv
            split at hv
            · rename_i g t _
              rw [(sound.back c g t q.1 q.2).mp hv]; simp
            · cases hv
          rw [replied.eq_def] at hh
          split at hh
          · have herr : ((s q.1).grp q.2).errors = [] := by
              rw [((h.inv q.1).grp q.2).errs, h0 q.1]; rfl
            rw [if_pos herr] at hh
            cases hh
            intro x; cases x
          · rename_i hp
            exfalso
            have h1 := h.full q.1 q.2 (by rw [hp]; simp)
            rw [((h.inv q.1).grp q.2).gone hp] at h1
            have := sound.tasks q.1 q.2 ho
            rw [← h1] at this; cases this
          · cases hh
  · intro x; cases x

theorem FleetExecution.flawless {F : Fleet} (sound : F.Sound) {ev : Nat → FleetEv} {st : Nat → FleetSys}
    (h : FleetExecution F ev st) (he : ∀ k, Flawless (ev k)) (k : Nat) : ∀ a, (st k a).failures = [] := by
  induction k with
  | zero => intro a; rw [h.start]; rfl
  | succ k ih =>
    intro a
    rw [failures_keep (seen_step (h.inv k) (h.step k) a) (fun w msg => flawless_seen sound (h.inv k) (he k) ih a w msg)]
    exact ih a

/-- C75 (partial).  The same without failures: every call that has tasks returns, and reports no error.
Missing: as in `C75_calls_return_partial`. -/
theorem C75_flawless_calls_return_partial (F : Fleet) (sound : F.Sound) (ev : Nat → FleetEv) (st : Nat → FleetSys)
    (h : FleetExecution F ev st) (workers : FleetWorkersFair F ev) (threads : ∀ b g, 0 < F.size b g → FleetThreadFair b g ev)
    (some : ∀ b g, 0 < F.size b g → 0 < F.threads b) (rank : Nat → Nat)
    (room : ∀ b j, F.origin b j ≠ none →
      FleetSpare F st b ∨ ∀ g t c i, F.target b g t = Option.some (c, i) → rank c < rank b)
    (flawless : ∀ k, Flawless (ev k)) (a g : Nat) (client : F.origin a g = none) (tasks : 0 < F.size a g) :
    ∃ k, ((st k a).grp g).phase = .returned ∧ ((st k a).grp g).errors = [] := by
  have none : ∀ k b j, ((st k b).grp j).errors = [] := by
    intro k b j
    rw [(((h.inv k).inv b).grp j).errs, h.flawless sound flawless k b]; rfl
  have calm : ∀ b j k, .cancelled ∉ ((st k b).grp j).tasks := fun b j k hc => (((h.inv k).inv b).grp j).canc hc (none k b j)
  rcases C75_calls_return_partial F sound ev st h workers threads some rank room (fun b j _ => calm b j) a g client tasks with
    ⟨k, e⟩ | ⟨k, e⟩
  · exact ⟨k, e, none k a g⟩
  · exact absurd e (calm a g k)

/-! ## Deadlocks -/

/-- The request cannot end: it waits for workers none of which will be free (`S` is a set of servers), or one of its
tasks was cancelled. -/
def Blocked (S : Nat → Prop) (s : FleetSys) (b j : Nat) : Prop :=
  (S b ∧ ((s b).grp j).nComplete = 0) ∨ (((s b).grp j).phase = .waiting ∧ .cancelled ∈ ((s b).grp j).tasks)

/-- Every worker of the servers `S` waits for a reply that cannot come. -/
def Deadlocked (F : Fleet) (S : Nat → Prop) (s : FleetSys) : Prop :=
  ∀ a, S a → ∀ w, w < F.threads a → ∃ g t b j, (s a).workers[w]? = some (.running g t) ∧
    F.target a g t = some (b, j) ∧ Blocked S s b j

/-- No connection of a worker of `S` breaks. -/
def Connected (S : Nat → Prop) (e : FleetEv) : Prop := ∀ a w msg, e = .lost a w msg → ¬ S a

/-- Nothing that a deadlocked server does has an effect on its workers or on the number of its finished tasks. -/
theorem quiet_step {s s' : TSys} {e : TEv} (h : s.step e = .ok s') (hi : ∀ (w : Nat) p, s.workers[w]? = some p → ∃ g t, p = .running g t)
    (h1 : ∀ w, e = .finish w → s.workers[w]? = none) (h2 : ∀ w msg, e = .fail w msg → s.workers[w]? = none) :
    s'.workers = s.workers ∧ ∀ g, (s'.grp g).nComplete = (s.grp g).nComplete := by
  have keep : ∀ (k g : Nat) (x : Grp), x.nComplete = (s.grp k).nComplete →
      ((s.setGrp k x).grp g).nComplete = (s.grp g).nComplete := by
    intro k g x hx
    rw [grp_set]
    split
    · rename_i e; rw [e]; exact hx
    · rfl
  cases e with
  | add k =>
    cases h; rw [stepAdd]; split
    · exact ⟨rfl, fun g => keep k g _ rfl⟩
    · exact ⟨rfl, fun _ => rfl⟩
  | wait k =>
    cases h; rw [stepWait]; split
    · exact ⟨rfl, fun g => keep k g _ rfl⟩
    · exact ⟨rfl, fun _ => rfl⟩
  | ret k =>
    cases h; rw [stepRet]; split
    · exact ⟨rfl, fun g => keep k g _ rfl⟩
    · exact ⟨rfl, fun _ => rfl⟩
  | abandon k =>
    cases h; rw [stepAbandon]; split
    · exact ⟨rfl, fun g => keep k g _ rfl⟩
    · exact ⟨rfl, fun _ => rfl⟩
  | push k =>
    rw [TSys.step, stepPush.eq_def] at h
    simp only [] at h
    split at h
    · cases h; exact ⟨rfl, fun _ => rfl⟩
    · obtain ⟨q, -, h⟩ := res_bind_inv h
      cases h
      exact ⟨rfl, fun g => keep k g _ rfl⟩
  | pop v =>
    rw [TSys.step, stepPop] at h
    split at h
    · rename_i hv
      obtain ⟨g, t, e⟩ := hi v _ hv
      cases e
    · cases h; exact ⟨rfl, fun _ => rfl⟩
  | start v =>
    rw [TSys.step, stepStart.eq_def] at h
    split at h
    · rename_i hv
      obtain ⟨g, t, e⟩ := hi v _ hv
      cases e
    · cases h; exact ⟨rfl, fun _ => rfl⟩
  | finish v =>
    rw [TSys.step, stepFinish.eq_def, h1 v rfl] at h
    cases h; exact ⟨rfl, fun _ => rfl⟩
  | fail v msg =>
    rw [TSys.step, stepFail.eq_def, h2 v msg rfl] at h
    cases h; exact ⟨rfl, fun _ => rfl⟩

/-- The reply to a blocked request does not come. -/
theorem Blocked.silent {F : Fleet} (sound : F.Sound) {S : Nat → Prop} {s : FleetSys} (h : FleetInv F s) {a g t b j : Nat}
    (ht : F.target a g t = some (b, j)) (hb : Blocked S s b j) (w : Nat) : replied ((s b).grp j) w = none := by
  have hpos := sound.tasks b j (by rw [(sound.back a g t b j).mp ht]; simp)
  rw [replied.eq_def]
  cases hp : ((s b).grp j).phase with
  | enqueuing => rfl
  | waiting => rfl
  | returned =>
    exfalso
    have h1 := h.full b j (by rw [hp]; simp)
    have h2 := ((h.inv b).grp j).ret hp
    rcases hb with ⟨-, e⟩ | ⟨e, -⟩
    · omega
    · rw [hp] at e; cases e
  | gone =>
    exfalso
    have h1 := h.full b j (by rw [hp]; simp)
    rw [((h.inv b).grp j).gone hp] at h1
    rw [← h1] at hpos; cases hpos

/-- What a server in a deadlock does. -/
theorem Deadlocked.quiet {F : Fleet} (sound : F.Sound) {S : Nat → Prop} {s s' : FleetSys} {e : FleetEv} (h : FleetInv F s)
    (hd : Deadlocked F S s) (he : Connected S e) (hs : F.step s e = .ok s') {a : Nat} (ha : S a) :
    (s' a).workers = (s a).workers ∧ ∀ g, ((s' a).grp g).nComplete = ((s a).grp g).nComplete := by
  have run : ∀ (w : Nat) p, (s a).workers[w]? = some p → ∃ g t, p = .running g t ∧ ∃ b j, F.target a g t = some (b, j) ∧ Blocked S s b j := by
    intro w p hw
    have hlt : w < F.threads a := by
      rw [← h.workers a]
      exact (List.getElem?_eq_some_iff.mp hw).1
    obtain ⟨g, t, b, j, e1, e2, e3⟩ := hd a ha w hlt
    rw [hw] at e1
    exact ⟨g, t, Option.some.inj e1, b, j, e2, e3⟩
  -- no worker ends its task
  have ends : ∀ w x, F.seen s e a = x → (x = .finish w ∨ ∃ msg, x = .fail w msg) → (s a).workers[w]? = none := by
    intro w x hx hor
    cases hw : (s a).workers[w]? with
    | none => rfl
    | some p =>
      exfalso
      obtain ⟨g, t, rfl, b, j, ht, hb⟩ := run w p hw
      have hfw : F.forwarding s a w = some (b, j) := by rw [Fleet.forwarding.eq_def, hw]; exact ht
      rw [Fleet.seen] at hx
      split at hx
      · rename_i ha'
        cases hact : (F.act s e).2 with
        | none => rw [hact] at hx; subst hx; rcases hor with e | ⟨m, e⟩ <;> cases e
        | some y =>
          rw [hact] at hx
          have hxy : y = x := hx
          rw [hxy] at hact
          clear hx hxy
          cases e with
          | thread c e =>
            have hc : c = a := ha'
            subst hc
            cases e with
            | add k =>
              have hh : (if _ then some (TEv.add k) else none) = some x := hact
              split at hh
              · cases hh; rcases hor with e | ⟨m, e⟩ <;> cases e
              · cases hh
            | wait k =>
              have hh : (if _ then some (TEv.wait k) else none) = some x := hact
              split at hh
              · cases hh; rcases hor with e | ⟨m, e⟩ <;> cases e
              · cases hh
            | finish v =>
              have hh : (if F.forwarding s c v = none then some (TEv.finish v) else none) = some x := hact
              split at hh
              · rename_i hv
                cases hh
                rcases hor with e | ⟨m, e⟩
                · cases e; rw [hv] at hfw; cases hfw
                · cases e
              · cases hh
            | fail v msg =>
              have hh : (if F.forwarding s c v = none then some (TEv.fail v msg) else none) = some x := hact
              split at hh
              · rename_i hv
                cases hh
                rcases hor with e | ⟨m, e⟩
                · cases e
                · cases e; rw [hv] at hfw; cases hfw
              · cases hh
            | abandon k => cases hact
            | push k => cases hact; rcases hor with e | ⟨m, e⟩ <;> cases e
            | ret k => cases hact; rcases hor with e | ⟨m, e⟩ <;> cases e
            | pop k => cases hact; rcases hor with e | ⟨m, e⟩ <;> cases e
            | start k => cases hact; rcases hor with e | ⟨m, e⟩ <;> cases e
          | reply c v =>
            have hc : c = a := ha'
            subst hc
            have hh : (match F.forwarding s c v with | some (b, h) => replied ((s b).grp h) v | none => none) = some x := hact
            cases hv : F.forwarding s c v with
            | none => rw [hv] at hh; cases hh
            | some q =>
              rw [hv] at hh
              have hh : replied ((s q.1).grp q.2) v = some x := hh
              by_cases hvw : v = w
              · subst hvw
                rw [hfw] at hv; cases hv
                rw [hb.silent sound h ht v] at hh; cases hh
              · rw [replied.eq_def] at hh
                split at hh
                · have hh := Option.some.inj hh
                  split at hh <;> (subst hh; rcases hor with e | ⟨m, e⟩ <;> (cases e; try exact hvw rfl))
                · have hh := Option.some.inj hh
                  subst hh
                  rcases hor with e | ⟨m, e⟩
                  · cases e
                  · cases e; exact hvw rfl
                · cases hh
          | lost c v msg =>
            exact he c v msg rfl ((show c = a from ha') ▸ ha)
      · subst hx; rcases hor with e | ⟨m, e⟩ <;> cases e
  exact quiet_step (seen_step h hs a) (fun w p hw => by
      obtain ⟨g, t, e, -⟩ := run w p hw
      exact ⟨g, t, e⟩)
    (fun w e => ends w _ rfl (Or.inl e)) (fun w msg e => ends w _ rfl (Or.inr ⟨msg, e⟩))

theorem Deadlocked.step {F : Fleet} (sound : F.Sound) {S : Nat → Prop} {s s' : FleetSys} {e : FleetEv} (h : FleetInv F s)
    (hd : Deadlocked F S s) (he : Connected S e) (hs : F.step s e = .ok s') : Deadlocked F S s' := by
  intro a ha w hw
  obtain ⟨g, t, b, j, e1, e2, e3⟩ := hd a ha w hw
  refine ⟨g, t, b, j, by rw [(hd.quiet sound h he hs ha).1]; exact e1, e2, ?_⟩
  rcases e3 with ⟨hb, hn⟩ | ⟨hp, hc⟩
  · exact Or.inl ⟨hb, by rw [(hd.quiet sound h he hs hb).2 j]; exact hn⟩
  · exact Or.inr ((h.inv b).stuck j hp hc _ (seen_scoped F s e b) _ (seen_step h hs b))

/-- C75 is false of servers in a deadlock: from then on no task of theirs ends any more, whatever happens, unless
connections break; in particular no call that has tasks left returns. -/
theorem C75_deadlock (F : Fleet) (sound : F.Sound) (S : Nat → Prop) (es es' : List FleetEv) (s s' : FleetSys)
    (h : F.run F.start es = .ok s) (dead : Deadlocked F S s) (connected : ∀ e ∈ es', Connected S e)
    (h' : F.run s es' = .ok s') (a : Nat) (ha : S a) (g : Nat) :
    ((s' a).grp g).nComplete = ((s a).grp g).nComplete ∧
      (((s a).grp g).nComplete < F.size a g → ((s' a).grp g).phase ≠ .returned) := by
  have inv := (FleetInv.start F).ran h
  clear h
  have key : ((s' a).grp g).nComplete = ((s a).grp g).nComplete ∧ FleetInv F s' := by
    induction es' generalizing s with
    | nil => cases h'; exact ⟨rfl, inv⟩
    | cons e es' ih =>
      rw [Fleet.run] at h'
      obtain ⟨s1, h1, h'⟩ := res_bind_inv h'
      have he := connected e List.mem_cons_self
      have q := (dead.quiet sound inv he h1 ha).2 g
      have r := ih s1 (dead.step sound inv he h1) (fun e he => connected e (List.mem_cons_of_mem _ he)) h' (inv.step h1)
      exact ⟨r.1.trans q, r.2⟩
  refine ⟨key.1, fun hlt hret => ?_⟩
  have h1 := key.2.full a g (by rw [hret]; simp)
  have h2 := ((key.2.inv a).grp g).ret hret
  rw [key.1] at h2
  omega

theorem started_new {s s' : TSys} {e : TEv} (h : s.step e = .ok s') {g t : Nat} (h0 : (g, t) ∉ s.started)
    (h1 : (g, t) ∈ s'.started) : ∃ w, e = .start w ∧ s'.workers[w]? = some (.running g t) := by
  cases e with
  | add k => cases h; rw [stepAdd] at h1; split at h1 <;> exact absurd h1 h0
  | wait k => cases h; rw [stepWait] at h1; split at h1 <;> exact absurd h1 h0
  | ret k => cases h; rw [stepRet] at h1; split at h1 <;> exact absurd h1 h0
  | abandon k => cases h; rw [stepAbandon] at h1; split at h1 <;> exact absurd h1 h0
  | push k =>
    rw [TSys.step, stepPush.eq_def] at h
    simp only [] at h
    split at h
    · cases h; exact absurd h1 h0
    · obtain ⟨q, -, h⟩ := res_bind_inv h
      cases h; exact absurd h1 h0
  | pop v =>
    rw [TSys.step, stepPop] at h
    split at h
    · obtain ⟨⟨p, q⟩, -, h⟩ := res_bind_inv h
      simp only [] at h
      split at h <;> (cases h; exact absurd h1 h0)
    · cases h; exact absurd h1 h0
  | start v =>
    rw [TSys.step, stepStart.eq_def] at h
    split at h
    · rename_i k u hv
      simp only [] at h
      split at h
      · split at h
        · cases h
          rcases List.mem_append.mp h1 with e | e
          · exact absurd e h0
          · have e' := List.mem_singleton.mp e
            cases e'
            refine ⟨v, rfl, ?_⟩
            exact List.getElem?_set_self (List.getElem?_eq_some_iff.mp hv).1
        · cases h; exact absurd h1 h0
      · cases h
    · cases h; exact absurd h1 h0
  | finish v =>
    rw [TSys.step, stepFinish.eq_def] at h
    split at h
    · simp only [] at h
      split at h
      · cases h; exact absurd h1 h0
      · cases h
    · cases h; exact absurd h1 h0
  | fail v msg =>
    rw [TSys.step, stepFail.eq_def] at h
    split at h
    · simp only [] at h
      split at h
      · cases h; exact absurd h1 h0
      · cases h
    · cases h; exact absurd h1 h0

/-- C75 is false of a server with one worker (the default, Config.cc:91-95) that is its own server for some field: a call
that needs such a field never returns, whatever the schedule, unless the connection breaks. -/
theorem C75_single_worker_hangs (F : Fleet) (sound : F.Sound) (a g t j : Nat) (one : F.threads a = 1)
    (self : F.target a g t = some (a, j)) (task : t < F.size a g) (es : List FleetEv)
    (connected : ∀ e ∈ es, Connected (· = a) e) (s : FleetSys) (h : F.run F.start es = .ok s) :
    ((s a).grp g).phase ≠ .returned := by
  -- either the task has not begun, or its worker waits for ever
  let J := fun s : FleetSys => FleetInv F s ∧ ((g, t) ∉ (s a).started ∨
    (Deadlocked F (· = a) s ∧ (s a).workers[0]? = some (.running g t)))
  have step : ∀ (s s' : FleetSys) e, J s → Connected (· = a) e → F.step s e = .ok s' → J s' := by
    intro s s' e ⟨inv, hj⟩ he hs
    refine ⟨inv.step hs, ?_⟩
    rcases hj with h0 | ⟨hd, hw⟩
    · by_cases h1 : (g, t) ∈ (s' a).started
      · right
        have hss := seen_step inv hs a
        obtain ⟨w, e1, e2⟩ := started_new hss h0 h1
        have hw0 : w = 0 := by
          have := (List.getElem?_eq_some_iff.mp e2).1
          rw [(inv.step hs).workers a, one] at this
          omega
        subst hw0
        refine ⟨?_, e2⟩
        intro b hb v hv
        have hb : b = a := hb
        subst hb
        rw [one] at hv
        have hv0 : v = 0 := by omega
        subst hv0
        refine ⟨g, t, b, j, e2, self, Or.inl ⟨rfl, ?_⟩⟩
        have hop : F.opened s b j = false := by
          rw [Fleet.opened.eq_def, (sound.back b g t b j).mp self]
          exact decide_eq_false h0
        have hnil := inv.shut b j hop
        have hlen : ((s' b).grp j).tasks.length = 0 := by
          cases shaping hss j (by rw [e1]; simp) with
          | same hh => exact (congrArg Prod.fst hh).trans (congrArg List.length hnil)
          | added he => rw [e1] at he; cases he
          | pushed he => rw [e1] at he; cases he
          | waits he => rw [e1] at he; cases he
          | returns he => rw [e1] at he; cases he
        rw [(((inv.step hs).inv b).grp j).fin, List.eq_nil_of_length_eq_zero hlen]
        rfl
      · exact Or.inl h1
    · right
      exact ⟨hd.step sound inv he hs, by rw [(hd.quiet sound inv he hs rfl).1]; exact hw⟩
  have all : ∀ (es : List FleetEv) (s0 : FleetSys), J s0 → (∀ e ∈ es, Connected (· = a) e) → F.run s0 es = .ok s → J s := by
    intro es
    induction es with
    | nil => intro s0 h0 _ h; cases h; exact h0
    | cons e es ih =>
      intro s0 h0 hc h
      rw [Fleet.run] at h
      obtain ⟨s1, h1, h⟩ := res_bind_inv h
      exact ih s1 (step s0 s1 e h0 (hc e List.mem_cons_self) h1) (fun e he => hc e (List.mem_cons_of_mem _ he)) h
  obtain ⟨inv, hj⟩ := all es F.start ⟨FleetInv.start F, Or.inl (by intro x; cases x)⟩ connected h
  intro hret
  have hlen := inv.full a g (by rw [hret]; simp)
  have hfin := ((inv.inv a).returned hret t).1
  have hcell := (inv.inv a).cell g t
  rcases hj with h0 | ⟨-, hw⟩
  · have hz : (s a).started.count (g, t) = 0 := List.count_eq_zero.mpr h0
    rcases hfin with e | e | e
    · rw [List.getElem?_eq_none_iff] at e; omega
    · rw [e] at hcell; have := hcell.2.2.1; omega
    · rw [e] at hcell; have := hcell.2.2.1; omega
  · have hr := (inv.inv a).running hw
    rw [hr] at hfin
    rcases hfin with e | e | e <;> cases e

/-! ## The servers of the documentation

`docs/gribjump/gribjump_with_remotefdb.rst:44-52`: two servers, each beside a store, with `forwardExtraction`, a `servermap`
of both, and two threads. -/

/-- Requests 0 and 1 of server 0 are calls of clients that use it as their (remote) GribJump, for fields in both stores
(remote/Request.cc:78-81, Engine.cc:194-195); each forwards one request to server 0 (its
requests 2 and 3) and one to server 1 (requests 0 and 1 there). -/
def docFleet : Fleet where
  threads := fun _ => 2
  size := fun a g => if a = 0 ∧ g < 2 then 2 else if a = 0 ∧ g < 4 then 1 else if a = 1 ∧ g < 2 then 1 else 0
  target := fun a g t =>
    if a = 0 ∧ g < 2 ∧ t = 0 then some (0, g + 2) else if a = 0 ∧ g < 2 ∧ t = 1 then some (1, g) else none
  origin := fun b h =>
    if b = 0 ∧ (h = 2 ∨ h = 3) then some (0, h - 2, 0) else if b = 1 ∧ h < 2 then some (0, h, 1) else none

theorem docFleet_sound : docFleet.Sound where
  back := by
    intro a g t b h
    show (if _ then _ else _) = _ ↔ (if _ then _ else _) = _
    constructor
    · intro e
      split at e
      · rename_i hc
        cases e
        rw [if_pos ⟨rfl, by omega⟩]
        obtain ⟨rfl, -, rfl⟩ := hc
        rfl
      · split at e
        · rename_i hc
          cases e
          rw [if_neg (by omega), if_pos ⟨rfl, hc.2.1⟩]
          obtain ⟨rfl, -, rfl⟩ := hc
          rfl
        · cases e
    · intro e
      split at e
      · rename_i hc
        cases e
        rw [if_pos ⟨rfl, by omega, rfl⟩]
        obtain ⟨rfl, hc⟩ := hc
        rw [show h - 2 + 2 = h from by omega]
      · split at e
        · rename_i hc
          cases e
          rw [if_neg (by omega), if_pos ⟨rfl, hc.2, rfl⟩, hc.1]
        · cases e
  here := by
    intro b h ho t
    have ho' : (if b = 0 ∧ (h = 2 ∨ h = 3) then some (0, h - 2, 0) else if b = 1 ∧ h < 2 then some (0, h, 1) else none) ≠
      (none : Option (Nat × Nat × Nat)) := ho
    show (if _ then _ else _) = _
    split at ho'
    · rw [if_neg (by omega), if_neg (by omega)]
    · split at ho'
      · rw [if_neg (by omega), if_neg (by omega)]
      · exact absurd rfl ho'
  tasks := by
    intro b h ho
    have ho' : (if b = 0 ∧ (h = 2 ∨ h = 3) then some (0, h - 2, 0) else if b = 1 ∧ h < 2 then some (0, h, 1) else none) ≠
      (none : Option (Nat × Nat × Nat)) := ho
    show 0 < (if _ then _ else _)
    split at ho'
    · rw [if_neg (by omega), if_pos (by omega)]; exact Nat.one_pos
    · split at ho'
      · rw [if_neg (by omega), if_neg (by omega), if_pos (by omega)]; exact Nat.one_pos
      · exact absurd rfl ho'

/-- Two clients ask server 0; its workers take the tasks in the order of the work queue. -/
def docSchedule : List FleetEv :=
  ([.add 0, .push 0, .add 0, .push 0, .wait 0, .add 1, .push 1, .add 1, .push 1, .wait 1, .pop 0, .pop 1, .start 0, .start 1].map
    (FleetEv.thread 0))

def docSeen (s : FleetSys) : List WPc × (Phase × Nat) × (Phase × Nat) × Nat × Nat :=
  ((s 0).workers, (((s 0).grp 0).phase, ((s 0).grp 0).nComplete), (((s 0).grp 1).phase, ((s 0).grp 1).nComplete),
    ((s 0).grp 2).nComplete, ((s 0).grp 3).nComplete)

theorem docSchedule_run : (docFleet.run docFleet.start docSchedule).toOption.map docSeen =
    some ([.running 0 0, .running 1 0], (.waiting, 0), (.waiting, 0), 0, 0) := by decide +kernel

/-- C75 is false of the servers of the documentation: two clients at the same time, and neither call returns, whatever
happens afterwards, unless a connection breaks. -/
theorem C75_documented_servers_hang : ∃ s, docFleet.run docFleet.start docSchedule = .ok s ∧
    ∀ es s', (∀ e ∈ es, Connected (· = 0) e) → docFleet.run s es = .ok s' →
      ((s' 0).grp 0).phase ≠ .returned ∧ ((s' 0).grp 1).phase ≠ .returned := by
  have hrun := docSchedule_run
  cases hs : docFleet.run docFleet.start docSchedule with
  | error f => rw [hs] at hrun; cases hrun
  | ok s =>
    rw [hs] at hrun
    have e := Option.some.inj hrun
    have hw : (s 0).workers = [.running 0 0, .running 1 0] := congrArg Prod.fst e
    have h0 : ((s 0).grp 0).nComplete = 0 := congrArg (fun x => x.2.1.2) e
    have h1 : ((s 0).grp 1).nComplete = 0 := congrArg (fun x => x.2.2.1.2) e
    have h2 : ((s 0).grp 2).nComplete = 0 := congrArg (fun x => x.2.2.2.1) e
    have h3 : ((s 0).grp 3).nComplete = 0 := congrArg (fun x => x.2.2.2.2) e
    have dead : Deadlocked docFleet (· = 0) s := by
      intro a ha w hw'
      have ha : a = 0 := ha
      subst ha
      have hw' : w < 2 := hw'
      rcases (show w = 0 ∨ w = 1 by omega) with rfl | rfl
      · exact ⟨0, 0, 0, 2, by rw [hw]; rfl, rfl, Or.inl ⟨rfl, h2⟩⟩
      · exact ⟨1, 0, 0, 3, by rw [hw]; rfl, rfl, Or.inl ⟨rfl, h3⟩⟩
    refine ⟨s, rfl, fun es s' hc hr => ?_⟩
    have d := fun g => (C75_deadlock docFleet docFleet_sound (· = 0) docSchedule es s s' hs dead hc hr 0 rfl g).2
    exact ⟨d 0 (by rw [h0]; decide), d 1 (by rw [h1]; decide)⟩

/-! ## A failing request -/

/-- A front with one worker, and a server behind it.  Request 0 of the front forwards to the server, as request 0 with two
tasks; request 1 of the front has a task that does not forward. -/
def frontFleet : Fleet where
  threads := fun _ => 1
  size := fun a g => if a = 0 ∧ g < 2 then 1 else if a = 1 ∧ g = 0 then 2 else 0
  target := fun a g t => if a = 0 ∧ g = 0 ∧ t = 0 then some (1, 0) else none
  origin := fun b h => if b = 1 ∧ h = 0 then some (0, 0, 0) else none

theorem frontFleet_sound : frontFleet.Sound where
  back := by
    intro a g t b h
    show (if _ then _ else _) = _ ↔ (if _ then _ else _) = _
    constructor
    · intro e
      split at e
      · rename_i hc
        cases e
        obtain ⟨rfl, rfl, rfl⟩ := hc
        rfl
      · cases e
    · intro e
      split at e
      · rename_i hc
        cases e
        obtain ⟨rfl, rfl⟩ := hc
        rfl
      · cases e
  here := by
    intro b h ho t
    show (if _ then _ else _) = _
    have ho' : (if b = 1 ∧ h = 0 then some (0, 0, 0) else none) ≠ (none : Option (Nat × Nat × Nat)) := ho
    split at ho'
    · rw [if_neg (by omega)]
    · exact absurd rfl ho'
  tasks := by
    intro b h ho
    have ho' : (if b = 1 ∧ h = 0 then some (0, 0, 0) else none) ≠ (none : Option (Nat × Nat × Nat)) := ho
    show 0 < (if _ then _ else _)
    split at ho'
    · rw [if_neg (by omega), if_pos (by omega)]; decide
    · exact absurd rfl ho'

/-- The first task of the forwarded request fails while the second waits in the queue. -/
def frontSchedule : List FleetEv :=
  ([.add 0, .push 0, .wait 0, .pop 0, .start 0].map (FleetEv.thread 0)) ++
  ([.add 0, .push 0, .add 0, .push 0, .wait 0, .pop 0, .start 0, .fail 0 "read error"].map (FleetEv.thread 1))

def frontSeen (s : FleetSys) : List WPc × Nat × Nat × Phase × List TStat :=
  ((s 0).workers, ((s 0).grp 0).nComplete, ((s 0).grp 1).nComplete, ((s 1).grp 0).phase, ((s 1).grp 0).tasks)

theorem frontSchedule_run : (frontFleet.run frontFleet.start frontSchedule).toOption.map frontSeen =
    some ([.running 0 0], 0, 0, .waiting, [.failed, .cancelled]) := by decide +kernel

/-- C75 is false when a forwarded request fails: its server never answers (C25), so the front's worker waits for ever, and
no other client's call on the front returns either, although it forwards nothing. -/
theorem C75_failure_blocks_others : ∃ s, frontFleet.run frontFleet.start frontSchedule = .ok s ∧
    ∀ es s', (∀ e ∈ es, Connected (· = 0) e) → frontFleet.run s es = .ok s' →
      ((s' 0).grp 0).phase ≠ .returned ∧ ((s' 0).grp 1).phase ≠ .returned := by
  have hrun := frontSchedule_run
  cases hs : frontFleet.run frontFleet.start frontSchedule with
  | error f => rw [hs] at hrun; cases hrun
  | ok s =>
    rw [hs] at hrun
    have e := Option.some.inj hrun
    have hw : (s 0).workers = [.running 0 0] := congrArg Prod.fst e
    have h0 : ((s 0).grp 0).nComplete = 0 := congrArg (fun x => x.2.1) e
    have h1 : ((s 0).grp 1).nComplete = 0 := congrArg (fun x => x.2.2.1) e
    have h2 : ((s 1).grp 0).phase = .waiting := congrArg (fun x => x.2.2.2.1) e
    have h3 : ((s 1).grp 0).tasks = [.failed, .cancelled] := congrArg (fun x => x.2.2.2.2) e
    have dead : Deadlocked frontFleet (· = 0) s := by
      intro a ha w hw'
      have ha : a = 0 := ha
      subst ha
      have hw' : w < 1 := hw'
      have : w = 0 := by omega
      subst this
      exact ⟨0, 0, 1, 0, by rw [hw]; rfl, rfl, Or.inr ⟨h2, by rw [h3]; decide⟩⟩
    refine ⟨s, rfl, fun es s' hc hr => ?_⟩
    have d := fun g => (C75_deadlock frontFleet frontFleet_sound (· = 0) frontSchedule es s s' hs dead hc hr 0 rfl g).2
    exact ⟨d 0 (by rw [h0]; decide), d 1 (by rw [h1]; decide)⟩

/-! ## Fair histories exist -/

def fleetStates (F : Fleet) (ev : Nat → FleetEv) : Nat → FleetSys
  | 0 => F.start
  | k + 1 => match F.step (fleetStates F ev k) (ev k) with
    | .ok s => s
    | .error _ => fleetStates F ev k

/-- Every infinite schedule is an execution. -/
theorem fleet_execution_of (F : Fleet) (ev : Nat → FleetEv) : FleetExecution F ev (fleetStates F ev) := by
  have inv : ∀ k, FleetInv F (fleetStates F ev k) := by
    intro k
    induction k with
    | zero => exact FleetInv.start F
    | succ k ih =>
      obtain ⟨s', h1⟩ := fleet_defined ih (ev k)
      rw [fleetStates, h1]
      exact ih.step h1
  refine ⟨rfl, fun k => ?_⟩
  obtain ⟨s', h1⟩ := fleet_defined (inv k) (ev k)
  rw [fleetStates, h1]

/-- What the threads and workers of `frontFleet` do, in turn. -/
def frontRound : List FleetEv :=
  ([.add 0, .push 0, .wait 0, .ret 0, .add 1, .push 1, .wait 1, .ret 1, .pop 0, .start 0, .finish 0].map (FleetEv.thread 0)) ++
  [.reply 0 0, .reply 1 0] ++
  ([.add 0, .push 0, .wait 0, .ret 0, .pop 0, .start 0, .finish 0].map (FleetEv.thread 1))

/-- `frontFleet` without servers that have nothing to do. -/
def twoFleet : Fleet := { frontFleet with threads := fun a => if a < 2 then 1 else 0 }

def roundEv (k : Nat) : FleetEv := (frontRound[k % 20]?).getD (.reply 0 0)

theorem round_mem (e : FleetEv) (i : Nat) (hi : i < 20) (h : frontRound[i]? = some e) (k : Nat) : ∃ m, k ≤ m ∧ roundEv m = e := by
  refine ⟨20 * k + i, by omega, ?_⟩
  rw [roundEv, show (20 * k + i) % 20 = i by omega, h]
  rfl

/-- The hypotheses of `C75_flawless_calls_return_partial` are met: both calls of clients return. -/
example : ∀ g, g < 2 → ∃ k, ((fleetStates twoFleet roundEv k 0).grp g).phase = .returned := by
  intro g hg
  have sound : twoFleet.Sound := ⟨frontFleet_sound.back, frontFleet_sound.here, frontFleet_sound.tasks⟩
  have workers : FleetWorkersFair twoFleet roundEv := by
    intro a w hw k
    have hw : w < (if a < 2 then 1 else 0) := hw
    split at hw
    · have hw0 : w = 0 := by omega
      subst hw0
      rcases (show a = 0 ∨ a = 1 by omega) with rfl | rfl
      · refine ⟨round_mem _ 8 (by decide) rfl k, round_mem _ 9 (by decide) rfl k, ?_, round_mem _ 11 (by decide) rfl k⟩
        obtain ⟨m, h1, h2⟩ := round_mem _ 10 (by decide) rfl k
        exact ⟨m, h1, Or.inl h2⟩
      · refine ⟨round_mem _ 17 (by decide) rfl k, round_mem _ 18 (by decide) rfl k, ?_, round_mem _ 12 (by decide) rfl k⟩
        obtain ⟨m, h1, h2⟩ := round_mem _ 19 (by decide) rfl k
        exact ⟨m, h1, Or.inl h2⟩
    · cases hw
  have cases' : ∀ b g, 0 < twoFleet.size b g → (b = 0 ∧ g = 0) ∨ (b = 0 ∧ g = 1) ∨ (b = 1 ∧ g = 0) := by
    intro b g h
    have h : 0 < (if b = 0 ∧ g < 2 then 1 else if b = 1 ∧ g = 0 then 2 else 0) := h
    split at h
    · omega
    · split at h
      · omega
      · cases h
  have threads : ∀ b g, 0 < twoFleet.size b g → FleetThreadFair b g roundEv := by
    intro b g h k
    rcases cases' b g h with ⟨rfl, rfl⟩ | ⟨rfl, rfl⟩ | ⟨rfl, rfl⟩
    · exact ⟨round_mem _ 0 (by decide) rfl k, round_mem _ 1 (by decide) rfl k, round_mem _ 2 (by decide) rfl k,
        round_mem _ 3 (by decide) rfl k⟩
    · exact ⟨round_mem _ 4 (by decide) rfl k, round_mem _ 5 (by decide) rfl k, round_mem _ 6 (by decide) rfl k,
        round_mem _ 7 (by decide) rfl k⟩
    · exact ⟨round_mem _ 13 (by decide) rfl k, round_mem _ 14 (by decide) rfl k, round_mem _ 15 (by decide) rfl k,
        round_mem _ 16 (by decide) rfl k⟩
  have flawless : ∀ k, Flawless (roundEv k) := by
    intro k
    have all : ∀ i, i < 20 → Flawless ((frontRound[i]?).getD (.reply 0 0)) := by
      intro i hi
      have mem : (frontRound[i]?).getD (.reply 0 0) ∈ frontRound := by
        rw [List.getElem?_eq_getElem (show i < frontRound.length from hi)]
        exact List.getElem_mem _
      refine ⟨fun a w msg e => ?_, fun a w msg e => ?_⟩
      · rw [e] at mem; simp [frontRound] at mem
      · rw [e] at mem; simp [frontRound] at mem
    exact all (k % 20) (Nat.mod_lt k (by decide))
  obtain ⟨k, e, -⟩ := C75_flawless_calls_return_partial twoFleet sound roundEv _ (fleet_execution_of twoFleet roundEv) workers
    threads (by
      intro b g h
      rcases cases' b g h with ⟨rfl, rfl⟩ | ⟨rfl, rfl⟩ | ⟨rfl, rfl⟩ <;> decide)
    (fun a => if a = 0 then 1 else 0)
    (by
      intro b j ho
      right
      intro g t c i ht
      have ho' : (if b = 1 ∧ j = 0 then some (0, 0, 0) else none) ≠ (none : Option (Nat × Nat × Nat)) := ho
      have ht' : (if b = 0 ∧ g = 0 ∧ t = 0 then some (1, 0) else none) = some (c, i) := ht
      split at ht'
      · rename_i hb
        split at ho'
        · omega
        · exact absurd rfl ho'
      · cases ht')
    flawless 0 g (show (if (0 : Nat) = 1 ∧ g = 0 then some (0, 0, 0) else none) = none from if_neg (by omega)) (by rw [show twoFleet.size 0 g = 1 from if_pos ⟨rfl, hg⟩]; decide)
  exact ⟨k, e⟩

/-- The hypotheses of `C75_single_worker_hangs`: one worker, and a call that forwards to its own server. -/
def selfFleet : Fleet where
  threads := fun _ => 1
  size := fun a g => if a = 0 ∧ g < 2 then 1 else 0
  target := fun a g t => if a = 0 ∧ g = 0 ∧ t = 0 then some (0, 1) else none
  origin := fun b h => if b = 0 ∧ h = 1 then some (0, 0, 0) else none

theorem selfFleet_sound : selfFleet.Sound where
  back := by
    intro a g t b h
    show (if _ then _ else _) = _ ↔ (if _ then _ else _) = _
    constructor
    · intro e
      split at e
      · rename_i hc
        cases e
        obtain ⟨rfl, rfl, rfl⟩ := hc
        rfl
      · cases e
    · intro e
      split at e
      · rename_i hc
        cases e
        obtain ⟨rfl, rfl⟩ := hc
        rfl
      · cases e
  here := by
    intro b h ho t
    show (if _ then _ else _) = _
    have ho' : (if b = 0 ∧ h = 1 then some (0, 0, 0) else none) ≠ (none : Option (Nat × Nat × Nat)) := ho
    split at ho'
    · rw [if_neg (by omega)]
    · exact absurd rfl ho'
  tasks := by
    intro b h ho
    have ho' : (if b = 0 ∧ h = 1 then some (0, 0, 0) else none) ≠ (none : Option (Nat × Nat × Nat)) := ho
    show 0 < (if _ then _ else _)
    split at ho'
    · rw [if_pos (by omega)]; decide
    · exact absurd rfl ho'

example : selfFleet.threads 0 = 1 ∧ selfFleet.target 0 0 0 = some (0, 1) ∧ 0 < selfFleet.size 0 0 := by decide

/-- The call is under way and waits. -/
example : (selfFleet.run selfFleet.start ([.add 0, .push 0, .wait 0, .pop 0, .start 0, .add 1, .push 1, .wait 1, .pop 0].map
    (FleetEv.thread 0))).toOption.map (fun s => ((s 0).workers, ((s 0).grp 0).phase, ((s 0).grp 1).phase)) =
    some ([.running 0 0], .waiting, .waiting) := by decide +kernel

end GJ
