import Verif.Lemmas.Liveness

/-!
# C25, C26: waiting for the tasks of a request, and reporting failures
-/

namespace GJ

open Spec

/-- C25.  In no schedule does a worker touch a task of a request that has already returned, as long as no
request leaves its scope while its tasks are queued (see `C25_abandoned_request_fails`). -/
theorem C25_no_use_after_return (n : Nat) (es : List TEv) (he : ∀ g, .abandon g ∉ es) :
    ∃ s, (TSys.init n).run es = .ok s := by
  obtain ⟨s, h, -⟩ := (TInv.init n).run es he
  exact ⟨s, h⟩

theorem TInv.reached {n : Nat} {es : List TEv} {s : TSys} (he : ∀ g, .abandon g ∉ es)
    (h : (TSys.init n).run es = .ok s) : TInv s := by
  obtain ⟨s', h1, h2⟩ := (TInv.init n).run es he
  rw [h] at h1; cases h1; exact h2

theorem TInv.returned {s : TSys} (h : TInv s) {g : Nat} (hr : (s.grp g).phase = .returned) (t : Nat) :
    ((s.grp g).tasks[t]? = none ∨ (s.grp g).tasks[t]? = some .done ∨ (s.grp g).tasks[t]? = some .failed) ∧
      s.loc g t = 0 ∧ s.workers.count (.running g t) = 0 := by
  have hg := h.grp g
  have h1 := hg.ret hr
  rw [hg.fin, List.countP_eq_length] at h1
  have hc := h.cell g t
  revert hc
  cases ht : (s.grp g).tasks[t]? with
  | none => intro hc; exact ⟨Or.inl rfl, hc.1, hc.2.1⟩
  | some st =>
    have := h1 st (List.mem_of_getElem? ht)
    cases st with
    | done => intro hc; exact ⟨Or.inr (Or.inl rfl), hc.1, hc.2.1⟩
    | failed => intro hc; exact ⟨Or.inr (Or.inr rfl), hc.1, hc.2.1⟩
    | pending => cases this
    | executing => cases this
    | cancelled => cases this

/-- C25.  When the wait has returned, every task of the request ran and ended (successfully or not), none is
queued, and no worker holds one — whatever the schedule, the number of workers and the failures. -/
theorem C25_returns_only_when_done (n : Nat) (es : List TEv) (he : ∀ g, .abandon g ∉ es) (s : TSys)
    (hs : (TSys.init n).run es = .ok s) (g : Nat) (hr : (s.grp g).phase = .returned) :
    (∀ st ∈ (s.grp g).tasks, st = .done ∨ st = .failed) ∧ s.q.tasks g = [] ∧
      (∀ t, .got g t ∉ s.workers ∧ .running g t ∉ s.workers) ∧
      ∀ t, t < (s.grp g).tasks.length → s.started.count (g, t) = 1 := by
  have h := TInv.reached he hs
  refine ⟨?_, ?_, ?_, ?_⟩
  · intro st hst
    obtain ⟨t, ht⟩ := List.getElem?_of_mem hst
    rcases (h.returned hr t).1 with e | e | e
    · rw [ht] at e; cases e
    · rw [ht] at e; cases e; exact Or.inl rfl
    · rw [ht] at e; cases e; exact Or.inr rfl
  · cases hq : s.q.tasks g with
    | nil => rfl
    | cons t ts =>
      have := (h.returned hr t).2.1
      rw [TSys.loc, hq, List.count_cons_self] at this
      omega
  · intro t
    have h1 := (h.returned hr t).2
    have h2 := h1.1
    rw [TSys.loc] at h2
    exact ⟨List.count_eq_zero.mp (by omega), List.count_eq_zero.mp h1.2⟩
  · intro t ht
    have hc := h.cell g t
    rcases (h.returned hr t).1 with e | e | e
    · rw [List.getElem?_eq_none_iff] at e; omega
    · rw [e] at hc; exact hc.2.2.1
    · rw [e] at hc; exact hc.2.2.1

/-- An infinite execution: from `n` idle workers, step by step, with no abandoned request. -/
structure Execution (n : Nat) (ev : Nat → TEv) (st : Nat → TSys) : Prop where
  start : st 0 = TSys.init n
  step : ∀ k, (st k).step (ev k) = .ok (st (k + 1))
  inScope : ∀ k g, ev k ≠ .abandon g

/-- Every worker keeps running: it keeps asking for work, starting what it got, and its tasks end. -/
def WorkersFair (n : Nat) (ev : Nat → TEv) : Prop :=
  ∀ w, w < n → ∀ k, (∃ m, k ≤ m ∧ ev m = .pop w) ∧ (∃ m, k ≤ m ∧ ev m = .start w) ∧
    (∃ m, k ≤ m ∧ (ev m = .finish w ∨ ∃ msg, ev m = .fail w msg))

/-- The thread of request `g` keeps checking whether it may return. -/
def WaiterFair (g : Nat) (ev : Nat → TEv) : Prop := ∀ k, ∃ m, k ≤ m ∧ ev m = .ret g

theorem Execution.inv {n : Nat} {ev : Nat → TEv} {st : Nat → TSys} (h : Execution n ev st) (k : Nat) :
    TInv (st k) := by
  induction k with
  | zero => rw [h.start]; exact TInv.init n
  | succ k ih =>
    obtain ⟨s', h1, h2⟩ := ih.step (ev k) (h.inScope k)
    rw [h.step k] at h1; cases h1; exact h2

theorem step_workers_length {s s' : TSys} {e : TEv} (h : TInv s) (he : ∀ g, e ≠ .abandon g)
    (hs : s.step e = .ok s') : s'.workers.length = s.workers.length := by
  cases e with
  | abandon g => exact absurd rfl (he g)
  | add g => cases hs; rw [stepAdd]; split <;> rfl
  | wait g => cases hs; rw [stepWait]; split <;> rfl
  | ret g => cases hs; rw [stepRet]; split <;> rfl
  | push g =>
    have hs' : stepPush s g = .ok s' := hs
    rw [stepPush] at hs'
    cases hpu : (s.grp g).pushing with
    | none => simp only [hpu] at hs'; cases hs'; rfl
    | some t =>
      simp only [hpu] at hs'
      obtain ⟨q', h1, -⟩ := h.q.push g t h.opn
      rw [h1, ok_bind] at hs'
      cases hs'; rfl
  | pop w =>
    have hs' : stepPop s w = .ok s' := hs
    rw [stepPop] at hs'
    split at hs'
    · rcases h.q.pop with ⟨-, hpop⟩ | ⟨a, rr, t, q', he, hpop, -⟩
      · rw [hpop, ok_bind] at hs'
        revert hs'
        cases s.q.closed <;> intro hs' <;> cases hs' <;> rfl
      · rw [hpop, ok_bind] at hs'
        cases hs'
        exact List.length_set
    · cases hs'; rfl
  | start w =>
    have hs' : stepStart s w = .ok s' := hs
    rw [stepStart] at hs'
    split at hs'
    · simp only at hs'
      split at hs'
      · split at hs'
        · cases hs'; exact List.length_set
        · cases hs'; exact List.length_set
      · cases hs'
    · cases hs'; rfl
  | finish w =>
    have hs' : stepFinish s w = .ok s' := hs
    rw [stepFinish] at hs'
    split at hs'
    · simp only at hs'
      split at hs'
      · cases hs'; exact List.length_set
      · cases hs'
    · cases hs'; rfl
  | fail w m =>
    have hs' : stepFail s w m = .ok s' := hs
    rw [stepFail] at hs'
    split at hs'
    · simp only at hs'
      split at hs'
      · cases hs'; exact List.length_set
      · cases hs'
    · cases hs'; rfl

theorem Execution.workers {n : Nat} {ev : Nat → TEv} {st : Nat → TSys} (h : Execution n ev st) (k : Nat) :
    (st k).workers.length = n := by
  induction k with
  | zero => rw [h.start]; exact List.length_replicate
  | succ k ih => rw [step_workers_length (h.inv k) (h.inScope k) (h.step k), ih]

/-- If workers keep asking for work and starting what they got, the tasks of a waiting request end once they run, and
the tasks of one worker all end, then all the tasks of the request leave the queue and the workers. -/
theorem Execution.drains_by {n : Nat} {ev : Nat → TEv} {st : Nat → TSys} (h : Execution n ev st)
    (hf : ∀ w, w < n → ∀ k, (∃ m, k ≤ m ∧ ev m = .pop w) ∧ (∃ m, k ≤ m ∧ ev m = .start w)) (g k0 : Nat)
    (he : ∀ w t k, w < n → (st k).workers[w]? = some (.running g t) →
      ∃ m, k ≤ m ∧ (ev m = .finish w ∨ ∃ msg, ev m = .fail w msg))
    {v : Nat} (hn : v < n) (hv : ∀ k, ∃ m, k ≤ m ∧ (ev m = .finish v ∨ ∃ msg, ev m = .fail v msg))
    (hw : ∀ k, k0 ≤ k → ((st k).grp g).phase = .waiting) :
    ∃ k, k0 ≤ k ∧ ∀ m, k ≤ m → (st m).left g = 0 := by
  have prog : ∀ k, k0 ≤ k → Progress g (st k) (ev k) (st (k + 1)) := fun k hk =>
    (h.inv k).progress g (hw k hk) (ev k) (h.inScope k) _ (h.step k)
  obtain ⟨k1, hk1, hmin1⟩ := exists_min (fun k => (st k).left g) k0
  have hmono : ∀ d, (st (k1 + d)).left g ≤ (st k1).left g := by
    intro d
    induction d with
    | zero => exact Nat.le_refl _
    | succ d ih => exact Nat.le_trans (prog (k1 + d) (by omega)).left ih
  have hconst : ∀ m, k1 ≤ m → (st m).left g = (st k1).left g := by
    intro m hm
    have := hmono (m - k1)
    rw [show k1 + (m - k1) = m from by omega] at this
    have : (st k1).left g ≤ (st m).left g := hmin1 m (by omega)
    omega
  have hsame : ∀ m, k1 ≤ m → (st (m + 1)).left g = (st m).left g := by
    intro m hm
    rw [hconst m hm, hconst (m + 1) (by omega)]
  refine ⟨k1, hk1, fun m hm => ?_⟩
  rw [hconst m hm]
  apply Classical.byContradiction
  intro hpos
  by_cases hq : (st k1).q.tasks g = []
  · -- some worker holds a task of `g`, and keeps holding it
    have hsum : ((st k1).workers.map (WPc.weight g)).sum ≠ 0 := by
      intro e
      apply hpos
      rw [TSys.left, hq, e]; rfl
    have hex : ∃ p ∈ (st k1).workers, p.weight g ≠ 0 := by
      apply Classical.byContradiction
      intro hno
      apply hsum
      rw [List.sum_eq_zero_iff_forall_eq_nat]
      intro x hx
      obtain ⟨p, hp, rfl⟩ := List.mem_map.mp hx
      exact Classical.byContradiction fun hne => hno ⟨p, hp, hne⟩
    obtain ⟨p, hp, hpw⟩ := hex
    obtain ⟨w, hw1⟩ := List.getElem?_of_mem hp
    have hwn : w < n := by
      have := (List.getElem?_eq_some_iff.mp hw1).1
      rw [h.workers] at this; exact this
    have hstay : ∀ d, (st (k1 + d)).workers[w]? = some p := by
      intro d
      induction d with
      | zero => exact hw1
      | succ d ih =>
        have P := prog (k1 + d) (by omega)
        have hs := hsame (k1 + d) (by omega)
        rcases P.pc w with e | ⟨-, e⟩ | ⟨e, a, t, e'⟩ | ⟨e, a, t, e'⟩
        · show (st (k1 + d + 1)).workers[w]? = _
          rw [e]; exact ih
        · rw [ih] at e; cases e; exact absurd rfl hpw
        · have hh := (P.start w a t e e').2
          rw [ih] at e'; cases e'
          have hag : a = g := Classical.byContradiction fun hne => hpw (by rw [WPc.weight, if_neg hne])
          have := hh hag
          omega
        · have hh := (P.finish w a t e e').2
          rw [ih] at e'; cases e'
          have hag : a = g := Classical.byContradiction fun hne => hpw (by rw [WPc.weight, if_neg hne])
          have := hh hag
          omega
    have hst : ∀ m, k1 ≤ m → (st m).workers[w]? = some p := by
      intro m hm
      have := hstay (m - k1)
      rw [show k1 + (m - k1) = m from by omega] at this
      exact this
    obtain ⟨-, ⟨m1, hm1, e1⟩⟩ := hf w hwn k1
    cases p with
    | idle => exact hpw rfl
    | got a t =>
      have hag : a = g := Classical.byContradiction fun hne => hpw (by rw [WPc.weight, if_neg hne])
      have := ((prog m1 (by omega)).start w a t e1 (hst m1 hm1)).2 hag
      have := hsame m1 hm1
      omega
    | running a t =>
      have hag : a = g := Classical.byContradiction fun hne => hpw (by rw [WPc.weight, if_neg hne])
      obtain ⟨m2, hm2, e2⟩ := he w t k1 hwn (by rw [hst k1 (Nat.le_refl _), hag])
      have := ((prog m2 (by omega)).finish w a t e2 (hst m2 hm2)).2 hag
      have := hsame m2 hm2
      omega
  · -- `g` waits in the round and its turn must come
    have hqs : ∀ d, (st (k1 + d)).q.tasks g ≠ [] := by
      intro d
      induction d with
      | zero => exact hq
      | succ d ih => exact ((prog (k1 + d) (by omega)).queued ih (hsame (k1 + d) (by omega))).1
    have hqm : ∀ m, k1 ≤ m → (st m).q.tasks g ≠ [] := by
      intro m hm
      have := hqs (m - k1)
      rw [show k1 + (m - k1) = m from by omega] at this
      exact this
    obtain ⟨k2, hk2, hmin2⟩ := exists_min (fun k => (st k).q.rr.idxOf g) k1
    have hmono2 : ∀ d, (st (k2 + d)).q.rr.idxOf g ≤ (st k2).q.rr.idxOf g := by
      intro d
      induction d with
      | zero => exact Nat.le_refl _
      | succ d ih =>
        exact Nat.le_trans ((prog (k2 + d) (by omega)).queued (hqm _ (by omega)) (hsame _ (by omega))).2 ih
    have hnopop : ∀ m w, k2 ≤ m → ev m = .pop w → (st m).workers[w]? ≠ some .idle := by
      intro m w hm e hi
      have h1 := (prog m (by omega)).turn (hqm m (by omega)) (hsame m (by omega)) w e hi
      have h2 : (st k2).q.rr.idxOf g ≤ (st (m + 1)).q.rr.idxOf g := hmin2 (m + 1) (by omega)
      have h3 := hmono2 (m - k2)
      rw [show k2 + (m - k2) = m from by omega] at h3
      omega
    -- worker `v` becomes idle and stays so
    have hidle : ∃ m, k2 ≤ m ∧ (st m).workers[v]? = some .idle := by
      apply Classical.byContradiction
      intro hno
      have hne : ∀ m, k2 ≤ m → (st m).workers[v]? ≠ some .idle := fun m hm e => hno ⟨m, hm, e⟩
      have hlen := h.workers k2
      have hrun : ∃ m a t, k2 ≤ m ∧ (st m).workers[v]? = some (.running a t) := by
        cases hp : (st k2).workers[v]? with
        | none => rw [List.getElem?_eq_none_iff] at hp; omega
        | some p =>
          cases p with
          | idle => exact absurd hp (hne k2 (Nat.le_refl _))
          | running a t => exact ⟨k2, a, t, Nat.le_refl _, hp⟩
          | got a t =>
            obtain ⟨-, ⟨m1, hm1, e1⟩⟩ := hf v hn k2
            apply Classical.byContradiction
            intro hnr
            have hstay : ∀ d, (st (k2 + d)).workers[v]? = some (.got a t) := by
              intro d
              induction d with
              | zero => exact hp
              | succ d ih =>
                have P := prog (k2 + d) (by omega)
                rcases P.pc v with e | ⟨-, e⟩ | ⟨e, a', t', e'⟩ | ⟨e, a', t', e'⟩
                · show (st (k2 + d + 1)).workers[v]? = _
                  rw [e]; exact ih
                · rw [ih] at e; cases e
                · exfalso
                  rcases (P.start v a' t' e e').1 with hh | hh
                  · exact hne (k2 + d + 1) (by omega) hh
                  · exact hnr ⟨k2 + d + 1, a', t', by omega, hh⟩
                · rw [ih] at e'; cases e'
            have hgot := hstay (m1 - k2)
            rw [show k2 + (m1 - k2) = m1 from by omega] at hgot
            rcases ((prog m1 (by omega)).start v a t e1 hgot).1 with hh | hh
            · exact hne (m1 + 1) (by omega) hh
            · exact hnr ⟨m1 + 1, a, t, by omega, hh⟩
      obtain ⟨m3, a, t, hm3, hr3⟩ := hrun
      obtain ⟨m4, hm4, e4⟩ := hv m3
      have hstay : ∀ d, (st (m3 + d)).workers[v]? = some (.running a t) := by
        intro d
        induction d with
        | zero => exact hr3
        | succ d ih =>
          have P := prog (m3 + d) (by omega)
          rcases P.pc v with e | ⟨-, e⟩ | ⟨e, a', t', e'⟩ | ⟨e, a', t', e'⟩
          · show (st (m3 + d + 1)).workers[v]? = _
            rw [e]; exact ih
          · rw [ih] at e; cases e
          · rw [ih] at e'; cases e'
          · exact absurd ((P.finish v a' t' e e').1) (hne (m3 + d + 1) (by omega))
      have hrun := hstay (m4 - m3)
      rw [show m3 + (m4 - m3) = m4 from by omega] at hrun
      exact hne (m4 + 1) (by omega) (((prog m4 (by omega)).finish v a t e4 hrun).1)
    obtain ⟨m5, hm5, hi5⟩ := hidle
    have hstay : ∀ d, (st (m5 + d)).workers[v]? = some .idle := by
      intro d
      induction d with
      | zero => exact hi5
      | succ d ih =>
        have P := prog (m5 + d) (by omega)
        rcases P.pc v with e | ⟨e, -⟩ | ⟨e, a', t', e'⟩ | ⟨e, a', t', e'⟩
        · show (st (m5 + d + 1)).workers[v]? = _
          rw [e]; exact ih
        · exact absurd ih (hnopop (m5 + d) v (by omega) e)
        · rw [ih] at e'; cases e'
        · rw [ih] at e'; cases e'
    obtain ⟨⟨m6, hm6, e6⟩, -⟩ := hf v hn m5
    have hi6 := hstay (m6 - m5)
    rw [show m5 + (m6 - m5) = m6 from by omega] at hi6
    exact hnopop m6 v (by omega) e6 hi6

/-- Under fair workers, all the tasks of a waiting request leave the queue and the workers. -/
theorem Execution.drains {n : Nat} {ev : Nat → TEv} {st : Nat → TSys} (h : Execution n ev st) (hn : 0 < n)
    (hf : WorkersFair n ev) (g k0 : Nat) (hw : ∀ k, k0 ≤ k → ((st k).grp g).phase = .waiting) :
    ∃ k, k0 ≤ k ∧ ∀ m, k ≤ m → (st m).left g = 0 :=
  h.drains_by (fun w hw k => ⟨(hf w hw k).1, (hf w hw k).2.1⟩) g k0 (fun w _ k hw _ => (hf w hw k).2.2) hn
    (fun k => (hf 0 hn k).2.2) hw

theorem TInv.drained {s : TSys} (h : TInv s) {g : Nat} (hp : (s.grp g).phase = .waiting) (hl : s.left g = 0)
    (t : Nat) (st : TStat) (ht : (s.grp g).tasks[t]? = some st) : st = .done ∨ st = .failed ∨ st = .cancelled := by
  have hpu : (s.grp g).pushing = none := by
    cases hq : (s.grp g).pushing with
    | none => rfl
    | some t =>
      have := (h.grp g).push (by rw [hq]; simp)
      rw [hp] at this; cases this
  rw [TSys.left] at hl
  have hq : s.q.tasks g = [] := List.length_eq_zero_iff.mp (by omega)
  have hz : ∀ p ∈ s.workers, p.weight g = 0 := by
    intro p hp
    have : (s.workers.map (WPc.weight g)).sum = 0 := by omega
    rw [List.sum_eq_zero_iff_forall_eq_nat] at this
    exact this _ (List.mem_map.mpr ⟨p, hp, rfl⟩)
  have hc := h.cell g t
  rw [ht] at hc
  cases st with
  | done => exact Or.inl rfl
  | failed => exact Or.inr (Or.inl rfl)
  | cancelled => exact Or.inr (Or.inr rfl)
  | pending =>
    have h1 := hc.1
    rw [TSys.loc, hpu, hq, if_neg (by simp), List.count_nil] at h1
    have : 0 < s.workers.count (.got g t) := by omega
    have := hz _ (List.count_pos_iff.mp this)
    rw [WPc.weight, if_pos rfl] at this; cases this
  | executing =>
    have h1 := hc.2.1
    have : 0 < s.workers.count (.running g t) := by omega
    have := hz _ (List.count_pos_iff.mp this)
    rw [WPc.weight, if_pos rfl] at this; cases this

/-- The wait of a request returns, if its tasks leave the queue and the workers, unless one was cancelled. -/
theorem Execution.returns_by {n : Nat} {ev : Nat → TEv} {st : Nat → TSys} (h : Execution n ev st) {g k0 : Nat}
    (hr : WaiterFair g ev) (hw : ((st k0).grp g).phase = .waiting)
    (hd : (∀ k, k0 ≤ k → ((st k).grp g).phase = .waiting) → ∃ k, k0 ≤ k ∧ ∀ m, k ≤ m → (st m).left g = 0) :
    (∃ k, k0 ≤ k ∧ ((st k).grp g).phase = .returned) ∨ (∃ k, k0 ≤ k ∧ .cancelled ∈ ((st k).grp g).tasks) := by
  apply Classical.byContradiction
  intro hno
  have hno1 : ∀ k, k0 ≤ k → ((st k).grp g).phase ≠ .returned := fun k hk e => hno (Or.inl ⟨k, hk, e⟩)
  have hno2 : ∀ k, k0 ≤ k → .cancelled ∉ ((st k).grp g).tasks := fun k hk e => hno (Or.inr ⟨k, hk, e⟩)
  have hph : ∀ d, ((st (k0 + d)).grp g).phase = .waiting := by
    intro d
    induction d with
    | zero => exact hw
    | succ d ih =>
      have P := (h.inv (k0 + d)).progress g ih (ev _) (h.inScope _) _ (h.step _)
      rcases P.phase with e | e
      · exact e
      · exact absurd e (hno1 (k0 + d + 1) (by omega))
  have hph' : ∀ k, k0 ≤ k → ((st k).grp g).phase = .waiting := by
    intro k hk
    have := hph (k - k0)
    rw [show k0 + (k - k0) = k from by omega] at this
    exact this
  obtain ⟨k1, hk1, hz⟩ := hd hph'
  obtain ⟨m, hm, em⟩ := hr k1
  have I := h.inv m
  have hcomp : ((st m).grp g).nComplete = ((st m).grp g).tasks.length := by
    rw [(I.grp g).fin, List.countP_eq_length]
    intro x hx
    obtain ⟨t, ht⟩ := List.getElem?_of_mem hx
    rcases I.drained (hph' m (by omega)) (hz m hm) t x ht with rfl | rfl | rfl
    · rfl
    · rfl
    · exact absurd hx (hno2 m (by omega))
  have hs := h.step m
  rw [em] at hs
  have hs' : Except.ok (stepRet (st m) g) = (Except.ok (st (m + 1)) : Res TSys) := hs
  injection hs' with hs'
  apply hno1 (m + 1) (by omega)
  rw [← hs', stepRet, if_pos ⟨hph' m (by omega), hcomp⟩, grp_set, if_pos rfl]

/-- C25 (partial).  With at least one worker, fair workers and a fair waiter, the wait of a request returns —
whatever other requests do meanwhile — unless one of its tasks was cancelled.
Missing: requests with a cancelled task, for which the claim is false (`C25_cancelled_never_returns`). -/
theorem C25_always_returns_partial (n : Nat) (hn : 0 < n) (ev : Nat → TEv) (st : Nat → TSys)
    (h : Execution n ev st) (hf : WorkersFair n ev) (g k0 : Nat) (hr : WaiterFair g ev)
    (hw : ((st k0).grp g).phase = .waiting) :
    (∃ k, k0 ≤ k ∧ ((st k).grp g).phase = .returned) ∨ (∃ k, k0 ≤ k ∧ .cancelled ∈ ((st k).grp g).tasks) :=
  h.returns_by hr hw (h.drains hn hf g k0)

/-- C25 (partial): in particular the wait of a request none of whose tasks fails returns. -/
theorem C25_returns_without_failures_partial (n : Nat) (hn : 0 < n) (ev : Nat → TEv) (st : Nat → TSys)
    (h : Execution n ev st) (hf : WorkersFair n ev) (g k0 : Nat) (hr : WaiterFair g ev)
    (hw : ((st k0).grp g).phase = .waiting) (hok : ∀ k, ofGroup g (st k).failures = []) :
    ∃ k, k0 ≤ k ∧ ((st k).grp g).phase = .returned := by
  rcases C25_always_returns_partial n hn ev st h hf g k0 hr hw with hh | ⟨k, -, hc⟩
  · exact hh
  · have := ((h.inv k).grp g).canc hc
    rw [((h.inv k).grp g).errs] at this
    exact absurd (hok k) this

/-- A cancelled task stays cancelled, so its request stays in the wait. -/
theorem TInv.stuck {s : TSys} (h : TInv s) (g : Nat) (hp : (s.grp g).phase = .waiting)
    (hc : .cancelled ∈ (s.grp g).tasks) (e : TEv) (he : ∀ g, e ≠ .abandon g) (s' : TSys)
    (hs : s.step e = .ok s') : (s'.grp g).phase = .waiting ∧ .cancelled ∈ (s'.grp g).tasks := by
  have keep : ∀ (t : Nat) (a b : TStat), (s.grp g).tasks[t]? = some a → a ≠ .cancelled →
      .cancelled ∈ (s.grp g).tasks.set t b := by
    intro t a b ht ha
    obtain ⟨u, hu⟩ := List.getElem?_of_mem hc
    have hut : u ≠ t := by
      intro e; subst e; rw [ht] at hu; cases hu; exact ha rfl
    apply List.mem_of_getElem? (i := u)
    rw [List.getElem?_set_ne (fun e => hut e.symm)]
    exact hu
  cases e with
  | abandon g' => exact absurd rfl (he g')
  | add a =>
    cases hs
    rw [stepAdd]
    split
    · rename_i hcond
      rw [grp_set]
      split
      · rename_i hga
        rw [← hga, hp] at hcond; cases hcond.1
      · exact ⟨hp, hc⟩
    · exact ⟨hp, hc⟩
  | wait a =>
    cases hs
    rw [stepWait]
    split
    · rename_i hcond
      rw [grp_set]
      split
      · rename_i hga
        rw [← hga, hp] at hcond; cases hcond.1
      · exact ⟨hp, hc⟩
    · exact ⟨hp, hc⟩
  | ret a =>
    cases hs
    rw [stepRet]
    split
    · rename_i hcond
      rw [grp_set]
      split
      · rename_i hga
        rw [← hga] at hcond
        have h1 := hcond.2
        rw [(h.grp g).fin, List.countP_eq_length] at h1
        have := h1 _ hc
        cases this
      · exact ⟨hp, hc⟩
    · exact ⟨hp, hc⟩
  | push a =>
    have hs' : stepPush s a = .ok s' := hs
    rw [stepPush] at hs'
    cases hpu : (s.grp a).pushing with
    | none => simp only [hpu] at hs'; cases hs'; exact ⟨hp, hc⟩
    | some t =>
      simp only [hpu] at hs'
      obtain ⟨q', h1, -⟩ := h.q.push a t h.opn
      rw [h1, ok_bind] at hs'
      cases hs'
      rw [grp_set]
      split
      · rename_i e; rw [← e]; exact ⟨hp, hc⟩
      · exact ⟨hp, hc⟩
  | pop w =>
    have hs' : stepPop s w = .ok s' := hs
    rw [stepPop] at hs'
    split at hs'
    · rcases h.q.pop with ⟨-, hpop⟩ | ⟨a, rr, t, q', he, hpop, -⟩
      · rw [hpop, ok_bind] at hs'
        revert hs'
        cases s.q.closed <;> intro hs' <;> cases hs' <;> exact ⟨hp, hc⟩
      · rw [hpop, ok_bind] at hs'
        cases hs'; exact ⟨hp, hc⟩
    · cases hs'; exact ⟨hp, hc⟩
  | start w =>
    have hs' : stepStart s w = .ok s' := hs
    rw [stepStart] at hs'
    split at hs'
    · rename_i a t hw
      simp only at hs'
      split at hs'
      · split at hs'
        · rename_i hpend
          cases hs'
          show ((TSys.setGrp _ a _).grp g).phase = _ ∧ _ ∈ ((TSys.setGrp _ a _).grp g).tasks
          rw [grp_set]
          split
          · rename_i e
            subst e
            exact ⟨hp, keep t _ _ hpend (by simp)⟩
          · exact ⟨hp, hc⟩
        · cases hs'; exact ⟨hp, hc⟩
      · cases hs'
    · cases hs'; exact ⟨hp, hc⟩
  | finish w =>
    have hs' : stepFinish s w = .ok s' := hs
    rw [stepFinish] at hs'
    split at hs'
    · rename_i a t hw
      simp only at hs'
      split at hs'
      · cases hs'
        show ((TSys.setGrp _ a _).grp g).phase = _ ∧ _ ∈ ((TSys.setGrp _ a _).grp g).tasks
        rw [grp_set]
        split
        · rename_i e
          subst e
          exact ⟨hp, keep t _ _ (h.running hw) (by simp)⟩
        · exact ⟨hp, hc⟩
      · cases hs'
    · cases hs'; exact ⟨hp, hc⟩
  | fail w m =>
    have hs' : stepFail s w m = .ok s' := hs
    rw [stepFail] at hs'
    split at hs'
    · rename_i a t hw
      simp only at hs'
      split at hs'
      · cases hs'
        show ((TSys.setGrp _ a _).grp g).phase = _ ∧ _ ∈ ((TSys.setGrp _ a _).grp g).tasks
        rw [grp_set]
        split
        · rename_i e
          subst e
          refine ⟨hp, List.mem_map.mpr ⟨.cancelled, keep t _ _ (h.running hw) (by simp), rfl⟩⟩
        · exact ⟨hp, hc⟩
      · cases hs'
    · cases hs'; exact ⟨hp, hc⟩

theorem TInv.stuck_run (es : List TEv) {s : TSys} (h : TInv s) (g : Nat) (hp : (s.grp g).phase = .waiting)
    (hc : .cancelled ∈ (s.grp g).tasks) (he : ∀ g, .abandon g ∉ es) (s' : TSys) (hs : s.run es = .ok s') :
    (s'.grp g).phase = .waiting := by
  induction es generalizing s with
  | nil => cases hs; exact hp
  | cons e es ih =>
    obtain ⟨s1, h1, h2⟩ := h.step e (fun g hg => he g (by rw [hg]; exact List.mem_cons_self))
    rw [TSys.run, h1, ok_bind] at hs
    obtain ⟨a, b⟩ := h.stuck g hp hc e (fun g hg => he g (by rw [hg]; exact List.mem_cons_self)) s1 h1
    exact ih h2 a b (fun g hg => he g (List.mem_cons_of_mem _ hg)) hs

/-- One worker, a request with two tasks, the first of which fails while the second is queued. -/
def hangSchedule : List TEv :=
  [.add 0, .push 0, .add 0, .push 0, .wait 0, .pop 0, .start 0, .fail 0 "read error"]

theorem hangSchedule_run : ∃ s, (TSys.init 1).run hangSchedule = .ok s ∧ (s.grp 0).phase = .waiting ∧
    (s.grp 0).tasks = [.failed, .cancelled] := by
  refine ⟨_, rfl, ?_⟩
  decide +kernel

theorem run_append (a b : List TEv) (s : TSys) : s.run (a ++ b) = (s.run a >>= fun s' => s'.run b) := by
  induction a generalizing s with
  | nil => rfl
  | cons e a ih =>
    rw [List.cons_append, TSys.run, TSys.run]
    cases s.step e with
    | error x => rfl
    | ok s1 => rw [ok_bind, ok_bind, ih]

/-- C25 is false of the code: a failed task cancels the queued ones, and a cancelled task is skipped by the
worker without being counted (`Task::execute` returns early, `notifyCancelled` is never called), so the
request waits forever, whatever happens afterwards and whatever the other requests do. -/
theorem C25_cancelled_never_returns :
    ∃ es s, (∀ g, .abandon g ∉ es) ∧ (TSys.init 1).run es = .ok s ∧ (s.grp 0).phase = .waiting ∧
      ∀ es', (∀ g, .abandon g ∉ es') → ∃ s', (TSys.init 1).run (es ++ es') = .ok s' ∧
        (s'.grp 0).phase = .waiting := by
  obtain ⟨s, h1, h2, h3⟩ := hangSchedule_run
  have hna : ∀ g, .abandon g ∉ hangSchedule := by
    intro g hg
    simp [hangSchedule] at hg
  refine ⟨hangSchedule, s, hna, h1, h2, ?_⟩
  intro es' he'
  have I := TInv.reached hna h1
  obtain ⟨s', h4, -⟩ := I.run es' he'
  refine ⟨s', by rw [run_append, h1, ok_bind, h4], ?_⟩
  exact I.stuck_run es' 0 h2 (by rw [h3]; decide) he' s' h4

/-- C25 is false of the code in a second way: if the thread of a request throws after it has queued a task
(for instance because a later file is remote, Engine.cc:168-171), the group is destroyed and a worker then
runs a task that no longer exists. -/
theorem C25_abandoned_request_fails :
    (TSys.init 1).run [.add 0, .push 0, .abandon 0, .pop 0, .start 0] = undef := by rfl

/-- The claims hold of a real case: two requests, two workers, one failing task, both waits return. -/
example : ∃ s, (TSys.init 2).run [.add 0, .push 0, .add 0, .push 0, .add 1, .push 1, .wait 0, .wait 1,
    .pop 0, .pop 1, .start 1, .start 0, .finish 1, .pop 1, .start 1, .fail 0 "bad", .finish 1, .ret 0, .ret 1]
      = .ok s ∧ (s.grp 1).phase = .returned ∧ (s.grp 1).tasks = [.done] := by
  refine ⟨_, rfl, ?_⟩
  decide +kernel

/-- A fair infinite execution with a waiting request exists: one worker, one task, then the worker and the
waiter take turns for ever. -/
def fairEv (k : Nat) : TEv :=
  match k with
  | 0 => .add 0
  | 1 => .push 0
  | 2 => .wait 0
  | k + 3 => match k % 4 with
    | 0 => .pop 0
    | 1 => .start 0
    | 2 => .finish 0
    | _ => .ret 0

example : WorkersFair 1 fairEv ∧ WaiterFair 0 fairEv ∧ (∀ k g, fairEv k ≠ .abandon g) := by
  have key : ∀ k j, j < 4 → ∃ m, k ≤ m ∧ ∃ i, m = i + 3 ∧ i % 4 = j := by
    intro k j hj
    exact ⟨4 * k + j + 3, by omega, 4 * k + j, rfl, by omega⟩
  refine ⟨?_, ?_, ?_⟩
  · intro w hw k
    have : w = 0 := by omega
    subst this
    refine ⟨?_, ?_, ?_⟩
    · obtain ⟨m, hm, i, rfl, hi⟩ := key k 0 (by omega)
      exact ⟨_, hm, by simp only [fairEv, hi]⟩
    · obtain ⟨m, hm, i, rfl, hi⟩ := key k 1 (by omega)
      exact ⟨_, hm, by simp only [fairEv, hi]⟩
    · obtain ⟨m, hm, i, rfl, hi⟩ := key k 2 (by omega)
      exact ⟨_, hm, Or.inl (by simp only [fairEv, hi])⟩
  · intro k
    obtain ⟨m, hm, i, rfl, hi⟩ := key k 3 (by omega)
    exact ⟨_, hm, by simp only [fairEv, hi]⟩
  · intro k g e
    match k with
    | 0 => cases e
    | 1 => cases e
    | 2 => cases e
    | k + 3 =>
      rw [fairEv] at e
      split at e <;> cases e

/-- The states of an infinite schedule. -/
def statesOf (n : Nat) (ev : Nat → TEv) : Nat → TSys
  | 0 => TSys.init n
  | k + 1 => match (statesOf n ev k).step (ev k) with
    | .ok s => s
    | .error _ => statesOf n ev k

/-- Every infinite schedule without abandoned requests is an execution, so the hypotheses of the theorems above
are met by the fair schedule. -/
theorem execution_of (n : Nat) (ev : Nat → TEv) (h : ∀ k g, ev k ≠ .abandon g) : Execution n ev (statesOf n ev) := by
  have inv : ∀ k, TInv (statesOf n ev k) := by
    intro k
    induction k with
    | zero => exact TInv.init n
    | succ k ih =>
      obtain ⟨s', h1, h2⟩ := ih.step (ev k) (h k)
      rw [statesOf, h1]; exact h2
  refine ⟨rfl, ?_, h⟩
  intro k
  obtain ⟨s', h1, -⟩ := (inv k).step (ev k) (h k)
  rw [statesOf, h1]

example : ((statesOf 1 fairEv 3).grp 0).phase = .waiting ∧ (statesOf 1 fairEv 3).q.tasks 0 = [0] := by
  decide +kernel

/-! ## C26 -/

/-- What the caller of a local request is given: the results only if the report holds no error
(Engine.cc: `taskGroup.waitForTasks(); return report`, LocalGribJump: `raiseErrors`). -/
def callerOutcome (x : Grp) : Res Unit := raiseErrors x.errors

/-- C26.  When the wait has returned: if some task of the request failed the caller gets an exception, and the
report holds the message of every failure in order; if none failed there is no exception and every task of the
request was started exactly once and completed exactly once. -/
theorem C26_no_silent_failure (n : Nat) (es : List TEv) (he : ∀ g, .abandon g ∉ es) (s : TSys)
    (hs : (TSys.init n).run es = .ok s) (g : Nat) (hr : (s.grp g).phase = .returned) :
    (s.grp g).errors = ofGroup g s.failures ∧
    (ofGroup g s.failures ≠ [] → callerOutcome (s.grp g) = throwExn .seriousBug) ∧
    (ofGroup g s.failures = [] → callerOutcome (s.grp g) = .ok () ∧
      ∀ t, t < (s.grp g).tasks.length → s.started.count (g, t) = 1 ∧ s.completed.count (g, t) = 1) := by
  have h := TInv.reached he hs
  have hg := h.grp g
  refine ⟨hg.errs, ?_, ?_⟩
  · intro hne
    rw [callerOutcome, raiseErrors, hg.errs, if_pos (List.length_pos_iff.mpr hne)]
  · intro hnil
    refine ⟨by rw [callerOutcome, raiseErrors, hg.errs, hnil]; rfl, ?_⟩
    intro t ht
    have hc := h.cell g t
    rcases (h.returned hr t).1 with e | e | e
    · rw [List.getElem?_eq_none_iff] at e; omega
    · rw [e] at hc; exact hc.2.2
    · exfalso
      have h1 := hg.nfail
      rw [hg.errs, hnil] at h1
      have : 0 < (s.grp g).tasks.count .failed := List.count_pos_iff.mpr (List.mem_of_getElem? e)
      rw [h1] at this; cases this

/-- C26.  At any time, returned or not, no task was started or completed twice, and every completion is of a
started task. -/
theorem C26_at_most_once (n : Nat) (es : List TEv) (he : ∀ g, .abandon g ∉ es) (s : TSys)
    (hs : (TSys.init n).run es = .ok s) (g t : Nat) :
    s.started.count (g, t) ≤ 1 ∧ s.completed.count (g, t) ≤ s.started.count (g, t) := by
  have h := TInv.reached he hs
  have hc := h.cell g t
  revert hc
  cases (s.grp g).tasks[t]? with
  | none => intro hc; obtain ⟨-, -, h1, h2⟩ := hc; omega
  | some st =>
    cases st <;> intro hc <;> obtain ⟨-, -, h1, h2⟩ := hc <;> omega

/-- A cancelled task stays cancelled. -/
theorem TInv.cancelled_stays {s : TSys} (h : TInv s) (g t : Nat) (hc : (s.grp g).tasks[t]? = some .cancelled) (e : TEv)
    (s' : TSys) (hs : s.step e = .ok s') : (s'.grp g).tasks[t]? = some .cancelled := by
  have keep : ∀ (u : Nat) (a b : TStat), (s.grp g).tasks[u]? = some a → a ≠ .cancelled →
      ((s.grp g).tasks.set u b)[t]? = some .cancelled := by
    intro u a b hu ha
    have hut : u ≠ t := by
      intro e; subst e; rw [hu] at hc; cases hc; exact ha rfl
    rw [List.getElem?_set_ne hut]
    exact hc
  have same : ∀ (r : TSys) (a : Nat) (x : Grp), r.grp = s.grp → x.tasks = (s.grp a).tasks →
      ((r.setGrp a x).grp g).tasks[t]? = some .cancelled := by
    intro r a x hr hx
    rw [grp_set]
    split
    · rename_i e; rw [hx, ← e]; exact hc
    · rw [hr]; exact hc
  have one : ∀ (r : TSys) (a u : Nat) (b c : TStat) (x : Grp), r.grp = s.grp → (s.grp a).tasks[u]? = some b →
      b ≠ .cancelled → x.tasks = (s.grp a).tasks.set u c ∨ x.tasks = ((s.grp a).tasks.set u c).map cancelOne →
      ((r.setGrp a x).grp g).tasks[t]? = some .cancelled := by
    intro r a u b c x hr hb hne hx
    rw [grp_set]
    split
    · rename_i e
      subst e
      rcases hx with hx | hx
      · rw [hx]; exact keep u b c hb hne
      · rw [hx, List.getElem?_map, keep u b c hb hne]; rfl
    · rw [hr]; exact hc
  cases e with
  | abandon a =>
    cases hs
    rw [stepAbandon]
    split
    · exact same s a _ rfl rfl
    · exact hc
  | add a =>
    cases hs
    rw [stepAdd]
    split
    · rw [grp_set]
      split
      · rename_i e
        subst e
        have ht := (List.getElem?_eq_some_iff.mp hc).1
        exact (List.getElem?_append_left ht).trans hc
      · exact hc
    · exact hc
  | wait a =>
    cases hs
    rw [stepWait]
    split
    · exact same s a _ rfl rfl
    · exact hc
  | ret a =>
    cases hs
    rw [stepRet]
    split
    · exact same s a _ rfl rfl
    · exact hc
  | push a =>
    have hs' : stepPush s a = .ok s' := hs
    rw [stepPush] at hs'
    cases hpu : (s.grp a).pushing with
    | none => simp only [hpu] at hs'; cases hs'; exact hc
    | some u =>
      simp only [hpu] at hs'
      obtain ⟨q', h1, -⟩ := h.q.push a u h.opn
      rw [h1, ok_bind] at hs'
      cases hs'
      exact same _ a _ rfl rfl
  | pop w =>
    have hs' : stepPop s w = .ok s' := hs
    rw [stepPop] at hs'
    split at hs'
    · rcases h.q.pop with ⟨-, hpop⟩ | ⟨a, rr, t, q', he, hpop, -⟩
      · rw [hpop, ok_bind] at hs'
        revert hs'
        cases s.q.closed <;> intro hs' <;> cases hs' <;> exact hc
      · rw [hpop, ok_bind] at hs'
        cases hs'; exact hc
    · cases hs'; exact hc
  | start w =>
    have hs' : stepStart s w = .ok s' := hs
    rw [stepStart] at hs'
    split at hs'
    · rename_i a u hw
      simp only at hs'
      split at hs'
      · split at hs'
        · rename_i hpend
          cases hs'
          exact one _ a u _ _ _ rfl hpend (by simp) (.inl rfl)
        · cases hs'; exact hc
      · cases hs'
    · cases hs'; exact hc
  | finish w =>
    have hs' : stepFinish s w = .ok s' := hs
    rw [stepFinish] at hs'
    split at hs'
    · rename_i a u hw
      simp only at hs'
      split at hs'
      · cases hs'
        exact one _ a u _ _ _ rfl (h.running hw) (by simp) (.inl rfl)
      · cases hs'
    · cases hs'; exact hc
  | fail w m =>
    have hs' : stepFail s w m = .ok s' := hs
    rw [stepFail] at hs'
    split at hs'
    · rename_i a u hw
      simp only at hs'
      split at hs'
      · cases hs'
        exact one _ a u _ _ _ rfl (h.running hw) (by simp) (.inr rfl)
      · cases hs'
    · cases hs'; exact hc

/-- C26.  When a task of a request fails, the tasks of that request that have not been started by then are never
started. -/
theorem C26_not_started_after_failure (n : Nat) (es es' : List TEv) (he : ∀ g, .abandon g ∉ es)
    (he' : ∀ g, .abandon g ∉ es') (s s1 s2 : TSys) (hs : (TSys.init n).run es = .ok s) (w g u : Nat) (msg : String)
    (running : s.workers[w]? = some (.running g u)) (fails : s.step (.fail w msg) = .ok s1)
    (later : s1.run es' = .ok s2) (t : Nat) (ht : t < (s.grp g).tasks.length) (notStarted : (g, t) ∉ s.started) :
    (g, t) ∉ s2.started := by
  have h := TInv.reached he hs
  have hpend : cancelOne ((s.grp g).tasks[t]) = .cancelled := by
    have hc := h.cell g t
    rw [List.getElem?_eq_getElem ht, List.count_eq_zero.mpr notStarted] at hc
    revert hc
    cases (s.grp g).tasks[t] <;> intro hc
    · rfl
    · cases hc.2.2.1
    · cases hc.2.2.1
    · cases hc.2.2.1
    · rfl
  have hut : u ≠ t := by
    intro e
    subst e
    have h1 := h.running running
    rw [List.getElem?_eq_getElem ht] at h1
    rw [Option.some.inj h1] at hpend
    cases hpend
  obtain ⟨s1', g1, h1⟩ := h.step (.fail w msg) (fun g e => (by cases e))
  rw [fails] at g1
  cases g1
  have hc1 : (s1.grp g).tasks[t]? = some .cancelled := by
    have hs' : stepFail s w msg = .ok s1 := fails
    rw [stepFail, running] at hs'
    simp only at hs'
    split at hs'
    · cases hs'
      show ((TSys.setGrp _ g _).grp g).tasks[t]? = _
      rw [grp_set, if_pos rfl]
      show (((s.grp g).tasks.set u .failed).map cancelOne)[t]? = _
      rw [List.getElem?_map, List.getElem?_set_ne hut, List.getElem?_eq_getElem ht, Option.map_some, hpend]
    · cases hs'
  suffices H : ∀ (es' : List TEv) (s1 : TSys), TInv s1 → (s1.grp g).tasks[t]? = some .cancelled →
      (∀ g, .abandon g ∉ es') → s1.run es' = .ok s2 → (g, t) ∉ s2.started from H es' s1 h1 hc1 he' later
  intro es'
  induction es' with
  | nil =>
    intro s1 h1 hc1 _ hr
    cases hr
    have hc := h1.cell g t
    rw [hc1] at hc
    exact List.count_eq_zero.mp hc.2.2.1
  | cons e es' ih =>
    intro s1 h1 hc1 hna hr
    rw [TSys.run] at hr
    obtain ⟨s3, g3, h3⟩ := h1.step e (fun g hg => hna g (by rw [hg]; exact List.mem_cons_self))
    rw [g3, ok_bind] at hr
    exact ih s3 h3 (h1.cancelled_stays g t hc1 e s3 g3) (fun g hg => hna g (List.mem_cons_of_mem _ hg)) hr

/-- Non-vacuity: one worker, two tasks, the first fails while the second is queued. -/
example : ∃ s, (TSys.init 1).run [.add 0, .push 0, .add 0, .push 0, .wait 0, .pop 0, .start 0] = .ok s ∧
    s.workers[0]? = some (.running 0 0) ∧ 1 < (s.grp 0).tasks.length ∧ (0, 1) ∉ s.started := by
  refine ⟨_, rfl, ?_⟩
  decide +kernel

example : ∃ s, (TSys.init 1).run [.add 0, .push 0, .wait 0, .pop 0, .start 0, .fail 0 "bad grid", .ret 0] = .ok s
    ∧ (s.grp 0).phase = .returned ∧ ofGroup 0 s.failures = ["bad grid"] := by
  refine ⟨_, rfl, ?_⟩
  decide +kernel

end GJ
