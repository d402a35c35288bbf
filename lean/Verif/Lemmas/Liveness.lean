import Verif.Lemmas.Tasks

/-!
# Progress of one waiting group
-/

namespace GJ

/-- Steps left before a worker is done with a task of `g`. -/
def WPc.weight (g : Nat) : WPc → Nat
  | .idle => 0
  | .got a _ => if a = g then 2 else 0
  | .running a _ => if a = g then 1 else 0

/-- Worker steps left for the tasks of `g`. -/
def TSys.left (s : TSys) (g : Nat) : Nat :=
  3 * (s.q.tasks g).length + (s.workers.map (WPc.weight g)).sum

theorem sum_map_set {α : Type} (f : α → Nat) (l : List α) (w : Nat) (a b : α) (h : l[w]? = some a) :
    ((l.set w b).map f).sum + f a = (l.map f).sum + f b := by
  induction l generalizing w with
  | nil => cases h
  | cons x l ih =>
    cases w with
    | zero =>
      simp only [List.getElem?_cons_zero, Option.some.injEq] at h
      subst h
      simp [List.set]; omega
    | succ w =>
      simp only [List.getElem?_cons_succ] at h
      have := ih w h
      simp [List.set] at this ⊢; omega

/-- What one step means for group `g`, which is waiting. -/
structure Progress (g : Nat) (s : TSys) (e : TEv) (s' : TSys) : Prop where
  phase : (s'.grp g).phase = .waiting ∨ (s'.grp g).phase = .returned
  left : s'.left g ≤ s.left g
  queued : s.q.tasks g ≠ [] → s'.left g = s.left g → s'.q.tasks g ≠ [] ∧ s'.q.rr.idxOf g ≤ s.q.rr.idxOf g
  turn : s.q.tasks g ≠ [] → s'.left g = s.left g → ∀ w, e = .pop w → s.workers[w]? = some .idle →
    s'.q.rr.idxOf g < s.q.rr.idxOf g
  start : ∀ w a t, e = .start w → s.workers[w]? = some (.got a t) →
    (s'.workers[w]? = some .idle ∨ s'.workers[w]? = some (.running a t)) ∧ (a = g → s'.left g < s.left g)
  finish : ∀ w a t, (e = .finish w ∨ ∃ m, e = .fail w m) → s.workers[w]? = some (.running a t) →
    s'.workers[w]? = some .idle ∧ (a = g → s'.left g < s.left g)
  /-- a worker only moves by its own steps -/
  pc : ∀ w, s'.workers[w]? = s.workers[w]? ∨ (e = .pop w ∧ s.workers[w]? = some .idle) ∨
    (e = .start w ∧ ∃ a t, s.workers[w]? = some (.got a t)) ∨
    ((e = .finish w ∨ ∃ m, e = .fail w m) ∧ ∃ a t, s.workers[w]? = some (.running a t))

/-- A step of another thread that leaves `g`'s queue, place in the round and the workers alone. -/
theorem Progress.quiet {g : Nat} {s s' : TSys} {e : TEv} (hw : s'.workers = s.workers)
    (hq : s'.q.tasks g = s.q.tasks g) (hr : s.q.tasks g ≠ [] → s'.q.rr.idxOf g ≤ s.q.rr.idxOf g)
    (hp : (s'.grp g).phase = .waiting ∨ (s'.grp g).phase = .returned)
    (h1 : ∀ w, e ≠ .pop w) (h2 : ∀ w, e ≠ .start w) (h3 : ∀ w, ¬ (e = .finish w ∨ ∃ m, e = .fail w m)) :
    Progress g s e s' where
  phase := hp
  left := by rw [TSys.left, TSys.left, hw, hq]; exact Nat.le_refl _
  queued := fun h _ => ⟨by rw [hq]; exact h, hr h⟩
  turn := fun _ _ w e => absurd e (h1 w)
  start := fun w _ _ e => absurd e (h2 w)
  finish := fun w _ _ e => absurd e (h3 w)
  pc := fun w => Or.inl (by rw [hw])

/-- A worker step that finds nothing to do. -/
theorem Progress.same {g : Nat} {s : TSys} {e : TEv} (hp : (s.grp g).phase = .waiting)
    (h1 : ∀ w, e = .pop w → s.workers[w]? = some .idle → s.q.tasks g = [])
    (h2 : ∀ w a t, e = .start w → s.workers[w]? ≠ some (.got a t))
    (h3 : ∀ w a t, (e = .finish w ∨ ∃ m, e = .fail w m) → s.workers[w]? ≠ some (.running a t)) :
    Progress g s e s where
  phase := Or.inl hp
  left := Nat.le_refl _
  queued := fun h _ => ⟨h, Nat.le_refl _⟩
  turn := fun h _ w e hw => absurd (h1 w e hw) h
  start := fun w a t e hw => absurd hw (h2 w a t e)
  finish := fun w a t e hw => absurd hw (h3 w a t e)
  pc := fun _ => Or.inl rfl

theorem TInv.progress_pop {s : TSys} (h : TInv s) (g w : Nat) (hp : (s.grp g).phase = .waiting) (s' : TSys)
    (hs : stepPop s w = .ok s') : Progress g s (.pop w) s' := by
  rw [stepPop] at hs
  split at hs
  · rename_i hw
    rcases h.q.pop with ⟨he, hpop⟩ | ⟨a, rr, t, q', he, hpop, h3, h4, h5, h6, h7⟩
    · rw [hpop, ok_bind] at hs
      have : s' = s := by
        revert hs
        cases s.q.closed <;> intro hs <;> cases hs <;> rfl
      subst this
      refine Progress.same hp ?_ (fun w a t e => by cases e) (fun w a t e => by rcases e with e | ⟨m, e⟩ <;> cases e)
      intro w' _ _
      have hm := h.q.mem_rr g
      rw [he] at hm
      apply Classical.byContradiction
      intro hne
      have := hm.mpr hne
      cases this
    · rw [hpop, ok_bind] at hs
      cases hs
      have hsum := sum_map_set (WPc.weight g) s.workers w .idle (.got a t) hw
      have hidx : a ≠ g → s.q.tasks g ≠ [] → q'.rr.idxOf g < s.q.rr.idxOf g := by
        intro hag hne
        have hm := (h.q.mem_rr g).mpr hne
        rw [he, List.mem_cons] at hm
        have hm' : g ∈ rr := by
          rcases hm with hm | hm
          · exact absurd hm.symm hag
          · exact hm
        have e1 : s.q.rr.idxOf g = rr.idxOf g + 1 := by
          rw [he, List.idxOf_cons]
          have : (a == g) = false := by simp [hag]
          rw [this]; rfl
        have e2 : q'.rr.idxOf g = rr.idxOf g := by
          rw [h7]
          split
          · rfl
          · rw [List.idxOf_append, if_pos hm']
        rw [e1, e2]; exact Nat.lt_succ_self _
      have hleft : TSys.left (TSys.setWorker { s with q := q' } w (.got a t)) g =
          3 * (q'.tasks g).length + ((s.workers.set w (.got a t)).map (WPc.weight g)).sum := rfl
      have hlt : a = g → TSys.left (TSys.setWorker { s with q := q' } w (.got a t)) g < s.left g := by
        intro hag
        subst hag
        rw [hleft, TSys.left, h5]
        simp only [WPc.weight, if_true, List.length_cons] at hsum ⊢
        omega
      have heq : a ≠ g → TSys.left (TSys.setWorker { s with q := q' } w (.got a t)) g = s.left g := by
        intro hag
        rw [hleft, TSys.left, h6 g (fun e => hag e.symm)]
        simp only [WPc.weight, if_neg hag] at hsum ⊢
        omega
      refine ⟨Or.inl hp, ?_, ?_, ?_, (fun w a t e => by cases e), (fun w a t e => by rcases e with e | ⟨m, e⟩ <;> cases e), ?_⟩
      · by_cases hag : a = g
        · exact Nat.le_of_lt (hlt hag)
        · exact Nat.le_of_eq (heq hag)
      · intro hne hl
        have hag : a ≠ g := fun e => by have := hlt e; omega
        refine ⟨?_, Nat.le_of_lt (hidx hag hne)⟩
        show q'.tasks g ≠ []
        rw [h6 g (fun e => hag e.symm)]; exact hne
      · intro hne hl w' _ _
        have hag : a ≠ g := fun e => by have := hlt e; omega
        exact hidx hag hne
      · intro w'
        by_cases hww : w' = w
        · subst hww; exact Or.inr (Or.inl ⟨rfl, hw⟩)
        · left
          show (s.workers.set w _)[w']? = _
          rw [List.getElem?_set_ne (fun e => hww e.symm)]
  · rename_i hw
    cases hs
    exact Progress.same hp (fun w' e hw' => by cases e; exact absurd hw' hw) (fun w a t e => by cases e)
      (fun w a t e => by rcases e with e | ⟨m, e⟩ <;> cases e)

/-- A worker puts down or starts a task. -/
theorem Progress.move {g : Nat} {s s' : TSys} {e : TEv} {w : Nat} {p p' : WPc} (hw : s.workers[w]? = some p)
    (hw' : s'.workers = s.workers.set w p') (hq : s'.q = s.q) (hp : (s'.grp g).phase = .waiting)
    (hmv : (∃ a t, p = .got a t ∧ e = .start w ∧ (p' = .idle ∨ p' = .running a t)) ∨
      (∃ a t, p = .running a t ∧ (e = .finish w ∨ ∃ m, e = .fail w m) ∧ p' = .idle)) : Progress g s e s' := by
  have hsum := sum_map_set (WPc.weight g) s.workers w p p' hw
  have hwl : w < s.workers.length := (List.getElem?_eq_some_iff.mp hw).1
  have hself : s'.workers[w]? = some p' := by rw [hw', List.getElem?_set_self hwl]
  have hleft : s'.left g + p.weight g = s.left g + p'.weight g := by
    rw [TSys.left, TSys.left, hq, hw']; omega
  have hpop : ∀ w', e ≠ .pop w' := by
    intro w' he
    rcases hmv with ⟨a, t, -, e1, -⟩ | ⟨a, t, -, e1, -⟩
    · rw [he] at e1; cases e1
    · rw [he] at e1; rcases e1 with e1 | ⟨m, e1⟩ <;> cases e1
  refine ⟨Or.inl hp, ?_, fun hne _ => ⟨by rw [hq]; exact hne, by rw [hq]; exact Nat.le_refl _⟩,
    fun _ _ w' he => absurd he (hpop w'), ?_, ?_, ?_⟩
  · rcases hmv with ⟨a, t, rfl, -, rfl | rfl⟩ | ⟨a, t, rfl, -, rfl⟩ <;> simp only [WPc.weight] at hleft <;>
      by_cases hag : a = g <;> simp only [hag, if_true, if_false] at hleft <;> omega
  · intro w' a t he hgot
    rcases hmv with ⟨a', t', rfl, e1, e2⟩ | ⟨a', t', rfl, e1, e2⟩
    · rw [he] at e1
      cases e1
      rw [hw] at hgot
      cases hgot
      rw [hself]
      refine ⟨?_, ?_⟩
      · rcases e2 with rfl | rfl
        · exact Or.inl rfl
        · exact Or.inr rfl
      · intro hag
        rcases e2 with rfl | rfl <;> simp only [WPc.weight, hag, if_true] at hleft <;> omega
    · rw [he] at e1; rcases e1 with e1 | ⟨m, e1⟩ <;> cases e1
  · intro w' a t he hrun
    rcases hmv with ⟨a', t', rfl, e1, e2⟩ | ⟨a', t', rfl, e1, e2⟩
    · rw [e1] at he; rcases he with he | ⟨m, he⟩ <;> cases he
    · have hww : w' = w := by
        rcases he with rfl | ⟨m, rfl⟩ <;> rcases e1 with e1 | ⟨m', e1⟩ <;> cases e1 <;> rfl
      subst hww
      rw [hw] at hrun
      cases hrun
      rw [hself, e2]
      refine ⟨rfl, ?_⟩
      intro hag
      subst e2
      simp only [WPc.weight, hag, if_true] at hleft
      omega
  · intro w'
    by_cases hww : w' = w
    · subst hww
      rcases hmv with ⟨a', t', rfl, e1, e2⟩ | ⟨a', t', rfl, e1, e2⟩
      · exact Or.inr (Or.inr (Or.inl ⟨e1, a', t', hw⟩))
      · exact Or.inr (Or.inr (Or.inr ⟨e1, a', t', hw⟩))
    · left
      rw [hw', List.getElem?_set_ne (fun e => hww e.symm)]

/-- Every step but `abandon` is progress, or at least no setback, for a waiting group. -/
theorem TInv.progress {s : TSys} (h : TInv s) (g : Nat) (hp : (s.grp g).phase = .waiting) (e : TEv)
    (he : ∀ g, e ≠ .abandon g) (s' : TSys) (hs : s.step e = .ok s') : Progress g s e s' := by
  have nf : ∀ {e : TEv}, (∀ w, e ≠ .finish w) → (∀ w m, e ≠ .fail w m) →
      ∀ w, ¬ (e = .finish w ∨ ∃ m, e = .fail w m) := by
    intro e h1 h2 w hh
    rcases hh with hh | ⟨m, hh⟩
    · exact h1 w hh
    · exact h2 w m hh
  cases e with
  | abandon g' => exact absurd rfl (he g')
  | add a =>
    cases hs
    have hph : ((stepAdd s a).grp g).phase = .waiting := by
      rw [stepAdd]
      split
      · rename_i hc
        rw [grp_set]
        split
        · rename_i hga
          rw [← hga, hp] at hc; cases hc.1
        · exact hp
      · exact hp
    refine Progress.quiet ?_ ?_ ?_ (Or.inl hph) (fun w e => by cases e) (fun w e => by cases e)
      (nf (fun w e => by cases e) (fun w m e => by cases e))
    · rw [stepAdd]; split <;> rfl
    · rw [stepAdd]; split <;> rfl
    · intro _; rw [stepAdd]; split <;> exact Nat.le_refl _
  | wait a =>
    cases hs
    have hph : ((stepWait s a).grp g).phase = .waiting := by
      rw [stepWait]
      split
      · rename_i hc
        rw [grp_set]
        split
        · rename_i hga
          rw [← hga, hp] at hc; cases hc.1
        · exact hp
      · exact hp
    refine Progress.quiet ?_ ?_ ?_ (Or.inl hph) (fun w e => by cases e) (fun w e => by cases e)
      (nf (fun w e => by cases e) (fun w m e => by cases e))
    · rw [stepWait]; split <;> rfl
    · rw [stepWait]; split <;> rfl
    · intro _; rw [stepWait]; split <;> exact Nat.le_refl _
  | ret a =>
    cases hs
    have hph : ((stepRet s a).grp g).phase = .waiting ∨ ((stepRet s a).grp g).phase = .returned := by
      rw [stepRet]
      split
      · rw [grp_set]
        split
        · exact Or.inr rfl
        · exact Or.inl hp
      · exact Or.inl hp
    refine Progress.quiet ?_ ?_ ?_ hph (fun w e => by cases e) (fun w e => by cases e)
      (nf (fun w e => by cases e) (fun w m e => by cases e))
    · rw [stepRet]; split <;> rfl
    · rw [stepRet]; split <;> rfl
    · intro _; rw [stepRet]; split <;> exact Nat.le_refl _
  | push a =>
    have hs' : stepPush s a = .ok s' := hs
    rw [stepPush] at hs'
    cases hpu : (s.grp a).pushing with
    | none =>
      simp only [hpu] at hs'
      cases hs'
      exact Progress.same hp (fun w e => by cases e) (fun w a t e => by cases e)
        (fun w a t e => by rcases e with e | ⟨m, e⟩ <;> cases e)
    | some t =>
      simp only [hpu] at hs'
      obtain ⟨q', h1, h2, h3, h4, h5⟩ := h.q.push a t h.opn
      rw [h1, ok_bind] at hs'
      cases hs'
      have hag : ¬ a = g := by
        intro e
        subst e
        have := (h.grp a).push (by rw [hpu]; simp)
        rw [hp] at this; cases this
      refine Progress.quiet rfl ?_ ?_ (Or.inl ?_) (fun w e => by cases e) (fun w e => by cases e)
        (nf (fun w e => by cases e) (fun w m e => by cases e))
      · show q'.tasks g = _
        rw [h4, if_neg hag, List.append_nil]
      · intro hne
        have hm := (h.q.mem_rr g).mpr hne
        show q'.rr.idxOf g ≤ _
        rw [h5]
        split
        · exact Nat.le_refl _
        · rw [List.idxOf_append, if_pos hm]; exact Nat.le_refl _
      · rw [grp_set, if_neg (fun e => hag e.symm)]
        exact hp
  | pop w => exact h.progress_pop g w hp s' hs
  | start w =>
    have hs' : stepStart s w = .ok s' := hs
    rw [stepStart] at hs'
    split at hs'
    · rename_i a t hw
      simp only at hs'
      split at hs'
      · split at hs'
        · cases hs'
          refine Progress.move hw rfl rfl ?_ (Or.inl ⟨a, t, rfl, rfl, Or.inr rfl⟩)
          show ((TSys.setGrp _ a _).grp g).phase = _
          rw [grp_set]
          split
          · rename_i e; rw [← e]; exact hp
          · exact hp
        · cases hs'
          exact Progress.move hw rfl rfl hp (Or.inl ⟨a, t, rfl, rfl, Or.inl rfl⟩)
      · cases hs'
    · rename_i hw
      cases hs'
      exact Progress.same hp (fun w e => by cases e) (fun w' a t e => by cases e; exact hw a t)
        (fun w a t e => by rcases e with e | ⟨m, e⟩ <;> cases e)
  | finish w =>
    have hs' : stepFinish s w = .ok s' := hs
    rw [stepFinish] at hs'
    split at hs'
    · rename_i a t hw
      simp only at hs'
      split at hs'
      · cases hs'
        refine Progress.move hw rfl rfl ?_ (Or.inr ⟨a, t, rfl, Or.inl rfl, rfl⟩)
        show ((TSys.setGrp _ a _).grp g).phase = _
        rw [grp_set]
        split
        · rename_i e; rw [← e]; exact hp
        · exact hp
      · cases hs'
    · rename_i hw
      cases hs'
      exact Progress.same hp (fun w e => by cases e) (fun w' a t e => by cases e)
        (fun w' a t e => by
          rcases e with e | ⟨m, e⟩
          · cases e; exact hw a t
          · cases e)
  | fail w m =>
    have hs' : stepFail s w m = .ok s' := hs
    rw [stepFail] at hs'
    split at hs'
    · rename_i a t hw
      simp only at hs'
      split at hs'
      · cases hs'
        refine Progress.move hw rfl rfl ?_ (Or.inr ⟨a, t, rfl, Or.inr ⟨m, rfl⟩, rfl⟩)
        show ((TSys.setGrp _ a _).grp g).phase = _
        rw [grp_set]
        split
        · rename_i e; rw [← e]; exact hp
        · exact hp
      · cases hs'
    · rename_i hw
      cases hs'
      exact Progress.same hp (fun w e => by cases e) (fun w' a t e => by cases e)
        (fun w' a t e => by
          rcases e with e | ⟨m, e⟩
          · cases e
          · cases e; exact hw a t)

/-- A sequence of naturals has a smallest member from any point on. -/
theorem exists_min (f : Nat → Nat) (k0 : Nat) : ∃ k, k0 ≤ k ∧ ∀ m, k0 ≤ m → f k ≤ f m := by
  have key : ∀ (n k : Nat), k0 ≤ k → f k = n → ∃ k, k0 ≤ k ∧ ∀ m, k0 ≤ m → f k ≤ f m := by
    intro n
    induction n using Nat.strongRecOn with
    | _ n ih =>
      intro k hk hn
      by_cases hmin : ∀ m, k0 ≤ m → f k ≤ f m
      · exact ⟨k, hk, hmin⟩
      · obtain ⟨m, hm⟩ := Classical.not_forall.mp hmin
        obtain ⟨hm0, hm1⟩ := Classical.not_imp.mp hm
        exact ih (f m) (by omega) m hm0 rfl
  exact key _ k0 (Nat.le_refl _) rfl

end GJ
