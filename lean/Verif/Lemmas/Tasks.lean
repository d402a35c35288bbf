import Verif.Model.TaskGroup
import Verif.Props.C23

/-!
# The invariant of task groups and workers
-/

namespace GJ

open Spec

def TStat.isFin : TStat → Bool
  | .done => true
  | .failed => true
  | _ => false

/-- Where task `t` of group `g` waits: about to be submitted, queued, or taken by a worker that has not
started it. -/
def TSys.loc (s : TSys) (g t : Nat) : Nat :=
  (if (s.grp g).pushing = some t then 1 else 0) + (s.q.tasks g).count t + s.workers.count (.got g t)

/-- What each status means: number of places where the task waits, of workers running it, of starts, of
completions. -/
def Cell : Option TStat → Nat → Nat → Nat → Nat → Prop
  | none, l, r, a, b => l = 0 ∧ r = 0 ∧ a = 0 ∧ b = 0
  | some .pending, l, r, a, b => l = 1 ∧ r = 0 ∧ a = 0 ∧ b = 0
  | some .cancelled, l, r, a, b => l ≤ 1 ∧ r = 0 ∧ a = 0 ∧ b = 0
  | some .executing, l, r, a, b => l = 0 ∧ r = 1 ∧ a = 1 ∧ b = 0
  | some .done, l, r, a, b => l = 0 ∧ r = 0 ∧ a = 1 ∧ b = 1
  | some .failed, l, r, a, b => l = 0 ∧ r = 0 ∧ a = 1 ∧ b = 0

structure GInv (x : Grp) (fs : List String) : Prop where
  fin : x.nComplete = x.tasks.countP TStat.isFin
  nfail : x.tasks.count .failed = x.errors.length
  errs : x.errors = fs
  canc : .cancelled ∈ x.tasks → x.errors ≠ []
  ret : x.phase = .returned → x.nComplete = x.tasks.length
  gone : x.phase = .gone → x.tasks = []
  push : x.pushing ≠ none → x.phase = .enqueuing

structure TInv (s : TSys) : Prop where
  q : s.q.Inv
  opn : s.q.closed = false
  cell : ∀ g t, Cell ((s.grp g).tasks[t]?) (s.loc g t) (s.workers.count (.running g t))
    (s.started.count (g, t)) (s.completed.count (g, t))
  grp : ∀ g, GInv (s.grp g) (ofGroup g s.failures)

theorem count_set_add {α : Type} [DecidableEq α] (l : List α) (w : Nat) (a b x : α) (h : l[w]? = some a) :
    (l.set w b).count x + (if a = x then 1 else 0) = l.count x + (if b = x then 1 else 0) := by
  obtain ⟨hw, ha⟩ := List.getElem?_eq_some_iff.mp h
  rw [List.count_set hw, ha]
  have : a = x → 0 < l.count x := by
    intro e
    rw [List.count_pos_iff, ← e, ← ha]
    exact List.getElem_mem hw
  by_cases e1 : a = x <;> by_cases e2 : b = x <;> simp [e1, e2] <;> have := this <;> simp [e1] at this <;>
    (try subst e1) <;> (try simp_all) <;> omega

theorem countP_set_add {α : Type} (p : α → Bool) (l : List α) (w : Nat) (a b : α) (h : l[w]? = some a) :
    (l.set w b).countP p + (if p a then 1 else 0) = l.countP p + (if p b then 1 else 0) := by
  obtain ⟨hw, ha⟩ := List.getElem?_eq_some_iff.mp h
  rw [List.countP_set hw, ha]
  have : p a = true → 0 < l.countP p := by
    intro e
    rw [List.countP_pos_iff]
    exact ⟨a, by rw [← ha]; exact List.getElem_mem hw, e⟩
  by_cases e1 : p a = true
  · have := this e1
    simp only [e1, if_true]; omega
  · simp only [e1]; simp

theorem TInv.init (n : Nat) : TInv (TSys.init n) where
  q := WQ.Inv.empty
  opn := rfl
  cell := by
    intro g t
    have h1 : (List.replicate n WPc.idle).count (.got g t) = 0 := by
      rw [List.count_eq_zero]; intro h; rw [List.mem_replicate] at h; cases h.2
    have h2 : (List.replicate n WPc.idle).count (.running g t) = 0 := by
      rw [List.count_eq_zero]; intro h; rw [List.mem_replicate] at h; cases h.2
    show Cell none _ _ _ _
    refine ⟨?_, h2, rfl, rfl⟩
    rw [TSys.loc]
    show 0 + 0 + (List.replicate n WPc.idle).count (.got g t) = 0
    rw [h1]
  grp := by
    intro g
    exact ⟨rfl, rfl, rfl, (fun h => by cases h), (fun h => by cases h), (fun h => by cases h), fun h => absurd rfl h⟩

theorem grp_set (s : TSys) (g h : Nat) (x : Grp) : (s.setGrp g x).grp h = if h = g then x else s.grp h := rfl

/-- Changing only the phase. -/
theorem TInv.setPhase {s : TSys} (h : TInv s) (g : Nat) (p : Phase)
    (hr : p = .returned → (s.grp g).nComplete = (s.grp g).tasks.length) (hg : p = .gone → (s.grp g).tasks = [])
    (hp : (s.grp g).pushing = none) : TInv (s.setGrp g { s.grp g with phase := p }) where
  q := h.q
  opn := h.opn
  cell := by
    intro g' t
    have := h.cell g' t
    rw [TSys.loc] at this ⊢
    rw [grp_set]
    by_cases e : g' = g
    · subst e; rw [if_pos rfl]; exact this
    · rw [if_neg e]; exact this
  grp := by
    intro g'
    rw [grp_set]
    have := h.grp g'
    by_cases e : g' = g
    · subst e
      rw [if_pos rfl]
      exact ⟨this.fin, this.nfail, this.errs, this.canc, hr, hg, fun hh => absurd hp hh⟩
    · rw [if_neg e]; exact this

theorem TInv.add {s : TSys} (h : TInv s) (g : Nat) : TInv (stepAdd s g) := by
  rw [stepAdd]
  split
  · rename_i hc
    refine ⟨h.q, h.opn, ?_, ?_⟩
    · intro g' t
      have hcell := h.cell g' t
      rw [TSys.loc] at hcell ⊢
      rw [grp_set]
      by_cases e : g' = g
      · subst e
        rw [if_pos rfl]
        rw [hc.2] at hcell
        simp only
        by_cases ht : t = (s.grp g').tasks.length
        · subst ht
          rw [List.getElem?_eq_none (Nat.le_refl _)] at hcell
          obtain ⟨h1, h2, h3, h4⟩ := hcell
          rw [List.getElem?_concat_length]
          simp only [reduceCtorEq, if_false] at h1
          refine ⟨?_, h2, h3, h4⟩
          rw [if_pos rfl]
          show 1 + (s.q.tasks g').count _ + s.workers.count _ = 1
          omega
        · have h1 : ((s.grp g').tasks ++ [TStat.pending])[t]? = (s.grp g').tasks[t]? := by
            by_cases hlt : t < (s.grp g').tasks.length
            · rw [List.getElem?_append_left hlt]
            · rw [List.getElem?_eq_none (by simp; omega), List.getElem?_eq_none (by omega)]
          rw [h1, if_neg (by intro e; cases e; exact ht rfl)]
          rw [if_neg (by simp)] at hcell
          exact hcell
      · rw [if_neg e]; exact hcell
    · intro g'
      rw [grp_set]
      have hg := h.grp g'
      by_cases e : g' = g
      · subst e
        rw [if_pos rfl]
        refine ⟨?_, ?_, hg.errs, ?_, ?_, ?_, fun _ => hc.1⟩
        · show (s.grp g').nComplete = ((s.grp g').tasks ++ [TStat.pending]).countP _
          rw [List.countP_append, hg.fin]; rfl
        · show ((s.grp g').tasks ++ [TStat.pending]).count _ = _
          rw [List.count_append, hg.nfail]; rfl
        · intro hm
          apply hg.canc
          have hm' : TStat.cancelled ∈ (s.grp g').tasks ++ [TStat.pending] := hm
          rw [List.mem_append] at hm'
          rcases hm' with hm' | hm'
          · exact hm'
          · simp at hm'
        · intro hp
          have : (s.grp g').phase = .returned := hp
          rw [hc.1] at this; cases this
        · intro hp
          have : (s.grp g').phase = .gone := hp
          rw [hc.1] at this; cases this
      · rw [if_neg e]; exact hg
  · exact h

theorem TInv.push {s : TSys} (h : TInv s) (g : Nat) : ∃ s', stepPush s g = .ok s' ∧ TInv s' := by
  rw [stepPush]
  cases hp : (s.grp g).pushing with
  | none => exact ⟨s, rfl, h⟩
  | some t =>
    obtain ⟨q', h1, h2, h3, h4, -⟩ := h.q.push g t h.opn
    simp only
    rw [h1, ok_bind]
    refine ⟨_, rfl, h2, h3, ?_, ?_⟩
    · intro g' u
      have hcell := h.cell g' u
      rw [TSys.loc] at hcell ⊢
      rw [grp_set]
      by_cases e : g' = g
      · subst e
        rw [if_pos rfl]
        rw [hp] at hcell
        simp only
        have : (q'.tasks g').count u = (s.q.tasks g').count u + (if t = u then 1 else 0) := by
          rw [h4, if_pos rfl, List.count_append]
          by_cases htu : t = u
          · subst htu; simp
          · simp [htu]
        rw [if_neg (by simp)]
        show Cell _ (0 + (q'.tasks g').count u + s.workers.count _) _ _ _
        rw [this]
        have e2 : 0 + ((s.q.tasks g').count u + (if t = u then 1 else 0)) + s.workers.count (WPc.got g' u)
            = (if some t = some u then 1 else 0) + (s.q.tasks g').count u + s.workers.count (WPc.got g' u) := by
          by_cases htu : t = u
          · subst htu; simp; omega
          · simp [htu]
        rw [e2]
        exact hcell
      · rw [if_neg e]
        have hq : q'.tasks g' = s.q.tasks g' := by
          rw [h4, if_neg (fun e' => e e'.symm), List.append_nil]
        show Cell _ ((if (s.grp g').pushing = some u then 1 else 0) + (q'.tasks g').count u + _) _ _ _
        rw [hq]
        exact hcell
    · intro g'
      rw [grp_set]
      have hg := h.grp g'
      by_cases e : g' = g
      · subst e
        rw [if_pos rfl]
        exact ⟨hg.fin, hg.nfail, hg.errs, hg.canc, hg.ret, hg.gone, fun hh => absurd rfl hh⟩
      · rw [if_neg e]; exact hg

theorem TInv.pop {s : TSys} (h : TInv s) (w : Nat) : ∃ s', stepPop s w = .ok s' ∧ TInv s' := by
  rw [stepPop]
  split
  · rename_i hw
    rcases h.q.pop with ⟨-, hp⟩ | ⟨g, rr, t, q', -, hp, h3, h4, h5, h6, -⟩
    · rw [hp, ok_bind]
      cases s.q.closed
      · exact ⟨_, rfl, h⟩
      · exact ⟨_, rfl, h⟩
    · rw [hp, ok_bind]
      refine ⟨_, rfl, h3, by rw [← h.opn, ← h4]; rfl, ?_, h.grp⟩
      intro g' u
      have hcell := h.cell g' u
      rw [TSys.loc] at hcell ⊢
      show Cell _ ((if (s.grp g').pushing = some u then 1 else 0) + (q'.tasks g').count u
        + (s.workers.set w (.got g t)).count (.got g' u)) ((s.workers.set w (.got g t)).count (.running g' u)) _ _
      have hr := count_set_add s.workers w .idle (.got g t) (.running g' u) hw
      have hg := count_set_add s.workers w .idle (.got g t) (.got g' u) hw
      simp only [reduceCtorEq, if_false, Nat.add_zero] at hr hg
      rw [hr]
      have e : (q'.tasks g').count u + (s.workers.set w (.got g t)).count (.got g' u)
          = (s.q.tasks g').count u + s.workers.count (.got g' u) := by
        rw [hg]
        by_cases hgg : g' = g
        · subst hgg
          rw [h5, List.count_cons]
          by_cases htu : t = u
          · subst htu; simp; omega
          · simp [htu]
        · rw [h6 g' hgg, if_neg (by intro e; cases e; exact hgg rfl)]
          rfl
      rw [Nat.add_assoc, e, ← Nat.add_assoc]
      exact hcell
  · exact ⟨s, rfl, h⟩

/-- A group with an unfinished task exists. -/
theorem TInv.alive {s : TSys} (h : TInv s) {g t : Nat} {st : TStat} (ht : (s.grp g).tasks[t]? = some st)
    (hf : st.isFin = false) : (s.grp g).alive = true := by
  have hg := h.grp g
  rw [Grp.alive]
  cases hp : (s.grp g).phase with
  | enqueuing => rfl
  | waiting => rfl
  | returned =>
    have h1 := hg.ret hp
    rw [hg.fin, List.countP_eq_length] at h1
    have := h1 st (List.mem_of_getElem? ht)
    rw [hf] at this; cases this
  | gone =>
    rw [hg.gone hp] at ht; cases ht

/-- The status of a task a worker has taken. -/
theorem TInv.got {s : TSys} (h : TInv s) {w g t : Nat} (hw : s.workers[w]? = some (.got g t)) :
    (s.grp g).tasks[t]? = some .pending ∨ (s.grp g).tasks[t]? = some .cancelled := by
  have hc := h.cell g t
  have hpos : 0 < s.workers.count (.got g t) := List.count_pos_iff.mpr (List.mem_of_getElem? hw)
  have hl : 0 < s.loc g t := by rw [TSys.loc]; omega
  revert hc
  cases (s.grp g).tasks[t]? with
  | none => intro hc; have := hc.1; omega
  | some st =>
    cases st <;> intro hc
    · exact Or.inl rfl
    · have := hc.1; omega
    · have := hc.1; omega
    · have := hc.1; omega
    · exact Or.inr rfl

theorem TInv.running {s : TSys} (h : TInv s) {w g t : Nat} (hw : s.workers[w]? = some (.running g t)) :
    (s.grp g).tasks[t]? = some .executing := by
  have hc := h.cell g t
  have hpos : 0 < s.workers.count (.running g t) := List.count_pos_iff.mpr (List.mem_of_getElem? hw)
  revert hc
  cases (s.grp g).tasks[t]? with
  | none => intro hc; have := hc.2.1; omega
  | some st =>
    cases st <;> intro hc
    · have := hc.2.1; omega
    · rfl
    · have := hc.2.1; omega
    · have := hc.2.1; omega
    · have := hc.2.1; omega

theorem count_snoc_pair (l : List (Nat × Nat)) (g t g' u : Nat) :
    (l ++ [(g, t)]).count (g', u) = l.count (g', u) + (if g' = g ∧ u = t then 1 else 0) := by
  rw [List.count_append]
  by_cases h : g' = g ∧ u = t
  · obtain ⟨rfl, rfl⟩ := h; simp
  · rw [if_neg h]
    have : ¬ (g, t) = (g', u) := by
      intro e; cases e; exact h ⟨rfl, rfl⟩
    simp [this]

theorem getElem?_set' {α : Type} (l : List α) (t u : Nat) (a b : α) (h : l[t]? = some a) :
    (l.set t b)[u]? = if u = t then some b else l[u]? := by
  obtain ⟨ht, -⟩ := List.getElem?_eq_some_iff.mp h
  by_cases e : u = t
  · subst e; rw [if_pos rfl, List.getElem?_set_self ht]
  · rw [if_neg e, List.getElem?_set_ne (fun e' => e e'.symm)]

theorem TInv.start {s : TSys} (h : TInv s) (w : Nat) : ∃ s', stepStart s w = .ok s' ∧ TInv s' := by
  rw [stepStart]
  split
  · rename_i g t hw
    have hst := h.got hw
    have hal : (s.grp g).alive = true := by
      rcases hst with e | e
      · exact h.alive e rfl
      · exact h.alive e rfl
    simp only
    rw [if_pos hal]
    rcases hst with e | e
    · rw [if_pos e]
      refine ⟨_, rfl, h.q, h.opn, ?_, ?_⟩
      · intro g' u
        have hcell := h.cell g' u
        rw [TSys.loc] at hcell ⊢
        show Cell (((s.setGrp g { s.grp g with tasks := (s.grp g).tasks.set t .executing }).grp g').tasks[u]?)
          ((if ((s.setGrp g { s.grp g with tasks := (s.grp g).tasks.set t .executing }).grp g').pushing = some u
              then 1 else 0) + (s.q.tasks g').count u
            + (s.workers.set w (.running g t)).count (.got g' u))
          ((s.workers.set w (.running g t)).count (.running g' u))
          ((s.started ++ [(g, t)]).count (g', u)) _
        have hr := count_set_add s.workers w (.got g t) (.running g t) (.running g' u) hw
        have hg := count_set_add s.workers w (.got g t) (.running g t) (.got g' u) hw
        simp only [reduceCtorEq, if_false, Nat.add_zero] at hr hg
        rw [count_snoc_pair, hr, grp_set]
        by_cases hgu : g' = g ∧ u = t
        · obtain ⟨rfl, rfl⟩ := hgu
          rw [e] at hcell
          obtain ⟨c1, c2, c3, c4⟩ := hcell
          simp only [if_true] at hg
          rw [if_pos rfl]
          simp only [and_self, if_true]
          rw [getElem?_set' _ _ _ _ _ e, if_pos rfl]
          exact ⟨by omega, by omega, by omega, c4⟩
        · have hne1 : ¬ WPc.got g t = .got g' u := by
            intro e'; cases e'; exact hgu ⟨rfl, rfl⟩
          have hne2 : ¬ WPc.running g t = .running g' u := by
            intro e'; cases e'; exact hgu ⟨rfl, rfl⟩
          rw [if_neg hne1, Nat.add_zero] at hg
          rw [if_neg hgu, if_neg hne2, hg]
          by_cases hgg : g' = g
          · subst hgg
            rw [if_pos rfl]
            simp only
            rw [getElem?_set' _ _ _ _ _ e, if_neg (fun e' => hgu ⟨rfl, e'⟩)]
            exact hcell
          · rw [if_neg hgg]
            exact hcell
      · intro g'
        show GInv ((s.setGrp g { s.grp g with tasks := (s.grp g).tasks.set t .executing }).grp g') _
        rw [grp_set]
        have hg := h.grp g'
        by_cases hgg : g' = g
        · subst hgg
          rw [if_pos rfl]
          have c1 := countP_set_add TStat.isFin (s.grp g').tasks t .pending .executing e
          have c2 := count_set_add (s.grp g').tasks t .pending .executing .failed e
          simp only [reduceCtorEq, if_false, Nat.add_zero] at c2
          simp only [TStat.isFin, Bool.false_eq_true, if_false, Nat.add_zero] at c1
          refine ⟨?_, ?_, hg.errs, ?_, ?_, ?_, hg.push⟩
          · show _ = ((s.grp g').tasks.set t .executing).countP TStat.isFin
            rw [show ((s.grp g').tasks.set t .executing).countP TStat.isFin = _ from c1]
            exact hg.fin
          · show ((s.grp g').tasks.set t .executing).count .failed = _
            rw [c2]; exact hg.nfail
          · intro hm
            apply hg.canc
            rcases List.mem_or_eq_of_mem_set hm with hm | hm
            · exact hm
            · cases hm
          · intro hp
            show _ = ((s.grp g').tasks.set t .executing).length
            rw [List.length_set]; exact hg.ret hp
          · intro hp
            rw [hg.gone hp] at e; cases e
        · rw [if_neg hgg]; exact hg
    · rw [if_neg (by rw [e]; simp)]
      refine ⟨_, rfl, h.q, h.opn, ?_, h.grp⟩
      intro g' u
      have hcell := h.cell g' u
      rw [TSys.loc] at hcell ⊢
      show Cell _ ((if (s.grp g').pushing = some u then 1 else 0) + (s.q.tasks g').count u
        + (s.workers.set w .idle).count (.got g' u)) ((s.workers.set w .idle).count (.running g' u)) _ _
      have hr := count_set_add s.workers w (.got g t) .idle (.running g' u) hw
      have hg := count_set_add s.workers w (.got g t) .idle (.got g' u) hw
      simp only [reduceCtorEq, if_false, Nat.add_zero] at hr hg
      rw [hr]
      by_cases hgu : g' = g ∧ u = t
      · obtain ⟨rfl, rfl⟩ := hgu
        show Cell ((s.grp g').tasks[u]?) _ _ _ _
        rw [e] at hcell ⊢
        simp only [if_true] at hg
        exact ⟨by have := hcell.1; omega, hcell.2⟩
      · have hne1 : ¬ WPc.got g t = .got g' u := by
          intro e'; cases e'; exact hgu ⟨rfl, rfl⟩
        rw [if_neg hne1, Nat.add_zero] at hg
        rw [hg]
        exact hcell
  · exact ⟨s, rfl, h⟩

theorem TInv.finish {s : TSys} (h : TInv s) (w : Nat) : ∃ s', stepFinish s w = .ok s' ∧ TInv s' := by
  rw [stepFinish]
  split
  · rename_i g t hw
    have e := h.running hw
    simp only
    rw [if_pos (h.alive e rfl)]
    refine ⟨_, rfl, h.q, h.opn, ?_, ?_⟩
    · intro g' u
      have hcell := h.cell g' u
      rw [TSys.loc] at hcell ⊢
      show Cell (((s.setGrp g { s.grp g with tasks := (s.grp g).tasks.set t .done, nComplete := (s.grp g).nComplete + 1 }).grp g').tasks[u]?)
        ((if ((s.setGrp g { s.grp g with tasks := (s.grp g).tasks.set t .done, nComplete := (s.grp g).nComplete + 1 }).grp g').pushing = some u
            then 1 else 0) + (s.q.tasks g').count u
          + (s.workers.set w .idle).count (.got g' u))
        ((s.workers.set w .idle).count (.running g' u)) _
        ((s.completed ++ [(g, t)]).count (g', u))
      have hr := count_set_add s.workers w (.running g t) .idle (.running g' u) hw
      have hg := count_set_add s.workers w (.running g t) .idle (.got g' u) hw
      simp only [reduceCtorEq, if_false, Nat.add_zero] at hr hg
      rw [count_snoc_pair, hg, grp_set]
      by_cases hgu : g' = g ∧ u = t
      · obtain ⟨rfl, rfl⟩ := hgu
        rw [e] at hcell
        obtain ⟨c1, c2, c3, c4⟩ := hcell
        simp only [if_true] at hr
        rw [if_pos rfl]
        simp only [and_self, if_true]
        rw [getElem?_set' _ _ _ _ _ e, if_pos rfl]
        exact ⟨by omega, by omega, c3, by omega⟩
      · have hne2 : ¬ WPc.running g t = .running g' u := by
          intro e'; cases e'; exact hgu ⟨rfl, rfl⟩
        rw [if_neg hne2, Nat.add_zero] at hr
        rw [if_neg hgu, hr]
        by_cases hgg : g' = g
        · subst hgg
          rw [if_pos rfl]
          simp only
          rw [getElem?_set' _ _ _ _ _ e, if_neg (fun e' => hgu ⟨rfl, e'⟩)]
          exact hcell
        · rw [if_neg hgg]
          exact hcell
    · intro g'
      show GInv ((s.setGrp g { s.grp g with tasks := (s.grp g).tasks.set t .done, nComplete := (s.grp g).nComplete + 1 }).grp g') _
      rw [grp_set]
      have hg := h.grp g'
      by_cases hgg : g' = g
      · subst hgg
        rw [if_pos rfl]
        have hal := h.alive e rfl
        have c1 := countP_set_add TStat.isFin (s.grp g').tasks t .executing .done e
        have c2 := count_set_add (s.grp g').tasks t .executing .done .failed e
        simp only [reduceCtorEq, if_false, Nat.add_zero] at c2
        simp only [TStat.isFin, Bool.false_eq_true, if_false, Nat.add_zero, if_true] at c1
        refine ⟨?_, ?_, hg.errs, ?_, ?_, ?_, hg.push⟩
        · show (s.grp g').nComplete + 1 = ((s.grp g').tasks.set t .done).countP TStat.isFin
          rw [show ((s.grp g').tasks.set t .done).countP TStat.isFin = _ from c1, hg.fin]
        · show ((s.grp g').tasks.set t .done).count .failed = _
          rw [c2]; exact hg.nfail
        · intro hm
          apply hg.canc
          rcases List.mem_or_eq_of_mem_set hm with hm | hm
          · exact hm
          · cases hm
        · intro hp
          have hp' : (s.grp g').phase = .returned := hp
          rw [Grp.alive, hp'] at hal; cases hal
        · intro hp
          rw [hg.gone hp] at e; cases e
      · rw [if_neg hgg]; exact hg
  · exact ⟨s, rfl, h⟩

theorem cancelOne_cases (st : TStat) : cancelOne st = st ∨ (st = .pending ∧ cancelOne st = .cancelled) := by
  cases st <;> simp [cancelOne]

theorem Cell.cancel {st : TStat} {l r a b : Nat} (h : Cell (some st) l r a b) :
    Cell (some (cancelOne st)) l r a b := by
  cases st with
  | pending => exact ⟨by have := h.1; omega, h.2⟩
  | executing => exact h
  | done => exact h
  | failed => exact h
  | cancelled => exact h

theorem TInv.fail {s : TSys} (h : TInv s) (w : Nat) (msg : String) :
    ∃ s', stepFail s w msg = .ok s' ∧ TInv s' := by
  rw [stepFail]
  split
  · rename_i g t hw
    have e := h.running hw
    simp only
    rw [if_pos (h.alive e rfl)]
    refine ⟨_, rfl, h.q, h.opn, ?_, ?_⟩
    · intro g' u
      have hcell := h.cell g' u
      rw [TSys.loc] at hcell ⊢
      show Cell (((s.setGrp g { s.grp g with tasks := ((s.grp g).tasks.set t .failed).map cancelOne, nComplete := (s.grp g).nComplete + 1, errors := (s.grp g).errors ++ [msg] }).grp g').tasks[u]?)
        ((if ((s.setGrp g { s.grp g with tasks := ((s.grp g).tasks.set t .failed).map cancelOne, nComplete := (s.grp g).nComplete + 1, errors := (s.grp g).errors ++ [msg] }).grp g').pushing = some u
            then 1 else 0) + (s.q.tasks g').count u
          + (s.workers.set w .idle).count (.got g' u))
        ((s.workers.set w .idle).count (.running g' u)) _ _
      have hr := count_set_add s.workers w (.running g t) .idle (.running g' u) hw
      have hg := count_set_add s.workers w (.running g t) .idle (.got g' u) hw
      simp only [reduceCtorEq, if_false, Nat.add_zero] at hr hg
      rw [hg, grp_set]
      by_cases hgu : g' = g ∧ u = t
      · obtain ⟨rfl, rfl⟩ := hgu
        rw [e] at hcell
        obtain ⟨c1, c2, c3, c4⟩ := hcell
        simp only [if_true] at hr
        rw [if_pos rfl]
        simp only
        rw [List.getElem?_map, getElem?_set' _ _ _ _ _ e, if_pos rfl]
        exact ⟨by omega, by omega, c3, c4⟩
      · have hne2 : ¬ WPc.running g t = .running g' u := by
          intro e'; cases e'; exact hgu ⟨rfl, rfl⟩
        rw [if_neg hne2, Nat.add_zero] at hr
        rw [hr]
        by_cases hgg : g' = g
        · subst hgg
          rw [if_pos rfl]
          simp only
          rw [List.getElem?_map, getElem?_set' _ _ _ _ _ e, if_neg (fun e' => hgu ⟨rfl, e'⟩)]
          revert hcell
          cases (s.grp g').tasks[u]? with
          | none => intro hcell; exact hcell
          | some st => intro hcell; exact Cell.cancel hcell
        · rw [if_neg hgg]
          exact hcell
    · intro g'
      show GInv ((s.setGrp g { s.grp g with tasks := ((s.grp g).tasks.set t .failed).map cancelOne, nComplete := (s.grp g).nComplete + 1, errors := (s.grp g).errors ++ [msg] }).grp g') (ofGroup g' (s.failures ++ [(g, msg)]))
      rw [grp_set, ofGroup_append, ofGroup_single]
      have hg := h.grp g'
      by_cases hgg : g' = g
      · subst hgg
        rw [if_pos rfl, if_pos rfl]
        have hal := h.alive e rfl
        have c1 := countP_set_add TStat.isFin (s.grp g').tasks t .executing .failed e
        have c2 := count_set_add (s.grp g').tasks t .executing .failed .failed e
        simp only [reduceCtorEq, if_false, Nat.add_zero, if_true] at c2
        simp only [TStat.isFin, Bool.false_eq_true, if_false, Nat.add_zero, if_true] at c1
        have m1 : ∀ l : List TStat, (l.map cancelOne).countP TStat.isFin = l.countP TStat.isFin := by
          intro l
          rw [List.countP_map]
          apply List.countP_congr
          intro x _
          cases x <;> simp [cancelOne, TStat.isFin]
        have m2 : ∀ l : List TStat, (l.map cancelOne).count .failed = l.count .failed := by
          intro l
          rw [List.count_eq_countP, List.count_eq_countP, List.countP_map]
          apply List.countP_congr
          intro x _
          cases x <;> simp [cancelOne]
        refine ⟨?_, ?_, ?_, ?_, ?_, ?_, hg.push⟩
        · show (s.grp g').nComplete + 1 = (((s.grp g').tasks.set t .failed).map cancelOne).countP TStat.isFin
          rw [m1, show ((s.grp g').tasks.set t .failed).countP TStat.isFin = _ from c1, hg.fin]
        · show (((s.grp g').tasks.set t .failed).map cancelOne).count .failed = ((s.grp g').errors ++ [msg]).length
          rw [m2, c2, List.length_append, hg.nfail]; rfl
        · show (s.grp g').errors ++ [msg] = _
          rw [hg.errs]
        · intro _
          show (s.grp g').errors ++ [msg] ≠ []
          simp
        · intro hp
          have hp' : (s.grp g').phase = .returned := hp
          rw [Grp.alive, hp'] at hal; cases hal
        · intro hp
          rw [hg.gone hp] at e; cases e
      · rw [if_neg hgg, if_neg (fun e' => hgg e'.symm), List.append_nil]; exact hg
  · exact ⟨s, rfl, h⟩

/-- Every step but `abandon` keeps the invariant and is defined. -/
theorem TInv.step {s : TSys} (h : TInv s) (e : TEv) (he : ∀ g, e ≠ .abandon g) :
    ∃ s', s.step e = .ok s' ∧ TInv s' := by
  cases e with
  | add g => exact ⟨_, rfl, h.add g⟩
  | push g => exact h.push g
  | wait g =>
    refine ⟨_, rfl, ?_⟩
    rw [stepWait]
    split
    · rename_i hc
      refine h.setPhase g _ ?_ ?_ hc.2
      · intro e; split at e <;> cases e
      · intro e
        split at e
        · assumption
        · cases e
    · exact h
  | ret g =>
    refine ⟨_, rfl, ?_⟩
    rw [stepRet]
    split
    · rename_i hc
      have hp : (s.grp g).pushing = none := by
        cases hq : (s.grp g).pushing with
        | none => rfl
        | some t =>
          have := (h.grp g).push (by rw [hq]; simp)
          rw [hc.1] at this; cases this
      exact h.setPhase g _ (fun _ => hc.2) (fun e => by cases e) hp
    · exact h
  | abandon g => exact absurd rfl (he g)
  | pop w => exact h.pop w
  | start w => exact h.start w
  | finish w => exact h.finish w
  | fail w msg => exact h.fail w msg

theorem TInv.run (es : List TEv) {s : TSys} (h : TInv s) (he : ∀ g, .abandon g ∉ es) :
    ∃ s', s.run es = .ok s' ∧ TInv s' := by
  induction es generalizing s with
  | nil => exact ⟨s, rfl, h⟩
  | cons e es ih =>
    obtain ⟨s1, h1, h2⟩ := h.step e (fun g hg => he g (by rw [hg]; exact List.mem_cons_self))
    obtain ⟨s2, h3, h4⟩ := ih h2 (fun g hg => he g (List.mem_cons_of_mem _ hg))
    exact ⟨s2, by rw [TSys.run, h1, ok_bind, h3], h4⟩

end GJ
