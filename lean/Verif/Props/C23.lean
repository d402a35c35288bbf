import Verif.Model.WorkQueue
import Verif.Spec.Queue

/-!
# C23, C24: the work queue
-/

namespace GJ

open Spec

variable {G T : Type} [DecidableEq G]

theorem ofGroup_append (g : G) (a b : List (G × T)) : ofGroup g (a ++ b) = ofGroup g a ++ ofGroup g b := by
  simp [ofGroup]

theorem ofGroup_single (g g' : G) (t : T) : ofGroup g [(g', t)] = if g' = g then [t] else [] := by
  by_cases h : g' = g <;> simp [ofGroup, h]

/-- The queue of a group; groups without tasks have no queue. -/
def WQ.tasks (q : WQ G T) (g : G) : List T := (q.queues.find g).getD []

structure WQ.Inv (q : WQ G T) : Prop where
  keys : q.queues.keys.Nodup
  rr : q.rr.Nodup
  same : ∀ g, g ∈ q.rr ↔ ∃ ts, q.queues.find g = some ts
  ne : ∀ g, q.queues.find g ≠ some []

theorem WQ.Inv.mem_rr {q : WQ G T} (h : q.Inv) (g : G) : g ∈ q.rr ↔ q.tasks g ≠ [] := by
  rw [h.same, WQ.tasks]
  have := h.ne g
  cases hf : q.queues.find g with
  | none => simp
  | some ts =>
    rw [hf] at this
    simp only [Option.getD_some]
    exact ⟨fun _ e => this (by rw [e]), fun _ => ⟨ts, rfl⟩⟩

theorem WQ.Inv.empty : (WQ.empty : WQ G T).Inv :=
  ⟨List.nodup_nil, List.nodup_nil, fun g => by simp [WQ.empty, AMap.find], fun g h => by cases h⟩

/-- A submission to an open queue goes to the end of its group's queue; the group joins the end of the
round if it had none. -/
theorem WQ.Inv.push {q : WQ G T} (h : q.Inv) (g : G) (t : T) (hc : q.closed = false) :
    ∃ q', q.push g t = .ok q' ∧ q'.Inv ∧ q'.closed = false ∧
      (∀ g', q'.tasks g' = q.tasks g' ++ if g = g' then [t] else []) ∧
      q'.rr = if g ∈ q.rr then q.rr else q.rr ++ [g] := by
  rw [WQ.push, cassert, if_pos (by rw [hc]; rfl), ok_bind]
  cases hf : q.queues.find g with
  | none =>
    have hg : g ∉ q.rr := by rw [h.same, hf]; simp
    refine ⟨_, rfl, ⟨AMap.nodup_set _ _ _ h.keys, ?_, ?_, ?_⟩, hc, ?_, by rw [if_neg hg]⟩
    · show (q.rr ++ [g]).Nodup
      rw [List.nodup_append]
      refine ⟨h.rr, by simp, ?_⟩
      intro a ha b hb e
      rw [List.mem_singleton] at hb
      exact hg (by rw [← hb, ← e]; exact ha)
    · intro g'
      show g' ∈ q.rr ++ [g] ↔ ∃ ts, (q.queues.set g [t]).find g' = some ts
      rw [AMap.find_set, List.mem_append, List.mem_singleton, h.same]
      by_cases hgg : g = g'
      · subst hgg; simp
      · have : ¬ g' = g := fun e => hgg e.symm
        simp [hgg, this]
    · intro g'
      show (q.queues.set g [t]).find g' ≠ some []
      rw [AMap.find_set]
      split
      · intro e; cases e
      · exact h.ne g'
    · intro g'
      show ((q.queues.set g [t]).find g').getD [] = _
      rw [AMap.find_set, WQ.tasks]
      by_cases hgg : g = g'
      · subst hgg; rw [if_pos rfl, if_pos rfl, hf]; rfl
      · rw [if_neg hgg, if_neg hgg, List.append_nil]
  | some ts =>
    have hg : g ∈ q.rr := by rw [h.same]; exact ⟨ts, hf⟩
    refine ⟨_, rfl, ⟨AMap.nodup_set _ _ _ h.keys, h.rr, ?_, ?_⟩, hc, ?_, by rw [if_pos hg]⟩
    · intro g'
      show g' ∈ q.rr ↔ ∃ us, (q.queues.set g (ts ++ [t])).find g' = some us
      rw [AMap.find_set, h.same]
      by_cases hgg : g = g'
      · subst hgg; simp [hf]
      · simp [hgg]
    · intro g'
      show (q.queues.set g (ts ++ [t])).find g' ≠ some []
      rw [AMap.find_set]
      split
      · intro e; simp at e
      · exact h.ne g'
    · intro g'
      show ((q.queues.set g (ts ++ [t])).find g').getD [] = _
      rw [AMap.find_set, WQ.tasks]
      by_cases hgg : g = g'
      · subst hgg; rw [if_pos rfl, if_pos rfl, hf]; rfl
      · rw [if_neg hgg, if_neg hgg, List.append_nil]

/-- A pop serves the group at the front of the round: its first task is handed out. -/
theorem WQ.Inv.pop {q : WQ G T} (h : q.Inv) :
    (q.rr = [] ∧ q.pop = .ok (if q.closed then .stop else .blocked, q)) ∨
    ∃ g rr t q', q.rr = g :: rr ∧ q.pop = .ok (.task g t, q') ∧ q'.Inv ∧ q'.closed = q.closed ∧
      q.tasks g = t :: q'.tasks g ∧ (∀ g', g' ≠ g → q'.tasks g' = q.tasks g') ∧
      q'.rr = if q'.tasks g = [] then rr else rr ++ [g] := by
  rw [WQ.pop]
  cases hr : q.rr with
  | nil => exact Or.inl ⟨rfl, rfl⟩
  | cons g rr =>
    right
    have hnd := h.rr
    rw [hr, List.nodup_cons] at hnd
    obtain ⟨ts, hts⟩ := (h.same g).mp (by rw [hr]; exact List.mem_cons_self)
    simp only [hts]
    have hsame : ∀ g', g' ≠ g → (g' ∈ rr ↔ ∃ us, q.queues.find g' = some us) := by
      intro g' hg'
      rw [← h.same, hr, List.mem_cons]
      simp [hg']
    match ts, hts with
    | [], hts => exact absurd hts (h.ne g)
    | [t], hts =>
      have htg : ((q.queues.erase g).find g).getD [] = [] := by
        rw [AMap.find_erase _ _ _ h.keys, if_pos rfl]; rfl
      refine ⟨g, rr, t, _, rfl, rfl, ⟨AMap.nodup_erase _ _ h.keys, hnd.2, ?_, ?_⟩, rfl, ?_, ?_, ?_⟩
      · intro g'
        show g' ∈ rr ↔ ∃ us, (q.queues.erase g).find g' = some us
        rw [AMap.find_erase _ _ _ h.keys]
        by_cases hgg : g = g'
        · subst hgg
          rw [if_pos rfl]
          constructor
          · intro hm; exact absurd hm hnd.1
          · rintro ⟨_, e⟩; cases e
        · rw [if_neg hgg]
          exact hsame g' (fun e => hgg e.symm)
      · intro g'
        show (q.queues.erase g).find g' ≠ some []
        rw [AMap.find_erase _ _ _ h.keys]
        split
        · intro e; cases e
        · exact h.ne g'
      · show (q.queues.find g).getD [] = t :: ((q.queues.erase g).find g).getD []
        rw [hts, htg]; rfl
      · intro g' hg'
        show ((q.queues.erase g).find g').getD [] = _
        rw [AMap.find_erase _ _ _ h.keys, if_neg (fun e => hg' e.symm)]; rfl
      · show rr = if ((q.queues.erase g).find g).getD [] = [] then rr else rr ++ [g]
        rw [if_pos htg]
    | t :: u :: us, hts =>
      have htg : ((q.queues.set g (u :: us)).find g).getD [] = u :: us := by
        rw [AMap.find_set, if_pos rfl]; rfl
      refine ⟨g, rr, t, _, rfl, rfl, ⟨AMap.nodup_set _ _ _ h.keys, ?_, ?_, ?_⟩, rfl, ?_, ?_, ?_⟩
      · show (rr ++ [g]).Nodup
        rw [List.nodup_append]
        refine ⟨hnd.2, by simp, ?_⟩
        intro a ha b hb e
        rw [List.mem_singleton] at hb
        exact hnd.1 (by rw [← hb, ← e]; exact ha)
      · intro g'
        show g' ∈ rr ++ [g] ↔ ∃ vs, (q.queues.set g (u :: us)).find g' = some vs
        rw [AMap.find_set, List.mem_append, List.mem_singleton]
        by_cases hgg : g = g'
        · subst hgg; simp
        · rw [if_neg hgg, hsame g' (fun e => hgg e.symm)]
          have : ¬ g' = g := fun e => hgg e.symm
          simp [this]
      · intro g'
        show (q.queues.set g (u :: us)).find g' ≠ some []
        rw [AMap.find_set]
        split
        · intro e; cases e
        · exact h.ne g'
      · show (q.queues.find g).getD [] = t :: ((q.queues.set g (u :: us)).find g).getD []
        rw [hts, htg]; rfl
      · intro g' hg'
        show ((q.queues.set g (u :: us)).find g').getD [] = _
        rw [AMap.find_set, if_neg (fun e => hg' e.symm)]; rfl
      · show rr ++ [g] = if ((q.queues.set g (u :: us)).find g).getD [] = [] then rr else rr ++ [g]
        rw [if_neg (by rw [htg]; simp)]

/-! ## The whole history -/

structure WQRun.Inv (r : WQRun G T) : Prop where
  q : r.q.Inv
  split : ∀ g, ofGroup g r.submitted = ofGroup g r.handed ++ r.q.tasks g

theorem WQRun.Inv.step {r : WQRun G T} (h : r.Inv) (o : WQOp G T) : ∃ r', r.step o = .ok r' ∧ r'.Inv := by
  cases o with
  | push g t =>
    rw [WQRun.step]
    cases hc : r.q.closed with
    | true =>
      have : r.q.push g t = throwExn .assertFailed := by
        rw [WQ.push, cassert, if_neg (by rw [hc]; simp)]; rfl
      rw [this]
      exact ⟨r, rfl, h⟩
    | false =>
      obtain ⟨q', h1, h2, -, h4, -⟩ := h.q.push g t hc
      rw [h1]
      refine ⟨_, rfl, h2, ?_⟩
      intro g'
      show ofGroup g' (r.submitted ++ [(g, t)]) = ofGroup g' r.handed ++ q'.tasks g'
      rw [ofGroup_append, h.split, h4, ofGroup_single, List.append_assoc]
  | pop =>
    rw [WQRun.step]
    rcases h.q.pop with ⟨-, h2⟩ | ⟨g, rr, t, q', -, h2, h3, -, h5, h6, -⟩
    · rw [h2, ok_bind]
      cases r.q.closed
      · exact ⟨_, rfl, h.q, h.split⟩
      · exact ⟨_, rfl, h.q, h.split⟩
    · rw [h2, ok_bind]
      refine ⟨_, rfl, h3, ?_⟩
      intro g'
      show ofGroup g' r.submitted = ofGroup g' (r.handed ++ [(g, t)]) ++ q'.tasks g'
      rw [ofGroup_append, h.split, ofGroup_single]
      by_cases hg : g = g'
      · subst hg; rw [if_pos rfl, h5, List.append_assoc]; rfl
      · rw [if_neg hg, List.append_nil, h6 g' (fun e => hg e.symm)]
  | close => exact ⟨_, rfl, ⟨h.q.keys, h.q.rr, h.q.same, h.q.ne⟩, h.split⟩

theorem WQRun.Inv.run (os : List (WQOp G T)) {r : WQRun G T} (h : r.Inv) :
    ∃ r', r.run os = .ok r' ∧ r'.Inv := by
  induction os generalizing r with
  | nil => exact ⟨r, rfl, h⟩
  | cons o os ih =>
    obtain ⟨r1, h1, h2⟩ := h.step o
    obtain ⟨r2, h3, h4⟩ := ih h2
    exact ⟨r2, by rw [WQRun.run, h1, ok_bind, h3], h4⟩

theorem WQRun.Inv.start : (WQRun.start : WQRun G T).Inv := ⟨WQ.Inv.empty, fun _ => rfl⟩

theorem WQRun.Inv.waiting {r : WQRun G T} (h : r.Inv) (g : G) :
    waiting r.submitted r.handed g = r.q.tasks g := by
  rw [Spec.waiting, h.split, List.drop_left]

theorem WQRun.Inv.rr_waiting {r : WQRun G T} (h : r.Inv) : WaitingGroups r.submitted r.handed r.q.rr :=
  ⟨h.q.rr, fun g => by rw [h.waiting]; exact h.q.mem_rr g⟩

/-! ## C23 -/

/-- C23.  Whatever threads submit and take, in any interleaving: no assertion fails, and what was handed out
of each request is the beginning of what was submitted for it, in order.  So nothing is lost, duplicated,
reordered within a request, or invented. -/
theorem C23_nothing_lost (ops : List (WQOp G T)) :
    ∃ r, (WQRun.start : WQRun G T).run ops = .ok r ∧
      ∀ g, ofGroup g r.submitted = ofGroup g r.handed ++ waiting r.submitted r.handed g := by
  obtain ⟨r, h1, h2⟩ := WQRun.Inv.start.run ops
  refine ⟨r, h1, fun g => ?_⟩
  rw [h2.waiting, h2.split]

/-- Counting occurrences of a task. -/
theorem count_ofGroup [DecidableEq T] (g : G) (t : T) (l : List (G × T)) :
    l.count (g, t) = (ofGroup g l).count t := by
  induction l with
  | nil => rfl
  | cons x l ih =>
    obtain ⟨g', t'⟩ := x
    rw [show (g', t') :: l = [(g', t')] ++ l from rfl, ofGroup_append, List.count_append, List.count_append, ih,
      ofGroup_single]
    congr 1
    by_cases hg : g' = g
    · subst hg
      rw [if_pos rfl]
      by_cases ht : t' = t
      · subst ht; simp
      · simp [ht]
    · rw [if_neg hg]
      simp [hg]

/-- C23.  Each submission is handed out at most once, and each task handed out was submitted. -/
theorem C23_at_most_once [DecidableEq T] (ops : List (WQOp G T)) (g : G) (t : T) :
    ∃ r, (WQRun.start : WQRun G T).run ops = .ok r ∧
      r.handed.count (g, t) ≤ r.submitted.count (g, t) := by
  obtain ⟨r, h1, h2⟩ := C23_nothing_lost ops
  refine ⟨r, h1, ?_⟩
  rw [count_ofGroup, count_ofGroup, h2 g, List.count_append]
  omega

/-- C23.  A worker is told to stop only when the queue is closed and everything was handed out; it waits only
when everything was handed out and the queue is open; otherwise it gets a task. -/
theorem C23_pop_outcome (ops : List (WQOp G T)) :
    ∃ r p q, (WQRun.start : WQRun G T).run ops = .ok r ∧ r.q.pop = .ok (p, q) ∧
      (p = .stop ↔ r.q.closed = true ∧ ∀ g, waiting r.submitted r.handed g = []) ∧
      (p = .blocked ↔ r.q.closed = false ∧ ∀ g, waiting r.submitted r.handed g = []) := by
  obtain ⟨r, h1, h2⟩ := (WQRun.Inv.start (G := G) (T := T)).run ops
  rcases h2.q.pop with ⟨he, hp⟩ | ⟨g, rr, t, q', he, hp, -, -, h5, -, -⟩
  · refine ⟨r, _, _, h1, hp, ?_, ?_⟩
    all_goals
      have : ∀ g, waiting r.submitted r.handed g = [] := by
        intro g
        rw [h2.waiting]
        have := h2.q.mem_rr g
        rw [he] at this
        simpa using this
      cases r.q.closed <;> simp [this]
  · refine ⟨r, _, _, h1, hp, ?_, ?_⟩
    all_goals
      constructor
      · intro e; cases e
      · rintro ⟨-, hn⟩
        have := hn g
        rw [h2.waiting, h5] at this
        cases this

/-- The queued tasks of all groups. -/
def WQ.size (q : WQ G T) : Nat := (q.queues.map fun x => x.2.length).sum

theorem sum_set (m : AMap G (List T)) (g : G) (ts : List T) :
    ((m.set g ts).map fun x => x.2.length).sum + ((m.find g).getD []).length
      = (m.map fun x => x.2.length).sum + ts.length := by
  induction m with
  | nil => simp [AMap.set, AMap.find]
  | cons p m ih =>
    obtain ⟨k, us⟩ := p
    rw [AMap.set, AMap.find]
    by_cases h : k = g
    · rw [if_pos h, if_pos h]; simp; omega
    · rw [if_neg h, if_neg h]; simp at ih ⊢; omega

theorem sum_erase (m : AMap G (List T)) (g : G) :
    ((m.erase g).map fun x => x.2.length).sum + ((m.find g).getD []).length
      = (m.map fun x => x.2.length).sum := by
  induction m with
  | nil => simp [AMap.erase, AMap.find]
  | cons p m ih =>
    obtain ⟨k, us⟩ := p
    rw [AMap.erase, AMap.find]
    by_cases h : k = g
    · rw [if_pos h, if_pos h]; simp; omega
    · rw [if_neg h, if_neg h]; simp at ih ⊢; omega

theorem WQ.pop_size {q q' : WQ G T} {g : G} {t : T} (h : q.pop = .ok (.task g t, q')) :
    q'.size + 1 = q.size := by
  rw [WQ.pop] at h
  split at h
  · cases hc : q.closed <;> rw [hc] at h <;> cases h
  · split at h
    · cases h
    · cases h
    · rename_i g' _ t' hf
      cases h
      have := sum_erase q.queues g
      rw [hf] at this
      simpa [WQ.size] using this
    · rename_i g' _ t' ts _ hf
      cases h
      have := sum_set q.queues g ts
      rw [hf] at this
      simp only [WQ.size, Option.getD_some, List.length_cons] at this ⊢
      omega

theorem WQ.size_zero {q : WQ G T} (h : q.size = 0) (g : G) : q.tasks g = [] := by
  have : ∀ m : AMap G (List T), (m.map fun x => x.2.length).sum = 0 → (m.find g).getD [] = [] := by
    intro m
    induction m with
    | nil => intro _; rfl
    | cons p m ih =>
      obtain ⟨k, us⟩ := p
      intro hs
      simp only [List.map_cons, List.sum_cons] at hs
      rw [AMap.find]
      split
      · exact List.length_eq_zero_iff.mp (by simp only [Option.getD_some]; omega)
      · exact ih (by omega)
  exact this _ h

/-- C23.  After shutdown the workers drain the queue: with the queue closed in any reachable state, as many
further pops as there are queued tasks, interleaved with any rejected submissions, hand out all of them. -/
theorem C23_drained_after_close (ops : List (WQOp G T)) :
    ∃ r, (WQRun.start : WQRun G T).run ops = .ok r ∧
      ∃ r', r.run (.close :: List.replicate r.q.size .pop) = .ok r' ∧ r'.submitted = r.submitted ∧
        ∀ g, waiting r'.submitted r'.handed g = [] := by
  obtain ⟨r, h1, h2⟩ := (WQRun.Inv.start (G := G) (T := T)).run ops
  refine ⟨r, h1, ?_⟩
  rw [WQRun.run]
  show ∃ r', (WQRun.step r .close >>= fun r' => r'.run _) = .ok r' ∧ _
  rw [WQRun.step, ok_bind]
  have hc : ({ r with q := r.q.close } : WQRun G T).Inv := ⟨⟨h2.q.keys, h2.q.rr, h2.q.same, h2.q.ne⟩, h2.split⟩
  have key : ∀ (n : Nat) (s : WQRun G T), s.Inv → s.q.size = n →
      ∃ r', s.run (List.replicate n .pop) = .ok r' ∧ r'.submitted = s.submitted ∧
        ∀ g, waiting r'.submitted r'.handed g = [] := by
    intro n
    induction n with
    | zero =>
      intro s hs hn
      exact ⟨s, rfl, rfl, fun g => by rw [hs.waiting]; exact WQ.size_zero hn g⟩
    | succ n ih =>
      intro s hs hn
      rw [List.replicate_succ, WQRun.run]
      obtain ⟨s1, e1, i1⟩ := hs.step .pop
      rcases hs.q.pop with ⟨he, hp⟩ | ⟨g, rr, t, q', he, hp, -⟩
      · exfalso
        have : s.q.queues = [] := by
          cases hq : s.q.queues with
          | nil => rfl
          | cons p m =>
            have := (hs.q.same p.1).mpr ⟨p.2, by rw [hq, AMap.find, if_pos rfl]⟩
            rw [he] at this; cases this
        rw [WQ.size, this] at hn
        cases hn
      · rw [e1, ok_bind]
        rw [WQRun.step, hp, ok_bind] at e1
        cases e1
        obtain ⟨r', a, b, c⟩ := ih _ i1 (by have := WQ.pop_size hp; simp only; omega)
        exact ⟨r', a, b, c⟩
  exact key r.q.size _ hc rfl

/-! ## C24 -/

/-- The next pops serve the groups of the round in its order, whatever is submitted meanwhile. -/
theorem round_served (os : List (WQOp G T)) {r r' : WQRun G T} (h : r.Inv) (hr : r.run os = .ok r')
    (pre : List G) (suf : List G) (hpre : r.q.rr = pre ++ suf) :
    ∃ new, r'.handed = r.handed ++ new ∧
      (new.take pre.length).map (·.1) = pre.take new.length ∧
      ∀ i g t, i < pre.length → new[i]? = some (g, t) → (r.q.tasks g).head? = some t := by
  induction os generalizing r pre suf with
  | nil =>
    cases hr
    exact ⟨[], by simp, by simp, by intro i g t _ hi; simp at hi⟩
  | cons o os ih =>
    obtain ⟨r1, h1, h2⟩ := h.step o
    rw [WQRun.run, h1, ok_bind] at hr
    cases o with
    | push g t =>
      rw [WQRun.step] at h1
      cases hc : r.q.closed with
      | true =>
        have : r.q.push g t = throwExn .assertFailed := by
          rw [WQ.push, cassert, if_neg (by rw [hc]; simp)]; rfl
        rw [this] at h1
        cases h1
        exact ih h hr pre suf hpre
      | false =>
        obtain ⟨q', e1, -, -, e4, e5⟩ := h.q.push g t hc
        rw [e1] at h1
        cases h1
        have hsuf : ∃ suf', q'.rr = pre ++ suf' := by
          rw [e5]
          split
          · exact ⟨suf, hpre⟩
          · exact ⟨suf ++ [g], by rw [hpre, List.append_assoc]⟩
        obtain ⟨suf', hs⟩ := hsuf
        obtain ⟨new, n1, n2, n3⟩ := ih h2 hr pre suf' hs
        refine ⟨new, n1, n2, ?_⟩
        intro i g' t' hi hn
        have := n3 i g' t' hi hn
        have hmem : g' ∈ r.q.rr := by
          have h3 : ((new.take pre.length).map (·.1))[i]? = some g' := by
            rw [List.getElem?_map, List.getElem?_take_of_lt hi, hn]; rfl
          rw [n2] at h3
          rw [hpre]
          exact List.mem_append.mpr (Or.inl (List.mem_of_mem_take (List.mem_of_getElem? h3)))
        have hne := (h.q.mem_rr g').mp hmem
        rw [e4] at this
        cases hq : r.q.tasks g' with
        | nil => exact absurd hq hne
        | cons a as => rw [hq] at this; simpa using this
    | pop =>
      rw [WQRun.step] at h1
      rcases h.q.pop with ⟨he, hp⟩ | ⟨g, rr, t, q', he, hp, -, -, e5, e6, e7⟩
      · have hpre0 : pre = [] := by
          rw [he] at hpre
          exact (List.append_eq_nil_iff.mp hpre.symm).1
        subst hpre0
        obtain ⟨new, n1, n2, n3⟩ := ih h2 hr [] r1.q.rr rfl
        rw [hp, ok_bind] at h1
        have hh : r1.handed = r.handed := by
          cases hc : r.q.closed <;> rw [hc] at h1 <;> cases h1 <;> rfl
        exact ⟨new, by rw [n1, hh], n2, by intro i g t hi; simp at hi⟩
      · rw [hp, ok_bind] at h1
        cases h1
        cases pre with
        | nil =>
          obtain ⟨new, n1, -, -⟩ := ih h2 hr [] q'.rr rfl
          refine ⟨(g, t) :: new, by rw [n1]; simp, by simp, by intro i g t hi; simp at hi⟩
        | cons g0 pre =>
          rw [he, List.cons_append, List.cons.injEq] at hpre
          obtain ⟨rfl, hrr⟩ := hpre
          have hs : ∃ suf', q'.rr = pre ++ suf' := by
            rw [e7]
            split
            · exact ⟨suf, hrr⟩
            · exact ⟨suf ++ [g], by rw [hrr, List.append_assoc]⟩
          obtain ⟨suf', hs⟩ := hs
          obtain ⟨new, n1, n2, n3⟩ := ih h2 hr pre suf' hs
          refine ⟨(g, t) :: new, by rw [n1]; simp, ?_, ?_⟩
          · simp only [List.length_cons, List.take_succ_cons, List.map_cons, n2]
          · intro i g' t' hi hn
            cases i with
            | zero =>
              simp only [List.getElem?_cons_zero, Option.some.injEq, Prod.mk.injEq] at hn
              obtain ⟨rfl, rfl⟩ := hn
              rw [e5]; rfl
            | succ i =>
              rw [List.getElem?_cons_succ] at hn
              have hi' : i < pre.length := by simpa using hi
              have := n3 i g' t' hi' hn
              have hmem : g' ∈ pre := by
                have h3 : ((new.take pre.length).map (·.1))[i]? = some g' := by
                  rw [List.getElem?_map, List.getElem?_take_of_lt hi', hn]; rfl
                rw [n2] at h3
                exact List.mem_of_mem_take (List.mem_of_getElem? h3)
              have hnd := h.q.rr
              rw [he, List.nodup_cons] at hnd
              have hne : g' ≠ g := by
                rintro rfl
                exact hnd.1 (by rw [hrr]; exact List.mem_append.mpr (Or.inl hmem))
              rw [e6 g' hne] at this
              exact this
    | close =>
      rw [WQRun.step] at h1
      cases h1
      exact ih h2 hr pre suf hpre

/-- C24.  At any time, let `k` requests have waiting tasks.  Whatever is submitted from then on, among the
next `k` tasks handed out is exactly one of each of them, and it is the oldest task waiting for it. -/
theorem C24_round_robin (before after : List (WQOp G T)) :
    ∃ r r' gs new, (WQRun.start : WQRun G T).run before = .ok r ∧ r.run after = .ok r' ∧
      WaitingGroups r.submitted r.handed gs ∧
      r'.handed = r.handed ++ new ∧
      (new.take gs.length).map (·.1) = gs.take new.length ∧
      ∀ i g t, i < gs.length → new[i]? = some (g, t) → (waiting r.submitted r.handed g).head? = some t := by
  obtain ⟨r, h1, h2⟩ := (WQRun.Inv.start (G := G) (T := T)).run before
  obtain ⟨r', h3, h4⟩ := h2.run after
  obtain ⟨new, n1, n2, n3⟩ := round_served after h2 h3 r.q.rr [] (by simp)
  refine ⟨r, r', r.q.rr, new, h1, h3, h2.rr_waiting, n1, n2, ?_⟩
  intro i g t hi hn
  rw [h2.waiting]
  exact n3 i g t hi hn

/-- C24 as stated: a request with waiting tasks, when `k` requests have some: once `k` more tasks have been
handed out, one of them is the request's oldest waiting task, preceded by at most `k - 1` tasks of other
requests, at most one of each. -/
theorem C24_bounded_wait (before after : List (WQOp G T)) (g : G) :
    ∃ r r' gs new, (WQRun.start : WQRun G T).run before = .ok r ∧ r.run after = .ok r' ∧
      WaitingGroups r.submitted r.handed gs ∧ r'.handed = r.handed ++ new ∧
      (waiting r.submitted r.handed g ≠ [] → gs.length ≤ new.length →
        ∃ i t, i < gs.length ∧ new[i]? = some (g, t) ∧ (waiting r.submitted r.handed g).head? = some t ∧
          ((new.take i).map (·.1)).Nodup ∧ g ∉ (new.take i).map (·.1)) := by
  obtain ⟨r, r', gs, new, h1, h2, h3, h4, h5, h6⟩ := C24_round_robin before after
  refine ⟨r, r', gs, new, h1, h2, h3, h4, ?_⟩
  intro hw hlen
  rw [List.take_of_length_le hlen] at h5
  obtain ⟨i, hi, hgi⟩ := List.mem_iff_getElem.mp ((h3.2 g).mpr hw)
  have hin : i < new.length := by omega
  have hfst : (new[i]).1 = g := by
    have : ((new.take gs.length).map (·.1))[i]? = some g := by
      rw [h5, List.getElem?_eq_getElem hi, hgi]
    rw [List.getElem?_map, List.getElem?_take_of_lt hi, List.getElem?_eq_getElem hin] at this
    simpa using this
  have hi? : new[i]? = some (g, (new[i]).2) := by
    rw [List.getElem?_eq_getElem hin, ← hfst]
  have htake : (new.take i).map (·.1) = gs.take i := by
    rw [← h5, ← List.map_take, List.take_take, Nat.min_eq_left (Nat.le_of_lt hi)]
  refine ⟨i, _, hi, hi?, h6 i _ _ hi hi?, ?_, ?_⟩
  · rw [htake]; exact h3.1.sublist (List.take_sublist _ _)
  · rw [htake]
    intro hm
    obtain ⟨j, hj, hgj⟩ := List.mem_iff_getElem.mp hm
    rw [List.length_take] at hj
    rw [List.getElem_take] at hgj
    have hp := List.pairwise_iff_getElem.mp h3.1
    exact hp j i (by omega) hi (by omega) (by rw [hgj, hgi])

/-! ## Wake-ups -/

/-- C23.  No lost wake-up: with at least one worker, never are all workers asleep while a task is queued,
except while the submitter is about to notify. -/
theorem C23_no_lost_wakeup (n : Nat) (hn : 0 < n) (s : Wake) (h : WakeReach n s) :
    0 < s.queued → 0 < s.awake ∨ 0 < s.notifying := by
  have : s.awake + s.asleep = n ∧ (0 < s.queued → 0 < s.awake ∨ 0 < s.notifying) := by
    induction h with
    | start => exact ⟨rfl, fun h => absurd h (by simp)⟩
    | step _ hs ih =>
      obtain ⟨i1, i2⟩ := ih
      cases hs with
      | push => exact ⟨i1, fun _ => Or.inr (Nat.succ_pos _)⟩
      | notify a k ha hk => exact ⟨by simp only; omega, fun _ => Or.inl (Nat.succ_pos _)⟩
      | notifyNone k ha hk => exact ⟨i1, fun _ => Or.inl (by simp only; omega)⟩
      | take q ha hq => exact ⟨i1, fun _ => Or.inl ha⟩
      | sleep a ha hq => exact ⟨by simp only; omega, fun h => absurd h (by simp only; omega)⟩
      | spurious a ha => exact ⟨by simp only; omega, fun _ => Or.inl (Nat.succ_pos _)⟩
  exact this.2

/-! ## Non-trivial cases -/

example : (match (WQRun.start : WQRun Nat Nat).run
      [.push 1 10, .push 1 11, .push 2 20, .pop, .push 3 30, .pop, .pop, .close, .push 1 99, .pop, .pop] with
    | .ok r => decide (r.handed = [(1, 10), (2, 20), (1, 11), (3, 30)] ∧ r.submitted.length = 4)
    | .error _ => false) = true := by decide

example : WakeReach 1 ⟨1, 0, 1, 1⟩ :=
  .step (.step .start (.sleep _ 0 rfl rfl)) (.push _)

end GJ
