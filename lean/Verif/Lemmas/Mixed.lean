import Verif.Model.Mixed
import Verif.Props.C74

/-!
# What extractions see of a process that also scans

If the groups that are scans are left out of the queue, and workers busy with scans are taken for idle ones, what is left
is a process as in C74.
-/

namespace GJ
open Spec

namespace AMap

variable {K V : Type} [DecidableEq K]

theorem find_filter (p : K → Bool) (m : AMap K V) {k : K} (h : p k = true) :
    AMap.find (m.filter fun e => p e.1) k = m.find k := by
  induction m with
  | nil => rfl
  | cons e m ih =>
    obtain ⟨a, v⟩ := e
    rw [List.filter_cons]
    by_cases ha : p a = true
    · rw [if_pos ha]
      simp only [find]
      rw [ih]
    · rw [if_neg ha, ih]
      simp only [find]
      rw [if_neg]
      intro e
      subst e
      exact ha h

theorem set_filter (p : K → Bool) (m : AMap K V) {k : K} (v : V) (h : p k = true) :
    (m.set k v).filter (fun e => p e.1) = AMap.set (m.filter fun e => p e.1) k v := by
  induction m with
  | nil => simp [set, h]
  | cons e m ih =>
    obtain ⟨a, x⟩ := e
    simp only [set]
    by_cases ha : a = k
    · subst ha
      simp [h, set]
    · rw [if_neg ha, List.filter_cons, List.filter_cons, ih]
      by_cases hp : p a = true
      · rw [if_pos hp, if_pos hp]
        simp only [set]
        rw [if_neg ha]
      · rw [if_neg hp, if_neg hp]

theorem set_filter_out (p : K → Bool) (m : AMap K V) {k : K} (v : V) (h : p k = false) :
    (m.set k v).filter (fun e => p e.1) = m.filter fun e => p e.1 := by
  induction m with
  | nil => simp [set, h]
  | cons e m ih =>
    obtain ⟨a, x⟩ := e
    simp only [set]
    by_cases ha : a = k
    · subst ha
      simp [h]
    · rw [if_neg ha, List.filter_cons, List.filter_cons, ih]

theorem erase_filter (p : K → Bool) (m : AMap K V) {k : K} (h : p k = true) :
    (m.erase k).filter (fun e => p e.1) = AMap.erase (m.filter fun e => p e.1) k := by
  induction m with
  | nil => rfl
  | cons e m ih =>
    obtain ⟨a, x⟩ := e
    simp only [erase]
    by_cases ha : a = k
    · subst ha
      simp [h, erase]
    · rw [if_neg ha, List.filter_cons, List.filter_cons, ih]
      by_cases hp : p a = true
      · rw [if_pos hp, if_pos hp]
        simp only [erase]
        rw [if_neg ha]
      · rw [if_neg hp, if_neg hp]

theorem erase_filter_out (p : K → Bool) (m : AMap K V) {k : K} (h : p k = false) :
    (m.erase k).filter (fun e => p e.1) = m.filter fun e => p e.1 := by
  induction m with
  | nil => rfl
  | cons e m ih =>
    obtain ⟨a, x⟩ := e
    simp only [erase]
    by_cases ha : a = k
    · subst ha
      simp [h]
    · rw [if_neg ha, List.filter_cons, List.filter_cons, ih]

end AMap

/-! ## The queue, the groups and the workers -/

def viewQ (sc : Nat → Bool) (q : WQ Nat Nat) : WQ Nat Nat :=
  ⟨q.queues.filter fun e => !sc e.1, q.rr.filter fun g => !sc g, q.closed⟩

def viewW (sc : Nat → Bool) : WPc → WPc
  | .idle => .idle
  | .got g j => if sc g then .idle else .got g j
  | .running g j => if sc g then .idle else .running g j

/-- The groups and workers without those of scans. -/
def TSys.view (sc : Nat → Bool) (t : TSys) : TSys where
  q := viewQ sc t.q
  grp := fun g => if sc g then .new else t.grp g
  workers := t.workers.map (viewW sc)
  started := t.started.filter fun e => !sc e.1
  completed := t.completed.filter fun e => !sc e.1
  failures := t.failures.filter fun e => !sc e.1

theorem view_init (sc : Nat → Bool) (n : Nat) : (TSys.init n).view sc = TSys.init n := by
  simp only [TSys.view, TSys.init, viewQ, WQ.empty, List.filter_nil, List.map_replicate, viewW]
  congr 1
  funext g
  exact ite_self _

theorem view_grp {sc : Nat → Bool} {t : TSys} {g : Nat} (h : sc g = false) : (t.view sc).grp g = t.grp g := by
  simp [TSys.view, h]

theorem view_worker {sc : Nat → Bool} {t : TSys} {w : Nat} : (t.view sc).workers[w]? = t.workers[w]?.map (viewW sc) := by
  simp [TSys.view]

theorem view_setGrp {sc : Nat → Bool} (t : TSys) {g : Nat} (x : Grp) (h : sc g = false) :
    (t.setGrp g x).view sc = (t.view sc).setGrp g x := by
  simp only [TSys.view, TSys.setGrp]
  congr 1
  funext a
  by_cases e : a = g
  · subst e; simp [h]
  · simp [e]

theorem view_setGrp_out {sc : Nat → Bool} (t : TSys) {g : Nat} (x : Grp) (h : sc g = true) :
    (t.setGrp g x).view sc = t.view sc := by
  simp only [TSys.view, TSys.setGrp]
  congr 1
  funext a
  by_cases e : a = g
  · subst e; simp [h]
  · simp [e]

theorem view_setWorker {sc : Nat → Bool} (t : TSys) (w : Nat) (p : WPc) :
    (t.setWorker w p).view sc = (t.view sc).setWorker w (viewW sc p) := by
  simp only [TSys.view, TSys.setWorker, List.map_set]

theorem set_same {α : Type} {l : List α} {i : Nat} {a : α} (h : l[i]? = some a) : l.set i a = l := by
  apply List.ext_getElem?
  intro k
  by_cases e : i = k
  · subst e
    rw [List.getElem?_set_self (List.getElem?_eq_some_iff.mp h).1, h]
  · rw [List.getElem?_set_ne e]

theorem view_setWorker_out {sc : Nat → Bool} (t : TSys) {w : Nat} {p p' : WPc} (h : t.workers[w]? = some p)
    (e : viewW sc p' = viewW sc p) : (t.setWorker w p').view sc = t.view sc := by
  rw [view_setWorker, e, TSys.setWorker, set_same]
  rw [view_worker, h]; rfl

/-- Pushing a task. -/
theorem view_push {sc : Nat → Bool} {q q' : WQ Nat Nat} {g t : Nat} (h : q.push g t = .ok q') (hg : sc g = false) :
    (viewQ sc q).push g t = .ok (viewQ sc q') := by
  have hp : (fun a => !sc a) g = true := by simp [hg]
  rw [WQ.push] at h ⊢
  obtain ⟨u, hu, h⟩ := res_bind_inv h
  show (cassert (!q.closed) >>= fun _ => _) = _
  rw [hu, ok_bind]
  have hfind : (viewQ sc q).queues.find g = q.queues.find g := AMap.find_filter (fun a => !sc a) q.queues hp
  rw [hfind]
  cases hf : q.queues.find g with
  | none =>
    rw [hf] at h
    rw [← Except.ok.inj h]
    simp only [viewQ, AMap.set_filter (fun a => !sc a) q.queues [t] hp, List.filter_append]
    simp [hg]
  | some ts =>
    rw [hf] at h
    rw [← Except.ok.inj h]
    simp only [viewQ, AMap.set_filter (fun a => !sc a) q.queues (ts ++ [t]) hp]

theorem view_push_out {sc : Nat → Bool} {q q' : WQ Nat Nat} {g t : Nat} (h : q.push g t = .ok q') (hg : sc g = true) :
    viewQ sc q' = viewQ sc q := by
  have hp : (fun a => !sc a) g = false := by simp [hg]
  rw [WQ.push] at h
  obtain ⟨u, hu, h⟩ := res_bind_inv h
  cases hf : q.queues.find g with
  | none =>
    rw [hf] at h
    rw [← Except.ok.inj h]
    simp only [viewQ, AMap.set_filter_out (fun a => !sc a) q.queues [t] hp, List.filter_append]
    simp [hg]
  | some ts =>
    rw [hf] at h
    rw [← Except.ok.inj h]
    simp only [viewQ, AMap.set_filter_out (fun a => !sc a) q.queues (ts ++ [t]) hp]

/-- Taking a task: either it is one of an extraction, or extractions do not notice. -/
theorem view_pop {sc : Nat → Bool} {q q' : WQ Nat Nat} {r : Popped Nat Nat} (h : q.pop = .ok (r, q')) :
    (∃ g t, r = .task g t ∧ sc g = true ∧ viewQ sc q' = viewQ sc q) ∨
    ((∀ g t, r = .task g t → sc g = false) ∧ (viewQ sc q').queues = (viewQ sc q).queues ∧ q' = q ∧ ∀ g t, r ≠ .task g t) ∨
    ((∃ g t, r = .task g t ∧ sc g = false) ∧ (viewQ sc q).pop = .ok (r, viewQ sc q')) := by
  rw [WQ.pop] at h
  cases hr : q.rr with
  | nil =>
    rw [hr] at h
    have e := Prod.mk.inj (Except.ok.inj h)
    right; left
    rw [← e.1, ← e.2]
    refine ⟨?_, rfl, rfl, ?_⟩
    · intro g t; split <;> intro e <;> cases e
    · intro g t; split <;> intro e <;> cases e
  | cons g rr =>
    rw [hr] at h
    simp only at h
    cases hs : sc g with
    | true =>
      left
      have hp : (fun a => !sc a) g = false := by simp [hs]
      split at h
      · cases h
      · cases h
      · have e := Prod.mk.inj (Except.ok.inj h)
        refine ⟨g, _, e.1.symm, hs, ?_⟩
        rw [← e.2]
        simp only [viewQ, AMap.erase_filter_out (fun a => !sc a) q.queues hp, hr, List.filter_cons, hs]
        rfl
      · have e := Prod.mk.inj (Except.ok.inj h)
        refine ⟨g, _, e.1.symm, hs, ?_⟩
        rw [← e.2]
        simp only [viewQ, AMap.set_filter_out (fun a => !sc a) q.queues _ hp, hr, List.filter_cons, hs, List.filter_append]
        simp
    | false =>
      right; right
      have hp : (fun a => !sc a) g = true := by simp [hs]
      have hrr : (viewQ sc q).rr = g :: rr.filter fun a => !sc a := by
        simp only [viewQ, hr, List.filter_cons, hs]; rfl
      have hfind : (viewQ sc q).queues.find g = q.queues.find g := AMap.find_filter (fun a => !sc a) q.queues hp
      split at h
      · cases h
      · cases h
      · rename_i t hf
        have e := Prod.mk.inj (Except.ok.inj h)
        refine ⟨⟨g, _, e.1.symm, hs⟩, ?_⟩
        rw [WQ.pop, hrr]
        simp only [hfind, hf]
        rw [← e.1, ← e.2]
        simp only [viewQ, AMap.erase_filter (fun a => !sc a) q.queues hp]
      · rename_i t ts hne hf
        have e := Prod.mk.inj (Except.ok.inj h)
        refine ⟨⟨g, _, e.1.symm, hs⟩, ?_⟩
        rw [WQ.pop, hrr]
        simp only [hfind, hf]
        rw [← e.1, ← e.2]
        cases ts with
        | nil => exact absurd rfl (hne)
        | cons b ts =>
          simp only [viewQ, AMap.set_filter (fun a => !sc a) q.queues _ hp, List.filter_append, List.filter_cons, hs]
          rfl

/-- The group of the task a worker holds. -/
def WPc.group : WPc → Option Nat
  | .idle => none
  | .got g _ => some g
  | .running g _ => some g

/-- The event is one of a scan's thread, or of a worker busy with a scan. -/
def TEv.ofScan (sc : Nat → Bool) (t : TSys) : TEv → Bool
  | .add g | .push g | .wait g | .ret g | .abandon g => sc g
  | .pop w | .start w | .finish w | .fail w _ => ((t.workers[w]?.bind WPc.group).map sc).getD false

theorem viewW_idle {sc : Nat → Bool} {p : WPc} {g : Nat} (h : p.group = some g) (hg : sc g = true) : viewW sc p = .idle := by
  cases p with
  | idle => cases h
  | got a b => cases h; simp [viewW, hg]
  | running a b => cases h; simp [viewW, hg]

theorem viewW_same {sc : Nat → Bool} {p : WPc} (h : ∀ g, p.group = some g → sc g = false) : viewW sc p = p := by
  cases p with
  | idle => rfl
  | got a b => simp [viewW, h a rfl]
  | running a b => simp [viewW, h a rfl]

/-- Steps of scans are not noticed. -/
theorem view_scan {sc : Nat → Bool} {t t' : TSys} {e : TEv} (h : t.step e = .ok t') (hs : e.ofScan sc t = true) :
    t'.view sc = t.view sc := by
  have busy : ∀ w : Nat, ((t.workers[w]?.bind WPc.group).map sc).getD false = true →
      ∃ (p : WPc) (g : Nat), t.workers[w]? = some p ∧ p.group = some g ∧ sc g = true := by
    intro w hw
    cases hp : t.workers[w]? with
    | none => rw [hp] at hw; cases hw
    | some p =>
      rw [hp] at hw
      cases hg : p.group with
      | none => simp [hg] at hw
      | some g => exact ⟨p, g, rfl, hg, by simpa [hg] using hw⟩
  cases e with
  | add g =>
    have h := Except.ok.inj h
    simp only [stepAdd] at h
    split at h
    · rw [← h]; exact view_setGrp_out _ _ hs
    · rw [← h]
  | wait g =>
    have h := Except.ok.inj h
    simp only [stepWait] at h
    split at h
    · rw [← h]; exact view_setGrp_out _ _ hs
    · rw [← h]
  | ret g =>
    have h := Except.ok.inj h
    simp only [stepRet] at h
    split at h
    · rw [← h]; exact view_setGrp_out _ _ hs
    · rw [← h]
  | abandon g =>
    have h := Except.ok.inj h
    simp only [stepAbandon] at h
    split at h
    · rw [← h]; exact view_setGrp_out _ _ hs
    · rw [← h]
  | push g =>
    rw [TSys.step, stepPush.eq_def] at h
    simp only at h
    split at h
    · rw [← Except.ok.inj h]
    · obtain ⟨q, hq, h⟩ := res_bind_inv h
      rw [← Except.ok.inj h, view_setGrp_out _ _ hs]
      simp only [TSys.view, view_push_out hq hs]
  | pop w =>
    obtain ⟨p, g, hp, hg, -⟩ := busy w hs
    rw [TSys.step, stepPop, if_neg (by rw [hp]; intro e; cases Option.some.inj e; cases hg)] at h
    rw [← Except.ok.inj h]
  | start w =>
    obtain ⟨p, g, hp, hg, hsc⟩ := busy w hs
    rw [TSys.step, stepStart.eq_def, hp] at h
    cases p with
    | idle => cases hg
    | running a b => rw [← Except.ok.inj h]
    | got a b =>
      have e : a = g := Option.some.inj hg
      subst e
      simp only at h
      split at h
      · split at h
        · rw [← Except.ok.inj h, view_setWorker_out (p := .got a b) _ (by exact hp) (by simp [viewW, hsc]),
            view_setGrp_out _ _ hsc]
          simp [TSys.view, List.filter_append, hsc]
        · rw [← Except.ok.inj h, view_setWorker_out (p := .got a b) _ (by exact hp) (by simp [viewW, hsc])]
      · cases h
  | finish w =>
    obtain ⟨p, g, hp, hg, hsc⟩ := busy w hs
    rw [TSys.step, stepFinish.eq_def, hp] at h
    cases p with
    | idle => cases hg
    | got a b => rw [← Except.ok.inj h]
    | running a b =>
      have e : a = g := Option.some.inj hg
      subst e
      simp only at h
      split at h
      · rw [← Except.ok.inj h, view_setWorker_out (p := .running a b) _ (by exact hp) (by simp [viewW, hsc]),
          view_setGrp_out _ _ hsc]
        simp [TSys.view, List.filter_append, hsc]
      · cases h
  | fail w msg =>
    obtain ⟨p, g, hp, hg, hsc⟩ := busy w hs
    rw [TSys.step, stepFail.eq_def, hp] at h
    cases p with
    | idle => cases hg
    | got a b => rw [← Except.ok.inj h]
    | running a b =>
      have e : a = g := Option.some.inj hg
      subst e
      simp only at h
      split at h
      · rw [← Except.ok.inj h, view_setWorker_out (p := .running a b) _ (by exact hp) (by simp [viewW, hsc]),
          view_setGrp_out _ _ hsc]
        simp [TSys.view, List.filter_append, hsc]
      · cases h

/-- Steps of extractions are steps of what is seen; a worker that takes a task of a scan is not noticed. -/
theorem view_own {sc : Nat → Bool} {t t' : TSys} {e : TEv} (h : t.step e = .ok t') (hs : e.ofScan sc t = false) :
    (t.view sc).step e = .ok (t'.view sc) ∨ ((∃ w, e = .pop w) ∧ t'.view sc = t.view sc) := by
  have free : ∀ (w : Nat) (p : WPc), ((t.workers[w]?.bind WPc.group).map sc).getD false = false → t.workers[w]? = some p →
      (∀ g, p.group = some g → sc g = false) ∧ (t.view sc).workers[w]? = some p := by
    intro w p hw hp
    have hg : ∀ g, p.group = some g → sc g = false := by
      intro g hg
      rw [hp] at hw
      simpa [hg] using hw
    exact ⟨hg, by rw [view_worker, hp, Option.map_some, viewW_same hg]⟩
  have none : ∀ w : Nat, t.workers[w]? = none → (t.view sc).workers[w]? = none := by
    intro w hw
    rw [view_worker, hw]; rfl
  cases e with
  | add g =>
    left
    have h := Except.ok.inj h
    rw [TSys.step]
    simp only [stepAdd, view_grp (show sc g = false from hs)] at h ⊢
    split at h
    · rename_i hc
      rw [if_pos hc, ← h, view_setGrp _ _ hs]
    · rename_i hc
      rw [if_neg hc, ← h]
  | wait g =>
    left
    have h := Except.ok.inj h
    rw [TSys.step]
    simp only [stepWait, view_grp (show sc g = false from hs)] at h ⊢
    split at h
    · rename_i hc
      rw [if_pos hc, ← h, view_setGrp _ _ hs]
    · rename_i hc
      rw [if_neg hc, ← h]
  | ret g =>
    left
    have h := Except.ok.inj h
    rw [TSys.step]
    simp only [stepRet, view_grp (show sc g = false from hs)] at h ⊢
    split at h
    · rename_i hc
      rw [if_pos hc, ← h, view_setGrp _ _ hs]
    · rename_i hc
      rw [if_neg hc, ← h]
  | abandon g =>
    left
    have h := Except.ok.inj h
    rw [TSys.step]
    simp only [stepAbandon, view_grp (show sc g = false from hs)] at h ⊢
    split at h
    · rename_i hc
      rw [if_pos hc, ← h, view_setGrp _ _ hs]
    · rename_i hc
      rw [if_neg hc, ← h]
  | push g =>
    left
    have hs : sc g = false := hs
    rw [TSys.step, stepPush.eq_def] at h ⊢
    simp only [view_grp hs] at h ⊢
    split at h
    · rw [← Except.ok.inj h]
    · obtain ⟨q, hq, h⟩ := res_bind_inv h
      show ((viewQ sc t.q).push g _ >>= _) = _
      rw [view_push hq hs, ok_bind, ← Except.ok.inj h, view_setGrp _ _ hs]
      rfl
  | pop w =>
    cases hp : t.workers[w]? with
    | none =>
      left
      rw [TSys.step, stepPop, if_neg (by rw [hp]; intro e; cases e)] at h
      rw [TSys.step, stepPop, if_neg (by rw [none w hp]; intro e; cases e), ← Except.ok.inj h]
    | some p =>
      obtain ⟨hg, hv⟩ := free w p hs hp
      by_cases hi : p = .idle
      · subst hi
        rw [TSys.step, stepPop, if_pos hp] at h
        obtain ⟨⟨r, q⟩, hq, h⟩ := res_bind_inv h
        rw [TSys.step, stepPop, if_pos hv]
        rcases view_pop (sc := sc) hq with ⟨g, j, rfl, hsc, he⟩ | ⟨-, -, hqq, hr⟩ | ⟨⟨g, j, rfl, hsc⟩, he⟩
        · right
          refine ⟨⟨w, rfl⟩, ?_⟩
          rw [← Except.ok.inj h, view_setWorker_out (p := .idle) _ (by exact hp) (by simp [viewW, hsc])]
          simp only [TSys.view, he]
        · right
          refine ⟨⟨w, rfl⟩, ?_⟩
          cases r with
          | task g j => exact absurd rfl (hr g j)
          | blocked => rw [← Except.ok.inj h, hqq]
          | stop => rw [← Except.ok.inj h, hqq]
        · left
          show ((viewQ sc t.q).pop >>= _) = _
          rw [he, ok_bind, ← Except.ok.inj h, view_setWorker]
          simp only [viewW, hsc]
          rfl
      · left
        rw [TSys.step, stepPop, if_neg (by rw [hp]; intro e; exact hi (Option.some.inj e))] at h
        rw [TSys.step, stepPop, if_neg (by rw [hv]; intro e; exact hi (Option.some.inj e)), ← Except.ok.inj h]
  | start w =>
    left
    rw [TSys.step, stepStart.eq_def] at h ⊢
    cases hp : t.workers[w]? with
    | none => rw [hp] at h; rw [none w hp, ← Except.ok.inj h]
    | some p =>
      obtain ⟨hg, hv⟩ := free w p hs hp
      rw [hp] at h
      rw [hv]
      cases p with
      | idle => rw [← Except.ok.inj h]
      | running a b => rw [← Except.ok.inj h]
      | got a b =>
        have hsc := hg a rfl
        simp only [view_grp hsc] at h ⊢
        by_cases ha : (t.grp a).alive = true
        · rw [if_pos ha] at h ⊢
          by_cases hb : (t.grp a).tasks[b]? = some .pending
          · rw [if_pos hb] at h ⊢
            rw [← Except.ok.inj h, view_setWorker, view_setGrp _ _ hsc]
            simp only [viewW, hsc, TSys.view, List.filter_append, List.filter_cons, List.filter_nil]
            rfl
          · rw [if_neg hb] at h ⊢
            rw [← Except.ok.inj h, view_setWorker]
            rfl
        · rw [if_neg ha] at h
          cases h
  | finish w =>
    left
    rw [TSys.step, stepFinish.eq_def] at h ⊢
    cases hp : t.workers[w]? with
    | none => rw [hp] at h; rw [none w hp, ← Except.ok.inj h]
    | some p =>
      obtain ⟨hg, hv⟩ := free w p hs hp
      rw [hp] at h
      rw [hv]
      cases p with
      | idle => rw [← Except.ok.inj h]
      | got a b => rw [← Except.ok.inj h]
      | running a b =>
        have hsc := hg a rfl
        simp only [view_grp hsc] at h ⊢
        by_cases ha : (t.grp a).alive = true
        · rw [if_pos ha] at h ⊢
          rw [← Except.ok.inj h, view_setWorker, view_setGrp _ _ hsc]
          simp only [viewW, hsc, TSys.view, List.filter_append, List.filter_cons, List.filter_nil]
          rfl
        · rw [if_neg ha] at h
          cases h
  | fail w msg =>
    left
    rw [TSys.step, stepFail.eq_def] at h ⊢
    cases hp : t.workers[w]? with
    | none => rw [hp] at h; rw [none w hp, ← Except.ok.inj h]
    | some p =>
      obtain ⟨hg, hv⟩ := free w p hs hp
      rw [hp] at h
      rw [hv]
      cases p with
      | idle => rw [← Except.ok.inj h]
      | got a b => rw [← Except.ok.inj h]
      | running a b =>
        have hsc := hg a rfl
        simp only [view_grp hsc] at h ⊢
        by_cases ha : (t.grp a).alive = true
        · rw [if_pos ha] at h ⊢
          rw [← Except.ok.inj h, view_setWorker, view_setGrp _ _ hsc]
          simp only [viewW, hsc, TSys.view, List.filter_append, List.filter_cons, List.filter_nil]
          rfl
        · rw [if_neg ha] at h
          cases h

/-! ## The process -/

/-- The calls without the scans. -/
def XSys.view (sc : Nat → Bool) (x : XSys) : XSys := ⟨x.t.view sc, x.job⟩

/-- The process without the scans. -/
def Srv.view (sc : Nat → Bool) (s : Srv) : Srv := ⟨s.x.view sc, s.svc, s.holders⟩

/-- The event is one of a scan's thread, or of a worker busy with a scan. -/
def XEv.ofScan (sc : Nat → Bool) (t : TSys) : XEv → Bool
  | .add g | .push g | .wait g | .ret g => sc g
  | .pop w | .start w | .work w => ((t.workers[w]?.bind WPc.group).map sc).getD false

theorem act_view {sc : Nat → Bool} {E : Nat → ExtEnv} {C : EngineConf} {x : XSys} {e : XEv}
    (hs : e.ofScan sc x.t = false) : (x.view sc).act E C e = x.act E C e := by
  cases e with
  | add g =>
    have hs : sc g = false := hs
    simp only [XSys.act, XSys.view, view_grp hs]
  | wait g =>
    have hs : sc g = false := hs
    simp only [XSys.act, XSys.view, view_grp hs]
  | push g => rfl
  | ret g => rfl
  | pop w => rfl
  | start w => rfl
  | work w =>
    rw [XSys.act.eq_def, XSys.act.eq_def]
    have hv : (x.view sc).t.workers[w]? = x.t.workers[w]? := by
      show (x.t.view sc).workers[w]? = _
      rw [view_worker]
      cases hp : x.t.workers[w]? with
      | none => rfl
      | some p =>
        rw [Option.map_some, viewW_same]
        intro g hg
        simpa [XEv.ofScan, hp, hg] using hs
    simp only [hv]
    rfl

/-- Whose event it is. -/
theorem act_ofScan {sc : Nat → Bool} {E : Nat → ExtEnv} {C : EngineConf} {x : XSys} {e : XEv} {a : TEv}
    {job : Nat → FSys} (h : x.act E C e = .ok (some a, job)) :
    a.ofScan sc x.t = e.ofScan sc x.t ∧ ((∃ w, a = .pop w) → ∃ w, e = .pop w) := by
  cases e with
  | add g =>
    have h' : (if _ then some (TEv.add g) else none) = some a := (Prod.mk.inj (Except.ok.inj h)).1
    split at h'
    · rw [← Option.some.inj h']; exact ⟨rfl, fun ⟨w, e⟩ => by cases e⟩
    · cases h'
  | wait g =>
    have h' : (if _ then some (TEv.wait g) else none) = some a := (Prod.mk.inj (Except.ok.inj h)).1
    split at h'
    · rw [← Option.some.inj h']; exact ⟨rfl, fun ⟨w, e⟩ => by cases e⟩
    · cases h'
  | push g => rw [← Option.some.inj (Prod.mk.inj (Except.ok.inj h)).1]; exact ⟨rfl, fun ⟨w, e⟩ => by cases e⟩
  | ret g => rw [← Option.some.inj (Prod.mk.inj (Except.ok.inj h)).1]; exact ⟨rfl, fun ⟨w, e⟩ => by cases e⟩
  | pop w => rw [← Option.some.inj (Prod.mk.inj (Except.ok.inj h)).1]; exact ⟨rfl, fun _ => ⟨w, rfl⟩⟩
  | start w => rw [← Option.some.inj (Prod.mk.inj (Except.ok.inj h)).1]; exact ⟨rfl, fun ⟨w, e⟩ => by cases e⟩
  | work w =>
    rw [XSys.act.eq_def] at h
    simp only at h
    split at h
    · split at h
      · cases h
      · split at h
        · rw [← Option.some.inj (Prod.mk.inj (Except.ok.inj h)).1]; exact ⟨rfl, fun ⟨w, e⟩ => by cases e⟩
        · split at h
          · cases (Prod.mk.inj (Except.ok.inj h)).1
          · cases h
          · rw [← Option.some.inj (Prod.mk.inj (Except.ok.inj h)).1]; exact ⟨rfl, fun ⟨w, e⟩ => by cases e⟩
    · cases (Prod.mk.inj (Except.ok.inj h)).1

/-- Steps of extractions. -/
theorem xview_own {sc : Nat → Bool} {E : Nat → ExtEnv} {C : EngineConf} {x x' : XSys} {e : XEv}
    (h : x.step E C e = .ok x') (hs : e.ofScan sc x.t = false) :
    (x.view sc).step E C e = .ok (x'.view sc) ∨ ((∃ w, e = .pop w) ∧ x'.view sc = x.view sc) := by
  obtain ⟨a, h1, h2⟩ := step_inv h
  have hv := act_view (E := E) (C := C) hs
  rw [h1] at hv
  cases a with
  | none =>
    left
    have e : x'.t = x.t := (Except.ok.inj h2).symm
    rw [XSys.step, hv, ok_bind]
    show Except.ok (⟨x.t.view sc, x'.job⟩ : XSys) = _
    rw [← e]; rfl
  | some a =>
    obtain ⟨k1, k2⟩ := act_ofScan (sc := sc) h1
    rcases view_own (sc := sc) (e := a) h2 (by rw [k1]; exact hs) with k | ⟨k, kv⟩
    · left
      rw [XSys.step, hv, ok_bind]
      show ((x.t.view sc).step a >>= _) = _
      rw [k, ok_bind]; rfl
    · right
      obtain ⟨w, rfl⟩ := k2 k
      refine ⟨⟨w, rfl⟩, ?_⟩
      have hj : x.job = x'.job := (Prod.mk.inj (Except.ok.inj h1)).2
      show (⟨x'.t.view sc, x'.job⟩ : XSys) = ⟨x.t.view sc, x.job⟩
      rw [kv, hj]

/-- Steps of scans' threads and of workers that take or begin their tasks. -/
theorem xview_scan {sc : Nat → Bool} {E : Nat → ExtEnv} {C : EngineConf} {x x' : XSys} {e : XEv}
    (h : x.step E C e = .ok x') (hs : e.ofScan sc x.t = true)
    (hw : ∀ w g j, e = .work w → x.t.workers[w]? ≠ some (.running g j)) : x'.view sc = x.view sc := by
  obtain ⟨a, h1, h2⟩ := step_inv h
  have hj : x'.job = x.job := by
    cases e with
    | add g => exact (Prod.mk.inj (Except.ok.inj h1)).2.symm
    | wait g => exact (Prod.mk.inj (Except.ok.inj h1)).2.symm
    | push g => exact (Prod.mk.inj (Except.ok.inj h1)).2.symm
    | ret g => exact (Prod.mk.inj (Except.ok.inj h1)).2.symm
    | pop w => exact (Prod.mk.inj (Except.ok.inj h1)).2.symm
    | start w => exact (Prod.mk.inj (Except.ok.inj h1)).2.symm
    | work w =>
      rw [XSys.act.eq_def] at h1
      simp only at h1
      split at h1
      · rename_i g j hr; exact absurd hr (hw w g j rfl)
      · exact (Prod.mk.inj (Except.ok.inj h1)).2.symm
  show (⟨x'.t.view sc, x'.job⟩ : XSys) = ⟨x.t.view sc, x.job⟩
  rw [hj]
  cases a with
  | none => rw [show x'.t = x.t from (Except.ok.inj h2).symm]
  | some a => rw [view_scan (sc := sc) (e := a) h2 (by rw [(act_ofScan h1).1]; exact hs)]

theorem asking_view {sc : Nat → Bool} {x : XSys} {w : Nat} (hs : XEv.ofScan sc x.t (.work w) = false) :
    (x.view sc).asking w = x.asking w := by
  have hv : (x.view sc).t.workers[w]? = x.t.workers[w]? := by
    show (x.t.view sc).workers[w]? = _
    rw [view_worker]
    cases hp : x.t.workers[w]? with
    | none => rfl
    | some p =>
      rw [Option.map_some, viewW_same]
      intro g hg
      simpa [XEv.ofScan, hp, hg] using hs
  rw [XSys.asking.eq_def, XSys.asking.eq_def]
  simp only [hv]
  rfl

/-- A step of the process that is not one of a scan. -/
theorem srv_view {sc : Nat → Bool} {p : Site} {s s' : Srv} {e : SrvEv} (h : s.step p e = .ok s')
    (hs : ∀ x, e = .queue x → x.ofScan sc s.x.t = false) :
    (s.view sc).step p e = .ok (s'.view sc) ∨ ((∃ w, e = .queue (.pop w)) ∧ s'.view sc = s.view sc) := by
  cases e with
  | other e =>
    left
    rw [Srv.step] at h ⊢
    obtain ⟨svc, h1, h⟩ := res_bind_inv h
    show (s.svc.step p.reader p.offs e.on >>= _) = _
    rw [h1, ok_bind, ← Except.ok.inj h]; rfl
  | queue e =>
    have hs := hs e rfl
    by_cases hw : ∃ w, e = .work w
    · obtain ⟨w, rfl⟩ := hw
      left
      rw [Srv.step, Srv.work.eq_def] at h ⊢
      have ha : (s.view sc).x.asking w = s.x.asking w := asking_view hs
      simp only [ha]
      cases hk : s.x.asking w with
      | none =>
        simp only [hk] at h ⊢
        obtain ⟨x', h1, h⟩ := res_bind_inv h
        rcases xview_own h1 hs with k | ⟨⟨v, e⟩, -⟩
        · show ((s.x.view sc).step _ _ _ >>= _) = _
          rw [show (s.view sc).svc = s.svc from rfl, k, ok_bind, ← Except.ok.inj h]; rfl
        · cases e
      | some fo =>
        obtain ⟨f, os⟩ := fo
        simp only [hk] at h ⊢
        by_cases hm : w ∈ s.holders
        · rw [if_pos hm] at h
          rw [if_pos (show w ∈ (s.view sc).holders from hm)]
          obtain ⟨svc, h0, h⟩ := res_bind_inv h
          obtain ⟨x', h1, h⟩ := res_bind_inv h
          rcases xview_own h1 hs with k | ⟨⟨v, e⟩, -⟩
          · show (s.svc.step _ _ _ >>= _) = _
            rw [show (s.view sc).holders = s.holders from rfl, h0, ok_bind]
            show ((s.x.view sc).step _ _ _ >>= _) = _
            rw [show (s.view sc).svc = s.svc from rfl, k, ok_bind, ← Except.ok.inj h]; rfl
          · cases e
        · rw [if_neg hm] at h
          rw [if_neg (show ¬ w ∈ (s.view sc).holders from hm)]
          obtain ⟨svc, h0, h⟩ := res_bind_inv h
          show (s.svc.step _ _ _ >>= _) = _
          rw [h0, ok_bind, ← Except.ok.inj h]; rfl
    · have hq : ∀ y : Srv, y.step p (.queue e) = (y.x.step (p.env y.svc.disk undef) p.conf e >>= fun x =>
          .ok ⟨x, y.svc, y.holders⟩) := by
        intro y
        cases e with
        | work w => exact absurd ⟨w, rfl⟩ hw
        | _ => rfl
      rw [hq] at h ⊢
      obtain ⟨x', h1, h2⟩ := res_bind_inv h
      rcases xview_own h1 hs with k | ⟨⟨v, rfl⟩, k⟩
      · left
        show ((s.x.view sc).step _ _ _ >>= _) = _
        rw [show (s.view sc).svc = s.svc from rfl, k, ok_bind, ← Except.ok.inj h2]; rfl
      · right
        refine ⟨⟨v, rfl⟩, ?_⟩
        rw [← Except.ok.inj h2]
        show (⟨x'.view sc, s.svc, s.holders⟩ : Srv) = ⟨s.x.view sc, s.svc, s.holders⟩
        rw [k]

/-- A step of a scan's thread, or of a worker that takes or begins a scan. -/
theorem srv_view_scan {sc : Nat → Bool} {p : Site} {s s' : Srv} {e : XEv} (h : s.step p (.queue e) = .ok s')
    (hs : e.ofScan sc s.x.t = true) (hw : ∀ w g j, e = .work w → s.x.t.workers[w]? ≠ some (.running g j)) :
    s'.view sc = s.view sc := by
  have hq : ∃ x', s.x.step (p.env s.svc.disk undef) p.conf e = .ok x' ∧ s' = ⟨x', s.svc, s.holders⟩ := by
    cases e with
    | work w =>
      rw [Srv.step, Srv.work.eq_def] at h
      have ha : s.x.asking w = none := by
        rw [XSys.asking.eq_def]
        split
        · rename_i g j hr; exact absurd hr (hw w g j rfl)
        · rfl
      simp only [ha] at h
      obtain ⟨x', h1, h⟩ := res_bind_inv h
      exact ⟨x', h1, (Except.ok.inj h).symm⟩
    | _ =>
      obtain ⟨x', h1, h⟩ := res_bind_inv h
      exact ⟨x', h1, (Except.ok.inj h).symm⟩
  obtain ⟨x', h1, rfl⟩ := hq
  show (⟨x'.view sc, s.svc, s.holders⟩ : Srv) = ⟨s.x.view sc, s.svc, s.holders⟩
  rw [xview_scan h1 hs hw]

/-! ## Steps of scans, for those who extract -/

/-- The files that a scan looks into here. -/
def MixSite.Within (M : MixSite) (U : String → Prop) : Prop :=
  ∀ g ks, M.scans g = some ks → ∀ k ∈ ks, ∀ path os, k = .file path os → U path

/-- The tasks of scans are those they began with. -/
def Mix.Kinds (M : MixSite) (s : Mix) : Prop := ∀ g, (s.jobs g).tasks.map Prod.fst = (M.scans g).getD []

/-- The process without the scans. -/
def Mix.view (M : MixSite) (s : Mix) : Srv := s.srv.view M.scan

theorem Mix.view_start (M : MixSite) (n : Nat) (P : Nat → ItemMap × List FTask) (d : Disk) (mode : CacheMode) (lazy : Bool)
    (cap : Nat) (fs : FS) : (Mix.start M n P d mode lazy cap fs).view M = Srv.start M.site n P d mode lazy cap fs := by
  show (⟨⟨(TSys.init n).view M.scan, _⟩, _, _⟩ : Srv) = _
  rw [view_init]; rfl

theorem Mix.Kinds.file {M : MixSite} {s : Mix} {U : String → Prop} (h : s.Kinds M) (hU : M.Within U) {g j : Nat}
    {path : String} {os : List Nat} {a : ScanAt} (hj : (s.jobs g).tasks[j]? = some (.file path os, a)) : U path := by
  have hm : ScanKind.file path os ∈ (M.scans g).getD [] := by
    rw [← h g]; exact List.mem_map_of_mem (f := Prod.fst) (List.mem_of_getElem? hj)
  cases hg : M.scans g with
  | none => rw [hg] at hm; cases hm
  | some ks => rw [hg] at hm; exact hU g ks hg _ hm _ _ rfl

theorem scanRequest_allowed {U : String → Prop} {path : String} (h : U path) (os : List Nat) : (scanRequest path os).Allowed U := by
  show OEv.Allowed U (if (isort (fun a b => decide (a ≤ b)) os).length = 0 then _ else _)
  split
  · exact h
  · exact h

/-- What a step is for those who extract, in more detail: none, one of others, or itself. -/
def ViewStepOf (M : MixSite) (U : String → Prop) (e : SrvEv) (s s' : Mix) : Prop :=
  s'.view M = s.view M ∨ (∃ o, OEv.Allowed U o ∧ (s.view M).step M.site (.other o) = .ok (s'.view M)) ∨
    ((∀ q, e = .queue q → q.ofScan M.scan s.srv.x.t = false) ∧ (s.view M).step M.site e = .ok (s'.view M))

/-- What a step is for those who extract: a step, or none. -/
def ViewStep (M : MixSite) (U : String → Prop) (s s' : Mix) : Prop :=
  s'.view M = s.view M ∨ ∃ e, SrvEv.Allowed U e ∧ (s.view M).step M.site e = .ok (s'.view M)

theorem view_withT {M : MixSite} {s : Mix} {t : TSys} {jobs : Nat → ScanJob} {sc : List (Option Nat)}
    (h : t.view M.scan = s.srv.x.t.view M.scan) : (⟨s.srv.withT t, jobs, sc⟩ : Mix).view M = s.view M := by
  show (⟨⟨t.view M.scan, s.srv.x.job⟩, s.srv.svc, s.srv.holders⟩ : Srv) = ⟨⟨s.srv.x.t.view M.scan, s.srv.x.job⟩, s.srv.svc, s.srv.holders⟩
  rw [h]

theorem group_view {M : MixSite} {s s' : Mix} {e : Option TEv} (h : s.group e = .ok s')
    (hs : ∀ a, e = some a → a.ofScan M.scan s.srv.x.t = true) : s'.view M = s.view M := by
  rw [Mix.group] at h
  obtain ⟨t, h1, h2⟩ := res_bind_inv h
  rw [← Except.ok.inj h2]
  cases e with
  | none => rw [show t = s.srv.x.t from (Except.ok.inj h1).symm]; exact view_withT rfl
  | some a => exact view_withT (view_scan h1 (hs a rfl))

theorem scanFail_view {M : MixSite} {s s' : Mix} {g j w : Nat} {k : ScanKind} (h : s.scanFail g j w k = .ok s')
    (hg : M.scan g = true) (hw : s.srv.x.t.workers[w]? = some (.running g j)) : s'.view M = s.view M := by
  rw [Mix.scanFail] at h
  obtain ⟨t, h1, h2⟩ := res_bind_inv h
  rw [← Except.ok.inj h2]
  exact view_withT (view_scan h1 (by simp [TEv.ofScan, hw, WPc.group, hg]))

theorem plain_view {M : MixSite} {U : String → Prop} {s s' : Mix} {e : SrvEv} (h : s.plain M e = .ok s')
    (hw : ∀ w g j, e = .queue (.work w) → s.srv.x.t.workers[w]? = some (.running g j) → M.scan g = false) :
    ViewStepOf M U e s s' := by
  rw [Mix.plain] at h
  obtain ⟨y, h1, h2⟩ := res_bind_inv h
  rw [← Except.ok.inj h2]
  by_cases hq : ∃ q, e = .queue q ∧ q.ofScan M.scan s.srv.x.t = true
  · obtain ⟨q, rfl, hq⟩ := hq
    refine .inl (srv_view_scan h1 hq ?_)
    rintro w g j rfl hr
    have := hw w g j rfl hr
    simp [XEv.ofScan, hr, WPc.group, this] at hq
  · have hown : ∀ q, e = .queue q → q.ofScan M.scan s.srv.x.t = false := by
      intro q hq'
      cases hb : q.ofScan M.scan s.srv.x.t with
      | true => exact absurd ⟨q, hq', hb⟩ hq
      | false => rfl
    rcases srv_view (sc := M.scan) h1 hown with k | ⟨-, k⟩
    · exact .inr (.inr ⟨hown, k⟩)
    · exact .inl k

theorem view_step_of {M : MixSite} {U : String → Prop} {s s' : Mix} {e : SrvEv} (sound : SoundReader M.site.reader)
    (hoffs : ∀ file, M.site.offs file ≠ undef) (good : SvcGood M.site.reader M.site.offs U s.srv.svc)
    (hU : M.Within U) (kinds : s.Kinds M) (ha : SrvEv.Allowed U e) (h : s.step M e = .ok s') :
    ViewStepOf M U e s s' := by
  have hplain : ∀ q : XEv, (∀ w, q ≠ .work w) → s.plain M (.queue q) = .ok s' → ViewStepOf M U (.queue q) s s' := fun q hq h =>
    plain_view h (fun w g j e => absurd (SrvEv.queue.inj e) (hq w))
  have hother : ∀ (o : OEv) (ha : o.Allowed U) (y : Srv) (sc : List (Option Nat)), s.srv.step M.site (.other o) = .ok y →
      ∀ e, ViewStepOf M U e s ⟨y, s.jobs, sc⟩ := by
    intro o ha y sc h1 _
    rcases srv_view (sc := M.scan) h1 (fun x e => by cases e) with k | ⟨⟨w, e⟩, -⟩
    · exact .inr (.inl ⟨o, ha, k⟩)
    · cases e
  rw [Mix.step.eq_def] at h
  split at h
  · rename_i g
    by_cases hg : M.scan g = true
    · rw [if_pos hg] at h
      refine .inl (group_view h ?_)
      intro a e
      split at e
      · rw [← Option.some.inj e]; exact hg
      · cases e
    · rw [if_neg hg] at h; exact hplain _ (fun w e => by cases e) h
  · rename_i g
    by_cases hg : M.scan g = true
    · rw [if_pos hg] at h
      refine .inl (group_view h ?_)
      intro a e
      split at e
      · rw [← Option.some.inj e]; exact hg
      · cases e
    · rw [if_neg hg] at h; exact hplain _ (fun w e => by cases e) h
  · rename_i w
    split at h
    · rename_i g j hr
      by_cases hg : M.scan g = true
      · rw [if_pos hg, Mix.scanWork.eq_def] at h
        split at h
        · exact .inl (group_view h fun a e => by rw [← Option.some.inj e]; simp [TEv.ofScan, hr, WPc.group, hg])
        · rename_i path os hj
          rw [Mix.scanRead] at h
          obtain ⟨svc, h1, h⟩ := res_bind_inv h
          have hal := scanRequest_allowed (kinds.file hU hj) os
          have hy : s.srv.step M.site (.other (scanRequest path os)) = .ok ⟨s.srv.x, svc, s.srv.holders⟩ := by
            rw [Srv.step, h1, ok_bind]
          split at h
          · rw [← Except.ok.inj h]
            exact hother _ hal _ [] hy _
          · have := hother _ hal _ s.scanners hy (.queue (.work w))
            have hv := scanFail_view h hg hr
            rw [ViewStepOf, hv]
            exact this
        · rename_i path os hj
          rw [Mix.scanWrite] at h
          obtain ⟨svc, h1, -⟩ := good.step sound hoffs (.cache (.commit (s.scanners.idxOf (some w)))) trivial
          simp only [h1] at h
          rw [← Except.ok.inj h]
          exact hother (.commit _) trivial ⟨s.srv.x, svc, s.srv.holders⟩ [] (by
            rw [Srv.step]
            show (s.srv.svc.step _ _ (.cache (.commit _)) >>= _) = _
            rw [h1, ok_bind]) _
        · rename_i server files hj
          rw [Mix.scanAsk] at h
          split at h
          · rw [← Except.ok.inj h]; exact .inl rfl
          · cases h
          · exact .inl (scanFail_view h hg hr)
        · cases h
      · rw [if_neg hg] at h
        exact plain_view h (fun v g' j' e hr' => by
          have := XEv.work.inj (SrvEv.queue.inj e)
          subst this
          rw [hr] at hr'
          cases hr'
          simpa using hg)
    · rename_i hnr
      exact plain_view h (fun v g' j' e hr' => by
          have := XEv.work.inj (SrvEv.queue.inj e)
          subst this
          exact absurd hr' (hnr _ _))
  · rename_i k
    by_cases hk : s.scanners[k]? = some none
    · rw [if_pos hk] at h
      obtain ⟨y, h1, h⟩ := res_bind_inv h
      rw [← Except.ok.inj h]
      exact hother _ ha y _ h1 _
    · rw [if_neg hk] at h
      rw [← Except.ok.inj h]; exact .inl rfl
  · rename_i o _
    obtain ⟨y, h1, h⟩ := res_bind_inv h
    rw [← Except.ok.inj h]
    exact hother _ ha y _ h1 _
  · rename_i q _ _ hq
    exact hplain q (fun w e => hq w e) h

/-- What a step is for those who extract. -/
theorem view_step {M : MixSite} {U : String → Prop} {s s' : Mix} {e : SrvEv} (sound : SoundReader M.site.reader)
    (hoffs : ∀ file, M.site.offs file ≠ undef) (good : SvcGood M.site.reader M.site.offs U s.srv.svc)
    (hU : M.Within U) (kinds : s.Kinds M) (ha : SrvEv.Allowed U e) (h : s.step M e = .ok s') : ViewStep M U s s' := by
  rcases view_step_of sound hoffs good hU kinds ha h with k | ⟨o, ho, k⟩ | ⟨-, k⟩
  · exact .inl k
  · exact .inr ⟨.other o, ho, k⟩
  · exact .inr ⟨e, ha, k⟩

end GJ
