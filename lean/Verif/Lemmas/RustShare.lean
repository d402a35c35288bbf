import Verif.Model.RustShare

/-!
# Rust client: what holds however threads use handles, iterators, results and views
-/

namespace GJ

theorem rsPut_self {α : Type} (f : Nat → Option α) (i : Nat) (x : Option α) : rsPut f i x i = x := by
  unfold rsPut; rw [if_pos rfl]

theorem rsPut_other {α : Type} (f : Nat → Option α) {i j : Nat} (x : Option α) (h : j ≠ i) : rsPut f i x j = f j := by
  unfold rsPut; rw [if_neg h]

abbrev RsBusy := List (Nat × RsWork)

/-- Handles: every clone has one, the count is the number of clones, whoever waits or calls has a clone, and the lock is with the
thread that calls. -/
structure RsHInv (handles : Nat → Option RsHandle) (hNext : Nat) (clones : List (Nat × Nat)) (busy : RsBusy) : Prop where
  fresh : ∀ h, hNext ≤ h → handles h = none
  counted : ∀ h b, handles h = some b → 0 < b.count ∧ b.count = clones.countP fun p => decide (p.2 = h)
  cloned : ∀ p ∈ clones, ∃ b, handles p.2 = some b
  waits : ∀ t h, (t, .waiting h) ∈ busy → (t, h) ∈ clones
  calls : ∀ t h, (t, .calling h) ∈ busy → (t, h) ∈ clones
  locked : ∀ h b t, handles h = some b → (b.lock = some t ↔ (t, .calling h) ∈ busy)

/-- What is still to come out of an iterator is there, and as `P` says. -/
def VecSource.Left {R : Type} (P : R → Prop) (s : VecSource R) : Prop :=
  ∀ j p, s.index ≤ j → s.data[j]? = some p → ∃ r, p = some r ∧ P r

/-- Iterators: used by their owner only, and no null pointer in them. -/
structure RsIInv {V : Type} (P : ExResult V → Prop) (iters : Nat → Option (RsIter V)) (iNext : Nat) (busy : RsBusy) : Prop where
  fresh : ∀ i, iNext ≤ i → iters i = none
  owned : ∀ t i, (t, .advancing i) ∈ busy → ∃ it, iters i = some it ∧ it.owner = t
  whole : ∀ i it, iters i = some it → it.src.Left P

/-- Results and views: used by their owner only; a view leads to converted masks that were not moved since. -/
structure RsRInv {V : Type} (P : ExResult V → Prop) (results : Nat → Option (RsResult V)) (rNext : Nat) (views : List RsView) (busy : RsBusy) : Prop where
  fresh : ∀ r, rNext ≤ r → results r = none
  owned : ∀ t r idx, (t, .ranging r idx) ∈ busy → ∃ x, results r = some x ∧ x.owner = t
  masks : ∀ r x, results r = some x → (x.cache = if x.converted then x.r.mask else []) ∧ P x.r
  viewed : ∀ v ∈ views, ∃ x, results v.result = some x ∧ x.converted = true ∧ x.moved = v.moved ∧
    v.index < rustNumRanges x.r
  reads : ∀ t v, (t, .reading v) ∈ busy → v ∈ views ∧ v.thread = t

structure RsSys.Inv {V : Type} (P : ExResult V → Prop) (s : RsSys V) : Prop where
  apart : (s.busy.map Prod.fst).Nodup
  h : RsHInv s.handles s.hNext s.clones s.busy
  i : RsIInv P s.iters s.iNext s.busy
  r : RsRInv P s.results s.rNext s.views s.busy

theorem rsInv_empty {V : Type} (P : ExResult V → Prop) : (RsSys.empty : RsSys V).Inv P where
  apart := List.nodup_nil
  h := ⟨fun _ _ => rfl, fun _ _ h => (by cases h), fun _ h => (by cases h), fun _ _ h => (by cases h), fun _ _ h => (by cases h),
    fun _ _ _ h => (by cases h)⟩
  i := ⟨fun _ _ => rfl, fun _ _ h => (by cases h), fun _ _ h => (by cases h)⟩
  r := ⟨fun _ _ => rfl, fun _ _ _ h => (by cases h), fun _ _ h => (by cases h), fun _ h => (by cases h), fun _ _ h => (by cases h)⟩

/-! ## What a thread is doing -/

theorem idle_iff {V : Type} {s : RsSys V} {t : Nat} : s.idle t = true ↔ ∀ w, (t, w) ∉ s.busy := by
  unfold RsSys.idle
  rw [List.all_eq_true]
  constructor
  · intro h w hw
    exact (of_decide_eq_true (h _ hw)) rfl
  · rintro h ⟨u, w⟩ hw
    refine decide_eq_true ?_
    rintro rfl
    exact h w hw

theorem mem_rest {V : Type} {s : RsSys V} {t u : Nat} {w : RsWork} : (u, w) ∈ s.rest t ↔ (u, w) ∈ s.busy ∧ u ≠ t := by
  unfold RsSys.rest
  rw [List.mem_filter]
  simp

theorem work_mem {V : Type} {s : RsSys V} {t : Nat} {w : RsWork} (h : s.work t = some w) : (t, w) ∈ s.busy := by
  unfold RsSys.work at h
  rw [Option.map_eq_some_iff] at h
  obtain ⟨⟨u, w'⟩, h1, rfl⟩ := h
  have h2 := List.find?_some h1
  have h3 := List.mem_of_find?_eq_some h1
  cases of_decide_eq_true h2
  exact h3

theorem busy_fun {l : RsBusy} (hn : (l.map Prod.fst).Nodup) {t : Nat} {w w' : RsWork} (h : (t, w) ∈ l) (h' : (t, w') ∈ l) : w = w' := by
  induction l with
  | nil => cases h
  | cons p l ih =>
    rw [List.map_cons, List.nodup_cons] at hn
    rcases List.mem_cons.mp h with rfl | h1
    · rcases List.mem_cons.mp h' with h2 | h2
      · exact (Prod.mk.inj h2).2.symm
      · exact absurd (List.mem_map.mpr ⟨_, h2, rfl⟩) hn.1
    · rcases List.mem_cons.mp h' with rfl | h2
      · exact absurd (List.mem_map.mpr ⟨_, h1, rfl⟩) hn.1
      · exact ih hn.2 h1 h2

theorem rest_apart {V : Type} {s : RsSys V} (h : (s.busy.map Prod.fst).Nodup) (t : Nat) : ((s.rest t).map Prod.fst).Nodup :=
  h.sublist ((List.filter_sublist).map _)

theorem begin_apart {V : Type} {s : RsSys V} (h : (s.busy.map Prod.fst).Nodup) (t : Nat) (w : RsWork) :
    ((s.rest t ++ [(t, w)]).map Prod.fst).Nodup := by
  rw [List.map_append, List.nodup_append]
  refine ⟨rest_apart h t, by simp, ?_⟩
  rintro a ha b hb rfl
  obtain ⟨⟨u, w'⟩, h1, rfl⟩ := List.mem_map.mp ha
  rw [List.map_cons, List.map_nil, List.mem_singleton] at hb
  exact (mem_rest.mp h1).2 hb

theorem mem_begin {V : Type} {s : RsSys V} {t u : Nat} {w w' : RsWork} (h : (u, w') ∈ s.rest t ++ [(t, w)]) :
    ((u, w') ∈ s.busy ∧ u ≠ t) ∨ (u = t ∧ w' = w) := by
  rcases List.mem_append.mp h with h | h
  · exact Or.inl (mem_rest.mp h)
  · exact Or.inr (Prod.mk.inj (List.mem_singleton.mp h))

theorem begin_mem {V : Type} {s : RsSys V} {t : Nat} {w : RsWork} : (t, w) ∈ s.rest t ++ [(t, w)] :=
  List.mem_append_right _ (List.mem_singleton.mpr rfl)

theorem begin_keeps {V : Type} {s : RsSys V} {t u : Nat} {w w' : RsWork} (h : (u, w') ∈ s.busy) (hu : u ≠ t) :
    (u, w') ∈ s.rest t ++ [(t, w)] := List.mem_append_left _ (mem_rest.mpr ⟨h, hu⟩)

/-! ## Only who is busy changes -/

theorem RsHInv.rebusy {handles : Nat → Option RsHandle} {hNext : Nat} {clones : List (Nat × Nat)} {busy busy' : RsBusy}
    (v : RsHInv handles hNext clones busy) (hw : ∀ t h, (t, .waiting h) ∈ busy' → (t, h) ∈ clones)
    (hc : ∀ t h, (t, .calling h) ∈ busy' ↔ (t, .calling h) ∈ busy) : RsHInv handles hNext clones busy' :=
  ⟨v.fresh, v.counted, v.cloned, hw, fun t h m => v.calls t h ((hc t h).mp m), fun h b t e => (v.locked h b t e).trans (hc t h).symm⟩

theorem RsIInv.rebusy {V : Type} {P : ExResult V → Prop} {iters : Nat → Option (RsIter V)} {iNext : Nat} {busy busy' : RsBusy} (v : RsIInv P iters iNext busy)
    (h : ∀ t i, (t, .advancing i) ∈ busy' → (t, .advancing i) ∈ busy) : RsIInv P iters iNext busy' :=
  ⟨v.fresh, fun t i m => v.owned t i (h t i m), v.whole⟩

theorem RsRInv.rebusy {V : Type} {P : ExResult V → Prop} {results : Nat → Option (RsResult V)} {rNext : Nat} {views : List RsView} {busy busy' : RsBusy}
    (v : RsRInv P results rNext views busy) (h1 : ∀ t r idx, (t, .ranging r idx) ∈ busy' → (t, .ranging r idx) ∈ busy)
    (h2 : ∀ t w, (t, .reading w) ∈ busy' → (t, .reading w) ∈ busy) : RsRInv P results rNext views busy' :=
  ⟨v.fresh, fun t r idx m => v.owned t r idx (h1 t r idx m), v.masks, v.viewed, fun t w m => v.reads t w (h2 t w m)⟩

/-! ## Handles -/

theorem countP_erase_mem {α : Type} [BEq α] [LawfulBEq α] {p : α → Bool} {l : List α} {a : α} (h : a ∈ l) :
    l.countP p = (l.erase a).countP p + (if p a then 1 else 0) := by
  rw [(List.perm_cons_erase h).countP_eq, List.countP_cons]

/-- A handle is made. -/
theorem RsHInv.made {handles : Nat → Option RsHandle} {hNext : Nat} {clones : List (Nat × Nat)} {busy : RsBusy}
    (v : RsHInv handles hNext clones busy) (t : Nat) :
    RsHInv (rsPut handles hNext (some ⟨1, none⟩)) (hNext + 1) (clones ++ [(t, hNext)]) busy := by
  have f0 := v.fresh hNext (Nat.le_refl _)
  have nc : ∀ p ∈ clones, p.2 ≠ hNext := by
    intro p hp e
    obtain ⟨b, hb⟩ := v.cloned p hp
    rw [e, f0] at hb
    cases hb
  refine ⟨?_, ?_, ?_, fun u h m => List.mem_append_left _ (v.waits u h m), fun u h m => List.mem_append_left _ (v.calls u h m), ?_⟩
  · intro h hh
    rw [rsPut_other _ _ (by omega)]
    exact v.fresh h (by omega)
  · intro h b hb
    rw [List.countP_append]
    by_cases e : h = hNext
    · subst e
      rw [rsPut_self] at hb
      cases hb
      rw [List.countP_eq_zero.mpr (fun p hp => by simp [nc p hp])]
      simp
    · rw [rsPut_other _ _ e] at hb
      obtain ⟨h1, h2⟩ := v.counted h b hb
      refine ⟨h1, ?_⟩
      have h3 : ¬ hNext = h := fun e' => e e'.symm
      rw [h2, List.countP_singleton, if_neg (by simp [h3])]
      omega
  · intro p hp
    rcases List.mem_append.mp hp with hp | hp
    · obtain ⟨b, hb⟩ := v.cloned p hp
      exact ⟨b, by rw [rsPut_other _ _ (nc p hp)]; exact hb⟩
    · rw [List.mem_singleton.mp hp]
      exact ⟨_, rsPut_self _ _ _⟩
  · intro h b u hb
    by_cases e : h = hNext
    · subst e
      rw [rsPut_self] at hb
      cases hb
      refine ⟨fun h => (by cases h), fun m => ?_⟩
      exact absurd rfl (nc _ (v.calls u _ m))
    · rw [rsPut_other _ _ e] at hb
      exact v.locked h b u hb

/-- The number of clones changes. -/
theorem RsHInv.recount {handles : Nat → Option RsHandle} {hNext : Nat} {clones clones' : List (Nat × Nat)} {busy : RsBusy}
    (v : RsHInv handles hNext clones busy) {h : Nat} {b : RsHandle} {n : Nat} (hb : handles h = some b) (hn : 0 < n)
    (hc : n = clones'.countP fun p => decide (p.2 = h))
    (ho : ∀ h', h' ≠ h → clones'.countP (fun p => decide (p.2 = h')) = clones.countP fun p => decide (p.2 = h'))
    (hsub : ∀ p ∈ clones', p ∈ clones ∨ p.2 = h)
    (hw : ∀ u h', (u, .waiting h') ∈ busy → (u, h') ∈ clones') (hk : ∀ u h', (u, .calling h') ∈ busy → (u, h') ∈ clones') :
    RsHInv (rsPut handles h (some ⟨n, b.lock⟩)) hNext clones' busy := by
  refine ⟨?_, ?_, ?_, hw, hk, ?_⟩
  · intro h' hh
    have : h' ≠ h := by
      rintro rfl
      rw [v.fresh h' hh] at hb
      cases hb
    rw [rsPut_other _ _ this]
    exact v.fresh h' hh
  · intro h' b' hb'
    by_cases e : h' = h
    · subst e
      rw [rsPut_self] at hb'
      cases hb'
      exact ⟨hn, hc⟩
    · rw [rsPut_other _ _ e] at hb'
      rw [ho h' e]
      exact v.counted h' b' hb'
  · intro p hp
    by_cases e : p.2 = h
    · exact ⟨_, by rw [e]; exact rsPut_self _ _ _⟩
    · rcases hsub p hp with hp | hp
      · obtain ⟨b', hb'⟩ := v.cloned p hp
        exact ⟨b', by rw [rsPut_other _ _ e]; exact hb'⟩
      · exact absurd hp e
  · intro h' b' u hb'
    by_cases e : h' = h
    · subst e
      rw [rsPut_self] at hb'
      cases hb'
      exact v.locked _ b u hb
    · rw [rsPut_other _ _ e] at hb'
      exact v.locked h' b' u hb'

theorem rsPut_id {α : Type} (f : Nat → Option α) (i : Nat) : rsPut f i (f i) = f := by
  funext j
  unfold rsPut
  split
  · next h => rw [h]
  · rfl

/-- A clone goes to another thread. -/
theorem RsHInv.moved {handles : Nat → Option RsHandle} {hNext : Nat} {clones : List (Nat × Nat)} {busy : RsBusy}
    (v : RsHInv handles hNext clones busy) {t u h : Nat} (hm : (t, h) ∈ clones) (idle : ∀ w, (t, w) ∉ busy) :
    RsHInv handles hNext (clones.erase (t, h) ++ [(u, h)]) busy := by
  obtain ⟨b, hb⟩ := v.cloned _ hm
  obtain ⟨h1, h2⟩ := v.counted h b hb
  have keep : ∀ x h', x ≠ t → (x, h') ∈ clones → (x, h') ∈ clones.erase (t, h) ++ [(u, h)] := by
    intro x h' hx hc
    refine List.mem_append_left _ ((List.mem_erase_of_ne ?_).mpr hc)
    intro e
    exact hx (Prod.mk.inj e).1
  have := v.recount (clones' := clones.erase (t, h) ++ [(u, h)]) (n := b.count) hb h1 (by
      rw [List.countP_append, h2, countP_erase_mem hm]
      simp) (by
      intro h' hh
      rw [List.countP_append, countP_erase_mem hm]
      simp) (by
      intro p hp
      rcases List.mem_append.mp hp with hp | hp
      · exact Or.inl (List.mem_of_mem_erase hp)
      · exact Or.inr (by rw [List.mem_singleton.mp hp])) (by
      intro x h' m
      exact keep x h' (by rintro rfl; exact idle _ m) (v.waits x h' m)) (by
      intro x h' m
      exact keep x h' (by rintro rfl; exact idle _ m) (v.calls x h' m))
  have e : (some ⟨b.count, b.lock⟩ : Option RsHandle) = handles h := hb.symm
  rw [e, rsPut_id] at this
  exact this

/-- The last clone goes. -/
theorem RsHInv.last {handles : Nat → Option RsHandle} {hNext : Nat} {clones : List (Nat × Nat)} {busy : RsBusy}
    (v : RsHInv handles hNext clones busy) {t h : Nat} {b : RsHandle} (hb : handles h = some b) (hm : (t, h) ∈ clones)
    (idle : ∀ w, (t, w) ∉ busy) (one : b.count = 1) :
    b.lock = none ∧ RsHInv (rsPut handles h none) hNext (clones.erase (t, h)) busy := by
  obtain ⟨-, h2⟩ := v.counted h b hb
  have h3 := h2
  rw [one, countP_erase_mem hm] at h3
  simp only [decide_true, if_true] at h3
  have h4 : (clones.erase (t, h)).countP (fun p => decide (p.2 = h)) = 0 := by omega
  have none_left : ∀ p ∈ clones.erase (t, h), p.2 ≠ h := by
    intro p hp e
    have := List.countP_eq_zero.mp h4 p hp
    exact this (decide_eq_true e)
  have keep : ∀ x h', x ≠ t → (x, h') ∈ clones → (x, h') ∈ clones.erase (t, h) := by
    intro x h' hx hc
    refine (List.mem_erase_of_ne ?_).mpr hc
    intro e
    exact hx (Prod.mk.inj e).1
  have nocall : ∀ x, (x, .calling h) ∉ busy := by
    intro x m
    have hx : x ≠ t := by rintro rfl; exact idle _ m
    exact none_left _ (keep x h hx (v.calls x h m)) rfl
  refine ⟨?_, ?_, ?_, ?_, ?_, ?_, ?_⟩
  · cases hl : b.lock with
    | none => rfl
    | some x => exact absurd ((v.locked h b x hb).mp hl) (nocall x)
  · intro h' hh
    by_cases e : h' = h
    · subst e; exact rsPut_self _ _ _
    · rw [rsPut_other _ _ e]; exact v.fresh h' hh
  · intro h' b' hb'
    by_cases e : h' = h
    · subst e; rw [rsPut_self] at hb'; cases hb'
    · rw [rsPut_other _ _ e] at hb'
      obtain ⟨g1, g2⟩ := v.counted h' b' hb'
      refine ⟨g1, ?_⟩
      rw [g2, countP_erase_mem hm, if_neg]
      · rfl
      · intro e'; exact e (of_decide_eq_true e').symm
  · intro p hp
    obtain ⟨b', hb'⟩ := v.cloned p (List.mem_of_mem_erase hp)
    exact ⟨b', by rw [rsPut_other _ _ (none_left p hp)]; exact hb'⟩
  · intro x h' m
    exact keep x h' (by rintro rfl; exact idle _ m) (v.waits x h' m)
  · intro x h' m
    exact keep x h' (by rintro rfl; exact idle _ m) (v.calls x h' m)
  · intro h' b' x hb'
    by_cases e : h' = h
    · subst e; rw [rsPut_self] at hb'; cases hb'
    · rw [rsPut_other _ _ e] at hb'
      exact v.locked h' b' x hb'

/-- The lock changes hands. -/
theorem RsHInv.relock {handles : Nat → Option RsHandle} {hNext : Nat} {clones : List (Nat × Nat)} {busy busy' : RsBusy}
    (v : RsHInv handles hNext clones busy) {h : Nat} {b : RsHandle} {l : Option Nat} (hb : handles h = some b)
    (hw : ∀ t h', (t, .waiting h') ∈ busy' → (t, .waiting h') ∈ busy)
    (hk : ∀ t h', (t, .calling h') ∈ busy' → (t, h') ∈ clones)
    (hl : ∀ t, l = some t ↔ (t, .calling h) ∈ busy')
    (ho : ∀ t h', h' ≠ h → ((t, .calling h') ∈ busy ↔ (t, .calling h') ∈ busy')) :
    RsHInv (rsPut handles h (some ⟨b.count, l⟩)) hNext clones busy' := by
  refine ⟨?_, ?_, ?_, fun t h' m => v.waits t h' (hw t h' m), hk, ?_⟩
  · intro h' hh
    have : h' ≠ h := by
      rintro rfl
      rw [v.fresh h' hh] at hb
      cases hb
    rw [rsPut_other _ _ this]
    exact v.fresh h' hh
  · intro h' b' hb'
    by_cases e : h' = h
    · subst e
      rw [rsPut_self] at hb'
      cases hb'
      exact v.counted _ b hb
    · rw [rsPut_other _ _ e] at hb'
      exact v.counted h' b' hb'
  · intro p hp
    by_cases e : p.2 = h
    · exact ⟨_, by rw [e]; exact rsPut_self _ _ _⟩
    · obtain ⟨b', hb'⟩ := v.cloned p hp
      exact ⟨b', by rw [rsPut_other _ _ e]; exact hb'⟩
  · intro h' b' t hb'
    by_cases e : h' = h
    · subst e
      rw [rsPut_self] at hb'
      cases hb'
      exact hl t
    · rw [rsPut_other _ _ e] at hb'
      exact (v.locked h' b' t hb').trans (ho t h' e)

/-! ## Iterators -/

/-- One iterator is changed. -/
theorem RsIInv.change {V : Type} {P : ExResult V → Prop} {iters : Nat → Option (RsIter V)} {iNext : Nat} {busy busy' : RsBusy} (v : RsIInv P iters iNext busy)
    {i : Nat} {x : Option (RsIter V)} (hi : i < iNext) (hx : ∀ it, x = some it → it.src.Left P)
    (hb : ∀ t j, (t, .advancing j) ∈ busy' → (t, .advancing j) ∈ busy ∧ (j = i → ∃ it, x = some it ∧ it.owner = t)) :
    RsIInv P (rsPut iters i x) iNext busy' := by
  refine ⟨?_, ?_, ?_⟩
  · intro j hj
    rw [rsPut_other _ _ (by omega)]
    exact v.fresh j hj
  · intro t j m
    obtain ⟨h1, h2⟩ := hb t j m
    by_cases e : j = i
    · obtain ⟨it, h3, h4⟩ := h2 e
      exact ⟨it, by rw [e, rsPut_self]; exact h3, h4⟩
    · rw [rsPut_other _ _ e]
      exact v.owned t j h1
  · intro j it hj
    by_cases e : j = i
    · rw [e, rsPut_self] at hj
      exact hx it hj
    · rw [rsPut_other _ _ e] at hj
      exact v.whole j it hj

theorem RsIInv.lt {V : Type} {P : ExResult V → Prop} {iters : Nat → Option (RsIter V)} {iNext : Nat} {busy : RsBusy} (v : RsIInv P iters iNext busy) {i : Nat}
    {it : RsIter V} (h : iters i = some it) : i < iNext := by
  rcases Nat.lt_or_ge i iNext with h1 | h1
  · exact h1
  · rw [v.fresh i h1] at h; cases h

/-- One is made. -/
theorem RsIInv.made {V : Type} {P : ExResult V → Prop} {iters : Nat → Option (RsIter V)} {iNext : Nat} {busy busy' : RsBusy} (v : RsIInv P iters iNext busy)
    (x : RsIter V) (hx : x.src.Left P) (hb : ∀ t j, (t, .advancing j) ∈ busy' → (t, .advancing j) ∈ busy) :
    RsIInv P (rsPut iters iNext (some x)) (iNext + 1) busy' := by
  refine ⟨?_, ?_, ?_⟩
  · intro j hj
    rw [rsPut_other _ _ (by omega)]
    exact v.fresh j (by omega)
  · intro t j m
    obtain ⟨it, h1, h2⟩ := v.owned t j (hb t j m)
    have := v.lt h1
    exact ⟨it, by rw [rsPut_other _ _ (by omega)]; exact h1, h2⟩
  · intro j it hj
    by_cases e : j = iNext
    · rw [e, rsPut_self] at hj
      cases hj
      exact hx
    · rw [rsPut_other _ _ e] at hj
      exact v.whole j it hj

/-! ## Results -/

theorem RsRInv.lt {V : Type} {P : ExResult V → Prop} {results : Nat → Option (RsResult V)} {rNext : Nat} {views : List RsView} {busy : RsBusy}
    (v : RsRInv P results rNext views busy) {r : Nat} {x : RsResult V} (h : results r = some x) : r < rNext := by
  rcases Nat.lt_or_ge r rNext with h1 | h1
  · exact h1
  · rw [v.fresh r h1] at h; cases h

/-- One result is changed. -/
theorem RsRInv.change {V : Type} {P : ExResult V → Prop} {results : Nat → Option (RsResult V)} {rNext : Nat} {views views' : List RsView}
    {busy busy' : RsBusy} (v : RsRInv P results rNext views busy) {r : Nat} {x : Option (RsResult V)} (hr : r < rNext)
    (hx : ∀ y, x = some y → (y.cache = if y.converted then y.r.mask else []) ∧ P y.r)
    (hb : ∀ t j idx, (t, .ranging j idx) ∈ busy' → (t, .ranging j idx) ∈ busy ∧ (j = r → ∃ y, x = some y ∧ y.owner = t))
    (hv : ∀ w ∈ views', (w.result ≠ r → w ∈ views) ∧ (w.result = r → ∃ y, x = some y ∧ y.converted = true ∧ y.moved = w.moved ∧
      w.index < rustNumRanges y.r))
    (hd : ∀ t w, (t, .reading w) ∈ busy' → w ∈ views' ∧ w.thread = t) : RsRInv P (rsPut results r x) rNext views' busy' := by
  refine ⟨?_, ?_, ?_, ?_, hd⟩
  · intro j hj
    rw [rsPut_other _ _ (by omega)]
    exact v.fresh j hj
  · intro t j idx m
    obtain ⟨h1, h2⟩ := hb t j idx m
    by_cases e : j = r
    · obtain ⟨y, h3, h4⟩ := h2 e
      exact ⟨y, by rw [e, rsPut_self]; exact h3, h4⟩
    · rw [rsPut_other _ _ e]
      exact v.owned t j idx h1
  · intro j y hj
    by_cases e : j = r
    · rw [e, rsPut_self] at hj
      exact hx y hj
    · rw [rsPut_other _ _ e] at hj
      exact v.masks j y hj
  · intro w hw
    obtain ⟨h1, h2⟩ := hv w hw
    by_cases e : w.result = r
    · rw [e, rsPut_self]
      exact h2 e
    · rw [rsPut_other _ _ e]
      exact v.viewed w (h1 e)

/-- One is made. -/
theorem RsRInv.made {V : Type} {P : ExResult V → Prop} {results : Nat → Option (RsResult V)} {rNext : Nat} {views : List RsView} {busy busy' : RsBusy}
    (v : RsRInv P results rNext views busy) (x : RsResult V) (hx : (x.cache = if x.converted then x.r.mask else []) ∧ P x.r)
    (h1 : ∀ t r idx, (t, .ranging r idx) ∈ busy' → (t, .ranging r idx) ∈ busy)
    (h2 : ∀ t w, (t, .reading w) ∈ busy' → (t, .reading w) ∈ busy) : RsRInv P (rsPut results rNext (some x)) (rNext + 1) views busy' := by
  refine ⟨?_, ?_, ?_, ?_, fun t w m => v.reads t w (h2 t w m)⟩
  · intro j hj
    rw [rsPut_other _ _ (by omega)]
    exact v.fresh j (by omega)
  · intro t j idx m
    obtain ⟨y, h3, h4⟩ := v.owned t j idx (h1 t j idx m)
    have := v.lt h3
    exact ⟨y, by rw [rsPut_other _ _ (by omega)]; exact h3, h4⟩
  · intro j y hj
    by_cases e : j = rNext
    · rw [e, rsPut_self] at hj
      cases hj
      exact hx
    · rw [rsPut_other _ _ e] at hj
      exact v.masks j y hj
  · intro w hw
    obtain ⟨y, h3, h4⟩ := v.viewed w hw
    have := v.lt h3
    exact ⟨y, by rw [rsPut_other _ _ (by omega)]; exact h3, h4⟩

theorem convert_owner {V : Type} (x : RsResult V) : x.convert.owner = x.owner := by
  unfold RsResult.convert; split <;> rfl

theorem convert_r {V : Type} (x : RsResult V) : x.convert.r = x.r := by
  unfold RsResult.convert; split <;> rfl

theorem convert_converted {V : Type} (x : RsResult V) : x.convert.converted = true := by
  unfold RsResult.convert; split
  · next h => exact h
  · rfl

theorem convert_cache {V : Type} {x : RsResult V} (h : x.cache = if x.converted then x.r.mask else []) : x.convert.cache = x.r.mask := by
  unfold RsResult.convert
  split
  · next hc => rw [h, if_pos hc]
  · next hc =>
    rw [if_neg hc] at h
    simp only [h, List.nil_append]

theorem convert_same {V : Type} {x : RsResult V} (h : x.converted = true) : x.convert = x := by
  unfold RsResult.convert
  rw [if_pos h]

theorem left_start {R : Type} {P : R → Prop} {l : List R} (h : ∀ r ∈ l, P r) : (⟨l.map some, 0⟩ : VecSource R).Left P := by
  intro j p _ hp
  rw [List.getElem?_map, Option.map_eq_some_iff] at hp
  obtain ⟨r, h1, rfl⟩ := hp
  exact ⟨r, rfl, h r (List.mem_of_getElem? h1)⟩

/-- The next result is there, or there is none, and what is left stays as it is. -/
theorem left_next {R : Type} {P : R → Prop} {s : VecSource R} (h : s.Left P) :
    (s.index < s.data.length ∧ ∃ r s', rustNext s = .ok (some r, s') ∧ P r ∧ s'.Left P) ∨
      (¬ s.index < s.data.length ∧ rustNext s = .ok (none, s)) := by
  by_cases hn : s.index < s.data.length
  · refine Or.inl ⟨hn, ?_⟩
    have hh : s.hasNext = true := decide_eq_true hn
    obtain ⟨p, hp⟩ : ∃ p, s.data[s.index]? = some p := ⟨_, List.getElem?_eq_getElem hn⟩
    obtain ⟨r, rfl, hr⟩ := h _ _ (Nat.le_refl _) hp
    refine ⟨r, ⟨s.data.set s.index none, s.index + 1⟩, ?_, hr, ?_⟩
    · rw [rustNext, if_pos hh, bridgeNext, if_pos hh, VecSource.next, if_pos hh, hp]
      rfl
    · intro j p hj hp
      simp only [] at hj hp
      rw [List.getElem?_set_ne (by omega)] at hp
      exact h j p (by omega) hp
  · refine Or.inr ⟨hn, ?_⟩
    have hh : ¬ s.hasNext = true := by
      unfold VecSource.hasNext
      simpa using hn
    rw [rustNext, if_neg hh]

end GJ
