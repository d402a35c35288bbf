import Verif.Lemmas.RustShare

/-!
# Rust client: no step is undefined
-/

namespace GJ

/-- What the library answers is as `P` says. -/
def RsEv.Delivers {V : Type} (P : ExResult V → Prop) : RsEv V → Prop
  | .answer _ (some rs) => ∀ r ∈ rs, P r
  | _ => True

theorem idle_and {V : Type} {s : RsSys V} {t : Nat} {p : Prop} [Decidable p] (h : (s.idle t && decide p) = true) :
    (∀ w, (t, w) ∉ s.busy) ∧ p := by
  rw [Bool.and_eq_true] at h
  exact ⟨idle_iff.mp h.1, of_decide_eq_true h.2⟩

theorem begin_ok {V : Type} {s : RsSys V} {t : Nat} {w : RsWork} (h : ∀ u w', (u, w') ∈ s.busy → u ≠ t → s.clash w w' = false) :
    s.begin t w =
      .ok (.silent, ⟨s.handles, s.hNext, s.clones, s.iters, s.iNext, s.results, s.rNext, s.views, s.rest t ++ [(t, w)]⟩) := by
  unfold RsSys.begin
  rw [if_neg]
  intro hc
  rw [List.any_eq_true] at hc
  obtain ⟨⟨u, w'⟩, h1, h2⟩ := hc
  obtain ⟨h3, h4⟩ := mem_rest.mp h1
  rw [h u w' h3 h4] at h2
  cases h2

/-- A thread that does not call stays outside or begins something other than a call: nothing changes for the handles. -/
theorem Inv.h_begin {V : Type} {P : ExResult V → Prop} {s : RsSys V} (v : s.Inv P) {t : Nat} {w : RsWork}
    (idle : ∀ h, (t, .calling h) ∉ s.busy) (hw : ∀ h, w = .waiting h → (t, h) ∈ s.clones) (hc : ∀ h, w ≠ .calling h) :
    RsHInv s.handles s.hNext s.clones (s.rest t ++ [(t, w)]) := by
  refine v.h.rebusy ?_ ?_
  · intro u h m
    rcases mem_begin m with ⟨h1, -⟩ | ⟨rfl, h1⟩
    · exact v.h.waits u h h1
    · exact hw h h1.symm
  · intro u h
    constructor
    · intro m
      rcases mem_begin m with ⟨h1, -⟩ | ⟨rfl, h1⟩
      · exact h1
      · exact absurd h1.symm (hc h)
    · intro m
      exact begin_keeps m (by rintro rfl; exact idle h m)

theorem Inv.h_rest {V : Type} {P : ExResult V → Prop} {s : RsSys V} (v : s.Inv P) {t : Nat}
    (idle : ∀ h, (t, .calling h) ∉ s.busy) : RsHInv s.handles s.hNext s.clones (s.rest t) := by
  refine v.h.rebusy (fun u h m => v.h.waits u h (mem_rest.mp m).1) ?_
  intro u h
  exact ⟨fun m => (mem_rest.mp m).1, fun m => mem_rest.mpr ⟨m, by rintro rfl; exact idle h m⟩⟩

theorem Inv.i_rest {V : Type} {P : ExResult V → Prop} {s : RsSys V} (v : s.Inv P) (t : Nat) : RsIInv P s.iters s.iNext (s.rest t) :=
  v.i.rebusy fun _ _ m => (mem_rest.mp m).1

theorem Inv.r_rest {V : Type} {P : ExResult V → Prop} {s : RsSys V} (v : s.Inv P) (t : Nat) :
    RsRInv P s.results s.rNext s.views (s.rest t) :=
  v.r.rebusy (fun _ _ _ m => (mem_rest.mp m).1) fun _ _ m => (mem_rest.mp m).1

theorem Inv.i_begin {V : Type} {P : ExResult V → Prop} {s : RsSys V} (v : s.Inv P) {t : Nat} {w : RsWork}
    (hw : ∀ i, w = .advancing i → ∃ it, s.iters i = some it ∧ it.owner = t) : RsIInv P s.iters s.iNext (s.rest t ++ [(t, w)]) := by
  refine ⟨v.i.fresh, ?_, v.i.whole⟩
  intro u i m
  rcases mem_begin m with ⟨h1, -⟩ | ⟨rfl, h1⟩
  · exact v.i.owned u i h1
  · exact hw i h1.symm

theorem Inv.r_begin {V : Type} {P : ExResult V → Prop} {s : RsSys V} (v : s.Inv P) {t : Nat} {w : RsWork}
    (hw : ∀ r idx, w = .ranging r idx → ∃ x, s.results r = some x ∧ x.owner = t)
    (hd : ∀ k, w = .reading k → k ∈ s.views ∧ k.thread = t) : RsRInv P s.results s.rNext s.views (s.rest t ++ [(t, w)]) := by
  refine ⟨v.r.fresh, ?_, v.r.masks, v.r.viewed, ?_⟩
  · intro u r idx m
    rcases mem_begin m with ⟨h1, -⟩ | ⟨rfl, h1⟩
    · exact v.r.owned u r idx h1
    · exact hw r idx h1.symm
  · intro u k m
    rcases mem_begin m with ⟨h1, -⟩ | ⟨rfl, h1⟩
    · exact v.r.reads u k h1
    · exact hd k h1.symm

theorem Inv.fixed {V : Type} {P : ExResult V → Prop} {s : RsSys V} (v : s.Inv P) {k : RsView} (hk : k ∈ s.views) :
    s.fixed k.result = true := by
  obtain ⟨x, h1, h2, -⟩ := v.r.viewed k hk
  unfold RsSys.fixed
  rw [h1]
  exact h2

/-- No step is undefined, and what holds before it holds after it. -/
theorem rsStep_ok {V : Type} {P : ExResult V → Prop} {s : RsSys V} (v : s.Inv P) (e : RsEv V) (hd : e.Delivers P) :
    ∃ o s', s.step e = .ok (o, s') ∧ s'.Inv P := by
  cases e with
  | new t ok =>
    unfold RsSys.step
    by_cases c : (s.idle t && ok) = true
    · simp only [if_pos c]
      exact ⟨_, _, rfl, v.apart, v.h.made t, v.i, v.r⟩
    · simp only [if_neg c]
      exact ⟨_, _, rfl, v⟩
  | clone t h =>
    unfold RsSys.step
    by_cases c : (s.idle t && decide ((t, h) ∈ s.clones)) = true
    · simp only [if_pos c]
      obtain ⟨-, hm⟩ := idle_and c
      obtain ⟨b, hb⟩ := v.h.cloned _ hm
      simp only [] at hb
      simp only [hb]
      refine ⟨_, _, rfl, v.apart, ?_, v.i, v.r⟩
      obtain ⟨h1, h2⟩ := v.h.counted h b hb
      refine v.h.recount hb (by omega) ?_ ?_ ?_ (fun u h' m => List.mem_append_left _ (v.h.waits u h' m))
        (fun u h' m => List.mem_append_left _ (v.h.calls u h' m))
      · rw [List.countP_append, h2, List.countP_singleton, if_pos (by simp)]
      · intro h' hne
        have h3 : ¬ h = h' := fun e => hne e.symm
        rw [List.countP_append, List.countP_singleton, if_neg (by simp [h3])]
        omega
      · intro p hp
        rcases List.mem_append.mp hp with hp | hp
        · exact Or.inl hp
        · exact Or.inr (by rw [List.mem_singleton.mp hp])
    · simp only [if_neg c]
      exact ⟨_, _, rfl, v⟩
  | give t u h =>
    unfold RsSys.step
    by_cases c : (s.idle t && decide ((t, h) ∈ s.clones)) = true
    · simp only [if_pos c]
      obtain ⟨hi, hm⟩ := idle_and c
      exact ⟨_, _, rfl, v.apart, v.h.moved hm hi, v.i, v.r⟩
    · simp only [if_neg c]
      exact ⟨_, _, rfl, v⟩
  | dropHandle t h =>
    unfold RsSys.step
    by_cases c : (s.idle t && decide ((t, h) ∈ s.clones)) = true
    · simp only [if_pos c]
      obtain ⟨hi, hm⟩ := idle_and c
      obtain ⟨b, hb⟩ := v.h.cloned _ hm
      simp only [] at hb
      simp only [hb]
      by_cases one : b.count = 1
      · obtain ⟨h1, h2⟩ := v.h.last hb hm hi one
        simp only [if_pos one, if_pos h1]
        exact ⟨_, _, rfl, v.apart, h2, v.i, v.r⟩
      · simp only [if_neg one]
        refine ⟨_, _, rfl, v.apart, ?_, v.i, v.r⟩
        obtain ⟨h1, h2⟩ := v.h.counted h b hb
        have keep : ∀ x h', (∃ w, (x, w) ∈ s.busy) → (x, h') ∈ s.clones → (x, h') ∈ s.clones.erase (t, h) := by
          rintro x h' ⟨w, hw⟩ hc
          refine (List.mem_erase_of_ne ?_).mpr hc
          intro e
          obtain ⟨rfl, -⟩ := Prod.mk.inj e
          exact hi w hw
        refine v.h.recount hb (by omega) ?_ ?_ (fun p hp => Or.inl (List.mem_of_mem_erase hp))
          (fun u h' m => keep u h' ⟨_, m⟩ (v.h.waits u h' m)) (fun u h' m => keep u h' ⟨_, m⟩ (v.h.calls u h' m))
        · show _ = (s.clones.erase (t, h)).countP _
          rw [h2, countP_erase_mem hm, if_pos (by simp)]
          omega
        · intro h' hne
          have h3 : ¬ h = h' := fun e => hne e.symm
          show (s.clones.erase (t, h)).countP _ = _
          rw [countP_erase_mem (l := s.clones) hm, if_neg (by simp [h3])]
          omega
    · simp only [if_neg c]
      exact ⟨_, _, rfl, v⟩
  | lock t h =>
    unfold RsSys.step
    by_cases c : (s.idle t && decide ((t, h) ∈ s.clones)) = true
    · simp only [if_pos c]
      obtain ⟨hi, hm⟩ := idle_and c
      rw [begin_ok (fun _ _ _ _ => rfl)]
      refine ⟨_, _, rfl, begin_apart v.apart _ _, ?_, ?_, ?_⟩
      · exact Inv.h_begin v (fun _ => hi _) (fun h' e => (by cases e; exact hm)) (fun _ e => (by cases e))
      · exact Inv.i_begin v (fun _ e => (by cases e))
      · exact Inv.r_begin v (fun _ _ e => (by cases e)) (fun _ e => (by cases e))
    · simp only [if_neg c]
      exact ⟨_, _, rfl, v⟩
  | enter t =>
    simp only [RsSys.step]
    cases hw : s.work t with
    | none => exact ⟨_, _, rfl, v⟩
    | some w =>
      cases w with
      | waiting h =>
        have m := work_mem hw
        have hc := v.h.waits t h m
        obtain ⟨b, hb⟩ := v.h.cloned _ hc
        simp only [] at hb
        simp only [hb]
        by_cases c : b.lock = none
        · simp only [if_pos c]
          have nocall : ∀ u, (u, .calling h) ∉ s.busy := by
            intro u m'
            rw [← v.h.locked h b u hb, c] at m'
            cases m'
          have notme : ∀ h', (t, .calling h') ∉ s.busy := by
            intro h' m'
            cases busy_fun v.apart m m'
          rw [begin_ok]
          · refine ⟨_, _, rfl, begin_apart v.apart _ _, ?_, ?_, ?_⟩
            · refine v.h.relock hb ?_ ?_ ?_ ?_
              · intro u h' m'
                rcases mem_begin m' with ⟨h1, -⟩ | ⟨-, h1⟩
                · exact h1
                · cases h1
              · intro u h' m'
                rcases mem_begin m' with ⟨h1, -⟩ | ⟨rfl, h1⟩
                · exact v.h.calls u h' h1
                · cases h1; exact hc
              · intro u
                constructor
                · rintro ⟨⟩
                  exact begin_mem (s := s)
                · intro m'
                  rcases mem_begin m' with ⟨h1, -⟩ | ⟨rfl, -⟩
                  · exact absurd h1 (nocall u)
                  · rfl
              · intro u h' hne
                constructor
                · intro m'
                  exact begin_keeps m' (by rintro rfl; exact notme h' m')
                · intro m'
                  rcases mem_begin m' with ⟨h1, -⟩ | ⟨-, h1⟩
                  · exact h1
                  · cases h1; exact absurd rfl hne
            · exact Inv.i_begin v (fun _ e => (by cases e))
            · exact Inv.r_begin v (fun _ _ e => (by cases e)) (fun _ e => (by cases e))
          · intro u w' m' _
            cases w' with
            | calling h' =>
              have hne : ¬ h = h' := by
                rintro rfl
                exact nocall u m'
              exact decide_eq_false hne
            | _ => rfl
        · simp only [if_neg c]
          exact ⟨_, _, rfl, v⟩
      | _ => exact ⟨_, _, rfl, v⟩
  | answer t out =>
    simp only [RsSys.step]
    cases hw : s.work t with
    | none => exact ⟨_, _, rfl, v⟩
    | some w =>
      cases w with
      | calling h =>
        have m := work_mem hw
        have hc := v.h.calls t h m
        obtain ⟨b, hb⟩ := v.h.cloned _ hc
        simp only [] at hb
        have hlk := (v.h.locked h b t hb).mpr m
        have hh : RsHInv (rsPut s.handles h (some ⟨b.count, none⟩)) s.hNext s.clones (s.rest t) := by
          refine v.h.relock hb (fun u h' m' => (mem_rest.mp m').1) (fun u h' m' => v.h.calls u h' (mem_rest.mp m').1) ?_ ?_
          · intro u
            constructor
            · intro e; cases e
            · intro m'
              obtain ⟨h1, h2⟩ := mem_rest.mp m'
              have := (v.h.locked h b u hb).mpr h1
              rw [hlk] at this
              exact absurd (Option.some.inj this).symm h2
          · intro u h' hne
            refine ⟨fun m' => mem_rest.mpr ⟨m', ?_⟩, fun m' => (mem_rest.mp m').1⟩
            rintro rfl
            cases busy_fun v.apart m m'
            exact hne rfl
        simp only [hb]
        cases out with
        | none => exact ⟨_, _, rfl, rest_apart v.apart _, hh, Inv.i_rest v _, Inv.r_rest v _⟩
        | some rs =>
          exact ⟨_, _, rfl, rest_apart v.apart _, hh, v.i.made _ (left_start hd) (fun _ _ m' => (mem_rest.mp m').1), Inv.r_rest v _⟩
      | _ => exact ⟨_, _, rfl, v⟩
  | next t i =>
    simp only [RsSys.step]
    cases hi : s.iters i with
    | none => exact ⟨_, _, rfl, v⟩
    | some it =>
      simp only []
      by_cases c : (s.idle t && decide (it.owner = t)) = true
      · rw [if_pos c]
        obtain ⟨h1, h2⟩ := idle_and c
        rw [begin_ok]
        · refine ⟨_, _, rfl, begin_apart v.apart _ _, ?_, ?_, ?_⟩
          · exact Inv.h_begin v (fun _ => h1 _) (fun h' e => (by cases e)) (fun _ e => (by cases e))
          · exact Inv.i_begin v (fun _ e => (by cases e; exact ⟨it, hi, h2⟩))
          · exact Inv.r_begin v (fun _ _ e => (by cases e)) (fun _ e => (by cases e))
        · intro u w' m' hne
          cases w' with
          | advancing j =>
            refine decide_eq_false ?_
            rintro rfl
            obtain ⟨it', h3, h4⟩ := v.i.owned u _ m'
            rw [hi] at h3
            cases h3
            exact hne (h4.symm.trans h2)
          | _ => rfl
      · rw [if_neg c]
        exact ⟨_, _, rfl, v⟩
  | advanced t =>
    simp only [RsSys.step]
    cases hw : s.work t with
    | none => exact ⟨_, _, rfl, v⟩
    | some w =>
      cases w with
      | advancing i =>
        have m := work_mem hw
        obtain ⟨it, h1, h2⟩ := v.i.owned t i m
        have nocall : ∀ h, (t, .calling h) ∉ s.busy := by
          intro h m'
          cases busy_fun v.apart m m'
        have hch : ∀ x : RsIter V, x.owner = t → x.src.Left P → RsIInv P (rsPut s.iters i (some x)) s.iNext (s.rest t) := by
          intro x hx hl
          refine v.i.change (v.i.lt h1) (fun y e => (by cases e; exact hl)) ?_
          intro u j m'
          obtain ⟨h3, h4⟩ := mem_rest.mp m'
          refine ⟨h3, ?_⟩
          rintro rfl
          obtain ⟨it', h5, h6⟩ := v.i.owned u _ h3
          rw [h1] at h5
          cases h5
          exact absurd (h6.symm.trans h2) h4
        simp only [h1]
        rcases left_next (v.i.whole i it h1) with ⟨-, r, s', hr, hp, hl⟩ | ⟨-, hr⟩
        · simp only [hr]
          exact ⟨_, _, rfl, rest_apart v.apart _, Inv.h_rest v nocall, hch _ h2 hl,
            v.r.made _ ⟨rfl, hp⟩ (fun _ _ _ m' => (mem_rest.mp m').1) (fun _ _ m' => (mem_rest.mp m').1)⟩
        · simp only [hr]
          exact ⟨_, _, rfl, rest_apart v.apart _, Inv.h_rest v nocall, hch _ h2 (v.i.whole i it h1), Inv.r_rest v _⟩
      | _ => exact ⟨_, _, rfl, v⟩
  | giveIter t u i =>
    simp only [RsSys.step]
    cases hi : s.iters i with
    | none => exact ⟨_, _, rfl, v⟩
    | some it =>
      simp only []
      by_cases c : (s.idle t && decide (it.owner = t)) = true
      · rw [if_pos c]
        obtain ⟨h1, h2⟩ := idle_and c
        refine ⟨_, _, rfl, v.apart, v.h, ?_, v.r⟩
        refine v.i.change (v.i.lt hi) (fun y e => (by cases e; exact v.i.whole i it hi)) ?_
        intro x j m'
        refine ⟨m', ?_⟩
        rintro rfl
        obtain ⟨it', h5, h6⟩ := v.i.owned x _ m'
        rw [hi] at h5
        cases h5
        rw [h2] at h6
        rw [← h6] at m'
        exact absurd m' (h1 _)
      · rw [if_neg c]
        exact ⟨_, _, rfl, v⟩
  | dropIter t i =>
    simp only [RsSys.step]
    cases hi : s.iters i with
    | none => exact ⟨_, _, rfl, v⟩
    | some it =>
      simp only []
      by_cases c : (s.idle t && decide (it.owner = t)) = true
      · rw [if_pos c]
        obtain ⟨h1, h2⟩ := idle_and c
        refine ⟨_, _, rfl, v.apart, v.h, ?_, v.r⟩
        refine v.i.change (v.i.lt hi) (fun y e => (by cases e)) ?_
        intro x j m'
        refine ⟨m', ?_⟩
        rintro rfl
        obtain ⟨it', h5, h6⟩ := v.i.owned x _ m'
        rw [hi] at h5
        cases h5
        rw [h2] at h6
        rw [← h6] at m'
        exact absurd m' (h1 _)
      · rw [if_neg c]
        exact ⟨_, _, rfl, v⟩
  | giveResult t u r =>
    simp only [RsSys.step]
    cases hi : s.results r with
    | none => exact ⟨_, _, rfl, v⟩
    | some x =>
      simp only []
      by_cases c : (s.idle t && decide (x.owner = t) && s.views.all (fun v => decide (v.result ≠ r))) = true
      · rw [if_pos c]
        rw [Bool.and_eq_true] at c
        obtain ⟨h1, h2⟩ := idle_and c.1
        have h3 := List.all_eq_true.mp c.2
        refine ⟨_, _, rfl, v.apart, v.h, v.i, ?_⟩
        refine v.r.change (v.r.lt hi) (fun y e => (by cases e; exact v.r.masks r x hi)) ?_ ?_ v.r.reads
        · intro y j idx m'
          refine ⟨m', ?_⟩
          rintro rfl
          obtain ⟨x', h5, h6⟩ := v.r.owned y _ idx m'
          rw [hi] at h5
          cases h5
          rw [h2] at h6
          rw [← h6] at m'
          exact absurd m' (h1 _)
        · intro w hw
          exact ⟨fun _ => hw, fun e => absurd e (of_decide_eq_true (h3 w hw))⟩
      · rw [if_neg c]
        exact ⟨_, _, rfl, v⟩
  | dropResult t r =>
    simp only [RsSys.step]
    cases hi : s.results r with
    | none => exact ⟨_, _, rfl, v⟩
    | some x =>
      simp only []
      by_cases c : (s.idle t && decide (x.owner = t) && s.views.all (fun v => decide (v.result ≠ r))) = true
      · rw [if_pos c]
        rw [Bool.and_eq_true] at c
        obtain ⟨h1, h2⟩ := idle_and c.1
        have h3 := List.all_eq_true.mp c.2
        refine ⟨_, _, rfl, v.apart, v.h, v.i, ?_⟩
        refine v.r.change (v.r.lt hi) (fun y e => (by cases e)) ?_ ?_ v.r.reads
        · intro y j idx m'
          refine ⟨m', ?_⟩
          rintro rfl
          obtain ⟨x', h5, h6⟩ := v.r.owned y _ idx m'
          rw [hi] at h5
          cases h5
          rw [h2] at h6
          rw [← h6] at m'
          exact absurd m' (h1 _)
        · intro w hw
          exact ⟨fun _ => hw, fun e => absurd e (of_decide_eq_true (h3 w hw))⟩
      · rw [if_neg c]
        exact ⟨_, _, rfl, v⟩
  | range t r idx =>
    simp only [RsSys.step]
    cases hi : s.results r with
    | none => exact ⟨_, _, rfl, v⟩
    | some x =>
      simp only []
      by_cases c : (s.idle t && decide (x.owner = t)) = true
      · rw [if_pos c]
        obtain ⟨h1, h2⟩ := idle_and c
        rw [begin_ok]
        · refine ⟨_, _, rfl, begin_apart v.apart _ _, ?_, ?_, ?_⟩
          · exact Inv.h_begin v (fun _ => h1 _) (fun h' e => (by cases e)) (fun _ e => (by cases e))
          · exact Inv.i_begin v (fun _ e => (by cases e))
          · exact Inv.r_begin v (fun _ _ e => (by cases e; exact ⟨x, hi, h2⟩)) (fun _ e => (by cases e))
        · intro u w' m' hne
          cases w' with
          | ranging j k =>
            show (decide (r = j) && !s.fixed r) = false
            rw [decide_eq_false, Bool.false_and]
            rintro rfl
            obtain ⟨x', h3, h4⟩ := v.r.owned u _ _ m'
            rw [hi] at h3
            cases h3
            exact hne (h4.symm.trans h2)
          | reading k =>
            show (decide (r = k.result) && !s.fixed r) = false
            by_cases e : r = k.result
            · rw [e, Inv.fixed v (v.r.reads u k m').1]
              simp
            · rw [decide_eq_false e, Bool.false_and]
          | _ => rfl
      · rw [if_neg c]
        exact ⟨_, _, rfl, v⟩
  | ranged t =>
    simp only [RsSys.step]
    cases hw : s.work t with
    | none => exact ⟨_, _, rfl, v⟩
    | some w =>
      cases w with
      | ranging r idx =>
        have m := work_mem hw
        obtain ⟨x, h1, h2⟩ := v.r.owned t r idx m
        have nocall : ∀ h, (t, .calling h) ∉ s.busy := by
          intro h m'
          cases busy_fun v.apart m m'
        simp only [h1]
        by_cases c : idx ≥ rustNumRanges x.r
        · rw [if_pos c]
          exact ⟨_, _, rfl, rest_apart v.apart _, Inv.h_rest v nocall, Inv.i_rest v _, Inv.r_rest v _⟩
        · rw [if_neg c]
          obtain ⟨hx, hp⟩ := v.r.masks r x h1
          refine ⟨_, _, rfl, rest_apart v.apart _, Inv.h_rest v nocall, Inv.i_rest v _, ?_⟩
          refine v.r.change (v.r.lt h1) ?_ ?_ ?_ ?_
          · intro y e
            cases e
            rw [if_pos (convert_converted x), convert_cache hx, convert_r]
            exact ⟨rfl, hp⟩
          · intro u j k m'
            obtain ⟨h3, h4⟩ := mem_rest.mp m'
            refine ⟨h3, ?_⟩
            rintro rfl
            obtain ⟨x', h5, h6⟩ := v.r.owned u _ k h3
            rw [h1] at h5
            cases h5
            exact absurd (h6.symm.trans h2) h4
          · intro w hv
            rcases List.mem_append.mp hv with hv | hv
            · refine ⟨fun _ => hv, ?_⟩
              intro e
              obtain ⟨x', h5, h6, h7, h8⟩ := v.r.viewed w hv
              rw [e, h1] at h5
              cases h5
              rw [convert_same h6]
              exact ⟨x, rfl, h6, h7, h8⟩
            · rw [List.mem_singleton.mp hv]
              refine ⟨fun e => absurd rfl e, fun _ => ⟨x.convert, rfl, convert_converted x, rfl, ?_⟩⟩
              rw [convert_r]
              exact Nat.lt_of_not_le c
          · intro u w m'
            obtain ⟨h3, h4⟩ := v.r.reads u w (mem_rest.mp m').1
            exact ⟨List.mem_append_left _ h3, h4⟩
      | _ => exact ⟨_, _, rfl, v⟩
  | copyView t u k =>
    unfold RsSys.step
    by_cases c : (s.idle t && decide (k ∈ s.views) && decide (k.thread = t)) = true
    · simp only [if_pos c]
      rw [Bool.and_eq_true] at c
      obtain ⟨-, h2⟩ := idle_and c.1
      refine ⟨_, _, rfl, v.apart, v.h, v.i, v.r.fresh, v.r.owned, v.r.masks, ?_, ?_⟩
      · intro w hw
        rcases List.mem_append.mp hw with hw | hw
        · exact v.r.viewed w hw
        · rw [List.mem_singleton.mp hw]
          exact v.r.viewed k h2
      · intro x w m'
        obtain ⟨h3, h4⟩ := v.r.reads x w m'
        exact ⟨List.mem_append_left _ h3, h4⟩
    · simp only [if_neg c]
      exact ⟨_, _, rfl, v⟩
  | dropView t k =>
    unfold RsSys.step
    by_cases c : (s.idle t && decide (k.thread = t)) = true
    · simp only [if_pos c]
      obtain ⟨h1, h2⟩ := idle_and c
      refine ⟨_, _, rfl, v.apart, v.h, v.i, v.r.fresh, v.r.owned, v.r.masks, ?_, ?_⟩
      · intro w hw
        exact v.r.viewed w (List.mem_of_mem_erase hw)
      · intro x w m'
        obtain ⟨h3, h4⟩ := v.r.reads x w m'
        refine ⟨(List.mem_erase_of_ne ?_).mpr h3, h4⟩
        rintro rfl
        rw [← h4, h2] at m'
        exact h1 _ m'
    · simp only [if_neg c]
      exact ⟨_, _, rfl, v⟩
  | read t k =>
    unfold RsSys.step
    by_cases c : (s.idle t && decide (k ∈ s.views) && decide (k.thread = t)) = true
    · simp only [if_pos c]
      rw [Bool.and_eq_true] at c
      obtain ⟨h1, h2⟩ := idle_and c.1
      have h3 := of_decide_eq_true c.2
      rw [begin_ok]
      · refine ⟨_, _, rfl, begin_apart v.apart _ _, ?_, ?_, ?_⟩
        · exact Inv.h_begin v (fun _ => h1 _) (fun h' e => (by cases e)) (fun _ e => (by cases e))
        · exact Inv.i_begin v (fun _ e => (by cases e))
        · exact Inv.r_begin v (fun _ _ e => (by cases e)) (fun _ e => (by cases e; exact ⟨h2, h3⟩))
      · intro u w' m' hne
        cases w' with
        | ranging j i =>
          show (decide (j = k.result) && !s.fixed j) = false
          by_cases e : j = k.result
          · rw [e, Inv.fixed v h2]
            simp
          · rw [decide_eq_false e, Bool.false_and]
        | _ => rfl
    · simp only [if_neg c]
      exact ⟨_, _, rfl, v⟩
  | readDone t =>
    simp only [RsSys.step]
    cases hw : s.work t with
    | none => exact ⟨_, _, rfl, v⟩
    | some w =>
      cases w with
      | reading k =>
        have m := work_mem hw
        obtain ⟨h1, h2⟩ := v.r.reads t k m
        obtain ⟨x, h3, h4, h5, h6⟩ := v.r.viewed k h1
        have nocall : ∀ h, (t, .calling h) ∉ s.busy := by
          intro h m'
          cases busy_fun v.apart m m'
        simp only [h3, if_pos h5]
        exact ⟨_, _, rfl, rest_apart v.apart _, Inv.h_rest v nocall, Inv.i_rest v _, Inv.r_rest v _⟩
      | _ => exact ⟨_, _, rfl, v⟩

/-- Nor is any interleaving. -/
theorem rsRun_ok {V : Type} {P : ExResult V → Prop} (es : List (RsEv V)) {s : RsSys V} (v : s.Inv P)
    (hd : ∀ e ∈ es, e.Delivers P) : ∃ os s', s.run es = .ok (os, s') ∧ s'.Inv P := by
  induction es generalizing s with
  | nil => exact ⟨[], s, rfl, v⟩
  | cons e es ih =>
    obtain ⟨o, s1, h1, v1⟩ := rsStep_ok v e (hd e (List.mem_cons_self ..))
    obtain ⟨os, s2, h2, v2⟩ := ih v1 fun x hx => hd x (List.mem_cons_of_mem _ hx)
    refine ⟨o :: os, s2, ?_, v2⟩
    unfold RsSys.run
    rw [h1]
    simp only [h2]

end GJ
