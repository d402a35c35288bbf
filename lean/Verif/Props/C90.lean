import Verif.Lemmas.RustStep
import Verif.Props.C35

/-!
# C90: threads that share Rust handles, iterators, results and views
-/

namespace GJ

/-- The library has answered a call with `r` among its results. -/
def LibraryGave {V : Type} (es : List (RsEv V)) (r : ExResult V) : Prop := ∃ t rs, RsEv.answer t (some rs) ∈ es ∧ r ∈ rs

theorem delivers_all {V : Type} (es : List (RsEv V)) : ∀ e ∈ es, e.Delivers (LibraryGave es) := by
  intro e he
  cases e with
  | answer t out =>
    cases out with
    | none => exact trivial
    | some rs => exact fun r hr => ⟨t, rs, he, hr⟩
  | _ => exact trivial

theorem reached_inv {V : Type} {es : List (RsEv V)} {os : List (RsShown V)} {s : RsSys V} (h : RsSys.empty.run es = .ok (os, s)) :
    s.Inv (LibraryGave es) := by
  obtain ⟨os', s', h1, v⟩ := rsRun_ok es (rsInv_empty (LibraryGave es)) (delivers_all es)
  rw [h] at h1
  obtain ⟨rfl, rfl⟩ := Prod.mk.inj (Except.ok.inj h1)
  exact v

/-- **C90.**  However many threads do whatever they can write down with handles, clones, iterators, results and views, in any
interleaving and with any answers of the library: no two of them are at one object while one changes it, and none uses an object
that is gone or moved. -/
theorem C90_never_undefined {V : Type} (es : List (RsEv V)) : ∃ os s, (RsSys.empty : RsSys V).run es = .ok (os, s) := by
  obtain ⟨os, s, h, -⟩ := rsRun_ok es (rsInv_empty fun _ => True) (by
    intro e _
    cases e with
    | answer t out =>
      cases out with
      | none => exact trivial
      | some rs => exact fun _ _ => trivial
    | _ => exact trivial)
  exact ⟨os, s, h⟩

/-- One call at a time on a handle and all its clones, one thread at a time in an iterator, one thread at a time asking a result
for ranges. -/
theorem C90_one_at_a_time {V : Type} {es : List (RsEv V)} {os : List (RsShown V)} {s : RsSys V}
    (h : RsSys.empty.run es = .ok (os, s)) {t u : Nat} :
    (∀ b, (t, .calling b) ∈ s.busy → (u, .calling b) ∈ s.busy → t = u) ∧
    (∀ i, (t, .advancing i) ∈ s.busy → (u, .advancing i) ∈ s.busy → t = u) ∧
    (∀ r i j, (t, .ranging r i) ∈ s.busy → (u, .ranging r j) ∈ s.busy → t = u) := by
  have v := reached_inv h
  refine ⟨?_, ?_, ?_⟩
  · intro b h1 h2
    obtain ⟨x, hx⟩ := v.h.cloned _ (v.h.calls t b h1)
    simp only [] at hx
    have h3 := (v.h.locked b x t hx).mpr h1
    rw [(v.h.locked b x u hx).mpr h2] at h3
    exact (Option.some.inj h3).symm
  · intro i h1 h2
    obtain ⟨x, hx, h3⟩ := v.i.owned t i h1
    obtain ⟨y, hy, h4⟩ := v.i.owned u i h2
    rw [hx] at hy
    cases hy
    exact h3.symm.trans h4
  · intro r i j h1 h2
    obtain ⟨x, hx, h3⟩ := v.r.owned t r i h1
    obtain ⟨y, hy, h4⟩ := v.r.owned u r j h2
    rw [hx] at hy
    cases hy
    exact h3.symm.trans h4

/-- The library's handle lives exactly as long as one of the clones does, on whatever thread. -/
theorem C90_handle_with_its_clones {V : Type} {es : List (RsEv V)} {os : List (RsShown V)} {s : RsSys V}
    (h : RsSys.empty.run es = .ok (os, s)) (b : Nat) : (s.handles b).isSome = true ↔ ∃ t, (t, b) ∈ s.clones := by
  have v := reached_inv h
  constructor
  · intro hs
    obtain ⟨x, hx⟩ := Option.isSome_iff_exists.mp hs
    obtain ⟨h1, h2⟩ := v.h.counted b x hx
    rw [h2] at h1
    obtain ⟨⟨t, b'⟩, h3, h4⟩ := List.countP_pos_iff.mp h1
    cases of_decide_eq_true h4
    exact ⟨t, h3⟩
  · rintro ⟨t, ht⟩
    obtain ⟨x, hx⟩ := v.h.cloned _ ht
    simp only [] at hx
    rw [hx]
    rfl

theorem work_of {V : Type} {P : ExResult V → Prop} {s : RsSys V} (v : s.Inv P) {t : Nat} {w : RsWork} (h : (t, w) ∈ s.busy) :
    s.work t = some w := by
  have hs : (s.busy.find? fun p => decide (p.1 = t)).isSome = true := by
    rw [List.find?_isSome]
    exact ⟨_, h, by simp⟩
  obtain ⟨⟨u, w'⟩, hx⟩ := Option.isSome_iff_exists.mp hs
  have h2 := List.find?_some hx
  cases of_decide_eq_true h2
  cases busy_fun v.apart h (List.mem_of_find?_eq_some hx)
  unfold RsSys.work
  rw [hx]
  rfl

/-- A thread that waits while nobody is inside gets in. -/
theorem enter_free {V : Type} {P : ExResult V → Prop} {s : RsSys V} (v : s.Inv P) {t b : Nat} {x : RsHandle}
    (m : (t, .waiting b) ∈ s.busy) (hx : s.handles b = some x) (free : x.lock = none) :
    ∃ s', s.step (.enter t) = .ok (.silent, s') ∧ (t, .calling b) ∈ s'.busy := by
  obtain ⟨o, s', h1, v'⟩ := rsStep_ok v (.enter t) trivial
  have h2 := h1
  simp only [RsSys.step, work_of v m, hx, if_pos free, RsSys.begin] at h2
  split at h2
  · cases h2
  · obtain ⟨rfl, rfl⟩ := Prod.mk.inj (Except.ok.inj h2)
    exact ⟨_, h1, List.mem_append_right _ (List.mem_singleton.mpr rfl)⟩

/-- A lock is never lost: a thread that waits gets in at once, or there is a thread inside, and as soon as the library has
answered that thread — with results or with an error — the waiting one gets in. -/
theorem C90_never_stuck {V : Type} {es : List (RsEv V)} {os : List (RsShown V)} {s : RsSys V}
    (h : RsSys.empty.run es = .ok (os, s)) {t b : Nat} (m : (t, .waiting b) ∈ s.busy) :
    (∃ s', s.step (.enter t) = .ok (.silent, s') ∧ (t, .calling b) ∈ s'.busy) ∨
    ∃ u, u ≠ t ∧ (u, .calling b) ∈ s.busy ∧ ∀ out, ∃ o s1 s2, s.step (.answer u out) = .ok (o, s1) ∧
      s1.step (.enter t) = .ok (.silent, s2) ∧ (t, .calling b) ∈ s2.busy := by
  have v := reached_inv h
  obtain ⟨x, hx⟩ := v.h.cloned _ (v.h.waits t b m)
  simp only [] at hx
  cases hl : x.lock with
  | none => exact Or.inl (enter_free v m hx hl)
  | some u =>
    have mu := (v.h.locked b x u hx).mp hl
    have hne : u ≠ t := by
      rintro rfl
      cases busy_fun v.apart m mu
    refine Or.inr ⟨u, hne, mu, ?_⟩
    intro out
    have v' := v
    obtain ⟨P, vP, hP⟩ : ∃ P : ExResult V → Prop, s.Inv P ∧ (RsEv.answer u out).Delivers P := by
      refine ⟨fun _ => True, ⟨v.apart, v.h, ⟨v.i.fresh, v.i.owned, ?_⟩, ⟨v.r.fresh, v.r.owned, ?_, v.r.viewed, v.r.reads⟩⟩, ?_⟩
      · intro i it hi j p hj hp
        obtain ⟨r, hr, -⟩ := v.i.whole i it hi j p hj hp
        exact ⟨r, hr, trivial⟩
      · intro r y hy
        exact ⟨(v.r.masks r y hy).1, trivial⟩
      · cases out with
        | none => exact trivial
        | some rs => exact fun _ _ => trivial
    obtain ⟨o, s1, h1, v1⟩ := rsStep_ok vP (.answer u out) hP
    have h2 := h1
    have hs1 : (t, .waiting b) ∈ s1.busy ∧ s1.handles b = some ⟨x.count, none⟩ := by
      have mr : (t, .waiting b) ∈ s.rest u := mem_rest.mpr ⟨m, fun e => hne e.symm⟩
      cases out with
      | none =>
        simp only [RsSys.step, work_of vP mu, hx] at h2
        obtain ⟨-, rfl⟩ := Prod.mk.inj (Except.ok.inj h2)
        exact ⟨mr, rsPut_self _ _ _⟩
      | some rs =>
        simp only [RsSys.step, work_of vP mu, hx] at h2
        obtain ⟨-, rfl⟩ := Prod.mk.inj (Except.ok.inj h2)
        exact ⟨mr, rsPut_self _ _ _⟩
    obtain ⟨s2, h3, h4⟩ := enter_free v1 hs1.1 hs1.2 rfl
    exact ⟨o, s1, s2, h1, h3, h4⟩

/-- A thread that holds a clone and is not busy can always ask for the lock. -/
theorem C90_can_call {V : Type} {es : List (RsEv V)} {os : List (RsShown V)} {s : RsSys V}
    (h : RsSys.empty.run es = .ok (os, s)) {t b : Nat} (hc : (t, b) ∈ s.clones) (idle : ∀ w, (t, w) ∉ s.busy) :
    ∃ s', s.step (.lock t b) = .ok (.silent, s') ∧ (t, .waiting b) ∈ s'.busy := by
  have _v := reached_inv h
  refine ⟨⟨s.handles, s.hNext, s.clones, s.iters, s.iNext, s.results, s.rNext, s.views, s.rest t ++ [(t, .waiting b)]⟩, ?_,
    begin_mem (s := s)⟩
  rw [RsSys.step, if_pos, begin_ok (fun _ _ _ _ => rfl)]
  rw [Bool.and_eq_true]
  exact ⟨idle_iff.mpr idle, decide_eq_true hc⟩

/-- **What a view shows.**  A slice read on any thread has the values and the mask words of one range of a result the library
has delivered. -/
theorem C90_view_shows {V : Type} {es : List (RsEv V)} {os : List (RsShown V)} {s : RsSys V}
    (h : RsSys.empty.run es = .ok (os, s)) {t : Nat} {w : RsView} (m : (t, .reading w) ∈ s.busy) :
    ∃ s' r, s.step (.readDone t) = .ok (.content ⟨(r.values[w.index]?).getD [], (r.mask[w.index]?).getD []⟩, s') ∧
      LibraryGave es r ∧ w.index < r.values.length ∧ ∃ x, s.results w.result = some x ∧ x.r = r := by
  have v := reached_inv h
  obtain ⟨h1, h2⟩ := v.r.reads t w m
  obtain ⟨x, h3, h4, h5, h6⟩ := v.r.viewed w h1
  obtain ⟨h7, h8⟩ := v.r.masks _ x h3
  rw [if_pos h4] at h7
  refine ⟨⟨s.handles, s.hNext, s.clones, s.iters, s.iNext, s.results, s.rNext, s.views, s.rest t⟩, x.r, ?_, h8, h6, x, h3, rfl⟩
  simp only [RsSys.step, work_of v m, h3, if_pos h5, h7]
  rfl

/-! ## What a result holds never changes -/

/-- The result is gone, or it holds what it held. -/
def Holding {V : Type} (s s' : RsSys V) : Prop :=
  s.rNext ≤ s'.rNext ∧ ∀ r, r < s.rNext → ∀ y, s'.results r = some y → ∃ x, s.results r = some x ∧ x.r = y.r

theorem holding_same {V : Type} {s s' : RsSys V} (h1 : s'.results = s.results) (h2 : s'.rNext = s.rNext) : Holding s s' := by
  refine ⟨by omega, ?_⟩
  intro r _ y hy
  rw [h1] at hy
  exact ⟨y, hy, rfl⟩

theorem holding_put {V : Type} {s s' : RsSys V} {r : Nat} {x y : RsResult V} (h0 : s.results r = some x)
    (h1 : s'.results = rsPut s.results r (some y)) (h2 : s'.rNext = s.rNext) (he : y.r = x.r) : Holding s s' := by
  refine ⟨by omega, ?_⟩
  intro j _ z hz
  rw [h1] at hz
  by_cases e : j = r
  · rw [e, rsPut_self] at hz
    cases hz
    exact ⟨x, by rw [e]; exact h0, he.symm⟩
  · rw [rsPut_other _ _ e] at hz
    exact ⟨z, hz, rfl⟩

theorem holding_gone {V : Type} {s s' : RsSys V} {r : Nat} (h1 : s'.results = rsPut s.results r none) (h2 : s'.rNext = s.rNext) :
    Holding s s' := by
  refine ⟨by omega, ?_⟩
  intro j _ z hz
  rw [h1] at hz
  by_cases e : j = r
  · rw [e, rsPut_self] at hz
    cases hz
  · rw [rsPut_other _ _ e] at hz
    exact ⟨z, hz, rfl⟩

theorem holding_new {V : Type} {s s' : RsSys V} {y : RsResult V} (h1 : s'.results = rsPut s.results s.rNext (some y))
    (h2 : s'.rNext = s.rNext + 1) : Holding s s' := by
  refine ⟨by omega, ?_⟩
  intro j hj z hz
  rw [h1, rsPut_other _ _ (by omega)] at hz
  exact ⟨z, hz, rfl⟩

theorem begin_holding {V : Type} {s s' : RsSys V} {t : Nat} {w : RsWork} {o : RsShown V} (h : s.begin t w = .ok (o, s')) :
    Holding s s' := by
  unfold RsSys.begin at h
  split at h
  · cases h
  · obtain ⟨-, rfl⟩ := Prod.mk.inj (Except.ok.inj h)
    exact holding_same rfl rfl

theorem step_holding {V : Type} {s s' : RsSys V} {e : RsEv V} {o : RsShown V} (h : s.step e = .ok (o, s')) : Holding s s' := by
  cases e with
  | lock t b =>
    simp only [RsSys.step] at h
    split at h
    · exact begin_holding h
    · obtain ⟨-, rfl⟩ := Prod.mk.inj (Except.ok.inj h); exact holding_same rfl rfl
  | read t k =>
    simp only [RsSys.step] at h
    split at h
    · exact begin_holding h
    · obtain ⟨-, rfl⟩ := Prod.mk.inj (Except.ok.inj h); exact holding_same rfl rfl
  | next t i =>
    simp only [RsSys.step] at h
    split at h
    · split at h
      · exact begin_holding h
      · obtain ⟨-, rfl⟩ := Prod.mk.inj (Except.ok.inj h); exact holding_same rfl rfl
    · obtain ⟨-, rfl⟩ := Prod.mk.inj (Except.ok.inj h); exact holding_same rfl rfl
  | range t r idx =>
    simp only [RsSys.step] at h
    split at h
    · split at h
      · exact begin_holding h
      · obtain ⟨-, rfl⟩ := Prod.mk.inj (Except.ok.inj h); exact holding_same rfl rfl
    · obtain ⟨-, rfl⟩ := Prod.mk.inj (Except.ok.inj h); exact holding_same rfl rfl
  | enter t =>
    simp only [RsSys.step] at h
    split at h
    · split at h
      · split at h
        · obtain ⟨a, b⟩ := begin_holding h
          exact ⟨a, b⟩
        · obtain ⟨-, rfl⟩ := Prod.mk.inj (Except.ok.inj h); exact holding_same rfl rfl
      · cases h
    · obtain ⟨-, rfl⟩ := Prod.mk.inj (Except.ok.inj h); exact holding_same rfl rfl
  | advanced t =>
    simp only [RsSys.step] at h
    split at h
    · split at h
      · split at h
        · obtain ⟨-, rfl⟩ := Prod.mk.inj (Except.ok.inj h); exact holding_new rfl rfl
        · obtain ⟨-, rfl⟩ := Prod.mk.inj (Except.ok.inj h); exact holding_same rfl rfl
        · cases h
      · cases h
    · obtain ⟨-, rfl⟩ := Prod.mk.inj (Except.ok.inj h); exact holding_same rfl rfl
  | giveResult t u r =>
    simp only [RsSys.step] at h
    split at h
    · next x hx =>
      split at h
      · obtain ⟨-, rfl⟩ := Prod.mk.inj (Except.ok.inj h); exact holding_put hx rfl rfl rfl
      · obtain ⟨-, rfl⟩ := Prod.mk.inj (Except.ok.inj h); exact holding_same rfl rfl
    · obtain ⟨-, rfl⟩ := Prod.mk.inj (Except.ok.inj h); exact holding_same rfl rfl
  | dropResult t r =>
    simp only [RsSys.step] at h
    split at h
    · split at h
      · obtain ⟨-, rfl⟩ := Prod.mk.inj (Except.ok.inj h); exact holding_gone rfl rfl
      · obtain ⟨-, rfl⟩ := Prod.mk.inj (Except.ok.inj h); exact holding_same rfl rfl
    · obtain ⟨-, rfl⟩ := Prod.mk.inj (Except.ok.inj h); exact holding_same rfl rfl
  | ranged t =>
    simp only [RsSys.step] at h
    split at h
    · split at h
      · next x hx =>
        split at h
        · obtain ⟨-, rfl⟩ := Prod.mk.inj (Except.ok.inj h); exact holding_same rfl rfl
        · obtain ⟨-, rfl⟩ := Prod.mk.inj (Except.ok.inj h); exact holding_put hx rfl rfl (convert_r x)
      · cases h
    · obtain ⟨-, rfl⟩ := Prod.mk.inj (Except.ok.inj h); exact holding_same rfl rfl
  | answer t out =>
    simp only [RsSys.step] at h
    split at h
    · split at h
      · split at h
        · obtain ⟨-, rfl⟩ := Prod.mk.inj (Except.ok.inj h); exact holding_same rfl rfl
        · obtain ⟨-, rfl⟩ := Prod.mk.inj (Except.ok.inj h); exact holding_same rfl rfl
      · cases h
    · obtain ⟨-, rfl⟩ := Prod.mk.inj (Except.ok.inj h); exact holding_same rfl rfl
  | dropHandle t b =>
    simp only [RsSys.step] at h
    split at h
    · split at h
      · split at h
        · split at h
          · obtain ⟨-, rfl⟩ := Prod.mk.inj (Except.ok.inj h); exact holding_same rfl rfl
          · cases h
        · obtain ⟨-, rfl⟩ := Prod.mk.inj (Except.ok.inj h); exact holding_same rfl rfl
      · cases h
    · obtain ⟨-, rfl⟩ := Prod.mk.inj (Except.ok.inj h); exact holding_same rfl rfl
  | clone t b =>
    simp only [RsSys.step] at h
    split at h
    · split at h
      · obtain ⟨-, rfl⟩ := Prod.mk.inj (Except.ok.inj h); exact holding_same rfl rfl
      · cases h
    · obtain ⟨-, rfl⟩ := Prod.mk.inj (Except.ok.inj h); exact holding_same rfl rfl
  | readDone t =>
    simp only [RsSys.step] at h
    split at h
    · split at h
      · split at h
        · obtain ⟨-, rfl⟩ := Prod.mk.inj (Except.ok.inj h); exact holding_same rfl rfl
        · cases h
      · cases h
    · obtain ⟨-, rfl⟩ := Prod.mk.inj (Except.ok.inj h); exact holding_same rfl rfl
  | giveIter t u i =>
    simp only [RsSys.step] at h
    split at h
    · split at h
      · obtain ⟨-, rfl⟩ := Prod.mk.inj (Except.ok.inj h); exact holding_same rfl rfl
      · obtain ⟨-, rfl⟩ := Prod.mk.inj (Except.ok.inj h); exact holding_same rfl rfl
    · obtain ⟨-, rfl⟩ := Prod.mk.inj (Except.ok.inj h); exact holding_same rfl rfl
  | dropIter t i =>
    simp only [RsSys.step] at h
    split at h
    · split at h
      · obtain ⟨-, rfl⟩ := Prod.mk.inj (Except.ok.inj h); exact holding_same rfl rfl
      · obtain ⟨-, rfl⟩ := Prod.mk.inj (Except.ok.inj h); exact holding_same rfl rfl
    · obtain ⟨-, rfl⟩ := Prod.mk.inj (Except.ok.inj h); exact holding_same rfl rfl
  | new t ok =>
    simp only [RsSys.step] at h
    split at h
    · obtain ⟨-, rfl⟩ := Prod.mk.inj (Except.ok.inj h); exact holding_same rfl rfl
    · obtain ⟨-, rfl⟩ := Prod.mk.inj (Except.ok.inj h); exact holding_same rfl rfl
  | give t u b =>
    simp only [RsSys.step] at h
    split at h
    · obtain ⟨-, rfl⟩ := Prod.mk.inj (Except.ok.inj h); exact holding_same rfl rfl
    · obtain ⟨-, rfl⟩ := Prod.mk.inj (Except.ok.inj h); exact holding_same rfl rfl
  | copyView t u k =>
    simp only [RsSys.step] at h
    split at h
    · obtain ⟨-, rfl⟩ := Prod.mk.inj (Except.ok.inj h); exact holding_same rfl rfl
    · obtain ⟨-, rfl⟩ := Prod.mk.inj (Except.ok.inj h); exact holding_same rfl rfl
  | dropView t k =>
    simp only [RsSys.step] at h
    split at h
    · obtain ⟨-, rfl⟩ := Prod.mk.inj (Except.ok.inj h); exact holding_same rfl rfl
    · obtain ⟨-, rfl⟩ := Prod.mk.inj (Except.ok.inj h); exact holding_same rfl rfl

theorem rsRun_cons {V : Type} {s s' : RsSys V} {e : RsEv V} {es : List (RsEv V)} {os : List (RsShown V)}
    (h : s.run (e :: es) = .ok (os, s')) : ∃ o s1 os', s.step e = .ok (o, s1) ∧ s1.run es = .ok (os', s') ∧ os = o :: os' := by
  unfold RsSys.run at h
  cases h1 : s.step e with
  | error f => rw [h1] at h; cases h
  | ok p =>
    obtain ⟨o, s1⟩ := p
    rw [h1] at h
    simp only [] at h
    cases h2 : s1.run es with
    | error f => rw [h2] at h; cases h
    | ok q =>
      obtain ⟨os', s2⟩ := q
      rw [h2] at h
      obtain ⟨rfl, rfl⟩ := Prod.mk.inj (Except.ok.inj h)
      exact ⟨o, s1, os', rfl, h2, rfl⟩

theorem run_holding {V : Type} (es : List (RsEv V)) {s s' : RsSys V} {os : List (RsShown V)} (h : s.run es = .ok (os, s')) :
    Holding s s' := by
  induction es generalizing s os with
  | nil =>
    obtain ⟨-, rfl⟩ := Prod.mk.inj (Except.ok.inj h)
    exact holding_same rfl rfl
  | cons e es ih =>
    obtain ⟨o, s1, os', h1, h2, -⟩ := rsRun_cons h
    obtain ⟨a1, a2⟩ := step_holding h1
    obtain ⟨b1, b2⟩ := ih h2
    refine ⟨by omega, ?_⟩
    intro r hr y hy
    obtain ⟨x, hx, e1⟩ := b2 r (by omega) y hy
    obtain ⟨z, hz, e2⟩ := a2 r hr x hx
    exact ⟨z, hz, e2.trans e1⟩

theorem rsRun_append {V : Type} (es es' : List (RsEv V)) {s s1 s2 : RsSys V} {os os' : List (RsShown V)}
    (h1 : s.run es = .ok (os, s1)) (h2 : s1.run es' = .ok (os', s2)) : s.run (es ++ es') = .ok (os ++ os', s2) := by
  induction es generalizing s os with
  | nil =>
    obtain ⟨rfl, rfl⟩ := Prod.mk.inj (Except.ok.inj h1)
    exact h2
  | cons e es ih =>
    obtain ⟨o, s3, os3, g1, g2, rfl⟩ := rsRun_cons h1
    have := ih g2
    rw [List.cons_append, RsSys.run, g1]
    simp only [this]
    rfl

/-- **Views keep what they show.**  Two readings of views of one range of one result — on the same or on different threads, with
whatever the threads do between them: more ranges of that result, other results, handles dropped — show the same. -/
theorem C90_view_keeps {V : Type} {es es' : List (RsEv V)} {os os' : List (RsShown V)} {s s' : RsSys V}
    (h : RsSys.empty.run es = .ok (os, s)) (h' : s.run es' = .ok (os', s')) {t u : Nat} {w k : RsView}
    (m : (t, .reading w) ∈ s.busy) (m' : (u, .reading k) ∈ s'.busy) (same : k.result = w.result) (idx : k.index = w.index) :
    ∃ c a b, s.step (.readDone t) = .ok (.content c, a) ∧ s'.step (.readDone u) = .ok (.content c, b) := by
  obtain ⟨a, r, h1, -, -, x, hx, e1⟩ := C90_view_shows h m
  obtain ⟨b, r', h2, -, -, y, hy, e2⟩ := C90_view_shows (rsRun_append es es' h h') m'
  obtain ⟨-, hh⟩ := run_holding es' h'
  have v := reached_inv h
  rw [same] at hy
  obtain ⟨z, hz, e3⟩ := hh _ (v.r.lt hx) y hy
  rw [hx] at hz
  cases hz
  have e : r' = r := by rw [← e1, ← e2, e3]
  rw [e, idx] at h2
  exact ⟨_, a, b, h1, h2⟩

/-! ## An iterator that goes from thread to thread -/

/-- What a step takes out of an iterator. -/
def drawnBy {V : Type} (i : Nat) (s : RsSys V) (e : RsEv V) (o : RsShown V) (s' : RsSys V) : List (ExResult V) :=
  match e, o with
  | .advanced t, .made r => if s.work t = some (.advancing i) then ((s'.results r).map RsResult.r).toList else []
  | _, _ => []

/-- What is taken out of an iterator, one after the other. -/
def drawn {V : Type} (i : Nat) : List (RsEv V) → RsSys V → List (ExResult V)
  | [], _ => []
  | e :: es, s =>
    match s.step e with
    | .error _ => []
    | .ok (o, s') => drawnBy i s e o s' ++ drawn i es s'

theorem yields_rust {R : Type} {s : VecSource R} {rem : List R} (h : Yields s rem) :
    rustNext s = .ok (rem.head?, s.next.2) ∧ Yields s.next.2 rem.tail := by
  obtain ⟨h1, h2, h3⟩ := yields_next s rem h
  refine ⟨?_, h3⟩
  cases rem with
  | nil =>
    have hh : ¬ s.hasNext = true := by rw [h1]; simp
    rw [rustNext, if_neg hh, VecSource.next, if_neg hh]
    rfl
  | cons r rest =>
    have hh : s.hasNext = true := h1
    rw [rustNext, if_pos hh, bridgeNext, if_pos hh]
    have : s.next = (some r, s.next.2) := by
      rw [← h2.trans (List.head?_cons ..)]
    rw [this]
    rfl

/-- Iterator `i` has `rem` left, or is gone. -/
def IterLeft {V : Type} (s : RsSys V) (i : Nat) (rem : List (ExResult V)) : Prop :=
  i < s.iNext ∧ ∀ it, s.iters i = some it → Yields it.src rem

theorem left_same {V : Type} {s s' : RsSys V} {i : Nat} {rem : List (ExResult V)} (h : IterLeft s i rem) (h1 : s'.iters = s.iters)
    (h2 : s'.iNext = s.iNext) : IterLeft s' i rem := by
  refine ⟨by rw [h2]; exact h.1, ?_⟩
  rw [h1]
  exact h.2

theorem left_put {V : Type} {s s' : RsSys V} {i j : Nat} {rem : List (ExResult V)} {x : Option (RsIter V)} (h : IterLeft s i rem)
    (h1 : s'.iters = rsPut s.iters j x) (h2 : s.iNext ≤ s'.iNext) (hx : j = i → ∀ it, x = some it → Yields it.src rem) :
    IterLeft s' i rem := by
  refine ⟨Nat.lt_of_lt_of_le h.1 h2, ?_⟩
  intro it hi
  rw [h1] at hi
  by_cases e : i = j
  · rw [e, rsPut_self] at hi
    exact hx e.symm it hi
  · rw [rsPut_other _ _ e] at hi
    exact h.2 it hi

theorem begin_iters {V : Type} {s s' : RsSys V} {t : Nat} {w : RsWork} {o : RsShown V} (h : s.begin t w = .ok (o, s')) :
    s'.iters = s.iters ∧ s'.iNext = s.iNext := by
  unfold RsSys.begin at h
  split at h
  · cases h
  · obtain ⟨-, rfl⟩ := Prod.mk.inj (Except.ok.inj h)
    exact ⟨rfl, rfl⟩

/-- Only `advanced` takes anything out of an iterator. -/
theorem step_left {V : Type} {s s' : RsSys V} {e : RsEv V} {o : RsShown V} {i : Nat} {rem : List (ExResult V)}
    (hl : IterLeft s i rem) (h : s.step e = .ok (o, s')) (he : ∀ t, e ≠ .advanced t) : IterLeft s' i rem := by
  cases e with
  | advanced t => exact absurd rfl (he t)
  | lock t b =>
    simp only [RsSys.step] at h
    split at h
    · exact left_same hl (begin_iters h).1 (begin_iters h).2
    · obtain ⟨-, rfl⟩ := Prod.mk.inj (Except.ok.inj h); exact hl
  | read t k =>
    simp only [RsSys.step] at h
    split at h
    · exact left_same hl (begin_iters h).1 (begin_iters h).2
    · obtain ⟨-, rfl⟩ := Prod.mk.inj (Except.ok.inj h); exact hl
  | next t i =>
    simp only [RsSys.step] at h
    split at h
    · split at h
      · exact left_same hl (begin_iters h).1 (begin_iters h).2
      · obtain ⟨-, rfl⟩ := Prod.mk.inj (Except.ok.inj h); exact hl
    · obtain ⟨-, rfl⟩ := Prod.mk.inj (Except.ok.inj h); exact hl
  | range t r idx =>
    simp only [RsSys.step] at h
    split at h
    · split at h
      · exact left_same hl (begin_iters h).1 (begin_iters h).2
      · obtain ⟨-, rfl⟩ := Prod.mk.inj (Except.ok.inj h); exact hl
    · obtain ⟨-, rfl⟩ := Prod.mk.inj (Except.ok.inj h); exact hl
  | enter t =>
    simp only [RsSys.step] at h
    split at h
    · split at h
      · split at h
        · obtain ⟨a, b⟩ := begin_iters h
          exact left_same hl a b
        · obtain ⟨-, rfl⟩ := Prod.mk.inj (Except.ok.inj h); exact hl
      · cases h
    · obtain ⟨-, rfl⟩ := Prod.mk.inj (Except.ok.inj h); exact hl
  | giveResult t u r =>
    simp only [RsSys.step] at h
    split at h
    · split at h
      · obtain ⟨-, rfl⟩ := Prod.mk.inj (Except.ok.inj h); exact left_same hl rfl rfl
      · obtain ⟨-, rfl⟩ := Prod.mk.inj (Except.ok.inj h); exact hl
    · obtain ⟨-, rfl⟩ := Prod.mk.inj (Except.ok.inj h); exact hl
  | dropResult t r =>
    simp only [RsSys.step] at h
    split at h
    · split at h
      · obtain ⟨-, rfl⟩ := Prod.mk.inj (Except.ok.inj h); exact left_same hl rfl rfl
      · obtain ⟨-, rfl⟩ := Prod.mk.inj (Except.ok.inj h); exact hl
    · obtain ⟨-, rfl⟩ := Prod.mk.inj (Except.ok.inj h); exact hl
  | ranged t =>
    simp only [RsSys.step] at h
    split at h
    · split at h
      · split at h
        · obtain ⟨-, rfl⟩ := Prod.mk.inj (Except.ok.inj h); exact left_same hl rfl rfl
        · obtain ⟨-, rfl⟩ := Prod.mk.inj (Except.ok.inj h); exact left_same hl rfl rfl
      · cases h
    · obtain ⟨-, rfl⟩ := Prod.mk.inj (Except.ok.inj h); exact hl
  | answer t out =>
    simp only [RsSys.step] at h
    split at h
    · split at h
      · split at h
        · obtain ⟨-, rfl⟩ := Prod.mk.inj (Except.ok.inj h)
          have := hl.1
          exact left_put hl rfl (Nat.le_succ _) (fun e => absurd e (by omega))
        · obtain ⟨-, rfl⟩ := Prod.mk.inj (Except.ok.inj h); exact left_same hl rfl rfl
      · cases h
    · obtain ⟨-, rfl⟩ := Prod.mk.inj (Except.ok.inj h); exact hl
  | dropHandle t b =>
    simp only [RsSys.step] at h
    split at h
    · split at h
      · split at h
        · split at h
          · obtain ⟨-, rfl⟩ := Prod.mk.inj (Except.ok.inj h); exact left_same hl rfl rfl
          · cases h
        · obtain ⟨-, rfl⟩ := Prod.mk.inj (Except.ok.inj h); exact left_same hl rfl rfl
      · cases h
    · obtain ⟨-, rfl⟩ := Prod.mk.inj (Except.ok.inj h); exact hl
  | clone t b =>
    simp only [RsSys.step] at h
    split at h
    · split at h
      · obtain ⟨-, rfl⟩ := Prod.mk.inj (Except.ok.inj h); exact left_same hl rfl rfl
      · cases h
    · obtain ⟨-, rfl⟩ := Prod.mk.inj (Except.ok.inj h); exact hl
  | readDone t =>
    simp only [RsSys.step] at h
    split at h
    · split at h
      · split at h
        · obtain ⟨-, rfl⟩ := Prod.mk.inj (Except.ok.inj h); exact left_same hl rfl rfl
        · cases h
      · cases h
    · obtain ⟨-, rfl⟩ := Prod.mk.inj (Except.ok.inj h); exact hl
  | giveIter t u j =>
    simp only [RsSys.step] at h
    split at h
    · next it hit =>
      split at h
      · obtain ⟨-, rfl⟩ := Prod.mk.inj (Except.ok.inj h)
        refine left_put hl rfl (Nat.le_refl _) ?_
        rintro rfl x hx
        cases hx
        exact hl.2 it hit
      · obtain ⟨-, rfl⟩ := Prod.mk.inj (Except.ok.inj h); exact hl
    · obtain ⟨-, rfl⟩ := Prod.mk.inj (Except.ok.inj h); exact hl
  | dropIter t j =>
    simp only [RsSys.step] at h
    split at h
    · split at h
      · obtain ⟨-, rfl⟩ := Prod.mk.inj (Except.ok.inj h)
        exact left_put hl rfl (Nat.le_refl _) (fun _ x hx => (by cases hx))
      · obtain ⟨-, rfl⟩ := Prod.mk.inj (Except.ok.inj h); exact hl
    · obtain ⟨-, rfl⟩ := Prod.mk.inj (Except.ok.inj h); exact hl
  | new t ok =>
    simp only [RsSys.step] at h
    split at h
    · obtain ⟨-, rfl⟩ := Prod.mk.inj (Except.ok.inj h); exact left_same hl rfl rfl
    · obtain ⟨-, rfl⟩ := Prod.mk.inj (Except.ok.inj h); exact hl
  | give t u b =>
    simp only [RsSys.step] at h
    split at h
    · obtain ⟨-, rfl⟩ := Prod.mk.inj (Except.ok.inj h); exact left_same hl rfl rfl
    · obtain ⟨-, rfl⟩ := Prod.mk.inj (Except.ok.inj h); exact hl
  | copyView t u k =>
    simp only [RsSys.step] at h
    split at h
    · obtain ⟨-, rfl⟩ := Prod.mk.inj (Except.ok.inj h); exact left_same hl rfl rfl
    · obtain ⟨-, rfl⟩ := Prod.mk.inj (Except.ok.inj h); exact hl
  | dropView t k =>
    simp only [RsSys.step] at h
    split at h
    · obtain ⟨-, rfl⟩ := Prod.mk.inj (Except.ok.inj h); exact left_same hl rfl rfl
    · obtain ⟨-, rfl⟩ := Prod.mk.inj (Except.ok.inj h); exact hl

/-- A step of a thread in iterator `i` takes the next one; any other step takes none. -/
theorem step_draws {V : Type} {s s' : RsSys V} {e : RsEv V} {o : RsShown V} {i : Nat} {rem : List (ExResult V)}
    (hl : IterLeft s i rem) (h : s.step e = .ok (o, s')) :
    ∃ rem', rem = drawnBy i s e o s' ++ rem' ∧ IterLeft s' i rem' := by
  by_cases he : ∃ t, e = .advanced t
  · obtain ⟨t, rfl⟩ := he
    have h0 := h
    simp only [RsSys.step] at h
    split at h
    · next j hw =>
      split at h
      · next it hit =>
        by_cases e : j = i
        · subst e
          obtain ⟨y1, y2⟩ := yields_rust (hl.2 it hit)
          rw [y1] at h
          cases rem with
          | nil =>
            simp only [List.head?_nil] at h
            obtain ⟨rfl, rfl⟩ := Prod.mk.inj (Except.ok.inj h)
            refine ⟨[], rfl, hl.1, ?_⟩
            intro x hx
            simp only [rsPut_self] at hx
            cases hx
            exact y2
          | cons r rest =>
            simp only [List.head?_cons] at h
            obtain ⟨rfl, rfl⟩ := Prod.mk.inj (Except.ok.inj h)
            refine ⟨rest, ?_, hl.1, ?_⟩
            · simp only [drawnBy, if_pos hw, rsPut_self]
              rfl
            · intro x hx
              simp only [rsPut_self] at hx
              cases hx
              exact y2
        · have hw' : ¬ s.work t = some (.advancing i) := by
            rw [hw]
            intro e'
            cases e'
            exact e rfl
          have hd : ∀ o', drawnBy i s (.advanced t) o' s' = [] := by
            intro o'
            cases o' with
            | made r => simp only [drawnBy, if_neg hw']
            | _ => rfl
          rw [hd o]
          refine ⟨rem, rfl, ?_⟩
          split at h
          · obtain ⟨-, rfl⟩ := Prod.mk.inj (Except.ok.inj h)
            exact left_put hl rfl (Nat.le_refl _) (fun e' => absurd e' e)
          · obtain ⟨-, rfl⟩ := Prod.mk.inj (Except.ok.inj h)
            exact left_put hl rfl (Nat.le_refl _) (fun e' => absurd e' e)
          · cases h
      · cases h
    · obtain ⟨rfl, rfl⟩ := Prod.mk.inj (Except.ok.inj h)
      exact ⟨rem, rfl, hl⟩
  · refine ⟨rem, ?_, step_left hl h fun t e' => he ⟨t, e'⟩⟩
    cases e with
    | advanced t => exact absurd ⟨t, rfl⟩ he
    | _ => rfl

theorem run_draws {V : Type} (es : List (RsEv V)) {s s' : RsSys V} {os : List (RsShown V)} {i : Nat} {rem : List (ExResult V)}
    (hl : IterLeft s i rem) (h : s.run es = .ok (os, s')) : ∃ rem', rem = drawn i es s ++ rem' ∧ IterLeft s' i rem' := by
  induction es generalizing s os rem with
  | nil =>
    obtain ⟨-, rfl⟩ := Prod.mk.inj (Except.ok.inj h)
    exact ⟨rem, rfl, hl⟩
  | cons e es ih =>
    obtain ⟨o, s1, os', h1, h2, -⟩ := rsRun_cons h
    obtain ⟨rem1, e1, l1⟩ := step_draws hl h1
    obtain ⟨rem2, e2, l2⟩ := ih l1 h2
    refine ⟨rem2, ?_, l2⟩
    rw [drawn, h1]
    simp only []
    rw [e1, e2, List.append_assoc]

/-- **An iterator that goes from thread to thread** gives each result of its call once and in their order, whoever asks: what has
been taken out of it is the beginning of the results, the next step of a thread in it takes the one after these, and the end shows
when there are no more. -/
theorem C90_iterator_in_order {V : Type} {es es' : List (RsEv V)} {os os' : List (RsShown V)} {s s1 s2 : RsSys V} {t i : Nat}
    {rs : List (ExResult V)} (h : RsSys.empty.run es = .ok (os, s)) (made : s.step (.answer t (some rs)) = .ok (.made i, s1))
    (h' : s1.run es' = .ok (os', s2)) :
    drawn i es' s1 = rs.take (drawn i es' s1).length ∧
    ∀ u, (u, .advancing i) ∈ s2.busy → ∃ o s3, s2.step (.advanced u) = .ok (o, s3) ∧
      (match rs[(drawn i es' s1).length]? with
        | some r => ∃ n x, o = .made n ∧ s3.results n = some x ∧ x.r = r ∧ x.owner = u
        | none => o = .ended) := by
  have r1 : RsSys.empty.run (es ++ [.answer t (some rs)]) = .ok (os ++ [.made i], s1) := by
    refine rsRun_append es _ h ?_
    rw [RsSys.run, made]
    rfl
  have hl : IterLeft s1 i rs := by
    simp only [RsSys.step] at made
    split at made
    · split at made
      · obtain ⟨e, rfl⟩ := Prod.mk.inj (Except.ok.inj made)
        cases e
        refine ⟨Nat.lt_succ_self _, ?_⟩
        intro it hit
        simp only [rsPut_self] at hit
        cases hit
        exact ⟨Nat.zero_le _, rfl⟩
      · cases made
    · obtain ⟨e, -⟩ := Prod.mk.inj (Except.ok.inj made)
      cases e
  obtain ⟨rem, e, l2⟩ := run_draws es' hl h'
  refine ⟨by rw [e, List.take_append_of_le_length (by simp)]; simp, ?_⟩
  intro u mu
  have r2 := rsRun_append _ es' r1 h'
  have v := reached_inv r2
  obtain ⟨it, h1, h2⟩ := v.i.owned u i mu
  obtain ⟨y1, -⟩ := yields_rust (l2.2 it h1)
  have hget : rs[(drawn i es' s1).length]? = rem.head? := by
    rw [e, List.getElem?_append_right (Nat.le_refl _), Nat.sub_self, List.head?_eq_getElem?]
  rw [hget]
  cases rem with
  | nil =>
    simp only [List.head?_nil] at y1 ⊢
    simp only [RsSys.step, work_of v mu, h1, y1]
    exact ⟨_, _, rfl, rfl⟩
  | cons r rest =>
    simp only [List.head?_cons] at y1 ⊢
    simp only [RsSys.step, work_of v mu, h1, y1]
    exact ⟨_, _, rfl, _, _, rfl, rsPut_self _ _ _, rfl, rfl⟩

/-! ## A case: two threads, one handle, two results -/

def c90Results : List (ExResult Nat) := [⟨[[10, 11], [12]], [[3], [1]]⟩, ⟨[[20]], [[1]]⟩]

/-- Thread 0 makes a handle, clones it and gives the clone to thread 1.  Both call. -/
def c90Start : List (RsEv Nat) := [.new 0 true, .clone 0 0, .give 0 1 0, .lock 0 0, .lock 1 0, .enter 0, .enter 1]

/-- The library answers thread 0, then thread 1 enters and gets an error; both drop their handles. -/
def c90Answered : List (RsEv Nat) :=
  [.answer 0 (some c90Results), .enter 1, .answer 1 none, .dropHandle 0 0, .dropHandle 1 0]

/-- Thread 0 takes one result, the iterator goes to thread 1, which takes the other. -/
def c90Taken : List (RsEv Nat) := [.next 0 0, .advanced 0, .giveIter 0 1 0, .next 1 0, .advanced 1, .next 1 0]

/-- Thread 0 looks at range 0 and lends the view to thread 1, which reads it while thread 0 asks for range 1. -/
def c90Read : List (RsEv Nat) :=
  [.advanced 1, .range 0 0 0, .ranged 0, .copyView 0 1 ⟨0, 0, 0, 1⟩, .read 1 ⟨1, 0, 0, 1⟩, .range 0 0 1]

def c90Late : List (RsEv Nat) := [.ranged 0, .readDone 1, .dropView 1 ⟨1, 0, 0, 1⟩, .dropResult 0 0, .read 0 ⟨0, 0, 0, 1⟩]

/-- Who is busy. -/
def c90Busy (r : Except RsFault (List (RsShown Nat) × RsSys Nat)) : Option (List (Nat × RsWork)) := r.toOption.map fun p => p.2.busy

/-- Who has clones. -/
def c90Clones (r : Except RsFault (List (RsShown Nat) × RsSys Nat)) : Option (List (Nat × Nat)) := r.toOption.map fun p => p.2.clones

/-- Which are there: handle 0, iterator 0, results 0, 1 and 2. -/
def c90There (r : Except RsFault (List (RsShown Nat) × RsSys Nat)) : Option (List Bool) :=
  r.toOption.map fun p => [(p.2.handles 0).isSome, (p.2.iters 0).isSome, (p.2.results 0).isSome, (p.2.results 1).isSome,
    (p.2.results 2).isSome]

/-- One is inside and the other waits. -/
example : c90Busy (RsSys.empty.run c90Start) = some [(1, .waiting 0), (0, .calling 0)] ∧
    c90Clones (RsSys.empty.run c90Start) = some [(0, 0), (1, 0)] ∧
    c90There (RsSys.empty.run c90Start) = some [true, false, false, false, false] := by decide +kernel

/-- Both have been answered and the handle is gone with the clones. -/
example : c90Busy (RsSys.empty.run (c90Start ++ c90Answered)) = some [] ∧
    c90Clones (RsSys.empty.run (c90Start ++ c90Answered)) = some [] ∧
    c90There (RsSys.empty.run (c90Start ++ c90Answered)) = some [false, true, false, false, false] := by decide +kernel

/-- Both results are taken, and thread 1 is in the iterator again. -/
example : c90Busy (RsSys.empty.run (c90Start ++ c90Answered ++ c90Taken)) = some [(1, .advancing 0)] ∧
    c90There (RsSys.empty.run (c90Start ++ c90Answered ++ c90Taken)) = some [false, true, true, true, false] := by decide +kernel

/-- What comes out of the iterator from the answer on. -/
def c90Drawn : Option (List (ExResult Nat)) :=
  (RsSys.empty.run c90Start).toOption.map fun p => drawn 0 (c90Answered ++ c90Taken) p.2

example : c90Drawn = some c90Results := by decide +kernel

/-- Thread 1 reads range 0 while thread 0 is about to look at range 1. -/
example : c90Busy (RsSys.empty.run (c90Start ++ c90Answered ++ c90Taken ++ c90Read)) =
    some [(1, .reading ⟨1, 0, 0, 1⟩), (0, .ranging 0 1)] := by decide +kernel

/-- Everything that is shown: thread 1 sees the values and the mask of range 0, the result cannot be dropped while thread 0 has its
view, and thread 0 reads the same later. -/
example : (RsSys.empty.run (c90Start ++ c90Answered ++ c90Taken ++ c90Read ++ c90Late ++ [.readDone 0])).toOption.map
      (fun p => p.1.drop 18) =
    some [.ended, .silent, .silent, .silent, .silent, .silent, .silent, .content ⟨[10, 11], [3]⟩, .silent, .failed, .silent,
      .content ⟨[10, 11], [3]⟩] := by decide +kernel

end GJ
