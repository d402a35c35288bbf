import Verif.Lemmas.PyMoves

/-!
# The heaps of the Python client: owners, counters and buffers
-/

namespace GJ

theorem put_inv {α : Type} {f : Nat → Option α} {i j : Nat} {x k : α} (h : PyHeap.put f i (some x) j = some k) :
    (j = i ∧ k = x) ∨ (j ≠ i ∧ f j = some k) := by
  by_cases e : j = i
  · rw [e, put_self] at h; exact .inl ⟨e, (Option.some.inj h).symm⟩
  · rw [put_other _ _ e] at h; exact .inr ⟨e, h⟩

theorem put_none_inv {α : Type} {f : Nat → Option α} {i j : Nat} {k : α} (h : PyHeap.put f i none j = some k) :
    j ≠ i ∧ f j = some k := by
  by_cases e : j = i
  · rw [e, put_self] at h; cases h
  · rw [put_other _ _ e] at h; exact ⟨e, h⟩

theorem give_py_inv {V : Type} {s : PyHeap V} {x : CObj V} {mk : Nat → PyObj V} {o : Nat} {k : PyObj V}
    (h : (s.give x mk).py o = some k) :
    (o = s.pyNext + 1 ∧ k = mk s.pyNext) ∨ (o = s.pyNext ∧ k = .owner s.cNext) ∨ s.py o = some k := by
  rcases put_inv h with h1 | ⟨-, h1⟩
  · exact .inl h1
  · rcases put_inv h1 with h2 | ⟨-, h2⟩
    · exact .inr (.inl h2)
    · exact .inr (.inr h2)

theorem give_py_old {V : Type} {s : PyHeap V} (v : s.Valid) {x : CObj V} {mk : Nat → PyObj V} {o : Nat} {k : PyObj V}
    (h : s.py o = some k) : (s.give x mk).py o = some k := by
  have := none_of_le v h
  show PyHeap.put (PyHeap.put s.py s.pyNext _) (s.pyNext + 1) _ o = _
  rw [put_other _ _ (by omega), put_other _ _ (by omega)]
  exact h

theorem put_fresh {V : Type} {s : PyHeap V} (v : s.Valid) {k' : PyObj V} {o : Nat} {k : PyObj V} (h : s.py o = some k) :
    PyHeap.put s.py s.pyNext (some k') o = some k := by
  have := none_of_le v h
  rw [put_other _ _ (by omega)]
  exact h

/-! ## Every object of the library has an owner -/

/-- Nothing of the library is out of reach of its delete function. -/
def PyHeap.AllOwned {V : Type} (s : PyHeap V) : Prop := ∀ a x, s.c a = some x → ∃ o, s.py o = some (.owner a)

theorem AllOwned.frame {V : Type} {s s' : PyHeap V} (h : s.AllOwned)
    (hp : ∀ o a, s.py o = some (.owner a) → s'.py o = some (.owner a))
    (hc : ∀ a x', s'.c a = some x' → ∃ x, s.c a = some x) : s'.AllOwned := by
  intro a x' hx'
  obtain ⟨x, hx⟩ := hc a x' hx'
  obtain ⟨o, ho⟩ := h a x hx
  exact ⟨o, hp o a ho⟩

theorem AllOwned.give {V : Type} {s : PyHeap V} (v : s.Valid) (h : s.AllOwned) (x : CObj V) (mk : Nat → PyObj V) :
    (s.give x mk).AllOwned := by
  intro a y hy
  rcases put_inv hy with ⟨rfl, -⟩ | ⟨-, hy⟩
  · refine ⟨s.pyNext, ?_⟩
    show PyHeap.put (PyHeap.put s.py s.pyNext _) (s.pyNext + 1) _ s.pyNext = _
    rw [put_other _ _ (by omega), put_self]
  · obtain ⟨o, ho⟩ := h a y hy
    exact ⟨o, give_py_old v ho⟩

/-! ## No generator is ahead of its iterator -/

/-- Every result still to come has a shape for whichever generator takes it. -/
def PyHeap.Counted {V : Type} (s : PyHeap V) : Prop :=
  ∀ it own f, s.py it = some (.iterator own f) → ∀ a src, s.py own = some (.owner a) → s.c a = some (.iterator src) →
    (∀ j, j < src.data.length → ∃ sh, f j = some sh) ∧ ∀ g i, s.py g = some (.generator it (some i)) → i ≤ src.index

theorem Counted.frame {V : Type} {s s' : PyHeap V} (v : s.Valid) (h : s.Counted)
    (hit : ∀ it own f, s'.py it = some (.iterator own f) → s.py it = some (.iterator own f))
    (ho : ∀ own a, s'.py own = some (.owner a) → s.py own = some (.owner a) ∨ s.py own = none)
    (hc : ∀ a src', s'.c a = some (.iterator src') → ∃ src, s.c a = some (.iterator src) ∧
      src'.data.length = src.data.length ∧ src.index ≤ src'.index)
    (hg : ∀ g it i, s'.py g = some (.generator it (some i)) → s.py g = some (.generator it (some i)) ∨ i = 0) :
    s'.Counted := by
  intro it own f h1 a src' h2 h3
  have g1 := hit it own f h1
  have g2 : s.py own = some (.owner a) := by
    rcases ho own a h2 with e | e
    · exact e
    · obtain ⟨b, hb, -⟩ := v.fine it _ g1
      unfold PyHeap.T at hb
      rw [e] at hb; cases hb
  obtain ⟨src, g3, e1, e2⟩ := hc a src' h3
  obtain ⟨k1, k2⟩ := h it own f g1 a src g2 g3
  refine ⟨fun j hj => k1 j (by omega), fun g i hgi => ?_⟩
  rcases hg g it i hgi with e | e
  · exact Nat.le_trans (k2 g i e) e2
  · omega

theorem cIterNext_some {R : Type} {src src' : VecSource R} {r : R} (h : cIterNext src = (some r, src')) :
    src.index < src.data.length ∧ src'.data.length = src.data.length ∧ src'.index = src.index + 1 := by
  unfold cIterNext VecSource.next at h
  by_cases e : src.hasNext = true
  · rw [if_pos e] at h
    obtain ⟨-, rfl⟩ := Prod.mk.inj h
    refine ⟨of_decide_eq_true e, ?_, rfl⟩
    show (src.data.set _ _).length = _
    rw [List.length_set]
  · rw [if_neg e] at h
    cases (Prod.mk.inj h).1

theorem cIterNext_none {R : Type} {src src' : VecSource R} (h : cIterNext src = (none, src')) :
    src'.data.length = src.data.length ∧ src.index ≤ src'.index := by
  unfold cIterNext VecSource.next at h
  by_cases e : src.hasNext = true
  · rw [if_pos e] at h
    obtain ⟨-, rfl⟩ := Prod.mk.inj h
    refine ⟨?_, Nat.le_succ _⟩
    show (src.data.set _ _).length = _
    rw [List.length_set]
  · rw [if_neg e] at h
    obtain ⟨-, rfl⟩ := Prod.mk.inj h
    exact ⟨rfl, Nat.le_refl _⟩

/-- A request gets no more results than it asked for. -/
def PyEv.Honest {V : Type} : PyEv V → Prop
  | .extract _ reqs (some out) => out.length ≤ reqs.length
  | _ => True

theorem Answered.covered {V : Type} {s : PyHeap V} {e : PyEv V} {out : List (ExResult V)} {f : Nat → Option (List Nat)}
    (h : s.Answered out f e) (honest : e.Honest) : ∀ j, j < out.length → ∃ sh, f j = some sh := by
  intro j hj
  cases e with
  | extract k reqs answer =>
    obtain ⟨rfl, hl, rfl⟩ := h
    have honest : out.length ≤ reqs.length := honest
    exact ⟨_, List.getElem?_eq_getElem (by rw [List.length_map]; omega)⟩
  | single k rs answer =>
    obtain ⟨-, rfl⟩ := h
    exact ⟨_, rfl⟩
  | _ => exact absurd h id

/-- Putting an object that is neither an iterator nor a generator. -/
theorem Counted.give {V : Type} {s : PyHeap V} (v : s.Valid) (h : s.Counted) (x : CObj V) (mk : Nat → PyObj V)
    (h1 : ∀ src, x ≠ .iterator src) (h2 : ∀ own f, mk s.pyNext ≠ .iterator own f)
    (h3 : ∀ it i, mk s.pyNext ≠ .generator it i) : (s.give x mk).Counted := by
  have p0 : s.py s.pyNext = none := v.fresh _ (Nat.le_refl _)
  have p1 : s.py (s.pyNext + 1) = none := v.fresh _ (Nat.le_succ _)
  refine Counted.frame v h ?_ ?_ ?_ ?_
  · intro it own f hk
    rcases give_py_inv hk with ⟨-, e⟩ | ⟨-, e⟩ | e
    · exact absurd e.symm (h2 own f)
    · cases e
    · exact e
  · intro own a hk
    rcases give_py_inv hk with ⟨rfl, -⟩ | ⟨rfl, -⟩ | e
    · exact .inr p1
    · exact .inr p0
    · exact .inl e
  · intro a src' hk
    rcases put_inv hk with ⟨-, e⟩ | ⟨-, e⟩
    · exact absurd e.symm (h1 src')
    · exact ⟨src', e, rfl, Nat.le_refl _⟩
  · intro g it i hk
    rcases give_py_inv hk with ⟨-, e⟩ | ⟨-, e⟩ | e
    · exact absurd e.symm (h3 it (some i))
    · cases e
    · exact .inl e

theorem Counted.tick {V : Type} {s : PyHeap V} (h : s.Counted) {g it i own a : Nat}
    {f : Nat → Option (List Nat)} {src src' : VecSource (ExResult V)} (hit : s.py it = some (.iterator own f))
    (ho : s.py own = some (.owner a)) (hx : s.c a = some (.iterator src)) (hg : s.py g = some (.generator it (some i)))
    (j : Option Nat) (hj : ∀ k, j = some k → k = i + 1 ∧ src'.index = src.index + 1)
    (e1 : src'.data.length = src.data.length) (e2 : src.index ≤ src'.index) :
    PyHeap.Counted (⟨PyHeap.put s.c a (some (.iterator src')), s.cNext, PyHeap.put s.py g (some (.generator it j)),
      s.pyNext, s.held⟩ : PyHeap V) := by
  intro it' own' f' h1 a' src1 h2 h3
  have q1 : s.py it' = some (.iterator own' f') := by
    rcases put_inv h1 with ⟨-, e⟩ | ⟨-, e⟩
    · cases e
    · exact e
  have q2 : s.py own' = some (.owner a') := by
    rcases put_inv h2 with ⟨-, e⟩ | ⟨-, e⟩
    · cases e
    · exact e
  have q3 : ∃ src0, s.c a' = some (.iterator src0) ∧ src1.data.length = src0.data.length ∧ src0.index ≤ src1.index := by
    rcases put_inv h3 with ⟨e, e'⟩ | ⟨-, e⟩
    · obtain rfl := CObj.iterator.inj e'
      exact ⟨src, by rw [e]; exact hx, e1, e2⟩
    · exact ⟨src1, e, rfl, Nat.le_refl _⟩
  obtain ⟨src0, k3, l1, l2⟩ := q3
  obtain ⟨m1, m2⟩ := h it' own' f' q1 a' src0 q2 k3
  refine ⟨fun j' hj' => m1 j' (by omega), fun g' i' hgi => ?_⟩
  rcases put_inv hgi with ⟨eg, e⟩ | ⟨-, e⟩
  · obtain ⟨rfl, ej⟩ := PyObj.generator.inj e
    obtain ⟨rfl, hidx⟩ := hj i' ej.symm
    rw [hit] at q1
    obtain ⟨rfl, rfl⟩ := PyObj.iterator.inj (Option.some.inj q1)
    rw [ho] at q2
    obtain rfl := PyObj.owner.inj (Option.some.inj q2)
    have : src1 = src' := by
      rcases put_inv h3 with ⟨-, e'⟩ | ⟨e', -⟩
      · exact CObj.iterator.inj e'
      · exact absurd rfl e'
    rw [this, hidx]
    rw [hx] at k3
    obtain rfl := CObj.iterator.inj (Option.some.inj k3)
    exact Nat.succ_le_succ (m2 g i hg)
  · exact Nat.le_trans (m2 g' i' e) l2

theorem Counted.move {V : Type} {zero : V} {s s' : PyHeap V} (v : s.Valid) (h : s.Counted) {e : PyEv V} (honest : e.Honest)
    (hm : PyMove zero s e s') : s'.Counted := by
  have p0 : s.py s.pyNext = none := v.fresh _ (Nat.le_refl _)
  have p1 : s.py (s.pyNext + 1) = none := v.fresh _ (Nat.le_succ _)
  cases hm with
  | same => exact h
  | held _ hl =>
    intro it own f h1 a src h2 h3
    exact h it own f h1 a src h2 h3
  | jump ok => exact Counted.give v h _ _ (fun _ e => by cases e) (fun _ _ e => by cases e) (fun _ _ e => by cases e)
  | request rs ok => exact Counted.give v h _ _ (fun _ e => by cases e) (fun _ _ e => by cases e) (fun _ _ e => by cases e)
  | iterator _ out f answered =>
    intro it own f' h1 a src h2 h3
    rcases give_py_inv h1 with ⟨rfl, e⟩ | ⟨-, e⟩ | e
    · obtain ⟨rfl, rfl⟩ := PyObj.iterator.inj e
      rcases give_py_inv h2 with ⟨hc, -⟩ | ⟨-, e2⟩ | e2
      · omega
      · obtain rfl := PyObj.owner.inj e2
        rcases put_inv h3 with ⟨-, e3⟩ | ⟨hc, -⟩
        · obtain rfl := CObj.iterator.inj e3
          refine ⟨fun j hj => Answered.covered answered honest j (by simpa using hj), fun g i hgi => ?_⟩
          rcases give_py_inv hgi with ⟨-, e4⟩ | ⟨-, e4⟩ | e4
          · cases e4
          · cases e4
          · have := v.fine g _ e4
            have : s.T (s.pyNext + 1) = some .iterator := this
            unfold PyHeap.T at this
            rw [p1] at this; cases this
        · exact absurd rfl hc
      · rw [p0] at e2; cases e2
    · cases e
    · have old := v.fine it _ e
      obtain ⟨b, hb, hcb⟩ := old
      rcases give_py_inv h2 with ⟨rfl, -⟩ | ⟨rfl, -⟩ | e2
      · unfold PyHeap.T at hb; rw [p1] at hb; cases hb
      · unfold PyHeap.T at hb; rw [p0] at hb; cases hb
      · have hab : a = b := by
          rw [T_of e2] at hb
          exact PyTag.owner.inj (Option.some.inj hb)
        rcases put_inv h3 with ⟨hc, -⟩ | ⟨-, e3⟩
        · unfold PyHeap.C at hcb
          rw [← hab, hc, v.freshC _ (Nat.le_refl _)] at hcb
          cases hcb
        · obtain ⟨m1, m2⟩ := h it own f' e a src e2 e3
          refine ⟨m1, fun g i hgi => ?_⟩
          rcases give_py_inv hgi with ⟨-, e4⟩ | ⟨-, e4⟩ | e4
          · cases e4
          · cases e4
          · exact m2 g i e4
  | axes j ok =>
    refine Counted.frame v h ?_ ?_ ?_ ?_
    · intro it own f hk
      rcases put_inv hk with ⟨-, e⟩ | ⟨-, e⟩
      · cases e
      · exact e
    · intro own a hk
      rcases put_inv hk with ⟨rfl, -⟩ | ⟨-, e⟩
      · exact .inr p0
      · exact .inl e
    · intro a src hk
      rcases put_inv hk with ⟨-, e⟩ | ⟨-, e⟩
      · cases e
      · exact ⟨src, e, rfl, Nat.le_refl _⟩
    · intro g it i hk
      rcases put_inv hk with ⟨-, e⟩ | ⟨-, e⟩
      · cases e
      · exact .inl e
  | iter it own f hit =>
    refine Counted.frame v h ?_ ?_ ?_ ?_
    · intro it own f hk
      rcases put_inv hk with ⟨-, e⟩ | ⟨-, e⟩
      · cases e
      · exact e
    · intro own a hk
      rcases put_inv hk with ⟨-, e⟩ | ⟨-, e⟩
      · cases e
      · exact .inl e
    · intro a src hk
      exact ⟨src, hk, rfl, Nat.le_refl _⟩
    · intro g it i hk
      rcases put_inv hk with ⟨-, e⟩ | ⟨-, e⟩
      · exact .inr (Option.some.inj (PyObj.generator.inj e).2)
      · exact .inl e
  | stop g it i own f a src src' hg hit ho hx hn =>
    obtain ⟨e1, e2⟩ := cIterNext_none hn
    exact Counted.tick h hit ho hx hg none (fun k e => by cases e) e1 e2
  | stray g it i own f a src src' r hg hit ho hx hn hf =>
    obtain ⟨e0, e1, e2⟩ := cIterNext_some hn
    obtain ⟨m1, m2⟩ := h it own f hit a src ho hx
    have := m2 g i hg
    obtain ⟨sh, hsh⟩ := m1 i (by omega)
    rw [hf] at hsh; cases hsh
  | item g it i own f a src src' r sh hg hit ho hx hn hf =>
    obtain ⟨e0, e1, e2⟩ := cIterNext_some hn
    refine Counted.give (Valid.tick v (some (i + 1)) hx hg)
      (Counted.tick h hit ho hx hg (some (i + 1)) (fun k e => ⟨(Option.some.inj e).symm, e2⟩) e1 (by omega)) _ _
      (fun _ e => by cases e) (fun _ _ e => by cases e) (fun _ _ e => by cases e)
  | load r k own sh slot a x cells ok hr hs ho hx hf =>
    refine Counted.frame v h ?_ ?_ ?_ ?_
    · intro it own f hk
      rcases put_inv hk with ⟨-, e⟩ | ⟨-, e⟩
      · cases e
      · rcases put_inv e with ⟨-, e⟩ | ⟨-, e⟩
        · cases e
        · exact e
    · intro own a hk
      rcases put_inv hk with ⟨-, e⟩ | ⟨-, e⟩
      · cases e
      · rcases put_inv e with ⟨-, e⟩ | ⟨-, e⟩
        · cases e
        · exact .inl e
    · intro a src hk
      exact ⟨src, hk, rfl, Nat.le_refl _⟩
    · intro g it i hk
      rcases put_inv hk with ⟨-, e⟩ | ⟨-, e⟩
      · cases e
      · rcases put_inv e with ⟨-, e⟩ | ⟨-, e⟩
        · cases e
        · exact .inl e
  | view r k whole own sh slot b hr hs hb =>
    refine Counted.frame v h ?_ ?_ ?_ ?_
    · intro it own f hk
      rcases put_inv hk with ⟨-, e⟩ | ⟨-, e⟩
      · cases e
      · rcases put_inv e with ⟨-, e⟩ | ⟨-, e⟩
        · cases e
        · exact e
    · intro own a hk
      rcases put_inv hk with ⟨-, e⟩ | ⟨-, e⟩
      · cases e
      · rcases put_inv e with ⟨-, e⟩ | ⟨-, e⟩
        · cases e
        · exact .inl e
    · intro a src hk
      exact ⟨src, hk, rfl, Nat.le_refl _⟩
    · intro g it i hk
      rcases put_inv hk with ⟨-, e⟩ | ⟨-, e⟩
      · cases e
      · rcases put_inv e with ⟨-, e⟩ | ⟨-, e⟩
        · cases e
        · exact .inl e
  | poke a b i x cells hb =>
    refine Counted.frame v h ?_ ?_ ?_ ?_
    · intro it own f hk
      rcases put_inv hk with ⟨-, e⟩ | ⟨-, e⟩
      · cases e
      · exact e
    · intro own a hk
      rcases put_inv hk with ⟨-, e⟩ | ⟨-, e⟩
      · cases e
      · exact .inl e
    · intro a src hk
      exact ⟨src, hk, rfl, Nat.le_refl _⟩
    · intro g it i hk
      rcases put_inv hk with ⟨-, e⟩ | ⟨-, e⟩
      · cases e
      · exact .inl e
  | freeOwner o a x nh fr ho hx =>
    refine Counted.frame v h ?_ ?_ ?_ ?_
    · intro it own f hk
      exact (put_none_inv hk).2
    · intro own a hk
      exact .inl (put_none_inv hk).2
    · intro a src hk
      exact ⟨src, (put_none_inv hk).2, rfl, Nat.le_refl _⟩
    · intro g it i hk
      exact .inl (put_none_inv hk).2
  | free o nh fr ho =>
    refine Counted.frame v h ?_ ?_ ?_ ?_
    · intro it own f hk
      exact (put_none_inv hk).2
    · intro own a hk
      exact .inl (put_none_inv hk).2
    · intro a src hk
      exact ⟨src, hk, rfl, Nat.le_refl _⟩
    · intro g it i hk
      exact .inl (put_none_inv hk).2

theorem AllOwned.move {V : Type} {zero : V} {s s' : PyHeap V} (v : s.Valid) (c : s.Counted) (h : s.AllOwned) {e : PyEv V}
    (hm : PyMove zero s e s') : s'.AllOwned := by
  cases hm with
  | same => exact h
  | held _ hl => intro a x hx; exact h a x hx
  | jump ok => exact AllOwned.give v h _ _
  | request rs ok => exact AllOwned.give v h _ _
  | iterator _ out f answered => exact AllOwned.give v h _ _
  | axes j ok =>
    intro a y hy
    rcases put_inv hy with ⟨rfl, -⟩ | ⟨-, hy⟩
    · exact ⟨s.pyNext, put_self ..⟩
    · obtain ⟨o, ho⟩ := h a y hy
      exact ⟨o, put_fresh v ho⟩
  | iter it own f hit => exact AllOwned.frame h (fun o a ho => put_fresh v ho) (fun a x hx => ⟨x, hx⟩)
  | stop g it i own f a src src' hg hit ho hx hn =>
    refine AllOwned.frame h (fun o b hob => ?_) (fun b x hbx => ?_)
    · show PyHeap.put s.py g _ o = _
      rw [put_other _ _ (fun e => by rw [e, hg] at hob; cases hob)]
      exact hob
    · rcases put_inv hbx with ⟨e, -⟩ | ⟨-, e⟩
      · exact ⟨_, by rw [e]; exact hx⟩
      · exact ⟨x, e⟩
  | stray g it i own f a src src' r hg hit ho hx hn hf =>
    obtain ⟨e0, e1, e2⟩ := cIterNext_some hn
    obtain ⟨m1, m2⟩ := c it own f hit a src ho hx
    have := m2 g i hg
    obtain ⟨sh, hsh⟩ := m1 i (by omega)
    rw [hf] at hsh; cases hsh
  | item g it i own f a src src' r sh hg hit ho hx hn hf =>
    refine AllOwned.give (Valid.tick v (some (i + 1)) hx hg) (AllOwned.frame h (fun o b hob => ?_) (fun b x hbx => ?_)) _ _
    · show PyHeap.put s.py g _ o = _
      rw [put_other _ _ (fun e => by rw [e, hg] at hob; cases hob)]
      exact hob
    · rcases put_inv hbx with ⟨e, -⟩ | ⟨-, e⟩
      · exact ⟨_, by rw [e]; exact hx⟩
      · exact ⟨x, e⟩
  | load r k own sh slot a x cells ok hr hs ho hx hf =>
    refine AllOwned.frame h (fun o b hob => ?_) (fun b x hbx => ⟨x, hbx⟩)
    show PyHeap.put (PyHeap.put s.py s.pyNext _) r _ o = _
    rw [put_other _ _ (fun e => by rw [e, hr] at hob; cases hob)]
    exact put_fresh v hob
  | view r k whole own sh slot b hr hs hb =>
    refine AllOwned.frame h (fun o b hob => ?_) (fun b x hbx => ⟨x, hbx⟩)
    show PyHeap.put (PyHeap.put s.py s.pyNext _) r _ o = _
    rw [put_other _ _ (fun e => by rw [e, hr] at hob; cases hob)]
    exact put_fresh v hob
  | poke a b i x cells hb =>
    refine AllOwned.frame h (fun o b' hob => ?_) (fun b x hbx => ⟨x, hbx⟩)
    show PyHeap.put s.py b _ o = _
    rw [put_other _ _ (fun e => by rw [e, hb] at hob; cases hob)]
    exact hob
  | freeOwner o a x nh fr ho hx =>
    intro b y hy
    obtain ⟨hne, hy⟩ := put_none_inv hy
    obtain ⟨p, hp⟩ := h b y hy
    refine ⟨p, ?_⟩
    show PyHeap.put s.py o none p = _
    rw [put_other _ _ (fun e => by
      rw [e, ho] at hp
      exact hne (PyObj.owner.inj (Option.some.inj hp)).symm)]
    exact hp
  | free o nh fr ho =>
    refine AllOwned.frame h (fun p b hpb => ?_) (fun b x hbx => ⟨x, hbx⟩)
    show PyHeap.put s.py o none p = _
    rw [put_other _ _ (fun e => by rw [e] at hpb; exact ho b hpb)]
    exact hpb

end GJ
