import Verif.Lemmas.PyPairs
import Verif.Props.C35

/-!
# C88: memory behind the objects of the Python client

Whatever a user does with handles, requests, iterators, loops, results and arrays, and whenever the interpreter collects
what is no longer used, nothing is used after it was freed, nothing is freed twice, and everything can be freed.
-/

namespace GJ

/-! ## Histories -/

theorem PyHeap.run_cons_inv {V : Type} {zero : V} {e : PyEv V} {es : List (PyEv V)} {s t : PyHeap V} {os : List (PyShown V)}
    (h : s.run zero (e :: es) = .ok (os, t)) :
    ∃ o s' os', s.step zero e = .ok (o, s') ∧ s'.run zero es = .ok (os', t) ∧ os = o :: os' := by
  rw [PyHeap.run] at h
  cases hx : s.step zero e with
  | error f => rw [hx] at h; cases h
  | ok p =>
    obtain ⟨o, s'⟩ := p
    rw [hx] at h
    simp only [] at h
    cases hy : PyHeap.run zero es s' with
    | error f => rw [hy] at h; cases h
    | ok q =>
      obtain ⟨os', t'⟩ := q
      rw [hy] at h
      obtain ⟨rfl, rfl⟩ := Prod.mk.inj (Except.ok.inj h)
      exact ⟨o, s', os', rfl, hy, rfl⟩

theorem PyHeap.run_induct {V : Type} {zero : V} (I : PyHeap V → Prop) (P : PyEv V → Prop)
    (step : ∀ s s' e, s.Valid → s'.Valid → I s → P e → PyMove zero s e s' → I s') :
    ∀ (es : List (PyEv V)) (s t : PyHeap V) (os : List (PyShown V)), s.Valid → I s → (∀ e ∈ es, P e) →
      s.run zero es = .ok (os, t) → t.Valid ∧ I t := by
  intro es
  induction es with
  | nil =>
    intro s t os v i _ h
    obtain ⟨-, rfl⟩ := Prod.mk.inj (Except.ok.inj h)
    exact ⟨v, i⟩
  | cons e es ih =>
    intro s t os v i hP h
    obtain ⟨o, s', os', h1, h2, -⟩ := PyHeap.run_cons_inv h
    have v' : s'.Valid := by
      have := PyHeap.step_safe zero v e
      rw [h1] at this
      exact this
    exact ih s' t os' v' (step s s' e v v' i (hP e (List.mem_cons_self ..)) (PyHeap.step_move zero v h1))
      (fun e' he => hP e' (List.mem_cons_of_mem _ he)) h2

theorem PyHeap.history {V : Type} {zero : V} {es : List (PyEv V)} (honest : ∀ e ∈ es, e.Honest) {t : PyHeap V}
    {os : List (PyShown V)} (h : PyHeap.empty.run zero es = .ok (os, t)) : t.Valid ∧ t.Counted ∧ t.AllOwned := by
  refine PyHeap.run_induct (fun s => s.Counted ∧ s.AllOwned) PyEv.Honest ?_ es PyHeap.empty t os pyHeap_empty_valid
    ⟨fun it own f h => (by cases h), fun a x h => (by cases h)⟩ honest h
  intro s s' e v _ i hP hm
  exact ⟨Counted.move v i.1 hP hm, AllOwned.move v i.1 i.2 hm⟩

/-! ## Nothing is used after it was freed -/

/-- **C88, no use of freed memory.**  Whatever the user, the library and the interpreter do, in any order, no pointer is
followed to something that was freed, and nothing is freed twice. -/
theorem C88_no_use_after_free {V : Type} (zero : V) (es : List (PyEv V)) :
    PyHeap.empty.run zero es ≠ .error .dangling :=
  (PyHeap.run_safe zero es pyHeap_empty_valid).2

/-- **C88, what is held is there.**  At every point of every history, whatever the user holds has not been freed, and
neither has anything it refers to, nor the object of the library behind it. -/
theorem C88_held_is_alive {V : Type} (zero : V) (es : List (PyEv V)) (os : List (PyShown V)) (t : PyHeap V)
    (history : PyHeap.empty.run zero es = .ok (os, t)) :
    (∀ o ∈ t.held, ∃ k, t.py o = some k) ∧ (∀ o k, t.py o = some k → ∀ p ∈ k.refs, ∃ k', t.py p = some k') ∧
    (∀ o a, t.py o = some (.owner a) → ∃ x, t.c a = some x) := by
  have v := (PyHeap.run_safe zero es pyHeap_empty_valid).1 os t history
  have alive : ∀ {o u}, t.T o = some u → ∃ k, t.py o = some k := by
    intro o u h
    cases hp : t.py o with
    | none => exact absurd hp (tag_some h)
    | some k => exact ⟨k, rfl⟩
  refine ⟨fun o ho => ?_, fun o k hk p hp => ?_, fun o a ho => ?_⟩
  · obtain ⟨u, hu⟩ := v.held o ho
    exact alive hu
  · have hf := v.fine o k hk
    cases k with
    | owner a => cases hp
    | buffer _ => cases hp
    | array b _ => rw [List.mem_singleton.mp hp]; exact alive hf
    | jump own => rw [List.mem_singleton.mp hp]; obtain ⟨a, h1, -⟩ := hf; exact alive h1
    | request own _ => rw [List.mem_singleton.mp hp]; obtain ⟨a, h1, -⟩ := hf; exact alive h1
    | iterator own _ => rw [List.mem_singleton.mp hp]; obtain ⟨a, h1, -⟩ := hf; exact alive h1
    | generator it i =>
      cases i with
      | none => cases hp
      | some i => rw [List.mem_singleton.mp hp]; exact alive hf
    | result own sh slot =>
      obtain ⟨⟨a, h1, -⟩, h2, h3, h4⟩ := hf
      rcases List.mem_cons.mp hp with rfl | hp
      · exact alive h1
      · obtain ⟨j, -, hj⟩ := List.mem_filterMap.mp hp
        cases j with
        | buffer k => exact alive (h2 k p hj)
        | split k => exact alive (h3 k p hj)
        | flat k => exact alive (h4 k p hj)
  · obtain ⟨u, hu⟩ := v.fine o _ ho
    unfold PyHeap.C at hu
    cases hx : t.c a with
    | none => rw [hx] at hu; cases hu
    | some x => exact ⟨x, rfl⟩

/-! ## What is undefined -/

theorem deref_error {V : Type} {s : PyHeap V} {own : Nat} {f : PyFault} (h : s.deref own = .error f) : f = .dangling := by
  unfold PyHeap.deref at h
  split at h
  · split at h
    · cases h
    · exact (Except.error.inj h).symm
  · exact (Except.error.inj h).symm

theorem derefAll_error {V : Type} {s : PyHeap V} {f : PyFault} : ∀ {l : List Nat}, s.derefAll l = .error f → f = .dangling := by
  intro l
  induction l with
  | nil => intro h; cases h
  | cons own rest ih =>
    intro h
    rw [PyHeap.derefAll] at h
    split at h
    · exact ih h
    · exact (Except.error.inj h).symm
    · next hd => rw [← Except.error.inj h]; exact deref_error hd

theorem pyFill_overflow {V : Type} {zero : V} {x : ExResult V} {n : Nat} {k : PyCol} {f : PyFault}
    (h : pyFill zero x n k = .error f) : k = .masks ∧ n < x.mask.flatten.length := by
  cases k with
  | vals =>
    rw [pyFill] at h
    rcases C36_values_never_overrun x (List.replicate n zero) with ⟨-, e⟩ | ⟨-, e⟩
    · rw [List.length_replicate] at e
      rw [e] at h; cases h
    · rw [List.length_replicate] at e
      rw [e] at h; cases h
  | masks =>
    refine ⟨rfl, ?_⟩
    rw [pyFill] at h
    rcases Nat.lt_or_ge n x.mask.flatten.length with hlt | hge
    · exact hlt
    · rw [writeRows_ok _ _ _ (by rw [List.length_replicate]; omega)] at h
      cases h

theorem PyHeap.step_error {V : Type} {zero : V} {t : PyHeap V} (v : t.Valid) {e : PyEv V} {f : PyFault}
    (bad : t.step zero e = .error f) :
    f = .overflow ∧ ∃ r own sh slot a x, e = .load r .masks ∧ t.py r = some (.result own sh slot) ∧
      t.py own = some (.owner a) ∧ t.c a = some (.result x) ∧ (pyMaskShape sh).sum < x.mask.flatten.length := by
  have hf : f = .overflow := by
    have := PyHeap.step_safe zero v e
    rw [bad] at this
    exact this
  subst hf
  refine ⟨rfl, ?_⟩
  have no : ∀ {own}, t.deref own = .error .overflow → False := fun h => by cases deref_error h
  cases e with
  | newJump ok => rw [PyHeap.step] at bad; cases bad
  | newRequest rs ok => rw [PyHeap.step] at bad; cases bad
  | ctype o => rw [PyHeap.step] at bad; split at bad <;> cases bad
  | extract j reqs answer =>
    rw [PyHeap.step] at bad
    split at bad
    · split at bad
      · split at bad
        · split at bad
          · cases bad
          · next hd => cases Except.error.inj bad; cases derefAll_error hd
        · cases bad
        · next hd => cases Except.error.inj bad; exact (no hd).elim
      · cases bad
    · cases bad
  | single j rs answer =>
    rw [PyHeap.step] at bad
    split at bad
    · split at bad
      · cases bad
      · cases bad
      · next hd => cases Except.error.inj bad; exact (no hd).elim
    · cases bad
  | axes j ok =>
    rw [PyHeap.step] at bad
    split at bad
    · split at bad
      · split at bad <;> cases bad
      · cases bad
      · next hd => cases Except.error.inj bad; exact (no hd).elim
    · cases bad
  | iter it => rw [PyHeap.step] at bad; split at bad <;> cases bad
  | next g =>
    rw [PyHeap.step] at bad
    split at bad
    · cases bad
    · split at bad
      · split at bad
        · split at bad
          · cases bad
          · split at bad <;> cases bad
        · cases bad
        · next hd => cases Except.error.inj bad; exact (no hd).elim
      · cases bad
    · cases bad
  | load r k =>
    rw [PyHeap.step] at bad
    split at bad
    · next own sh slot hm =>
      split at bad
      · cases bad
      · split at bad
        · next a x hd =>
          obtain ⟨h1, h2⟩ := deref_inv hd
          split at bad
          · cases bad
          · next hf =>
            obtain ⟨rfl, hlt⟩ := pyFill_overflow hf
            exact ⟨r, own, sh, slot, a, x, rfl, (mine_eq hm).2, h1, h2, hlt⟩
        · cases bad
        · next hd => cases Except.error.inj bad; exact (no hd).elim
    · cases bad
  | view r k whole =>
    rw [PyHeap.step] at bad
    split at bad
    · split at bad
      · cases bad
      · split at bad <;> cases bad
    · cases bad
  | read a =>
    rw [PyHeap.step] at bad
    split at bad
    · split at bad <;> cases bad
    · cases bad
  | poke a i x =>
    rw [PyHeap.step] at bad
    split at bad
    · split at bad
      · split at bad <;> cases bad
      · cases bad
    · cases bad
  | drop o => rw [PyHeap.step] at bad; cases bad
  | collect o =>
    rw [PyHeap.step] at bad
    split at bad
    · cases bad
    · split at bad
      · split at bad <;> cases bad
      · cases bad

/-- **C88, the only undefined step.**  In any history, the only step that is not defined is reading the masks of a result
that has more mask words than the ranges it was paired with have room for.  The first loop over an extraction pairs every
result with its own ranges (C57). -/
theorem C88_only_foreign_shapes_overflow {V : Type} (zero : V) (es : List (PyEv V)) (os : List (PyShown V)) (t : PyHeap V)
    (history : PyHeap.empty.run zero es = .ok (os, t)) (e : PyEv V) (f : PyFault) (bad : t.step zero e = .error f) :
    f = .overflow ∧ ∃ r own sh slot a x, e = .load r .masks ∧ t.py r = some (.result own sh slot) ∧
      t.py own = some (.owner a) ∧ t.c a = some (.result x) ∧
      (pyMaskShape sh).sum < x.mask.flatten.length := by
  have v := (PyHeap.run_safe zero es pyHeap_empty_valid).1 os t history
  exact PyHeap.step_error v bad

/-! ## What a call returns -/

/-- What kind of object a call returns. -/
def PyEv.Returns {V : Type} (e : PyEv V) (k : PyObj V) : Prop :=
  match e with
  | .newJump _ => ∃ own, k = .jump own
  | .newRequest rs _ => ∃ own, k = .request own (pyShape rs)
  | .ctype _ => ∃ a, k = .owner a
  | .extract _ _ _ => ∃ own f, k = .iterator own f
  | .single _ _ _ => ∃ own f, k = .iterator own f
  | .iter it => k = .generator it (some 0)
  | .next _ => ∃ own sh, k = .result own sh fun _ => none
  | .view _ _ _ => ∃ b sizes, k = .array b sizes
  | _ => False

theorem tag_owner {V : Type} {s : PyHeap V} {o a : Nat} (h : s.T o = some (.owner a)) : s.py o = some (.owner a) := by
  unfold PyHeap.T at h
  cases hp : s.py o with
  | none => rw [hp] at h; cases h
  | some k =>
    rw [hp] at h
    cases k <;> simp only [Option.map_some, PyObj.tag, Option.some.injEq, PyTag.owner.injEq, reduceCtorEq] at h
    rw [h]

theorem tag_array {V : Type} {s : PyHeap V} {o : Nat} (h : s.T o = some .array) : ∃ b sizes, s.py o = some (.array b sizes) := by
  unfold PyHeap.T at h
  cases hp : s.py o with
  | none => rw [hp] at h; cases h
  | some k =>
    rw [hp] at h
    cases k <;> simp only [Option.map_some, PyObj.tag, Option.some.injEq, reduceCtorEq] at h
    exact ⟨_, _, rfl⟩

theorem give_returns {V : Type} {s : PyHeap V} {x : CObj V} {mk : Nat → PyObj V} {o : Nat} {s' : PyHeap V}
    (h : (PyShown.made (s.pyNext + 1), s.give x mk) = (PyShown.made (V := V) o, s')) :
    o ∈ s'.held ∧ ∃ own, s'.py o = some (mk own) := by
  obtain ⟨h1, rfl⟩ := Prod.mk.inj h
  cases h1
  exact ⟨List.mem_append_right _ (List.mem_singleton.mpr rfl), s.pyNext, put_self _ _ _⟩

theorem answered_returns {V : Type} {s : PyHeap V} {answer : Option (List (ExResult V))} {f : Nat → Option (List Nat)} {o : Nat}
    {s' : PyHeap V} (h : s.answered answer f = (.made o, s')) : o ∈ s'.held ∧ ∃ k, s'.py o = some k ∧ ∃ own f, k = .iterator own f := by
  unfold PyHeap.answered at h
  split at h
  · obtain ⟨h, -⟩ := Prod.mk.inj h
    cases h
  · obtain ⟨h1, own, h2⟩ := give_returns h
    exact ⟨h1, _, h2, _, _, rfl⟩

/-- **C88, what a call returns.**  At every point of every history, the object a call returns is one that the user holds and
that is there, and it is of the kind the call is documented to return. -/
theorem C88_returned_is_held {V : Type} (zero : V) (es : List (PyEv V)) (os : List (PyShown V)) (t : PyHeap V)
    (history : PyHeap.empty.run zero es = .ok (os, t)) (e : PyEv V) (o : Nat) (t' : PyHeap V)
    (returned : t.step zero e = .ok (.made o, t')) : o ∈ t'.held ∧ ∃ k, t'.py o = some k ∧ e.Returns k := by
  have v := (PyHeap.run_safe zero es pyHeap_empty_valid).1 os t history
  have last : ∀ {l : List Nat} {o : Nat}, o ∈ l ++ [o] := fun {l o} => List.mem_append_right _ (List.mem_singleton.mpr rfl)
  cases e with
  | newJump ok =>
    rw [PyHeap.step] at returned
    have h := Except.ok.inj returned
    split at h
    · obtain ⟨h1, own, h2⟩ := give_returns h
      exact ⟨h1, _, h2, own, rfl⟩
    · cases (Prod.mk.inj h).1
  | newRequest rs ok =>
    rw [PyHeap.step] at returned
    have h := Except.ok.inj returned
    split at h
    · obtain ⟨h1, own, h2⟩ := give_returns h
      exact ⟨h1, _, h2, own, rfl⟩
    · cases (Prod.mk.inj h).1
  | ctype x =>
    rw [PyHeap.step] at returned
    split at returned
    · next own hm =>
      obtain ⟨h1, rfl⟩ := Prod.mk.inj (Except.ok.inj returned)
      cases h1
      obtain ⟨a, h2, -⟩ := v.fine _ _ (mine_eq hm).2
      exact ⟨last, _, tag_owner h2, a, rfl⟩
    · next own sh hm =>
      obtain ⟨h1, rfl⟩ := Prod.mk.inj (Except.ok.inj returned)
      cases h1
      obtain ⟨a, h2, -⟩ := v.fine _ _ (mine_eq hm).2
      exact ⟨last, _, tag_owner h2, a, rfl⟩
    · cases (Prod.mk.inj (Except.ok.inj returned)).1
  | extract j reqs answer =>
    rw [PyHeap.step] at returned
    split at returned
    · split at returned
      · split at returned
        · split at returned
          · exact answered_returns (Except.ok.inj returned)
          · cases returned
        · cases returned
        · cases returned
      · cases (Prod.mk.inj (Except.ok.inj returned)).1
    · cases (Prod.mk.inj (Except.ok.inj returned)).1
  | single j rs answer =>
    rw [PyHeap.step] at returned
    split at returned
    · split at returned
      · exact answered_returns (Except.ok.inj returned)
      · cases returned
      · cases returned
    · cases (Prod.mk.inj (Except.ok.inj returned)).1
  | axes j ok =>
    rw [PyHeap.step] at returned
    split at returned
    · split at returned
      · split at returned <;> cases (Prod.mk.inj (Except.ok.inj returned)).1
      · cases returned
      · cases returned
    · cases (Prod.mk.inj (Except.ok.inj returned)).1
  | iter it =>
    rw [PyHeap.step] at returned
    split at returned
    · obtain ⟨h1, rfl⟩ := Prod.mk.inj (Except.ok.inj returned)
      cases h1
      exact ⟨last, _, put_self _ _ _, rfl⟩
    · cases (Prod.mk.inj (Except.ok.inj returned)).1
  | next g =>
    rw [PyHeap.step] at returned
    split at returned
    · cases (Prod.mk.inj (Except.ok.inj returned)).1
    · split at returned
      · split at returned
        · split at returned
          · cases (Prod.mk.inj (Except.ok.inj returned)).1
          · split at returned
            · cases (Prod.mk.inj (Except.ok.inj returned)).1
            · obtain ⟨h1, rfl⟩ := Prod.mk.inj (Except.ok.inj returned)
              cases h1
              exact ⟨last, _, put_self _ _ _, _, _, rfl⟩
        · cases returned
        · cases returned
      · cases returned
    · cases (Prod.mk.inj (Except.ok.inj returned)).1
  | load r k =>
    rw [PyHeap.step] at returned
    split at returned
    · split at returned
      · cases (Prod.mk.inj (Except.ok.inj returned)).1
      · split at returned
        · split at returned
          · have := (Prod.mk.inj (Except.ok.inj returned)).1
            split at this <;> cases this
          · cases returned
        · cases returned
        · cases returned
    · cases (Prod.mk.inj (Except.ok.inj returned)).1
  | view r k whole =>
    rw [PyHeap.step] at returned
    split at returned
    · next own sh slot hm =>
      obtain ⟨hr, hp⟩ := mine_eq hm
      split at returned
      · next a ha =>
        obtain ⟨h1, rfl⟩ := Prod.mk.inj (Except.ok.inj returned)
        cases h1
        obtain ⟨-, -, h3, h4⟩ := v.fine _ _ hp
        have : t.T o = some .array := by
          cases whole with
          | true => exact h4 k o ha
          | false => exact h3 k o ha
        obtain ⟨b, sizes, hb⟩ := tag_array this
        exact ⟨last, _, hb, b, sizes, rfl⟩
      · split at returned
        · cases (Prod.mk.inj (Except.ok.inj returned)).1
        · next b hb =>
          obtain ⟨h1, rfl⟩ := Prod.mk.inj (Except.ok.inj returned)
          cases h1
          refine ⟨last, _, (put_other _ _ (Nat.ne_of_gt (none_of_le v hp))).trans (put_self _ _ _), _, _, rfl⟩
    · cases (Prod.mk.inj (Except.ok.inj returned)).1
  | read a =>
    rw [PyHeap.step] at returned
    split at returned
    · split at returned
      · cases (Prod.mk.inj (Except.ok.inj returned)).1
      · cases returned
    · cases (Prod.mk.inj (Except.ok.inj returned)).1
  | poke a i x =>
    rw [PyHeap.step] at returned
    split at returned
    · split at returned
      · split at returned <;> cases (Prod.mk.inj (Except.ok.inj returned)).1
      · cases returned
    · cases (Prod.mk.inj (Except.ok.inj returned)).1
  | drop x => rw [PyHeap.step] at returned; cases (Prod.mk.inj (Except.ok.inj returned)).1
  | collect x =>
    rw [PyHeap.step] at returned
    split at returned
    · cases (Prod.mk.inj (Except.ok.inj returned)).1
    · split at returned
      · split at returned
        · cases (Prod.mk.inj (Except.ok.inj returned)).1
        · cases returned
      · cases (Prod.mk.inj (Except.ok.inj returned)).1

/-- Non-vacuity of `C88_returned_is_held`: an extraction, a loop, a result and its values each return something. -/
example : (PyHeap.empty.run 0 [.newJump true, .newRequest [⟨0, 1⟩] true, .extract 1 [3] (some [⟨[[7]], [[1]]⟩]), .iter 5, .next 6,
    .load 8 .vals, .view 8 .vals true]).toOption.map (fun x => x.1) =
      some [.made 1, .made 3, .made 5, .made 6, .made 8, .silent, .made 10] := by
  decide +kernel

/-! ## Loops -/

/-- The answer to each extraction of a history has the shapes asked for. -/
def PyHeap.AnswersFit {V : Type} (zero : V) : List (PyEv V) → PyHeap V → Prop
  | [], _ => True
  | e :: es, s => s.Fits e ∧ ∀ o s', s.step zero e = .ok (o, s') → PyHeap.AnswersFit zero es s'

theorem paired_run {V : Type} {zero : V} : ∀ {es : List (PyEv V)} {L : List Nat} {s : PyHeap V}, s.Valid → s.Paired L →
    PyHeap.AnswersFit zero es s → (es.filterMap PyEv.loop).Nodup → (∀ it ∈ es.filterMap PyEv.loop, it ∉ L) →
    ∃ os t L', s.run zero es = .ok (os, t) ∧ t.Valid ∧ t.Paired L' := by
  intro es
  induction es with
  | nil => intro L s v p _ _ _; exact ⟨[], s, L, rfl, v, p⟩
  | cons e es ih =>
    intro L s v p fit nd new
    obtain ⟨f1, f2⟩ := fit
    cases hs : s.step zero e with
    | error f =>
      obtain ⟨-, r, own, sh, slot, a, x, -, h1, h2, h3, h4⟩ := PyHeap.step_error v hs
      have := p.results r own sh slot a x ⟨h1, h2, h3⟩
      rw [← this.masks, ← List.length_flatten] at h4
      exact absurd h4 (Nat.lt_irrefl _)
    | ok q =>
      obtain ⟨o, s'⟩ := q
      have v' : s'.Valid := by
        have := PyHeap.step_safe zero v e
        rw [hs] at this
        exact this
      have hm := PyHeap.step_move zero v hs
      have p' := Paired.move v p f1 (fun it hl => new it (by
        rw [List.filterMap_cons, hl]; exact List.mem_cons_self ..)) hm
      have nd' : (es.filterMap PyEv.loop).Nodup := by
        rw [List.filterMap_cons] at nd
        split at nd
        · exact nd
        · exact (List.nodup_cons.mp nd).2
      obtain ⟨os, t, L', h1, h2, h3⟩ := ih v' p' (f2 o s' hs) nd' (by
        intro it hit hc
        rcases List.mem_append.mp hc with hc | hc
        · have hl : e.loop = some it := Option.mem_toList.mp hc
          rw [List.filterMap_cons, hl] at nd
          exact (List.nodup_cons.mp nd).1 hit
        · refine new it ?_ hc
          rw [List.filterMap_cons]
          split
          · exact hit
          · exact List.mem_cons_of_mem _ hit)
      refine ⟨o :: os, t, L', ?_, h2, h3⟩
      rw [PyHeap.run, hs]
      simp only [h1]

/-- **C88, loops that are not begun again.**  If no iterator is looped over a second time, and each extraction is answered with
results of the shapes asked for, then nothing undefined happens at all: every history goes through, whatever is read,
dropped and collected.  Missing from the full property: iterators that are looped over again, where it is false
(`C88_second_loop_overflows`). -/
theorem C88_loops_once_partial {V : Type} (zero : V) (es : List (PyEv V)) (answers : PyHeap.AnswersFit zero es PyHeap.empty)
    (once : (es.filterMap PyEv.loop).Nodup) : ∃ os t, PyHeap.empty.run zero es = .ok (os, t) := by
  obtain ⟨os, t, L, h, -, -⟩ := paired_run pyHeap_empty_valid paired_empty answers once (fun _ _ h => (by cases h))
  exact ⟨os, t, h⟩

/-! ## Ranges stay with their request -/

/-- The object `o` was made as this request; it may have been collected since. -/
def PyHeap.MadeAs {V : Type} (s : PyHeap V) (o own : Nat) (sh : List Nat) : Prop :=
  o < s.pyNext ∧ ∀ k, s.py o = some k → k = .request own sh

theorem MadeAs.move {V : Type} {zero : V} {s s' : PyHeap V} {e : PyEv V} {o own : Nat} {sh : List Nat}
    (i : s.MadeAs o own sh) (hm : PyMove zero s e s') : s'.MadeAs o own sh := by
  obtain ⟨lt, same⟩ := i
  have n0 : o ≠ s.pyNext := Nat.ne_of_lt lt
  have n1 : o ≠ s.pyNext + 1 := Nat.ne_of_lt (Nat.lt_succ_of_lt lt)
  have other : ∀ {r : Nat} {k : PyObj V}, s.py r = some k → (∀ a b, k ≠ .request a b) → o ≠ r := by
    intro r k hr hk e
    subst e
    exact hk _ _ (same _ hr)
  cases hm with
  | same => exact ⟨lt, same⟩
  | held => exact ⟨lt, same⟩
  | jump => exact ⟨Nat.lt_add_right 2 lt, fun k h => same k (by simpa only [PyHeap.give, put_other _ _ n1, put_other _ _ n0] using h)⟩
  | request => exact ⟨Nat.lt_add_right 2 lt, fun k h => same k (by simpa only [PyHeap.give, put_other _ _ n1, put_other _ _ n0] using h)⟩
  | iterator => exact ⟨Nat.lt_add_right 2 lt, fun k h => same k (by simpa only [PyHeap.give, put_other _ _ n1, put_other _ _ n0] using h)⟩
  | axes => exact ⟨Nat.lt_add_right 1 lt, fun k h => same k (by simpa only [put_other _ _ n0] using h)⟩
  | iter => exact ⟨Nat.lt_add_right 1 lt, fun k h => same k (by simpa only [put_other _ _ n0] using h)⟩
  | stop g it i own' f a src src' hg =>
    have n := other hg (fun _ _ => by simp)
    exact ⟨lt, fun k h => same k (by simpa only [put_other _ _ n] using h)⟩
  | stray g it i own' f a src src' r hg =>
    have n := other hg (fun _ _ => by simp)
    exact ⟨lt, fun k h => same k (by simpa only [put_other _ _ n] using h)⟩
  | item g it i own' f a src src' r sh' hg =>
    have n := other hg (fun _ _ => by simp)
    exact ⟨Nat.lt_add_right 2 lt, fun k h => same k
      (by simpa only [PyHeap.give, put_other _ _ n1, put_other _ _ n0, put_other _ _ n] using h)⟩
  | load r k own' sh' slot a x cells ok hr =>
    have n := other hr (fun _ _ => by simp)
    exact ⟨Nat.lt_add_right 1 lt, fun k h => same k (by simpa only [put_other _ _ n0, put_other _ _ n] using h)⟩
  | view r k whole own' sh' slot b hr =>
    have n := other hr (fun _ _ => by simp)
    exact ⟨Nat.lt_add_right 1 lt, fun k h => same k (by simpa only [put_other _ _ n0, put_other _ _ n] using h)⟩
  | poke a b i x cells hb =>
    have n := other hb (fun _ _ => by simp)
    exact ⟨lt, fun k h => same k (by simpa only [put_other _ _ n] using h)⟩
  | freeOwner p a x _ _ ho =>
    have n := other ho (fun _ _ => by simp)
    exact ⟨lt, fun k h => same k (by simpa only [put_other _ _ n] using h)⟩
  | free p =>
    refine ⟨lt, fun k h => ?_⟩
    by_cases n : o = p
    · subst n
      have h : PyHeap.put s.py o none o = some k := h
      rw [put_self] at h
      cases h
    · exact same k (by simpa only [put_other _ _ n] using h)

theorem filterMap_whole {α β : Type} {f : α → Option β} : ∀ {l : List α}, (l.filterMap f).length = l.length →
    ∀ (k : Nat) (x : α), l[k]? = some x → (l.filterMap f)[k]? = f x := by
  intro l
  induction l with
  | nil => intro _ k x h; simp at h
  | cons y ys ih =>
    intro hl k x h
    cases hy : f y with
    | none =>
      rw [List.filterMap_cons_none hy] at hl
      have := List.length_filterMap_le f ys
      simp only [List.length_cons] at hl
      omega
    | some z =>
      rw [List.filterMap_cons_some hy] at hl ⊢
      cases k with
      | zero =>
        simp only [List.getElem?_cons_zero, Option.some.injEq] at h ⊢
        rw [← h, hy]
      | succ k =>
        simp only [List.getElem?_cons_succ] at h ⊢
        exact ih (by simpa using hl) k x h

/-- **C88, ranges stay with their request.**  A request is made with ranges `rs`; anything happens; then it is the `k`-th
request of an extraction that returns an iterator.  The `k`-th shape of that iterator is that of `rs`: one size for each
range, its end minus its start. -/
theorem C88_ranges_stay_with_request {V : Type} (zero : V) (before after : List (PyEv V)) (rs : List Interval)
    (os1 os2 : List (PyShown V)) (s1 s2 s3 s4 : PyHeap V) (r j it k : Nat) (reqs : List Nat)
    (answer : Option (List (ExResult V)))
    (h1 : PyHeap.empty.run zero before = .ok (os1, s1))
    (made : s1.step zero (.newRequest rs true) = .ok (.made r, s2))
    (h2 : s2.run zero after = .ok (os2, s3))
    (called : s3.step zero (.extract j reqs answer) = .ok (.made it, s4))
    (place : reqs[k]? = some r) :
    ∃ own f, s4.py it = some (.iterator own f) ∧ f k = some (rs.map fun x => x.e - x.b) := by
  have v1 : s1.Valid := (PyHeap.run_safe zero before pyHeap_empty_valid).1 _ _ h1
  have v2 : s2.Valid := by
    have := PyHeap.step_safe zero v1 (.newRequest rs true)
    rw [made] at this
    exact this
  have m2 : s2.MadeAs r s1.pyNext (rs.map fun x => x.e - x.b) := by
    rw [PyHeap.step] at made
    obtain ⟨hr, rfl⟩ := Prod.mk.inj (Except.ok.inj made)
    obtain rfl := PyShown.made.inj hr
    refine ⟨Nat.lt_succ_self _, fun q h => ?_⟩
    simp only [PyHeap.give, put_self] at h
    exact (Option.some.inj h).symm
  obtain ⟨v3, m3⟩ := PyHeap.run_induct (fun s => s.MadeAs r s1.pyNext (rs.map fun x => x.e - x.b)) (fun _ => True)
    (fun _ _ _ _ _ i _ hm => MadeAs.move i hm) after s2 s3 os2 v2 m2 (fun _ _ => trivial) h2
  rw [PyHeap.step] at called
  split at called
  · split at called
    · next hl =>
      split at called
      · split at called
        · cases answer with
          | none =>
            obtain ⟨h, -⟩ := Prod.mk.inj (Except.ok.inj called)
            cases h
          | some out =>
            obtain ⟨h, rfl⟩ := Prod.mk.inj (Except.ok.inj called)
            obtain rfl := PyShown.made.inj h
            refine ⟨s3.pyNext, _, put_self _ _ _, ?_⟩
            have hk := filterMap_whole hl k r place
            have lt : k < (reqs.filterMap s3.requestOf).length := by
              rw [hl]
              exact (List.getElem?_eq_some_iff.mp place).1
            have hq : s3.requestOf r = some (s1.pyNext, rs.map fun x => x.e - x.b) := by
              cases hm : s3.mine r with
              | none =>
                have hn : s3.requestOf r = none := by rw [PyHeap.requestOf, hm]
                rw [hn] at hk
                exact absurd (List.getElem?_eq_none_iff.mp hk) (Nat.not_le.mpr lt)
              | some q =>
                obtain rfl := m3.2 q (mine_eq hm).2
                rw [PyHeap.requestOf, hm]
            show ((reqs.filterMap s3.requestOf).map Prod.snd)[k]? = _
            rw [List.getElem?_map, hk, hq]
            rfl
        · cases called
      · cases called
      · cases called
    · obtain ⟨h, -⟩ := Prod.mk.inj (Except.ok.inj called)
      cases h
  · obtain ⟨h, -⟩ := Prod.mk.inj (Except.ok.inj called)
    cases h

/-- Non-vacuity of `C88_ranges_stay_with_request`: two requests, the second one placed first in the call; its ranges have 2
and 5 values, and other objects are made and collected before the call. -/
example : (PyHeap.empty.run (0 : Nat) [.newJump true, .newRequest [⟨0, 1⟩] true, .newRequest [⟨3, 5⟩, ⟨10, 15⟩] true,
      .newRequest [⟨0, 9⟩] true, .drop 7, .collect 7, .collect 6, .extract 1 [5, 3] (some [])]).toOption.map
      (fun p => (p.1.getLast?, match p.2.py 9 with | some (.iterator _ f) => [f 0, f 1, f 2] | _ => [])) =
      some (some (.made 9), [some [2, 5], some [1], none]) := by
  decide +kernel

/-! ## Nothing is lost -/

/-- **C88, one owner.**  If no request is answered with more results than it has, then at every point every object of the
library has exactly one Python object that will free it. -/
theorem C88_owned_once {V : Type} (zero : V) (es : List (PyEv V)) (honest : ∀ e ∈ es, e.Honest) (os : List (PyShown V))
    (t : PyHeap V) (history : PyHeap.empty.run zero es = .ok (os, t)) (a : Nat) (x : CObj V) (there : t.c a = some x) :
    ∃ o, t.py o = some (.owner a) ∧ ∀ o', t.py o' = some (.owner a) → o' = o := by
  obtain ⟨v, -, h⟩ := PyHeap.history honest history
  obtain ⟨o, ho⟩ := h a x there
  exact ⟨o, ho, fun o' ho' => v.uniq o' o a (T_of ho') (T_of ho)⟩

/-- The interpreter has nothing left to collect. -/
def PyHeap.Settled {V : Type} (t : PyHeap V) : Prop := ∀ o k, t.py o = some k → o ∈ t.held ∨ t.Referenced o

theorem settled_empty {V : Type} {t : PyHeap V} (v : t.Valid) (none : t.held = []) (settled : t.Settled) :
    ∀ o, t.py o = .none := by
  have ref : ∀ o k, t.py o = some k → ∃ p k', t.py p = some k' ∧ o ∈ k'.refs := by
    intro o k hk
    rcases settled o k hk with h | h
    · rw [none] at h; cases h
    · exact h
  have tags : ∀ p k', t.py p = some k' → ∀ o ∈ k'.refs, ∃ u, t.T o = some u ∧ u ≠ .other := by
    intro p k' hk o ho
    have hf := v.fine p k' hk
    cases k' with
    | owner a => cases ho
    | buffer _ => cases ho
    | array b _ => rw [List.mem_singleton.mp ho]; exact ⟨_, hf, by intro e; cases e⟩
    | jump own => rw [List.mem_singleton.mp ho]; obtain ⟨a, h1, -⟩ := hf; exact ⟨_, h1, by intro e; cases e⟩
    | request own _ => rw [List.mem_singleton.mp ho]; obtain ⟨a, h1, -⟩ := hf; exact ⟨_, h1, by intro e; cases e⟩
    | iterator own _ => rw [List.mem_singleton.mp ho]; obtain ⟨a, h1, -⟩ := hf; exact ⟨_, h1, by intro e; cases e⟩
    | generator it i =>
      cases i with
      | none => cases ho
      | some i => rw [List.mem_singleton.mp ho]; exact ⟨_, hf, by intro e; cases e⟩
    | result own sh slot =>
      obtain ⟨⟨a, h1, -⟩, h2, h3, h4⟩ := hf
      rcases List.mem_cons.mp ho with rfl | ho
      · exact ⟨_, h1, by intro e; cases e⟩
      · obtain ⟨j, -, hj⟩ := List.mem_filterMap.mp ho
        cases j with
        | buffer k => exact ⟨_, h2 k o hj, by intro e; cases e⟩
        | split k => exact ⟨_, h3 k o hj, by intro e; cases e⟩
        | flat k => exact ⟨_, h4 k o hj, by intro e; cases e⟩
  -- nobody refers to handles, requests, generators and results
  have other : ∀ o k, t.py o = some k → k.tag ≠ .other := by
    intro o k hk hc
    obtain ⟨p, k', h1, h2⟩ := ref o k hk
    obtain ⟨u, hu, hne⟩ := tags p k' h1 o h2
    rw [T_of hk, hc] at hu
    exact hne (Option.some.inj hu).symm
  -- so nobody refers to iterators, arrays, owners and buffers either
  have low : ∀ p k', t.py p = some k' → (∃ b sz, k' = .array b sz) ∨ (∃ own f, k' = .iterator own f) ∨ k'.refs = [] := by
    intro p k' hk
    cases k' with
    | owner a => exact .inr (.inr rfl)
    | buffer _ => exact .inr (.inr rfl)
    | array b sz => exact .inl ⟨b, sz, rfl⟩
    | iterator own f => exact .inr (.inl ⟨own, f, rfl⟩)
    | jump own => exact absurd rfl (other p _ hk)
    | request own _ => exact absurd rfl (other p _ hk)
    | generator it i => exact absurd rfl (other p _ hk)
    | result own sh slot => exact absurd rfl (other p _ hk)
  have mid : ∀ o k, t.py o = some k → k.tag ≠ .array ∧ k.tag ≠ .iterator := by
    intro o k hk
    obtain ⟨p, k', h1, h2⟩ := ref o k hk
    have hf := v.fine p k' h1
    rcases low p k' h1 with ⟨b, sz, rfl⟩ | ⟨own, f, rfl⟩ | e
    · rw [List.mem_singleton.mp h2] at hk
      have hf : t.T b = some .buffer := hf
      rw [T_of hk] at hf
      rw [Option.some.inj hf]
      exact ⟨(by intro e; cases e), (by intro e; cases e)⟩
    · rw [List.mem_singleton.mp h2] at hk
      obtain ⟨a, h3, -⟩ := hf
      rw [T_of hk] at h3
      rw [Option.some.inj h3]
      exact ⟨(by intro e; cases e), (by intro e; cases e)⟩
    · rw [e] at h2; cases h2
  intro o
  cases hk : t.py o with
  | none => rfl
  | some k =>
    exfalso
    obtain ⟨p, k', h1, h2⟩ := ref o k hk
    rcases low p k' h1 with ⟨b, sz, rfl⟩ | ⟨own, f, rfl⟩ | e
    · exact (mid p _ h1).1 rfl
    · exact (mid p _ h1).2 rfl
    · rw [e] at h2; cases h2

/-- **C88, nothing is lost.**  When the user holds nothing any more and the interpreter has nothing left to collect, the
library has no object left, and Python neither. -/
theorem C88_nothing_leaks {V : Type} (zero : V) (es : List (PyEv V)) (honest : ∀ e ∈ es, e.Honest) (os : List (PyShown V))
    (t : PyHeap V) (history : PyHeap.empty.run zero es = .ok (os, t)) (dropped : t.held = []) (settled : t.Settled) :
    (∀ a, t.c a = none) ∧ ∀ o, t.py o = none := by
  obtain ⟨v, -, h⟩ := PyHeap.history honest history
  have he := settled_empty v dropped settled
  refine ⟨fun a => ?_, he⟩
  cases hx : t.c a with
  | none => rfl
  | some x =>
    obtain ⟨o, ho⟩ := h a x hx
    rw [he o] at ho; cases ho

theorem PyHeap.run_append_ok {V : Type} {zero : V} : ∀ {es es' : List (PyEv V)} {s t u : PyHeap V} {os os' : List (PyShown V)},
    s.run zero es = .ok (os, t) → t.run zero es' = .ok (os', u) → s.run zero (es ++ es') = .ok (os ++ os', u) := by
  intro es
  induction es with
  | nil =>
    intro es' s t u os os' h1 h2
    obtain ⟨rfl, rfl⟩ := Prod.mk.inj (Except.ok.inj h1)
    exact h2
  | cons e es ih =>
    intro es' s t u os os' h1 h2
    obtain ⟨o, s', os1, k1, k2, rfl⟩ := PyHeap.run_cons_inv h1
    rw [List.cons_append, PyHeap.run, k1]
    simp only [ih k2 h2]
    rfl

/-- Dropping and collecting. -/
def PyEv.LetsGo {V : Type} : PyEv V → Prop
  | .drop _ => True
  | .collect _ => True
  | _ => False

theorem drop_all {V : Type} (zero : V) : ∀ (n : Nat) (t : PyHeap V), t.held.length = n →
    ∃ es os, (∀ e ∈ es, e.LetsGo) ∧ t.run zero es = .ok (os, ⟨t.c, t.cNext, t.py, t.pyNext, []⟩) := by
  intro n
  induction n with
  | zero =>
    intro t h
    refine ⟨[], [], fun e he => (by cases he), ?_⟩
    obtain ⟨c, cn, py, pn, held⟩ := t
    have : held = [] := List.length_eq_zero_iff.mp h
    subst this
    rfl
  | succ n ih =>
    intro t h
    obtain ⟨c, cn, py, pn, held⟩ := t
    cases held with
    | nil => cases h
    | cons o rest =>
      obtain ⟨es, os, h1, h2⟩ := ih ⟨c, cn, py, pn, rest⟩ (Nat.succ.inj h)
      refine ⟨.drop o :: es, .silent :: os, ?_, ?_⟩
      · intro e he
        rcases List.mem_cons.mp he with rfl | he
        · trivial
        · exact h1 e he
      · rw [PyHeap.run, PyHeap.step]
        simp only [List.erase_cons_head]
        rw [h2]

theorem collect_all {V : Type} (zero : V) : ∀ (n : Nat) (t : PyHeap V), t.Valid → t.held = [] →
    ((List.range t.pyNext).filter fun o => (t.py o).isSome).length ≤ n →
    ∃ es os u, (∀ e ∈ es, e.LetsGo) ∧ t.run zero es = .ok (os, u) ∧ u.held = [] ∧ u.Settled := by
  intro n
  induction n with
  | zero =>
    intro t v hh hn
    refine ⟨[], [], t, fun e he => (by cases he), rfl, hh, fun o k hk => ?_⟩
    have hm : o ∈ (List.range t.pyNext).filter fun o => (t.py o).isSome := by
      rw [List.mem_filter, hk]
      exact ⟨List.mem_range.mpr (none_of_le v hk), rfl⟩
    rw [List.length_eq_zero_iff.mp (Nat.le_zero.mp hn)] at hm
    cases hm
  | succ n ih =>
    intro t v hh hn
    by_cases hs : t.Settled
    · exact ⟨[], [], t, fun e he => (by cases he), rfl, hh, hs⟩
    · obtain ⟨o, hs⟩ := Classical.not_forall.mp hs
      obtain ⟨k, hs⟩ := Classical.not_forall.mp hs
      obtain ⟨hk, hs⟩ := Classical.not_imp.mp hs
      have hstep : ∃ c', t.step zero (.collect o) = .ok (.silent, ⟨c', t.cNext, PyHeap.put t.py o none, t.pyNext, t.held⟩) := by
        rw [PyHeap.step, if_neg (fun h => h.elim (fun h => hs (.inl h)) (fun h => hs (.inr ((referenced_iff v o).mp h))))]
        split
        · next a ho =>
          obtain ⟨u, hu⟩ := v.fine o _ ho
          unfold PyHeap.C at hu
          cases hx : t.c a with
          | none => rw [hx] at hu; cases hu
          | some x => exact ⟨_, rfl⟩
        · exact ⟨_, rfl⟩
      obtain ⟨c', hstep⟩ := hstep
      have v' := PyHeap.step_safe zero v (.collect o)
      rw [hstep] at v'
      have hlt : ((List.range t.pyNext).filter fun p => (PyHeap.put t.py o none p).isSome).length <
          ((List.range t.pyNext).filter fun p => (t.py p).isSome).length := by
        have hsub : ((List.range t.pyNext).filter fun p => (PyHeap.put t.py o none p).isSome) =
            ((List.range t.pyNext).filter fun p => (t.py p).isSome).filter fun p => decide (p ≠ o) := by
          rw [List.filter_filter]
          apply List.filter_congr
          intro p _
          by_cases e : p = o
          · rw [e, put_self]; simp
          · rw [put_other _ _ e]; simp [e]
        rw [hsub]
        have hm : o ∈ (List.range t.pyNext).filter fun p => (t.py p).isSome := by
          rw [List.mem_filter, hk]
          exact ⟨List.mem_range.mpr (none_of_le v hk), rfl⟩
        exact List.length_filter_lt_length_iff_exists.mpr ⟨o, hm, by simp⟩
      obtain ⟨es, os, u, g1, g2, g3, g4⟩ := ih ⟨c', t.cNext, PyHeap.put t.py o none, t.pyNext, t.held⟩ v' hh
        (Nat.le_of_lt_succ (Nat.lt_of_lt_of_le hlt hn))
      refine ⟨.collect o :: es, .silent :: os, u, ?_, ?_, g3, g4⟩
      · intro e he
        rcases List.mem_cons.mp he with rfl | he
        · trivial
        · exact g1 e he
      · rw [PyHeap.run, hstep]
        simp only [g2]

/-- **C88, everything can be freed.**  From every point of every such history, dropping what is held and collecting leads to
a state in which neither the library nor Python has an object left. -/
theorem C88_all_can_be_freed {V : Type} (zero : V) (es : List (PyEv V)) (honest : ∀ e ∈ es, e.Honest) (os : List (PyShown V))
    (t : PyHeap V) (history : PyHeap.empty.run zero es = .ok (os, t)) :
    ∃ es' os' u, (∀ e ∈ es', e.LetsGo) ∧ t.run zero es' = .ok (os', u) ∧ (∀ a, u.c a = none) ∧ ∀ o, u.py o = none := by
  obtain ⟨v, -, -⟩ := PyHeap.history honest history
  obtain ⟨es1, os1, h1, h2⟩ := drop_all zero _ t rfl
  have v1 := (PyHeap.run_safe zero es1 v).1 _ _ h2
  obtain ⟨es2, os2, u, h3, h4, h5, h6⟩ := collect_all zero _ _ v1 rfl (Nat.le_refl _)
  have hrun := PyHeap.run_append_ok h2 h4
  have hgo : ∀ e ∈ es1 ++ es2, PyEv.LetsGo e := fun e he => (List.mem_append.mp he).elim (h1 e) (h3 e)
  refine ⟨es1 ++ es2, os1 ++ os2, u, hgo, hrun, ?_⟩
  refine C88_nothing_leaks zero (es ++ (es1 ++ es2)) ?_ _ u (PyHeap.run_append_ok history hrun) h5 h6
  intro e he
  rcases List.mem_append.mp he with he | he
  · exact honest e he
  · have := hgo e he
    cases e <;> first | trivial | exact absurd this id

/-! ## Instances -/

/-- Two results, of one and of two values. -/
def c88Answer : List (ExResult Nat) := [⟨[[7]], [[1]]⟩, ⟨[[8, 9]], [[3]]⟩]

/-- A handle, two requests, an extraction, a loop and the first result; everything but the result is dropped and collected,
in an order in which owners go as soon as they can. -/
def c88History : List (PyEv Nat) :=
  [.newJump true, .newRequest [⟨0, 1⟩] true, .newRequest [⟨0, 2⟩] true, .extract 1 [3, 5] (some c88Answer), .iter 7, .next 8,
   .drop 1, .collect 1, .collect 0, .drop 7, .collect 7, .drop 3, .collect 3, .collect 2, .drop 8, .collect 8, .collect 7,
   .collect 6]

/-- Non-vacuity: the history is one of the theorems, the result survives with its owner and is read afterwards; the second
request is still held, and all else is gone. -/
example : (∀ e ∈ c88History, e.Honest) ∧
    (PyHeap.empty.run 0 c88History).toOption.map (fun p =>
      ((List.range 12).map fun o => (p.2.py o).isSome, (List.range 6).map fun a => (p.2.c a).isSome, p.2.held)) =
      some ([false, false, false, false, true, true, false, false, false, true, true, false],
        [false, false, true, false, true, false], [5, 10]) ∧
    (PyHeap.empty.run 0 (c88History ++ [.load 10 .vals, .view 10 .vals false, .read 12])).toOption.map
      (fun p => p.1.getLast?) = some (some (.content [[.inl 7]])) := by
  refine ⟨?_, by decide +kernel, by decide +kernel⟩
  intro e he
  simp only [c88History, List.mem_cons, List.not_mem_nil, or_false] at he
  rcases he with rfl | rfl | rfl | rfl | rfl | rfl | rfl | rfl | rfl | rfl | rfl | rfl | rfl | rfl | rfl | rfl | rfl | rfl <;>
    first | trivial | (show _ ≤ _; decide)

/-- The condition on answers, checked. -/
def fitsB {V : Type} (s : PyHeap V) : PyEv V → Bool
  | .extract _ reqs (some out) => (List.range out.length).all fun i =>
    match out[i]?, (reqs.filterMap s.requestOf)[i]? with
    | some x, some (_, sh) => !sh.isEmpty && x.values.map List.length == sh && x.mask.map List.length == pyMaskShape sh
    | _, _ => true
  | .single _ _ (some _) => false
  | _ => true

def answersFitB {V : Type} (zero : V) : List (PyEv V) → PyHeap V → Bool
  | [], _ => true
  | e :: es, s => fitsB s e &&
    match s.step zero e with
    | .ok (_, s') => answersFitB zero es s'
    | .error _ => true

theorem answersFit_of {V : Type} {zero : V} : ∀ {es : List (PyEv V)} {s : PyHeap V}, answersFitB zero es s = true →
    PyHeap.AnswersFit zero es s := by
  intro es
  induction es with
  | nil => intro s _; trivial
  | cons e es ih =>
    intro s h
    rw [answersFitB, Bool.and_eq_true] at h
    obtain ⟨h1, h2⟩ := h
    refine ⟨?_, fun o s' hs => ?_⟩
    · cases e with
      | extract j reqs answer =>
        cases answer with
        | none => trivial
        | some out =>
          intro i x own sh hx hr
          have hi : i < out.length := by
            rcases Nat.lt_or_ge i out.length with e | e
            · exact e
            · rw [List.getElem?_eq_none e] at hx; cases hx
          rw [fitsB] at h1
          have := List.all_eq_true.mp h1 i (List.mem_range.mpr hi)
          simp only [hx, hr, Bool.and_eq_true, beq_iff_eq] at this
          refine ⟨?_, this.1.2, this.2⟩
          intro hc
          rw [hc] at this
          exact absurd this.1.1 (by decide)
      | single j rs answer =>
        cases answer with
        | none => trivial
        | some out => cases h1
      | _ => trivial
    · rw [hs] at h2
      exact ih h2

/-- Non-vacuity of `C88_loops_once_partial`: the history meets the conditions. -/
example : answersFitB 0 c88History PyHeap.empty = true ∧ (c88History.filterMap PyEv.loop).Nodup := by
  exact ⟨by decide +kernel, by decide⟩

/-- Non-vacuity: an iterator that is dropped while its loop is under way is not collected, since the loop refers to it; the
loop goes on. -/
example : (PyHeap.empty.run 0 [.newJump true, .newRequest [⟨0, 1⟩] true, .newRequest [⟨0, 2⟩] true,
      .extract 1 [3, 5] (some c88Answer), .iter 7, .next 8, .drop 7, .collect 7, .collect 6, .next 8]).toOption.map
      (fun p => (p.1.getLast?, (p.2.py 7).isSome, (p.2.py 6).isSome)) = some (some (.made 12), true, true) := by
  decide +kernel

/-- Non-vacuity: dropped and collected altogether, nothing is left. -/
example : (PyHeap.empty.run 0 (c88History ++ [.drop 5, .collect 5, .collect 4, .drop 10, .collect 10, .collect 9])).toOption.map
      (fun p => ((List.range 12).map fun o => (p.2.py o).isSome, (List.range 6).map fun a => (p.2.c a).isSome, p.2.held)) =
      some (List.replicate 12 false, List.replicate 6 false, []) := by
  decide +kernel

/-- **C88, a loop begun again.**  The undefined step is reached: two fields of 1 and of 65 values are extracted, the first
loop stops after one result, a second loop begins; its first result is the second one, paired with the ranges of the first,
and reading its masks writes past the end of the buffer. -/
theorem C88_second_loop_overflows :
    PyHeap.empty.run 0 [.newJump true, .newRequest [⟨0, 1⟩] true, .newRequest [⟨0, 65⟩] true,
      .extract 1 [3, 5] (some [⟨[[7]], [[1]]⟩, ⟨[List.replicate 65 8], [[3, 1]]⟩]), .iter 7, .next 8, .iter 7, .next 11,
      .load 13 .masks] = .error .overflow := by
  rfl

end GJ
