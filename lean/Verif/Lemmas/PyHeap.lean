import Verif.Model.PyHeap

/-!
# The heaps of the Python client: what holds in every state
-/

namespace GJ

/-- What kind of object something is, which no step changes while it lives. -/
inductive PyTag where
  | owner (c : Nat)
  | buffer
  | array
  | iterator
  | other
  deriving DecidableEq

inductive CTag where
  | jump
  | request
  | axes
  | iterator
  | result
  deriving DecidableEq

def PyObj.tag {V : Type} : PyObj V → PyTag
  | .owner c => .owner c
  | .buffer _ => .buffer
  | .array _ _ => .array
  | .iterator _ _ => .iterator
  | _ => .other

def CObj.tag {V : Type} : CObj V → CTag
  | .jump => .jump
  | .request => .request
  | .axes => .axes
  | .iterator _ => .iterator
  | .result _ => .result

def PyHeap.T {V : Type} (s : PyHeap V) (o : Nat) : Option PyTag := (s.py o).map PyObj.tag
def PyHeap.C {V : Type} (s : PyHeap V) (a : Nat) : Option CTag := (s.c a).map CObj.tag

def OwnsC (T : Nat → Option PyTag) (C : Nat → Option CTag) (own : Nat) (t : CTag) : Prop :=
  ∃ a, T own = some (.owner a) ∧ C a = some t

/-- Everything an object refers to is there, and of the right kind. -/
def PyObj.Fine {V : Type} (T : Nat → Option PyTag) (C : Nat → Option CTag) : PyObj V → Prop
  | .owner a => ∃ t, C a = some t
  | .buffer _ => True
  | .array b _ => T b = some .buffer
  | .jump own => OwnsC T C own .jump
  | .request own _ => OwnsC T C own .request
  | .iterator own _ => OwnsC T C own .iterator
  | .generator it (some _) => T it = some .iterator
  | .generator _ none => True
  | .result own _ slot => OwnsC T C own .result ∧ (∀ k b, slot (.buffer k) = some b → T b = some .buffer) ∧
      (∀ k a, slot (.split k) = some a → T a = some .array) ∧ (∀ k a, slot (.flat k) = some a → T a = some .array)

/-- The invariant of both heaps. -/
structure PyHeap.Valid {V : Type} (s : PyHeap V) : Prop where
  fresh : ∀ o, s.pyNext ≤ o → s.py o = none
  freshC : ∀ a, s.cNext ≤ a → s.c a = none
  fine : ∀ o k, s.py o = some k → k.Fine s.T s.C
  held : ∀ o ∈ s.held, ∃ t, s.T o = some t
  uniq : ∀ o o' a, s.T o = some (.owner a) → s.T o' = some (.owner a) → o = o'

theorem pyHeap_empty_valid {V : Type} : (PyHeap.empty : PyHeap V).Valid :=
  ⟨fun _ _ => rfl, fun _ _ => rfl, fun _ _ h => (by cases h), fun _ h => (by cases h), fun _ _ _ h => (by cases h)⟩

theorem OwnsC.mono {T T' : Nat → Option PyTag} {C C' : Nat → Option CTag} {own : Nat} {t : CTag}
    (hT : ∀ o u, T o = some u → T' o = some u) (hC : ∀ a u, C a = some u → C' a = some u) (h : OwnsC T C own t) :
    OwnsC T' C' own t := by
  obtain ⟨a, h1, h2⟩ := h
  exact ⟨a, hT _ _ h1, hC _ _ h2⟩

theorem PyObj.Fine.mono {V : Type} {T T' : Nat → Option PyTag} {C C' : Nat → Option CTag}
    (hT : ∀ o u, T o = some u → T' o = some u) (hC : ∀ a u, C a = some u → C' a = some u) {k : PyObj V}
    (h : k.Fine T C) : k.Fine T' C' := by
  cases k with
  | owner a => obtain ⟨t, h⟩ := h; exact ⟨t, hC _ _ h⟩
  | buffer _ => trivial
  | array b _ => exact hT _ _ h
  | jump own => exact OwnsC.mono hT hC h
  | request own _ => exact OwnsC.mono hT hC h
  | iterator own _ => exact OwnsC.mono hT hC h
  | generator it i =>
    cases i with
    | none => trivial
    | some i => exact hT _ _ h
  | result own sh slot =>
    obtain ⟨h1, h2, h3, h4⟩ := h
    exact ⟨OwnsC.mono hT hC h1, fun k b e => hT _ _ (h2 k b e), fun k a e => hT _ _ (h3 k a e),
      fun k a e => hT _ _ (h4 k a e)⟩

/-- A step that frees nothing keeps the invariant if what it adds or changes is fine. -/
theorem PyHeap.Valid.grow {V : Type} {s s' : PyHeap V} (h : s.Valid) (fresh : ∀ o, s'.pyNext ≤ o → s'.py o = none)
    (freshC : ∀ a, s'.cNext ≤ a → s'.c a = none) (hT : ∀ o u, s.T o = some u → s'.T o = some u)
    (hC : ∀ a u, s.C a = some u → s'.C a = some u)
    (fine : ∀ o k, s'.py o = some k → s.py o = some k ∨ k.Fine s'.T s'.C)
    (held : ∀ o ∈ s'.held, o ∈ s.held ∨ ∃ t, s'.T o = some t) (o0 : Nat)
    (uniq : ∀ o a, s'.T o = some (.owner a) → s.T o = some (.owner a) ∨ (o = o0 ∧ s.C a = none)) : s'.Valid := by
  refine ⟨fresh, freshC, ?_, ?_, ?_⟩
  · intro o k hk
    rcases fine o k hk with h1 | h1
    · exact (h.fine o k h1).mono hT hC
    · exact h1
  · intro o ho
    rcases held o ho with h1 | h1
    · obtain ⟨t, ht⟩ := h.held o h1
      exact ⟨t, hT _ _ ht⟩
    · exact h1
  · have old : ∀ o a, s.T o = some (.owner a) → s.C a ≠ none := by
      intro o a ho
      unfold PyHeap.T at ho
      cases hp : s.py o with
      | none => rw [hp] at ho; cases ho
      | some k =>
        rw [hp] at ho
        have hk := h.fine o k hp
        cases k <;> simp only [Option.map_some, PyObj.tag, Option.some.injEq, reduceCtorEq, PyTag.owner.injEq] at ho
        obtain ⟨t, ht⟩ := hk
        rw [ho] at ht
        rw [ht]
        exact Option.some_ne_none t
    intro o o' a h1 h2
    rcases uniq o a h1 with e1 | ⟨e1, n1⟩
    · rcases uniq o' a h2 with e2 | ⟨e2, n2⟩
      · exact h.uniq o o' a e1 e2
      · exact absurd n2 (old o a e1)
    · rcases uniq o' a h2 with e2 | ⟨e2, n2⟩
      · exact absurd n1 (old o' a e2)
      · rw [e1, e2]

theorem PyHeap.Valid.deref {V : Type} {s : PyHeap V} {own : Nat} {t : CTag} (h : OwnsC s.T s.C own t) :
    ∃ a x, s.py own = some (.owner a) ∧ s.c a = some x ∧ x.tag = t ∧ s.deref own = .ok (a, x) := by
  obtain ⟨a, h1, h2⟩ := h
  unfold PyHeap.T at h1
  unfold PyHeap.C at h2
  cases hp : s.py own with
  | none => rw [hp] at h1; cases h1
  | some k =>
    rw [hp] at h1
    cases k <;> simp only [Option.map_some, PyObj.tag, Option.some.injEq, reduceCtorEq, PyTag.owner.injEq] at h1
    subst h1
    cases hx : s.c _ with
    | none => rw [hx] at h2; cases h2
    | some x =>
      rw [hx] at h2
      refine ⟨_, x, rfl, hx, Option.some.inj h2, ?_⟩
      rw [PyHeap.deref, hp]
      simp only [hx]

theorem mine_eq {V : Type} {s : PyHeap V} {o : Nat} {k : PyObj V} (h : s.mine o = some k) : o ∈ s.held ∧ s.py o = some k := by
  unfold PyHeap.mine at h
  by_cases ho : o ∈ s.held
  · rw [if_pos ho] at h; exact ⟨ho, h⟩
  · rw [if_neg ho] at h; cases h

theorem tag_buffer {V : Type} {s : PyHeap V} {o : Nat} (h : s.T o = some .buffer) : ∃ cells, s.py o = some (.buffer cells) := by
  unfold PyHeap.T at h
  cases hp : s.py o with
  | none => rw [hp] at h; cases h
  | some k =>
    rw [hp] at h
    cases k <;> simp only [Option.map_some, PyObj.tag, Option.some.injEq, reduceCtorEq] at h
    exact ⟨_, rfl⟩

theorem tag_iterator {V : Type} {s : PyHeap V} {o : Nat} (h : s.T o = some .iterator) :
    ∃ own f, s.py o = some (.iterator own f) := by
  unfold PyHeap.T at h
  cases hp : s.py o with
  | none => rw [hp] at h; cases h
  | some k =>
    rw [hp] at h
    cases k <;> simp only [Option.map_some, PyObj.tag, Option.some.injEq, reduceCtorEq] at h
    exact ⟨_, _, rfl⟩

theorem T_of {V : Type} {s : PyHeap V} {o : Nat} {k : PyObj V} (h : s.py o = some k) : s.T o = some k.tag := by
  unfold PyHeap.T; rw [h]; rfl

theorem C_of {V : Type} {s : PyHeap V} {a : Nat} {x : CObj V} (h : s.c a = some x) : s.C a = some x.tag := by
  unfold PyHeap.C; rw [h]; rfl

theorem put_self {α : Type} (f : Nat → Option α) (i : Nat) (x : Option α) : PyHeap.put f i x i = x := by
  unfold PyHeap.put; exact if_pos rfl

theorem put_other {α : Type} (f : Nat → Option α) {i j : Nat} (x : Option α) (h : j ≠ i) : PyHeap.put f i x j = f j := by
  unfold PyHeap.put; exact if_neg h

/-- Putting something of the same kind, or anything at a fresh address, keeps the kinds. -/
theorem put_tag {V : Type} {py : Nat → Option (PyObj V)} {i : Nat} {k : PyObj V}
    (h : ∀ k', py i = some k' → k'.tag = k.tag) (o : Nat) (u : PyTag) (ho : (py o).map PyObj.tag = some u) :
    ((PyHeap.put py i (some k)) o).map PyObj.tag = some u := by
  by_cases e : o = i
  · rw [e, put_self]
    rw [e] at ho
    cases hp : py i with
    | none => rw [hp] at ho; cases ho
    | some k' => rw [hp] at ho; rw [Option.map_some, ← h k' hp]; exact ho
  · rw [put_other _ _ e]; exact ho

theorem put_ctag {V : Type} {c : Nat → Option (CObj V)} {i : Nat} {x : CObj V}
    (h : ∀ x', c i = some x' → x'.tag = x.tag) (a : Nat) (u : CTag) (ha : (c a).map CObj.tag = some u) :
    ((PyHeap.put c i (some x)) a).map CObj.tag = some u := by
  by_cases e : a = i
  · rw [e, put_self]
    rw [e] at ha
    cases hp : c i with
    | none => rw [hp] at ha; cases ha
    | some x' => rw [hp] at ha; rw [Option.map_some, ← h x' hp]; exact ha
  · rw [put_other _ _ e]; exact ha

theorem none_of_le {V : Type} {s : PyHeap V} (h : s.Valid) {o : Nat} {k : PyObj V} (ho : s.py o = some k) : o < s.pyNext := by
  rcases Nat.lt_or_ge o s.pyNext with h1 | h1
  · exact h1
  · rw [h.fresh o h1] at ho; cases ho

theorem noneC_of_le {V : Type} {s : PyHeap V} (h : s.Valid) {a : Nat} {x : CObj V} (ha : s.c a = some x) : a < s.cNext := by
  rcases Nat.lt_or_ge a s.cNext with h1 | h1
  · exact h1
  · rw [h.freshC a h1] at ha; cases ha

theorem Valid.hold {V : Type} {s : PyHeap V} (h : s.Valid) {o : Nat} {t : PyTag} (ho : s.T o = some t) :
    PyHeap.Valid (⟨s.c, s.cNext, s.py, s.pyNext, s.held ++ [o]⟩ : PyHeap V) :=
  ⟨h.fresh, h.freshC, h.fine, fun p hp => (List.mem_append.mp hp).elim (h.held p)
    (fun e => by rw [List.mem_singleton.mp e]; exact ⟨t, ho⟩), h.uniq⟩

/-- What is given is owned once and known to the user. -/
theorem Valid.give {V : Type} {s : PyHeap V} (h : s.Valid) (x : CObj V) (mk : Nat → PyObj V) (other : ∀ o a, (mk o).tag ≠ .owner a)
    (fine : ∀ T C, OwnsC T C s.pyNext x.tag → (mk s.pyNext).Fine T C) : (s.give x mk).Valid := by
  have p0 : s.py s.pyNext = none := h.fresh _ (Nat.le_refl _)
  have p1 : s.py (s.pyNext + 1) = none := h.fresh _ (Nat.le_succ _)
  have c0 : s.c s.cNext = none := h.freshC _ (Nat.le_refl _)
  have e0 : (s.give x mk).py s.pyNext = some (.owner s.cNext) := by
    show PyHeap.put (PyHeap.put s.py s.pyNext _) (s.pyNext + 1) _ s.pyNext = _
    rw [put_other _ _ (by omega), put_self]
  have e1 : (s.give x mk).py (s.pyNext + 1) = some (mk s.pyNext) := put_self _ _ _
  have e2 : ∀ o, o ≠ s.pyNext → o ≠ s.pyNext + 1 → (s.give x mk).py o = s.py o := by
    intro o h1 h2
    show PyHeap.put (PyHeap.put s.py s.pyNext _) (s.pyNext + 1) _ o = _
    rw [put_other _ _ h2, put_other _ _ h1]
  have f0 : (s.give x mk).c s.cNext = some x := put_self _ _ _
  have hT : ∀ o u, s.T o = some u → (s.give x mk).T o = some u := by
    intro o u ho
    have hne : s.py o ≠ none := by intro hc; unfold PyHeap.T at ho; rw [hc] at ho; cases ho
    unfold PyHeap.T
    rw [e2 o (fun hc => hne (by rw [hc]; exact p0)) (fun hc => hne (by rw [hc]; exact p1))]
    exact ho
  have own : OwnsC (s.give x mk).T (s.give x mk).C s.pyNext x.tag := ⟨s.cNext, T_of e0, C_of f0⟩
  refine h.grow ?_ ?_ hT ?_ ?_ ?_ s.pyNext ?_
  · intro o ho
    have ho : s.pyNext + 2 ≤ o := ho
    rw [e2 o (by omega) (by omega)]
    exact h.fresh o (by omega)
  · intro a ha
    have ha : s.cNext + 1 ≤ a := ha
    show PyHeap.put s.c s.cNext _ a = none
    rw [put_other _ _ (by omega)]
    exact h.freshC a (by omega)
  · exact put_ctag (fun x' hx' => by rw [c0] at hx'; cases hx')
  · intro o k hk
    by_cases h1 : o = s.pyNext
    · rw [h1, e0] at hk
      obtain rfl := Option.some.inj hk
      exact .inr ⟨x.tag, C_of f0⟩
    · by_cases h2 : o = s.pyNext + 1
      · rw [h2, e1] at hk
        obtain rfl := Option.some.inj hk
        exact .inr (fine _ _ own)
      · rw [e2 o h1 h2] at hk
        exact .inl hk
  · intro o ho
    have ho : o ∈ s.held ++ [s.pyNext + 1] := ho
    rcases List.mem_append.mp ho with h1 | h1
    · exact .inl h1
    · rw [List.mem_singleton.mp h1]
      exact .inr ⟨_, T_of e1⟩
  · intro o a ho
    by_cases h1 : o = s.pyNext
    · rw [h1, T_of e0] at ho
      have : s.cNext = a := PyTag.owner.inj (Option.some.inj ho)
      refine .inr ⟨h1, ?_⟩
      unfold PyHeap.C
      rw [← this, c0]; rfl
    · by_cases h2 : o = s.pyNext + 1
      · rw [h2, T_of e1] at ho
        exact absurd (Option.some.inj ho) (other _ _)
      · unfold PyHeap.T at ho
        rw [e2 o h1 h2] at ho
        exact .inl ho

/-- The state of a C iterator and of a generator may change. -/
theorem Valid.tick {V : Type} {s : PyHeap V} (h : s.Valid) {a g it : Nat} {src src' : VecSource (ExResult V)} {i : Nat}
    (j : Option Nat) (ha : s.c a = some (.iterator src)) (hg : s.py g = some (.generator it (some i))) :
    PyHeap.Valid (⟨PyHeap.put s.c a (some (.iterator src')), s.cNext, PyHeap.put s.py g (some (.generator it j)), s.pyNext,
      s.held⟩ : PyHeap V) := by
  have hit : s.T it = some .iterator := h.fine g _ hg
  have hT : ∀ o u, s.T o = some u → (⟨PyHeap.put s.c a (some (.iterator src')), s.cNext,
      PyHeap.put s.py g (some (.generator it j)), s.pyNext, s.held⟩ : PyHeap V).T o = some u :=
    put_tag (fun k' hk' => by rw [hg] at hk'; obtain rfl := Option.some.inj hk'; rfl)
  refine h.grow ?_ ?_ hT ?_ ?_ ?_ 0 ?_
  · intro o ho
    show PyHeap.put s.py g _ o = none
    have := none_of_le h hg
    have ho : s.pyNext ≤ o := ho
    rw [put_other _ _ (by omega)]
    exact h.fresh o ho
  · intro b hb
    show PyHeap.put s.c a _ b = none
    have := noneC_of_le h ha
    have hb : s.cNext ≤ b := hb
    rw [put_other _ _ (by omega)]
    exact h.freshC b hb
  · exact put_ctag (fun x' hx' => by rw [ha] at hx'; obtain rfl := Option.some.inj hx'; rfl)
  · intro o k hk
    have hk : PyHeap.put s.py g (some (.generator it j)) o = some k := hk
    by_cases e : o = g
    · rw [e, put_self] at hk
      obtain rfl := Option.some.inj hk
      refine .inr ?_
      cases j with
      | none => trivial
      | some j => exact hT _ _ hit
    · rw [put_other _ _ e] at hk
      exact .inl hk
  · intro o ho; exact .inl ho
  · intro o b ho
    have ho : ((PyHeap.put s.py g (some (.generator it j))) o).map PyObj.tag = some (.owner b) := ho
    by_cases e : o = g
    · rw [e, put_self] at ho
      cases ho
    · rw [put_other _ _ e] at ho
      exact .inl ho

/-- A new C object that nobody owns. -/
theorem Valid.stray {V : Type} {s : PyHeap V} (h : s.Valid) (x : CObj V) :
    PyHeap.Valid (⟨PyHeap.put s.c s.cNext (some x), s.cNext + 1, s.py, s.pyNext, s.held⟩ : PyHeap V) := by
  have c0 : s.c s.cNext = none := h.freshC _ (Nat.le_refl _)
  refine h.grow h.fresh ?_ (fun _ _ e => e) ?_ (fun _ _ e => .inl e) (fun _ e => .inl e) 0 (fun _ _ e => .inl e)
  · intro a ha
    have ha : s.cNext + 1 ≤ a := ha
    show PyHeap.put s.c s.cNext _ a = none
    rw [put_other _ _ (by omega)]
    exact h.freshC a (by omega)
  · exact put_ctag (fun x' hx' => by rw [c0] at hx'; cases hx')

/-- A new Python object that owns nothing and refers to what is there. -/
theorem Valid.add {V : Type} {s : PyHeap V} (h : s.Valid) (k : PyObj V) (other : ∀ a, k.tag ≠ .owner a)
    (fine : k.Fine s.T s.C) :
    PyHeap.Valid (⟨s.c, s.cNext, PyHeap.put s.py s.pyNext (some k), s.pyNext + 1, s.held⟩ : PyHeap V) := by
  have p0 : s.py s.pyNext = none := h.fresh _ (Nat.le_refl _)
  have hT : ∀ o u, s.T o = some u → (⟨s.c, s.cNext, PyHeap.put s.py s.pyNext (some k), s.pyNext + 1, s.held⟩ : PyHeap V).T o =
      some u := put_tag (fun k' hk' => by rw [p0] at hk'; cases hk')
  refine h.grow ?_ h.freshC hT (fun _ _ e => e) ?_ (fun _ e => .inl e) 0 ?_
  · intro o ho
    have ho : s.pyNext + 1 ≤ o := ho
    show PyHeap.put s.py s.pyNext _ o = none
    rw [put_other _ _ (by omega)]
    exact h.fresh o (by omega)
  · intro o k' hk
    have hk : PyHeap.put s.py s.pyNext (some k) o = some k' := hk
    by_cases e : o = s.pyNext
    · rw [e, put_self] at hk
      obtain rfl := Option.some.inj hk
      exact .inr (fine.mono hT (fun _ _ e => e))
    · rw [put_other _ _ e] at hk
      exact .inl hk
  · intro o b ho
    have ho : ((PyHeap.put s.py s.pyNext (some k)) o).map PyObj.tag = some (.owner b) := ho
    by_cases e : o = s.pyNext
    · rw [e, put_self] at ho
      exact absurd (Option.some.inj ho) (other b)
    · rw [put_other _ _ e] at ho
      exact .inl ho

/-- A Python object that owns nothing is replaced by one of its kind. -/
theorem Valid.replace {V : Type} {s : PyHeap V} (h : s.Valid) {r : Nat} {k0 : PyObj V} (k : PyObj V) (hr : s.py r = some k0)
    (same : k0.tag = k.tag) (other : ∀ a, k.tag ≠ .owner a) (fine : k.Fine s.T s.C) :
    PyHeap.Valid (⟨s.c, s.cNext, PyHeap.put s.py r (some k), s.pyNext, s.held⟩ : PyHeap V) := by
  have hT : ∀ o u, s.T o = some u → (⟨s.c, s.cNext, PyHeap.put s.py r (some k), s.pyNext, s.held⟩ : PyHeap V).T o =
      some u := put_tag (fun k' hk' => by rw [hr] at hk'; obtain rfl := Option.some.inj hk'; exact same)
  refine h.grow ?_ h.freshC hT (fun _ _ e => e) ?_ (fun _ e => .inl e) 0 ?_
  · intro o ho
    have := none_of_le h hr
    have ho : s.pyNext ≤ o := ho
    show PyHeap.put s.py r _ o = none
    rw [put_other _ _ (by omega)]
    exact h.fresh o (by omega)
  · intro o k' hk
    have hk : PyHeap.put s.py r (some k) o = some k' := hk
    by_cases e : o = r
    · rw [e, put_self] at hk
      obtain rfl := Option.some.inj hk
      exact .inr (fine.mono hT (fun _ _ e => e))
    · rw [put_other _ _ e] at hk
      exact .inl hk
  · intro o b ho
    have ho : ((PyHeap.put s.py r (some k)) o).map PyObj.tag = some (.owner b) := ho
    by_cases e : o = r
    · rw [e, put_self] at ho
      exact absurd (Option.some.inj ho) (other b)
    · rw [put_other _ _ e] at ho
      exact .inl ho

theorem refs_slot {V : Type} {own : Nat} {sh : List Nat} {slot : PySlot → Option Nat} {k : PySlot} {o : Nat}
    (h : slot k = some o) : o ∈ (PyObj.result own sh slot : PyObj V).refs := by
  refine List.mem_cons_of_mem _ (List.mem_filterMap.mpr ⟨k, ?_, h⟩)
  cases k <;> rename_i c <;> cases c <;> simp [PySlot.all]

/-- What an object does not refer to can go. -/
theorem PyObj.Fine.without {V : Type} {T T' : Nat → Option PyTag} {C C' : Nat → Option CTag} {k : PyObj V} {o : Nat}
    (h : k.Fine T C) (free : o ∉ k.refs) (hT : ∀ p, p ≠ o → T' p = T p)
    (hC : ∀ a, T o ≠ some (.owner a) → C' a = C a) (uniq : ∀ p a, T p = some (.owner a) → T o = some (.owner a) → p = o)
    (me : ∀ a, k = .owner a → T o ≠ some (.owner a)) : k.Fine T' C' := by
  have owns : ∀ {own t}, own ∈ k.refs → OwnsC T C own t → OwnsC T' C' own t := by
    intro own t hm ⟨a, h1, h2⟩
    have hne : own ≠ o := fun e => free (e ▸ hm)
    refine ⟨a, ?_, ?_⟩
    · rw [hT _ hne]; exact h1
    · rw [hC a (fun hc => hne (uniq _ _ h1 hc))]; exact h2
  have keep : ∀ {p t}, p ∈ k.refs → T p = some t → T' p = some t := by
    intro p t hm h1
    rw [hT _ (fun e => free (e ▸ hm))]; exact h1
  cases k with
  | owner a =>
    obtain ⟨t, ht⟩ := h
    exact ⟨t, by rw [hC a (me a rfl)]; exact ht⟩
  | buffer _ => trivial
  | array b _ => exact keep (List.mem_singleton.mpr rfl) h
  | jump own => exact owns (List.mem_singleton.mpr rfl) h
  | request own _ => exact owns (List.mem_singleton.mpr rfl) h
  | iterator own _ => exact owns (List.mem_singleton.mpr rfl) h
  | generator it i =>
    cases i with
    | none => trivial
    | some i => exact keep (List.mem_singleton.mpr rfl) h
  | result own sh slot =>
    obtain ⟨h1, h2, h3, h4⟩ := h
    exact ⟨owns (List.mem_cons_self ..) h1, fun k b e => keep (refs_slot e) (h2 k b e),
      fun k a e => keep (refs_slot e) (h3 k a e), fun k a e => keep (refs_slot e) (h4 k a e)⟩

/-- Whether an object refers to `o`. -/
def PyHeap.Referenced {V : Type} (s : PyHeap V) (o : Nat) : Prop := ∃ p k, s.py p = some k ∧ o ∈ k.refs

theorem referenced_iff {V : Type} {s : PyHeap V} (h : s.Valid) (o : Nat) :
    (List.range s.pyNext).any (fun p => match s.py p with | some k => decide (o ∈ k.refs) | none => false) = true ↔
      s.Referenced o := by
  rw [List.any_eq_true]
  constructor
  · rintro ⟨p, _, hp⟩
    cases hk : s.py p with
    | none => rw [hk] at hp; cases hp
    | some k => rw [hk] at hp; exact ⟨p, k, hk, of_decide_eq_true hp⟩
  · rintro ⟨p, k, hk, ho⟩
    refine ⟨p, List.mem_range.mpr (none_of_le h hk), ?_⟩
    rw [hk]
    exact decide_eq_true ho

/-- Collecting what nobody refers to keeps the invariant. -/
theorem Valid.collect {V : Type} {s : PyHeap V} (h : s.Valid) {o : Nat} (notHeld : o ∉ s.held) (free : ¬ s.Referenced o)
    (c' : Nat → Option (CObj V)) (hc : ∀ a, s.T o ≠ some (.owner a) → c' a = s.c a)
    (hc' : ∀ a, c' a = none ∨ c' a = s.c a) :
    PyHeap.Valid (⟨c', s.cNext, PyHeap.put s.py o none, s.pyNext, s.held⟩ : PyHeap V) := by
  have hT : ∀ p, p ≠ o → (⟨c', s.cNext, PyHeap.put s.py o none, s.pyNext, s.held⟩ : PyHeap V).T p = s.T p := by
    intro p hp
    show ((PyHeap.put s.py o none) p).map PyObj.tag = _
    rw [put_other _ _ hp]; rfl
  have back : ∀ p t, (⟨c', s.cNext, PyHeap.put s.py o none, s.pyNext, s.held⟩ : PyHeap V).T p = some t →
      p ≠ o ∧ s.T p = some t := by
    intro p t hp
    by_cases e : p = o
    · have hp : ((PyHeap.put s.py o none) p).map PyObj.tag = some t := hp
      rw [e, put_self] at hp
      cases hp
    · exact ⟨e, by rw [← hT p e]; exact hp⟩
  refine ⟨?_, ?_, ?_, ?_, ?_⟩
  · intro p hp
    show PyHeap.put s.py o none p = none
    by_cases e : p = o
    · rw [e, put_self]
    · rw [put_other _ _ e]; exact h.fresh p hp
  · intro a ha
    show c' a = none
    rcases hc' a with e | e
    · exact e
    · rw [e]; exact h.freshC a ha
  · intro p k hk
    have hk : PyHeap.put s.py o none p = some k := hk
    by_cases e : p = o
    · rw [e, put_self] at hk; cases hk
    · rw [put_other _ _ e] at hk
      refine (h.fine p k hk).without (o := o) (fun hm => free ⟨p, k, hk, hm⟩) hT ?_ ?_ ?_
      · intro a ha
        show (c' a).map CObj.tag = (s.c a).map CObj.tag
        rw [hc a ha]
      · intro q a h1 h2; exact h.uniq q o a h1 h2
      · intro a hka ho
        subst hka
        exact e (h.uniq p o a (T_of hk) ho)
  · intro p hp
    have hp : p ∈ s.held := hp
    obtain ⟨t, ht⟩ := h.held p hp
    exact ⟨t, by rw [hT p (fun e => notHeld (e ▸ hp))]; exact ht⟩
  · intro p q a h1 h2
    exact h.uniq p q a (back _ _ h1).2 (back _ _ h2).2

/-- A new C object with its owner, which the user does not hold. -/
theorem Valid.own {V : Type} {s : PyHeap V} (h : s.Valid) (x : CObj V) :
    PyHeap.Valid (⟨PyHeap.put s.c s.cNext (some x), s.cNext + 1, PyHeap.put s.py s.pyNext (some (.owner s.cNext)),
      s.pyNext + 1, s.held⟩ : PyHeap V) := by
  have p0 : s.py s.pyNext = none := h.fresh _ (Nat.le_refl _)
  have c0 : s.c s.cNext = none := h.freshC _ (Nat.le_refl _)
  refine h.grow ?_ ?_ (put_tag (fun k' hk' => by rw [p0] at hk'; cases hk'))
    (put_ctag (fun x' hx' => by rw [c0] at hx'; cases hx')) ?_ (fun _ e => .inl e) s.pyNext ?_
  · intro o ho
    have ho : s.pyNext + 1 ≤ o := ho
    show PyHeap.put s.py s.pyNext _ o = none
    rw [put_other _ _ (by omega)]
    exact h.fresh o (by omega)
  · intro a ha
    have ha : s.cNext + 1 ≤ a := ha
    show PyHeap.put s.c s.cNext _ a = none
    rw [put_other _ _ (by omega)]
    exact h.freshC a (by omega)
  · intro o k' hk
    have hk : PyHeap.put s.py s.pyNext (some (.owner s.cNext)) o = some k' := hk
    by_cases e : o = s.pyNext
    · rw [e, put_self] at hk
      obtain rfl := Option.some.inj hk
      exact .inr ⟨x.tag, C_of (put_self ..)⟩
    · rw [put_other _ _ e] at hk
      exact .inl hk
  · intro o b ho
    have ho : ((PyHeap.put s.py s.pyNext (some (.owner s.cNext))) o).map PyObj.tag = some (.owner b) := ho
    by_cases e : o = s.pyNext
    · rw [e, put_self] at ho
      have : s.cNext = b := PyTag.owner.inj (Option.some.inj ho)
      refine .inr ⟨e, ?_⟩
      unfold PyHeap.C
      rw [← this, c0]; rfl
    · rw [put_other _ _ e] at ho
      exact .inl ho

theorem pySet_inv {slot : PySlot → Option Nat} {k j : PySlot} {o b : Nat} (h : pySet slot k o j = some b) :
    (j = k ∧ b = o) ∨ slot j = some b := by
  unfold pySet at h
  by_cases e : j = k
  · rw [if_pos e] at h; exact .inl ⟨e, (Option.some.inj h).symm⟩
  · rw [if_neg e] at h; exact .inr h

theorem pyFill_fault {V : Type} {zero : V} {r : ExResult V} {n : Nat} {k : PyCol} {f : PyFault}
    (h : pyFill zero r n k = .error f) : f = .overflow := by
  cases k with
  | vals =>
    rw [pyFill] at h
    split at h
    · cases h
    · exact (Except.error.inj h).symm
    · cases h
  | masks =>
    rw [pyFill] at h
    split at h
    · cases h
    · exact (Except.error.inj h).symm

/-- An outcome that is no use of freed memory and leaves the invariant. -/
def PySafe {V : Type} : Except PyFault (PyShown V × PyHeap V) → Prop
  | .ok (_, s) => s.Valid
  | .error f => f = .overflow

theorem derefAll_ok {V : Type} {s : PyHeap V} : ∀ (l : List Nat), (∀ own ∈ l, OwnsC s.T s.C own .request) →
    s.derefAll l = .ok () := by
  intro l
  induction l with
  | nil => intro _; rfl
  | cons own rest ih =>
    intro h
    obtain ⟨a, x, -, -, ht, hd⟩ := PyHeap.Valid.deref (h own (List.mem_cons_self ..))
    rw [PyHeap.derefAll, hd]
    cases x <;> simp only [CObj.tag, reduceCtorEq] at ht
    exact ih fun o ho => h o (List.mem_cons_of_mem _ ho)

theorem deref_jump {V : Type} {s : PyHeap V} {own : Nat} (h : OwnsC s.T s.C own .jump) :
    ∃ a, s.deref own = .ok (a, .jump) := by
  obtain ⟨a, x, -, -, ht, hd⟩ := PyHeap.Valid.deref h
  cases x <;> simp only [CObj.tag, reduceCtorEq] at ht
  exact ⟨a, hd⟩

theorem pyAnswered_safe {V : Type} {s : PyHeap V} (h : s.Valid) (answer : Option (List (ExResult V)))
    (f : Nat → Option (List Nat)) : PySafe (.ok (s.answered answer f)) := by
  cases answer with
  | none => exact h
  | some out => exact Valid.give h _ _ (fun _ _ => (by intro e; cases e)) (fun _ _ hx => hx)

/-- Every step is safe. -/
theorem PyHeap.step_safe {V : Type} (zero : V) {s : PyHeap V} (h : s.Valid) (e : PyEv V) : PySafe (s.step zero e) := by
  cases e with
  | newJump ok =>
    rw [PyHeap.step]
    cases ok with
    | false => exact h
    | true => exact Valid.give h _ _ (fun _ _ => (by intro e; cases e)) (fun _ _ hx => hx)
  | newRequest rs ok =>
    rw [PyHeap.step]
    cases ok with
    | false => exact h
    | true => exact Valid.give h _ _ (fun _ _ => (by intro e; cases e)) (fun _ _ hx => hx)
  | ctype o =>
    rw [PyHeap.step]
    split
    · next own hm =>
      obtain ⟨a, h1, -⟩ := h.fine o _ (mine_eq hm).2
      exact Valid.hold h h1
    · next own sh hm =>
      obtain ⟨a, h1, -⟩ := h.fine o _ (mine_eq hm).2
      exact Valid.hold h h1
    · exact h
  | extract j reqs answer =>
    rw [PyHeap.step]
    split
    · next own hm =>
      obtain ⟨a, hd⟩ := deref_jump (h.fine j _ (mine_eq hm).2)
      split
      · rw [hd]
        simp only []
        have hall : s.derefAll ((reqs.filterMap s.requestOf).map Prod.fst) = .ok () := by
          refine derefAll_ok _ fun own ho => ?_
          obtain ⟨p, hp, rfl⟩ := List.mem_map.mp ho
          obtain ⟨r, -, hr⟩ := List.mem_filterMap.mp hp
          unfold PyHeap.requestOf at hr
          split at hr
          · next own' sh hm' =>
            obtain rfl := Option.some.inj hr
            exact h.fine r _ (mine_eq hm').2
          · cases hr
        rw [hall]
        exact pyAnswered_safe h _ _
      · exact h
    · exact h
  | single j rs answer =>
    rw [PyHeap.step]
    split
    · next own hm =>
      obtain ⟨a, hd⟩ := deref_jump (h.fine j _ (mine_eq hm).2)
      rw [hd]
      exact pyAnswered_safe h _ _
    · exact h
  | axes j ok =>
    rw [PyHeap.step]
    split
    · next own hm =>
      obtain ⟨a, hd⟩ := deref_jump (h.fine j _ (mine_eq hm).2)
      rw [hd]
      simp only []
      cases ok with
      | false => exact h
      | true => exact Valid.own h .axes
    · exact h
  | iter it =>
    rw [PyHeap.step]
    split
    · next own f hm =>
      have hT : s.T it = some .iterator := T_of (mine_eq hm).2
      have h1 := Valid.add h (.generator it (some 0)) (fun _ => (by intro e; cases e)) hT
      exact Valid.hold h1 (t := .other) (T_of (k := .generator it (some 0)) (put_self ..))
    · exact h
  | next g =>
    rw [PyHeap.step]
    split
    · exact h
    · next it i hm =>
      have hg := (mine_eq hm).2
      obtain ⟨own, f, hit⟩ := tag_iterator (h.fine g _ hg)
      rw [hit]
      simp only []
      obtain ⟨a, x, ho, hx, ht, hd⟩ := PyHeap.Valid.deref (h.fine it _ hit)
      cases x <;> simp only [CObj.tag, reduceCtorEq] at ht
      rename_i src
      rw [hd]
      simp only []
      cases hn : cIterNext src with
      | mk got src' =>
        cases got with
        | none =>
          simp only []
          exact Valid.tick h none hx hg
        | some r =>
          simp only []
          cases f i with
          | none =>
            simp only []
            exact Valid.stray (Valid.tick h (src' := src') none hx hg) _
          | some sh =>
            simp only []
            exact Valid.give (Valid.tick h (src' := src') (some (i + 1)) hx hg) _ _ (fun _ _ => (by intro e; cases e))
              (fun _ _ hx => ⟨hx, fun _ _ e => (by cases e), fun _ _ e => (by cases e), fun _ _ e => (by cases e)⟩)
    · exact h
  | load r k =>
    rw [PyHeap.step]
    split
    · next own sh slot hm =>
      have hr := (mine_eq hm).2
      obtain ⟨h1, h2, h3, h4⟩ := h.fine r _ hr
      split
      · exact h
      · next hs =>
        obtain ⟨a, x, ho, hx, ht, hd⟩ := PyHeap.Valid.deref h1
        cases x <;> simp only [CObj.tag, reduceCtorEq] at ht
        rename_i x
        rw [hd]
        simp only []
        cases hf : pyFill zero x (pyColShape sh k).sum k with
        | error f =>
          simp only []
          exact pyFill_fault hf
        | ok p =>
          obtain ⟨cells, ok⟩ := p
          simp only []
          have hv := Valid.add h (.buffer cells) (fun _ => (by intro e; cases e)) trivial
          have hb : (⟨s.c, s.cNext, PyHeap.put s.py s.pyNext (some (.buffer cells)), s.pyNext + 1, s.held⟩ : PyHeap V).T s.pyNext =
              some .buffer := T_of (k := .buffer cells) (put_self ..)
          have hne : r ≠ s.pyNext := Nat.ne_of_lt (none_of_le h hr)
          have hr' : (⟨s.c, s.cNext, PyHeap.put s.py s.pyNext (some (.buffer cells)), s.pyNext + 1, s.held⟩ : PyHeap V).py r =
              some (.result own sh slot) := by
            show PyHeap.put s.py s.pyNext _ r = _
            rw [put_other _ _ hne]; exact hr
          obtain ⟨g1, g2, g3, g4⟩ := hv.fine r _ hr'
          refine Valid.replace hv (.result own sh (pySet slot (.buffer k) s.pyNext)) hr' rfl (fun _ => (by intro e; cases e))
            ⟨g1, ?_, ?_, ?_⟩
          · intro k' b hb'
            unfold pySet at hb'
            split at hb'
            · obtain rfl := Option.some.inj hb'
              exact hb
            · exact g2 k' b hb'
          · intro k' b hb'
            unfold pySet at hb'
            rw [if_neg (by intro e; cases e)] at hb'
            exact g3 k' b hb'
          · intro k' b hb'
            unfold pySet at hb'
            rw [if_neg (by intro e; cases e)] at hb'
            exact g4 k' b hb'
    · exact h
  | view r k whole =>
    rw [PyHeap.step]
    split
    · next own sh slot hm =>
      have hr := (mine_eq hm).2
      obtain ⟨h1, h2, h3, h4⟩ := h.fine r _ hr
      split
      · next a ha =>
        have : s.T a = some .array := by
          cases whole with
          | false => exact h3 k a ha
          | true => exact h4 k a ha
        exact Valid.hold h this
      · next hs =>
        split
        · exact h
        · next b hb =>
          generalize hsz : (if whole then none else some (pyColShape sh k) : Option (List Nat)) = sz
          have hv := Valid.add h (.array b sz) (fun _ => (by intro e; cases e)) (h2 k b hb)
          have hb' : (⟨s.c, s.cNext, PyHeap.put s.py s.pyNext (some (.array b sz)), s.pyNext + 1, s.held⟩ : PyHeap V).T s.pyNext =
              some .array := T_of (k := .array b sz) (put_self ..)
          have hne : r ≠ s.pyNext := Nat.ne_of_lt (none_of_le h hr)
          have hr' : (⟨s.c, s.cNext, PyHeap.put s.py s.pyNext (some (.array b sz)), s.pyNext + 1, s.held⟩ : PyHeap V).py r =
              some (.result own sh slot) := by
            show PyHeap.put s.py s.pyNext _ r = _
            rw [put_other _ _ hne]; exact hr
          obtain ⟨g1, g2, g3, g4⟩ := hv.fine r _ hr'
          have hv2 := Valid.replace hv (.result own sh (pySet slot (if whole then .flat k else .split k) s.pyNext)) hr' rfl
            (fun _ => (by intro e; cases e)) ⟨g1, ?_, ?_, ?_⟩
          · refine Valid.hold hv2 (t := .array) ?_
            show ((PyHeap.put (PyHeap.put s.py s.pyNext _) r _) s.pyNext).map PyObj.tag = _
            rw [put_other _ _ (Ne.symm hne), put_self]
            rfl
          · intro k' b' e
            rcases pySet_inv e with ⟨e', -⟩ | e'
            · cases whole <;> cases e'
            · exact g2 k' b' e'
          · intro k' b' e
            rcases pySet_inv e with ⟨-, e'⟩ | e'
            · rw [e']; exact hb'
            · exact g3 k' b' e'
          · intro k' b' e
            rcases pySet_inv e with ⟨-, e'⟩ | e'
            · rw [e']; exact hb'
            · exact g4 k' b' e'
    · exact h
  | read a =>
    rw [PyHeap.step]
    split
    · next b sizes hm =>
      obtain ⟨cells, hb⟩ := tag_buffer (h.fine a _ (mine_eq hm).2)
      rw [hb]
      exact h
    · exact h
  | poke a i x =>
    rw [PyHeap.step]
    split
    · next b sizes hm =>
      obtain ⟨cells, hb⟩ := tag_buffer (h.fine a _ (mine_eq hm).2)
      rw [hb]
      simp only []
      split
      · exact Valid.replace h (.buffer (cells.set i x)) hb rfl (fun _ => (by intro e; cases e)) trivial
      · exact h
    · exact h
  | drop o =>
    rw [PyHeap.step]
    exact ⟨h.fresh, h.freshC, h.fine, fun p hp => h.held p (List.mem_of_mem_erase hp), h.uniq⟩
  | collect o =>
    rw [PyHeap.step]
    split
    · exact h
    · next hn =>
      have notHeld : o ∉ s.held := fun hc => hn (.inl hc)
      have free : ¬ s.Referenced o := fun hc => hn (.inr ((referenced_iff h o).mpr hc))
      split
      · next a ho =>
        obtain ⟨t, ht⟩ := h.fine o _ ho
        cases hx : s.c a with
        | none => unfold PyHeap.C at ht; rw [hx] at ht; cases ht
        | some x =>
          refine Valid.collect h notHeld free _ ?_ ?_
          · intro b hb
            exact put_other _ _ (fun e => hb (by rw [e]; exact T_of ho))
          · intro b
            by_cases e : b = a
            · rw [e, put_self]; exact .inl rfl
            · rw [put_other _ _ e]; exact .inr rfl
      · exact Valid.collect h notHeld free s.c (fun _ _ => rfl) (fun _ => .inr rfl)

theorem PyHeap.run_safe {V : Type} (zero : V) : ∀ (es : List (PyEv V)) {s : PyHeap V}, s.Valid →
    (∀ os t, s.run zero es = .ok (os, t) → t.Valid) ∧ s.run zero es ≠ .error .dangling := by
  intro es
  induction es with
  | nil =>
    intro s h
    refine ⟨fun os t e => ?_, fun e => by cases e⟩
    obtain ⟨-, rfl⟩ := Prod.mk.inj (Except.ok.inj e)
    exact h
  | cons e es ih =>
    intro s h
    have hs := PyHeap.step_safe zero h e
    rw [PyHeap.run]
    cases hx : s.step zero e with
    | error f =>
      rw [hx] at hs
      have hs : f = .overflow := hs
      subst hs
      exact ⟨fun _ _ e => (by cases e), fun e => (by cases e)⟩
    | ok p =>
      obtain ⟨o, s'⟩ := p
      rw [hx] at hs
      have hs : s'.Valid := hs
      simp only []
      have hr := ih hs
      cases hy : PyHeap.run zero es s' with
      | error f =>
        simp only []
        refine ⟨fun _ _ e => (by cases e), fun e => ?_⟩
        exact hr.2 (by rw [hy]; exact congrArg _ (Except.error.inj e))
      | ok q =>
        obtain ⟨os, t⟩ := q
        simp only []
        refine ⟨fun os' t' e => ?_, fun e => by cases e⟩
        obtain ⟨-, rfl⟩ := Prod.mk.inj (Except.ok.inj e)
        exact hr.1 _ _ hy

end GJ
