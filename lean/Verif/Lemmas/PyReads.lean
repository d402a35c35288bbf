import Verif.Lemmas.PyKeep

/-!
# The heaps of the Python client: buffers and views
-/

namespace GJ

/-- Not a write of the user into an array. -/
def PyEv.Looks {V : Type} : PyEv V → Prop
  | .poke _ _ _ => False
  | _ => True

/-- Data objects: those a step leaves as they are. -/
def PyObj.IsData {V : Type} : PyObj V → Prop
  | .buffer _ => True
  | .array _ _ => True
  | _ => False

/-- Addresses are not used again. -/
theorem PyMove.next_le {V : Type} {zero : V} {s s' : PyHeap V} {e : PyEv V} (hm : PyMove zero s e s') :
    s.pyNext ≤ s'.pyNext := by
  cases hm <;> first
    | exact Nat.le_refl _
    | exact Nat.le_succ _
    | exact Nat.le_add_right _ 2

theorem give_py_lt {V : Type} {s : PyHeap V} {x : CObj V} {mk : Nat → PyObj V} {o : Nat} (h : o < s.pyNext) :
    (s.give x mk).py o = s.py o := by
  show PyHeap.put (PyHeap.put s.py s.pyNext _) (s.pyNext + 1) _ o = _
  rw [put_other _ _ (by omega), put_other _ _ (by omega)]

theorem put_ne {V : Type} {py : Nat → Option (PyObj V)} {g o : Nat} {k k' : PyObj V} {y : Option (PyObj V)}
    (hg : py g = some k') (h : py o = some k) (hne : k ≠ k') : PyHeap.put py g y o = some k := by
  rw [put_other _ _ (fun e => by rw [e, hg] at h; exact hne (Option.some.inj h).symm)]
  exact h

/-- An object that is gone stays gone. -/
theorem PyMove.gone {V : Type} {zero : V} {s s' : PyHeap V} {e : PyEv V} (hm : PyMove zero s e s') {o : Nat}
    (h : s.py o = none) (lt : o < s.pyNext) : s'.py o = none := by
  have diff : ∀ {p k} {y : Option (PyObj V)}, s.py p = some k → PyHeap.put s.py p y o = none := by
    intro p k y hp
    rw [put_other _ _ (fun e => by rw [e, hp] at h; cases h)]
    exact h
  have fresh : ∀ {y : Option (PyObj V)}, PyHeap.put s.py s.pyNext y o = none := by
    intro y
    rw [put_other _ _ (by omega)]; exact h
  cases hm with
  | same => exact h
  | held _ hl => exact h
  | jump ok => rw [give_py_lt lt]; exact h
  | request rs ok => rw [give_py_lt lt]; exact h
  | iterator _ out f answered => rw [give_py_lt lt]; exact h
  | axes j ok => exact fresh
  | iter it own f hit => exact fresh
  | stop g it i own f a src src' hg hit ho hx hn => exact diff hg
  | stray g it i own f a src src' r hg hit ho hx hn hf => exact diff hg
  | item g it i own f a src src' r sh hg hit ho hx hn hf =>
    rw [give_py_lt (by exact lt)]
    exact diff hg
  | load r k own sh slot a x cells ok hr hs ho hx hf =>
    show PyHeap.put _ r _ o = none
    rw [put_other _ _ (fun e => by rw [e, hr] at h; cases h)]
    exact fresh
  | view r k whole own sh slot b hr hs hb =>
    show PyHeap.put _ r _ o = none
    rw [put_other _ _ (fun e => by rw [e, hr] at h; cases h)]
    exact fresh
  | poke a b i x cells hb => exact diff hb
  | freeOwner p a x nh fr ho hx => exact diff ho
  | free p nh fr ho =>
    show PyHeap.put s.py p none o = none
    by_cases e : o = p
    · rw [e, put_self]
    · rw [put_other _ _ e]; exact h

/-- Data stays as it is until it is collected, unless the user writes to it. -/
theorem PyMove.data {V : Type} {zero : V} {s s' : PyHeap V} (v : s.Valid) {e : PyEv V} (looks : e.Looks)
    (hm : PyMove zero s e s') {o : Nat} {k : PyObj V} (data : k.IsData) (h : s.py o = some k) :
    s'.py o = some k ∨ s'.py o = none := by
  have lt := none_of_le v h
  have diff : ∀ {p k'} {y : Option (PyObj V)}, s.py p = some k' → ¬ k'.IsData → PyHeap.put s.py p y o = some k := by
    intro p k' y hp hk'
    exact put_ne hp h (fun e => hk' (e ▸ data))
  cases hm with
  | same => exact .inl h
  | held _ hl => exact .inl h
  | jump ok => rw [give_py_lt lt]; exact .inl h
  | request rs ok => rw [give_py_lt lt]; exact .inl h
  | iterator _ out f answered => rw [give_py_lt lt]; exact .inl h
  | axes j ok => exact .inl (put_fresh v h)
  | iter it own f hit => exact .inl (put_fresh v h)
  | stop g it i own f a src src' hg hit ho hx hn => exact .inl (diff hg id)
  | stray g it i own f a src src' r hg hit ho hx hn hf => exact .inl (diff hg id)
  | item g it i own f a src src' r sh hg hit ho hx hn hf =>
    rw [give_py_lt (by exact lt)]
    exact .inl (diff hg id)
  | load r kk own sh slot a x cells ok hr hs ho hx hf =>
    refine .inl (put_ne (k' := .result own sh slot) (put_fresh v hr) (put_fresh v h) (fun e => ?_))
    rw [e] at data; exact data
  | view r kk whole own sh slot b hr hs hb =>
    refine .inl (put_ne (k' := .result own sh slot) (put_fresh v hr) (put_fresh v h) (fun e => ?_))
    rw [e] at data; exact data
  | poke a b i x cells hb => exact absurd looks id
  | freeOwner p a x nh fr ho hx => exact .inl (diff ho id)
  | free p nh fr ho =>
    by_cases e : o = p
    · exact .inr (by show PyHeap.put s.py p none o = none; rw [e, put_self])
    · exact .inl (by show PyHeap.put s.py p none o = some k; rw [put_other _ _ e]; exact h)

/-- The buffers and views of every result object are what its C result gives. -/
structure PyHeap.Faithful {V : Type} (zero : V) (s : PyHeap V) : Prop where
  buf : ∀ r own sh slot, s.py r = some (.result own sh slot) → ∀ a x, s.py own = some (.owner a) →
    s.c a = some (.result x) → ∀ k b, slot (.buffer k) = some b →
    ∃ cells ok, s.py b = some (.buffer cells) ∧ pyFill zero x (pyColShape sh k).sum k = .ok (cells, ok)
  views : ∀ r own sh slot, s.py r = some (.result own sh slot) → ∀ k (whole : Bool) a,
    slot (if whole then .flat k else .split k) = some a →
    ∃ b, slot (.buffer k) = some b ∧ s.py a = some (.array b (if whole then none else some (pyColShape sh k)))

theorem tag_some {V : Type} {s : PyHeap V} {o : Nat} {t : PyTag} (h : s.T o = some t) : s.py o ≠ none := by
  intro hc; unfold PyHeap.T at h; rw [hc] at h; cases h

theorem fine_view {V : Type} {s : PyHeap V} (v : s.Valid) {r own : Nat} {sh : List Nat} {slot : PySlot → Option Nat}
    (hr : s.py r = some (.result own sh slot)) {k : PyCol} {whole : Bool} {a : Nat}
    (h : slot (if whole then .flat k else .split k) = some a) : s.T a = some .array := by
  obtain ⟨-, -, h3, h4⟩ := v.fine r _ hr
  cases whole with
  | false => exact h3 k a h
  | true => exact h4 k a h

theorem Faithful.frame {V : Type} {zero : V} {s s' : PyHeap V} (v : s.Valid) (v' : s'.Valid) (h : s.Faithful zero)
    (hr : ∀ r own sh slot, s'.py r = some (.result own sh slot) →
      s.py r = some (.result own sh slot) ∨ ∀ k, slot k = none)
    (ho : ∀ own a, s'.py own = some (.owner a) → s.py own = some (.owner a) ∨ s.py own = none)
    (hc : ∀ a x, s'.c a = some (.result x) → s.c a = some (.result x) ∨ s.c a = none)
    (hd : ∀ o k, k.IsData → s.py o = some k → s'.py o = some k ∨ s'.py o = none) : s'.Faithful zero := by
  constructor
  · intro r own sh slot h1 a x h2 h3 k b hb
    rcases hr r own sh slot h1 with g1 | g1
    · obtain ⟨⟨a0, o1, o2⟩, -, -, -⟩ := v.fine r _ g1
      have g2 : s.py own = some (.owner a) := (ho own a h2).resolve_right (tag_some o1)
      have g3 : s.c a = some (.result x) := by
        refine (hc a x h3).resolve_right fun e => ?_
        rw [T_of g2] at o1
        obtain rfl := PyTag.owner.inj (Option.some.inj o1)
        unfold PyHeap.C at o2
        rw [e] at o2; cases o2
      obtain ⟨cells, ok, g4, g5⟩ := h.buf r own sh slot g1 a x g2 g3 k b hb
      obtain ⟨-, q2, -, -⟩ := v'.fine r _ h1
      exact ⟨cells, ok, (hd b (.buffer cells) trivial g4).resolve_right (tag_some (q2 k b hb)), g5⟩
    · rw [g1] at hb; cases hb
  · intro r own sh slot h1 k whole a ha
    rcases hr r own sh slot h1 with g1 | g1
    · obtain ⟨b, g2, g3⟩ := h.views r own sh slot g1 k whole a ha
      exact ⟨b, g2, (hd a (.array b _) trivial g3).resolve_right (tag_some (fine_view v' h1 ha))⟩
    · rw [g1] at ha; cases ha

theorem Faithful.move {V : Type} {zero : V} {s s' : PyHeap V} (v : s.Valid) (v' : s'.Valid) (h : s.Faithful zero) {e : PyEv V}
    (looks : e.Looks) (hm : PyMove zero s e s') : s'.Faithful zero := by
  have p0 : s.py s.pyNext = none := v.fresh _ (Nat.le_refl _)
  have p1 : s.py (s.pyNext + 1) = none := v.fresh _ (Nat.le_succ _)
  have c0 : s.c s.cNext = none := v.freshC _ (Nat.le_refl _)
  have data := fun o k (hk : PyObj.IsData k) hp => PyMove.data v looks hm (o := o) hk hp
  have give : ∀ (t : PyHeap V) (x : CObj V) (mk : Nat → PyObj V), t.pyNext = s.pyNext → t.cNext = s.cNext →
      (∀ r own sh slot, t.py r = some (.result own sh slot) → s.py r = some (.result own sh slot)) →
      (∀ own a, t.py own = some (.owner a) → s.py own = some (.owner a)) →
      (∀ a y, t.c a = some (.result y) → s.c a = some (.result y)) →
      (∀ own sh slot, mk s.pyNext = .result own sh slot → ∀ k, slot k = none) →
      (t.give x mk).Valid →
      (∀ o k, k.IsData → s.py o = some k → (t.give x mk).py o = some k ∨ (t.give x mk).py o = none) →
      (t.give x mk).Faithful zero := by
    intro t x mk e1 e2 hr ho hc hmk vt hd
    refine Faithful.frame v vt h ?_ ?_ ?_ hd
    · intro r own sh slot hk
      rcases give_py_inv hk with ⟨-, e⟩ | ⟨-, e⟩ | e
      · exact .inr (hmk own sh slot (by rw [← e1]; exact e.symm))
      · cases e
      · exact .inl (hr _ _ _ _ e)
    · intro own a hk
      rcases give_py_inv hk with ⟨e, -⟩ | ⟨e, -⟩ | e
      · exact .inr (by rw [e, e1]; exact p1)
      · exact .inr (by rw [e, e1]; exact p0)
      · exact .inl (ho _ _ e)
    · intro a y hk
      rcases put_inv hk with ⟨e, -⟩ | ⟨-, e⟩
      · exact .inr (by rw [e, e2]; exact c0)
      · exact .inl (hc _ _ e)
  cases hm with
  | same => exact h
  | held _ hl => exact ⟨h.buf, h.views⟩
  | jump ok =>
    exact give s _ _ rfl rfl (fun _ _ _ _ e => e) (fun _ _ e => e) (fun _ _ e => e) (fun _ _ _ e => by cases e) v' data
  | request rs ok =>
    exact give s _ _ rfl rfl (fun _ _ _ _ e => e) (fun _ _ e => e) (fun _ _ e => e) (fun _ _ _ e => by cases e) v' data
  | iterator _ out f answered =>
    exact give s _ _ rfl rfl (fun _ _ _ _ e => e) (fun _ _ e => e) (fun _ _ e => e) (fun _ _ _ e => by cases e) v' data
  | axes j ok =>
    refine Faithful.frame v v' h ?_ ?_ ?_ data
    · intro r own sh slot hk
      rcases put_inv hk with ⟨-, e⟩ | ⟨-, e⟩
      · cases e
      · exact .inl e
    · intro own a hk
      rcases put_inv hk with ⟨rfl, -⟩ | ⟨-, e⟩
      · exact .inr p0
      · exact .inl e
    · intro a x hk
      rcases put_inv hk with ⟨-, e⟩ | ⟨-, e⟩
      · cases e
      · exact .inl e
  | iter it own f hit =>
    refine Faithful.frame v v' h ?_ ?_ (fun _ _ e => .inl e) data
    · intro r own sh slot hk
      rcases put_inv hk with ⟨-, e⟩ | ⟨-, e⟩
      · cases e
      · exact .inl e
    · intro own a hk
      rcases put_inv hk with ⟨-, e⟩ | ⟨-, e⟩
      · cases e
      · exact .inl e
  | stop g it i own f a src src' hg hit ho hx hn =>
    refine Faithful.frame v v' h ?_ ?_ ?_ data
    · intro r own sh slot hk
      rcases put_inv hk with ⟨-, e⟩ | ⟨-, e⟩
      · cases e
      · exact .inl e
    · intro own a hk
      rcases put_inv hk with ⟨-, e⟩ | ⟨-, e⟩
      · cases e
      · exact .inl e
    · intro a x hk
      rcases put_inv hk with ⟨-, e⟩ | ⟨-, e⟩
      · cases e
      · exact .inl e
  | stray g it i own f a src src' r hg hit ho hx hn hf =>
    refine Faithful.frame v v' h ?_ ?_ ?_ data
    · intro r own sh slot hk
      rcases put_inv hk with ⟨-, e⟩ | ⟨-, e⟩
      · cases e
      · exact .inl e
    · intro own a hk
      rcases put_inv hk with ⟨-, e⟩ | ⟨-, e⟩
      · cases e
      · exact .inl e
    · intro a x hk
      rcases put_inv hk with ⟨rfl, -⟩ | ⟨-, e⟩
      · exact .inr c0
      · rcases put_inv e with ⟨-, e⟩ | ⟨-, e⟩
        · cases e
        · exact .inl e
  | item g it i own f a src src' r sh hg hit ho hx hn hf =>
    refine give _ _ _ rfl rfl ?_ ?_ ?_ ?_ v' data
    · intro r own sh slot hk
      rcases put_inv hk with ⟨-, e⟩ | ⟨-, e⟩
      · cases e
      · exact e
    · intro own a hk
      rcases put_inv hk with ⟨-, e⟩ | ⟨-, e⟩
      · cases e
      · exact e
    · intro a x hk
      rcases put_inv hk with ⟨-, e⟩ | ⟨-, e⟩
      · cases e
      · exact e
    · intro own sh slot e
      obtain ⟨-, -, rfl⟩ := PyObj.result.inj e
      intro _; rfl
  | load r k own sh slot a x cells ok hr hs ho hx hf =>
    constructor
    · intro r' own' sh' slot' h1 a' x' h2 h3 k' b hb
      have q2 : s.py own' = some (.owner a') := by
        rcases put_inv h2 with ⟨-, e⟩ | ⟨-, e⟩
        · cases e
        · rcases put_inv e with ⟨-, e⟩ | ⟨-, e⟩
          · cases e
          · exact e
      have q3 : s.c a' = some (.result x') := h3
      rcases put_inv h1 with ⟨-, e⟩ | ⟨hne, e⟩
      · obtain ⟨rfl, rfl, rfl⟩ := PyObj.result.inj e
        rw [ho] at q2
        obtain rfl := PyObj.owner.inj (Option.some.inj q2)
        rw [hx] at q3
        obtain rfl := CObj.result.inj (Option.some.inj q3)
        rcases pySet_inv hb with ⟨e1, rfl⟩ | e1
        · obtain rfl := PySlot.buffer.inj e1
          refine ⟨cells, ok, ?_, hf⟩
          show PyHeap.put _ r _ s.pyNext = _
          have := none_of_le v hr
          rw [put_other _ _ (by omega), put_self]
        · obtain ⟨cells', ok', g4, g5⟩ := h.buf r own' sh' slot hr _ _ ho hx k' b e1
          exact ⟨cells', ok', put_ne (put_fresh v hr) (put_fresh v g4) (fun e => by cases e), g5⟩
      · rcases put_inv e with ⟨-, e⟩ | ⟨-, e⟩
        · cases e
        · obtain ⟨cells', ok', g4, g5⟩ := h.buf r' own' sh' slot' e a' x' q2 q3 k' b hb
          exact ⟨cells', ok', put_ne (put_fresh v hr) (put_fresh v g4) (fun e => by cases e), g5⟩
    · intro r' own' sh' slot' h1 k' whole a' ha
      rcases put_inv h1 with ⟨-, e⟩ | ⟨hne, e⟩
      · obtain ⟨rfl, rfl, rfl⟩ := PyObj.result.inj e
        rcases pySet_inv ha with ⟨e1, -⟩ | e1
        · cases whole <;> cases e1
        · obtain ⟨b, g2, g3⟩ := h.views r own' sh' slot hr k' whole a' e1
          refine ⟨b, ?_, put_ne (put_fresh v hr) (put_fresh v g3) (fun e => by cases e)⟩
          unfold pySet
          rw [if_neg (fun e => by rw [PySlot.buffer.inj e, hs] at g2; cases g2)]
          exact g2
      · rcases put_inv e with ⟨-, e⟩ | ⟨-, e⟩
        · cases e
        · obtain ⟨b, g2, g3⟩ := h.views r' own' sh' slot' e k' whole a' ha
          exact ⟨b, g2, put_ne (put_fresh v hr) (put_fresh v g3) (fun e => by cases e)⟩
  | view r k whole own sh slot b hr hs hb =>
    constructor
    · intro r' own' sh' slot' h1 a' x' h2 h3 k' b' hb'
      have q2 : s.py own' = some (.owner a') := by
        rcases put_inv h2 with ⟨-, e⟩ | ⟨-, e⟩
        · cases e
        · rcases put_inv e with ⟨-, e⟩ | ⟨-, e⟩
          · cases e
          · exact e
      have q3 : s.c a' = some (.result x') := h3
      rcases put_inv h1 with ⟨-, e⟩ | ⟨hne, e⟩
      · obtain ⟨rfl, rfl, rfl⟩ := PyObj.result.inj e
        rcases pySet_inv hb' with ⟨e1, -⟩ | e1
        · cases whole <;> cases e1
        · obtain ⟨cells', ok', g4, g5⟩ := h.buf r own' sh' slot hr a' x' q2 q3 k' b' e1
          exact ⟨cells', ok', put_ne (put_fresh v hr) (put_fresh v g4) (fun e => by cases e), g5⟩
      · rcases put_inv e with ⟨-, e⟩ | ⟨-, e⟩
        · cases e
        · obtain ⟨cells', ok', g4, g5⟩ := h.buf r' own' sh' slot' e a' x' q2 q3 k' b' hb'
          exact ⟨cells', ok', put_ne (put_fresh v hr) (put_fresh v g4) (fun e => by cases e), g5⟩
    · intro r' own' sh' slot' h1 k' whole' a' ha
      rcases put_inv h1 with ⟨-, e⟩ | ⟨hne, e⟩
      · obtain ⟨rfl, rfl, rfl⟩ := PyObj.result.inj e
        have keep : ∀ {k'' : PyCol}, pySet slot (if whole then .flat k else .split k) s.pyNext (.buffer k'') =
            slot (.buffer k'') := by
          intro k''
          unfold pySet
          rw [if_neg (fun e => by cases whole <;> cases e)]
        rcases pySet_inv ha with ⟨e1, rfl⟩ | e1
        · have hk : k' = k ∧ whole' = whole := by
            cases whole <;> cases whole' <;> first | exact ⟨by injection e1, rfl⟩ | cases e1
          obtain ⟨rfl, rfl⟩ := hk
          refine ⟨b, by rw [keep]; exact hb, ?_⟩
          show PyHeap.put _ r _ s.pyNext = _
          have := none_of_le v hr
          rw [put_other _ _ (by omega), put_self]
        · obtain ⟨b', g2, g3⟩ := h.views r own' sh' slot hr k' whole' a' e1
          exact ⟨b', by rw [keep]; exact g2, put_ne (put_fresh v hr) (put_fresh v g3) (fun e => by cases e)⟩
      · rcases put_inv e with ⟨-, e⟩ | ⟨-, e⟩
        · cases e
        · obtain ⟨b', g2, g3⟩ := h.views r' own' sh' slot' e k' whole' a' ha
          exact ⟨b', g2, put_ne (put_fresh v hr) (put_fresh v g3) (fun e => by cases e)⟩
  | poke a b i x cells hb => exact absurd looks id
  | freeOwner o a x nh fr ho hx =>
    exact Faithful.frame v v' h (fun _ _ _ _ hk => .inl (put_none_inv hk).2) (fun _ _ hk => .inl (put_none_inv hk).2)
      (fun _ _ hk => .inl (put_none_inv hk).2) data
  | free o nh fr ho =>
    exact Faithful.frame v v' h (fun _ _ _ _ hk => .inl (put_none_inv hk).2) (fun _ _ hk => .inl (put_none_inv hk).2)
      (fun _ _ hk => .inl hk) data

end GJ
