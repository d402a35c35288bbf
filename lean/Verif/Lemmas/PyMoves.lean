import Verif.Lemmas.PyHeap

/-!
# The heaps of the Python client: what each step changes
-/

namespace GJ

/-- The library answered `out` to an extraction, and the iterator will use the shapes `f`. -/
def PyHeap.Answered {V : Type} (s : PyHeap V) (out : List (ExResult V)) (f : Nat → Option (List Nat)) : PyEv V → Prop
  | .extract _ reqs answer => answer = some out ∧ (reqs.filterMap s.requestOf).length = reqs.length ∧
      f = fun i => ((reqs.filterMap s.requestOf).map Prod.snd)[i]?
  | .single _ rs answer => answer = some out ∧ f = fun _ => some (pyShape rs)
  | _ => False

/-- The changes a step can make. -/
inductive PyMove {V : Type} (zero : V) (s : PyHeap V) : PyEv V → PyHeap V → Prop where
  | same (e) : PyMove zero s e s
  | held (e) (h : List Nat) : PyMove zero s e ⟨s.c, s.cNext, s.py, s.pyNext, h⟩
  | jump (ok) : PyMove zero s (.newJump ok) (s.give .jump fun own => .jump own)
  | request (rs ok) : PyMove zero s (.newRequest rs ok) (s.give .request fun own => .request own (pyShape rs))
  | iterator (e out f) (answered : s.Answered out f e) :
      PyMove zero s e (s.give (.iterator ⟨out.map some, 0⟩) fun own => .iterator own f)
  | axes (j ok) : PyMove zero s (.axes j ok) ⟨PyHeap.put s.c s.cNext (some .axes), s.cNext + 1,
      PyHeap.put s.py s.pyNext (some (.owner s.cNext)), s.pyNext + 1, s.held⟩
  | iter (it own f) (hit : s.py it = some (.iterator own f)) : PyMove zero s (.iter it)
      ⟨s.c, s.cNext, PyHeap.put s.py s.pyNext (some (.generator it (some 0))), s.pyNext + 1, s.held ++ [s.pyNext]⟩
  | stop (g it i own f a src src') (hg : s.py g = some (.generator it (some i))) (hit : s.py it = some (.iterator own f))
      (ho : s.py own = some (.owner a)) (hx : s.c a = some (.iterator src)) (hn : cIterNext src = (none, src')) :
      PyMove zero s (.next g) ⟨PyHeap.put s.c a (some (.iterator src')), s.cNext,
        PyHeap.put s.py g (some (.generator it none)), s.pyNext, s.held⟩
  | stray (g it i own f a src src' r) (hg : s.py g = some (.generator it (some i)))
      (hit : s.py it = some (.iterator own f)) (ho : s.py own = some (.owner a)) (hx : s.c a = some (.iterator src))
      (hn : cIterNext src = (some r, src')) (hf : f i = none) :
      PyMove zero s (.next g) ⟨PyHeap.put (PyHeap.put s.c a (some (.iterator src'))) s.cNext (some (.result r)),
        s.cNext + 1, PyHeap.put s.py g (some (.generator it none)), s.pyNext, s.held⟩
  | item (g it i own f a src src' r sh) (hg : s.py g = some (.generator it (some i)))
      (hit : s.py it = some (.iterator own f)) (ho : s.py own = some (.owner a)) (hx : s.c a = some (.iterator src))
      (hn : cIterNext src = (some r, src')) (hf : f i = some sh) :
      PyMove zero s (.next g) (PyHeap.give ⟨PyHeap.put s.c a (some (.iterator src')), s.cNext,
        PyHeap.put s.py g (some (.generator it (some (i + 1)))), s.pyNext, s.held⟩ (.result r)
        fun own => .result own sh fun _ => none)
  | load (r k own sh slot a x cells ok) (hr : s.py r = some (.result own sh slot)) (hs : slot (.buffer k) = none)
      (ho : s.py own = some (.owner a)) (hx : s.c a = some (.result x))
      (hf : pyFill zero x (pyColShape sh k).sum k = .ok (cells, ok)) :
      PyMove zero s (.load r k) ⟨s.c, s.cNext, PyHeap.put (PyHeap.put s.py s.pyNext (some (.buffer cells))) r
        (some (.result own sh (pySet slot (.buffer k) s.pyNext))), s.pyNext + 1, s.held⟩
  | view (r k whole own sh slot b) (hr : s.py r = some (.result own sh slot))
      (hs : slot (if whole then .flat k else .split k) = none) (hb : slot (.buffer k) = some b) :
      PyMove zero s (.view r k whole) ⟨s.c, s.cNext, PyHeap.put (PyHeap.put s.py s.pyNext
        (some (.array b (if whole then none else some (pyColShape sh k))))) r
        (some (.result own sh (pySet slot (if whole then .flat k else .split k) s.pyNext))), s.pyNext + 1,
        s.held ++ [s.pyNext]⟩
  | poke (a b i x cells) (hb : s.py b = some (.buffer cells)) : PyMove zero s (.poke a i x)
      ⟨s.c, s.cNext, PyHeap.put s.py b (some (.buffer (cells.set i x))), s.pyNext, s.held⟩
  | freeOwner (o a x) (notHeld : o ∉ s.held) (free : ¬ s.Referenced o) (ho : s.py o = some (.owner a))
      (hx : s.c a = some x) : PyMove zero s (.collect o)
      ⟨PyHeap.put s.c a none, s.cNext, PyHeap.put s.py o none, s.pyNext, s.held⟩
  | free (o) (notHeld : o ∉ s.held) (free : ¬ s.Referenced o) (ho : ∀ a, s.py o ≠ some (.owner a)) :
      PyMove zero s (.collect o) ⟨s.c, s.cNext, PyHeap.put s.py o none, s.pyNext, s.held⟩

theorem deref_inv {V : Type} {s : PyHeap V} {own a : Nat} {x : CObj V} (h : s.deref own = .ok (a, x)) :
    s.py own = some (.owner a) ∧ s.c a = some x := by
  unfold PyHeap.deref at h
  split at h
  · next b hb =>
    cases hx : s.c b with
    | none => rw [hx] at h; cases h
    | some y =>
      rw [hx] at h
      obtain ⟨rfl, rfl⟩ := Prod.mk.inj (Except.ok.inj h)
      exact ⟨hb, hx⟩
  · cases h

theorem answered_move {V : Type} {zero : V} {s s' : PyHeap V} {e : PyEv V} {answer : Option (List (ExResult V))}
    {f : Nat → Option (List Nat)} {o : PyShown V} (h : s.answered answer f = (o, s'))
    (hyp : ∀ out, answer = some out → s.Answered out f e) : PyMove zero s e s' := by
  cases answer with
  | none =>
    obtain ⟨-, rfl⟩ := Prod.mk.inj h
    exact .same _
  | some out =>
    obtain ⟨-, rfl⟩ := Prod.mk.inj h
    exact .iterator _ _ _ (hyp out rfl)

/-- Every step is one of them. -/
theorem PyHeap.step_move {V : Type} (zero : V) {s s' : PyHeap V} (h : s.Valid) {e : PyEv V} {o : PyShown V}
    (hs : s.step zero e = .ok (o, s')) : PyMove zero s e s' := by
  cases e with
  | newJump ok =>
    rw [PyHeap.step] at hs
    have hs := Except.ok.inj hs
    cases ok with
    | false => obtain ⟨-, rfl⟩ := Prod.mk.inj hs; exact .same _
    | true => obtain ⟨-, rfl⟩ := Prod.mk.inj hs; exact .jump _
  | newRequest rs ok =>
    rw [PyHeap.step] at hs
    have hs := Except.ok.inj hs
    cases ok with
    | false => obtain ⟨-, rfl⟩ := Prod.mk.inj hs; exact .same _
    | true => obtain ⟨-, rfl⟩ := Prod.mk.inj hs; exact .request _ _
  | ctype p =>
    rw [PyHeap.step] at hs
    split at hs
    · obtain ⟨-, rfl⟩ := Prod.mk.inj (Except.ok.inj hs); exact .held _ _
    · obtain ⟨-, rfl⟩ := Prod.mk.inj (Except.ok.inj hs); exact .held _ _
    · obtain ⟨-, rfl⟩ := Prod.mk.inj (Except.ok.inj hs); exact .same _
  | extract j reqs answer =>
    rw [PyHeap.step] at hs
    split at hs
    · split at hs
      · next hl =>
        split at hs
        · split at hs
          · exact answered_move (Except.ok.inj hs) fun out ho =>
              ⟨ho, hl, rfl⟩
          · cases hs
        · cases hs
        · cases hs
      · obtain ⟨-, rfl⟩ := Prod.mk.inj (Except.ok.inj hs); exact .same _
    · obtain ⟨-, rfl⟩ := Prod.mk.inj (Except.ok.inj hs); exact .same _
  | single j rs answer =>
    rw [PyHeap.step] at hs
    split at hs
    · split at hs
      · exact answered_move (Except.ok.inj hs) fun out ho => ⟨ho, rfl⟩
      · cases hs
      · cases hs
    · obtain ⟨-, rfl⟩ := Prod.mk.inj (Except.ok.inj hs); exact .same _
  | axes j ok =>
    rw [PyHeap.step] at hs
    split at hs
    · split at hs
      · split at hs
        · obtain ⟨-, rfl⟩ := Prod.mk.inj (Except.ok.inj hs); exact .axes _ _
        · obtain ⟨-, rfl⟩ := Prod.mk.inj (Except.ok.inj hs); exact .same _
      · cases hs
      · cases hs
    · obtain ⟨-, rfl⟩ := Prod.mk.inj (Except.ok.inj hs); exact .same _
  | iter it =>
    rw [PyHeap.step] at hs
    split at hs
    · next hm =>
      obtain ⟨-, rfl⟩ := Prod.mk.inj (Except.ok.inj hs)
      exact .iter _ _ _ (mine_eq hm).2
    · obtain ⟨-, rfl⟩ := Prod.mk.inj (Except.ok.inj hs); exact .same _
  | next g =>
    rw [PyHeap.step] at hs
    split at hs
    · obtain ⟨-, rfl⟩ := Prod.mk.inj (Except.ok.inj hs); exact .same _
    · next it i hm =>
      split at hs
      · next own f hit =>
        split at hs
        · next a src hd =>
          obtain ⟨ho, hx⟩ := deref_inv hd
          split at hs
          · next src' hn =>
            obtain ⟨-, rfl⟩ := Prod.mk.inj (Except.ok.inj hs)
            exact .stop _ _ _ _ _ _ _ _ (mine_eq hm).2 hit ho hx hn
          · next r src' hn =>
            split at hs
            · next hf =>
              obtain ⟨-, rfl⟩ := Prod.mk.inj (Except.ok.inj hs)
              exact .stray _ _ _ _ _ _ _ _ _ (mine_eq hm).2 hit ho hx hn hf
            · next sh hf =>
              obtain ⟨-, rfl⟩ := Prod.mk.inj (Except.ok.inj hs)
              exact .item _ _ _ _ _ _ _ _ _ _ (mine_eq hm).2 hit ho hx hn hf
        · cases hs
        · cases hs
      · cases hs
    · obtain ⟨-, rfl⟩ := Prod.mk.inj (Except.ok.inj hs); exact .same _
  | load r k =>
    rw [PyHeap.step] at hs
    split at hs
    · next own sh slot hm =>
      split at hs
      · obtain ⟨-, rfl⟩ := Prod.mk.inj (Except.ok.inj hs); exact .same _
      · next hsl =>
        split at hs
        · next a x hd =>
          obtain ⟨ho, hx⟩ := deref_inv hd
          split at hs
          · next cells ok hf =>
            obtain ⟨-, rfl⟩ := Prod.mk.inj (Except.ok.inj hs)
            exact .load _ _ _ _ _ _ _ _ _ (mine_eq hm).2 hsl ho hx hf
          · cases hs
        · cases hs
        · cases hs
    · obtain ⟨-, rfl⟩ := Prod.mk.inj (Except.ok.inj hs); exact .same _
  | view r k whole =>
    rw [PyHeap.step] at hs
    split at hs
    · next own sh slot hm =>
      split at hs
      · obtain ⟨-, rfl⟩ := Prod.mk.inj (Except.ok.inj hs); exact .held _ _
      · next hsl =>
        split at hs
        · obtain ⟨-, rfl⟩ := Prod.mk.inj (Except.ok.inj hs); exact .same _
        · next b hb =>
          obtain ⟨-, rfl⟩ := Prod.mk.inj (Except.ok.inj hs)
          exact .view _ _ _ _ _ _ _ (mine_eq hm).2 hsl hb
    · obtain ⟨-, rfl⟩ := Prod.mk.inj (Except.ok.inj hs); exact .same _
  | read a =>
    rw [PyHeap.step] at hs
    split at hs
    · split at hs
      · obtain ⟨-, rfl⟩ := Prod.mk.inj (Except.ok.inj hs); exact .same _
      · cases hs
    · obtain ⟨-, rfl⟩ := Prod.mk.inj (Except.ok.inj hs); exact .same _
  | poke a i x =>
    rw [PyHeap.step] at hs
    split at hs
    · split at hs
      · next cells hb =>
        split at hs
        · obtain ⟨-, rfl⟩ := Prod.mk.inj (Except.ok.inj hs); exact .poke _ _ _ _ _ hb
        · obtain ⟨-, rfl⟩ := Prod.mk.inj (Except.ok.inj hs); exact .same _
      · cases hs
    · obtain ⟨-, rfl⟩ := Prod.mk.inj (Except.ok.inj hs); exact .same _
  | drop p =>
    rw [PyHeap.step] at hs
    obtain ⟨-, rfl⟩ := Prod.mk.inj (Except.ok.inj hs); exact .held _ _
  | collect p =>
    rw [PyHeap.step] at hs
    split at hs
    · obtain ⟨-, rfl⟩ := Prod.mk.inj (Except.ok.inj hs); exact .same _
    · next hn =>
      have notHeld : p ∉ s.held := fun hc => hn (.inl hc)
      have free : ¬ s.Referenced p := fun hc => hn (.inr ((referenced_iff h p).mpr hc))
      split at hs
      · next a ho =>
        split at hs
        · next x hx =>
          obtain ⟨-, rfl⟩ := Prod.mk.inj (Except.ok.inj hs)
          exact .freeOwner _ _ _ notHeld free ho hx
        · cases hs
      · next ho =>
        obtain ⟨-, rfl⟩ := Prod.mk.inj (Except.ok.inj hs)
        exact .free _ notHeld free ho

end GJ
