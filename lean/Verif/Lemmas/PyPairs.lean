import Verif.Lemmas.PyReads

/-!
# The heaps of the Python client: loops that are not begun again

If no iterator is looped over twice, every result is paired with the ranges it was asked for with.
-/

namespace GJ

/-- The result has a row for each range, of the length of that range, and the masks for it: what every extraction gives
(C18, C35). -/
structure ShapedAs {V : Type} (x : ExResult V) (sh : List Nat) : Prop where
  some : sh ≠ []
  values : x.values.map List.length = sh
  masks : x.mask.map List.length = pyMaskShape sh

/-- The library's answer to an extraction has the shapes asked for. -/
def PyHeap.Fits {V : Type} (s : PyHeap V) : PyEv V → Prop
  | .extract _ reqs (some out) => ∀ (i : Nat) (x : ExResult V) (own : Nat) (sh : List Nat), out[i]? = some x → (reqs.filterMap s.requestOf)[i]? = some (own, sh) → ShapedAs x sh
  | .single _ rs (some out) => ∀ x ∈ out, ShapedAs x (pyShape rs)
  | _ => True

/-- An iterator, with what the library has for it. -/
structure PyHeap.AtIter {V : Type} (s : PyHeap V) (it own : Nat) (f : Nat → Option (List Nat)) (a : Nat)
    (src : VecSource (ExResult V)) : Prop where
  it : s.py it = some (.iterator own f)
  own : s.py own = some (.owner a)
  lib : s.c a = some (.iterator src)

/-- A result, with what the library has for it. -/
structure PyHeap.AtResult {V : Type} (s : PyHeap V) (r own : Nat) (sh : List Nat) (slot : PySlot → Option Nat) (a : Nat)
    (x : ExResult V) : Prop where
  res : s.py r = some (.result own sh slot)
  own : s.py own = some (.owner a)
  lib : s.c a = some (.result x)

/-- `L`: the iterators a loop was begun over.  Each has one loop, which is where its iterator is. -/
structure PyHeap.Paired {V : Type} (L : List Nat) (s : PyHeap V) : Prop where
  one : ∀ it it' own f f', s.py it = some (.iterator own f) → s.py it' = some (.iterator own f') → it = it'
  shapes : ∀ it own f a src, s.AtIter it own f a src → ∀ j x sh, src.data[j]? = some (some x) → f j = some sh → ShapedAs x sh
  new : ∀ it own f a src, s.AtIter it own f a src → it ∉ L → src.index = 0 ∧ ∀ g i, s.py g ≠ some (.generator it (some i))
  at_ : ∀ it own f a src, s.AtIter it own f a src → ∀ g i, s.py g = some (.generator it (some i)) → i = src.index
  alone : ∀ it g g' i i', s.py g = some (.generator it (some i)) → s.py g' = some (.generator it (some i')) → g = g'
  results : ∀ r own sh slot a x, s.AtResult r own sh slot a x → ShapedAs x sh

theorem paired_empty {V : Type} : (PyHeap.empty : PyHeap V).Paired [] :=
  ⟨fun _ _ _ _ _ h => (by cases h), fun _ _ _ _ _ h => (by cases h.it), fun _ _ _ _ _ h => (by cases h.it),
    fun _ _ _ _ _ h => (by cases h.it), fun _ _ _ _ _ h => (by cases h), fun _ _ _ _ _ _ h => (by cases h.res)⟩

theorem Paired.weaken {V : Type} {L : List Nat} {s : PyHeap V} (h : s.Paired L) (x : Nat) : s.Paired (x :: L) :=
  ⟨h.one, h.shapes, fun it own f a src q hn => h.new it own f a src q (fun hc => hn (List.mem_cons_of_mem _ hc)), h.at_,
    h.alone, h.results⟩

/-- A step that changes no iterator, generator or result but for its arrays. -/
theorem Paired.frame {V : Type} {L : List Nat} {s s' : PyHeap V} (v : s.Valid) (h : s.Paired L)
    (hit : ∀ it own f, s'.py it = some (.iterator own f) → s.py it = some (.iterator own f))
    (ho : ∀ own a, s'.py own = some (.owner a) → s.py own = some (.owner a) ∨ s.py own = none)
    (hc : ∀ a src, s'.c a = some (.iterator src) → s.c a = some (.iterator src))
    (hg : ∀ g it i, s'.py g = some (.generator it (some i)) → s.py g = some (.generator it (some i)))
    (hr : ∀ r own sh slot, s'.py r = some (.result own sh slot) → ∃ slot', s.py r = some (.result own sh slot'))
    (hx : ∀ a x, s'.c a = some (.result x) → s.c a = some (.result x) ∨ s.c a = none) : s'.Paired L := by
  have back : ∀ {it own f a src}, s'.AtIter it own f a src → s.AtIter it own f a src := by
    intro it own f a src q
    have q1 := hit _ _ _ q.it
    refine ⟨q1, ?_, hc _ _ q.lib⟩
    rcases ho _ _ q.own with e | e
    · exact e
    · obtain ⟨b, hb, -⟩ := v.fine it _ q1
      exact absurd e (tag_some hb)
  refine ⟨fun it it' own f f' h1 h2 => h.one it it' own f f' (hit _ _ _ h1) (hit _ _ _ h2),
    fun it own f a src q => h.shapes it own f a src (back q),
    fun it own f a src q hn => ⟨(h.new it own f a src (back q) hn).1, fun g i hgi =>
      (h.new it own f a src (back q) hn).2 g i (hg _ _ _ hgi)⟩,
    fun it own f a src q g i hgi => h.at_ it own f a src (back q) g i (hg _ _ _ hgi),
    fun it g g' i i' h1 h2 => h.alone it g g' i i' (hg _ _ _ h1) (hg _ _ _ h2), fun r own sh slot a x q => ?_⟩
  obtain ⟨slot', q1⟩ := hr _ _ _ _ q.res
  have q2 : s.py own = some (.owner a) := by
    rcases ho _ _ q.own with e | e
    · exact e
    · obtain ⟨⟨b, hb, -⟩, -⟩ := v.fine r _ q1
      exact absurd e (tag_some hb)
  refine h.results r own sh slot' a x ⟨q1, q2, ?_⟩
  rcases hx _ _ q.lib with e | e
  · exact e
  · obtain ⟨u, hu⟩ := v.fine own _ q2
    unfold PyHeap.C at hu
    rw [e] at hu; cases hu

/-- A new object of the library, with an object of Python. -/
theorem Paired.give {V : Type} {L : List Nat} {s : PyHeap V} (v : s.Valid) (h : s.Paired L) (x : CObj V) (mk : Nat → PyObj V)
    (hI : ∀ own f, mk s.pyNext = .iterator own f → own = s.pyNext ∧ ∀ src, x = .iterator src → src.index = 0 ∧
      ∀ j y sh, src.data[j]? = some (some y) → f j = some sh → ShapedAs y sh)
    (hR : ∀ own sh slot, mk s.pyNext = .result own sh slot → own = s.pyNext ∧ ∀ y, x = .result y → ShapedAs y sh)
    (hG : ∀ it i, mk s.pyNext ≠ .generator it i) : (s.give x mk).Paired L := by
  have p0 : s.py s.pyNext = none := v.fresh _ (Nat.le_refl _)
  have p1 : s.py (s.pyNext + 1) = none := v.fresh _ (Nat.le_succ _)
  have c0 : s.c s.cNext = none := v.freshC _ (Nat.le_refl _)
  have gens : ∀ {g it i}, (s.give x mk).py g = some (.generator it (some i)) → s.py g = some (.generator it (some i)) := by
    intro g it i hk
    rcases give_py_inv hk with ⟨-, e⟩ | ⟨-, e⟩ | e
    · exact absurd e.symm (hG it (some i))
    · cases e
    · exact e
  have nogen : ∀ {g i}, s.py g ≠ some (.generator (s.pyNext + 1) (some i)) := by
    intro g i hk
    have := v.fine g _ hk
    exact absurd p1 (tag_some this)
  -- whose owner is old, is old
  have old : ∀ {own a t}, OwnsC s.T s.C own t → (s.give x mk).py own = some (.owner a) → s.py own = some (.owner a) ∧ a ≠ s.cNext := by
    intro own a t ⟨b, hb, hcb⟩ hk
    have e : s.py own = some (.owner a) := by
      rcases give_py_inv hk with ⟨rfl, -⟩ | ⟨rfl, -⟩ | e
      · exact absurd p1 (tag_some hb)
      · exact absurd p0 (tag_some hb)
      · exact e
    refine ⟨e, fun ha => ?_⟩
    have e2 := T_of e
    rw [hb] at e2
    have : b = a := PyTag.owner.inj (Option.some.inj e2)
    rw [this, ha] at hcb
    unfold PyHeap.C at hcb
    rw [c0] at hcb; cases hcb
  have iter : ∀ {it own f a src}, (s.give x mk).AtIter it own f a src →
      (it = s.pyNext + 1 ∧ own = s.pyNext ∧ x = .iterator src ∧ src.index = 0 ∧
        ∀ j y sh, src.data[j]? = some (some y) → f j = some sh → ShapedAs y sh) ∨ s.AtIter it own f a src := by
    intro it own f a src q
    rcases give_py_inv q.it with ⟨e, e'⟩ | ⟨-, e'⟩ | e'
    · obtain ⟨rfl, h2⟩ := hI own f e'.symm
      have ha : a = s.cNext := by
        rcases give_py_inv q.own with ⟨hc, -⟩ | ⟨-, e2⟩ | e2
        · omega
        · exact PyObj.owner.inj e2
        · rw [p0] at e2; cases e2
      have hx : x = .iterator src := by
        rcases put_inv q.lib with ⟨-, e3⟩ | ⟨hc, -⟩
        · exact e3.symm
        · exact absurd ha hc
      exact .inl ⟨e, rfl, hx, h2 src hx⟩
    · cases e'
    · obtain ⟨g1, g2⟩ := old (v.fine it _ e') q.own
      refine .inr ⟨e', g1, ?_⟩
      rcases put_inv q.lib with ⟨hc, -⟩ | ⟨-, e3⟩
      · exact absurd hc g2
      · exact e3
  refine ⟨?_, ?_, ?_, ?_, fun it g g' i i' h1 h2 => h.alone it g g' i i' (gens h1) (gens h2), ?_⟩
  · intro it it' own f f' h1 h2
    have cross : ∀ {it f}, s.py it = some (.iterator s.pyNext f) → False := by
      intro it f e
      obtain ⟨b, hb, -⟩ := v.fine it _ e
      exact absurd p0 (tag_some hb)
    rcases give_py_inv h1 with ⟨e1, k1⟩ | ⟨-, k1⟩ | k1
    · obtain ⟨rfl, -⟩ := hI own f k1.symm
      rcases give_py_inv h2 with ⟨e2, -⟩ | ⟨-, k2⟩ | k2
      · rw [e1, e2]
      · cases k2
      · exact (cross k2).elim
    · cases k1
    · rcases give_py_inv h2 with ⟨e2, k2⟩ | ⟨-, k2⟩ | k2
      · obtain ⟨rfl, -⟩ := hI own f' k2.symm
        exact (cross k1).elim
      · cases k2
      · exact h.one it it' own f f' k1 k2
  · intro it own f a src q
    rcases iter q with ⟨-, -, -, -, e⟩ | e
    · exact e
    · exact h.shapes it own f a src e
  · intro it own f a src q hn
    rcases iter q with ⟨rfl, -, -, e, -⟩ | e
    · exact ⟨e, fun g i hgi => nogen (gens hgi)⟩
    · exact ⟨(h.new it own f a src e hn).1, fun g i hgi => (h.new it own f a src e hn).2 g i (gens hgi)⟩
  · intro it own f a src q g i hgi
    rcases iter q with ⟨rfl, -⟩ | e
    · exact (nogen (gens hgi)).elim
    · exact h.at_ it own f a src e g i (gens hgi)
  · intro r own sh slot a y q
    rcases give_py_inv q.res with ⟨-, e'⟩ | ⟨-, e'⟩ | e'
    · obtain ⟨rfl, h2⟩ := hR own sh slot e'.symm
      have ha : a = s.cNext := by
        rcases give_py_inv q.own with ⟨hc, -⟩ | ⟨-, e2⟩ | e2
        · omega
        · exact PyObj.owner.inj e2
        · rw [p0] at e2; cases e2
      rcases put_inv q.lib with ⟨-, e3⟩ | ⟨hc, -⟩
      · exact h2 y e3.symm
      · exact absurd ha hc
    · cases e'
    · obtain ⟨g1, g2⟩ := old (v.fine r _ e').1 q.own
      refine h.results r own sh slot a y ⟨e', g1, ?_⟩
      rcases put_inv q.lib with ⟨hc, -⟩ | ⟨-, e3⟩
      · exact absurd hc g2
      · exact e3

theorem cIterNext_data {R : Type} {src src' : VecSource R} {o : Option R} (h : cIterNext src = (o, src')) {j : Nat} {x : R}
    (hj : src'.data[j]? = some (some x)) : src.data[j]? = some (some x) := by
  unfold cIterNext VecSource.next at h
  by_cases e : src.hasNext = true
  · rw [if_pos e] at h
    obtain ⟨-, rfl⟩ := Prod.mk.inj h
    have hj : (src.data.set src.index none)[j]? = some (some x) := hj
    by_cases hij : src.index = j
    · rw [hij, List.getElem?_set_self'] at hj
      cases hd : src.data[j]? with
      | none => rw [hd] at hj; cases hj
      | some y => rw [hd] at hj; cases hj
    · rw [List.getElem?_set_ne hij] at hj
      exact hj
  · rw [if_neg e] at h
    obtain ⟨-, rfl⟩ := Prod.mk.inj h
    exact hj

theorem cIterNext_item {R : Type} {src src' : VecSource R} {r : R} (h : cIterNext src = (some r, src')) :
    src.data[src.index]? = some (some r) ∧ src'.index = src.index + 1 := by
  unfold cIterNext VecSource.next at h
  by_cases e : src.hasNext = true
  · rw [if_pos e] at h
    obtain ⟨h1, rfl⟩ := Prod.mk.inj h
    refine ⟨?_, rfl⟩
    cases hd : src.data[src.index]? with
    | none => rw [hd] at h1; cases h1
    | some y =>
      rw [hd] at h1
      cases y with
      | none => cases h1
      | some y => rw [← h1]; rfl
  · rw [if_neg e] at h
    cases (Prod.mk.inj h).1

/-- A loop takes a step. -/
theorem Paired.tick {V : Type} {L : List Nat} {s : PyHeap V} (v : s.Valid) (h : s.Paired L) {g it i own a : Nat}
    {f : Nat → Option (List Nat)} {src src' : VecSource (ExResult V)} {o : Option (ExResult V)}
    (hit : s.py it = some (.iterator own f)) (ho : s.py own = some (.owner a)) (hx : s.c a = some (.iterator src))
    (hg : s.py g = some (.generator it (some i))) (hn : cIterNext src = (o, src')) (j : Option Nat)
    (hj : ∀ k, j = some k → k = i + 1 ∧ src'.index = src.index + 1) :
    PyHeap.Paired L (⟨PyHeap.put s.c a (some (.iterator src')), s.cNext, PyHeap.put s.py g (some (.generator it j)),
      s.pyNext, s.held⟩ : PyHeap V) := by
  have pit : ∀ {it' own' f'}, PyHeap.put s.py g (some (.generator it j)) it' = some (.iterator own' f') →
      s.py it' = some (.iterator own' f') := by
    intro it' own' f' hk
    rcases put_inv hk with ⟨-, e⟩ | ⟨-, e⟩
    · cases e
    · exact e
  have pow : ∀ {own' a'}, PyHeap.put s.py g (some (.generator it j)) own' = some (.owner a') →
      s.py own' = some (.owner a') := by
    intro own' a' hk
    rcases put_inv hk with ⟨-, e⟩ | ⟨-, e⟩
    · cases e
    · exact e
  have here : s.AtIter it own f a src := ⟨hit, ho, hx⟩
  have inL : it ∈ L := by
    rcases Classical.em (it ∈ L) with e | e
    · exact e
    · exact absurd hg ((h.new it own f a src here e).2 g i)
  have iter : ∀ {it' own' f' a' src1},
      PyHeap.AtIter (⟨PyHeap.put s.c a (some (.iterator src')), s.cNext, PyHeap.put s.py g (some (.generator it j)),
        s.pyNext, s.held⟩ : PyHeap V) it' own' f' a' src1 →
      (it' = it ∧ f' = f ∧ src1 = src') ∨ (it' ≠ it ∧ s.AtIter it' own' f' a' src1) := by
    intro it' own' f' a' src1 q
    have q1 := pit q.it
    have q2 := pow q.own
    by_cases e : it' = it
    · subst e
      rw [hit] at q1
      obtain ⟨rfl, rfl⟩ := PyObj.iterator.inj (Option.some.inj q1)
      rw [ho] at q2
      obtain rfl := PyObj.owner.inj (Option.some.inj q2)
      rcases put_inv q.lib with ⟨-, e⟩ | ⟨e, -⟩
      · exact .inl ⟨rfl, rfl, CObj.iterator.inj e⟩
      · exact absurd rfl e
    · refine .inr ⟨e, q1, q2, ?_⟩
      rcases put_inv q.lib with ⟨e', -⟩ | ⟨-, e'⟩
      · exfalso
        subst e'
        have := v.uniq own own' a' (T_of ho) (T_of q2)
        subst this
        exact e (h.one it' it own f' f q1 hit)
      · exact e'
  have gen : ∀ {g' it' i'}, PyHeap.put s.py g (some (.generator it j)) g' = some (.generator it' (some i')) →
      (g' = g ∧ it' = it ∧ j = some i') ∨ (g' ≠ g ∧ s.py g' = some (.generator it' (some i'))) := by
    intro g' it' i' hk
    rcases put_inv hk with ⟨e, e'⟩ | ⟨e, e'⟩
    · obtain ⟨e1, e2⟩ := PyObj.generator.inj e'
      exact .inl ⟨e, e1, e2.symm⟩
    · exact .inr ⟨e, e'⟩
  refine ⟨fun it1 it2 o1 f1 f2 h1 h2 => h.one it1 it2 o1 f1 f2 (pit h1) (pit h2), ?_, ?_, ?_, ?_, ?_⟩
  · intro it' own' f' a' src1 q
    rcases iter q with ⟨rfl, rfl, rfl⟩ | ⟨-, e⟩
    · intro j x sh h1 h2
      exact h.shapes it' own f' a src here j x sh (cIterNext_data hn h1) h2
    · exact h.shapes it' own' f' a' src1 e
  · intro it' own' f' a' src1 q hni
    rcases iter q with ⟨rfl, -⟩ | ⟨hne, e⟩
    · exact absurd inL hni
    · refine ⟨(h.new it' own' f' a' src1 e hni).1, fun g' i' hk => ?_⟩
      rcases gen hk with ⟨-, e2, -⟩ | ⟨-, e2⟩
      · exact hne e2
      · exact (h.new it' own' f' a' src1 e hni).2 g' i' e2
  · intro it' own' f' a' src1 q g' i' hk
    rcases iter q with ⟨rfl, rfl, rfl⟩ | ⟨hne, e⟩
    · rcases gen hk with ⟨-, -, e2⟩ | ⟨hgn, e2⟩
      · obtain ⟨h1, h2⟩ := hj i' e2
        rw [h1, h2, h.at_ it' own f' a src here g i hg]
      · exact absurd (h.alone it' g' g i' i e2 hg) hgn
    · rcases gen hk with ⟨-, e2, -⟩ | ⟨-, e2⟩
      · exact absurd e2 hne
      · exact h.at_ it' own' f' a' src1 e g' i' e2
  · intro it' g1 g2 i1 i2 h1 h2
    rcases gen h1 with ⟨e1, k1, -⟩ | ⟨n1, k1⟩
    · rcases gen h2 with ⟨e2, -, -⟩ | ⟨n2, k2⟩
      · rw [e1, e2]
      · rw [k1] at k2
        exact absurd (h.alone it g2 g i2 i k2 hg) n2
    · rcases gen h2 with ⟨e2, k2, -⟩ | ⟨-, k2⟩
      · rw [k2] at k1
        exact absurd (h.alone it g1 g i1 i k1 hg) n1
      · exact h.alone it' g1 g2 i1 i2 k1 k2
  · intro r own' sh slot a' x q
    refine h.results r own' sh slot a' x ⟨?_, pow q.own, ?_⟩
    · rcases put_inv q.res with ⟨-, e⟩ | ⟨-, e⟩
      · cases e
      · exact e
    · rcases put_inv q.lib with ⟨-, e⟩ | ⟨-, e⟩
      · cases e
      · exact e

/-- The iterator a loop is begun over. -/
def PyEv.loop {V : Type} : PyEv V → Option Nat
  | .iter it => some it
  | _ => none

theorem Answered.shaped {V : Type} {s : PyHeap V} {e : PyEv V} {out : List (ExResult V)} {f : Nat → Option (List Nat)}
    (h : s.Answered out f e) (fits : s.Fits e) {j : Nat} {y : ExResult V} {sh : List Nat}
    (hj : (out.map some)[j]? = some (some y)) (hf : f j = some sh) : ShapedAs y sh := by
  have hy : out[j]? = some y := by
    rw [List.getElem?_map] at hj
    cases ho : out[j]? with
    | none => rw [ho] at hj; cases hj
    | some z => rw [ho] at hj; exact Option.some.inj hj
  cases e with
  | extract k reqs answer =>
    obtain ⟨rfl, -, rfl⟩ := h
    have hf : ((reqs.filterMap s.requestOf).map Prod.snd)[j]? = some sh := hf
    rw [List.getElem?_map] at hf
    cases hr : (reqs.filterMap s.requestOf)[j]? with
    | none => rw [hr] at hf; cases hf
    | some p =>
      rw [hr] at hf
      obtain ⟨own, sh'⟩ := p
      have := Option.some.inj hf
      simp only at this
      subst this
      exact fits j y own sh' hy hr
  | single k rs answer =>
    obtain ⟨rfl, rfl⟩ := h
    have := Option.some.inj hf
    subst this
    exact fits y (List.mem_of_getElem? hy)
  | _ => exact absurd h id

theorem Paired.move {V : Type} {zero : V} {L : List Nat} {s s' : PyHeap V} (v : s.Valid) (h : s.Paired L) {e : PyEv V}
    (fits : s.Fits e) (once : ∀ it, e.loop = some it → it ∉ L) (hm : PyMove zero s e s') :
    s'.Paired (e.loop.toList ++ L) := by
  have p0 : s.py s.pyNext = none := v.fresh _ (Nat.le_refl _)
  cases hm with
  | same =>
    cases hl : e.loop with
    | none => exact h
    | some it => exact Paired.weaken h it
  | held _ l =>
    have : PyHeap.Paired L (⟨s.c, s.cNext, s.py, s.pyNext, l⟩ : PyHeap V) :=
      Paired.frame v h (fun _ _ _ q => q) (fun _ _ q => .inl q) (fun _ _ q => q) (fun _ _ _ q => q)
        (fun _ _ _ _ q => ⟨_, q⟩) (fun _ _ q => .inl q)
    cases hl : e.loop with
    | none => exact this
    | some it => exact Paired.weaken this it
  | jump ok => exact Paired.give v h _ _ (fun _ _ e => by cases e) (fun _ _ _ e => by cases e) (fun _ _ e => by cases e)
  | request rs ok => exact Paired.give v h _ _ (fun _ _ e => by cases e) (fun _ _ _ e => by cases e) (fun _ _ e => by cases e)
  | iterator _ out f answered =>
    have hl : e.loop = none := by
      cases e <;> first | rfl | exact absurd answered id
    rw [hl]
    refine Paired.give v h _ _ ?_ (fun _ _ _ e => by cases e) (fun _ _ e => by cases e)
    intro own f' e'
    obtain ⟨rfl, rfl⟩ := PyObj.iterator.inj e'
    refine ⟨rfl, fun src hs => ?_⟩
    obtain rfl := CObj.iterator.inj hs
    exact ⟨rfl, fun j y sh h1 h2 => Answered.shaped answered fits h1 h2⟩
  | axes j ok =>
    have c0 : s.c s.cNext = none := v.freshC _ (Nat.le_refl _)
    refine Paired.frame v h ?_ ?_ ?_ ?_ ?_ ?_
    · intro it own f hk
      rcases put_inv hk with ⟨-, e⟩ | ⟨-, e⟩
      · cases e
      · exact e
    · intro own a hk
      rcases put_inv hk with ⟨rfl, -⟩ | ⟨-, e⟩
      · exact .inr p0
      · exact .inl e
    · intro a src hk
      rcases put_inv hk with ⟨-, e⟩ | ⟨-, e⟩
      · cases e
      · exact e
    · intro g it i hk
      rcases put_inv hk with ⟨-, e⟩ | ⟨-, e⟩
      · cases e
      · exact e
    · intro r own sh slot hk
      rcases put_inv hk with ⟨-, e⟩ | ⟨-, e⟩
      · cases e
      · exact ⟨_, e⟩
    · intro a x hk
      rcases put_inv hk with ⟨-, e⟩ | ⟨-, e⟩
      · cases e
      · exact .inl e
  | iter it own f hit =>
    have hnl : it ∉ L := once it rfl
    have back : ∀ {it' own' f'}, PyHeap.put s.py s.pyNext (some (.generator it (some 0))) it' = some (.iterator own' f') →
        s.py it' = some (.iterator own' f') := by
      intro it' own' f' hk
      rcases put_inv hk with ⟨-, e⟩ | ⟨-, e⟩
      · cases e
      · exact e
    have backo : ∀ {own' a'}, PyHeap.put s.py s.pyNext (some (.generator it (some 0))) own' = some (.owner a') →
        s.py own' = some (.owner a') := by
      intro own' a' hk
      rcases put_inv hk with ⟨-, e⟩ | ⟨-, e⟩
      · cases e
      · exact e
    have backi : ∀ {it' own' f' a' src'}, PyHeap.AtIter (⟨s.c, s.cNext, PyHeap.put s.py s.pyNext
        (some (.generator it (some 0))), s.pyNext + 1, s.held ++ [s.pyNext]⟩ : PyHeap V) it' own' f' a' src' →
        s.AtIter it' own' f' a' src' := fun q => ⟨back q.it, backo q.own, q.lib⟩
    have gen : ∀ {g it' i}, PyHeap.put s.py s.pyNext (some (.generator it (some 0))) g = some (.generator it' (some i)) →
        (g = s.pyNext ∧ it' = it ∧ i = 0) ∨ s.py g = some (.generator it' (some i)) := by
      intro g it' i hk
      rcases put_inv hk with ⟨e, e'⟩ | ⟨-, e'⟩
      · obtain ⟨e1, e2⟩ := PyObj.generator.inj e'
        exact .inl ⟨e, e1, Option.some.inj e2⟩
      · exact .inr e'
    have none_yet : ∀ g i, s.py g ≠ some (.generator it (some i)) := by
      obtain ⟨a, h1, h2⟩ := v.fine it _ hit
      have ho : s.py own = some (.owner a) := by
        unfold PyHeap.T at h1
        cases hp : s.py own with
        | none => rw [hp] at h1; cases h1
        | some k =>
          rw [hp] at h1
          cases k with
          | owner b => rw [PyTag.owner.inj (Option.some.inj h1)]
          | _ => cases h1
      have hc : ∃ src, s.c a = some (.iterator src) := by
        unfold PyHeap.C at h2
        cases hp : s.c a with
        | none => rw [hp] at h2; cases h2
        | some k =>
          rw [hp] at h2
          cases k with
          | iterator src => exact ⟨src, rfl⟩
          | _ => cases h2
      obtain ⟨src, hc⟩ := hc
      exact (h.new it own f a src ⟨hit, ho, hc⟩ hnl).2
    show PyHeap.Paired (it :: L) _
    refine ⟨fun i1 i2 o1 f1 f2 h1 h2 => h.one i1 i2 o1 f1 f2 (back h1) (back h2),
      fun it' own' f' a' src' q => h.shapes it' own' f' a' src' (backi q), ?_, ?_, ?_, ?_⟩
    · intro it' own' f' a' src' q hni
      have hni' : it' ∉ L := fun hc => hni (List.mem_cons_of_mem _ hc)
      obtain ⟨k1, k2⟩ := h.new it' own' f' a' src' (backi q) hni'
      refine ⟨k1, fun g i hk => ?_⟩
      rcases gen hk with ⟨-, e, -⟩ | e
      · exact hni (by rw [e]; exact List.mem_cons_self ..)
      · exact k2 g i e
    · intro it' own' f' a' src' q g i hk
      rcases gen hk with ⟨-, e, e0⟩ | e
      · subst e
        rw [e0, (h.new it' own' f' a' src' (backi q) hnl).1]
      · exact h.at_ it' own' f' a' src' (backi q) g i e
    · intro it' g g' i i' h1 h2
      rcases gen h1 with ⟨e1, k1, -⟩ | k1
      · rcases gen h2 with ⟨e2, -, -⟩ | k2
        · rw [e1, e2]
        · rw [k1] at k2; exact absurd k2 (none_yet g' i')
      · rcases gen h2 with ⟨e2, k2, -⟩ | k2
        · rw [k2] at k1; exact absurd k1 (none_yet g i)
        · exact h.alone it' g g' i i' k1 k2
    · intro r own' sh slot a x q
      refine h.results r own' sh slot a x ⟨?_, backo q.own, q.lib⟩
      rcases put_inv q.res with ⟨-, e⟩ | ⟨-, e⟩
      · cases e
      · exact e
  | stop g it i own f a src src' hg hit ho hx hn => exact Paired.tick v h hit ho hx hg hn none (fun k e => by cases e)
  | stray g it i own f a src src' r hg hit ho hx hn hf =>
    have t := Paired.tick v h hit ho hx hg hn none (fun k e => by cases e)
    have t' := Valid.tick v none hx hg (src' := src')
    have c0 := t'.freshC s.cNext (Nat.le_refl _)
    refine Paired.frame t' t (fun _ _ _ q => q) (fun _ _ q => .inl q) ?_ (fun _ _ _ q => q) (fun _ _ _ _ q => ⟨_, q⟩) ?_
    · intro b src1 hk
      rcases put_inv hk with ⟨-, e⟩ | ⟨-, e⟩
      · cases e
      · exact e
    · intro b x hk
      rcases put_inv hk with ⟨e, -⟩ | ⟨-, e⟩
      · rw [e]; exact .inr c0
      · exact .inl e
  | item g it i own f a src src' r sh hg hit ho hx hn hf =>
    obtain ⟨d1, d2⟩ := cIterNext_item hn
    have t := Paired.tick v h hit ho hx hg hn (some (i + 1)) (fun k e => ⟨(Option.some.inj e).symm, d2⟩)
    refine Paired.give (Valid.tick v (some (i + 1)) hx hg) t _ _ (fun _ _ e => by cases e) ?_ (fun _ _ e => by cases e)
    intro own' sh' slot e
    obtain ⟨e1, e2, -⟩ := PyObj.result.inj e
    refine ⟨e1.symm, fun y hy => ?_⟩
    rw [← e2]
    obtain rfl := CObj.result.inj hy
    have hi := h.at_ it own f a src ⟨hit, ho, hx⟩ g i hg
    rw [← hi] at d1
    exact h.shapes it own f a src ⟨hit, ho, hx⟩ i r sh d1 hf
  | load r k own sh slot a x cells ok hr hs ho hx hf =>
    refine Paired.frame v h ?_ ?_ (fun _ _ q => q) ?_ ?_ (fun _ _ q => .inl q)
    · intro it own f hk
      rcases put_inv hk with ⟨-, e⟩ | ⟨-, e⟩
      · cases e
      · rcases put_inv e with ⟨-, e⟩ | ⟨-, e⟩
        · cases e
        · exact e
    · intro own a hk
      rcases put_inv hk with ⟨-, e⟩ | ⟨-, e⟩
      · cases e
      · rcases put_inv e with ⟨-, e⟩ | ⟨-, e⟩
        · cases e
        · exact .inl e
    · intro g it i hk
      rcases put_inv hk with ⟨-, e⟩ | ⟨-, e⟩
      · cases e
      · rcases put_inv e with ⟨-, e⟩ | ⟨-, e⟩
        · cases e
        · exact e
    · intro r' own' sh' slot' hk
      rcases put_inv hk with ⟨e0, e⟩ | ⟨-, e⟩
      · obtain ⟨rfl, rfl, -⟩ := PyObj.result.inj e
        exact ⟨slot, by rw [e0]; exact hr⟩
      · rcases put_inv e with ⟨-, e⟩ | ⟨-, e⟩
        · cases e
        · exact ⟨_, e⟩
  | view r k whole own sh slot b hr hs hb =>
    refine Paired.frame v h ?_ ?_ (fun _ _ q => q) ?_ ?_ (fun _ _ q => .inl q)
    · intro it own f hk
      rcases put_inv hk with ⟨-, e⟩ | ⟨-, e⟩
      · cases e
      · rcases put_inv e with ⟨-, e⟩ | ⟨-, e⟩
        · cases e
        · exact e
    · intro own a hk
      rcases put_inv hk with ⟨-, e⟩ | ⟨-, e⟩
      · cases e
      · rcases put_inv e with ⟨-, e⟩ | ⟨-, e⟩
        · cases e
        · exact .inl e
    · intro g it i hk
      rcases put_inv hk with ⟨-, e⟩ | ⟨-, e⟩
      · cases e
      · rcases put_inv e with ⟨-, e⟩ | ⟨-, e⟩
        · cases e
        · exact e
    · intro r' own' sh' slot' hk
      rcases put_inv hk with ⟨e0, e⟩ | ⟨-, e⟩
      · obtain ⟨rfl, rfl, -⟩ := PyObj.result.inj e
        exact ⟨slot, by rw [e0]; exact hr⟩
      · rcases put_inv e with ⟨-, e⟩ | ⟨-, e⟩
        · cases e
        · exact ⟨_, e⟩
  | poke a b i x cells hb =>
    refine Paired.frame v h ?_ ?_ (fun _ _ q => q) ?_ ?_ (fun _ _ q => .inl q)
    · intro it own f hk
      rcases put_inv hk with ⟨-, e⟩ | ⟨-, e⟩
      · cases e
      · exact e
    · intro own a hk
      rcases put_inv hk with ⟨-, e⟩ | ⟨-, e⟩
      · cases e
      · exact .inl e
    · intro g it i hk
      rcases put_inv hk with ⟨-, e⟩ | ⟨-, e⟩
      · cases e
      · exact e
    · intro r own sh slot hk
      rcases put_inv hk with ⟨-, e⟩ | ⟨-, e⟩
      · cases e
      · exact ⟨_, e⟩
  | freeOwner o a x nh fr ho hx =>
    exact Paired.frame v h (fun _ _ _ hk => (put_none_inv hk).2) (fun _ _ hk => .inl (put_none_inv hk).2)
      (fun _ _ hk => (put_none_inv hk).2) (fun _ _ _ hk => (put_none_inv hk).2) (fun _ _ _ _ hk => ⟨_, (put_none_inv hk).2⟩)
      (fun _ _ hk => .inl (put_none_inv hk).2)
  | free o nh fr ho =>
    exact Paired.frame v h (fun _ _ _ hk => (put_none_inv hk).2) (fun _ _ hk => .inl (put_none_inv hk).2)
      (fun _ _ hk => hk) (fun _ _ _ hk => (put_none_inv hk).2) (fun _ _ _ _ hk => ⟨_, (put_none_inv hk).2⟩)
      (fun _ _ hk => .inl hk)

end GJ
