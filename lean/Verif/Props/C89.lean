import Verif.Props.C57
import Verif.Props.C88

/-!
# C89: reading a result from Python, any number of times and at any later time

The values and masks of a result are copied on the first read and the arrays share that copy.  As long as nobody writes to
them, every read gives what the library returned, also after everything else was dropped and freed.
-/

namespace GJ

/-- The arrays of a result: its values, or the words of its masks. -/
def resultRows {V : Type} (x : ExResult V) : PyCol → List (List (V ⊕ Nat))
  | .vals => x.values.map (·.map .inl)
  | .masks => x.mask.map (·.map .inr)

/-- As a list of arrays, or joined into one. -/
def shownRows {α : Type} (whole : Bool) (rows : List (List α)) : List (List α) := if whole then [rows.flatten] else rows

theorem map_flatten_inl {α β : Type} (f : α → β) (l : List (List α)) : (l.map (·.map f)).flatten = l.flatten.map f := by
  induction l with
  | nil => rfl
  | cons a l ih => rw [List.map_cons, List.flatten_cons, List.flatten_cons, List.map_append, ih]

theorem pyFill_shaped {V : Type} (zero : V) {x : ExResult V} {sh : List Nat} (fits : ShapedAs x sh) (k : PyCol) :
    pyFill zero x (pyColShape sh k).sum k = .ok ((resultRows x k).flatten, true) := by
  cases k with
  | vals =>
    have hl : x.values.flatten.length = (List.replicate (pyColShape sh .vals).sum zero).length := by
      rw [List.length_replicate, List.length_flatten, fits.values]; rfl
    rw [pyFill]
    rcases C36_values_never_overrun x (List.replicate (pyColShape sh .vals).sum zero) with ⟨-, e⟩ | ⟨hne, -⟩
    · rw [List.length_replicate] at e
      rw [e, resultRows, map_flatten_inl]
    · exact absurd hl hne
  | masks =>
    have hl : x.mask.flatten.length = (pyColShape sh .masks).sum := by
      rw [List.length_flatten, fits.masks]; rfl
    rw [pyFill, writeRows_ok _ _ _ (by rw [List.length_replicate]; omega)]
    simp only [List.take_zero, List.nil_append, Nat.zero_add, hl, decide_true]
    rw [List.drop_eq_nil_of_le (by rw [List.length_replicate]; exact Nat.le_refl _), List.append_nil, resultRows,
      map_flatten_inl]

theorem resultRows_lengths {V : Type} {x : ExResult V} {sh : List Nat} (fits : ShapedAs x sh) (k : PyCol) :
    (resultRows x k).map List.length = pyColShape sh k := by
  cases k with
  | vals => rw [resultRows, List.map_map, pyColShape, ← fits.values]; simp
  | masks => rw [resultRows, List.map_map, pyColShape, ← fits.masks]; simp

theorem pyColShape_some {sh : List Nat} (h : sh ≠ []) (k : PyCol) : pyColShape sh k ≠ [] := by
  cases k with
  | vals => exact h
  | masks =>
    intro e
    apply h
    rw [pyColShape, pyMaskShape] at e
    exact List.map_eq_nil_iff.mp e

theorem shown_split {V : Type} {x : ExResult V} {sh : List Nat} (fits : ShapedAs x sh) (k : PyCol) (whole : Bool) :
    (match (if whole then none else some (pyColShape sh k) : Option (List Nat)) with
      | some sh => npSplit (resultRows x k).flatten sh
      | none => [(resultRows x k).flatten]) = shownRows whole (resultRows x k) := by
  cases whole with
  | true => rfl
  | false =>
    show npSplit _ (pyColShape sh k) = _
    rw [← resultRows_lengths fits k, npSplit_rows _ (fun e => pyColShape_some fits.some k (by
      rw [← resultRows_lengths fits k, e]; rfl))]
    rfl

/-- An array that was handed out, and the data behind it. -/
structure PyHeap.Shows {V : Type} (t : PyHeap V) (a : Nat) (rows : List (List (V ⊕ Nat))) : Prop where
  lt : a < t.pyNext
  data : t.py a = none ∨ ∃ b sizes cells, t.py a = some (.array b sizes) ∧ t.py b = some (.buffer cells) ∧
    (match sizes with | some sh => npSplit cells sh | none => [cells]) = rows

theorem Shows.read {V : Type} (zero : V) {t : PyHeap V} (v : t.Valid) {a : Nat} {rows : List (List (V ⊕ Nat))} (h : t.Shows a rows)
    (held : a ∈ t.held) : t.step zero (.read a) = .ok (.content rows, t) := by
  rcases h.data with h | ⟨b, sizes, cells, h1, h2, h3⟩
  · obtain ⟨u, hu⟩ := v.held a held
    exact absurd h (tag_some hu)
  · have hm : t.mine a = some (.array b sizes) := by unfold PyHeap.mine; rw [if_pos held]; exact h1
    subst h3
    rw [PyHeap.step, hm]
    simp only [h2]
    cases sizes <;> rfl

theorem Shows.move {V : Type} {zero : V} {s s' : PyHeap V} (v : s.Valid) (v' : s'.Valid) {a : Nat} {rows : List (List (V ⊕ Nat))}
    (h : s.Shows a rows) {e : PyEv V} (looks : e.Looks) (hm : PyMove zero s e s') : s'.Shows a rows := by
  refine ⟨Nat.lt_of_lt_of_le h.lt hm.next_le, ?_⟩
  rcases h.data with hn | ⟨b, sizes, cells, h1, h2, h3⟩
  · exact .inl (hm.gone hn h.lt)
  · rcases hm.data v looks (k := .array b sizes) trivial h1 with k1 | k1
    · rcases hm.data v looks (k := .buffer cells) trivial h2 with k2 | k2
      · exact .inr ⟨b, sizes, cells, k1, k2, h3⟩
      · have : s'.T b = some .buffer := v'.fine a _ k1
        exact absurd k2 (tag_some this)
    · exact .inl k1

theorem looks_history {V : Type} {zero : V} {es : List (PyEv V)} (looks : ∀ e ∈ es, e.Looks) {s : PyHeap V}
    {os : List (PyShown V)} (h : PyHeap.empty.run zero es = .ok (os, s)) : s.Valid ∧ s.Faithful zero :=
  PyHeap.run_induct (fun s => s.Faithful zero) PyEv.Looks (fun _ _ _ v v' i l m => Faithful.move v v' i l m) es _ _ _
    pyHeap_empty_valid ⟨fun _ _ _ _ h => (by cases h), fun _ _ _ _ h => (by cases h)⟩ looks h

theorem step_valid {V : Type} {zero : V} {s s' : PyHeap V} {e : PyEv V} {o : PyShown V} (v : s.Valid)
    (h : s.step zero e = .ok (o, s')) : s'.Valid := by
  have := PyHeap.step_safe zero v e
  rw [h] at this
  exact this

/-- A result with its array attached shows its rows. -/
theorem attached_shows {V : Type} {zero : V} {s : PyHeap V} (v : s.Valid) (f : s.Faithful zero) {r own c : Nat} {sh : List Nat}
    {slot : PySlot → Option Nat} {x : ExResult V} (hr : s.py r = some (.result own sh slot))
    (ho : s.py own = some (.owner c)) (hx : s.c c = some (.result x)) (fits : ShapedAs x sh) {k : PyCol} {whole : Bool} {a : Nat}
    (ha : slot (if whole then .flat k else .split k) = some a) : s.Shows a (shownRows whole (resultRows x k)) := by
  obtain ⟨b, hb, hp⟩ := f.views r own sh slot hr k whole a ha
  obtain ⟨cells, ok, hc, hfill⟩ := f.buf r own sh slot hr c x ho hx k b hb
  rw [pyFill_shaped zero fits k] at hfill
  obtain ⟨rfl, -⟩ := Prod.mk.inj (Except.ok.inj hfill)
  exact ⟨none_of_le v hp, .inr ⟨b, _, _, hp, hc, shown_split fits k whole⟩⟩

theorem mine_of {V : Type} {s : PyHeap V} {o : Nat} {k : PyObj V} (held : o ∈ s.held) (h : s.py o = some k) :
    s.mine o = some k := by
  unfold PyHeap.mine; rw [if_pos held]; exact h

/-- Viewing a loaded result. -/
theorem view_shows {V : Type} {zero : V} {s : PyHeap V} (v : s.Valid) (f : s.Faithful zero) {r own c : Nat} {sh : List Nat}
    {slot : PySlot → Option Nat} {x : ExResult V} (held : r ∈ s.held) (hr : s.py r = some (.result own sh slot))
    (ho : s.py own = some (.owner c)) (hx : s.c c = some (.result x)) (fits : ShapedAs x sh) (k : PyCol) (whole : Bool) {b : Nat}
    (loaded : slot (.buffer k) = some b) :
    ∃ a s', s.step zero (.view r k whole) = .ok (.made a, s') ∧ a ∈ s'.held ∧ s'.Valid ∧
      s'.Shows a (shownRows whole (resultRows x k)) := by
  cases ha : slot (if whole then .flat k else .split k) with
  | some a =>
    have hs : s.step zero (.view r k whole) = .ok (.made a, ⟨s.c, s.cNext, s.py, s.pyNext, s.held ++ [a]⟩) := by
      rw [PyHeap.step, mine_of held hr]
      simp only [ha]
    have v' := step_valid v hs
    have f' := Faithful.move v v' f (e := .view r k whole) trivial (PyHeap.step_move zero v hs)
    exact ⟨a, _, hs, List.mem_append_right _ (List.mem_singleton_self a), v', attached_shows v' f' hr ho hx fits ha⟩
  | none =>
    have hs : s.step zero (.view r k whole) = .ok (.made s.pyNext, ⟨s.c, s.cNext,
            PyHeap.put (PyHeap.put s.py s.pyNext (some (.array b (if whole then none else some (pyColShape sh k))))) r
              (some (.result own sh (pySet slot (if whole then .flat k else .split k) s.pyNext))), s.pyNext + 1,
            s.held ++ [s.pyNext]⟩) := by
      rw [PyHeap.step, mine_of held hr]
      simp only [ha, loaded]
    have v' := step_valid v hs
    have f' := Faithful.move v v' f (e := .view r k whole) trivial (PyHeap.step_move zero v hs)
    have hro : own ≠ r := fun e => by rw [e, hr] at ho; cases ho
    have hlt := none_of_le v ho
    refine ⟨s.pyNext, _, hs, List.mem_append_right _ (List.mem_singleton_self _), v',
      attached_shows v' f' (r := r) (put_self ..) (own := own) (c := c) ?_ hx fits ?_⟩
    · show PyHeap.put _ r _ own = _
      rw [put_other _ _ hro, put_other _ _ (by omega)]
      exact ho
    · rw [pySet, if_pos rfl]

/-- **C89, reading a result.**  After any history in which nobody wrote to the arrays: reading the values or the masks of a
result that is held, as a list or as one array, gives an array holding exactly what the library returned for it, however
often and in whatever way it was read before.  The array goes on showing that after any further such history in which it
is kept, whatever else is dropped and collected, the result included. -/
theorem C89_reads_give_the_result_partial {V : Type} (zero : V) (es : List (PyEv V)) (looks : ∀ e ∈ es, e.Looks)
    (os : List (PyShown V)) (s : PyHeap V) (history : PyHeap.empty.run zero es = .ok (os, s)) (r own c : Nat) (sh : List Nat)
    (slot : PySlot → Option Nat) (x : ExResult V) (held : r ∈ s.held) (result : s.py r = some (.result own sh slot))
    (owner : s.py own = some (.owner c)) (library : s.c c = some (.result x)) (shaped : ShapedAs x sh) (k : PyCol)
    (whole : Bool) :
    ∃ a s', s.property zero r k whole = .ok (.made a, s') ∧ a ∈ s'.held ∧
      s'.step zero (.read a) = .ok (.content (shownRows whole (resultRows x k)), s') ∧
      ∀ later, (∀ e ∈ later, e.Looks) → ∀ os' t, s'.run zero later = .ok (os', t) → a ∈ t.held →
        t.step zero (.read a) = .ok (.content (shownRows whole (resultRows x k)), t) := by
  obtain ⟨v, f⟩ := looks_history looks history
  have main : ∃ a s', s.property zero r k whole = .ok (.made a, s') ∧ a ∈ s'.held ∧ s'.Valid ∧
      s'.Shows a (shownRows whole (resultRows x k)) := by
    unfold PyHeap.property
    rw [mine_of held result]
    simp only []
    cases ha : slot (if whole then .flat k else .split k) with
    | some a =>
      obtain ⟨b, hb, -⟩ := f.views r own sh slot result k whole a ha
      exact view_shows v f held result owner library shaped k whole hb
    | none =>
      simp only []
      cases hb : slot (.buffer k) with
      | some b =>
        have hl : s.step zero (.load r k) = .ok (.silent, s) := by
          rw [PyHeap.step, mine_of held result]
          simp only [hb]
        rw [hl]
        exact view_shows v f held result owner library shaped k whole hb
      | none =>
        have hd : s.deref own = .ok (c, .result x) := by
          unfold PyHeap.deref
          rw [owner]; simp only [library]
        have hl : s.step zero (.load r k) = .ok (.silent, ⟨s.c, s.cNext,
              PyHeap.put (PyHeap.put s.py s.pyNext (some (.buffer (resultRows x k).flatten))) r
                (some (.result own sh (pySet slot (.buffer k) s.pyNext))), s.pyNext + 1, s.held⟩) := by
          rw [PyHeap.step, mine_of held result]
          simp only [hb, hd, pyFill_shaped zero shaped k, if_true]
        rw [hl]
        have v' := step_valid v hl
        have f' := Faithful.move v v' f (e := .load r k) trivial (PyHeap.step_move zero v hl)
        have hro : own ≠ r := fun e => by rw [e, result] at owner; cases owner
        have hlt := none_of_le v owner
        refine view_shows v' f' held (put_self ..) (own := own) (c := c) ?_ library shaped k whole (b := s.pyNext) ?_
        · show PyHeap.put _ r _ own = _
          rw [put_other _ _ hro, put_other _ _ (by omega)]
          exact owner
        · rw [pySet, if_pos rfl]
  obtain ⟨a, s', h1, h2, h3, h4⟩ := main
  refine ⟨a, s', h1, h2, Shows.read zero h3 h4 h2, fun later hl os' t hrun hheld => ?_⟩
  obtain ⟨vt, st⟩ := PyHeap.run_induct (zero := zero) (fun s => s.Shows a (shownRows whole (resultRows x k))) PyEv.Looks
    (fun _ _ _ v v' i l m => Shows.move v v' i l m) later s' t os' h3 h4 hl hrun
  exact Shows.read zero vt st hheld

/-- **C89, loops that are not begun again.**  If no iterator is looped over a second time, each extraction is answered with
results of the shapes asked for, and nobody writes to the arrays, then every result that is held is a result of the library,
and reading it gives that: every time, in every form, and for as long as the array is kept. -/
theorem C89_loops_once_partial {V : Type} (zero : V) (es : List (PyEv V)) (looks : ∀ e ∈ es, e.Looks)
    (answers : PyHeap.AnswersFit zero es PyHeap.empty) (once : (es.filterMap PyEv.loop).Nodup) :
    ∃ os s, PyHeap.empty.run zero es = .ok (os, s) ∧
      ∀ r own sh slot, r ∈ s.held → s.py r = some (.result own sh slot) →
        ∃ c x, s.py own = some (.owner c) ∧ s.c c = some (.result x) ∧ ∀ k (whole : Bool),
          ∃ a s', s.property zero r k whole = .ok (.made a, s') ∧ a ∈ s'.held ∧
            s'.step zero (.read a) = .ok (.content (shownRows whole (resultRows x k)), s') ∧
            ∀ later, (∀ e ∈ later, e.Looks) → ∀ os' t, s'.run zero later = .ok (os', t) → a ∈ t.held →
              t.step zero (.read a) = .ok (.content (shownRows whole (resultRows x k)), t) := by
  obtain ⟨os, s, L, hrun, v, p⟩ := paired_run pyHeap_empty_valid paired_empty answers once (fun _ _ h => (by cases h))
  refine ⟨os, s, hrun, fun r own sh slot held hr => ?_⟩
  obtain ⟨⟨c, h1, h2⟩, -⟩ := v.fine r _ hr
  have ho : s.py own = some (.owner c) := by
    unfold PyHeap.T at h1
    cases hp : s.py own with
    | none => rw [hp] at h1; cases h1
    | some k =>
      rw [hp] at h1
      cases k with
      | owner b => rw [PyTag.owner.inj (Option.some.inj h1)]
      | _ => cases h1
  have hc : ∃ x, s.c c = some (.result x) := by
    unfold PyHeap.C at h2
    cases hp : s.c c with
    | none => rw [hp] at h2; cases h2
    | some k =>
      rw [hp] at h2
      cases k with
      | result x => exact ⟨x, rfl⟩
      | _ => cases h2
  obtain ⟨x, hc⟩ := hc
  exact ⟨c, x, ho, hc, fun k whole => C89_reads_give_the_result_partial zero es looks os s hrun r own c sh slot x held hr ho hc
    (p.results r own sh slot c x ⟨hr, ho, hc⟩) k whole⟩

/-- Non-vacuity: in the history of C88 the result is held and has its own shape, and its values are read; then the result is
dropped and collected, with its owner, and the array still shows them. -/
example : (PyHeap.empty.run 0 (c88History ++ [.load 10 .vals, .view 10 .vals false, .load 10 .masks, .view 10 .masks true,
      .drop 10, .collect 10, .collect 9, .read 12, .read 14, .collect 12, .collect 11, .read 12])).toOption.map
      (fun p => (p.1.drop 25, (p.2.py 10).isSome, (p.2.py 9).isSome, p.2.held)) =
      some ([.content [[.inl 7]], .content [[.inr 1]], .silent, .silent, .content [[.inl 7]]], false, false, [5, 12, 14]) ∧
    ShapedAs (⟨[[7]], [[1]]⟩ : ExResult Nat) [1] := by
  exact ⟨by decide +kernel, ⟨by decide, by decide, by decide⟩⟩

/-! ## A read that failed -/

/-- **C89, a failed read is not repeated.**  The values of a result that does not have as many values as its shape asks for
cannot be read: the first read raises.  The second does not: it gives an array of zeros. -/
theorem C89_read_after_failure_gives_zeros {V : Type} (zero : V) (es : List (PyEv V)) (looks : ∀ e ∈ es, e.Looks)
    (os : List (PyShown V)) (s : PyHeap V) (history : PyHeap.empty.run zero es = .ok (os, s)) (r own c : Nat) (sh : List Nat)
    (slot : PySlot → Option Nat) (x : ExResult V) (held : r ∈ s.held) (result : s.py r = some (.result own sh slot))
    (owner : s.py own = some (.owner c)) (library : s.c c = some (.result x)) (unread : slot (.buffer .vals) = none)
    (foreign : x.values.flatten.length ≠ sh.sum) :
    ∃ s', s.property zero r .vals true = .ok (.raised, s') ∧
      ∃ a s'', s'.property zero r .vals true = .ok (.made a, s'') ∧
        s''.step zero (.read a) = .ok (.content [List.replicate sh.sum (.inl zero)], s'') := by
  obtain ⟨v, f⟩ := looks_history looks history
  have noview : slot (.flat .vals) = none := by
    cases ha : slot (.flat .vals) with
    | none => rfl
    | some a =>
      obtain ⟨b, hb, -⟩ := f.views r own sh slot result .vals true a ha
      rw [unread] at hb; cases hb
  have hfill : pyFill zero x (pyColShape sh .vals).sum .vals = .ok (List.replicate sh.sum (.inl zero), false) := by
    rw [pyFill]
    rcases C36_values_never_overrun x (List.replicate (pyColShape sh .vals).sum zero) with ⟨e, -⟩ | ⟨-, e⟩
    · rw [List.length_replicate] at e
      exact absurd e foreign
    · rw [List.length_replicate] at e
      rw [e]
      rfl
  have hd : s.deref own = .ok (c, .result x) := by
    unfold PyHeap.deref
    rw [owner]; simp only [library]
  have hl : s.step zero (.load r .vals) = .ok (.raised, ⟨s.c, s.cNext,
        PyHeap.put (PyHeap.put s.py s.pyNext (some (.buffer (List.replicate sh.sum (.inl zero))))) r
          (some (.result own sh (pySet slot (.buffer .vals) s.pyNext))), s.pyNext + 1, s.held⟩) := by
    rw [PyHeap.step, mine_of held result]
    simp only [unread, hd, hfill]
    rfl
  have v' := step_valid v hl
  have hrlt := none_of_le v result
  have hmine := mine_of (s := ⟨s.c, s.cNext,
        PyHeap.put (PyHeap.put s.py s.pyNext (some (.buffer (List.replicate sh.sum (.inl zero))))) r
          (some (.result own sh (pySet slot (.buffer .vals) s.pyNext))), s.pyNext + 1, s.held⟩) (o := r)
    (k := .result own sh (pySet slot (.buffer .vals) s.pyNext)) held (put_self ..)
  refine ⟨⟨s.c, s.cNext,
        PyHeap.put (PyHeap.put s.py s.pyNext (some (.buffer (List.replicate sh.sum (.inl zero))))) r
          (some (.result own sh (pySet slot (.buffer .vals) s.pyNext))), s.pyNext + 1, s.held⟩, ?_, s.pyNext + 1, ⟨s.c, s.cNext, PyHeap.put (PyHeap.put (PyHeap.put (PyHeap.put s.py s.pyNext
      (some (.buffer (List.replicate sh.sum (.inl zero))))) r (some (.result own sh (pySet slot (.buffer .vals) s.pyNext))))
      (s.pyNext + 1) (some (.array s.pyNext none))) r
      (some (.result own sh (pySet (pySet slot (.buffer .vals) s.pyNext) (.flat .vals) (s.pyNext + 1)))), s.pyNext + 1 + 1,
      s.held ++ [s.pyNext + 1]⟩, ?_, ?_⟩
  · unfold PyHeap.property
    rw [mine_of held result]
    simp only [if_true, noview, hl]
  · unfold PyHeap.property
    rw [hmine]
    have n1 : pySet slot (.buffer .vals) s.pyNext (.flat .vals) = none := by
      rw [pySet, if_neg (by intro e; cases e)]; exact noview
    have n2 : pySet slot (.buffer .vals) s.pyNext (.buffer .vals) = some s.pyNext := by rw [pySet, if_pos rfl]
    simp only [if_true, n1]
    rw [PyHeap.step, hmine]
    simp only [n2]
    rw [PyHeap.step, hmine]
    simp only [if_true, n1, n2]
  · have ha : (PyHeap.put (PyHeap.put (PyHeap.put (PyHeap.put s.py s.pyNext
      (some (.buffer (List.replicate sh.sum (.inl zero))))) r (some (.result own sh (pySet slot (.buffer .vals) s.pyNext))))
      (s.pyNext + 1) (some (.array s.pyNext none))) r
      (some (.result own sh (pySet (pySet slot (.buffer .vals) s.pyNext) (.flat .vals) (s.pyNext + 1))))) (s.pyNext + 1) =
        some (.array s.pyNext none) := by
      rw [put_other _ _ (by omega), put_self]
    have hb : (PyHeap.put (PyHeap.put (PyHeap.put (PyHeap.put s.py s.pyNext
      (some (.buffer (List.replicate sh.sum (.inl zero))))) r (some (.result own sh (pySet slot (.buffer .vals) s.pyNext))))
      (s.pyNext + 1) (some (.array s.pyNext none))) r
      (some (.result own sh (pySet (pySet slot (.buffer .vals) s.pyNext) (.flat .vals) (s.pyNext + 1))))) s.pyNext =
        some (.buffer (List.replicate sh.sum (.inl zero))) := by
      rw [put_other _ _ (by omega), put_other _ _ (by omega), put_other _ _ (by omega), put_self]
    rw [PyHeap.step, mine_of (k := .array s.pyNext none) (List.mem_append_right _ (List.mem_singleton_self _)) ha]
    simp only [hb]

/-- The state is reached: two fields of one and of two values, a loop left after one result and begun again; the second result
is paired with the ranges of the first.  The first read raises, the second gives one zero. -/
def c89History : List (PyEv Nat) :=
  [.newJump true, .newRequest [⟨0, 1⟩] true, .newRequest [⟨0, 2⟩] true, .extract 1 [3, 5] (some c88Answer), .iter 7, .next 8,
   .iter 7, .next 11]

def c89Reads : Option (List (PyShown Nat)) :=
  match PyHeap.empty.run 0 c89History with
  | .ok (_, s) =>
    match s.property 0 13 .vals false with
    | .ok (o1, s1) =>
      match s1.property 0 13 .vals false with
      | .ok (o2, s2) =>
        match s2.step 0 (.read 15) with
        | .ok (o3, _) => some [o1, o2, o3]
        | _ => none
      | _ => none
    | _ => none
  | _ => none

/-- **C89, witness.**  The first read of the values raises, the second returns an array, and it shows a value the library
never returned. -/
theorem C89_second_read_shows_zero : c89Reads = some [.raised, .made 15, .content [[.inl 0]]] := by
  decide +kernel

/-- Writing to an array is seen by every array of the same column, also by those handed out before. -/
example : (PyHeap.empty.run 0 (c88History ++ [.load 10 .vals, .view 10 .vals false, .view 10 .vals true, .poke 13 0 (.inl 5),
      .read 12])).toOption.map (fun p => p.1.getLast?) = some (some (.content [[.inl 5]])) := by
  decide +kernel

end GJ
