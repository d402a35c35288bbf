import Verif.Model.LastError

/-!
# C67: the message of an exception is that of the call

Proved for calls that do not fail while another thread is between its failure and its exception; false without that.
-/

namespace GJ

/-- A thread has no failure of its own to report. -/
def ErrPc.Quiet (x : ErrPc) : Prop := x = .idle

instance (x : ErrPc) : Decidable x.Quiet := inferInstanceAs (Decidable (x = .idle))

/-- No call fails while another thread is on its way from a failure to its exception, as with a lock around calls, or with
one thread. -/
def OneAtATime (s : ErrSys) : List ErrEv → Prop
  | [] => True
  | e :: es => (∀ t fn msg, e = .fail t fn msg → t < s.threads.length → ∀ u x, u ≠ t → s.threads[u]? = some x → x.Quiet) ∧
    OneAtATime (s.step e) es

/-- At most one thread is not quiet; its message is the last one. -/
structure ErrOk (s : ErrSys) : Prop where
  one : ∀ (t u : Nat) x y, s.threads[t]? = some x → s.threads[u]? = some y → ¬ x.Quiet → ¬ y.Quiet → t = u
  last : ∀ (t : Nat) fn msg, s.threads[t]? = some (.failed fn msg) ∨ s.threads[t]? = some (.reading fn msg) → s.last = msg
  race : s.race = false
  raised : ∀ r ∈ s.raised, r.text = errorText r.fn r.msg

theorem ErrOk.init (n : Nat) : ErrOk (.init n) where
  one t u x y hx _ nx := by
    have := List.mem_of_getElem? hx
    exact absurd (List.eq_of_mem_replicate this) nx
  last t fn msg h := by
    rcases h with h | h <;> (have := List.eq_of_mem_replicate (List.mem_of_getElem? h); cases this)
  race := rfl
  raised r h := by cases h

theorem errGet_set {l : List ErrPc} {t u : Nat} {a x : ErrPc} (h : (l.set t a)[u]? = some x) :
    (u = t ∧ x = a) ∨ (u ≠ t ∧ l[u]? = some x) := by
  by_cases e : u = t
  · subst e
    by_cases hl : u < l.length
    · rw [List.getElem?_set_self hl] at h
      exact .inl ⟨rfl, (Option.some.inj h).symm⟩
    · rw [List.getElem?_eq_none (by simp; omega)] at h
      cases h
  · rw [List.getElem?_set_ne (Ne.symm e)] at h
    exact .inr ⟨e, h⟩

/-- A thread moves on; the others are quiet, or it was the one that was not. -/
theorem ErrOk.move {s : ErrSys} (t : Nat) (a : ErrPc)
    (others : ∀ u x, u ≠ t → s.threads[u]? = some x → x.Quiet) :
    ∀ (v u : Nat) x y, (s.threads.set t a)[v]? = some x → (s.threads.set t a)[u]? = some y → ¬ x.Quiet → ¬ y.Quiet → v = u := by
  intro v u x y hx hy nx ny
  rcases errGet_set hx with ⟨rfl, -⟩ | ⟨hv, hx⟩
  · rcases errGet_set hy with ⟨rfl, -⟩ | ⟨hu, hy⟩
    · rfl
    · exact absurd (others u y hu hy) ny
  · exact absurd (others v x hv hx) nx

theorem ErrOk.alone {s : ErrSys} (h : ErrOk s) {t : Nat} {x : ErrPc} (hx : s.threads[t]? = some x) (nx : ¬ x.Quiet) :
    ∀ u y, u ≠ t → s.threads[u]? = some y → y.Quiet := by
  intro u y hu hy
  by_cases ny : y.Quiet
  · exact ny
  · exact absurd (h.one u t y x hy hx ny nx) hu

theorem any_false_of_quiet {s : ErrSys} {t : Nat} {x : ErrPc} (hx : s.threads[t]? = some x) (f : ErrPc → Bool)
    (hf : f x = false) (hi : f .idle = false) (others : ∀ u y, u ≠ t → s.threads[u]? = some y → y.Quiet) :
    s.threads.any f = false := by
  rw [List.any_eq_false]
  intro y hy
  obtain ⟨u, hu⟩ := List.getElem?_of_mem hy
  by_cases e : u = t
  · subst e
    rw [hx] at hu
    rw [← Option.some.inj hu, hf]
    exact Bool.false_ne_true
  · have : y = .idle := others u y e hu
    rw [this, hi]
    exact Bool.false_ne_true

theorem ErrOk.step {s : ErrSys} (h : ErrOk s) (e : ErrEv)
    (free : ∀ t fn msg, e = .fail t fn msg → t < s.threads.length → ∀ u x, u ≠ t → s.threads[u]? = some x → x.Quiet) :
    ErrOk (s.step e) := by
  cases e with
  | fail t fn msg =>
    rw [ErrSys.step.eq_def]
    simp only
    split
    · rename_i hx
      have others := free t fn msg rfl (List.getElem?_eq_some_iff.mp hx).1
      refine ⟨ErrOk.move t _ others, ?_, ?_, h.raised⟩
      · intro u fn' msg' hu
        have key : ∀ {y : ErrPc}, ¬ y.Quiet → (∀ a b, y ≠ .writing a b) →
            (s.threads.set t (.writing fn msg))[u]? = some y → False := by
          intro y ny nw hy
          rcases errGet_set hy with ⟨-, he⟩ | ⟨hu, hy⟩
          · exact nw _ _ he
          · exact ny (others u _ hu hy)
        rcases hu with hu | hu
        · exact absurd hu fun hu => key (by intro hc; cases hc) (by intro a b hc; cases hc) hu
        · exact absurd hu fun hu => key (by intro hc; cases hc) (by intro a b hc; cases hc) hu
      · simp only [h.race, Bool.false_or]
        exact any_false_of_quiet hx _ rfl rfl others
    · exact h
  | assigned t =>
    rw [ErrSys.step.eq_def]
    simp only
    split
    · rename_i fn msg hx
      have others := h.alone hx (by intro hc; cases hc)
      refine ⟨ErrOk.move t _ others, ?_, h.race, h.raised⟩
      intro u fn' msg' hu
      simp only
      rcases hu with hu | hu <;> rcases errGet_set hu with ⟨-, he⟩ | ⟨hu', hy⟩
      · injection he with _ he; exact he.symm
      · cases others u _ hu' hy
      · cases he
      · cases others u _ hu' hy
    · exact h
  | ask t =>
    rw [ErrSys.step.eq_def]
    simp only
    split
    · rename_i fn msg hx
      have others := h.alone hx (by intro hc; cases hc)
      refine ⟨ErrOk.move t _ others, ?_, ?_, h.raised⟩
      · intro u fn' msg' hu
        simp only
        rcases hu with hu | hu <;> rcases errGet_set hu with ⟨-, he⟩ | ⟨hu', hy⟩
        · cases he
        · cases others u _ hu' hy
        · injection he with _ he
          rw [he]
          exact h.last t fn msg (.inl hx)
        · cases others u _ hu' hy
      · simp only [h.race, Bool.false_or]
        exact any_false_of_quiet hx _ rfl rfl others
    · exact h
  | raise t =>
    rw [ErrSys.step.eq_def]
    simp only
    split
    · rename_i fn msg hx
      have others := h.alone hx (by intro hc; cases hc)
      refine ⟨ErrOk.move t _ others, ?_, h.race, ?_⟩
      · intro u fn' msg' hu
        rcases hu with hu | hu <;> rcases errGet_set hu with ⟨-, he⟩ | ⟨hu', hy⟩
        · cases he
        · cases others u _ hu' hy
        · cases he
        · cases others u _ hu' hy
      · intro r hr
        rcases List.mem_append.mp hr with hr | hr
        · exact h.raised r hr
        · rw [List.mem_singleton.mp hr]
          simp only
          rw [h.last t fn msg (.inr hx)]
    · exact h

/-- **C67.**  If no call fails while another thread is on its way from a failure to its exception, then every exception has
the message of its own call, and nothing undefined happens.  Missing: calls of several threads that fail at the same time
(`C67_other_threads_message`). -/
theorem C67_own_message_partial (n : Nat) (es : List ErrEv) (one : OneAtATime (.init n) es) :
    ((ErrSys.init n).run es).race = false ∧
    ∀ r ∈ ((ErrSys.init n).run es).raised, r.text = "Error in function '" ++ r.fn ++ "': " ++ r.msg := by
  have : ∀ (es : List ErrEv) (s : ErrSys), ErrOk s → OneAtATime s es → ErrOk (s.run es) := by
    intro es
    induction es with
    | nil => intro s h _; exact h
    | cons e es ih => intro s h ho; exact ih _ (h.step e ho.1) ho.2
  have h := this es _ (.init n) one
  exact ⟨h.race, h.raised⟩

/-- **C67, one thread.**  A program that uses the library from one thread always sees the message of its own call. -/
theorem C67_one_thread (es : List ErrEv) :
    ((ErrSys.init 1).run es).race = false ∧
    ∀ r ∈ ((ErrSys.init 1).run es).raised, r.text = "Error in function '" ++ r.fn ++ "': " ++ r.msg := by
  have len : ∀ (s : ErrSys) (e : ErrEv), (s.step e).threads.length = s.threads.length := by
    intro s e
    cases e <;> rw [ErrSys.step.eq_def] <;> simp only <;> split <;> simp
  refine C67_own_message_partial 1 es ?_
  have : ∀ (es : List ErrEv) (s : ErrSys), s.threads.length = 1 → OneAtATime s es := by
    intro es
    induction es with
    | nil => intro s _; trivial
    | cons e es ih =>
      intro s hs
      refine ⟨?_, ih _ (by rw [len, hs])⟩
      intro t fn msg he ht u x hu hx
      have hu1 := (List.getElem?_eq_some_iff.mp hx).1
      omega
  exact this es _ rfl

/-- **C67 is false for several threads.**  Two threads whose calls fail: the first can raise an exception with the other's
message, without any overlap of accesses; and if their failures overlap, the accesses race. -/
theorem C67_other_threads_message :
    ((ErrSys.init 2).run [.fail 0 "gribjump_extract" "no such field", .assigned 0, .fail 1 "gribjump_new_axes" "bad request",
      .assigned 1, .ask 0, .raise 0]).raised =
      [⟨0, "gribjump_extract", "no such field", "Error in function 'gribjump_extract': bad request"⟩] ∧
    ((ErrSys.init 2).run [.fail 0 "gribjump_extract" "no such field", .assigned 0, .fail 1 "gribjump_new_axes" "bad request",
      .assigned 1, .ask 0, .raise 0]).race = false ∧
    ((ErrSys.init 2).run [.fail 0 "gribjump_extract" "a", .fail 1 "gribjump_extract" "b"]).race = true ∧
    ((ErrSys.init 2).run [.fail 0 "gribjump_extract" "a", .assigned 0, .ask 0, .fail 1 "gribjump_extract" "b"]).race =
      true := by
  decide +kernel

/-- A case of the partial theorem: two threads fail one after the other. -/
example : OneAtATime (.init 2) [.fail 0 "f" "a", .assigned 0, .ask 0, .raise 0, .fail 1 "g" "b", .assigned 1, .ask 1,
      .raise 1] ∧
    ((ErrSys.init 2).run [.fail 0 "f" "a", .assigned 0, .ask 0, .raise 0, .fail 1 "g" "b", .assigned 1, .ask 1,
      .raise 1]).raised.map (fun r => r.text) = ["Error in function 'f': a", "Error in function 'g': b"] := by
  refine ⟨?_, by decide +kernel⟩
  refine ⟨?_, ?_, ?_, ?_, ?_, ?_, ?_, ?_, trivial⟩ <;> intro t fn msg he <;> cases he <;> intro _ u x hu hx <;>
    (rcases u with _ | _ | u <;> first | omega | (cases hx; rfl) | cases hx)

end GJ
