import Verif.Model.Context

/-!
# C66: the log context of a call

Every request header and every metrics line that is written on behalf of a user's call, on any node, carries the context
the user gave to that call.
-/

namespace GJ

/-- What the threads, groups, workers and messages of a system have in common at all times. -/
structure CtxOk (s : CtxSys) : Prop where
  thread : ∀ t, (s.threads t).pc ≠ .idle → s.calls[(s.threads t).call]? = some (s.threads t).ctx
  owned : ∀ t g, (s.threads t).pc = .inGroup g →
    ∃ G, s.groups[g]? = some G ∧ G.owner = t ∧ G.call = (s.threads t).call
  alive : ∀ (g : Nat) G, s.groups[g]? = some G → 0 < G.queued + G.running → (s.threads G.owner).pc = .inGroup g
  worker : ∀ w, (s.workers w).group ≠ none → s.calls[(s.workers w).call]? = some (s.workers w).ctx
  out : ∀ m, m ∈ s.sent ∨ m ∈ s.lines → s.calls[m.call]? = some m.ctx

theorem ctx_init_ok : CtxOk ctxInit where
  thread t h := absurd rfl h
  owned t g h := by cases h
  alive g G h := by cases h
  worker w h := absurd rfl h
  out m h := by rcases h with h | h <;> cases h

theorem ctx_get_append {l m : List String} {i : Nat} {x : String} (h : l[i]? = some x) : (l ++ m)[i]? = some x := by
  rw [List.getElem?_append_left (List.getElem?_eq_some_iff.mp h).1, h]

theorem ctxSet_same {α : Type} (f : Nat → α) (i : Nat) (x : α) : ctxSet f i x i = x := if_pos rfl

theorem ctxSet_ne {α : Type} (f : Nat → α) {i j : Nat} (x : α) (h : j ≠ i) : ctxSet f i x j = f j := if_neg h

/-- A thread that is in no group owns none that is alive. -/
theorem CtxOk.free {s : CtxSys} (h : CtxOk s) {t : Nat} (ht : ∀ g, (s.threads t).pc ≠ .inGroup g) {g : Nat} {G : CtxGroup}
    (hG : s.groups[g]? = some G) (ha : 0 < G.queued + G.running) : G.owner ≠ t := by
  intro e
  have := h.alive g G hG ha
  rw [e] at this
  exact ht g this

/-- A thread in no group is given new contents. -/
theorem CtxOk.replace {s : CtxSys} (h : CtxOk s) {t : Nat} (ht : ∀ g, (s.threads t).pc ≠ .inGroup g) (x : CtxThread)
    (hx : ∀ g, x.pc ≠ .inGroup g) (more : List String)
    (hc : x.pc ≠ .idle → (s.calls ++ more)[x.call]? = some x.ctx) :
    CtxOk { s with threads := ctxSet s.threads t x, calls := s.calls ++ more } where
  thread t' hp := by
    by_cases e : t' = t
    · subst e
      simp only [ctxSet_same] at hp ⊢
      exact hc hp
    · simp only [ctxSet_ne _ _ e] at hp ⊢
      exact ctx_get_append (h.thread t' hp)
  owned t' g hp := by
    by_cases e : t' = t
    · subst e
      simp only [ctxSet_same] at hp
      exact absurd hp (hx g)
    · simp only [ctxSet_ne _ _ e] at hp ⊢
      exact h.owned t' g hp
  alive g G hG ha := by
    have := h.free ht hG ha
    simp only [ctxSet_ne _ _ this]
    exact h.alive g G hG ha
  worker w hw := ctx_get_append (h.worker w hw)
  out m hm := ctx_get_append (h.out m hm)

theorem ctx_groups_set {gs : List CtxGroup} {g : Nat} {G G' H : CtxGroup} {g' : Nat} (hg : gs[g]? = some G)
    (h : (gs.set g G')[g']? = some H) : (g' = g ∧ H = G') ∨ (g' ≠ g ∧ gs[g']? = some H) := by
  by_cases e : g' = g
  · subst e
    rw [List.getElem?_set_self (List.getElem?_eq_some_iff.mp hg).1] at h
    exact Or.inl ⟨rfl, (Option.some.inj h).symm⟩
  · rw [List.getElem?_set_ne (Ne.symm e)] at h
    exact Or.inr ⟨e, h⟩

/-- The counters of a group change. -/
theorem CtxOk.regroup {s : CtxSys} (h : CtxOk s) {g : Nat} {G G' : CtxGroup} (hg : s.groups[g]? = some G)
    (ho : G'.owner = G.owner) (hc : G'.call = G.call)
    (ha : 0 < G'.queued + G'.running → (s.threads G.owner).pc = .inGroup g) :
    CtxOk { s with groups := s.groups.set g G' } where
  thread := h.thread
  owned t g' hp := by
    obtain ⟨H, h1, h2, h3⟩ := h.owned t g' hp
    by_cases e : g' = g
    · subst e
      rw [hg, Option.some.injEq] at h1
      subst h1
      exact ⟨G', List.getElem?_set_self (List.getElem?_eq_some_iff.mp hg).1, by rw [ho, h2], by rw [hc, h3]⟩
    · exact ⟨H, by simp only; rw [List.getElem?_set_ne (Ne.symm e), h1], h2, h3⟩
  alive g' H hH hp := by
    rcases ctx_groups_set hg hH with ⟨rfl, rfl⟩ | ⟨-, h1⟩
    · rw [ho]; exact ha hp
    · exact h.alive g' H h1 hp
  worker := h.worker
  out := h.out

/-- A worker is given new contents. -/
theorem CtxOk.work {s : CtxSys} (h : CtxOk s) (w : Nat) (x : CtxWorker)
    (hx : x.group ≠ none → s.calls[x.call]? = some x.ctx) : CtxOk { s with workers := ctxSet s.workers w x } where
  thread := h.thread
  owned := h.owned
  alive := h.alive
  worker w' hw := by
    by_cases e : w' = w
    · subst e
      simp only [ctxSet_same] at hw ⊢
      exact hx hw
    · simp only [ctxSet_ne _ _ e] at hw ⊢
      exact h.worker w' hw
  out := h.out

theorem CtxOk.emit {s : CtxSys} (h : CtxOk s) (a b : List CtxMsg)
    (hm : ∀ m, m ∈ a ∨ m ∈ b → s.calls[m.call]? = some m.ctx) :
    CtxOk { s with sent := s.sent ++ a, lines := s.lines ++ b } where
  thread := h.thread
  owned := h.owned
  alive := h.alive
  worker := h.worker
  out m hm' := by
    rcases hm' with hm' | hm' <;> rcases List.mem_append.mp hm' with hm' | hm'
    · exact h.out m (Or.inl hm')
    · exact hm m (Or.inl hm')
    · exact h.out m (Or.inr hm')
    · exact hm m (Or.inr hm')

theorem CtxOk.step {s : CtxSys} (h : CtxOk s) (valid : String → Bool) (e : CtxEv) : CtxOk (s.step valid e) := by
  cases e with
  | call t ctx =>
    simp only [CtxSys.step]
    split
    · rename_i hp
      refine h.replace (by rw [hp.1]; intro g hc; cases hc) ⟨.inCall, ctx, s.calls.length⟩ (by intro g hc; cases hc) [ctx] ?_
      intro _
      simp
    · exact h
  | send t =>
    simp only [CtxSys.step]
    split
    · rename_i hp
      have := h.emit [⟨(s.threads t).ctx, (s.threads t).call⟩] [] (by
        intro m hm
        rcases hm with hm | hm
        · rw [List.mem_singleton.mp hm]
          exact h.thread t (by rw [hp]; intro hc; cases hc)
        · cases hm)
      simpa using this
    · exact h
  | receive t k =>
    simp only [CtxSys.step]
    split
    · exact h
    · rename_i m hm
      split
      · rename_i hp
        have := h.replace (t := t) (by rw [hp]; intro g hc; cases hc) ⟨.inCall, m.ctx, m.call⟩
          (by intro g hc; cases hc) [] (by
            intro _
            rw [List.append_nil]
            exact h.out m (Or.inl (List.mem_of_getElem? hm)))
        simpa using this
      · exact h
  | make t =>
    simp only [CtxSys.step]
    split
    · rename_i hp
      have hfree : ∀ g, (s.threads t).pc ≠ .inGroup g := by rw [hp]; intro g hc; cases hc
      constructor
      · intro t' hp'
        by_cases e : t' = t
        · subst e
          simp only [ctxSet_same]
          exact h.thread t' (by rw [hp]; intro hc; cases hc)
        · simp only [ctxSet_ne _ _ e] at hp' ⊢
          exact h.thread t' hp'
      · intro t' g hp'
        by_cases e : t' = t
        · subst e
          simp only [ctxSet_same, CtxPc.inGroup.injEq] at hp' ⊢
          subst hp'
          exact ⟨⟨t', 0, 0, (s.threads t').call⟩, by simp, rfl, rfl⟩
        · simp only [ctxSet_ne _ _ e] at hp' ⊢
          obtain ⟨G, h1, h2⟩ := h.owned t' g hp'
          exact ⟨G, by rw [List.getElem?_append_left (List.getElem?_eq_some_iff.mp h1).1, h1], h2⟩
      · intro g G hG ha
        simp only at hG
        rw [List.getElem?_append] at hG
        split at hG
        · simp only [ctxSet_ne _ _ (h.free hfree hG ha)]
          exact h.alive g G hG ha
        · rw [List.getElem?_singleton] at hG
          split at hG
          · rw [← Option.some.inj hG] at ha
            exact absurd ha (by simp)
          · cases hG
      · exact h.worker
      · exact h.out
    · exact h
  | enqueue t =>
    simp only [CtxSys.step]
    split
    · rename_i g hp
      split
      · rename_i G hG
        obtain ⟨G', h1, h2, -⟩ := h.owned t g hp
        rw [hG, Option.some.injEq] at h1
        subst h1
        exact h.regroup hG rfl rfl fun _ => by rw [h2]; exact hp
      · exact h
    · exact h
  | leave t =>
    simp only [CtxSys.step]
    split
    · rename_i g hp
      split
      · rename_i G hG
        split
        · rename_i hz
          constructor
          · intro t' hp'
            by_cases e : t' = t
            · subst e
              simp only [ctxSet_same]
              exact h.thread t' (by rw [hp]; intro hc; cases hc)
            · simp only [ctxSet_ne _ _ e] at hp' ⊢
              exact h.thread t' hp'
          · intro t' g' hp'
            by_cases e : t' = t
            · subst e
              simp only [ctxSet_same] at hp'
              cases hp'
            · simp only [ctxSet_ne _ _ e] at hp' ⊢
              exact h.owned t' g' hp'
          · intro g' H hH ha
            have hal := h.alive g' H hH ha
            by_cases e : H.owner = t
            · rw [e, hp] at hal
              injection hal with hal
              subst hal
              simp only at hH
              rw [hG, Option.some.injEq] at hH
              subst hH
              omega
            · simp only [ctxSet_ne _ _ e]
              exact hal
          · exact h.worker
          · exact h.out
        · exact h
      · exact h
    · exact h
  | take w g =>
    simp only [CtxSys.step]
    split
    · rename_i G hG
      split
      · rename_i hq
        have hal := h.alive g G hG (by omega)
        obtain ⟨G', h1, -, h3⟩ := h.owned _ _ hal
        rw [hG, Option.some.injEq] at h1
        subst h1
        have h4 := h.regroup (G' := { G with queued := G.queued - 1, running := G.running + 1 }) hG rfl rfl fun _ => hal
        exact h4.work w ⟨some g, (s.threads G.owner).ctx, G.call⟩ fun _ => by
          simp only
          rw [h3]
          exact h.thread _ (by rw [hal]; intro hc; cases hc)
      · exact h
    · exact h
  | forward w =>
    simp only [CtxSys.step]
    split
    · rename_i g hg
      have := h.emit [⟨(s.workers w).ctx, (s.workers w).call⟩] [] (by
        intro m hm
        rcases hm with hm | hm
        · rw [List.mem_singleton.mp hm]
          exact h.worker w (by rw [hg]; intro hc; cases hc)
        · cases hm)
      simpa using this
    · exact h
  | done w =>
    simp only [CtxSys.step]
    split
    · rename_i g hg
      split
      · rename_i G hG
        have h4 := h.regroup (G' := { G with running := G.running - 1 }) hG rfl rfl fun hp =>
          h.alive g G hG (by simp only at hp; omega)
        exact h4.work w { s.workers w with group := none } fun hc => absurd rfl hc
      · exact h
    · exact h
  | report t =>
    simp only [CtxSys.step]
    split
    · rename_i hp
      have := h.emit [] [⟨(s.threads t).ctx, (s.threads t).call⟩] (by
        intro m hm
        rcases hm with hm | hm
        · cases hm
        · rw [List.mem_singleton.mp hm]
          exact h.thread t (by rw [hp]; intro hc; cases hc))
      simpa using this
    · exact h
  | finish t =>
    simp only [CtxSys.step]
    split
    · rename_i hp
      have := h.replace (t := t) (by rw [hp]; intro g hc; cases hc) { s.threads t with pc := .idle }
        (by intro g hc; cases hc) [] (fun hc => absurd rfl hc)
      simpa using this
    · exact h

theorem CtxOk.run {s : CtxSys} (h : CtxOk s) (valid : String → Bool) (es : List CtxEv) : CtxOk (s.run valid es) := by
  induction es generalizing s with
  | nil => exact h
  | cons e es ih => exact ih (h.step valid e)

/-- **C66.**  Whatever the threads, workers and servers of a system do and in whatever order: a request header that is
sent, by the user's own handle or by a worker of any server in between, and a metrics line that a server writes, carry the
context the user gave to the call they are for. -/
theorem C66_context_of_the_call (valid : String → Bool) (es : List CtxEv) (m : CtxMsg)
    (h : m ∈ (ctxInit.run valid es).sent ∨ m ∈ (ctxInit.run valid es).lines) :
    (ctxInit.run valid es).calls[m.call]? = some m.ctx :=
  (ctx_init_ok.run valid es).out m h

/-- **C66, JSON only.**  A context that is not JSON is refused before anything happens; so every context that is ever sent
is JSON. -/
theorem C66_only_json (valid : String → Bool) (es : List CtxEv) :
    (∀ s t ctx, valid ctx = false → CtxSys.step valid s (.call t ctx) = s) ∧
    ∀ m, m ∈ (ctxInit.run valid es).sent ∨ m ∈ (ctxInit.run valid es).lines → valid m.ctx = true := by
  refine ⟨fun s t ctx h => ?_, fun m hm => ?_⟩
  · simp only [CtxSys.step, h]
    rw [if_neg (by simp)]
  · have hall : ∀ (es : List CtxEv) (s : CtxSys), (∀ c ∈ s.calls, valid c = true) →
        ∀ c ∈ (s.run valid es).calls, valid c = true := by
      intro es
      induction es with
      | nil => intro s hs; exact hs
      | cons e es ih =>
        intro s hs
        refine ih _ ?_
        cases e <;> simp only [CtxSys.step] <;> repeat' (split)
        all_goals first
          | exact hs
          | (rename_i hp
             intro c hc
             rcases List.mem_append.mp hc with hc | hc
             · exact hs c hc
             · rw [List.mem_singleton.mp hc]; exact hp.2)
    exact hall es ctxInit (by intro c hc; cases hc) _ (List.mem_of_getElem? (C66_context_of_the_call valid es m hm))

/-- **C66, the reference stays good.**  A group only refers to the context of its thread.  As long as a group
has tasks, waiting or being executed, the thread that made the group is still in it, and has the context of the call the
group works for. -/
theorem C66_reference_good (valid : String → Bool) (es : List CtxEv) (g : Nat) (G : CtxGroup)
    (made : (ctxInit.run valid es).groups[g]? = some G) (task : 0 < G.queued ∨ 0 < G.running) :
    ((ctxInit.run valid es).threads G.owner).pc = .inGroup g ∧
    (ctxInit.run valid es).calls[G.call]? = some ((ctxInit.run valid es).threads G.owner).ctx := by
  have h := ctx_init_ok.run valid es
  have hal := h.alive g G made (by omega)
  obtain ⟨G', h1, -, h3⟩ := h.owned _ _ hal
  rw [made, Option.some.injEq] at h1
  subst h1
  refine ⟨hal, ?_⟩
  rw [h3]
  exact h.thread _ (by rw [hal]; intro hc; cases hc)

/-! ## A case

Two users with remote handles ask the same front node, which forwards both requests with one worker. -/

def c66Steps : List CtxEv :=
  [.call 0 "{\"user\":\"a\"}", .call 1 "{\"user\":\"b\"}", .send 1, .send 0, .receive 2 0, .receive 3 1, .make 2, .make 3,
   .enqueue 3, .enqueue 2, .take 7 1, .forward 7, .done 7, .take 7 0, .forward 7, .done 7, .leave 2, .leave 3, .receive 4 3,
   .report 4, .finish 4, .report 3, .report 2, .call 9 "not json"]

example : (ctxInit.run (fun c => c ≠ "not json") c66Steps).calls = ["{\"user\":\"a\"}", "{\"user\":\"b\"}"] ∧
    (ctxInit.run (fun c => c ≠ "not json") c66Steps).sent =
      [⟨"{\"user\":\"b\"}", 1⟩, ⟨"{\"user\":\"a\"}", 0⟩, ⟨"{\"user\":\"a\"}", 0⟩, ⟨"{\"user\":\"b\"}", 1⟩] ∧
    (ctxInit.run (fun c => c ≠ "not json") c66Steps).lines =
      [⟨"{\"user\":\"b\"}", 1⟩, ⟨"{\"user\":\"a\"}", 0⟩, ⟨"{\"user\":\"b\"}", 1⟩] := by decide +kernel

end GJ
