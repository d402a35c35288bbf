import Verif.Lemmas.NetPresent

/-!
# C77: what is there is delivered, by several processes at work

Calls in a network of processes (`Net`) whose fields are there when they begin.
-/

namespace GJ
open Spec

/-! ## Every history -/

/-- C77 (partial).  At a moment of the history of a network, a client's call has not begun, its fields are listed once, and
are in the files of the processes responsible for them.  Other calls, of other clients, may have begun, at any process.
From then on anything happens, except that no connection of this call is refused or breaks: files grow, indexes are
scanned, other calls and their forwarded requests take turns, fail or not.  Then no task of the call fails or is cancelled,
and if the call returns, it returns one right result per request, in order.
Missing: file names a cache confuses (`ToldApart`, C15), the same path at two endpoints (`Catalogue`, C31), processes that
do not build metadata on demand (C47). -/
theorem C77_present_fields_served_partial (N : Net) (U : Nat → String → Prop) (asked : Nat → Nat → Asked)
    (written : Nat → Nat → List ExRequest) (sound : N.Sound U asked written) (S : Nat → Store)
    (exact_ : ∀ a, (N.site a).Exact (S a)) (s1 : NetSys) (reached : N.LazyReached U s1) (es : List NetEv)
    (allowed : ∀ e ∈ es, NetEv.Allowed U e) (s2 : NetSys) (run : N.run s1 es = .ok s2) (a g : Nat)
    (client : N.origin a g = none) (tasks : (N.jobs a g).2 ≠ []) (unbegun : s1.Unbegun a g) (kept : N.Kept s1 es a g)
    (accepted : N.Accepted a g) (cat : List (FdbKey × Uri)) (rs : List ExRequest) (ws : List WrittenRequest)
    (request : asked a g = .fields rs) (can : N.CanServe U S s1 a g cat rs ws) :
    ((s2 a).x.t.grp g).errors = [] ∧ .cancelled ∉ ((s2 a).x.t.grp g).tasks ∧
      (((s2 a).x.t.grp g).phase = .returned →
        ∃ out, Net.outcome written s2 a g = .ok out ∧ N.Serves U S s1 a cat rs ws out) := by
  obtain ⟨⟨h1, h2⟩, h3⟩ := client_clean sound exact_ reached allowed run client tasks unbegun kept accepted
    (S := S) (by rw [request]; exact .fields cat rs ws can)
  refine ⟨h1, h2, fun returned => ?_⟩
  obtain ⟨fwd, E, sched, hL, wire, ho⟩ := h3 returned
  obtain ⟨out, h4, h5⟩ := (net_serves sound exact_ reached hL wire sched).1 cat rs ws can
  rw [request] at ho
  exact ⟨out, ho.symm.trans h4, h5⟩

/-- C77 (partial).  The same for requests by path, all with host and port or all without.  Missing: the same path at two places in
one call, and what is missing above. -/
theorem C77_present_paths_served_partial (N : Net) (U : Nat → String → Prop) (asked : Nat → Nat → Asked)
    (written : Nat → Nat → List ExRequest) (sound : N.Sound U asked written) (S : Nat → Store)
    (exact_ : ∀ a, (N.site a).Exact (S a)) (s1 : NetSys) (reached : N.LazyReached U s1) (es : List NetEv)
    (allowed : ∀ e ∈ es, NetEv.Allowed U e) (s2 : NetSys) (run : N.run s1 es = .ok s2) (a g : Nat)
    (client : N.origin a g = none) (tasks : (N.jobs a g).2 ≠ []) (unbegun : s1.Unbegun a g) (kept : N.Kept s1 es a g)
    (accepted : N.Accepted a g) (forward : Bool) (rs : List PathReq) (request : asked a g = .paths rs)
    (can : N.CanServePaths U S s1 a forward rs) :
    ((s2 a).x.t.grp g).errors = [] ∧ .cancelled ∉ ((s2 a).x.t.grp g).tasks ∧
      (((s2 a).x.t.grp g).phase = .returned →
        ∃ out, Net.outcome written s2 a g = .ok out ∧ N.ServesPaths U S s1 a forward rs out) := by
  obtain ⟨⟨h1, h2⟩, h3⟩ := client_clean sound exact_ reached allowed run client tasks unbegun kept accepted
    (S := S) (by rw [request]; exact .paths forward rs can)
  refine ⟨h1, h2, fun returned => ?_⟩
  obtain ⟨fwd, E, sched, hL, wire, ho⟩ := h3 returned
  obtain ⟨out, h4, h5⟩ := (net_serves sound exact_ reached hL wire sched).2 forward rs can
  rw [request] at ho
  exact ⟨out, ho.symm.trans h4, h5⟩

/-- C77 (partial).  If all calls of all clients can be met when none of them has begun, nothing is undefined: every schedule can be
carried on by any step, as long as no connection breaks.  Missing: as above; and calls that cannot be met. -/
theorem C77_goes_on_partial (N : Net) (U : Nat → String → Prop) (asked : Nat → Nat → Asked)
    (written : Nat → Nat → List ExRequest) (sound : N.Sound U asked written) (S : Nat → Store)
    (exact_ : ∀ a, (N.site a).Exact (S a)) (s1 : NetSys) (reached : N.LazyReached U s1) (es : List NetEv) (e : NetEv)
    (allowed : ∀ x ∈ es ++ [e], NetEv.Allowed U x) (s2 : NetSys) (run : N.run s1 es = .ok s2)
    (all : ∀ a g, N.origin a g = none → (N.jobs a g).2 ≠ [] → s1.Unbegun a g ∧ N.Kept s1 (es ++ [e]) a g ∧ N.Accepted a g ∧
      N.Can U S s1 a g (asked a g)) : ∃ s3, N.step s2 e = .ok s3 :=
  net_steps sound exact_ reached allowed run all

/-! ## Infinite histories -/

theorem NetExecution.reached {N : Net} {U : Nat → String → Prop} {ev : Nat → NetEv} {st : Nat → NetSys}
    (h : NetExecution N U ev st) (onDemand : N.LazyBegan U (st 0)) (k : Nat) : N.LazyReached U (st k) :=
  ⟨st 0, _, onDemand, h.events 0 k, h.run k⟩

theorem NetExecution.kept {N : Net} {U : Nat → String → Prop} {ev : Nat → NetEv} {st : Nat → NetSys}
    (h : NetExecution N U ev st) {k0 a g : Nat}
    (unbroken : ∀ k w j, k0 ≤ k → (st k a).x.connected w = some (g, j) → ev k ≠ .lost a w) (m : Nat) :
    N.Kept (st k0) ((List.range m).map fun i => ev (k0 + i)) a g := by
  intro es1 e es2 s w j he hr hc
  have hlen : es1.length < m := by
    have := congrArg List.length he
    simp only [List.length_map, List.length_range, List.length_append, List.length_cons] at this
    omega
  have hpre : es1 = (List.range es1.length).map fun i => ev (k0 + i) := by
    have := congrArg (List.take es1.length) he
    rw [List.take_left, ← List.map_take, List.take_range, Nat.min_eq_left (Nat.le_of_lt hlen)] at this
    exact this.symm
  have hat : e = ev (k0 + es1.length) := by
    have := congrArg (fun l => l[es1.length]?) he
    rw [List.getElem?_append_right (Nat.le_refl _), Nat.sub_self, List.getElem?_cons_zero, List.getElem?_map,
      List.getElem?_range hlen] at this
    exact (Option.some.inj this).symm
  have hs : st (k0 + es1.length) = s := by
    have h1 := h.since k0 es1.length
    rw [← hpre] at h1
    exact Except.ok.inj (h1.symm.trans hr)
  rw [← hs] at hc
  rw [hat]
  exact unbroken _ w j (Nat.le_add_right _ _) hc

theorem NetExecution.earlier {N : Net} {U : Nat → String → Prop} {asked : Nat → Nat → Asked}
    {written : Nat → Nat → List ExRequest} (sound : N.Sound U asked written) {ev : Nat → NetEv} {st : Nat → NetSys}
    (h : NetExecution N U ev st) {a g k m : Nat} (hkm : k ≤ m) (hu : (st m).Unbegun a g) : (st k).Unbegun a g := by
  obtain ⟨fev, hF, -⟩ := h.fleet sound
  intro j hj
  refine hu j ?_
  obtain ⟨i, rfl⟩ := Nat.exists_eq_add_of_le hkm
  clear hkm hu
  induction i with
  | zero => exact hj
  | succ i ih =>
    have hs := hF.step (k + i)
    rw [Fleet.step] at hs
    obtain ⟨y, hy, hs⟩ := res_bind_inv hs
    have hs := congrFun (Except.ok.inj hs) a
    by_cases hc : a = (N.fleet.act (st (k + i)).groups (fev (k + i))).1
    · rw [if_pos hc] at hs
      rw [← hc] at hy
      show (g, j) ∈ ((st (k + (i + 1))).groups a).started
      rw [show (st (k + (i + 1))).groups a = y from hs.symm]
      generalize (N.fleet.act (st (k + i)).groups (fev (k + i))).2 = o at hy
      cases o with
      | none => cases hy; exact ih
      | some e => exact started_stays hy ih
    · rw [if_neg hc] at hs
      show (g, j) ∈ ((st (k + (i + 1))).groups a).started
      rw [show (st (k + (i + 1))).groups a = (st (k + i)).groups a from hs.symm]
      exact ih

/-- No request that arrives from a call that could be met has a task cancelled, ever. -/
theorem NetExecution.calm {N : Net} {U : Nat → String → Prop} {asked : Nat → Nat → Asked} {written : Nat → Nat → List ExRequest}
    (sound : N.Sound U asked written) {S : Nat → Store} (ex : ∀ a, (N.site a).Exact (S a)) {ev : Nat → NetEv} {st : Nat → NetSys}
    (h : NetExecution N U ev st) (onDemand : N.LazyBegan U (st 0)) {b j a g t m : Nat} (arrived : N.origin b j = some (a, g, t))
    (unbegun : (st m).Unbegun a g) (can : N.Can U S (st m) a g (asked a g)) (k : Nat) :
    .cancelled ∉ ((st k b).x.t.grp j).tasks := by
  by_cases hk : k ≤ m
  · have hu := (h.reached onDemand k).reached.unsent sound (h.earlier sound hk unbegun) ((sound.back _ _ _ _ _).mpr arrived)
    have ht := (h.reached onDemand k).reached.unbegun sound hu
    obtain ⟨fwd, -, inv, -⟩ := net_srv sound onDemand.began (h.run k) (h.events 0 k) b
    obtain ⟨E, -, hx⟩ := inv.x (sound.fresh b)
    exact (hx.unbegun (sound.fresh b) ht).2
  · obtain ⟨i, rfl⟩ := Nat.exists_eq_add_of_le (Nat.le_of_not_le hk)
    exact (arrived_clean sound ex (h.reached onDemand m) (h.events m i) (h.since m i) arrived unbegun can).2

/-- Whoever works keeps working, and a process that is asked by others always gets to its requests. -/
structure NetGoes (N : Net) (ev : Nat → NetEv) (st : Nat → NetSys) : Prop where
  workers : NetWorkersFair N ev
  threads : ∀ b g, (N.jobs b g).2 ≠ [] → NetThreadFair b g ev
  some : ∀ b g, (N.jobs b g).2 ≠ [] → 0 < N.threads b
  room : ∃ rank : Nat → Nat, ∀ b j, N.origin b j ≠ none →
    NetSpare N st b ∨ ∀ g t c i, N.target b g t = Option.some (c, i) → rank c < rank b

/-- A client's call that could be met returns. -/
theorem NetExecution.returns {N : Net} {U : Nat → String → Prop} {asked : Nat → Nat → Asked} {written : Nat → Nat → List ExRequest}
    (sound : N.Sound U asked written) {S : Nat → Store} (ex : ∀ a, (N.site a).Exact (S a)) {ev : Nat → NetEv} {st : Nat → NetSys}
    (h : NetExecution N U ev st) (onDemand : N.LazyBegan U (st 0)) (goes : NetGoes N ev st)
    (others : ∀ b j a g t, N.origin b j = some (a, g, t) → ∃ m, (st m).Unbegun a g ∧ N.Can U S (st m) a g (asked a g))
    {a g k0 : Nat} (client : N.origin a g = none) (tasks : (N.jobs a g).2 ≠ []) (unbegun : (st k0).Unbegun a g)
    (unbroken : ∀ k w j, k0 ≤ k → (st k a).x.connected w = some (g, j) → ev k ≠ .lost a w) (accepted : N.Accepted a g)
    (can : N.Can U S (st k0) a g (asked a g)) : ∃ i, ((st (k0 + i) a).x.t.grp g).phase = .returned := by
  obtain ⟨rank, room⟩ := goes.room
  have clean : ∀ i, .cancelled ∉ ((st (k0 + i) a).x.t.grp g).tasks := fun i =>
    (client_clean sound ex (h.reached onDemand k0) (h.events k0 i) (h.since k0 i) client tasks unbegun (h.kept unbroken i)
      accepted can).1.2
  have before : ∀ k, k ≤ k0 → ((st k a).x.t.grp g).phase ≠ .returned ∧ .cancelled ∉ ((st k a).x.t.grp g).tasks := by
    intro k hk
    have ht := (h.reached onDemand k).reached.unbegun sound (h.earlier sound hk unbegun)
    obtain ⟨fwd, -, inv, -⟩ := net_srv sound onDemand.began (h.run k) (h.events 0 k) a
    obtain ⟨E, -, hx⟩ := inv.x (sound.fresh a)
    exact hx.unbegun (sound.fresh a) ht
  rcases h.calls sound goes.workers goes.threads goes.some rank room (fun b j hj k => by
    cases ho : N.origin b j with
    | none => exact absurd ho hj
    | some q =>
      obtain ⟨a', g', t⟩ := q
      obtain ⟨m, hu, hc⟩ := others b j a' g' t ho
      exact h.calm sound ex onDemand ho hu hc k) client tasks with ⟨k, hk⟩ | ⟨k, hk⟩
  · by_cases hle : k ≤ k0
    · exact absurd hk (before k hle).1
    · obtain ⟨i, rfl⟩ := Nat.exists_eq_add_of_le (Nat.le_of_not_le hle)
      exact ⟨i, hk⟩
  · by_cases hle : k ≤ k0
    · exact absurd hk (before k hle).2
    · obtain ⟨i, rfl⟩ := Nat.exists_eq_add_of_le (Nat.le_of_not_le hle)
      exact absurd hk (clean i)

/-- C77 (partial).  In an infinite history of a network in which whoever works keeps working: a call whose fields are there at a
moment when it has not begun returns, with one right result per request, if no connection of it is refused or breaks.
Calls of other clients that forward can be met too when they begin; calls that stay on their process may do anything.
Missing: as above; forwarding calls that fail (a request with a cancelled task never returns, C25); two
processes all of whose workers wait for each other (C75). -/
theorem C77_present_fields_return_partial (N : Net) (U : Nat → String → Prop) (asked : Nat → Nat → Asked)
    (written : Nat → Nat → List ExRequest) (sound : N.Sound U asked written) (S : Nat → Store)
    (exact_ : ∀ a, (N.site a).Exact (S a)) (ev : Nat → NetEv) (st : Nat → NetSys) (h : NetExecution N U ev st)
    (onDemand : N.LazyBegan U (st 0)) (goes : NetGoes N ev st)
    (others : ∀ b j a g t, N.origin b j = some (a, g, t) → ∃ m, (st m).Unbegun a g ∧ N.Can U S (st m) a g (asked a g))
    (a g k0 : Nat) (client : N.origin a g = none) (tasks : (N.jobs a g).2 ≠ []) (unbegun : (st k0).Unbegun a g)
    (unbroken : ∀ k w j, k0 ≤ k → (st k a).x.connected w = some (g, j) → ev k ≠ .lost a w) (accepted : N.Accepted a g)
    (cat : List (FdbKey × Uri)) (rs : List ExRequest) (ws : List WrittenRequest)
    (request : asked a g = .fields rs) (can : N.CanServe U S (st k0) a g cat rs ws) :
    ∃ k, ((st k a).x.t.grp g).phase = .returned ∧
      ∃ out, Net.outcome written (st k) a g = .ok out ∧ N.Serves U S (st k0) a cat rs ws out := by
  obtain ⟨i, hi⟩ := h.returns sound exact_ onDemand goes others client tasks unbegun unbroken accepted
    (by rw [request]; exact .fields cat rs ws can)
  exact ⟨_, hi, (C77_present_fields_served_partial N U asked written sound S exact_ _ (h.reached onDemand k0) _ (h.events k0 i) _
    (h.since k0 i) a g client tasks unbegun (h.kept unbroken i) accepted cat rs ws request can).2.2 hi⟩

/-- C77 (partial).  The same for requests by path.  Missing: as above. -/
theorem C77_present_paths_return_partial (N : Net) (U : Nat → String → Prop) (asked : Nat → Nat → Asked)
    (written : Nat → Nat → List ExRequest) (sound : N.Sound U asked written) (S : Nat → Store)
    (exact_ : ∀ a, (N.site a).Exact (S a)) (ev : Nat → NetEv) (st : Nat → NetSys) (h : NetExecution N U ev st)
    (onDemand : N.LazyBegan U (st 0)) (goes : NetGoes N ev st)
    (others : ∀ b j a g t, N.origin b j = some (a, g, t) → ∃ m, (st m).Unbegun a g ∧ N.Can U S (st m) a g (asked a g))
    (a g k0 : Nat) (client : N.origin a g = none) (tasks : (N.jobs a g).2 ≠ []) (unbegun : (st k0).Unbegun a g)
    (unbroken : ∀ k w j, k0 ≤ k → (st k a).x.connected w = some (g, j) → ev k ≠ .lost a w) (accepted : N.Accepted a g)
    (forward : Bool) (rs : List PathReq) (request : asked a g = .paths rs)
    (can : N.CanServePaths U S (st k0) a forward rs) :
    ∃ k, ((st k a).x.t.grp g).phase = .returned ∧
      ∃ out, Net.outcome written (st k) a g = .ok out ∧ N.ServesPaths U S (st k0) a forward rs out := by
  obtain ⟨i, hi⟩ := h.returns sound exact_ onDemand goes others client tasks unbegun unbroken accepted
    (by rw [request]; exact .paths forward rs can)
  exact ⟨_, hi, (C77_present_paths_served_partial N U asked written sound S exact_ _ (h.reached onDemand k0) _ (h.events k0 i) _
    (h.since k0 i) a g client tasks unbegun (h.kept unbroken i) accepted forward rs request can).2.2 hi⟩

/-! ## Cases -/

/-- The states of an infinite schedule. -/
def netStates (N : Net) (s : NetSys) (ev : Nat → NetEv) : Nat → NetSys
  | 0 => s
  | k + 1 => match N.step (netStates N s ev k) (ev k) with
    | .ok s => s
    | .error _ => netStates N s ev k

theorem netStates_run {N : Net} {s : NetSys} {ev : Nat → NetEv}
    (h : ∀ k s', N.run s ((List.range k).map ev) = .ok s' → ∃ s'', N.step s' (ev k) = .ok s'') (k : Nat) :
    N.run s ((List.range k).map ev) = .ok (netStates N s ev k) ∧
      N.step (netStates N s ev k) (ev k) = .ok (netStates N s ev (k + 1)) := by
  induction k with
  | zero =>
    obtain ⟨s', h1⟩ := h 0 s rfl
    exact ⟨rfl, by rw [netStates.eq_2]; simp only [netStates.eq_1]; rw [h1]⟩
  | succ k ih =>
    have hr : N.run s ((List.range (k + 1)).map ev) = .ok (netStates N s ev (k + 1)) := by
      rw [List.range_succ, List.map_append]
      exact net_snoc ih.1 ih.2
    obtain ⟨s', h1⟩ := h (k + 1) _ hr
    exact ⟨hr, by rw [netStates.eq_2 N s ev (k + 1), h1]⟩

theorem c77_began : c76Net.LazyBegan c76Names c76Start :=
  ⟨c76Disk, fun _ => .shadow, fun _ => 4, fun _ => [], c76_apart, fun _ => Nat.succ_pos 3, fun a => c76_agree _ a, rfl⟩

theorem c77_exact (a : Nat) : (c76Net.site a).Exact c50Store := by
  match a with
  | 0 => exact ⟨rfl, rfl⟩
  | a + 1 => exact ⟨rfl, rfl⟩

theorem c77_turn (i : Nat) (hi : i < 43) (k : Nat) : ∃ m, k ≤ m ∧ c76Ev m = c76Turns[i]?.getD (.on 0 (.other .clear)) :=
  ⟨43 * (k + 1) + i, by omega, by rw [c76Ev, Nat.mul_add_mod, Nat.mod_eq_of_lt hi]⟩

theorem c77_unbroken (k a w : Nat) : c76Ev k ≠ .lost a w := by
  have h : ∀ e ∈ c76Turns, e ≠ .lost a w := by
    intro e he
    simp only [c76Turns, List.mem_cons, List.mem_nil_iff, or_false] at he
    repeat' (rcases he with rfl | he <;> first | (intro h; cases h; done) | skip)
  unfold c76Ev
  cases he : c76Turns[k % 43]? with
  | none => intro h; cases h
  | some e => exact h e (List.mem_of_getElem? he)

/-- The calls of clients that have tasks. -/
theorem c77_clients (a g : Nat) (client : c76Net.origin a g = none) (tasks : (c76Net.jobs a g).2 ≠ []) :
    (a, g) = (0, 0) ∨ (a, g) = (0, 1) ∨ (a, g) = (1, 0) ∨ (a, g) = (1, 2) := by
  match a, g, client, tasks with
  | 0, 0, _, _ => exact .inl rfl
  | 0, 1, _, _ => exact .inr (.inl rfl)
  | 1, 0, _, _ => exact .inr (.inr (.inl rfl))
  | 1, 2, _, _ => exact .inr (.inr (.inr rfl))
  | 1, 1, client, _ => cases client
  | 2, 0, client, _ => cases client
  | 2, 1, client, _ => cases client
  | 0, g + 2, _, tasks => exact absurd rfl tasks
  | 1, g + 3, _, tasks => exact absurd rfl tasks
  | 2, g + 2, _, tasks => exact absurd rfl tasks
  | a + 3, g, _, tasks => exact absurd rfl tasks

theorem c77_front : c76Net.CanServe c76Names (fun _ => c50Store) c76Start 0 0 c52Cat c50Reqs c27Written where
  catalogue := catalogue_of (by decide +kernel) (by decide +kernel) (by decide +kernel)
  lists := by
    intro u L h
    have := Except.ok.inj h
    subst this
    exact ⟨fun e he => he, by decide +kernel⟩
  complete := fun u => ⟨c52Cat, rfl, fun e he _ => he⟩
  places := by decide +kernel
  written := ⟨by decide +kernel, c27_written.2⟩
  nonempty := by decide
  fit := by
    intro _ q hq i hi
    simp only [c50Reqs, List.mem_cons, List.mem_nil_iff, or_false] at hq
    rcases hq with rfl | rfl | rfl <;>
      (simp only [List.mem_cons, List.mem_nil_iff, or_false] at hi; rcases hi with rfl | rfl | rfl <;> decide)
  different := c27_different
  sameKeywords := c27_sameKeywords
  found := by
    refine c69_at (p := fun i hi _ e => ∃ r, c76Net.Offers c76Names (fun _ => c50Store) c76Start 0 true e.2 c50Reqs[i].ranges
      c50Reqs[i].gridHash r) (cat := c52Cat) rfl ?_ ?_ ?_
    · refine ⟨⟨[[10, 11, 12, 13]], [[15]]⟩, ?_⟩
      rw [Net.Offers, if_pos rfl]
      exact ⟨("gx", 9), by decide +kernel,
        c69_file (file := toyMessage ++ [0x47, 2, 7, 8]) (h := (toyParse toyMessage).get (by decide))
        (show "file" ≠ "fdb" by decide) (.inl rfl) (by decide +kernel) (by decide +kernel) (by decide +kernel) (by decide +kernel)⟩
    · refine ⟨⟨[[21], [22, 23]], [[1], [3]]⟩, ?_⟩
      rw [Net.Offers, if_pos rfl]
      exact ⟨("gy", 9), by decide +kernel,
        c69_file (file := [0x47, 4, 20, 21, 22, 23]) (h := (toyParse toyMessage).get (by decide))
        (show "file" ≠ "fdb" by decide) (.inr rfl) (by decide +kernel) (by decide +kernel) (by decide +kernel) (by decide +kernel)⟩
    · refine ⟨⟨[[7, 8]], [[3]]⟩, ?_⟩
      rw [Net.Offers, if_pos rfl]
      exact ⟨("gx", 9), by decide +kernel,
        c69_file (file := toyMessage ++ [0x47, 2, 7, 8]) (h := (toyParse [0x47, 2, 7, 8]).get (by decide))
        (show "file" ≠ "fdb" by decide) (.inl rfl) (by decide +kernel) (by decide +kernel) (by decide +kernel) (by decide +kernel)⟩

theorem c77_frontPaths : c76Net.CanServePaths c76Names (fun _ => c50Store) c76Start 0 true
    [⟨"/fdb/b.data", "fdb", 0, "y", 2, [⟨0, 2⟩], "g"⟩] where
  nonempty := by simp
  remote _ q hq := by
    rw [List.mem_singleton] at hq
    subst hq
    refine ⟨.inl (by decide), fun i hi => ?_⟩
    rw [List.mem_singleton] at hi
    subst hi
    decide
  here h := by cases h
  place a ha b hb _ := by rw [List.mem_singleton] at ha hb; rw [ha, hb]; exact ⟨rfl, rfl, rfl⟩
  different := by simp
  found q hq := by
    rw [List.mem_singleton] at hq
    subst hq
    refine ⟨⟨[[20, 21]], [[3]]⟩, ?_⟩
    rw [Net.Offers, if_pos rfl]
    exact ⟨("gy", 9), by decide +kernel,
      c69_file (file := [0x47, 4, 20, 21, 22, 23]) (h := (toyParse toyMessage).get (by decide))
      (show "file" ≠ "fdb" by decide) (.inr rfl) (by decide +kernel) (by decide +kernel) (by decide +kernel) (by decide +kernel)⟩

theorem c77_ownPaths : c76Net.CanServePaths c76Names (fun _ => c50Store) c76Start 1 false
    [⟨"/fdb/a.data", "file", 6, "", 0, [⟨0, 1⟩], "g"⟩] where
  nonempty := by simp
  remote h := by cases h
  here _ q hq := by rw [List.mem_singleton] at hq; subst hq; exact ⟨rfl, rfl⟩
  place a ha b hb _ := by rw [List.mem_singleton] at ha hb; rw [ha, hb]; exact ⟨rfl, rfl, rfl⟩
  different := by simp
  found q hq := by
    rw [List.mem_singleton] at hq
    subst hq
    refine ⟨⟨[[7]], [[1]]⟩, ?_⟩
    rw [Net.Offers, if_neg (by decide)]
    exact c69_file (file := toyMessage ++ [0x47, 2, 7, 8]) (h := (toyParse [0x47, 2, 7, 8]).get (by decide))
      (by decide) (.inl rfl) (by decide +kernel) (by decide +kernel) (by decide +kernel) (by decide +kernel)

theorem c77_own : c76Net.CanServe c76Names (fun _ => c50Store) c76Start 1 2 c50Cat (c50Reqs.drop 1) (c27Written.drop 1) where
  catalogue := catalogue_of (by decide +kernel) (by decide +kernel) (by decide +kernel)
  lists := by
    intro u L h
    have := Except.ok.inj h
    subst this
    exact ⟨fun e he => he, by decide +kernel⟩
  complete := fun u => ⟨c50Cat, rfl, fun e he _ => he⟩
  places := by decide +kernel
  written := ⟨by decide +kernel, fun w hw => c27_written.2 w (List.mem_of_mem_drop hw)⟩
  nonempty := by decide
  fit h := by cases h
  different := c27_different.sublist (List.drop_sublist 1 _)
  sameKeywords x hx y hy := c27_sameKeywords x (List.mem_of_mem_drop hx) y (List.mem_of_mem_drop hy)
  found := by
    intro i hi hj
    match i, hi, hj with
    | 0, hi, hj =>
      refine ⟨(c27Key "12", ⟨"file", "", 0, "/fdb/a.data", 0⟩), List.mem_cons_of_mem _ (List.mem_cons_self ..),
        (show SameField true (c27Pairs "12") (c27Key "12") by rw [SameField]; decide +kernel), ⟨[[11], [12, 13]], [[1], [3]]⟩, ?_⟩
      rw [Net.Offers, if_neg (by decide)]
      show ((c76Start 1).node (c76Net.site 1) (c76Names 1) c50Store 0).Gives _ [⟨1, 2⟩, ⟨2, 4⟩] "g" _
      exact c69_file (file := toyMessage ++ [0x47, 2, 7, 8]) (h := (toyParse toyMessage).get (by decide))
        (by decide) (.inl rfl) (by decide +kernel) (by decide +kernel) (by decide +kernel) (by decide +kernel)
    | 1, hi, hj =>
      refine ⟨(c27Key "0", ⟨"file", "", 0, "/fdb/a.data", 6⟩), List.mem_cons_self ..,
        (show SameField true (c27Pairs "0") (c27Key "0") by rw [SameField]; decide +kernel), ⟨[[7, 8]], [[3]]⟩, ?_⟩
      rw [Net.Offers, if_neg (by decide)]
      show ((c76Start 1).node (c76Net.site 1) (c76Names 1) c50Store 0).Gives _ [⟨0, 2⟩] "g" _
      exact c69_file (file := toyMessage ++ [0x47, 2, 7, 8]) (h := (toyParse [0x47, 2, 7, 8]).get (by decide))
        (by decide) (.inl rfl) (by decide +kernel) (by decide +kernel) (by decide +kernel) (by decide +kernel)
    | i + 2, hi, hj => exact absurd hi (by have : (c50Reqs.drop 1).length = 2 := rfl; omega)

theorem c77_can (a g : Nat) (client : c76Net.origin a g = none) (tasks : (c76Net.jobs a g).2 ≠ []) :
    c76Net.Can c76Names (fun _ => c50Store) c76Start a g (c76Asked a g) := by
  rcases c77_clients a g client tasks with h | h | h | h <;> cases h
  · exact .fields _ _ _ c77_front
  · exact .paths _ _ c77_frontPaths
  · exact .paths _ _ c77_ownPaths
  · exact .fields _ _ _ c77_own

theorem c77_accepted (a g : Nat) (client : c76Net.origin a g = none) (tasks : (c76Net.jobs a g).2 ≠ []) :
    c76Net.Accepted a g := by
  have two : (c76Net.jobs 0 0).2.length = 2 := by decide +kernel
  have one : (c76Net.jobs 0 1).2.length = 1 := by decide +kernel
  have none_ : ∀ a g, ((c76Net.jobs a g).2.all fun T => match T.kind with | .forward _ _ => false | _ => true) = true →
      c76Net.Accepted a g := by
    intro a g h j server files hj
    have := List.all_eq_true.mp h _ (List.mem_of_getElem? hj)
    cases this
  rcases c77_clients a g client tasks with h | h | h | h <;> cases h
  · intro j server files hj
    have := (List.getElem?_eq_some_iff.mp hj).1
    rw [two] at this
    match j, this with
    | 0, _ => intro h; cases h
    | 1, _ => intro h; cases h
  · intro j server files hj
    have := (List.getElem?_eq_some_iff.mp hj).1
    rw [one] at this
    match j, this with
    | 0, _ => intro h; cases h
  · exact none_ 1 0 (by decide +kernel)
  · exact none_ 1 2 (by decide +kernel)

def c77States : Nat → NetSys := netStates c76Net c76Start c76Ev

theorem c77_unbegun (a g : Nat) : c76Start.Unbegun a g := fun j h => by cases h

theorem c77_execution : NetExecution c76Net c76Names c76Ev c77States := by
  refine ⟨c76_began, fun k => (netStates_run ?_ k).2, c76_allowed⟩
  intro k s' hr
  have al : ∀ m, ∀ e ∈ (List.range m).map c76Ev, NetEv.Allowed c76Names e := by
    intro m e he
    obtain ⟨i, -, rfl⟩ := List.mem_map.mp he
    exact c76_allowed i
  have hs : (List.range k).map c76Ev ++ [c76Ev k] = (List.range (k + 1)).map c76Ev := by
    rw [List.range_succ, List.map_append]; rfl
  refine C77_goes_on_partial _ c76Names c76Asked c76Written c76_sound (fun _ => c50Store) c77_exact c76Start
    ⟨_, [], c77_began, (fun _ h => by cases h), rfl⟩ ((List.range k).map c76Ev) (c76Ev k) (by rw [hs]; exact al _) s' hr
    fun a g client tasks => ⟨c77_unbegun a g, ?_, c77_accepted a g client tasks, c77_can a g client tasks⟩
  intro es1 e es2 s w j he _ _
  have hm : e ∈ (List.range (k + 1)).map c76Ev := by
    rw [← hs, he]; exact List.mem_append_right _ List.mem_cons_self
  obtain ⟨i, -, rfl⟩ := List.mem_map.mp hm
  exact c77_unbroken i a w

theorem c77_goes : NetGoes c76Net c76Ev c77States where
  workers a w hw k := by
    match a, w, hw with
    | 0, 0, _ => exact ⟨c77_turn 6 (by decide) k, c77_turn 7 (by decide) k, c77_turn 39 (by decide) k⟩
    | 0, 1, _ => exact ⟨c77_turn 8 (by decide) k, c77_turn 9 (by decide) k, c77_turn 40 (by decide) k⟩
    | 1, 0, _ => exact ⟨c77_turn 19 (by decide) k, c77_turn 20 (by decide) k, c77_turn 21 (by decide) k⟩
    | 2, 0, _ => exact ⟨c77_turn 32 (by decide) k, c77_turn 33 (by decide) k, c77_turn 34 (by decide) k⟩
    | 0, w + 2, hw => exact absurd (show w + 2 < 2 from hw) (by omega)
    | 1, w + 1, hw => exact absurd (show w + 1 < 1 from hw) (by omega)
    | 2, w + 1, hw => exact absurd (show w + 1 < 1 from hw) (by omega)
    | a + 3, w, hw =>
      exfalso
      have hw : w < (if a + 3 = 0 then 2 else if a + 3 < 3 then 1 else 0) := hw
      rw [if_neg (by omega), if_neg (by omega)] at hw
      cases hw
  threads b g hne k := by
    match b, g, hne with
    | 0, 0, _ => exact ⟨c77_turn 0 (by decide) k, c77_turn 1 (by decide) k, c77_turn 4 (by decide) k, c77_turn 41 (by decide) k⟩
    | 0, 1, _ => exact ⟨c77_turn 2 (by decide) k, c77_turn 3 (by decide) k, c77_turn 5 (by decide) k, c77_turn 42 (by decide) k⟩
    | 1, 0, _ => exact ⟨c77_turn 10 (by decide) k, c77_turn 11 (by decide) k, c77_turn 12 (by decide) k, c77_turn 23 (by decide) k⟩
    | 1, 1, _ => exact ⟨c77_turn 13 (by decide) k, c77_turn 14 (by decide) k, c77_turn 15 (by decide) k, c77_turn 24 (by decide) k⟩
    | 1, 2, _ => exact ⟨c77_turn 16 (by decide) k, c77_turn 17 (by decide) k, c77_turn 18 (by decide) k, c77_turn 25 (by decide) k⟩
    | 2, 0, _ => exact ⟨c77_turn 26 (by decide) k, c77_turn 27 (by decide) k, c77_turn 28 (by decide) k, c77_turn 37 (by decide) k⟩
    | 2, 1, _ => exact ⟨c77_turn 29 (by decide) k, c77_turn 30 (by decide) k, c77_turn 31 (by decide) k, c77_turn 38 (by decide) k⟩
    | 0, g + 2, hne => exact absurd rfl hne
    | 1, g + 3, hne => exact absurd rfl hne
    | 2, g + 2, hne => exact absurd rfl hne
    | a + 3, g, hne => exact absurd rfl hne
  some b g hne := by
    match b, hne with
    | 0, _ => exact Nat.succ_pos 1
    | 1, _ => exact Nat.succ_pos 0
    | 2, _ => exact Nat.succ_pos 0
    | b + 3, hne => exact absurd rfl hne
  room := by
    refine ⟨fun _ => 0, fun b j hb => .inr fun g t c i ht => ?_⟩
    exfalso
    match b, hb, ht with
    | 0, hb, _ => exact hb rfl
    | b + 1, _, ht => cases ht

/-- Non-vacuity: the schedule of C76, repeated for ever, is such a history of the network.  All calls of clients can be met
when they begin, so by the theorems they return; two of them forward, two do not. -/
example : c76Net.Sound c76Names c76Asked c76Written ∧ (∀ a, (c76Net.site a).Exact c50Store) ∧
    NetExecution c76Net c76Names c76Ev c77States ∧ c76Net.LazyBegan c76Names (c77States 0) ∧ NetGoes c76Net c76Ev c77States ∧
    (∀ b j a g t, c76Net.origin b j = some (a, g, t) →
      ∃ m, (c77States m).Unbegun a g ∧ c76Net.Can c76Names (fun _ => c50Store) (c77States m) a g (c76Asked a g)) ∧
    (∀ a g, (a, g) = (0, 0) ∨ (a, g) = (0, 1) ∨ (a, g) = (1, 0) ∨ (a, g) = (1, 2) →
      c76Net.origin a g = none ∧ (c76Net.jobs a g).2 ≠ [] ∧ (c77States 0).Unbegun a g ∧ c76Net.Accepted a g ∧
      (∀ k w j, 0 ≤ k → (c77States k a).x.connected w = some (g, j) → c76Ev k ≠ .lost a w)) ∧
    c76Net.CanServe c76Names (fun _ => c50Store) (c77States 0) 0 0 c52Cat c50Reqs c27Written ∧
    c76Net.CanServePaths c76Names (fun _ => c50Store) (c77States 0) 0 true [⟨"/fdb/b.data", "fdb", 0, "y", 2, [⟨0, 2⟩], "g"⟩] ∧
    (∃ k, ((c77States k 0).x.t.grp 0).phase = .returned) ∧ (∃ k, ((c77States k 0).x.t.grp 1).phase = .returned) := by
  have tasks : ∀ a g, (a, g) = (0, 0) ∨ (a, g) = (0, 1) ∨ (a, g) = (1, 0) ∨ (a, g) = (1, 2) →
      c76Net.origin a g = none ∧ (c76Net.jobs a g).2 ≠ [] := by
    intro a g h
    have h0 : (c76Net.jobs 0 0).2.length = 2 := by decide +kernel
    have h1 : (c76Net.jobs 0 1).2.length = 1 := by decide +kernel
    have h2 : (c76Net.jobs 1 0).2.length = 1 := by decide +kernel
    have h3 : (c76Net.jobs 1 2).2.length = 1 := by decide +kernel
    rcases h with h | h | h | h <;> cases h <;> refine ⟨rfl, fun e => ?_⟩
    · rw [e] at h0; cases h0
    · rw [e] at h1; cases h1
    · rw [e] at h2; cases h2
    · rw [e] at h3; cases h3
  have others : ∀ b j a g t, c76Net.origin b j = some (a, g, t) →
      ∃ m, (c77States m).Unbegun a g ∧ c76Net.Can c76Names (fun _ => c50Store) (c77States m) a g (c76Asked a g) := by
    intro b j a g t h
    have hc := c76_sound.sender h
    obtain ⟨_, _, _, hJ, -⟩ := c76_sound.sent _ _ _ _ _ ((c76_sound.back _ _ _ _ _).mpr h)
    exact ⟨0, c77_unbegun a g, c77_can a g hc (by intro e; rw [e] at hJ; cases hJ)⟩
  refine ⟨c76_sound, c77_exact, c77_execution, c77_began, c77_goes, others, fun a g h => ⟨(tasks a g h).1, (tasks a g h).2,
    c77_unbegun a g, c77_accepted a g (tasks a g h).1 (tasks a g h).2, fun k w j _ _ => c77_unbroken k a w⟩, c77_front,
    c77_frontPaths, ?_, ?_⟩
  · obtain ⟨h1, h2⟩ := tasks 0 0 (.inl rfl)
    obtain ⟨k, hk, -⟩ := C77_present_fields_return_partial c76Net c76Names c76Asked c76Written c76_sound (fun _ => c50Store) c77_exact
      c76Ev c77States c77_execution c77_began c77_goes others 0 0 0 h1 h2 (c77_unbegun 0 0)
      (fun k w j _ _ => c77_unbroken k 0 w) (c77_accepted 0 0 h1 h2) c52Cat c50Reqs c27Written rfl c77_front
    exact ⟨k, hk⟩
  · obtain ⟨h1, h2⟩ := tasks 0 1 (.inr (.inl rfl))
    obtain ⟨k, hk, -⟩ := C77_present_paths_return_partial c76Net c76Names c76Asked c76Written c76_sound (fun _ => c50Store) c77_exact
      c76Ev c77States c77_execution c77_began c77_goes others 0 1 0 h1 h2 (c77_unbegun 0 1)
      (fun k w j _ _ => c77_unbroken k 0 w) (c77_accepted 0 1 h1 h2) true _ rfl c77_frontPaths
    exact ⟨k, hk⟩

end GJ
