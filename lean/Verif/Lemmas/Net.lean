import Verif.Model.Net
import Verif.Lemmas.Whole
import Verif.Props.C52

/-!
# Processes that forward to each other: lemmas

Seen from one process, a history of the network is a history of that process alone, in which forwarded requests get the
answers that the other processes gave.
-/

namespace GJ
open Spec

/-! ## One process, and what it hears -/

theorem xstep_moves {E : Nat → ExtEnv} {C : EngineConf} {s s' : XSys} {w g j : Nat} {T : FTask}
    (h : s.step E C (.work w) = .ok s') (hw : s.t.workers[w]? = some (.running g j)) (hT : (s.job g).tasks[j]? = some T)
    (hd : T.pc ≠ .finished) : (s'.job g).time = (s.job g).time + 1 := by
  rcases xstep_job h with hj | ⟨w', g', j', T1, T', he', hw', -, -, -, ht, -⟩
  · exfalso
    obtain ⟨a, ha, -⟩ := step_inv h
    rw [XSys.act, hw] at ha
    simp only [] at ha
    rw [hT] at ha
    simp only [] at ha
    rw [if_neg hd] at ha
    have hji : s'.job g = s.job g := by rw [hj]
    cases hb : T.step (E g) C (s.job g).time (s.job g).items with
    | ok y =>
      obtain ⟨m, T'⟩ := y
      rw [hb] at ha
      have hjj := (Prod.mk.inj (Except.ok.inj ha)).2
      rw [← hjj, setJob_self] at hji
      have := congrArg FSys.time hji
      simp at this
    | error f =>
      rw [hb] at ha
      cases f with
      | ub => cases ha
      | exn x =>
        have hjj := (Prod.mk.inj (Except.ok.inj ha)).2
        rw [← hjj, setJob_self] at hji
        have := congrArg FSys.time hji
        simp at this
  · cases he'
    rw [hw] at hw'
    cases hw'
    exact ht

/-- A step depends on the answer to what it sends only. -/
theorem ftask_hears {E E' : ExtEnv} {C : EngineConf} {t : Nat} {m : ItemMap} {T : FTask}
    (hi : E'.infos = E.infos) (hj : E'.jump = E.jump) (hf : E'.fetch = E.fetch)
    (hw : ∀ server files, T = ⟨.forward server files, .fresh⟩ →
      E'.forward t server (sentFiles m files) = E.forward t server (sentFiles m files)) :
    T.step E' C t m = T.step E C t m := by
  by_cases hT : ∃ server files, T = ⟨.forward server files, .fresh⟩
  · obtain ⟨server, files, rfl⟩ := hT
    rw [FTask.step, FTask.step]
    simp only []
    have := hw server files rfl
    rw [sentFiles] at this
    rw [this]
  · obtain ⟨kind, pc⟩ := T
    cases kind with
    | file f ks =>
      cases pc with
      | fresh => rw [FTask.step, FTask.step]; simp only []; rw [hi]
      | work todo =>
        cases todo with
        | nil => rfl
        | cons y todo =>
          obtain ⟨k, o, i⟩ := y
          rw [FTask.step, FTask.step, hj]
      | fetching todo => cases todo <;> rfl
      | finished => rfl
      | failed => rfl
    | inefficient f ks =>
      cases pc with
      | fetching todo =>
        cases todo with
        | nil => rfl
        | cons k todo => rw [FTask.step, FTask.step, hf]
      | work todo => cases todo <;> rfl
      | _ => rfl
    | forward s fm =>
      cases pc with
      | fresh => exact absurd ⟨s, fm, rfl⟩ hT
      | work todo => cases todo <;> rfl
      | fetching todo => cases todo <;> rfl
      | _ => rfl

theorem told_self (p : Site) : p.told (fun g => (p.calls g).forward) = p := rfl

theorem srv_step_congr {p : Site} {f f' : Nat → Nat → String × Int → FileMap → Res FileMap} {s : Srv} {e : SrvEv}
    (ag : ∀ w g j server files, e = .queue (.work w) → s.x.t.workers[w]? = some (.running g j) →
      (s.x.job g).tasks[j]? = some ⟨.forward server files, .fresh⟩ →
      f' g (s.x.job g).time server (sentFiles (s.x.job g).items files) =
        f g (s.x.job g).time server (sentFiles (s.x.job g).items files)) :
    s.step (p.told f') e = s.step (p.told f) e := by
  have hx : ∀ (e' : XEv) (d : Disk) (r : Res (List Info)), e = .queue e' →
      s.x.step ((p.told f').env d r) p.conf e' = s.x.step ((p.told f).env d r) p.conf e' := by
    intro e' d r he
    refine xstep_congr fun w g j T hw h1 h2 => ftask_hears rfl rfl rfl fun server files hT => ?_
    subst hT
    exact ag w g j server files (by rw [he, hw]) h1 h2
  cases e with
  | other e => rfl
  | queue e =>
    cases e with
    | add g => exact congrArg (· >>= _) (hx (.add g) s.svc.disk undef rfl)
    | push g => exact congrArg (· >>= _) (hx (.push g) s.svc.disk undef rfl)
    | wait g => exact congrArg (· >>= _) (hx (.wait g) s.svc.disk undef rfl)
    | ret g => exact congrArg (· >>= _) (hx (.ret g) s.svc.disk undef rfl)
    | pop g => exact congrArg (· >>= _) (hx (.pop g) s.svc.disk undef rfl)
    | start g => exact congrArg (· >>= _) (hx (.start g) s.svc.disk undef rfl)
    | work w =>
      have hx' : ∀ (d : Disk) (r : Res (List Info)), s.x.step ((p.told f').env d r) (p.told f').conf (.work w) =
          s.x.step ((p.told f).env d r) (p.told f).conf (.work w) := fun d r => hx (.work w) d r rfl
      rw [Srv.step, Srv.step, Srv.work.eq_def, Srv.work.eq_def]
      cases hask : s.x.asking w with
      | none => simp only [hx']
      | some a =>
        obtain ⟨f0, os⟩ := a
        simp only [hx']
        rfl

/-- Steps of calls only go on. -/
theorem srv_step_time {p : Site} {s s' : Srv} {e : SrvEv} (h : s.step p e = .ok s') (g : Nat) :
    (s.x.job g).time ≤ (s'.x.job g).time := by
  cases e with
  | other e => obtain ⟨y, -, h⟩ := res_bind_inv h; cases h; exact Nat.le_refl _
  | queue e =>
    cases e with
    | add g => obtain ⟨y, h1, h⟩ := res_bind_inv h; cases h; exact xstep_time h1 _
    | push g => obtain ⟨y, h1, h⟩ := res_bind_inv h; cases h; exact xstep_time h1 _
    | wait g => obtain ⟨y, h1, h⟩ := res_bind_inv h; cases h; exact xstep_time h1 _
    | ret g => obtain ⟨y, h1, h⟩ := res_bind_inv h; cases h; exact xstep_time h1 _
    | pop g => obtain ⟨y, h1, h⟩ := res_bind_inv h; cases h; exact xstep_time h1 _
    | start g => obtain ⟨y, h1, h⟩ := res_bind_inv h; cases h; exact xstep_time h1 _
    | work w =>
      rw [Srv.step, Srv.work.eq_def] at h
      cases hask : s.x.asking w with
      | none =>
        rw [hask] at h
        simp only [] at h
        obtain ⟨y, h1, h⟩ := res_bind_inv h; cases h; exact xstep_time h1 _
      | some a =>
        obtain ⟨f0, os⟩ := a
        rw [hask] at h
        simp only [] at h
        split at h
        · obtain ⟨z, -, h⟩ := res_bind_inv h
          obtain ⟨y, h1, h⟩ := res_bind_inv h; cases h; exact xstep_time h1 _
        · obtain ⟨z, -, h⟩ := res_bind_inv h; cases h; exact Nat.le_refl _

theorem srv_run_time {p : Site} {es : List SrvEv} {s s' : Srv} (h : s.run p es = .ok s') (g : Nat) :
    (s.x.job g).time ≤ (s'.x.job g).time := by
  induction es generalizing s with
  | nil => cases h; exact Nat.le_refl _
  | cons e es ih =>
    rw [Srv.run] at h
    obtain ⟨s1, h1, h2⟩ := res_bind_inv h
    exact Nat.le_trans (srv_step_time h1 g) (ih h2)

/-- A worker with a connection open does not look for metadata. -/
theorem asking_forward {x : XSys} {w g j : Nat} {server : String × Int} {files : KeyMap}
    (hw : x.t.workers[w]? = some (.running g j)) (hT : (x.job g).tasks[j]? = some ⟨.forward server files, .fresh⟩) :
    x.asking w = none := by
  rw [XSys.asking.eq_def, hw]
  simp only []
  rw [hT]

theorem srv_step_moves {p : Site} {s s' : Srv} {w g j : Nat} {server : String × Int} {files : KeyMap}
    (h : s.step p (.queue (.work w)) = .ok s') (hw : s.x.t.workers[w]? = some (.running g j))
    (hT : (s.x.job g).tasks[j]? = some ⟨.forward server files, .fresh⟩) : (s'.x.job g).time = (s.x.job g).time + 1 := by
  rw [Srv.step, Srv.work.eq_def, asking_forward hw hT] at h
  simp only [] at h
  obtain ⟨y, h1, h⟩ := res_bind_inv h
  cases h
  exact xstep_moves h1 hw hT (fun e => by cases e)

/-- Only answers at times that have passed matter. -/
theorem srv_run_congr {p : Site} {f f' : Nat → Nat → String × Int → FileMap → Res FileMap} {es : List SrvEv} {s s' : Srv}
    (h : s.run (p.told f) es = .ok s') (ag : ∀ g t, t < (s'.x.job g).time → f' g t = f g t) :
    s.run (p.told f') es = .ok s' := by
  induction es generalizing s with
  | nil => exact h
  | cons e es ih =>
    rw [Srv.run] at h ⊢
    obtain ⟨s1, h1, h2⟩ := res_bind_inv h
    rw [srv_step_congr (f := f), h1, ok_bind]
    · exact ih h2
    · intro w g j server files he hw hT
      subst he
      have := srv_step_moves h1 hw hT
      have := srv_run_time h2 g
      rw [ag g _ (by omega)]

theorem srv_run_snoc {p : Site} {es : List SrvEv} {e : SrvEv} {s s1 s2 : Srv} (h1 : s.run p es = .ok s1)
    (h2 : s1.step p e = .ok s2) : s.run p (es ++ [e]) = .ok s2 := by
  rw [srv_append, h1, ok_bind, Srv.run, h2, ok_bind, Srv.run]

/-! ## Histories of the network -/

theorem net_append {N : Net} (es fs : List NetEv) (s : NetSys) :
    N.run s (es ++ fs) = N.run s es >>= fun s' => N.run s' fs := by
  induction es generalizing s with
  | nil => rfl
  | cons e es ih =>
    rw [List.cons_append, Net.run, Net.run]
    cases hs : N.step s e with
    | error f => rfl
    | ok s' => rw [ok_bind, ok_bind, ih]

theorem net_snoc {N : Net} {es : List NetEv} {e : NetEv} {s s1 s2 : NetSys} (h1 : N.run s es = .ok s1)
    (h2 : N.step s1 e = .ok s2) : N.run s (es ++ [e]) = .ok s2 := by
  rw [net_append, h1, ok_bind, Net.run, h2, ok_bind, Net.run]

/-- Induction along a history. -/
theorem net_induct {N : Net} {st : NetSys} (Q : List NetEv → NetSys → Prop) (hstart : Q [] st)
    (hstep : ∀ es s e s', N.run st es = .ok s → Q es s → N.step s e = .ok s' → Q (es ++ [e]) s') :
    ∀ (es : List NetEv) (s : NetSys), N.run st es = .ok s → Q es s := by
  have : ∀ (es pre : List NetEv) (s0 s : NetSys), N.run st pre = .ok s0 → Q pre s0 → N.run s0 es = .ok s → Q (pre ++ es) s := by
    intro es
    induction es with
    | nil => intro pre s0 s _ hq h; cases h; rw [List.append_nil]; exact hq
    | cons e es ih =>
      intro pre s0 s hp hq h
      rw [Net.run] at h
      obtain ⟨s1, h1, h2⟩ := res_bind_inv h
      have := ih (pre ++ [e]) s1 s (net_snoc hp h1) (hstep pre s0 e s1 hp hq h1) h2
      rw [List.append_assoc] at this
      exact this
  intro es s h
  exact this es [] st s rfl hstart h

/-- What threads other than those of the calls may do: nothing with files that are not among these names. -/
def NetEv.Allowed (U : Nat → String → Prop) : NetEv → Prop
  | .on a e => e.Allowed (U a)
  | .lost _ _ => True

/-- In this history, process `a` sent `fm` to this server for its request `g`, and got `back`. -/
def Net.Spoken (N : Net) (st : NetSys) (es : List NetEv) (a g : Nat) (server : String × Int) (fm back : FileMap) : Prop :=
  ∃ es1 es2 s1 j files b h, es = es1 ++ es2 ∧ N.run st es1 = .ok s1 ∧ N.target a g j = some (b, h) ∧
    ((s1 a).x.job g).tasks[j]? = some ⟨.forward server files, .fresh⟩ ∧ fm = sentFiles ((s1 a).x.job g).items files ∧
    ((s1 b).x.t.grp h).phase = .returned ∧ remoteForwardExtract (Net.answering s1 b h) (N.ctx a g) fm = .ok back

theorem Net.Spoken.later {N : Net} {st : NetSys} {es : List NetEv} {a g : Nat} {server : String × Int} {fm back : FileMap}
    (h : N.Spoken st es a g server fm back) (more : List NetEv) : N.Spoken st (es ++ more) a g server fm back := by
  obtain ⟨es1, es2, s1, j, files, b, k, e, rest⟩ := h
  exact ⟨es1, es2 ++ more, s1, j, files, b, k, by rw [e, List.append_assoc], rest⟩

/-- A step of the network is a step of one process that hears something. -/
theorem net_step_inv {N : Net} {s s' : NetSys} {e : NetEv} (h : N.step s e = .ok s') :
    s' = s ∨ ∃ a p e' y, N.act s e = (a, some (p, e')) ∧ (s a).step p e' = .ok y ∧
      s' = fun b => if b = a then y else s b := by
  rw [Net.step] at h
  cases hact : (N.act s e).2 with
  | none => rw [hact] at h; cases h; exact Or.inl rfl
  | some q =>
    obtain ⟨p, e'⟩ := q
    rw [hact] at h
    simp only [] at h
    obtain ⟨y, h1, h⟩ := res_bind_inv h
    refine Or.inr ⟨(N.act s e).1, p, e', y, ?_, h1, (Except.ok.inj h).symm⟩
    rw [← hact]

theorem connected_inv {x : XSys} {w g j : Nat} (h : x.connected w = some (g, j)) :
    x.t.workers[w]? = some (.running g j) ∧ ∃ server files, (x.job g).tasks[j]? = some ⟨.forward server files, .fresh⟩ := by
  rw [XSys.connected.eq_def] at h
  cases hw : x.t.workers[w]? with
  | none => rw [hw] at h; cases h
  | some q =>
    rw [hw] at h
    cases q with
    | idle => cases h
    | got g j => cases h
    | running g' j' =>
      simp only [] at h
      split at h
      · rename_i hT
        cases h
        exact ⟨rfl, _, _, hT⟩
      · cases h

theorem connected_none {x : XSys} {w g j : Nat} {server : String × Int} {files : KeyMap} (h : x.connected w = none)
    (hw : x.t.workers[w]? = some (.running g j)) : (x.job g).tasks[j]? ≠ some ⟨.forward server files, .fresh⟩ := by
  intro hT
  rw [XSys.connected.eq_def, hw] at h
  simp only [] at h
  rw [hT] at h
  cases h

/-- What a process that steps hears. -/
theorem net_act_inv {N : Net} {s : NetSys} {e : NetEv} {a : Nat} {p : Site} {e' : SrvEv} (h : N.act s e = (a, some (p, e'))) :
    (p = N.site a ∧ e = .on a e' ∧ ∀ w, e' = .queue (.work w) → (s a).x.connected w = none) ∨
    ∃ w g j r, e' = .queue (.work w) ∧ (s a).x.connected w = some (g, j) ∧ p = (N.site a).hearing r ∧
      ((e = .on a (.queue (.work w)) ∧ N.reply s a g j = some r) ∨ (e = .lost a w ∧ r = fun _ => throwExn .ioError)) := by
  have other : ∀ {e1 : SrvEv}, (∀ w, e1 ≠ .queue (.work w)) → e = .on a e1 → p = N.site a → e' = e1 →
      (p = N.site a ∧ e = .on a e' ∧ ∀ w, e' = .queue (.work w) → (s a).x.connected w = none) := by
    intro e1 hne h1 h2 h3
    subst h3
    exact ⟨h2, h1, fun w hw => absurd hw (hne w)⟩
  cases e with
  | lost b w =>
    rw [Net.act] at h
    obtain ⟨h1, h2⟩ := Prod.mk.inj h
    subst h1
    cases hc : (s b).x.connected w with
    | none => rw [hc] at h2; cases h2
    | some q =>
      obtain ⟨g, j⟩ := q
      rw [hc] at h2
      cases h2
      exact Or.inr ⟨w, g, j, _, rfl, hc, rfl, Or.inr ⟨rfl, rfl⟩⟩
  | on b e =>
    cases e with
    | other e => cases h; exact Or.inl (other (fun _ e => by cases e) rfl rfl rfl)
    | queue e =>
      cases e with
      | add g =>
        rw [Net.act] at h
        obtain ⟨h1, h2⟩ := Prod.mk.inj h
        subst h1
        split at h2
        · cases h2; exact Or.inl (other (fun _ e => by cases e) rfl rfl rfl)
        · cases h2
      | wait g =>
        rw [Net.act] at h
        obtain ⟨h1, h2⟩ := Prod.mk.inj h
        subst h1
        split at h2
        · cases h2; exact Or.inl (other (fun _ e => by cases e) rfl rfl rfl)
        · cases h2
      | push g => cases h; exact Or.inl (other (fun _ e => by cases e) rfl rfl rfl)
      | ret g => cases h; exact Or.inl (other (fun _ e => by cases e) rfl rfl rfl)
      | pop g => cases h; exact Or.inl (other (fun _ e => by cases e) rfl rfl rfl)
      | start g => cases h; exact Or.inl (other (fun _ e => by cases e) rfl rfl rfl)
      | work w =>
        rw [Net.act] at h
        obtain ⟨h1, h2⟩ := Prod.mk.inj h
        subst h1
        cases hc : (s b).x.connected w with
        | none =>
          rw [hc] at h2
          cases h2
          exact Or.inl ⟨rfl, rfl, fun w' e => by cases e; exact hc⟩
        | some q =>
          obtain ⟨g, j⟩ := q
          rw [hc] at h2
          obtain ⟨r, h3, h4⟩ := Option.map_eq_some_iff.mp h2
          cases h4
          exact Or.inr ⟨w, g, j, r, rfl, hc, rfl, Or.inl ⟨rfl, h3⟩⟩

/-- Seen from one process, a history of the network is a history of this process, in which forwarded requests get what
others answered. -/
theorem net_projects {N : Net} {U : Nat → String → Prop} {st : NetSys} (es : List NetEv) (s : NetSys)
    (h : N.run st es = .ok s) (allowed : ∀ e ∈ es, NetEv.Allowed U e) (a : Nat) :
    ∃ fwd es', (∀ e ∈ es', SrvEv.Allowed (U a) e) ∧ (st a).run ((N.site a).told fwd) es' = .ok (s a) ∧
      ∀ g t server fm back, fwd g t server fm = .ok back → N.Spoken st es a g server fm back := by
  refine net_induct (st := st) (fun es s => (∀ e ∈ es, NetEv.Allowed U e) → ∃ fwd es', (∀ e ∈ es', SrvEv.Allowed (U a) e) ∧
      (st a).run ((N.site a).told fwd) es' = .ok (s a) ∧
      ∀ g t server fm back, fwd g t server fm = .ok back → N.Spoken st es a g server fm back) ?_ ?_ es s h allowed
  · intro _
    exact ⟨fun _ _ _ _ => throwExn .ioError, [], (fun _ h => by cases h), rfl, fun g t server fm back h => by cases h⟩
  · intro es s e s' hrun hq hs hal
    obtain ⟨fwd, es', h1, h2, h3⟩ := hq fun e he => hal e (List.mem_append_left _ he)
    have hae := hal e (List.mem_append_right _ (List.mem_singleton.mpr rfl))
    have stay : s' a = s a → ∃ fwd es', (∀ e ∈ es', SrvEv.Allowed (U a) e) ∧
        (st a).run ((N.site a).told fwd) es' = .ok (s' a) ∧
        ∀ g t server fm back, fwd g t server fm = .ok back → N.Spoken st (es ++ [e]) a g server fm back := fun hsa =>
      ⟨fwd, es', h1, by rw [hsa]; exact h2, fun g t server fm back hb => (h3 g t server fm back hb).later _⟩
    rcases net_step_inv hs with hs | ⟨c, p, e', y, hact, hy, hs⟩
    · exact stay (by rw [hs])
    by_cases hc : a = c
    case neg => exact stay (by rw [hs]; exact if_neg hc)
    subst hc
    have hsa : s' a = y := by rw [hs]; exact if_pos rfl
    have snoc : ∀ (e' : SrvEv), SrvEv.Allowed (U a) e' → ∀ x ∈ es' ++ [e'], SrvEv.Allowed (U a) x := by
      intro e' he x hx
      rcases List.mem_append.mp hx with hx | hx
      · exact h1 x hx
      · rw [List.mem_singleton] at hx; subst hx; exact he
    rcases net_act_inv hact with ⟨hp, he, hfree⟩ | ⟨w, g, j, r, he', hconn, hp, hcase⟩
    · subst hp
      subst he
      refine ⟨fwd, es' ++ [e'], snoc e' hae, srv_run_snoc h2 ?_, fun g t server fm back hb => (h3 g t server fm back hb).later _⟩
      rw [hsa, ← hy]
      rw [← told_self (N.site a)]
      refine srv_step_congr ?_
      intro w g j server files hw h4 h5
      exact absurd h5 (connected_none (hfree w hw) h4)
    · subst he'
      subst hp
      obtain ⟨h4, server, files, h5⟩ := connected_inv hconn
      open Classical in
      refine ⟨fun g' t' server' fm' => if g' = g ∧ t' = ((s a).x.job g).time ∧ server' = server ∧
          fm' = sentFiles ((s a).x.job g).items files then r fm' else fwd g' t' server' fm', es' ++ [.queue (.work w)],
        snoc (.queue (.work w)) trivial, srv_run_snoc (srv_run_congr h2 ?_) ?_, ?_⟩
      · intro g' t ht
        funext server' fm'
        rw [if_neg]
        rintro ⟨rfl, rfl, -⟩
        omega
      · rw [hsa, ← hy]
        refine srv_step_congr ?_
        intro w' g' j' server' files' he h6 h7
        cases he
        rw [h4] at h6
        cases h6
        rw [h5] at h7
        cases h7
        exact if_pos ⟨rfl, rfl, rfl, rfl⟩
      · intro g' t' server' fm' back hb
        simp only [] at hb
        split at hb
        · rename_i hcond
          obtain ⟨rfl, rfl, rfl, rfl⟩ := hcond
          rcases hcase with ⟨-, hr⟩ | ⟨-, rfl⟩
          · rw [Net.reply] at hr
            cases htg : N.target a g' j with
            | none => rw [htg] at hr; cases hr; cases hb
            | some q =>
              obtain ⟨b, k⟩ := q
              rw [htg] at hr
              simp only [] at hr
              split at hr
              · rename_i hph
                cases hr
                exact ⟨es, [e], s, j, files, b, k, rfl, hrun, htg, h5, rfl, hph, hb⟩
              · cases hr
          · cases hb
        · exact (h3 g' t' server' fm' back hb).later _

/-! ## What stays the same while a request is worked on -/

theorem xrun_same {E : Nat → ExtEnv} {C : EngineConf} {es : List XEv} {s s' : XSys} (h : s.run E C es = .ok s') (g : Nat) :
    SameItems (s.job g).items (s'.job g).items ∧
      ∀ j : Nat, ((s'.job g).tasks[j]?).map FTask.kind = ((s.job g).tasks[j]?).map FTask.kind := by
  induction es generalizing s with
  | nil => cases h; exact ⟨SameItems.refl _, fun _ => rfl⟩
  | cons e es ih =>
    rw [XSys.run] at h
    obtain ⟨s1, h1, h2⟩ := res_bind_inv h
    obtain ⟨ih1, ih2⟩ := ih h2
    rcases xstep_job h1 with hj | ⟨w, k, j, T, T', -, -, hT, -, ho, -, hts, hk, hsame⟩
    · rw [hj] at ih1 ih2; exact ⟨ih1, ih2⟩
    · by_cases hg : g = k
      · subst hg
        refine ⟨hsame.trans ih1, fun i => ?_⟩
        rw [ih2 i, hts]
        by_cases hi : i = j
        · subst hi
          rw [List.getElem?_set_self (List.getElem?_eq_some_iff.mp hT).1, hT, Option.map_some, Option.map_some, hk]
        · rw [List.getElem?_set_ne (Ne.symm hi)]
      · rw [ho g hg] at ih1 ih2; exact ⟨ih1, ih2⟩

/-- An item without its result. -/
def Item.bare (i : Item) : Item := { i with result := none }

theorem insertByOffset_bare (x : Item) : ∀ l : List Item,
    (insertByOffset x l).map Item.bare = insertByOffset x.bare (l.map Item.bare) := by
  intro l
  induction l with
  | nil => rfl
  | cons y l ih =>
    rw [List.map_cons, insertByOffset, insertByOffset]
    by_cases h : x.uri.offset < y.uri.offset
    · rw [if_pos h, if_pos (show x.bare.uri.offset < y.bare.uri.offset from h)]; rfl
    · rw [if_neg h, if_neg (show ¬ x.bare.uri.offset < y.bare.uri.offset from h), List.map_cons, ih]

theorem sortByOffset_bare (l : List Item) : (sortByOffset l).map Item.bare = sortByOffset (l.map Item.bare) := by
  have : ∀ (l acc : List Item), (l.foldl (fun acc x => insertByOffset x acc) acc).map Item.bare =
      (l.map Item.bare).foldl (fun acc x => insertByOffset x acc) (acc.map Item.bare) := by
    intro l
    induction l with
    | nil => intro acc; rfl
    | cons x l ih => intro acc; rw [List.foldl_cons, ih, insertByOffset_bare]; rfl
  exact this l []

/-- Results are not sent. -/
theorem encForwardExtract_bare {fm fm' : FileMap}
    (h : (fm.map fun f => (f.1, f.2.map Item.bare)) = fm'.map fun f => (f.1, f.2.map Item.bare)) :
    (encForwardExtract fm).1 = (encForwardExtract fm').1 := by
  have key : ∀ fm : FileMap, (encForwardExtract fm).1 = (encForwardExtract (fm.map fun f => (f.1, f.2.map Item.bare))).1 := by
    intro fm
    rw [encForwardExtract, encForwardExtract]
    simp only [List.length_map, List.map_map, List.flatMap_map, Function.comp_def]
    congr 2
    funext f
    rw [← sortByOffset_bare, List.length_map, List.flatMap_map]
    rfl
  rw [key fm, key fm', h]

theorem itemsOf_bare {m m' : ItemMap} (h : SameItems m m') (ks : List String) :
    (itemsOf m' ks).map Item.bare = (itemsOf m ks).map Item.bare := by
  rw [itemsOf, itemsOf, List.map_filterMap, List.map_filterMap]
  congr 1
  funext k
  have := h.rest k
  cases h1 : m'.find k with
  | none =>
    cases h2 : m.find k with
    | none => rfl
    | some it => rw [h1, h2] at this; cases this
  | some it' =>
    cases h2 : m.find k with
    | none => rw [h1, h2] at this; cases this
    | some it =>
      rw [h1, h2] at this
      simp only [Option.map_some, Option.some.injEq, Prod.mk.injEq] at this
      simp only [Option.map_some, Item.bare, this.1, this.2]

/-- What is sent is known from the beginning. -/
theorem sentFiles_bytes {m m' : ItemMap} (h : SameItems m m') (files : KeyMap) :
    (encForwardExtract (sentFiles m' files)).1 = (encForwardExtract (sentFiles m files)).1 := by
  apply encForwardExtract_bare
  rw [sentFiles, sentFiles, List.map_map, List.map_map, List.map_map, List.map_map]
  apply List.map_congr_left
  intro f _
  simp only [Function.comp_def]
  rw [(sortKeys_same h f.2).1, itemsOf_bare h]

/-! ## What a process has -/

/-- The process got this from a file at this place: there is a message, and extraction with its metadata gave these values,
from the file as it is or as it was earlier; with grid checks on, the header of the message states the hash of the request. -/
def HoldsAt (p : Site) (d : Disk) (u : Uri) (q : ExRequest) (r : WireResult) : Prop :=
  ∃ file h i, d u.path = some file ∧ p.reader.parse (file.drop u.offset) = some h ∧ buildInfo p.reader file u.offset = .ok i ∧
    (∃ before more, file = before ++ more ∧ p.jump before u.offset i q.ranges = .ok r) ∧
    (p.conf.ignoreGrid = false → q.gridHash ≠ "" ∧ q.gridHash = h.md5GridSection)

theorem HoldsAt.before {p : Site} (sound : SoundReader p.reader) {d d' : Disk} {u : Uri} {q : ExRequest} {r : WireResult}
    (h : HoldsAt p d u q r) (hd : d.Before d') : HoldsAt p d' u q r := by
  obtain ⟨file, hh, i, h1, h2, h3, ⟨before, tail, h4, h5⟩, h6⟩ := h
  obtain ⟨more, hnow⟩ := hd _ _ h1
  refine ⟨_, hh, i, hnow, ?_, buildInfo_grown sound h3 more, ⟨before, tail ++ more, by rw [h4, List.append_assoc], h5⟩, h6⟩
  obtain ⟨msg, rest, hne, hb, good⟩ := sound _ _ h2
  have hlt : u.offset ≤ file.length := by
    apply Nat.le_of_not_lt
    intro hlt
    rw [List.drop_eq_nil_of_le (by omega)] at hb
    exact hne (List.append_eq_nil_iff.mp hb.symm).1
  rw [List.drop_append_of_le_length hlt, hb, List.append_assoc]
  exact good.framed _

/-- Results of extraction can be sent. -/
def Site.Sends (p : Site) : Prop :=
  ∀ file o i is r, (∀ x ∈ is, x.b < 2 ^ 64 ∧ x.e < 2 ^ 64) → p.jump file o i is = .ok r → WireResult.Fits r

theorem HoldsAt.fits {p : Site} (sends : p.Sends) {d : Disk} {u : Uri} {q : ExRequest} {r : WireResult} (h : HoldsAt p d u q r)
    (hq : q.Fits) : WireResult.Fits r := by
  obtain ⟨file, hh, i, -, -, -, ⟨before, more, -, hj⟩, -⟩ := h
  exact sends _ _ _ _ _ hq hj

/-- Extraction from the bytes of a file returns only what the extraction of `Direct` returns. -/
def Site.Reads (p : Site) : Prop :=
  ∀ file o i is r, p.jump file o i is = .ok r → jumperExtract p.reader file o i is = .ok r

theorem Site.Reads.sends {p : Site} (h : p.Reads) : p.Sends :=
  fun _ _ _ _ _ hi hj => jumperExtract_fits hi (h _ _ _ _ _ hj)

theorem HoldsAt.decoded {p : Site} (reads : p.Reads) {d : Disk} {u : Uri} {q : ExRequest} {r : WireResult}
    (h : HoldsAt p d u q r) : ∃ file h, d u.path = some file ∧ p.reader.parse (file.drop u.offset) = some h ∧
      messageExtract p.reader file u.offset q.ranges = .ok r ∧
      (p.conf.ignoreGrid = false → q.gridHash ≠ "" ∧ q.gridHash = h.md5GridSection) := by
  obtain ⟨file, hh, i, h1, h2, h3, ⟨before, more, h4, h5⟩, h6⟩ := h
  refine ⟨file, hh, h1, h2, ?_, h6⟩
  unfold messageExtract
  rw [h3, ok_bind, h4]
  exact jumperExtract_grown p.reader before more u.offset i q.ranges r (reads _ _ _ _ _ h5)

/-- Tasks that read files here find what the files hold. -/
theorem lived_holds {p : Site} {U : String → Prop} (sound : SoundReader p.reader) (hoffs : ∀ file, p.offs file ≠ undef)
    {start : Svc UInt64} (good : SvcGood p.reader p.offs U start) {d : Disk} {g : Nat} {E : ExtEnv}
    (h : Lived p U start d g E) :
    Produces E p.conf false (fun u q r => u.scheme ≠ "fdb" → HoldsAt p d u q r) := by
  refine ⟨?_, fun _ t u q r hs _ hn => absurd hs hn, fun hc => by cases hc⟩
  intro _ t t' u q offs infos j i r _ hi ho hj hgr hjump _
  by_cases hf : U u.path
  case neg => rw [h.outside t u.path offs hf] at hi; cases hi
  obtain ⟨⟨es, s, h1, h2, h3, h4⟩, -⟩ := h.infos t u.path offs hf
  obtain ⟨s', h5, g'⟩ := good.run sound hoffs es h1
  rw [h2] at h5
  cases h5
  rw [hi] at h4
  have hm := g'.cache.answers _ (List.mem_of_mem_drop h4) infos rfl
  rw [g'.world] at hm
  have hd := mapM_getElem (extractInfos_grow (h3.grown sound) hm) ho hj
  simp only [diskWorld] at hd
  obtain ⟨d', -, hb, he⟩ := h.jump t' u.path u.offset i q.ranges
  rw [he] at hjump
  unfold Site.jumpOn at hjump
  cases hf : d' u.path with
  | none => rw [hf] at hjump; cases hjump
  | some file =>
    rw [hf] at hjump
    obtain ⟨more, hnow⟩ := hb _ _ hf
    rw [hnow] at hd
    obtain ⟨hh, hp, hmd, -⟩ := C48_metadata_as_stated p.reader _ u.offset i hd
    refine ⟨_, hh, i, hnow, hp, hd, ⟨file, more, rfl, hjump⟩, ?_⟩
    intro hig
    obtain ⟨h1, h2⟩ := gridCheck_ok hgr hig
    exact ⟨h1, h2.trans hmd⟩

/-! ## The network -/

/-- How requests come about: a client's by the call it makes (or it failed before it had tasks), others by what was sent. -/
structure Net.Sound (N : Net) (U : Nat → String → Prop) (asked : Nat → Nat → Asked)
    (written : Nat → Nat → List ExRequest) : Prop where
  reader : ∀ a, SoundReader (N.site a).reader
  offs : ∀ a file, (N.site a).offs file ≠ undef
  back : ∀ a g t b h, N.target a g t = some (b, h) ↔ N.origin b h = some (a, g, t)
  sent : ∀ a g t b h, N.target a g t = some (b, h) → N.Sent a g t b h
  client : ∀ a g, N.origin a g = none →
    ((asked a g).call ((N.site a).calls g)).start (N.site a).conf = .ok (written a g, N.jobs a g) ∨ (N.jobs a g).2 = []
  within : ∀ a g, ∀ T ∈ (N.jobs a g).2, ∀ f ks, T.kind = .file f ks → U a f

theorem Net.Sound.fresh {N : Net} {U : Nat → String → Prop} {asked : Nat → Nat → Asked}
    {written : Nat → Nat → List ExRequest} (h : N.Sound U asked written) (a g : Nat) : ∀ T ∈ (N.jobs a g).2, T.pc = .fresh := by
  cases ho : N.origin a g with
  | none =>
    rcases h.client a g ho with e | e
    · exact Call.start_fresh e
    · rw [e]; intro _ h; cases h
  | some q =>
    obtain ⟨b, k, t⟩ := q
    obtain ⟨server, files, fm, h1, h2, h3, h4, h5⟩ := h.sent _ _ _ _ _ ((h.back _ _ _ _ _).mpr ho)
    exact localTasks_fresh h5

/-- All processes have just started over index files that agree with their data. -/
def Net.Began (N : Net) (U : Nat → String → Prop) (st : NetSys) : Prop :=
  ∃ d mode lazy cap fs, (∀ a, ToldApart (mode a) (U a)) ∧ (∀ a, 0 < cap a) ∧
    (∀ a, GoodIndex (diskWorld (N.site a).reader (N.site a).offs (d a)) (U a) (mode a) (fs a)) ∧
    st = N.start d mode lazy cap fs

/-- One process of the network, as a process that hears what the others answered. -/
theorem net_srv {N : Net} {U : Nat → String → Prop} {asked : Nat → Nat → Asked} {written : Nat → Nat → List ExRequest}
    (sound : N.Sound U asked written) {st : NetSys} (began : N.Began U st) {es : List NetEv} {s : NetSys}
    (h : N.run st es = .ok s) (allowed : ∀ e ∈ es, NetEv.Allowed U e) (a : Nat) :
    ∃ fwd, SvcGood (N.site a).reader (N.site a).offs (U a) (st a).svc ∧
      SrvInv ((N.site a).told fwd) (U a) (N.threads a) (N.jobs a) (fun _ => (st a).svc) (s a) ∧
      ∀ g t server fm back, fwd g t server fm = .ok back → N.Spoken st es a g server fm back := by
  obtain ⟨d, mode, lazy, cap, fs, h1, h2, h3, rfl⟩ := began
  obtain ⟨fwd, es', ha, hr, hsp⟩ := net_projects es s h allowed a
  refine ⟨fwd, SvcGood.start (sound.offs a) (h1 a) (h2 a) (h3 a), ?_, hsp⟩
  have h0 : SrvInv ((N.site a).told fwd) (U a) (N.threads a) (N.jobs a)
      (fun _ => Svc.start (N.site a).reader (N.site a).offs (d a) (mode a) (lazy a) (cap a) (fs a))
      (Srv.start ((N.site a).told fwd) (N.threads a) (N.jobs a) (d a) (mode a) (lazy a) (cap a) (fs a)) :=
    SrvInv.start (p := (N.site a).told fwd) (sound.reader a) (sound.offs a) (h1 a) (h2 a) (h3 a) (sound.within a)
  exact SrvInv.ran (p := (N.site a).told fwd) (sound.reader a) (sound.offs a) (sound.fresh a) h0 ha hr

/-- Data files of a process only grow. -/
theorem net_disk {N : Net} {es : List NetEv} {s s' : NetSys} (h : N.run s es = .ok s') (a : Nat) :
    (s a).svc.disk.Before (s' a).svc.disk := by
  have one : ∀ {p : Site} {x y : Srv} {e : SrvEv}, x.step p e = .ok y → x.svc.disk.Before y.svc.disk := by
    intro p x y e h
    cases e with
    | other e => obtain ⟨z, h1, h⟩ := res_bind_inv h; cases h; exact svc_step_before h1
    | queue e =>
      cases e with
      | add g => obtain ⟨z, h1, h⟩ := res_bind_inv h; cases h; exact Disk.Before.refl _
      | push g => obtain ⟨z, h1, h⟩ := res_bind_inv h; cases h; exact Disk.Before.refl _
      | wait g => obtain ⟨z, h1, h⟩ := res_bind_inv h; cases h; exact Disk.Before.refl _
      | ret g => obtain ⟨z, h1, h⟩ := res_bind_inv h; cases h; exact Disk.Before.refl _
      | pop g => obtain ⟨z, h1, h⟩ := res_bind_inv h; cases h; exact Disk.Before.refl _
      | start g => obtain ⟨z, h1, h⟩ := res_bind_inv h; cases h; exact Disk.Before.refl _
      | work w =>
        rw [Srv.step, Srv.work.eq_def] at h
        cases hask : x.x.asking w with
        | none =>
          rw [hask] at h
          simp only [] at h
          obtain ⟨z, h1, h⟩ := res_bind_inv h; cases h; exact Disk.Before.refl _
        | some a =>
          obtain ⟨f0, os⟩ := a
          rw [hask] at h
          simp only [] at h
          split at h
          · obtain ⟨z, h1, h⟩ := res_bind_inv h
            obtain ⟨z', h2, h⟩ := res_bind_inv h; cases h; exact svc_step_before h1
          · obtain ⟨z, h1, h⟩ := res_bind_inv h; cases h; exact svc_step_before h1
  induction es generalizing s with
  | nil => cases h; exact Disk.Before.refl _
  | cons e es ih =>
    rw [Net.run] at h
    obtain ⟨s1, h1, h2⟩ := res_bind_inv h
    refine Disk.Before.trans ?_ (ih h2)
    rcases net_step_inv h1 with rfl | ⟨c, p, e', y, -, hy, rfl⟩
    · exact Disk.Before.refl _
    · by_cases hc : a = c
      · subst hc; simp only []; exact one hy
      · simp only [if_neg hc]; exact Disk.Before.refl _

/-- What came back is what the process that was asked has. -/
theorem spoken_holds {N : Net} {U : Nat → String → Prop} {asked : Nat → Nat → Asked} {written : Nat → Nat → List ExRequest}
    (sound : N.Sound U asked written) (sends : ∀ a, (N.site a).Sends) {st : NetSys} (began : N.Began U st) {es : List NetEv}
    {s : NetSys} (h : N.run st es = .ok s) (allowed : ∀ e ∈ es, NetEv.Allowed U e) {a g : Nat} {server : String × Int}
    {fm back : FileMap} (hs : N.Spoken st es a g server fm back) {C : EngineConf} (ha : Addressed C server fm) :
    ∀ f items, (f, items) ∈ fm → ∃ items', back.find f = some items' ∧ items'.length = items.length ∧
      ∀ (j : Nat) i i' r, items[j]? = some i → items'[j]? = some i' → i'.result = some r →
        HoldsAt (N.site (N.host server)) (s (N.host server)).svc.disk i.uri i.wrap.request r := by
  obtain ⟨es1, es2, s1, j, files, b, k, rfl, hrun, htg, hT, hfm, hret, hback⟩ := hs
  rw [net_append, hrun, ok_bind] at h
  obtain ⟨server', files', fm0, hjob, hhost, hdis, hitems, htasks⟩ := sound.sent _ _ _ _ _ htg
  -- the task is the one that was prepared
  obtain ⟨fwdA, -, invA, -⟩ := net_srv sound began hrun (fun e he => allowed e (List.mem_append_left _ he)) a
  obtain ⟨EA, qsA, hLA, hrA⟩ := invA.run
  obtain ⟨hsame, hkinds⟩ := xrun_same hrA g
  have hkind := hkinds j
  rw [hT] at hkind
  have : (((XSys.init (N.threads a) (N.jobs a)).job g).tasks[j]?) = some ⟨.forward server' files', .fresh⟩ := hjob
  rw [this] at hkind
  simp only [Option.map_some, Option.some.injEq] at hkind
  cases hkind
  rw [← sentFiles_bytes (show SameItems (N.jobs a g).1 ((s1 a).x.job g).items from hsame), ← hfm] at hdis
  subst hhost
  -- what arrived
  by_cases hne : ∃ f ∈ fm, f.2 ≠ []
  case neg =>
    exact absurd hback (forward_nothing ha.files (by
      intro f hf
      by_cases he : f.2 = []
      · exact he
      · exact absurd ⟨f, hf, he⟩ hne))
  have hkw : (wrapFiles fm).keys = fm.keys := by simp [wrapFiles, AMap.keys, Function.comp_def]
  have hd := dispatch_forwardExtract (N.ctx a g) (wrapFiles fm) (wrapFiles fm)
    (by rw [encForwardExtract_sorted (wrapFiles_sorted ha.sorted)]) (by rw [hkw]; exact ha.files) (by
      intro f hf i hi
      obtain ⟨g, -, rfl⟩ := List.mem_map.mp hf
      obtain ⟨i', -, rfl⟩ := List.mem_map.mp hi
      exact wrap_fits i') (by
      obtain ⟨f, hf, hfn⟩ := hne
      exact ⟨_, List.mem_map.mpr ⟨f, hf, rfl⟩, by simpa using hfn⟩)
  rw [encForwardExtract_wrap ha.sorted, hdis] at hd
  have harr : fm0 = (wrapFiles fm).map fun f => (f.1, f.2.map received) := by
    have := (Prod.mk.inj (Prod.mk.inj (Except.ok.inj hd)).1).2
    cases this
    rfl
  -- the process that was asked
  obtain ⟨fwdB, goodB, invB, -⟩ := net_srv sound began hrun (fun e he => allowed e (List.mem_append_left _ he)) (N.host server)
  obtain ⟨EB, qsB, hLB, hrB⟩ := invB.run
  obtain ⟨sched, s', hrt, hit, her, -⟩ := C71_refines (N.threads (N.host server)) EB _ (N.jobs (N.host server))
    (sound.fresh (N.host server)) qsB _ hrB k hret
  have hprod : Produces (EB k) (N.site (N.host server)).conf false
      (fun u q r => u.scheme ≠ "fdb" → HoldsAt (N.site (N.host server)) (s1 (N.host server)).svc.disk u q r) :=
    lived_holds (p := (N.site (N.host server)).told fwdB) (sound.reader (N.host server)) (sound.offs (N.host server)) goodB
      (hLB k)
  have hserver : ∀ served errs, (Net.answering s1 (N.host server) k).forwardExtract fm0 = .ok (served, errs) →
      serverForward (EB k) (N.site (N.host server)).conf sched fm0 = .ok (served, errs) := by
    intro served errs hans
    rw [serverForward]
    simp only []
    rw [scheduleTasks]
    simp only [Bool.false_eq_true, if_false]
    rw [htasks, ok_bind, ← hitems]
    rw [show runTasks (EB k) (N.site (N.host server)).conf (N.jobs (N.host server) k).1 (N.jobs (N.host server) k).2 sched =
      .ok s' from hrt, ok_bind, ok_bind]
    simp only []
    rw [hit, her]
    exact hans
  have hmem : ∀ g ∈ (wrapFiles fm).map (fun f => (f.1, f.2.map received)), ∀ i ∈ g.2,
      ∃ f0 ∈ fm, ∃ i0 ∈ f0.2, g.1 = f0.1 ∧ i = received i0.wrap := by
    intro g hg i hi
    obtain ⟨g1, hg1, rfl⟩ := List.mem_map.mp hg
    obtain ⟨f0, hf0, rfl⟩ := List.mem_map.mp hg1
    obtain ⟨i1, hi1, rfl⟩ := List.mem_map.mp hi
    obtain ⟨i0, hi0, rfl⟩ := List.mem_map.mp hi1
    exact ⟨f0, hf0, i0, hi0, rfl, rfl⟩
  have hspec := forwarded_spec (P := fun u q r => (u.scheme ≠ "fdb" →
      HoldsAt (N.site (N.host server)) (s1 (N.host server)).svc.disk u q r) ∧ u.scheme = "file") ha (by
    intro served hser
    have hser := hserver served [] (by rw [harr]; exact hser)
    rw [harr] at hser
    obtain ⟨h1, h2⟩ := serverForward_spec hprod (by
        simp only [wrapFiles, AMap.keys, List.map_map, Function.comp_def]
        exact ha.files) (by
        intro g hg i hi
        obtain ⟨f0, hf0, i0, hi0, e1, rfl⟩ := hmem g hg i hi
        rw [e1]
        exact (ha.place f0 hf0 i0 hi0).1) (by
        intro g hg i hi
        obtain ⟨f0, hf0, i0, hi0, e1, rfl⟩ := hmem g hg i hi
        rfl) (by
        intro g hg
        obtain ⟨g1, hg1, rfl⟩ := List.mem_map.mp hg
        obtain ⟨f0, hf0, rfl⟩ := List.mem_map.mp hg1
        simp only [List.pairwise_map]
        exact ha.sorted f0 hf0) hser
    refine ⟨h1, ?_⟩
    intro l f' g hf' hg j i i' hi hi'
    obtain ⟨r, hr, hP⟩ := h2 l f' g hf' hg j i i' hi hi'
    obtain ⟨f0, hf0, i0, hi0, e1, e2⟩ := hmem f' (List.mem_of_getElem? hf') i (List.mem_of_getElem? hi)
    exact ⟨r, hr, hP, by rw [e2]; rfl⟩) (by
    rintro u q r hq ⟨h1, h2⟩
    exact (h1 (by rw [h2]; decide)).fits (sends _) hq) hback
  intro f items hm
  obtain ⟨items', h1, h2, h3⟩ := hspec f items hm
  refine ⟨items', h1, h2, fun j i i' r hi hi' hr => ?_⟩
  obtain ⟨h4, h5⟩ := h3 j i i' r hi hi' hr
  have hh := (h4 (by rw [h5]; decide)).before (sound.reader _) (net_disk h (N.host server))
  exact hh

end GJ
