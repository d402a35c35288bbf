import Verif.Lemmas.Net
import Verif.Props.C74

/-!
# Processes that forward to each other: what is there is delivered

Lemmas on requests that have not begun at some moment, and on what happens to them from then on.
-/

namespace GJ
open Spec

/-! ## What a process hears from a moment on -/

/-- From `st` on, process `a` sent `fm` to this server for its request `g`; the outcome is `res`. -/
def Net.Heard (N : Net) (st : NetSys) (es : List NetEv) (a g : Nat) (server : String × Int) (fm : FileMap)
    (res : Res FileMap) : Prop :=
  ∃ es1 e es2 s1 w j files, es = es1 ++ e :: es2 ∧ N.run st es1 = .ok s1 ∧ (s1 a).x.connected w = some (g, j) ∧
    ((s1 a).x.job g).tasks[j]? = some ⟨.forward server files, .fresh⟩ ∧ fm = sentFiles ((s1 a).x.job g).items files ∧
    ((∃ r, N.reply s1 a g j = some r ∧ res = r fm) ∨ (e = .lost a w ∧ res = throwExn .ioError))

theorem Net.Heard.later {N : Net} {st : NetSys} {es : List NetEv} {a g : Nat} {server : String × Int} {fm : FileMap}
    {res : Res FileMap} (h : N.Heard st es a g server fm res) (more : List NetEv) :
    N.Heard st (es ++ more) a g server fm res := by
  obtain ⟨es1, e, es2, s1, w, j, files, e1, rest⟩ := h
  exact ⟨es1, e, es2 ++ more, s1, w, j, files, by rw [e1, List.append_assoc, List.cons_append], rest⟩

/-- Seen from one process, a history from a moment on: the answers it got, and `dflt` where it got none. -/
def Net.Follows (N : Net) (U : Nat → String → Prop) (st s1 : NetSys) (a : Nat)
    (dflt : Nat → Nat → String × Int → FileMap → Res FileMap) (heard : List NetEv) (s2 : NetSys)
    (fwd : Nat → Nat → String × Int → FileMap → Res FileMap) : Prop :=
  ∃ es1' es2', (∀ e ∈ es1', SrvEv.Allowed (U a) e) ∧ (∀ e ∈ es2', SrvEv.Allowed (U a) e) ∧
    (st a).run ((N.site a).told fwd) es1' = .ok (s1 a) ∧ (s1 a).run ((N.site a).told fwd) es2' = .ok (s2 a) ∧
    ∀ g t server fm, ((s1 a).x.job g).time ≤ t →
      fwd g t server fm = dflt g t server fm ∨ N.Heard s1 heard a g server fm (fwd g t server fm)

/-- The answer to the next step can be foreseen. -/
theorem net_next {N : Net} {U : Nat → String → Prop} {st s1 s2 : NetSys} {a : Nat}
    {dflt fwd : Nat → Nat → String × Int → FileMap → Res FileMap} {es2 : List NetEv} (h2 : N.run s1 es2 = .ok s2)
    (h : N.Follows U st s1 a dflt es2 s2 fwd) (e : NetEv) :
    ∃ fwd', N.Follows U st s1 a dflt (es2 ++ [e]) s2 fwd' ∧
      ∀ p e', N.act s2 e = (a, some (p, e')) → (s2 a).step p e' = (s2 a).step ((N.site a).told fwd') e' := by
  obtain ⟨es1', es', ha1, ha2, hb, hr, h3⟩ := h
  have old : ∀ g t server fm, ((s1 a).x.job g).time ≤ t →
      fwd g t server fm = dflt g t server fm ∨ N.Heard s1 (es2 ++ [e]) a g server fm (fwd g t server fm) :=
    fun g t server fm ht => (h3 g t server fm ht).imp id fun h => h.later _
  by_cases hsome : ∃ p e', N.act s2 e = (a, some (p, e'))
  case neg => exact ⟨fwd, ⟨es1', es', ha1, ha2, hb, hr, old⟩, fun p e' hact => absurd ⟨p, e', hact⟩ hsome⟩
  obtain ⟨p, e', hact⟩ := hsome
  have same : ∀ {fwd' : Nat → Nat → String × Int → FileMap → Res FileMap},
      (s2 a).step p e' = (s2 a).step ((N.site a).told fwd') e' →
      ∀ p e', N.act s2 e = (a, some (p, e')) → (s2 a).step p e' = (s2 a).step ((N.site a).told fwd') e' := by
    intro fwd' hs p1 e1 h1
    rw [hact] at h1
    cases h1
    exact hs
  rcases net_act_inv hact with ⟨hp, he, hfree⟩ | ⟨w, g, j, r, he', hconn, hp, hcase⟩
  · subst hp
    refine ⟨fwd, ⟨es1', es', ha1, ha2, hb, hr, old⟩, same ?_⟩
    rw [← told_self (N.site a)]
    refine (srv_step_congr ?_).symm
    intro w g j server files hw h4 h5
    exact absurd h5 (connected_none (hfree w hw) h4)
  · subst he'
    subst hp
    obtain ⟨h4, server, files, h5⟩ := connected_inv hconn
    have htime := srv_run_time hr
    open Classical in
    refine ⟨fun g' t' server' fm' => if g' = g ∧ t' = ((s2 a).x.job g).time ∧ server' = server ∧
        fm' = sentFiles ((s2 a).x.job g).items files then r fm' else fwd g' t' server' fm',
      ⟨es1', es', ha1, ha2, srv_run_congr hb ?_, srv_run_congr hr ?_, ?_⟩, same ?_⟩
    · intro g' t ht
      funext server' fm'
      rw [if_neg]
      rintro ⟨rfl, rfl, -⟩
      have := htime g'
      omega
    · intro g' t ht
      funext server' fm'
      rw [if_neg]
      rintro ⟨rfl, rfl, -⟩
      omega
    · intro g' t' server' fm' ht
      simp only []
      split
      · rename_i hcond
        obtain ⟨rfl, rfl, rfl, rfl⟩ := hcond
        refine Or.inr ⟨es2, e, [], s2, w, j, files, rfl, h2, hconn, h5, rfl, ?_⟩
        rcases hcase with ⟨-, hr⟩ | ⟨he, rfl⟩
        · exact Or.inl ⟨r, hr, rfl⟩
        · exact Or.inr ⟨he, rfl⟩
      · exact old g' t' server' fm' ht
    · refine (srv_step_congr ?_).symm
      intro w' g' j' server' files' he h6 h7
      cases he
      rw [h4] at h6
      cases h6
      rw [h5] at h7
      cases h7
      exact if_pos ⟨rfl, rfl, rfl, rfl⟩

/-- Seen from one process, a history with a moment in between; `dflt` is heard where nothing is. -/
theorem net_hears {N : Net} {U : Nat → String → Prop} {st s1 : NetSys} {es1 : List NetEv} (h1 : N.run st es1 = .ok s1)
    (allowed1 : ∀ e ∈ es1, NetEv.Allowed U e) (a : Nat) (dflt : Nat → Nat → String × Int → FileMap → Res FileMap)
    (es2 : List NetEv) (s2 : NetSys) (h2 : N.run s1 es2 = .ok s2) (allowed2 : ∀ e ∈ es2, NetEv.Allowed U e) :
    ∃ fwd, N.Follows U st s1 a dflt es2 s2 fwd := by
  obtain ⟨fwd1, es1', ha1, hr1, -⟩ := net_projects es1 s1 h1 allowed1 a
  refine net_induct (st := s1) (fun es2 s2 => (∀ e ∈ es2, NetEv.Allowed U e) →
    ∃ fwd, N.Follows U st s1 a dflt es2 s2 fwd) ?_ ?_ es2 s2 h2 allowed2
  · intro _
    refine ⟨fun g t => if t < ((s1 a).x.job g).time then fwd1 g t else dflt g t, es1', [], ha1, (fun _ h => by cases h),
      srv_run_congr hr1 ?_, rfl, ?_⟩
    · intro g t ht
      exact if_pos ht
    · intro g t server fm ht
      left
      have hn : ¬ t < ((s1 a).x.job g).time := by omega
      show (if t < ((s1 a).x.job g).time then fwd1 g t else dflt g t) server fm = _
      rw [if_neg hn]
  · intro es s e s' hrun hq hs hal
    obtain ⟨fwd0, hq⟩ := hq fun e he => hal e (List.mem_append_left _ he)
    have hae := hal e (List.mem_append_right _ (List.mem_singleton.mpr rfl))
    obtain ⟨fwd, ⟨es1', es', h0, h1, hb, hr, h3⟩, hnext⟩ := net_next hrun hq e
    rcases net_step_inv hs with hs | ⟨c, p, e', y, hact, hy, hs⟩
    · exact ⟨fwd, es1', es', h0, h1, hb, by rw [hs]; exact hr, h3⟩
    by_cases hc : a = c
    case neg => exact ⟨fwd, es1', es', h0, h1, hb, by rw [hs]; simp only [if_neg hc]; exact hr, h3⟩
    subst hc
    have hsa : s' a = y := by rw [hs]; exact if_pos rfl
    rw [hnext p e' hact] at hy
    refine ⟨fwd, es1', es' ++ [e'], h0, ?_, hb, srv_run_snoc hr (by rw [hsa]; exact hy), h3⟩
    intro x hx
    rcases List.mem_append.mp hx with hx | hx
    · exact h1 x hx
    · rw [List.mem_singleton] at hx
      subst hx
      rcases net_act_inv hact with ⟨-, he, -⟩ | ⟨w, g, j, r, he', -⟩
      · subst he; exact hae
      · subst he'; trivial

end GJ
