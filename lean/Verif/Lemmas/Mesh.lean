import Verif.Model.Mesh
import Verif.Lemmas.NetDefined
import Verif.Lemmas.MixedDefined

/-!
# Processes that forward scans and extractions to each other: lemmas

For those who extract, the processes are those of `Net`: scans are steps of the cache, or none.
-/

namespace GJ
open Spec

/-! ## Histories -/

theorem mesh_append {X : Mesh} (es fs : List NetEv) (s : MeshSys) :
    X.run s (es ++ fs) = X.run s es >>= fun s' => X.run s' fs := by
  induction es generalizing s with
  | nil => rfl
  | cons e es ih =>
    rw [List.cons_append, Mesh.run, Mesh.run]
    cases hs : X.step s e with
    | error f => rfl
    | ok s' => rw [ok_bind, ok_bind, ih]

theorem mesh_snoc {X : Mesh} {es : List NetEv} {e : NetEv} {s s1 s2 : MeshSys} (h1 : X.run s es = .ok s1)
    (h2 : X.step s1 e = .ok s2) : X.run s (es ++ [e]) = .ok s2 := by
  rw [mesh_append, h1, ok_bind, Mesh.run, h2, ok_bind, Mesh.run]

/-- Induction along a history. -/
theorem mesh_induct {X : Mesh} {st : MeshSys} (Q : List NetEv → MeshSys → Prop) (hstart : Q [] st)
    (hstep : ∀ es s e s', X.run st es = .ok s → Q es s → X.step s e = .ok s' → Q (es ++ [e]) s') :
    ∀ (es : List NetEv) (s : MeshSys), X.run st es = .ok s → Q es s := by
  have : ∀ (es pre : List NetEv) (s0 s : MeshSys), X.run st pre = .ok s0 → Q pre s0 → X.run s0 es = .ok s → Q (pre ++ es) s := by
    intro es
    induction es with
    | nil => intro pre s0 s _ hq h; cases h; rw [List.append_nil]; exact hq
    | cons e es ih =>
      intro pre s0 s hp hq h
      rw [Mesh.run] at h
      obtain ⟨s1, h1, h2⟩ := res_bind_inv h
      have := ih (pre ++ [e]) s1 s (mesh_snoc hp h1) (hstep pre s0 e s1 hp hq h1) h2
      rw [List.append_assoc] at this
      exact this
  intro es s h
  exact this es [] st s rfl hstart h

/-- A step is a step of one process that hears something. -/
theorem mesh_step_inv {X : Mesh} {s s' : MeshSys} {e : NetEv} (h : X.step s e = .ok s') :
    s' = s ∨ ∃ a M e' y, X.act s e = (a, some (M, e')) ∧ (s a).step M e' = .ok y ∧
      s' = fun b => if b = a then y else s b := by
  rw [Mesh.step] at h
  cases hact : (X.act s e).2 with
  | none => rw [hact] at h; cases h; exact Or.inl rfl
  | some q =>
    obtain ⟨M, e'⟩ := q
    rw [hact] at h
    simp only [] at h
    obtain ⟨y, h1, h⟩ := res_bind_inv h
    refine Or.inr ⟨(X.act s e).1, M, e', y, ?_, h1, (Except.ok.inj h).symm⟩
    rw [← hact]

/-- What a worker that has a connection open is at. -/
theorem line_inv {X : Mesh} {s : MeshSys} {a w g j : Nat} (h : X.line s a w = some (g, j)) :
    (s a).srv.x.t.workers[w]? = some (.running g j) ∧
    ((X.scan a g = true ∧ ∃ server files, ((s a).jobs g).tasks[j]? = some (.forward server files, .fresh)) ∨
     (X.scan a g = false ∧ (s a).srv.x.connected w = some (g, j))) := by
  rw [Mesh.line.eq_def] at h
  cases hw : (s a).srv.x.t.workers[w]? with
  | none => rw [hw] at h; cases h
  | some q =>
    rw [hw] at h
    cases q with
    | idle => cases h
    | got g j => cases h
    | running g' j' =>
      simp only [] at h
      by_cases hs : X.scan a g' = true
      · rw [if_pos hs] at h
        split at h
        · rename_i hT
          cases h
          exact ⟨rfl, .inl ⟨hs, _, _, hT⟩⟩
        · cases h
      · rw [if_neg hs] at h
        have hc := (connected_inv h).1
        rw [hw] at hc
        cases hc
        exact ⟨rfl, .inr ⟨by simpa using hs, h⟩⟩

/-- What a process that steps hears. -/
theorem mesh_act_inv {X : Mesh} {s : MeshSys} {e : NetEv} {a : Nat} {M : MixSite} {e' : SrvEv}
    (h : X.act s e = (a, some (M, e'))) :
    (M = X.alone a ∧ e = .on a e' ∧ (∀ w, e' = .queue (.work w) → X.line s a w = none) ∧
      ∀ g, e' = .queue (.add g) ∨ e' = .queue (.wait g) → X.opened s a g = true) ∨
    ∃ w g j, e' = .queue (.work w) ∧ X.line s a w = some (g, j) ∧
      ((e = .on a (.queue (.work w)) ∧ X.reply s a g j = some M) ∨
       (e = .lost a w ∧ M = X.hears a (fun _ => throwExn .ioError) fun _ => throwExn .ioError)) := by
  have other : ∀ {e1 : SrvEv}, (∀ w, e1 ≠ .queue (.work w)) → (∀ g, e1 = .queue (.add g) ∨ e1 = .queue (.wait g) → X.opened s a g = true) →
      e = .on a e1 → M = X.alone a → e' = e1 →
      (M = X.alone a ∧ e = .on a e' ∧ (∀ w, e' = .queue (.work w) → X.line s a w = none) ∧
        ∀ g, e' = .queue (.add g) ∨ e' = .queue (.wait g) → X.opened s a g = true) := by
    intro e1 hne ho h1 h2 h3
    subst h3
    exact ⟨h2, h1, fun w hw => absurd hw (hne w), ho⟩
  cases e with
  | lost b w =>
    rw [Mesh.act] at h
    obtain ⟨h1, h2⟩ := Prod.mk.inj h
    subst h1
    cases hc : X.line s b w with
    | none => rw [hc] at h2; cases h2
    | some q =>
      obtain ⟨g, j⟩ := q
      rw [hc] at h2
      cases h2
      exact Or.inr ⟨w, g, j, rfl, hc, Or.inr ⟨rfl, rfl⟩⟩
  | on b e =>
    cases e with
    | other e =>
      cases h
      exact Or.inl (other (fun _ e => by cases e) (fun _ e => by rcases e with e | e <;> cases e) rfl rfl rfl)
    | queue e =>
      cases e with
      | add g =>
        rw [Mesh.act] at h
        obtain ⟨h1, h2⟩ := Prod.mk.inj h
        subst h1
        split at h2
        · rename_i ho
          cases h2
          exact Or.inl (other (fun _ e => by cases e) (fun _ e => by rcases e with e | e <;> cases e; exact ho) rfl rfl rfl)
        · cases h2
      | wait g =>
        rw [Mesh.act] at h
        obtain ⟨h1, h2⟩ := Prod.mk.inj h
        subst h1
        split at h2
        · rename_i ho
          cases h2
          exact Or.inl (other (fun _ e => by cases e) (fun _ e => by rcases e with e | e <;> cases e; exact ho) rfl rfl rfl)
        · cases h2
      | push g =>
        cases h
        exact Or.inl (other (fun _ e => by cases e) (fun _ e => by rcases e with e | e <;> cases e) rfl rfl rfl)
      | ret g =>
        cases h
        exact Or.inl (other (fun _ e => by cases e) (fun _ e => by rcases e with e | e <;> cases e) rfl rfl rfl)
      | pop g =>
        cases h
        exact Or.inl (other (fun _ e => by cases e) (fun _ e => by rcases e with e | e <;> cases e) rfl rfl rfl)
      | start g =>
        cases h
        exact Or.inl (other (fun _ e => by cases e) (fun _ e => by rcases e with e | e <;> cases e) rfl rfl rfl)
      | work w =>
        rw [Mesh.act] at h
        obtain ⟨h1, h2⟩ := Prod.mk.inj h
        subst h1
        cases hc : X.line s b w with
        | none =>
          rw [hc] at h2
          cases h2
          exact Or.inl ⟨rfl, rfl, (fun w' e => by cases e; exact hc), fun _ e => by rcases e with e | e <;> cases e⟩
        | some q =>
          obtain ⟨g, j⟩ := q
          rw [hc] at h2
          obtain ⟨M', h3, h4⟩ := Option.map_eq_some_iff.mp h2
          cases h4
          exact Or.inr ⟨w, g, j, rfl, hc, Or.inl ⟨rfl, h3⟩⟩

/-- The process that steps is the one it is, up to what it hears. -/
theorem mesh_act_site {X : Mesh} {s : MeshSys} {e : NetEv} {a : Nat} {M : MixSite} {e' : SrvEv}
    (h : X.act s e = (a, some (M, e'))) : ∃ f n, M = ⟨(X.net.site a).told f, X.scans a, n⟩ := by
  rcases mesh_act_inv h with ⟨rfl, -⟩ | ⟨w, g, j, -, -, ⟨-, h⟩ | ⟨-, rfl⟩⟩
  · exact ⟨fun g => ((X.net.site a).calls g).forward, _, rfl⟩
  · rw [Mesh.reply] at h
    split at h
    · split at h
      · cases h; exact ⟨_, _, rfl⟩
      · split at h
        · cases h; exact ⟨_, _, rfl⟩
        · cases h
    · obtain ⟨r, -, rfl⟩ := Option.map_eq_some_iff.mp h
      exact ⟨_, _, rfl⟩
  · exact ⟨_, _, rfl⟩

theorem mesh_act_allowed {X : Mesh} {s : MeshSys} {e : NetEv} {a : Nat} {M : MixSite} {e' : SrvEv}
    (h : X.act s e = (a, some (M, e'))) {U : Nat → String → Prop} (ha : NetEv.Allowed U e) : SrvEv.Allowed (U a) e' := by
  rcases mesh_act_inv h with ⟨-, rfl, -⟩ | ⟨w, g, j, rfl, -⟩
  · exact ha
  · trivial

/-! ## The processes for those who extract -/

/-- The processes without the scans. -/
def Mesh.view (X : Mesh) (s : MeshSys) : NetSys := fun a => (s a).srv.view (X.scan a)

/-- How requests and scans come about: extractions as in `Net`, scans of clients in any way, others by what was sent. -/
structure Mesh.Sound (X : Mesh) (U : Nat → String → Prop) (asked : Nat → Nat → Asked)
    (written : Nat → Nat → List ExRequest) : Prop where
  net : X.net.Sound U asked written
  apart : ∀ a g t b h, X.net.target a g t = some (b, h) → X.scans a g = none ∧ X.scans b h = none
  back : ∀ a g t b h, X.link a g t = some (b, h) ↔ X.source b h = some (a, g, t)
  sent : ∀ a g t b h, X.link a g t = some (b, h) → X.Sent a g t b h
  within : ∀ a g ks, X.scans a g = some ks → ∀ k ∈ ks, ∀ path os, k = .file path os → U a path

theorem mesh_scan_none {X : Mesh} {a g : Nat} (h : X.scans a g = none) : X.scan a g = false := by
  rw [Mesh.scan, h]; rfl

theorem connected_view {sc : Nat → Bool} {x : XSys} {w : Nat} (hs : XEv.ofScan sc x.t (.work w) = false) :
    (x.view sc).connected w = x.connected w := by
  have hv : (x.view sc).t.workers[w]? = x.t.workers[w]? := by
    show (x.t.view sc).workers[w]? = _
    rw [view_worker]
    cases hp : x.t.workers[w]? with
    | none => rfl
    | some p =>
      rw [Option.map_some, viewW_same]
      intro g hg
      simpa [XEv.ofScan, hp, hg] using hs
  rw [XSys.connected.eq_def, XSys.connected.eq_def]
  simp only [hv]
  rfl

/-- For those who extract, a worker that extracts has the same connection open. -/
theorem line_view {X : Mesh} {s : MeshSys} {a w : Nat} (hs : XEv.ofScan (X.scan a) (s a).srv.x.t (.work w) = false) :
    (X.view s a).x.connected w = X.line s a w := by
  show ((s a).srv.x.view (X.scan a)).connected w = _
  rw [connected_view hs, Mesh.line.eq_def]
  split
  · rename_i g j hw
    have hg : X.scan a g = false := by simpa [XEv.ofScan, hw, WPc.group] using hs
    rw [hg]; rfl
  · rename_i hn
    rw [XSys.connected.eq_def]
    split
    · rename_i g j hw; exact absurd hw (hn g j)
    · rfl

theorem opened_view {X : Mesh} {U : Nat → String → Prop} {asked : Nat → Nat → Asked} {written : Nat → Nat → List ExRequest}
    (sound : X.Sound U asked written) {s : MeshSys} {b h : Nat} (hs : X.scan b h = false) :
    X.net.opened (X.view s) b h = X.opened s b h := by
  rw [Net.opened, Mesh.opened, hs]
  simp only [Bool.false_eq_true, if_false]
  cases ho : X.net.origin b h with
  | none => rfl
  | some q =>
    obtain ⟨a, g, t⟩ := q
    have hg := mesh_scan_none (sound.apart _ _ _ _ _ ((sound.net.back _ _ _ _ _).mpr ho)).1
    simp only []
    congr 1
    show ((g, t) ∈ (s a).srv.x.t.started.filter fun e => !X.scan a e.1) = _
    rw [List.mem_filter]
    simp [hg]

theorem reply_view {X : Mesh} {U : Nat → String → Prop} {asked : Nat → Nat → Asked} {written : Nat → Nat → List ExRequest}
    (sound : X.Sound U asked written) {s : MeshSys} {a g t : Nat} :
    X.net.reply (X.view s) a g t = X.net.reply (fun a => (s a).srv) a g t := by
  rw [Net.reply, Net.reply]
  cases ht : X.net.target a g t with
  | none => rfl
  | some q =>
    obtain ⟨b, h⟩ := q
    have hh := mesh_scan_none (sound.apart _ _ _ _ _ ht).2
    have hg : (X.view s b).x.t.grp h = (s b).srv.x.t.grp h := view_grp hh
    have he : Net.answering (X.view s) b h = Net.answering (fun a => (s a).srv) b h := by
      unfold Net.answering
      simp only [hg]
      rfl
    simp only [hg, he]

theorem view_update (X : Mesh) (s : MeshSys) (a : Nat) (y : Mix) :
    X.view (fun b => if b = a then y else s b) = fun b => if b = a then y.srv.view (X.scan a) else X.view s b := by
  funext b
  rw [Mesh.view]
  by_cases hb : b = a
  · subst hb; simp only [if_pos]
  · simp only [if_neg hb]; rfl

theorem net_step_of {N : Net} {s : NetSys} {f : NetEv} {a : Nat} {p : Site} {e : SrvEv} {y : Srv}
    (hact : N.act s f = (a, some (p, e))) (hy : (s a).step p e = .ok y) :
    N.step s f = .ok fun b => if b = a then y else s b := by
  rw [Net.step, hact]
  simp only []
  rw [hy]; rfl

/-- A step, for those who extract: none, or one like it; a connection is lost only if it was. -/
theorem mesh_view_step {X : Mesh} {U : Nat → String → Prop} {asked : Nat → Nat → Asked} {written : Nat → Nat → List ExRequest}
    (sound : X.Sound U asked written) {s s' : MeshSys} {e : NetEv}
    (good : ∀ a, SvcGood (X.net.site a).reader (X.net.site a).offs (U a) (s a).srv.svc)
    (kinds : ∀ a, (s a).Kinds (X.alone a)) (ha : NetEv.Allowed U e) (h : X.step s e = .ok s') :
    X.view s' = X.view s ∨ ∃ f, NetEv.Allowed U f ∧ X.net.step (X.view s) f = .ok (X.view s') ∧
      ∀ b w, f = .lost b w → e = .lost b w := by
  rcases mesh_step_inv h with rfl | ⟨a, M, e', y, hact, hy, rfl⟩
  · exact .inl rfl
  obtain ⟨fw, n, hM⟩ := mesh_act_site hact
  rw [view_update]
  have hv : ViewStepOf M (U a) e' (s a) y := by
    rw [hM] at hy ⊢
    exact view_step_of (U := U a) (sound.net.reader a) (sound.net.offs a) (good a) (sound.within a) (kinds a)
      (mesh_act_allowed hact ha) hy
  have hsc : M.scan = X.scan a := by rw [hM]; rfl
  rcases hv with hv | ⟨o, ho, hv⟩ | ⟨hq, hv⟩
  · left
    have hv : y.srv.view (X.scan a) = (s a).srv.view (X.scan a) := by rw [← hsc]; exact hv
    rw [hv]
    funext b
    by_cases hb : b = a
    · subst hb; rw [if_pos rfl]; rfl
    · rw [if_neg hb]
  · right
    refine ⟨.on a (.other o), ho, net_step_of (p := X.net.site a) (e := .other o) rfl ?_, fun _ _ e => (by cases e)⟩
    rw [hM] at hv
    exact hv
  · right
    rw [hsc] at hq
    have hvw : (s a).view M = X.view s a := by show (s a).srv.view M.scan = _; rw [hsc]; rfl
    have hvy : y.view M = y.srv.view (X.scan a) := by show y.srv.view M.scan = _; rw [hsc]
    rw [hvw, hvy] at hv
    clear hvw hvy
    rcases mesh_act_inv hact with ⟨rfl, rfl, hline, hopen⟩ | ⟨w, g, j, rfl, hline, hcase⟩
    · refine ⟨.on a e', ha, net_step_of (p := X.net.site a) (e := e') ?_ hv, fun _ _ e => (by cases e)⟩
      cases e' with
      | other o => rfl
      | queue q =>
        have hq := hq q rfl
        cases q with
        | add g => rw [Net.act, opened_view sound hq, hopen g (.inl rfl)]; rfl
        | wait g => rw [Net.act, opened_view sound hq, hopen g (.inr rfl)]; rfl
        | work w => rw [Net.act, line_view hq, hline w rfl]
        | push g => rfl
        | ret g => rfl
        | pop w => rfl
        | start w => rfl
    · have hq := hq _ rfl
      obtain ⟨hw, hl⟩ := line_inv hline
      have hg : X.scan a g = false := by simpa [XEv.ofScan, hw, WPc.group] using hq
      have hc : (X.view s a).x.connected w = some (g, j) := by rw [line_view hq]; exact hline
      rcases hcase with ⟨rfl, hr⟩ | ⟨rfl, rfl⟩
      · rw [Mesh.reply, if_neg (by rw [hg]; decide)] at hr
        obtain ⟨r, hr2, rfl⟩ := Option.map_eq_some_iff.mp hr
        refine ⟨.on a (.queue (.work w)), trivial,
          net_step_of (p := (X.net.site a).hearing r) (e := .queue (.work w)) ?_ hv, fun _ _ e => (by cases e)⟩
        rw [Net.act, hc]
        simp only []
        rw [reply_view sound, hr2]
        rfl
      · refine ⟨.lost a w, trivial,
          net_step_of (p := (X.net.site a).hearing fun _ => throwExn .ioError) (e := .queue (.work w)) ?_ hv,
          fun _ _ e => e⟩
        rw [Net.act, hc]

end GJ
