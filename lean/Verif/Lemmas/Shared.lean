import Verif.Model.Shared
import Verif.Props.C80

/-!
# Processes that share files, as processes that hear of each other's writes
-/

namespace GJ
open Spec

/-! ## What a step does to the index files -/

/-- Entries that are right can be read from the data. -/
theorem agree_extract {W : World} {p : String} : ∀ {es : List (Nat × Info)}, Agree W p es →
    extractInfos W p (es.map Prod.fst) = .ok (es.map Prod.snd) := by
  intro es
  induction es with
  | nil => intro _; rfl
  | cons x es ih =>
    intro h
    have h1 := h x List.mem_cons_self
    have h2 := ih fun y hy => h y (List.mem_cons_of_mem _ hy)
    rw [extractInfos] at h2 ⊢
    rw [List.map_cons, List.mapM_cons, h1, ok_bind, h2, ok_bind]
    rfl

theorem zip_unzip {α β : Type} : ∀ es : List (α × β), (es.map Prod.fst).zip (es.map Prod.snd) = es
  | [] => rfl
  | x :: es => by rw [List.map_cons, List.map_cons, List.zip_cons_cons, zip_unzip es]

/-- A write of right entries is one that another process could make. -/
theorem written_of {W : World} {mode : CacheMode} {append : Bool} {fs fs' : FS} {p : String} {m : InfoMap}
    (hm : GoodMap W p m) (h : flushIndex append fs (mode.indexPath p) m = .ok fs') :
    ∃ os, ∀ rest, writtenElsewhere W mode append fs ((p, os) :: rest) = writtenElsewhere W mode append fs' rest := by
  obtain ⟨es, rfl, ha⟩ := hm
  refine ⟨es.map Prod.fst, fun rest => ?_⟩
  rw [writtenElsewhere, agree_extract ha]
  simp only
  rw [zip_unzip]
  have h : flushIndex append fs (mode.indexPath p) (es.map fun x => (x.1, some x.2)) = .ok fs' := h
  rw [h, ok_bind]

theorem flushLoop_elsewhere {W : World} {U : String → Prop} {mode : CacheMode} {append : Bool} :
    ∀ {staged : AMap String InfoMap} {fs fs' : FS},
      (∀ x ∈ staged, ∃ p, U p ∧ x.1 = mode.indexPath p ∧ GoodMap W p x.2) → flushLoop append fs staged = .ok fs' →
      ∃ ws, (∀ x ∈ ws, U x.1) ∧ writtenElsewhere W mode append fs ws = .ok fs' := by
  intro staged
  induction staged with
  | nil =>
    intro fs fs' _ h
    cases h
    exact ⟨[], (fun x hx => by cases hx), rfl⟩
  | cons x staged ih =>
    intro fs fs' hs h
    obtain ⟨f, m⟩ := x
    rw [flushLoop] at h
    obtain ⟨fs1, h1, h2⟩ := res_bind_inv h
    obtain ⟨p, hp, hf, hm⟩ := hs (f, m) List.mem_cons_self
    simp only at hf hm
    rw [hf] at h1
    obtain ⟨os, hos⟩ := written_of hm h1
    obtain ⟨ws, hw, hrest⟩ := ih (fun y hy => hs y (List.mem_cons_of_mem _ hy)) h2
    refine ⟨(p, os) :: ws, ?_, (hos ws).trans hrest⟩
    intro y hy
    rcases List.mem_cons.mp hy with rfl | hy
    · exact hp
    · exact hw y hy

/-- What a step of the cache does to the index files could be done by another process. -/
theorem sys_step_files {U : String → Prop} {s s' : Sys} {e : CEv} (good : Good U s)
    (ha : ∀ ap ws, e = .elsewhere ap ws → ∀ x ∈ ws, U x.1) (hg : ∀ W, e ≠ .grow W) (h : s.step e = .ok s') :
    s'.c.mode = s.c.mode ∧ s'.W = s.W ∧
      ∃ ap ws, (∀ x ∈ ws, U x.1) ∧ writtenElsewhere s.W s.c.mode ap s.c.fs ws = .ok s'.c.fs := by
  have same : s'.c.mode = s.c.mode → s'.W = s.W → s'.c.fs = s.c.fs → s'.c.mode = s.c.mode ∧ s'.W = s.W ∧
      ∃ ap ws, (∀ x ∈ ws, U x.1) ∧ writtenElsewhere s.W s.c.mode ap s.c.fs ws = .ok s'.c.fs := fun h1 h2 h3 =>
    ⟨h1, h2, false, [], (fun x hx => by cases hx), by rw [h3]; rfl⟩
  have planned : ∀ {p : String} {r : Res (Option (Nat × InfoMap))}, s.planned p r = .ok s' →
      s'.c.mode = s.c.mode ∧ s'.W = s.W ∧ s'.c.fs = s.c.fs := by
    intro p r h
    rw [Sys.planned.eq_def] at h
    split at h
    · rw [← Except.ok.inj h]; exact ⟨rfl, rfl, rfl⟩
    · cases h
    · rw [← Except.ok.inj h]; exact ⟨rfl, rfl, rfl⟩
  cases e with
  | lookup p os =>
    rw [Sys.step] at h
    obtain ⟨⟨r, c⟩, h1, h2⟩ := res_bind_inv h
    rw [getCached] at h1
    obtain ⟨⟨r', mem⟩, -, h1⟩ := res_bind_inv h1
    have e1 := Except.ok.inj h1
    have e2 := Except.ok.inj h2
    have hc := (Prod.mk.inj e1).2
    rw [← e2, ← hc]
    rw [← e2, ← hc] at same
    exact same rfl rfl rfl
  | answer k =>
    rw [Sys.step] at h
    split at h
    · have e := Except.ok.inj h; subst e; exact same rfl rfl rfl
    · rw [Sys.finish] at h
      split at h
      · obtain ⟨c, h1, h2⟩ := res_bind_inv h
        rw [putCache] at h1
        obtain ⟨mem, -, h1⟩ := res_bind_inv h1
        have e1 := Except.ok.inj h1
        have e2 := Except.ok.inj h2
        subst e2
        subst e1
        exact same rfl rfl rfl
      · cases h
      · have e := Except.ok.inj h; subst e; exact same rfl rfl rfl
  | scan p os => obtain ⟨h1, h2, h3⟩ := planned h; exact same h1 h2 h3
  | scanFile p m => obtain ⟨h1, h2, h3⟩ := planned h; exact same h1 h2 h3
  | commit k =>
    rw [Sys.step] at h
    cases hk : s.scans[k]? with
    | none =>
      rw [hk] at h
      have e := Except.ok.inj h; subst e; exact same rfl rfl rfl
    | some x =>
      obtain ⟨p, pl⟩ := x
      rw [hk] at h
      simp only at h
      obtain ⟨⟨n, c⟩, h1, h2⟩ := res_bind_inv h
      have e2 := Except.ok.inj h2
      obtain ⟨hp, hm⟩ := good.scans _ (List.mem_of_getElem? hk)
      cases pl with
      | none =>
        have e1 := (Prod.mk.inj (Except.ok.inj h1)).2
        subst e2; subst e1
        exact same rfl rfl rfl
      | some y =>
        obtain ⟨n', m⟩ := y
        rw [Cache.scanCommit] at h1
        obtain ⟨fs, hw, h3⟩ := res_bind_inv h1
        have e1 := (Prod.mk.inj (Except.ok.inj h3)).2
        subst e2; subst e1
        have hf : flushIndex false s.c.fs (s.c.mode.indexPath p) m = .ok fs := by
          rw [flushIndex, if_neg (by decide)]; exact hw
        obtain ⟨os, hos⟩ := written_of (hm n' m rfl) hf
        refine ⟨rfl, rfl, false, [(p, os)], ?_, (hos []).trans rfl⟩
        intro x hx
        rw [List.mem_singleton.mp hx]; exact hp
  | insert p o =>
    rw [Sys.step] at h
    split at h
    · have e := Except.ok.inj h
      subst e
      have hi : ∀ i, (s.c.insert p o i).mode = s.c.mode ∧ (s.c.insert p o i).fs = s.c.fs := by
        intro i
        rw [Cache.insert]
        split <;> exact ⟨rfl, rfl⟩
      exact same (hi _).1 rfl (hi _).2
    · have e := Except.ok.inj h; subst e; exact same rfl rfl rfl
  | flush ap =>
    rw [Sys.step] at h
    obtain ⟨c, h1, h2⟩ := res_bind_inv h
    rw [Cache.flush] at h1
    obtain ⟨fs, hw, h3⟩ := res_bind_inv h1
    have e2 := Except.ok.inj h2
    have e1 := Except.ok.inj h3
    subst e2; subst e1
    obtain ⟨ws, hw1, hw2⟩ := flushLoop_elsewhere good.staged hw
    exact ⟨rfl, rfl, ap, ws, hw1, hw2⟩
  | clear => have e := Except.ok.inj h; subst e; exact same rfl rfl rfl
  | elsewhere ap ws =>
    rw [Sys.step] at h
    obtain ⟨fs, h1, h2⟩ := res_bind_inv h
    have e := Except.ok.inj h2
    subst e
    exact ⟨rfl, rfl, ap, ws, ha ap ws rfl, h1⟩
  | grow W => exact absurd rfl (hg W)

/-- What a process that has the files of another sees of a step. -/
def SeenAs (R : Reader UInt64) (offs : List UInt8 → Res (List Nat)) (U : String → Prop) (s s' : Svc UInt64) (o : OEv) : Prop :=
  o.Allowed U ∧ o.outside = true ∧ ∀ t : Svc UInt64, t.disk = s.disk → t.sys.W = s.sys.W → t.sys.c.mode = s.sys.c.mode →
    t.sys.c.fs = s.sys.c.fs → t.step R offs o.on = .ok (t.over R offs s'.disk s'.sys.c.fs)

theorem over_same {R : Reader UInt64} {offs : List UInt8 → Res (List Nat)} {t : Svc UInt64} {fs : FS} {d : Disk}
    (hd : t.disk = d) (hW : t.sys.W = diskWorld R offs t.disk) :
    t.over R offs d fs = { t with sys := { t.sys with c := { t.sys.c with fs := fs } } } := by
  subst hd
  rw [Svc.over, ← hW]

theorem seen_same {R : Reader UInt64} {offs : List UInt8 → Res (List Nat)} {U : String → Prop} {s s' : Svc UInt64}
    (good : SvcGood R offs U s) (hd : s'.disk = s.disk) {ap : Bool} {ws : List (String × List Nat)} (hws : ∀ x ∈ ws, U x.1)
    (h : writtenElsewhere s.sys.W s.sys.c.mode ap s.sys.c.fs ws = .ok s'.sys.c.fs) : ∃ o, SeenAs R offs U s s' o := by
  refine ⟨.elsewhere ap ws, hws, rfl, fun t h1 h2 h3 h4 => ?_⟩
  rw [over_same (h1.trans hd.symm) (by rw [h2, h1]; exact good.world)]
  show (t.sys.step (.elsewhere ap ws) >>= _) = _
  have hw : writtenElsewhere t.sys.W t.sys.c.mode ap t.sys.c.fs ws = .ok s'.sys.c.fs := by rw [h2, h3, h4]; exact h
  rw [Sys.step, hw, ok_bind, ok_bind]

theorem svc_step_seen {R : Reader UInt64} {offs : List UInt8 → Res (List Nat)} {U : String → Prop} {s s' : Svc UInt64} {e : SEv}
    (good : SvcGood R offs U s) (ha : ∀ ap ws, e = .cache (.elsewhere ap ws) → ∀ x ∈ ws, U x.1)
    (hg : ∀ W, e ≠ .cache (.grow W)) (h : s.step R offs e = .ok s') :
    s'.sys.c.mode = s.sys.c.mode ∧ ∃ o, SeenAs R offs U s s' o := by
  have same : ∀ {s1 : Svc UInt64}, s1.disk = s.disk → s1.sys = s.sys → s1.sys.c.mode = s.sys.c.mode ∧ ∃ o, SeenAs R offs U s s1 o :=
    fun h1 h2 => ⟨by rw [h2], seen_same good h1 (ap := false) (ws := []) (fun x hx => by cases hx) (by rw [h2]; rfl)⟩
  cases e with
  | cache e =>
    obtain ⟨y, h1, h2⟩ := res_bind_inv (show (s.sys.step e >>= _) = _ from h)
    have e2 := Except.ok.inj h2
    subst e2
    obtain ⟨k1, k2, ap, ws, k3, k4⟩ := sys_step_files good.cache (fun ap ws h => ha ap ws (by rw [h])) (fun W h => hg W (by rw [h])) h1
    exact ⟨k1, seen_same good rfl k3 k4⟩
  | append p bytes =>
    have e := Except.ok.inj h
    subst e
    refine ⟨rfl, .append p bytes, trivial, rfl, fun t h1 h2 h3 h4 => ?_⟩
    show Except.ok _ = _
    rw [Svc.over, ← h1, ← h4]
  | jump k j is =>
    rw [Svc.step.eq_def] at h
    simp only at h
    split at h
    · split at h
      · rw [← Except.ok.inj h]; exact same rfl rfl
      · rw [← Except.ok.inj h]; exact same rfl rfl
    · rw [← Except.ok.inj h]; exact same rfl rfl

theorem srv_step_seen {p : Site} {U : String → Prop} {s s' : Srv} {e : SrvEv} (good : SvcGood p.reader p.offs U s.svc)
    (ha : e.Allowed U) (h : s.step p e = .ok s') :
    s'.svc.sys.c.mode = s.svc.sys.c.mode ∧ ∃ o, SeenAs p.reader p.offs U s.svc s'.svc o := by
  have same : ∀ {y : Svc UInt64}, y = s.svc → y.sys.c.mode = s.svc.sys.c.mode ∧ ∃ o, SeenAs p.reader p.offs U s.svc y o := by
    rintro y rfl
    exact ⟨rfl, seen_same good rfl (ap := false) (ws := []) (fun x hx => by cases hx) rfl⟩
  cases e with
  | other o =>
    obtain ⟨svc, h1, h2⟩ := res_bind_inv (show (s.svc.step p.reader p.offs o.on >>= _) = _ from h)
    rw [← Except.ok.inj h2]
    refine svc_step_seen good ?_ ?_ h1
    · intro ap ws he
      cases o <;> first | cases he; exact ha | cases he
    · intro W he
      cases o <;> cases he
  | queue q =>
    rw [Srv.step.eq_def] at h
    split at h
    · rename_i w he
      rw [Srv.work] at h
      split at h
      · obtain ⟨x, -, h2⟩ := res_bind_inv h
        rw [← Except.ok.inj h2]; exact same rfl
      · split at h
        · obtain ⟨svc, h1, h2⟩ := res_bind_inv h
          obtain ⟨x, -, h2⟩ := res_bind_inv h2
          rw [← Except.ok.inj h2]
          exact svc_step_seen good (fun _ _ he => by cases he) (fun _ he => by cases he) h1
        · obtain ⟨svc, h1, h2⟩ := res_bind_inv h
          rw [← Except.ok.inj h2]
          exact svc_step_seen good (fun _ _ he => by cases he) (fun _ he => by cases he) h1
    · obtain ⟨x, -, h2⟩ := res_bind_inv h
      rw [← Except.ok.inj h2]; exact same rfl
    · rename_i o he; cases he

theorem act_site {X : Mesh} {s : MeshSys} {e : NetEv} {a : Nat} {M : MixSite} {e' : SrvEv}
    (h : X.act s e = (a, some (M, e'))) : a = e.site := by
  rcases mesh_act_inv h with ⟨-, rfl, -⟩ | ⟨w, g, j, -, -, ⟨rfl, -⟩ | ⟨rfl, -⟩⟩ <;> rfl

/-- A step changes one process, and what it does to the files could be done by others. -/
theorem mesh_step_seen {X : Mesh} {U : Nat → String → Prop} {asked : Nat → Nat → Asked} {written : Nat → Nat → List ExRequest}
    (sound : X.Sound U asked written) {s s' : MeshSys} {e : NetEv}
    (good : ∀ a, SvcGood (X.net.site a).reader (X.net.site a).offs (U a) (s a).srv.svc)
    (kinds : ∀ a, (s a).Kinds (X.alone a)) (ha : NetEv.Allowed U e) (h : X.step s e = .ok s') :
    (∀ b, b ≠ e.site → s' b = s b) ∧ (s' e.site).srv.svc.sys.c.mode = (s e.site).srv.svc.sys.c.mode ∧
      ∃ o, SeenAs (X.net.site e.site).reader (X.net.site e.site).offs (U e.site) (s e.site).srv.svc (s' e.site).srv.svc o := by
  have same : s' = s → (∀ b, b ≠ e.site → s' b = s b) ∧ (s' e.site).srv.svc.sys.c.mode = (s e.site).srv.svc.sys.c.mode ∧
      ∃ o, SeenAs (X.net.site e.site).reader (X.net.site e.site).offs (U e.site) (s e.site).srv.svc (s' e.site).srv.svc o := by
    rintro rfl
    exact ⟨fun _ _ => rfl, rfl, seen_same (good _) rfl (ap := false) (ws := []) (fun x hx => by cases hx) rfl⟩
  rcases mesh_step_inv h with h | ⟨a, M, e', y, hact, hy, rfl⟩
  · exact same h
  obtain rfl := act_site hact
  obtain ⟨fw, n, hM⟩ := mesh_act_site hact
  refine ⟨fun b hb => if_neg hb, ?_⟩
  rw [show (fun b => if b = e.site then y else s b) e.site = y from if_pos rfl]
  have hv : ViewStepOf M (U e.site) e' (s e.site) y := by
    rw [hM] at hy ⊢
    exact view_step_of (U := U e.site) (sound.net.reader _) (sound.net.offs _) (good _) (sound.within _) (kinds _)
      (mesh_act_allowed hact ha) hy
  have hr : M.site.reader = (X.net.site e.site).reader := by rw [hM]; rfl
  have ho : M.site.offs = (X.net.site e.site).offs := by rw [hM]; rfl
  have gd : SvcGood M.site.reader M.site.offs (U e.site) ((s e.site).view M).svc := by rw [hr, ho]; exact good _
  rcases hv with hv | ⟨o, hal, hv⟩ | ⟨-, hv⟩
  · have h2 := congrArg Srv.svc hv
    have h3 : y.srv.svc = (s e.site).srv.svc := h2
    rw [h3]
    exact ⟨rfl, seen_same (good _) rfl (ap := false) (ws := []) (fun x hx => by cases hx) rfl⟩
  · have := srv_step_seen gd (show SrvEv.Allowed _ (.other o) from hal) hv
    rw [hr, ho] at this
    exact this
  · have := srv_step_seen gd (mesh_act_allowed hact ha) hv
    rw [hr, ho] at this
    exact this

/-! ## What those who have the same files see -/

/-- The event at one who has the files. -/
theorem mix_over {X : Mesh} {b : Nat} {U : String → Prop} {s s' : Svc UInt64} {o : OEv} {t : Mix}
    (seen : SeenAs (X.net.site b).reader (X.net.site b).offs U s s' o) (len : t.scanners.length = t.srv.svc.sys.scans.length)
    (h1 : t.srv.svc.disk = s.disk) (h2 : t.srv.svc.sys.W = s.sys.W) (h3 : t.srv.svc.sys.c.mode = s.sys.c.mode)
    (h4 : t.srv.svc.sys.c.fs = s.sys.c.fs) :
    t.step (X.alone b) (.other o) = .ok (t.over (X.net.site b).reader (X.net.site b).offs s'.disk s'.sys.c.fs) := by
  obtain ⟨-, hout, hstep⟩ := seen
  have hs := hstep t.srv.svc h1 h2 h3 h4
  have hsrv : t.srv.step (X.alone b).site (.other o) = .ok ⟨t.srv.x, t.srv.svc.over (X.net.site b).reader (X.net.site b).offs s'.disk s'.sys.c.fs, t.srv.holders⟩ := by
    show (t.srv.svc.step (X.net.site b).reader (X.net.site b).offs o.on >>= _) = _
    rw [hs, ok_bind]
  have hm : t.step (X.alone b) (.other o) = (t.srv.step (X.alone b).site (.other o) >>= fun y =>
      .ok { t with srv := y, scanners := t.scanners ++ List.replicate (y.svc.sys.scans.length - t.scanners.length) none }) := by
    cases o <;> first | rfl | cases hout
  rw [hm, hsrv, ok_bind]
  have hl : (t.srv.svc.over (X.net.site b).reader (X.net.site b).offs s'.disk s'.sys.c.fs).sys.scans.length - t.scanners.length = 0 := by
    show t.srv.svc.sys.scans.length - _ = 0
    omega
  simp only [hl]
  rw [List.replicate_zero, List.append_nil]
  rfl

/-- Those with the same files are like this: they do not list themselves; they read them in the same way, and use them for the
same files. -/
structure Shared.Fits (X : Shared) (U : Nat → String → Prop) : Prop where
  apart : ∀ a, a ∉ X.mates a
  once : ∀ a, (X.mates a).Nodup
  symm : ∀ a b, b ∈ X.mates a → a ∈ X.mates b
  trans : ∀ a b c, b ∈ X.mates a → c ∈ X.mates b → c ≠ a → c ∈ X.mates a
  reader : ∀ a b, b ∈ X.mates a → (X.mesh.net.site b).reader = (X.mesh.net.site a).reader
  offs : ∀ a b, b ∈ X.mates a → (X.mesh.net.site b).offs = (X.mesh.net.site a).offs
  names : ∀ a b, b ∈ X.mates a → U b = U a

/-- Two processes see the same files. -/
def SameFiles (s t : Mix) : Prop :=
  t.srv.svc.disk = s.srv.svc.disk ∧ t.srv.svc.sys.c.mode = s.srv.svc.sys.c.mode ∧ t.srv.svc.sys.c.fs = s.srv.svc.sys.c.fs

theorem SameFiles.symm {s t : Mix} (h : SameFiles s t) : SameFiles t s := ⟨h.1.symm, h.2.1.symm, h.2.2.symm⟩

theorem SameFiles.trans {s t u : Mix} (h : SameFiles s t) (k : SameFiles t u) : SameFiles s u :=
  ⟨k.1.trans h.1, k.2.1.trans h.2.1, k.2.2.trans h.2.2⟩

theorem share_run {X : Mesh} {U : Nat → String → Prop} {s0 s1 : Svc UInt64} {o : OEv} : ∀ (L : List Nat) (m : MeshSys), L.Nodup →
    (∀ b ∈ L, SeenAs (X.net.site b).reader (X.net.site b).offs (U b) s0 s1 o ∧
      (m b).scanners.length = (m b).srv.svc.sys.scans.length ∧ (m b).srv.svc.disk = s0.disk ∧ (m b).srv.svc.sys.W = s0.sys.W ∧
      (m b).srv.svc.sys.c.mode = s0.sys.c.mode ∧ (m b).srv.svc.sys.c.fs = s0.sys.c.fs) →
    X.run m (L.map fun b => .on b (.other o)) =
      .ok (fun b => if b ∈ L then (m b).over (X.net.site b).reader (X.net.site b).offs s1.disk s1.sys.c.fs else m b) := by
  intro L
  induction L with
  | nil =>
    intro m _ _
    show Except.ok m = _
    refine congrArg Except.ok (funext fun b => ?_)
    rw [if_neg (fun h => by cases h)]
  | cons c L ih =>
    intro m hn h
    obtain ⟨hc, hn⟩ := List.nodup_cons.mp hn
    obtain ⟨k1, k2, k3, k4, k5, k6⟩ := h c List.mem_cons_self
    have hstep := mix_over (X := X) (t := m c) k1 k2 k3 k4 k5 k6
    have hs : X.step m (.on c (.other o)) = .ok (fun b => if b = c then
        (m c).over (X.net.site c).reader (X.net.site c).offs s1.disk s1.sys.c.fs else m b) := by
      show ((m c).step (X.alone c) (.other o) >>= _) = _
      rw [hstep, ok_bind]
      rfl
    rw [List.map_cons, Mesh.run, hs, ok_bind, ih _ hn]
    · refine congrArg Except.ok (funext fun b => ?_)
      by_cases hb : b = c
      · subst hb
        rw [if_neg hc, if_pos rfl, if_pos List.mem_cons_self]
      · rw [if_neg hb]
        by_cases hbl : b ∈ L
        · rw [if_pos hbl, if_pos (List.mem_cons_of_mem _ hbl)]
        · rw [if_neg hbl, if_neg (fun h => by rcases List.mem_cons.mp h with h | h; exact hb h; exact hbl h)]
    · intro b hb
      have hbc : b ≠ c := fun e => hc (e ▸ hb)
      simp only [if_neg hbc]
      exact h b (List.mem_cons_of_mem _ hb)

/-- All who have the same files see the same. -/
def Shared.Alike (X : Shared) (s : MeshSys) : Prop := ∀ a b, b ∈ X.mates a → SameFiles (s a) (s b)

theorem share_alike {X : Shared} {U : Nat → String → Prop} (fits : X.Fits U) {s t : MeshSys} {a : Nat} (alike : X.Alike s)
    (hother : ∀ b, b ≠ a → t b = s b) (hmode : (t a).srv.svc.sys.c.mode = (s a).srv.svc.sys.c.mode) : X.Alike (X.share t a) := by
  have self : X.share t a a = t a := if_neg (fits.apart a)
  have mate : ∀ b, b ∈ X.mates a → SameFiles (t a) (X.share t a b) := by
    intro b hb
    have hba : b ≠ a := fun e => fits.apart a (e ▸ hb)
    have : X.share t a b = (t b).over (X.mesh.net.site b).reader (X.mesh.net.site b).offs (t a).srv.svc.disk
      (t a).srv.svc.sys.c.fs := if_pos hb
    rw [this]
    refine ⟨rfl, ?_, rfl⟩
    show (t b).srv.svc.sys.c.mode = _
    rw [hother b hba, hmode]
    exact (alike a b hb).2.1
  have stranger : ∀ b, b ≠ a → b ∉ X.mates a → X.share t a b = s b := by
    intro b hb hn
    rw [← hother b hb]
    exact if_neg hn
  intro c d hd
  by_cases hc : c = a
  · subst hc
    rw [self]; exact mate d hd
  by_cases hca : c ∈ X.mates a
  · have h1 := mate c hca
    by_cases hda : d = a
    · subst hda
      rw [self]; exact h1.symm
    · exact h1.symm.trans (mate d (fits.trans a c d hca hd hda))
  · have hda : d ≠ a := fun e => hca (fits.symm c a (e ▸ hd))
    have hdm : d ∉ X.mates a := fun h => hca (fits.trans a d c h (fits.symm c d hd) hc)
    rw [stranger c hc hca, stranger d hda hdm]
    exact alike c d hd

/-- A step of one process, and what the others see of it. -/
theorem shared_net_step {X : Shared} {U : Nat → String → Prop} (fits : X.Fits U) {asked : Nat → Nat → Asked}
    {written : Nat → Nat → List ExRequest} (sound : X.mesh.Sound U asked written) {s t : MeshSys} {e : NetEv}
    (good : ∀ a, SvcGood (X.mesh.net.site a).reader (X.mesh.net.site a).offs (U a) (s a).srv.svc)
    (kinds : ∀ a, (s a).Kinds (X.mesh.alone a)) (len : ∀ a, (s a).scanners.length = (s a).srv.svc.sys.scans.length)
    (alike : X.Alike s) (ha : NetEv.Allowed U e) (h : X.mesh.step s e = .ok t) :
    X.Alike (X.share t e.site) ∧ ∃ o, (∀ b ∈ X.mates e.site, o.Allowed (U b)) ∧
      X.mesh.run s (e :: (X.mates e.site).map fun b => .on b (.other o)) = .ok (X.share t e.site) := by
  obtain ⟨hother, hmode, o, ho⟩ := mesh_step_seen sound good kinds ha h
  refine ⟨share_alike fits alike hother hmode, o, fun b hb => ?_, ?_⟩
  · rw [fits.names _ _ hb]; exact ho.1
  · rw [Mesh.run, h, ok_bind]
    refine share_run (X := X.mesh) (U := U) (s0 := (s e.site).srv.svc) (s1 := (t e.site).srv.svc) _ t (fits.once _) ?_
    intro b hb
    have hba : b ≠ e.site := fun k => fits.apart e.site (k ▸ hb)
    have hsame := alike _ _ hb
    rw [fits.reader _ _ hb, fits.offs _ _ hb, fits.names _ _ hb, hother b hba]
    refine ⟨ho, len b, hsame.1, ?_, hsame.2.1, hsame.2.2⟩
    rw [(good b).world, (good e.site).world, fits.reader _ _ hb, fits.offs _ _ hb, hsame.1]

/-! ## Histories -/

/-- Events concern files in use. -/
def SharedEv.Allowed (U : Nat → String → Prop) : SharedEv → Prop
  | .net e => e.Allowed U
  | _ => True

/-- All processes are to be started, over existing files that are in order; those with the same files begin with the same. -/
def Shared.Began (X : Shared) (U : Nat → String → Prop) (st : SharedSys) : Prop :=
  ∃ d mode lazy cap fs, (∀ a, ToldApart (mode a) (U a)) ∧ (∀ a, 0 < cap a) ∧
    (∀ a, GoodIndex (diskWorld (X.mesh.net.site a).reader (X.mesh.net.site a).offs (d a)) (U a) (mode a) (fs a)) ∧
    (∀ a b, b ∈ X.mates a → d b = d a ∧ mode b = mode a ∧ fs b = fs a) ∧ st = X.start d mode lazy cap fs

/-- Processes that were to be started, and then anything happened. -/
def Shared.Reached (X : Shared) (U : Nat → String → Prop) (s : SharedSys) : Prop :=
  ∃ st es, X.Began U st ∧ (∀ e ∈ es, SharedEv.Allowed U e) ∧ X.run st es = .ok s

theorem shared_append {X : Shared} : ∀ {es fs : List SharedEv} {s : SharedSys}, X.run s (es ++ fs) = X.run s es >>= fun t => X.run t fs := by
  intro es
  induction es with
  | nil => intro fs s; rfl
  | cons e es ih =>
    intro fs s
    rw [List.cons_append, Shared.run, Shared.run]
    cases h : X.step s e with
    | error f => rfl
    | ok s' => rw [ok_bind, ok_bind]; exact ih

theorem shared_snoc {X : Shared} {es : List SharedEv} {e : SharedEv} {s t u : SharedSys} (h : X.run s es = .ok t)
    (hs : X.step t e = .ok u) : X.run s (es ++ [e]) = .ok u := by
  rw [shared_append, h, ok_bind, Shared.run, hs, ok_bind]; rfl

theorem shared_induct {X : Shared} {st : SharedSys} (Q : List SharedEv → SharedSys → Prop) (hstart : Q [] st)
    (hstep : ∀ es s e s', X.run st es = .ok s → Q es s → X.step s e = .ok s' → Q (es ++ [e]) s') :
    ∀ (es : List SharedEv) (s : SharedSys), X.run st es = .ok s → Q es s := by
  have : ∀ (es pre : List SharedEv) (s0 s : SharedSys), X.run st pre = .ok s0 → Q pre s0 → X.run s0 es = .ok s → Q (pre ++ es) s := by
    intro es
    induction es with
    | nil => intro pre s0 s _ hq h; cases h; rw [List.append_nil]; exact hq
    | cons e es ih =>
      intro pre s0 s hp hq h
      rw [Shared.run] at h
      obtain ⟨s1, h1, h2⟩ := res_bind_inv h
      rw [show pre ++ e :: es = (pre ++ [e]) ++ es from by simp]
      exact ih _ s1 s (shared_snoc hp h1) (hstep _ _ _ _ hp hq h1) h2
  intro es s h
  exact this es [] st s rfl hstart h

/-- A step: nothing for the processes, or a step of one that others see. -/
theorem shared_step_inv {X : Shared} {s s' : SharedSys} {e : SharedEv} (h : X.step s e = .ok s') :
    s'.procs = s.procs ∨ ∃ f t, e = .net f ∧ (f.outside = true ∨ s.life f.site = .up) ∧ X.mesh.step s.procs f = .ok t ∧
      s'.procs = X.share t f.site := by
  cases e with
  | net f =>
    rw [Shared.step] at h
    split at h
    · rename_i hl
      obtain ⟨t, h1, h2⟩ := res_bind_inv h
      exact .inr ⟨f, t, rfl, hl, h1, by rw [← Except.ok.inj h2]⟩
    · rw [← Except.ok.inj h]; exact .inl rfl
  | boot a =>
    rw [← Except.ok.inj h]
    left
    split <;> rfl
  | kill a =>
    rw [← Except.ok.inj h]
    left
    split <;> rfl

theorem shared_began {X : Shared} {U : Nat → String → Prop} {st : SharedSys} (h : X.Began U st) :
    X.mesh.Began U st.procs ∧ X.Alike st.procs ∧ ∀ a, st.life a = .waiting := by
  obtain ⟨d, mode, lazy, cap, fs, h1, h2, h3, h4, rfl⟩ := h
  exact ⟨⟨d, mode, lazy, cap, fs, h1, h2, h3, rfl⟩, fun a b hb => h4 a b hb, fun _ => rfl⟩

/-- The processes are those of a network in which others write the index files and append to the data. -/
theorem shared_ran {X : Shared} {U : Nat → String → Prop} (fits : X.Fits U) {asked : Nat → Nat → Asked}
    {written : Nat → Nat → List ExRequest} (sound : X.mesh.Sound U asked written) {st : SharedSys} (began : X.Began U st)
    {es : List SharedEv} {s : SharedSys} (allowed : ∀ e ∈ es, SharedEv.Allowed U e) (h : X.run st es = .ok s) :
    X.Alike s.procs ∧ ∃ fs, (∀ e ∈ fs, NetEv.Allowed U e) ∧ X.mesh.run st.procs fs = .ok s.procs := by
  obtain ⟨hb, hal, -⟩ := shared_began began
  refine shared_induct (X := X) (st := st) (fun es s => (∀ e ∈ es, SharedEv.Allowed U e) →
    X.Alike s.procs ∧ ∃ fs, (∀ e ∈ fs, NetEv.Allowed U e) ∧ X.mesh.run st.procs fs = .ok s.procs) ?_ ?_ es s h allowed
  · intro _
    exact ⟨hal, [], (fun _ h => by cases h), rfl⟩
  · intro es s e s' _ ih hs ha
    obtain ⟨alike, fs, hf, hr⟩ := ih fun e he => ha e (List.mem_append_left _ he)
    rcases shared_step_inv hs with hp | ⟨f, t, rfl, -, ht, hp⟩
    · rw [hp]; exact ⟨alike, fs, hf, hr⟩
    · have inv := mesh_ran sound hb hf hr
      have haf : NetEv.Allowed U f := ha (.net f) (by simp)
      obtain ⟨k1, o, k2, k3⟩ := shared_net_step fits sound (fun a => inv.good sound hb a) inv.kinds
        (fun a => (mesh_scans sound hb hf hr a).len) alike haf ht
      rw [hp]
      refine ⟨k1, fs ++ (f :: (X.mates f.site).map fun b => .on b (.other o)), ?_, ?_⟩
      · intro x hx
        rcases List.mem_append.mp hx with hx | hx
        · exact hf x hx
        rcases List.mem_cons.mp hx with rfl | hx
        · exact haf
        obtain ⟨b, hbm, rfl⟩ := List.mem_map.mp hx
        exact k2 b hbm
      · rw [mesh_append, hr, ok_bind]; exact k3

theorem shared_reached {X : Shared} {U : Nat → String → Prop} (fits : X.Fits U) {asked : Nat → Nat → Asked}
    {written : Nat → Nat → List ExRequest} (sound : X.mesh.Sound U asked written) {s : SharedSys} (h : X.Reached U s) :
    X.mesh.Reached U s.procs := by
  obtain ⟨st, es, hb, ha, hr⟩ := h
  obtain ⟨-, fs, hf, hr⟩ := shared_ran fits sound hb ha hr
  exact ⟨st.procs, fs, (shared_began hb).1, hf, hr⟩

/-! ## Processes that do not run -/

/-- What others do to the files changes nothing else. -/
theorem outside_over {X : Mesh} {U : Nat → String → Prop} {s t : MeshSys} {e : NetEv} (hout : e.outside = true)
    (good : SvcGood (X.net.site e.site).reader (X.net.site e.site).offs (U e.site) (s e.site).srv.svc)
    (len : (s e.site).scanners.length = (s e.site).srv.svc.sys.scans.length) (h : X.step s e = .ok t) :
    t e.site = (s e.site).over (X.net.site e.site).reader (X.net.site e.site).offs (t e.site).srv.svc.disk
      (t e.site).srv.svc.sys.c.fs := by
  cases e with
  | lost a w => cases hout
  | on a e =>
    cases e with
    | queue q => cases hout
    | other o =>
      have hact : X.act s (.on a (.other o)) = (a, some (X.alone a, .other o)) := rfl
      rw [Mesh.step, hact] at h
      simp only [] at h
      obtain ⟨y, hy, h2⟩ := res_bind_inv h
      have ht : t a = y := by rw [← Except.ok.inj h2]; exact if_pos rfl
      show t a = (s a).over _ _ (t a).srv.svc.disk (t a).srv.svc.sys.c.fs
      rw [ht]
      have hm : (s a).step (X.alone a) (.other o) = ((s a).srv.step (X.alone a).site (.other o) >>= fun y =>
          .ok { s a with srv := y, scanners := (s a).scanners ++ List.replicate (y.svc.sys.scans.length - (s a).scanners.length) none }) := by
        cases o <;> first | rfl | cases hout
      rw [hm] at hy
      obtain ⟨z, hz, hy⟩ := res_bind_inv hy
      obtain ⟨svc, hv, hz⟩ := res_bind_inv (show ((s a).srv.svc.step (X.net.site a).reader (X.net.site a).offs o.on >>= _) = _ from hz)
      have ez := Except.ok.inj hz
      have ey := Except.ok.inj hy
      have hsvc : svc = (s a).srv.svc.over (X.net.site a).reader (X.net.site a).offs svc.disk svc.sys.c.fs := by
        have hW : (s a).srv.svc.sys.W = diskWorld (X.net.site a).reader (X.net.site a).offs (s a).srv.svc.disk := good.world
        cases o with
        | append p bytes => rw [← Except.ok.inj hv]; rfl
        | elsewhere ap ws =>
          obtain ⟨u, h1, h2⟩ := res_bind_inv (show ((s a).srv.svc.sys.step _ >>= _) = _ from hv)
          rw [Sys.step] at h1
          obtain ⟨fs, -, h1⟩ := res_bind_inv h1
          rw [← Except.ok.inj h2, ← Except.ok.inj h1, over_same rfl hW]
        | _ => cases hout
      subst ez
      have hl : svc.sys.scans.length - (s a).scanners.length = 0 := by
        rw [hsvc]
        show (s a).srv.svc.sys.scans.length - _ = 0
        have := len
        show (s a).srv.svc.sys.scans.length - (s a).scanners.length = 0
        have h3 : (s a).scanners.length = (s a).srv.svc.sys.scans.length := this
        omega
      simp only [hl, List.replicate_zero, List.append_nil] at ey
      subst ey
      show (⟨⟨(s a).srv.x, svc, (s a).srv.holders⟩, (s a).jobs, (s a).scanners⟩ : Mix) =
        ⟨⟨(s a).srv.x, (s a).srv.svc.over (X.net.site a).reader (X.net.site a).offs svc.disk svc.sys.c.fs, (s a).srv.holders⟩,
          (s a).jobs, (s a).scanners⟩
      rw [← hsvc]

/-- The memory of process `s` is that of one that has just started, over files as they are now. -/
def Shared.Fresh (X : Shared) (lazy : Bool) (cap : Nat) (a : Nat) (s : Mix) : Prop :=
  s = Mix.start (X.mesh.alone a) (X.mesh.net.threads a) (X.mesh.net.jobs a) s.srv.svc.disk s.srv.svc.sys.c.mode lazy cap
    s.srv.svc.sys.c.fs

theorem Shared.Fresh.over {X : Shared} {lazy : Bool} {cap a : Nat} {s : Mix} (h : X.Fresh lazy cap a s) (d : Disk) (fs : FS) :
    X.Fresh lazy cap a (s.over (X.mesh.net.site a).reader (X.mesh.net.site a).offs d fs) := by
  rw [Shared.Fresh] at h ⊢
  rw [h]
  rfl

theorem shared_fresh {X : Shared} {U : Nat → String → Prop} (fits : X.Fits U) {asked : Nat → Nat → Asked}
    {written : Nat → Nat → List ExRequest} (sound : X.mesh.Sound U asked written) {d : Nat → Disk} {mode : Nat → CacheMode}
    {lazy : Nat → Bool} {cap : Nat → Nat} {fs : Nat → FS} (began : X.Began U (X.start d mode lazy cap fs))
    {es : List SharedEv} {s : SharedSys} (allowed : ∀ e ∈ es, SharedEv.Allowed U e)
    (h : X.run (X.start d mode lazy cap fs) es = .ok s) (a : Nat) (waits : s.life a = .waiting) :
    X.Fresh (lazy a) (cap a) a (s.procs a) := by
  refine shared_induct (X := X) (st := X.start d mode lazy cap fs) (fun es s => (∀ e ∈ es, SharedEv.Allowed U e) →
    s.life a = .waiting → X.Fresh (lazy a) (cap a) a (s.procs a)) (fun _ _ => rfl) ?_ es s h allowed waits
  intro es s e s' hr ih hs ha hw
  have ha' : ∀ e ∈ es, SharedEv.Allowed U e := fun e he => ha e (List.mem_append_left _ he)
  have hw' : s.life a = .waiting := by
    cases e with
    | net f =>
      rw [Shared.step] at hs
      split at hs
      · obtain ⟨t, -, h2⟩ := res_bind_inv hs
        rw [← Except.ok.inj h2] at hw; exact hw
      · rw [← Except.ok.inj hs] at hw; exact hw
    | boot b =>
      rw [← Except.ok.inj hs] at hw
      split at hw
      · have hw : (if a = b then Life.up else s.life a) = .waiting := hw
        split at hw
        · cases hw
        · exact hw
      · exact hw
    | kill b =>
      rw [← Except.ok.inj hs] at hw
      split at hw
      · have hw : (if a = b then Life.dead else s.life a) = .waiting := hw
        split at hw
        · cases hw
        · exact hw
      · exact hw
  have before := ih ha' hw'
  rcases shared_step_inv hs with hp | ⟨f, t, rfl, hl, ht, hp⟩
  · rw [hp]; exact before
  obtain ⟨-, fs', hf, hr'⟩ := shared_ran fits sound began ha' hr
  have hb := (shared_began began).1
  have inv := mesh_ran sound hb hf hr'
  obtain ⟨hother, -, -⟩ := mesh_step_seen sound (fun a => inv.good sound hb a) inv.kinds (ha (.net f) (by simp)) ht
  have hta : X.Fresh (lazy a) (cap a) a (t a) := by
    by_cases hfa : a = f.site
    · subst hfa
      rcases hl with hl | hl
      · rw [outside_over (U := U) hl (inv.good sound hb _) (mesh_scans sound hb hf hr' _).len ht]
        exact before.over _ _
      · rw [hw'] at hl; cases hl
    · rw [hother a hfa]; exact before
  rw [hp, Shared.share]
  split
  · exact hta.over _ _
  · exact hta

end GJ
