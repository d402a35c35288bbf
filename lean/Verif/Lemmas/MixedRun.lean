import Verif.Lemmas.MixedLive

/-!
# Histories of a process with scans and extractions
-/

namespace GJ

open Spec

/-- A process that handles files with these names, and whose scans, like its calls, get only to files with these names. -/
structure MixSite.Sane (M : MixSite) (U : String → Prop) (asked : Nat → Asked)
    (x : Nat → List ExRequest × ItemMap × List FTask) : Prop where
  site : M.site.Sane U asked x
  within : M.Within U

/-- The process has come to state `s`: it started with `n` workers over index files that agree with the data files, and
then anything happened. -/
def MixSite.Reached (M : MixSite) (U : String → Prop) (n : Nat) (x : Nat → List ExRequest × ItemMap × List FTask)
    (lazy : Bool) (s : Mix) : Prop :=
  ∃ d mode cap fs es, ToldApart mode U ∧ 0 < cap ∧ GoodIndex (diskWorld M.site.reader M.site.offs d) U mode fs ∧
    (∀ e ∈ es, SrvEv.Allowed U e) ∧ (Mix.start M n (fun g => (x g).2) d mode lazy cap fs).run M es = .ok s

theorem mix_append {M : MixSite} (es fs : List SrvEv) (s : Mix) :
    s.run M (es ++ fs) = (s.run M es >>= fun s' => s'.run M fs) := by
  induction es generalizing s with
  | nil => rfl
  | cons e es ih =>
    rw [List.cons_append, Mix.run, Mix.run]
    cases h : s.step M e with
    | error e => rfl
    | ok s' => rw [ok_bind, ok_bind, ih]

theorem MixSite.Reached.ran {M : MixSite} {U : String → Prop} {n : Nat} {x : Nat → List ExRequest × ItemMap × List FTask}
    {lazy : Bool} {s s' : Mix} (r : M.Reached U n x lazy s) {es : List SrvEv} (ha : ∀ e ∈ es, SrvEv.Allowed U e)
    (hs : s.run M es = .ok s') : M.Reached U n x lazy s' := by
  obtain ⟨d, mode, cap, fs, es0, h1, h2, h3, h4, h5⟩ := r
  refine ⟨d, mode, cap, fs, es0 ++ es, h1, h2, h3, ?_, ?_⟩
  · intro e he
    rcases List.mem_append.mp he with he | he
    · exact h4 e he
    · exact ha e he
  · rw [mix_append, h5, ok_bind, hs]

/-! ## What extractions see -/

theorem start_kinds (M : MixSite) (n : Nat) (P : Nat → ItemMap × List FTask) (d : Disk) (mode : CacheMode) (lazy : Bool)
    (cap : Nat) (fs : FS) : (Mix.start M n P d mode lazy cap fs).Kinds M := by
  intro g
  show (((M.scans g).getD []).map fun k => (k, ScanAt.fresh)).map Prod.fst = _
  rw [List.map_map]
  exact List.map_id _

theorem start_direct (M : MixSite) (n : Nat) (P : Nat → ItemMap × List FTask) (d : Disk) (mode : CacheMode) (lazy : Bool)
    (cap : Nat) (fs : FS) : (Mix.start M n P d mode lazy cap fs).Direct := by
  intro g T hT hp
  obtain ⟨k, -, rfl⟩ := List.mem_map.mp (show T ∈ ((M.scans g).getD []).map fun k => (k, ScanAt.fresh) from hT)
  cases hp

/-- A run is one for those who extract. -/
theorem view_run {M : MixSite} {U : String → Prop} {asked : Nat → Asked} {x : Nat → List ExRequest × ItemMap × List FTask}
    (sane : M.Sane U asked x) {n : Nat} {lazy : Bool} :
    ∀ (es : List SrvEv) {s s' : Mix}, (∀ e ∈ es, SrvEv.Allowed U e) → M.site.Reached U n x lazy (s.view M) → s.Kinds M →
      s.Direct → s.run M es = .ok s' →
      s'.Kinds M ∧ s'.Direct ∧ ∃ fs, (∀ e ∈ fs, SrvEv.Allowed U e) ∧ (s.view M).run M.site fs = .ok (s'.view M) := by
  intro es
  induction es with
  | nil =>
    intro s s' _ _ hk hd h
    rw [← Except.ok.inj h]
    exact ⟨hk, hd, [], (fun _ h => by cases h), rfl⟩
  | cons e es ih =>
    intro s s' ha hr hk hd h
    rw [Mix.run] at h
    obtain ⟨s1, h1, h2⟩ := res_bind_inv h
    obtain ⟨d, mode, cap, fs, -, -, -, inv⟩ := hr.inv sane.site
    have good : SvcGood M.site.reader M.site.offs U s.srv.svc := inv.good
    have hv := view_step sane.site.reader sane.site.offs good sane.within hk (ha e List.mem_cons_self) h1
    have ha' : ∀ e ∈ es, SrvEv.Allowed U e := fun e he => ha e (List.mem_cons_of_mem _ he)
    rcases hv with hv | ⟨f, hf, hv⟩
    · obtain ⟨k1, k2, fs, k3, k4⟩ := ih ha' (by rw [hv]; exact hr) (hk.step h1) (hd.step h1) h2
      exact ⟨k1, k2, fs, k3, by rw [← hv]; exact k4⟩
    · have hr1 : M.site.Reached U n x lazy (s1.view M) := hr.ran (es := [f])
        (fun e he => by rw [List.mem_singleton] at he; subst he; exact hf) (by rw [Srv.run, hv, ok_bind]; rfl)
      obtain ⟨k1, k2, fs, k3, k4⟩ := ih ha' hr1 (hk.step h1) (hd.step h1) h2
      refine ⟨k1, k2, f :: fs, ?_, by rw [Srv.run, hv, ok_bind]; exact k4⟩
      intro e he
      rcases List.mem_cons.mp he with rfl | he
      · exact hf
      · exact k3 e he

theorem MixSite.Reached.parts {M : MixSite} {U : String → Prop} {asked : Nat → Asked}
    {x : Nat → List ExRequest × ItemMap × List FTask} (sane : M.Sane U asked x) {n : Nat} {lazy : Bool} {s : Mix}
    (h : M.Reached U n x lazy s) : M.site.Reached U n x lazy (s.view M) ∧ s.Kinds M ∧ s.Direct := by
  obtain ⟨d, mode, cap, fs, es, h1, h2, h3, h4, h5⟩ := h
  have h0 : M.site.Reached U n x lazy ((Mix.start M n (fun g => (x g).2) d mode lazy cap fs).view M) := by
    rw [Mix.view_start]
    exact ⟨d, mode, cap, fs, [], h1, h2, h3, (fun _ h => by cases h), rfl⟩
  obtain ⟨k1, k2, fs', k3, k4⟩ := view_run sane es h4 h0 (start_kinds _ _ _ _ _ _ _ _) (start_direct _ _ _ _ _ _ _ _) h5
  exact ⟨h0.ran k3 k4, k1, k2⟩

theorem MixSite.Reached.good {M : MixSite} {U : String → Prop} {asked : Nat → Asked}
    {x : Nat → List ExRequest × ItemMap × List FTask} (sane : M.Sane U asked x) {n : Nat} {lazy : Bool} {s : Mix}
    (h : M.Reached U n x lazy s) : SvcGood M.site.reader M.site.offs U s.srv.svc := by
  obtain ⟨d, mode, cap, fs, -, -, -, inv⟩ := (h.parts sane).1.inv sane.site
  exact inv.good

/-- What a call that extracts has returned, for those who do not see the scans. -/
theorem view_outcome {M : MixSite} {s : Mix} {x : Nat → List ExRequest × ItemMap × List FTask} {g : Nat}
    (hg : M.scan g = false) : (s.view M).x.outcome x g = s.srv.x.outcome x g := by
  show callEnd (x g).1 (s.srv.x.job g).items ((s.srv.x.t.view M.scan).grp g).errors = _
  rw [view_grp hg]; rfl

theorem view_group {M : MixSite} {s : Mix} {g : Nat} (hg : M.scan g = false) :
    (s.view M).x.t.grp g = s.srv.x.t.grp g := view_grp hg

/-! ## Infinite histories -/

/-- An infinite history. -/
structure MixExecution (M : MixSite) (ev : Nat → SrvEv) (st : Nat → Mix) : Prop where
  step : ∀ k, (st k).step M (ev k) = .ok (st (k + 1))

/-- A process from its start on. -/
structure MixSite.Lives (M : MixSite) (U : String → Prop) (n : Nat) (x : Nat → List ExRequest × ItemMap × List FTask)
    (lazy : Bool) (ev : Nat → SrvEv) (st : Nat → Mix) : Prop extends MixExecution M ev st where
  start : ∃ d mode cap fs, ToldApart mode U ∧ 0 < cap ∧ GoodIndex (diskWorld M.site.reader M.site.offs d) U mode fs ∧
    st 0 = Mix.start M n (fun g => (x g).2) d mode lazy cap fs
  allowed : ∀ k, SrvEv.Allowed U (ev k)

theorem MixExecution.run {M : MixSite} {ev : Nat → SrvEv} {st : Nat → Mix} (h : MixExecution M ev st) (k c : Nat) :
    (st k).run M ((List.range' k c).map ev) = .ok (st (k + c)) := by
  induction c generalizing k with
  | zero => rfl
  | succ c ih =>
    rw [List.range'_succ, List.map_cons, Mix.run, h.step k, ok_bind, ih (k + 1)]
    rw [show k + 1 + c = k + (c + 1) from by omega]

theorem MixSite.Lives.reached {M : MixSite} {U : String → Prop} {n : Nat} {x : Nat → List ExRequest × ItemMap × List FTask}
    {lazy : Bool} {ev : Nat → SrvEv} {st : Nat → Mix} (h : M.Lives U n x lazy ev st) (k : Nat) :
    M.Reached U n x lazy (st k) := by
  obtain ⟨d, mode, cap, fs, h1, h2, h3, h4⟩ := h.start
  have hr := h.toMixExecution.run 0 k
  rw [Nat.zero_add, h4] at hr
  exact ⟨d, mode, cap, fs, _, h1, h2, h3, fun e he => by
    obtain ⟨i, -, rfl⟩ := List.mem_map.mp he; exact h.allowed i, hr⟩

/-- The tasks of all calls, with stand-ins for those of scans. -/
def MixSite.tasks (M : MixSite) (x : Nat → List ExRequest × ItemMap × List FTask) (g : Nat) : ItemMap × List FTask :=
  if M.scan g then ([], ((M.scans g).getD []).map fun k => ⟨k.fake, .fresh⟩) else (x g).2

theorem tasks_fresh {M : MixSite} {U : String → Prop} {asked : Nat → Asked}
    {x : Nat → List ExRequest × ItemMap × List FTask} (sane : M.Sane U asked x) (g : Nat) :
    ∀ T ∈ (M.tasks x g).2, T.pc = .fresh := by
  rw [MixSite.tasks]
  split
  · intro T hT
    obtain ⟨k, -, rfl⟩ := List.mem_map.mp hT
    rfl
  · exact sane.site.prepared.fresh g

theorem start_calls (M : MixSite) (n : Nat) (x : Nat → List ExRequest × ItemMap × List FTask) (d : Disk) (mode : CacheMode)
    (lazy : Bool) (cap : Nat) (fs : FS) :
    (Mix.start M n (fun g => (x g).2) d mode lazy cap fs).calls M = XSys.init n (M.tasks x) := by
  show (⟨TSys.init n, _⟩ : XSys) = ⟨TSys.init n, _⟩
  congr 1
  funext g
  rw [MixSite.tasks]
  split
  · show (⟨[], (((M.scans g).getD []).map fun k => (k, ScanAt.fresh)).map fakeTask, _, 0⟩ : FSys) = _
    rw [List.map_map]; rfl
  · rfl

theorem mix_workers {M : MixSite} {U : String → Prop} {s s' : Mix} {e : SrvEv} (sound : SoundReader M.site.reader)
    (hoffs : ∀ file, M.site.offs file ≠ undef) (good : SvcGood M.site.reader M.site.offs U s.srv.svc)
    (h : s.step M e = .ok s') : s'.srv.x.t.workers.length = s.srv.x.t.workers.length :=
  xstep_workers (s := s.calls M) (s' := s'.calls M)
    (mix_part (n := s.srv.x.t.workers.length) sound hoffs good (List.getElem?_eq_none (Nat.le_refl _)) h)

theorem MixSite.Lives.workers {M : MixSite} {U : String → Prop} {asked : Nat → Asked}
    {x : Nat → List ExRequest × ItemMap × List FTask} (sane : M.Sane U asked x) {n : Nat} {lazy : Bool} {ev : Nat → SrvEv}
    {st : Nat → Mix} (h : M.Lives U n x lazy ev st) (k : Nat) : (st k).srv.x.t.workers.length = n := by
  induction k with
  | zero =>
    obtain ⟨d, mode, cap, fs, -, -, -, h4⟩ := h.start
    rw [h4]
    show (List.replicate n WPc.idle).length = n
    simp
  | succ k ih => rw [mix_workers sane.site.reader sane.site.offs ((h.reached k).good sane) (h.step k), ih]

/-- What calls meet in the whole of an infinite history. -/
noncomputable def mixEnvs (M : MixSite) (st : Nat → Mix) : Nat → ExtEnv :=
  alongEnv (fun k => (st k).calls M) fun k => mixEnv M (st k) (st (k + 1))

/-- An infinite history of the process is one of the calls, scans among them. -/
theorem MixSite.Lives.calls {M : MixSite} {U : String → Prop} {asked : Nat → Asked}
    {x : Nat → List ExRequest × ItemMap × List FTask} (sane : M.Sane U asked x) {n : Nat} {lazy : Bool} {ev : Nat → SrvEv}
    {st : Nat → Mix} (h : M.Lives U n x lazy ev st) :
    XExecution n (mixEnvs M st) M.site.conf (M.tasks x) (fun k => (st k).part M n (ev k)) (fun k => (st k).calls M) := by
  refine along_execution ?_ (tasks_fresh sane) fun k => ?_
  · obtain ⟨d, mode, cap, fs, -, -, -, h4⟩ := h.start
    rw [h4]; exact start_calls ..
  · exact mix_part sane.site.reader sane.site.offs ((h.reached k).good sane)
      (List.getElem?_eq_none (by rw [h.workers sane k]; exact Nat.le_refl _)) (h.step k)

/-- A step of a worker that does not exist. -/
theorem mix_stutter {M : MixSite} {s : Mix} {n : Nat} (hn : s.srv.x.t.workers[n]? = none) :
    s.step M (.queue (.work n)) = .ok s := by
  rw [Mix.step.eq_def]
  simp only [hn]
  rw [Mix.plain, Srv.step, Srv.work.eq_def]
  have ha : s.srv.x.asking n = none := by
    rw [XSys.asking.eq_def]; simp only [hn]
  simp only [ha]
  rw [no_worker hn, ok_bind]
  rfl

/-- The state after the first events of a list. -/
def mixAt (M : MixSite) (s : Mix) (es : List SrvEv) (k : Nat) : Mix := (s.run M (es.take k)).toOption.getD s

/-- A finite history, continued with steps of a worker that does not exist. -/
theorem mix_forever {M : MixSite} {U : String → Prop} {asked : Nat → Asked}
    {x : Nat → List ExRequest × ItemMap × List FTask} (sane : M.Sane U asked x) {n : Nat} {lazy : Bool} {s : Mix}
    (r : M.Reached U n x lazy s) : ∃ ev st k, M.Lives U n x lazy ev st ∧ st k = s := by
  obtain ⟨d, mode, cap, fs, es, h1, h2, h3, h4, h5⟩ := r
  generalize hz : Mix.start M n (fun g => (x g).2) d mode lazy cap fs = z at h5
  have hrun : ∀ k, z.run M (es.take k) = .ok (mixAt M z es k) := by
    intro k
    have h6 := h5
    rw [← List.take_append_drop k es, mix_append] at h6
    obtain ⟨y, h6, -⟩ := res_bind_inv h6
    rw [mixAt, h6]; rfl
  have hreach : ∀ k, M.Reached U n x lazy (mixAt M z es k) := fun k =>
    ⟨d, mode, cap, fs, es.take k, h1, h2, h3, fun e he => h4 e (List.mem_of_mem_take he), by rw [hz]; exact hrun k⟩
  have hstep : ∀ k (hk : k < es.length), (mixAt M z es k).step M es[k] = .ok (mixAt M z es (k + 1)) := by
    intro k hk
    have h6 := hrun (k + 1)
    rw [List.take_succ_eq_append_getElem hk, mix_append, hrun k, ok_bind, Mix.run] at h6
    obtain ⟨y, h6, h7⟩ := res_bind_inv h6
    rw [h6, ← h7]; rfl
  have hlen : ∀ k, k ≤ es.length → (mixAt M z es k).srv.x.t.workers.length = n := by
    intro k
    induction k with
    | zero =>
      intro _
      show z.srv.x.t.workers.length = n
      rw [← hz]
      show (List.replicate n WPc.idle).length = n
      simp
    | succ k ih =>
      intro hk
      rw [mix_workers sane.site.reader sane.site.offs ((hreach k).good sane) (hstep k hk), ih (by omega)]
  refine ⟨fun k => es[k]?.getD (.queue (.work n)), mixAt M z es, es.length, ⟨⟨fun k => ?_⟩, ?_, fun k => ?_⟩, ?_⟩
  · by_cases hk : k < es.length
    · simp only [List.getElem?_eq_getElem hk, Option.getD_some]
      exact hstep k hk
    · simp only [List.getElem?_eq_none (Nat.le_of_not_lt hk), Option.getD_none]
      have he : ∀ i, es.length ≤ i → mixAt M z es i = mixAt M z es es.length := by
        intro i hi
        rw [mixAt, mixAt, List.take_of_length_le hi, List.take_length]
      rw [he k (by omega), he (k + 1) (by omega)]
      exact mix_stutter (List.getElem?_eq_none (by rw [hlen _ (Nat.le_refl _)]; exact Nat.le_refl _))
  · exact ⟨d, mode, cap, fs, h1, h2, h3, by rw [hz]; rfl⟩
  · by_cases hk : k < es.length
    · simp only [List.getElem?_eq_getElem hk, Option.getD_some]
      exact h4 _ (List.getElem_mem hk)
    · simp only [List.getElem?_eq_none (Nat.le_of_not_lt hk), Option.getD_none]
      trivial
  · rw [mixAt, List.take_length, h5]; rfl

/-- The groups, workers and tasks of calls and scans are in order in every state that can be reached. -/
theorem MixSite.Reached.calls {M : MixSite} {U : String → Prop} {asked : Nat → Asked}
    {x : Nat → List ExRequest × ItemMap × List FTask} (sane : M.Sane U asked x) {n : Nat} {lazy : Bool} {s : Mix}
    (r : M.Reached U n x lazy s) :
    s.srv.x.t.workers.length = n ∧ ∃ E, XInv E M.site.conf (M.tasks x) (s.calls M) := by
  obtain ⟨ev, st, k, h, rfl⟩ := mix_forever sane r
  exact ⟨h.workers sane k, _, (h.calls sane).inv k⟩

/-! ## Workers keep working -/

/-- A step of a worker that does not execute a scan. -/
theorem step_work {M : MixSite} {s : Mix} {w : Nat} (h : s.scanning M w = false) :
    s.step M (.queue (.work w)) = s.plain M (.queue (.work w)) := by
  rw [Mix.step.eq_def]
  simp only
  rw [Mix.scanning.eq_def] at h
  split
  · rename_i g j hr
    rw [hr] at h
    rw [if_neg (by rw [show M.scan g = false from h]; decide)]
  · rfl

theorem scanFail_holders {s s' : Mix} {g j w : Nat} {k : ScanKind} (h : s.scanFail g j w k = .ok s') :
    s'.srv.holders = s.srv.holders := by
  rw [Mix.scanFail] at h
  obtain ⟨t, -, h2⟩ := res_bind_inv h
  rw [← Except.ok.inj h2]; rfl

/-- What a step of a worker that executes a scan does to the lookups of others. -/
theorem scanWork_holders {M : MixSite} {s s' : Mix} {w g j : Nat} (h : s.scanWork M w g j = .ok s') :
    s'.srv.holders = s.srv.holders := by
  rw [Mix.scanWork.eq_def] at h
  split at h
  · rw [Mix.group] at h
    obtain ⟨t, -, h2⟩ := res_bind_inv h
    rw [← Except.ok.inj h2]; rfl
  · rw [Mix.scanRead] at h
    obtain ⟨svc, -, h⟩ := res_bind_inv h
    split at h
    · rw [← Except.ok.inj h]; rfl
    · have := scanFail_holders h; exact this
  · rw [Mix.scanWrite] at h
    simp only at h
    split at h
    · rw [← Except.ok.inj h]; rfl
    · cases h
    · have := scanFail_holders h; exact this
  · rw [Mix.scanAsk] at h
    split at h
    · rw [← Except.ok.inj h]; rfl
    · cases h
    · have := scanFail_holders h; exact this
  · cases h

/-- A worker stays in the middle of a lookup until it steps. -/
theorem mix_holders {M : MixSite} {s s' : Mix} {e : SrvEv} (h : s.step M e = .ok s') {w : Nat} (hne : e ≠ .queue (.work w))
    (hw : w ∈ s.srv.holders) : w ∈ s'.srv.holders := by
  have plain : ∀ {f : SrvEv}, f ≠ .queue (.work w) → s.plain M f = .ok s' → w ∈ s'.srv.holders := by
    intro f hf h
    rw [Mix.plain] at h
    obtain ⟨y, h1, h2⟩ := res_bind_inv h
    rw [← Except.ok.inj h2]
    exact holders_stay h1 hf hw
  have group : ∀ {a : Option TEv}, s.group a = .ok s' → w ∈ s'.srv.holders := by
    intro a h
    rw [Mix.group] at h
    obtain ⟨t, -, h2⟩ := res_bind_inv h
    rw [← Except.ok.inj h2]; exact hw
  rw [Mix.step.eq_def] at h
  split at h
  · split at h
    · exact group h
    · exact plain hne h
  · split at h
    · exact group h
    · exact plain hne h
  · split at h
    · split at h
      · rw [scanWork_holders h]; exact hw
      · exact plain hne h
    · exact plain hne h
  · split at h
    · obtain ⟨y, h1, h2⟩ := res_bind_inv h
      rw [← Except.ok.inj h2]
      exact holders_stay h1 hne hw
    · rw [← Except.ok.inj h]; exact hw
  · obtain ⟨y, h1, h2⟩ := res_bind_inv h
    rw [← Except.ok.inj h2]
    exact holders_stay h1 hne hw
  · exact plain hne h

/-- Every worker makes steps of its tasks again and again. -/
theorem MixExecution.works {M : MixSite} {ev : Nat → SrvEv} {st : Nat → Mix} (h : MixExecution M ev st) {n w : Nat}
    (fair : ∀ k, ∃ m, k ≤ m ∧ ev m = .queue (.work w)) (k : Nat) : ∃ m, k ≤ m ∧ (st m).part M n (ev m) = .work w := by
  have hpart : ∀ m, ev m = .queue (.work w) → (st m).scanning M w = true ∨ (st m).srv.looks w = false →
      (st m).part M n (ev m) = .work w := by
    intro m em hc
    rw [em, Mix.part]
    by_cases hs : (st m).scanning M w = true
    · rw [if_pos hs]
    · rw [if_neg hs, Srv.part, if_neg (by rw [hc.resolve_left hs]; decide)]
  obtain ⟨m, hm, em⟩ := fair k
  cases hs : (st m).scanning M w with
  | true => exact ⟨m, hm, hpart m em (.inl hs)⟩
  | false =>
    cases hl : (st m).srv.looks w with
    | false => exact ⟨m, hm, hpart m em (.inr hl)⟩
    | true =>
      have hold : w ∈ (st (m + 1)).srv.holders := by
        have h1 := h.step m
        rw [em, step_work hs, Mix.plain] at h1
        obtain ⟨y, h1, h2⟩ := res_bind_inv h1
        rw [← Except.ok.inj h2]
        exact looks_holds h1 hl
      obtain ⟨m', hm', em', hfirst⟩ := first_from (fair (m + 1))
      have : ∀ i, m + 1 + i ≤ m' → w ∈ (st (m + 1 + i)).srv.holders := by
        intro i
        induction i with
        | zero => intro _; exact hold
        | succ i ih =>
          intro hle
          exact mix_holders (h.step (m + 1 + i)) (hfirst _ (by omega) (by omega)) (ih (by omega))
      have hw := this (m' - (m + 1)) (by omega)
      rw [show m + 1 + (m' - (m + 1)) = m' from by omega] at hw
      exact ⟨m', by omega, hpart m' em' (.inr (by simp [Srv.looks, hw]))⟩

/-- With fair workers and a fair thread a call, scan or extraction, returns, unless a task of it was cancelled. -/
theorem MixSite.Lives.returns {M : MixSite} {U : String → Prop} {asked : Nat → Asked}
    {x : Nat → List ExRequest × ItemMap × List FTask} (sane : M.Sane U asked x) {n : Nat} (hn : 0 < n) {lazy : Bool}
    {ev : Nat → SrvEv} {st : Nat → Mix} (h : M.Lives U n x lazy ev st) (workers : SrvWorkersFair n ev) {g : Nat}
    (thread : SrvCallFair g ev) (tasks : (M.tasks x g).2 ≠ []) :
    (∃ k, ((st k).srv.x.t.grp g).phase = .returned) ∨ (∃ k, .cancelled ∈ ((st k).srv.x.t.grp g).tasks) := by
  refine C71_returns_partial n hn _ M.site.conf (M.tasks x) _ _ (h.calls sane) ?_ g ?_ tasks
  · intro w hw k
    obtain ⟨⟨m1, a1, b1⟩, ⟨m2, a2, b2⟩, -⟩ := workers w hw k
    exact ⟨⟨m1, a1, by simp only [b1]; rfl⟩, ⟨m2, a2, by simp only [b2]; rfl⟩,
      h.toMixExecution.works (fun k => (workers w hw k).2.2) k⟩
  · intro k
    obtain ⟨⟨m1, a1, b1⟩, ⟨m2, a2, b2⟩, ⟨m3, a3, b3⟩, ⟨m4, a4, b4⟩⟩ := thread k
    exact ⟨⟨m1, a1, by simp only [b1]; rfl⟩, ⟨m2, a2, by simp only [b2]; rfl⟩, ⟨m3, a3, by simp only [b3]; rfl⟩,
      ⟨m4, a4, by simp only [b4]; rfl⟩⟩

/-- From a state in which it has not begun, a call none of whose tasks is cancelled returns. -/
theorem MixSite.Lives.completes {M : MixSite} {U : String → Prop} {asked : Nat → Asked}
    {x : Nat → List ExRequest × ItemMap × List FTask} (sane : M.Sane U asked x) {n : Nat} (hn : 0 < n) {lazy : Bool}
    {ev : Nat → SrvEv} {st : Nat → Mix} (h : M.Lives U n x lazy ev st) (workers : SrvWorkersFair n ev) {g : Nat}
    (thread : SrvCallFair g ev) (tasks : (M.tasks x g).2 ≠ []) {k0 : Nat}
    (unbegun : (((st k0).calls M).job g).time = 0)
    (unharmed : ∀ c, .cancelled ∉ ((st (k0 + c)).srv.x.t.grp g).tasks) :
    ∃ c, ((st (k0 + c)).srv.x.t.grp g).phase = .returned := by
  have hx := h.calls sane
  have early : ∀ k, k < k0 → ((st k).srv.x.t.grp g).phase ≠ .returned ∧ .cancelled ∉ ((st k).srv.x.t.grp g).tasks := by
    intro k hk
    have mono : ∀ c, (((st k).calls M).job g).time ≤ (((st (k + c)).calls M).job g).time := by
      intro c
      induction c with
      | zero => exact Nat.le_refl _
      | succ c ih => exact Nat.le_trans ih (xstep_time (hx.step (k + c)) g)
    have h0 := mono (k0 - k)
    rw [show k + (k0 - k) = k0 from by omega, unbegun] at h0
    exact (hx.inv k).unbegun (tasks_fresh sane) (Nat.le_zero.mp h0)
  rcases h.returns sane hn workers thread tasks with ⟨k, hk⟩ | ⟨k, hk⟩
  · by_cases hlt : k < k0
    · exact absurd hk (early k hlt).1
    · exact ⟨k - k0, by rw [show k0 + (k - k0) = k from by omega]; exact hk⟩
  · by_cases hlt : k < k0
    · exact absurd hk (early k hlt).2
    · exact absurd hk (by have := unharmed (k - k0); rw [show k0 + (k - k0) = k from by omega] at this; exact this)

end GJ
