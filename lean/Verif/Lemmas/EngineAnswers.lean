import Verif.Lemmas.EngineLive
import Verif.Lemmas.EngineSafe

/-!
# The engine succeeds when what it depends on answers

Tasks of all three kinds, and the scheduling of both local and forwarded work.
-/

namespace GJ

open Spec

/-- The environment answers for the fields wanted: `W u q` says that the field at `u` is asked for by `q`. -/
structure Ready (E : ExtEnv) (C : EngineConf) (fwd : Bool) (info : String → Nat → Info) (W : Uri → ExRequest → Prop) :
    Prop where
  metadata : fwd = false → ∀ t u q offs is, W u q → u.scheme ≠ "fdb" → E.infos t u.path offs = .ok is →
    is = offs.map (info u.path)
  infos : fwd = false → ∀ t f offs, offs ≠ [] → offs.Nodup →
    (∀ o ∈ offs, ∃ u q, W u q ∧ u.scheme ≠ "fdb" ∧ u.path = f ∧ u.offset = o) → ∃ is, E.infos t f offs = .ok is
  grid : fwd = false → ∀ u q, W u q → u.scheme ≠ "fdb" →
    gridCheck C.ignoreGrid q.gridHash (info u.path u.offset).base.md5GridSection = .ok ()
  jump : fwd = false → ∀ t u q, W u q → u.scheme ≠ "fdb" →
    ∃ r, E.jump t u.path u.offset (info u.path u.offset) q.ranges = .ok r
  fetch : fwd = false → ∀ t u q, W u q → u.scheme = "fdb" → C.inefficient = true ∧ ∃ r, E.fetch t u q.ranges = .ok r
  servers : fwd = true → ∀ u q, W u q → ∃ server, C.servers.find (u.host, u.port) = some server
  forward : fwd = true → ∀ t server fm, Addressed C server fm → fm ≠ [] →
    (∀ f ∈ fm, f.2 ≠ [] ∧ (f.2.map fun i => i.uri.offset).Nodup ∧ ∀ i ∈ f.2, W i.uri i.request) →
    ∃ back, E.forward t server fm = .ok back ∧ Shaped fm back

/-- The items of one file: there are some, at different offsets, all wanted. -/
def FileReady (W : Uri → ExRequest → Prop) (m : ItemMap) (ks : List String) : Prop :=
  ks ≠ [] ∧ (ks.map (offsetOf m)).Nodup ∧ ∀ k ∈ ks, ∃ it, m.find k = some it ∧ W it.uri it.request

/-- A task that can be done. -/
def FTask.Ready (W : Uri → ExRequest → Prop) (m : ItemMap) (T : FTask) : Prop :=
  match T.kind with
  | .file _ ks => FileReady W m ks
  | .inefficient _ ks => ∀ k ∈ ks, ∃ it, m.find k = some it ∧ it.uri.scheme = "fdb" ∧ W it.uri it.request
  | .forward _ files => files ≠ [] ∧ ∀ f ∈ files, FileReady W m f.2

theorem FileReady.same {W : Uri → ExRequest → Prop} {m m' : ItemMap} {ks : List String} (h : FileReady W m ks)
    (hs : SameItems m m') : FileReady W m' ks := by
  refine ⟨h.1, ?_, ?_⟩
  · have : ks.map (offsetOf m') = ks.map (offsetOf m) := List.map_congr_left fun k _ => hs.offsetOf k
    rw [this]; exact h.2.1
  · intro k hk
    obtain ⟨it, h1, h2⟩ := h.2.2 k hk
    obtain ⟨it', h1', hq, hu⟩ := hs.find h1
    exact ⟨it', h1', by rw [hu, hq]; exact h2⟩

theorem FTask.Ready.same {W : Uri → ExRequest → Prop} {m m' : ItemMap} {T : FTask} (h : T.Ready W m)
    (hs : SameItems m m') : T.Ready W m' := by
  obtain ⟨kind, pc⟩ := T
  cases kind with
  | file f ks => exact FileReady.same h hs
  | inefficient f ks =>
    intro k hk
    obtain ⟨it, h1, h2, h3⟩ := h k hk
    obtain ⟨it', h1', hq, hu⟩ := hs.find h1
    exact ⟨it', h1', by rw [hu]; exact h2, by rw [hu, hq]; exact h3⟩
  | forward s files => exact ⟨h.1, fun f hf => (h.2 f hf).same hs⟩

theorem storeResults_ok {m : ItemMap} {ks : List String} {is : List Item}
    (hk : ∀ k ∈ ks, ∃ it, m.find k = some it) (hl : ks.length ≤ is.length) (hr : ∀ i ∈ is, i.result ≠ none) :
    ∃ m', storeResults m ks is = .ok m' := by
  induction ks generalizing m is with
  | nil => exact ⟨m, rfl⟩
  | cons k ks ih =>
    cases is with
    | nil => simp at hl
    | cons i is =>
      rw [storeResults]
      cases hres : i.result with
      | none => exact absurd hres (hr i (by simp))
      | some r =>
        obtain ⟨it, hit⟩ := hk k (by simp)
        obtain ⟨m1, h1⟩ := setResult_ok r hit
        obtain ⟨s1, -, -⟩ := setResult_spec (P := fun _ _ _ => True) h1 (fun _ _ => trivial)
        simp only
        rw [h1, ok_bind]
        refine ih ?_ (by simpa using hl) (fun i hi => hr i (by simp [hi]))
        intro k' hk'
        obtain ⟨it', hit'⟩ := hk k' (by simp [hk'])
        obtain ⟨it2, h3, -⟩ := s1.find hit'
        exact ⟨it2, h3⟩

theorem storeAll_ok {m : ItemMap} {fs : KeyMap} {back : FileMap}
    (hk : ∀ f ∈ fs, ∀ k ∈ f.2, ∃ it, m.find k = some it)
    (hb : ∀ f ∈ fs, ∃ items', back.find f.1 = some items' ∧ f.2.length ≤ items'.length ∧ ∀ i ∈ items', i.result ≠ none) :
    ∃ m', storeAll m fs back = .ok m' := by
  induction fs generalizing m with
  | nil => exact ⟨m, rfl⟩
  | cons f fs ih =>
    rw [storeAll]
    obtain ⟨items', h1, h2, h3⟩ := hb f (by simp)
    obtain ⟨m1, h4⟩ := storeResults_ok (hk f (by simp)) h2 h3
    obtain ⟨s1, -, -⟩ := storeResults_spec (P := fun _ _ _ => True) h4 (fun _ _ _ _ _ _ _ _ _ => trivial)
    rw [h1, Option.getD_some, h4, ok_bind]
    refine ih ?_ (fun g hg => hb g (by simp [hg]))
    intro g hg k hk'
    obtain ⟨it, hit⟩ := hk g (by simp [hg]) k hk'
    obtain ⟨it2, h6, -⟩ := s1.find hit
    exact ⟨it2, h6⟩

theorem sorted_offsets_nodup {m : ItemMap} {ks : List String} (h : (ks.map (offsetOf m)).Nodup) :
    ((sortKeys m ks).map (offsetOf m)).Nodup :=
  (((sortKeys_perm m ks).map (offsetOf m)).nodup_iff).mpr h

theorem itemsOf_offsets {m : ItemMap} {ks : List String} (h : ∀ k ∈ ks, ∃ it, m.find k = some it) :
    (itemsOf m ks).map (fun i => i.uri.offset) = ks.map (offsetOf m) := by
  induction ks with
  | nil => rfl
  | cons k ks ih =>
    obtain ⟨it, hit⟩ := h k (by simp)
    have := ih fun k hk => h k (by simp [hk])
    rw [itemsOf] at this ⊢
    rw [List.filterMap_cons, hit]
    simp only [List.map_cons, this]
    congr 1
    rw [offsetOf, hit]; rfl

theorem task_step_ok {E : ExtEnv} {C : EngineConf} {fwd : Bool} {info : String → Nat → Info} {W : Uri → ExRequest → Prop}
    {P : Uri → ExRequest → WireResult → Prop} (hE : Ready E C fwd info W) {t : Nat} {m : ItemMap} {T : FTask}
    (hr : T.Ready W m) (hv : T.Valid C fwd m) (hp : T.Progress E P m) : ∃ r, T.step E C t m = .ok r := by
  obtain ⟨kind, pc⟩ := T
  cases pc with
  | failed => cases kind <;> exact ⟨_, rfl⟩
  | finished => cases kind <;> exact ⟨_, rfl⟩
  | fresh =>
    cases kind with
    | file f ks =>
      rw [FTask.step]
      simp only []
      obtain ⟨hne, hnd, hw⟩ := hr
      have hloc : fwd = false := by
        obtain ⟨k0, hk0⟩ := List.exists_mem_of_ne_nil ks hne
        exact (hv k0 hk0).choose_spec.2.2.2
      obtain ⟨is, his⟩ := hE.infos hloc t f ((sortKeys m ks).map (offsetOf m)) (by
        intro h
        rw [List.map_eq_nil_iff] at h
        have hl := (sortKeys_perm m ks).length_eq
        rw [h] at hl
        exact hne (List.eq_nil_of_length_eq_zero hl.symm)) (sorted_offsets_nodup hnd) (by
        intro o ho
        obtain ⟨k, hk, rfl⟩ := List.mem_map.mp ho
        have hk' := (sortKeys_perm m ks).mem_iff.mp hk
        obtain ⟨it, h1, h2⟩ := hw k hk'
        obtain ⟨it', h1', h3, h4, -⟩ := hv k hk'
        rw [h1] at h1'
        cases h1'
        exact ⟨it.uri, it.request, h2, h4, h3, by rw [offsetOf, h1]; rfl⟩)
      rw [his, ok_bind]
      have : is = ((sortKeys m ks).map (offsetOf m)).map (info f) := by
        obtain ⟨k0, hk0⟩ := List.exists_mem_of_ne_nil ks hne
        obtain ⟨it, h1, h2⟩ := hw k0 hk0
        obtain ⟨it', h1', h3, h4, -⟩ := hv k0 hk0
        rw [h1] at h1'
        cases h1'
        rw [← h3] at his ⊢
        exact hE.metadata hloc t it.uri it.request _ is h2 h4 his
      obtain ⟨todo, ht⟩ := pairInfos_ok m (sortKeys m ks) is (by rw [this]; simp)
      rw [ht]
      exact ⟨_, rfl⟩
    | inefficient f ks => exact ⟨_, rfl⟩
    | forward server files =>
      rw [FTask.step]
      simp only []
      have hloc : fwd = true := hv.1
      have hfind : ∀ f ∈ files, ∀ k ∈ sortKeys m f.2, ∃ it, m.find k = some it ∧ it.uri.path = f.1 ∧
          C.servers.find (it.uri.host, it.uri.port) = some server := fun f hf k hk =>
        hv.2.2 f hf k ((sortKeys_perm m f.2).mem_iff.mp hk)
      have hex : ∀ f ∈ files, ∀ k ∈ sortKeys m f.2, ∃ it, m.find k = some it := fun f hf k hk =>
        (hfind f hf k hk).imp fun _ h => h.1
      have hadd : Addressed C server
          ((files.map fun f => (f.1, sortKeys m f.2)).map fun f => (f.1, itemsOf m f.2)) := by
        refine ⟨by simpa [AMap.keys, List.map_map, Function.comp_def] using hv.2.1, ?_, ?_⟩
        · intro g hg i hi
          simp only [List.map_map, List.mem_map, Function.comp_def] at hg
          obtain ⟨f, hf, rfl⟩ := hg
          obtain ⟨k, hk, hm⟩ := mem_itemsOf hi
          obtain ⟨it, hit, hp, hs⟩ := hfind f hf k hk
          rw [hit] at hm; cases hm
          exact ⟨hp, hs⟩
        · intro g hg
          simp only [List.map_map, List.mem_map, Function.comp_def] at hg
          obtain ⟨f, -, rfl⟩ := hg
          exact itemsOf_sorted (sortKeys_sorted m f.2)
      obtain ⟨back, hb, hsh⟩ := hE.forward hloc t server _ hadd (by
          intro h
          rw [List.map_eq_nil_iff, List.map_eq_nil_iff] at h
          exact hr.1 h) (by
          intro g hg
          simp only [List.map_map, List.mem_map, Function.comp_def] at hg
          obtain ⟨f, hf, rfl⟩ := hg
          obtain ⟨h1, h2, h3⟩ := hr.2 f hf
          simp only
          refine ⟨?_, ?_, ?_⟩
          · intro hnil
            have := congrArg List.length hnil
            rw [itemsOf_length (hex f hf), (sortKeys_perm m f.2).length_eq] at this
            exact h1 (List.eq_nil_of_length_eq_zero this)
          · rw [itemsOf_offsets (hex f hf)]
            exact sorted_offsets_nodup h2
          · intro i hi
            obtain ⟨k, hk, hm⟩ := mem_itemsOf hi
            obtain ⟨it, h4, h5⟩ := h3 k ((sortKeys_perm m f.2).mem_iff.mp hk)
            rw [hm] at h4
            cases h4
            exact h5)
      rw [hb, ok_bind]
      obtain ⟨m', hm'⟩ := storeAll_ok (m := m) (fs := files.map fun f => (f.1, sortKeys m f.2)) (back := back) (by
          intro g hg k hk
          obtain ⟨f, hf, rfl⟩ := List.mem_map.mp hg
          exact hex f hf k hk) (by
          intro g hg
          obtain ⟨f, hf, rfl⟩ := List.mem_map.mp hg
          obtain ⟨items', h1, h2, h3⟩ := hsh f.1 (itemsOf m (sortKeys m f.2)) (List.mem_map.mpr ⟨_, hg, rfl⟩)
          rw [itemsOf_length (hex f hf)] at h2
          exact ⟨items', h1, h2, h3⟩)
      rw [hm']
      exact ⟨_, rfl⟩
  | work todo =>
    cases kind with
    | inefficient f ks => exact absurd hp (by simp [FTask.Progress])
    | forward s fs => exact absurd hp (by simp [FTask.Progress])
    | file f ks =>
      cases todo with
      | nil => exact ⟨_, rfl⟩
      | cons x todo =>
        obtain ⟨k, o, i⟩ := x
        rw [FTask.step]
        obtain ⟨hko, t0, offs, infos, j, hinf, hoj, hij⟩ := (hp.2 _ (List.mem_cons_self ..)).2
        have hkm := (hp.2 _ (List.mem_cons_self ..)).1
        obtain ⟨it, hit, hpath, hsch, hloc⟩ := hv k hkm
        obtain ⟨it', hit', hW⟩ := hr.2.2 k hkm
        rw [hit] at hit'
        cases hit'
        simp only [hit]
        simp only [] at hko hoj hij
        have ho : o = it.uri.offset := by rw [hko, offsetOf, hit]; rfl
        have hi : i = info it.uri.path it.uri.offset := by
          have e := hE.metadata hloc t0 it.uri it.request offs infos hW hsch (by rw [hpath]; exact hinf)
          rw [hpath] at e
          rw [e, List.getElem?_map, hoj, Option.map_some] at hij
          rw [← Option.some.inj hij, ho, hpath]
        rw [hi, hE.grid hloc it.uri it.request hW hsch, ok_bind]
        obtain ⟨r, hr⟩ := hE.jump hloc t it.uri it.request hW hsch
        rw [ho, ← hpath, hr, ok_bind]
        obtain ⟨m', hm'⟩ := setResult_ok r hit
        rw [hm']
        exact ⟨_, rfl⟩
  | fetching todo =>
    cases kind with
    | file f ks => exact absurd hp (by simp [FTask.Progress])
    | forward s fs => exact absurd hp (by simp [FTask.Progress])
    | inefficient f ks =>
      cases todo with
      | nil => exact ⟨_, rfl⟩
      | cons k todo =>
        rw [FTask.step]
        have hkm := hp.2 k (List.mem_cons_self ..)
        obtain ⟨it, hit, hs, hW⟩ := hr k hkm
        have hloc : fwd = false := (hv k hkm).choose_spec.2.2
        simp only [hit]
        rw [if_neg (fun hn => hn hs)]
        obtain ⟨-, r, hr⟩ := hE.fetch hloc t it.uri it.request hW hs
        rw [hr, ok_bind]
        obtain ⟨m', hm'⟩ := setResult_ok r hit
        rw [hm']
        exact ⟨_, rfl⟩

/-- Runs of tasks that can be done report no error. -/
theorem readyRun_ok {E : ExtEnv} {C : EngineConf} {P : Uri → ExRequest → WireResult → Prop} {fwd : Bool}
    {info : String → Nat → Info} {W : Uri → ExRequest → Prop} (hP : Produces E C fwd P) (hE : Ready E C fwd info W)
    {m : ItemMap} {tasks : List FTask} {js : List Nat} {s : FSys} (hi : RunInv E C fwd P m tasks s) (he : s.errors = [])
    (hr : ∀ T ∈ tasks, T.Ready W m) : ∃ s', s.run E C js = .ok s' ∧ s'.errors = [] ∧ RunInv E C fwd P m tasks s' := by
  induction js generalizing s with
  | nil => exact ⟨s, rfl, he, hi⟩
  | cons j js ih =>
    have hstep : ∃ s1, s.step E C j = .ok s1 ∧ s1.errors = [] := by
      rw [FSys.step]
      cases ht : s.tasks[j]? with
      | none => exact ⟨_, rfl, he⟩
      | some T =>
        simp only []
        have hTm := List.mem_of_getElem? ht
        have hk : T.kind ∈ tasks.map FTask.kind := by
          rw [← hi.kinds]; exact List.mem_map.mpr ⟨T, hTm, rfl⟩
        obtain ⟨T0, hT0, ek⟩ := List.mem_map.mp hk
        have hrT : T.Ready W s.items := by
          have := (hr T0 hT0).same hi.same
          rw [FTask.Ready] at this ⊢
          rw [← ek]
          exact this
        obtain ⟨r, hr⟩ := task_step_ok hE (t := s.time) hrT (hi.valid T hTm) (hi.progress he T hTm)
        rw [hr]
        exact ⟨_, rfl, he⟩
    obtain ⟨s1, h1, h2⟩ := hstep
    obtain ⟨i1, -⟩ := sysStep_spec hP hi h1 h2
    obtain ⟨s2, h3, h4, h5⟩ := ih i1 h2
    exact ⟨s2, by rw [FSys.run, h1, ok_bind, h3], h4, h5⟩

theorem readyTasks_ok {E : ExtEnv} {C : EngineConf} {P : Uri → ExRequest → WireResult → Prop} {fwd : Bool}
    {info : String → Nat → Info} {W : Uri → ExRequest → Prop} (hP : Produces E C fwd P) (hE : Ready E C fwd info W)
    {m : ItemMap} {tasks : List FTask} {sched : List Nat} (hne : tasks ≠ []) (hf : ∀ T ∈ tasks, T.pc = .fresh)
    (hv : ∀ T ∈ tasks, T.Valid C fwd m) (hr : ∀ T ∈ tasks, T.Ready W m) :
    ∃ s, runTasks E C m tasks sched = .ok s ∧ s.errors = [] := by
  have i0 : RunInv E C fwd P m tasks ⟨m, tasks, [], 0⟩ := by
    refine ⟨SameItems.refl _, rfl, hv, ?_⟩
    intro _ T hT
    have := hf T hT
    obtain ⟨kind, pc⟩ := T
    simp only [] at this
    subst this
    cases kind <;> trivial
  have hpos : cassert (decide (0 < tasks.length)) = .ok () := by
    rw [decide_eq_true (List.length_pos_iff.mpr hne)]
    rfl
  obtain ⟨s1, h1, h2, h3⟩ := readyRun_ok hP hE i0 rfl hr (js := sched)
  obtain ⟨s2, h4, h5, -⟩ := readyRun_ok hP hE h3 h2 hr
    (js := (List.range tasks.length).flatMap fun j => List.replicate ((tasks[j]?.map FTask.fuel).getD 0) j)
  exact ⟨s2, by rw [runTasks, hpos, ok_bind, h1, ok_bind, h4], h5⟩

theorem readyLocal_ok {C : EngineConf} {m : ItemMap} {fm : KeyMap} {q : Bool}
    (hpath : ∀ e ∈ fm, ∀ k ∈ e.2, ∃ it, m.find k = some it ∧ it.uri.path = e.1) (hne : ∀ e ∈ fm, e.2 ≠ [])
    (hs : ∀ e ∈ fm, ∀ k ∈ e.2, ∀ it, m.find k = some it → it.uri.scheme = "fdb" → C.inefficient = true) :
    ∃ ts, localTasks C m q fm = .ok ts ∧ (fm ≠ [] → ts ≠ []) ∧ ∀ T ∈ ts, ∃ e ∈ fm, ∃ u, firstUri m e.2 = .ok u ∧
      ((u.scheme = "fdb" ∧ T.kind = .inefficient e.1 e.2) ∨ (u.scheme ≠ "fdb" ∧ T.kind = .file e.1 e.2)) := by
  induction fm generalizing q with
  | nil => exact ⟨[], rfl, (fun h => absurd rfl h), fun _ h => by cases h⟩
  | cons e fm ih =>
    obtain ⟨f, ks⟩ := e
    cases hks : ks with
    | nil => exact absurd hks (hne (f, ks) (List.mem_cons_self ..))
    | cons k0 ks0 =>
      have hk0 : k0 ∈ (f, ks).2 := by rw [hks]; exact List.mem_cons_self ..
      obtain ⟨it, hit, -⟩ := hpath (f, ks) (List.mem_cons_self ..) k0 hk0
      have hsch := hs (f, ks) (List.mem_cons_self ..) k0 hk0 it hit
      have hfu : firstUri m (k0 :: ks0) = .ok it.uri := by simp only [firstUri, hit]
      obtain ⟨tl, htl, -, hall⟩ := ih (q := true) (fun e he => hpath e (List.mem_cons_of_mem _ he))
        (fun e he => hne e (List.mem_cons_of_mem _ he)) (fun e he => hs e (List.mem_cons_of_mem _ he))
      rw [localTasks, hfu, ok_bind]
      by_cases hfdb : it.uri.scheme = "fdb"
      · rw [if_pos hfdb, if_pos (hsch hfdb), htl, ok_bind]
        refine ⟨_, rfl, (fun _ => by simp), ?_⟩
        intro T hT
        rcases List.mem_cons.mp hT with rfl | hT
        · exact ⟨_, List.mem_cons_self .., it.uri, hfu, Or.inl ⟨hfdb, rfl⟩⟩
        · obtain ⟨e, he, h⟩ := hall T hT
          exact ⟨e, List.mem_cons_of_mem _ he, h⟩
      · rw [if_neg hfdb, htl, ok_bind]
        refine ⟨_, rfl, (fun _ => by simp), ?_⟩
        intro T hT
        rcases List.mem_cons.mp hT with rfl | hT
        · exact ⟨_, List.mem_cons_self .., it.uri, hfu, Or.inr ⟨hfdb, rfl⟩⟩
        · obtain ⟨e, he, h⟩ := hall T hT
          exact ⟨e, List.mem_cons_of_mem _ he, h⟩

theorem readyServers_ok {C : EngineConf} {m : ItemMap} : ∀ {fm : KeyMap} (acc : AMap (String × Int) (List String)),
    (∀ e ∈ fm, e.2 ≠ []) → (∀ e ∈ fm, ∀ k ∈ e.2, ∃ it, m.find k = some it ∧
      ∃ server, C.servers.find (it.uri.host, it.uri.port) = some server) →
    ∃ sf, serverFiles C m fm acc = .ok sf := by
  intro fm
  induction fm with
  | nil => intro acc _ _; exact ⟨acc, rfl⟩
  | cons e fm ih =>
    intro acc hne hk
    obtain ⟨f, ks⟩ := e
    cases hks : ks with
    | nil => exact absurd hks (hne (f, ks) (List.mem_cons_self ..))
    | cons k0 ks0 =>
      obtain ⟨it, hit, server, hs⟩ := hk (f, ks) (List.mem_cons_self ..) k0 (by rw [hks]; exact List.mem_cons_self ..)
      have hfu : firstUri m (k0 :: ks0) = .ok it.uri := by simp only [firstUri, hit]
      rw [serverFiles, hfu, ok_bind, serverFor]
      simp only [hs, ok_bind]
      exact ih _ (fun e he => hne e (List.mem_cons_of_mem _ he)) (fun e he => hk e (List.mem_cons_of_mem _ he))

/-- Scheduling succeeds without errors when the environment answers for every item. -/
theorem readySchedule_ok {E : ExtEnv} {C : EngineConf} {P : Uri → ExRequest → WireResult → Prop} {fwd : Bool}
    {info : String → Nat → Info} {W : Uri → ExRequest → Prop} (hP : Produces E C fwd P) (hE : Ready E C fwd info W)
    {m : ItemMap} {fm : KeyMap} {done : List String} {sched : List Nat} (g : Groups m fm done) (hsch : OneScheme m fm)
    (ho : fwd = true → OnePlace m fm) (hd : done ≠ []) (hn : done.Nodup) (hW : ∀ k ∈ done, ∀ it, m.find k = some it → W it.uri it.request)
    (hap : ∀ k ∈ done, ∀ k' ∈ done, ∀ it it', m.find k = some it → m.find k' = some it' → it.uri.path = it'.uri.path →
      it.uri.offset = it'.uri.offset → k = k') :
    ∃ m', scheduleTasks E C fwd m fm sched = .ok (m', []) := by
  have hfm : fm ≠ [] := by
    rintro rfl
    have := g.part
    rw [List.flatMap_nil] at this
    exact hd (List.nil_perm.mp this)
  have hfiles : ∀ e ∈ fm, FileReady W m e.2 := by
    intro e he
    refine ⟨g.nonempty e he, ?_, ?_⟩
    · have hnd : e.2.Nodup := nodup_of_flatMap ((g.part.nodup_iff).mpr hn) e he
      rw [List.Nodup, List.pairwise_map]
      refine List.Pairwise.imp_of_mem ?_ hnd
      intro a b ha hb hab hoff
      obtain ⟨ia, h1, h2⟩ := g.path e he a ha
      obtain ⟨ib, h3, h4⟩ := g.path e he b hb
      refine hab (hap a (g.mem_done he ha) b (g.mem_done he hb) ia ib h1 h3 (by rw [h2, h4]) ?_)
      simpa [offsetOf, h1, h3] using hoff
    · intro k hk
      obtain ⟨it, h1, -⟩ := g.path e he k hk
      exact ⟨it, h1, hW k (g.mem_done he hk) it h1⟩
  rw [scheduleTasks]
  cases fwd with
  | false =>
    obtain ⟨ts, hts, hne, hall⟩ := readyLocal_ok (C := C) (m := m) (q := false) g.path g.nonempty (by
      intro e he k hk it hit hs
      exact (hE.fetch rfl 0 it.uri it.request (hW k (g.mem_done he hk) it hit) hs).1)
    obtain ⟨h1, h2, -⟩ := localTasks_spec g.path
      hsch hts
    obtain ⟨s, hs, hs'⟩ := readyTasks_ok (sched := sched) hP hE (hne hfm) h1 h2 (by
      intro T hT
      obtain ⟨e, he, u, hu, hk⟩ := hall T hT
      rcases hk with ⟨hsc, hk⟩ | ⟨-, hk⟩
      · rw [FTask.Ready, hk]
        intro k hk
        obtain ⟨k0, it0, hk0, hit0, hu0⟩ := firstUri_spec hu
        obtain ⟨it, hit, hw⟩ := (hfiles e he).2.2 k hk
        refine ⟨it, hit, ?_, hw⟩
        rw [hsch e he k hk k0 hk0 it it0 hit hit0, hu0, hsc]
      · rw [FTask.Ready, hk]
        exact hfiles e he)
    refine ⟨s.items, ?_⟩
    rw [if_neg (by simp), hts, ok_bind, hs, ok_bind, hs']
  | true =>
    obtain ⟨sf, hsf⟩ := readyServers_ok (C := C) (m := m) (fm := fm) [] g.nonempty (by
      intro e he k hk
      obtain ⟨it, hit, hw⟩ := (hfiles e he).2.2 k hk
      exact ⟨it, hit, hE.servers rfl it.uri it.request hw⟩)
    obtain ⟨sm, hsm⟩ : ∃ sm, serverFileMap C m fm = .ok sm := ⟨_, by rw [serverFileMap, hsf]; rfl⟩
    obtain ⟨-, hperm, hne, hsub, hserv⟩ := serverFileMap_spec g.files hsm
    obtain ⟨s, hs, hs'⟩ := readyTasks_ok (m := m) (tasks := sm.map fun e => ⟨.forward e.1 e.2, .fresh⟩) (sched := sched) hP hE (by
        intro h
        rw [List.map_eq_nil_iff] at h
        rw [h] at hperm
        exact hfm (List.nil_perm.mp hperm)) (by
        intro T hT
        obtain ⟨e, -, rfl⟩ := List.mem_map.mp hT
        rfl) (by
        intro T hT
        obtain ⟨e, he, rfl⟩ := List.mem_map.mp hT
        refine ⟨rfl, hsub e he, ?_⟩
        intro f hf k hk
        obtain ⟨hfm, u, hu, hsv⟩ := hserv e he f hf
        obtain ⟨k0, it0, hk0, hit0, hu0⟩ := firstUri_spec hu
        obtain ⟨it, hit, hpa⟩ := g.path f hfm k hk
        have := ho rfl f hfm k hk k0 hk0 it it0 hit hit0
        refine ⟨it, hit, hpa, ?_⟩
        rw [this.2.1, this.2.2, hu0]
        exact hsv) (by
        intro T hT
        obtain ⟨e, he, rfl⟩ := List.mem_map.mp hT
        exact ⟨hne e he, fun f hf => hfiles f (hserv e he f hf).1⟩)
    refine ⟨s.items, ?_⟩
    rw [if_pos rfl, hsm, ok_bind, hs, ok_bind, hs']

end GJ
