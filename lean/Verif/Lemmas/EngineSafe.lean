import Verif.Lemmas.EngineFiles
import Verif.Lemmas.MachineSafe

/-!
# The engine does nothing undefined

Unlike the lemmas on what the engine delivers, these hold when calls fail, tasks are abandoned and listings repeat fields.
-/

namespace GJ

open Spec

theorem Safe.of_ne {α : Type} {a : Res α} (h : a ≠ undef) : Safe (fun v => a = .ok v) a := ⟨h, fun _ h => h⟩

/-- Every item has a result. -/
def Filled (m : ItemMap) : Prop := ∀ k it, m.find k = some it → it.result ≠ none

/-- What an answer to a forwarded request must look like. -/
def Shaped (fm back : FileMap) : Prop :=
  ∀ f items, (f, items) ∈ fm → ∃ items', back.find f = some items' ∧ items.length ≤ items'.length ∧
    ∀ i ∈ items', i.result ≠ none

/-- The environment does nothing undefined when fields are asked for intervals that `A` accepts. -/
structure Steady (E : ExtEnv) (A : String → Nat → List Interval → Prop) : Prop where
  list : ∀ u, E.list u ≠ undef
  infos : ∀ t f os, Safe (fun is => os.length ≤ is.length) (E.infos t f os)
  jump : ∀ t t' f o i rs os is (j : Nat), A f o rs → E.infos t' f os = .ok is → os[j]? = some o → is[j]? = some i →
    E.jump t f o i rs ≠ undef
  fetch : ∀ t u rs, A u.path u.offset rs → E.fetch t u rs ≠ undef
  forward : ∀ t s fm, fm.keys.Nodup → (∀ f ∈ fm, ∀ i ∈ f.2, i.result ≠ none) → Safe (Shaped fm) (E.forward t s fm)

/-! ## Storing results -/

theorem setResult_safe {m : ItemMap} {k : String} (r : WireResult) {it : Item} (h : m.find k = some it) (hf : Filled m) :
    Safe (fun m' => SameItems m m' ∧ Filled m') (setResult m k r) := by
  refine ⟨?_, ?_⟩
  · rw [setResult, h]; intro h; cases h
  · intro m' hm
    obtain ⟨h1, -, -⟩ := setResult_spec (P := fun _ _ _ => True) hm (fun _ _ => trivial)
    refine ⟨h1, ?_⟩
    rw [setResult, h] at hm
    have e := Except.ok.inj hm
    subst e
    intro k' it' hk'
    rw [AMap.find_set] at hk'
    split at hk'
    · cases hk'; simp
    · exact hf k' it' hk'

theorem storeResults_safe {m : ItemMap} {ks : List String} {is : List Item} (hf : Filled m)
    (hk : ∀ k ∈ ks, ∃ it, m.find k = some it) (hl : ks.length ≤ is.length) (hr : ∀ i ∈ is, i.result ≠ none) :
    Safe (fun m' => SameItems m m' ∧ Filled m') (storeResults m ks is) := by
  induction ks generalizing m is with
  | nil => rw [storeResults]; exact Safe.ok ⟨SameItems.refl _, hf⟩
  | cons k ks ih =>
    cases is with
    | nil => simp at hl
    | cons i is =>
      rw [storeResults]
      cases hres : i.result with
      | none => exact absurd hres (hr i (by simp))
      | some r =>
        obtain ⟨it, hit⟩ := hk k (by simp)
        refine Safe.bind (setResult_safe r hit hf) fun m1 h1 => ?_
        refine (ih h1.2 ?_ (by simpa using hl) (fun i hi => hr i (by simp [hi]))).weaken fun m2 h2 =>
          ⟨h1.1.trans h2.1, h2.2⟩
        intro k' hk'
        obtain ⟨it', hit'⟩ := hk k' (by simp [hk'])
        obtain ⟨it2, h3, -⟩ := h1.1.find hit'
        exact ⟨it2, h3⟩

theorem storeAll_safe {m : ItemMap} {fs : KeyMap} {back : FileMap} (hf : Filled m)
    (hk : ∀ f ∈ fs, ∀ k ∈ f.2, ∃ it, m.find k = some it)
    (hb : ∀ f ∈ fs, ∃ items', back.find f.1 = some items' ∧ f.2.length ≤ items'.length ∧ ∀ i ∈ items', i.result ≠ none) :
    Safe (fun m' => SameItems m m' ∧ Filled m') (storeAll m fs back) := by
  induction fs generalizing m with
  | nil => rw [storeAll]; exact Safe.ok ⟨SameItems.refl _, hf⟩
  | cons f fs ih =>
    rw [storeAll]
    obtain ⟨items', h1, h2, h3⟩ := hb f (by simp)
    rw [h1]
    refine Safe.bind (storeResults_safe hf (hk f (by simp)) h2 h3) fun m1 h4 => ?_
    refine (ih h4.2 ?_ (fun g hg => hb g (by simp [hg]))).weaken fun m2 h5 => ⟨h4.1.trans h5.1, h5.2⟩
    intro g hg k hk'
    obtain ⟨it, hit⟩ := hk g (by simp [hg]) k hk'
    obtain ⟨it2, h6, -⟩ := h4.1.find hit
    exact ⟨it2, h6⟩

/-! ## Tasks -/

/-- The items of a task exist and may be asked for. -/
def FTask.Sound (A : String → Nat → List Interval → Prop) (m : ItemMap) (T : FTask) : Prop :=
  match T.kind with
  | .file f ks => ∀ k ∈ ks, ∃ it, m.find k = some it ∧ A f it.uri.offset it.request.ranges
  | .inefficient _ ks => ∀ k ∈ ks, ∃ it, m.find k = some it ∧
      (it.uri.scheme = "fdb" → A it.uri.path it.uri.offset it.request.ranges)
  | .forward _ files => files.keys.Nodup ∧ ∀ f ∈ files, ∀ k ∈ f.2, ∃ it, m.find k = some it

/-- What a task has still to do belongs to it, and its metadata has been read. -/
def FTask.Queued (E : ExtEnv) (m : ItemMap) (T : FTask) : Prop :=
  match T.kind, T.pc with
  | .file f ks, .work todo => ∀ x ∈ todo, x.1 ∈ ks ∧ TodoOk E m f x
  | .inefficient _ ks, .fetching todo => ∀ k ∈ todo, k ∈ ks
  | _, _ => True

theorem FTask.Sound.same {A : String → Nat → List Interval → Prop} {m m' : ItemMap} {T : FTask} (h : T.Sound A m)
    (hs : SameItems m m') : T.Sound A m' := by
  obtain ⟨kind, pc⟩ := T
  cases kind with
  | file f ks =>
    intro k hk
    obtain ⟨it, h1, h2⟩ := h k hk
    obtain ⟨it', h1', hq, hu⟩ := hs.find h1
    exact ⟨it', h1', by rw [hu, hq]; exact h2⟩
  | inefficient f ks =>
    intro k hk
    obtain ⟨it, h1, h2⟩ := h k hk
    obtain ⟨it', h1', hq, hu⟩ := hs.find h1
    exact ⟨it', h1', by rw [hu, hq]; exact h2⟩
  | forward server files =>
    refine ⟨h.1, ?_⟩
    intro f hf k hk
    obtain ⟨it, h1⟩ := h.2 f hf k hk
    obtain ⟨it', h1', -⟩ := hs.find h1
    exact ⟨it', h1'⟩

theorem FTask.Queued.same {E : ExtEnv} {m m' : ItemMap} {T : FTask} (h : T.Queued E m) (hs : SameItems m m') :
    T.Queued E m' := by
  obtain ⟨kind, pc⟩ := T
  cases pc with
  | work todo =>
    cases kind with
    | file f ks =>
      intro x hx
      refine ⟨(h x hx).1, ?_, (h x hx).2.2⟩
      rw [(h x hx).2.1, hs.offsetOf]
    | inefficient f ks => trivial
    | forward s fs => trivial
  | fetching todo =>
    cases kind with
    | file f ks => trivial
    | inefficient f ks => exact h
    | forward s fs => trivial
  | fresh => cases kind <;> trivial
  | finished => cases kind <;> trivial
  | failed => cases kind <;> trivial

theorem FTask.Sound.kind {A : String → Nat → List Interval → Prop} {m : ItemMap} {T T' : FTask} (h : T.Sound A m)
    (hk : T'.kind = T.kind) : T'.Sound A m := by
  unfold FTask.Sound at h ⊢
  rw [hk]; exact h

theorem pairInfos_safe (m : ItemMap) {ks : List String} {is : List Info} (h : ks.length ≤ is.length) :
    Safe (fun todo => pairInfos m ks is = .ok todo) (pairInfos m ks is) := by
  refine Safe.of_ne ?_
  induction ks generalizing is with
  | nil => rw [pairInfos]; intro h; cases h
  | cons k ks ih =>
    cases is with
    | nil => simp at h
    | cons i is =>
      rw [pairInfos]
      intro hu
      cases hp : pairInfos m ks is with
      | error e => rw [hp, error_bind] at hu; cases hu; exact ih (by simpa using h) hp
      | ok tl => rw [hp, ok_bind] at hu; cases hu

theorem gridCheck_safe (ig : Bool) (a b : String) : Safe (fun _ : Unit => True) (gridCheck ig a b) := by
  unfold gridCheck
  repeat' split
  · exact Safe.throw _
  · exact Safe.throw _
  · exact Safe.ok trivial

theorem itemsOf_length {m : ItemMap} {ks : List String} (h : ∀ k ∈ ks, ∃ it, m.find k = some it) :
    (itemsOf m ks).length = ks.length := by
  induction ks with
  | nil => rfl
  | cons k ks ih =>
    obtain ⟨it, hit⟩ := h k (by simp)
    rw [itemsOf, List.filterMap_cons, hit]
    simp only [List.length_cons]
    congr 1
    exact ih fun k hk => h k (by simp [hk])

/-- After a step: the same items, all with results, and the task is still sound. -/
def StepOk (E : ExtEnv) (m : ItemMap) (T : FTask) (x : ItemMap × FTask) : Prop :=
  SameItems m x.1 ∧ Filled x.1 ∧ x.2.kind = T.kind ∧ x.2.Queued E x.1

theorem stay_ok {E : ExtEnv} {m : ItemMap} {T T' : FTask} (hf : Filled m) (hk : T'.kind = T.kind) (hq : T'.Queued E m) :
    Safe (StepOk E m T) (.ok (m, T')) := Safe.ok ⟨SameItems.refl _, hf, hk, hq⟩

theorem step_safe {E : ExtEnv} {A : String → Nat → List Interval → Prop} (hE : Steady E A) (C : EngineConf) (t : Nat)
    {m : ItemMap} {T : FTask} (hf : Filled m) (hs : T.Sound A m) (hq : T.Queued E m) :
    Safe (StepOk E m T) (T.step E C t m) := by
  obtain ⟨kind, pc⟩ := T
  cases pc with
  | finished => cases kind <;> exact stay_ok hf rfl trivial
  | failed => cases kind <;> exact stay_ok hf rfl trivial
  | fresh =>
    cases kind with
    | file f ks =>
      rw [FTask.step]
      simp only
      refine Safe.bind ((hE.infos t f _).and (fun v h => h)) fun is his => ?_
      refine Safe.bind (pairInfos_safe m (by simpa using his.1)) fun todo htodo => ?_
      refine stay_ok hf rfl ?_
      obtain ⟨e, hx⟩ := pairInfos_spec htodo
      intro x hm
      obtain ⟨h5, j, h6, h7⟩ := hx x hm
      refine ⟨?_, h5, t, _, is, j, his.2, h6, h7⟩
      have : x.1 ∈ todo.map Prod.fst := List.mem_map.mpr ⟨x, hm, rfl⟩
      rw [e] at this
      exact (sortKeys_perm m ks).mem_iff.mp this
    | inefficient f ks =>
      rw [FTask.step]
      exact stay_ok hf rfl fun k hk => (sortKeys_perm m ks).mem_iff.mp hk
    | forward server files =>
      rw [FTask.step]
      simp only
      have hkeys : ∀ f ∈ files.map (fun f => (f.1, sortKeys m f.2)), ∀ k ∈ f.2, ∃ it, m.find k = some it := by
        intro f hf k hk
        obtain ⟨g, hg, rfl⟩ := List.mem_map.mp hf
        exact hs.2 g hg k ((sortKeys_perm m g.2).mem_iff.mp hk)
      refine Safe.bind (hE.forward t server _ ?_ ?_) fun back hback => ?_
      · have : (AMap.keys (List.map (fun f => (f.1, itemsOf m f.2)) (List.map (fun f => (f.1, sortKeys m f.2)) files)))
            = files.keys := by simp [AMap.keys, List.map_map, Function.comp_def]
        rw [this]
        exact hs.1
      · intro g hg i hi
        obtain ⟨g', hg', rfl⟩ := List.mem_map.mp hg
        obtain ⟨k, -, hk⟩ := mem_itemsOf hi
        exact hf k i hk
      · refine Safe.bind (storeAll_safe hf hkeys ?_) fun m' hm' => Safe.ok ⟨hm'.1, hm'.2, rfl, trivial⟩
        intro g hg
        obtain ⟨items', h1, h2, h3⟩ := hback g.1 (itemsOf m g.2) (List.mem_map.mpr ⟨g, hg, rfl⟩)
        rw [itemsOf_length (hkeys g hg)] at h2
        exact ⟨items', h1, h2, h3⟩
  | work todo =>
    cases kind with
    | inefficient f ks => cases todo <;> exact stay_ok (T' := ⟨.inefficient f ks, .finished⟩) hf rfl trivial
    | forward s fs => cases todo <;> exact stay_ok (T' := ⟨.forward s fs, .finished⟩) hf rfl trivial
    | file f ks =>
      cases todo with
      | nil => exact stay_ok hf rfl trivial
      | cons x todo =>
        obtain ⟨k, o, i⟩ := x
        obtain ⟨hk, ho, t', os, is, j, h1, h2, h3⟩ := hq (k, o, i) (by simp)
        obtain ⟨it, hit, hA⟩ := hs k hk
        have hoff : o = it.uri.offset := by
          simp only at ho
          rw [ho, offsetOf, hit]; rfl
        rw [FTask.step]
        simp only [hit]
        refine Safe.bind (gridCheck_safe _ _ _) fun _ _ => ?_
        refine Safe.bind (Safe.of_ne (hE.jump t t' f o i it.request.ranges os is j (by rw [hoff]; exact hA) h1 h2 h3))
          fun r _ => ?_
        refine Safe.bind (setResult_safe r hit hf) fun m' hm' => Safe.ok ⟨hm'.1, hm'.2, rfl, ?_⟩
        have hq' : FTask.Queued E m ⟨.file f ks, .work todo⟩ := fun x hx => hq x (by simp [hx])
        exact hq'.same hm'.1
  | fetching todo =>
    cases kind with
    | file f ks => cases todo <;> exact stay_ok (T' := ⟨.file f ks, .finished⟩) hf rfl trivial
    | forward s fs => cases todo <;> exact stay_ok (T' := ⟨.forward s fs, .finished⟩) hf rfl trivial
    | inefficient f ks =>
      cases todo with
      | nil => exact stay_ok hf rfl trivial
      | cons k todo =>
        obtain ⟨it, hit, hA⟩ := hs k (hq k (by simp))
        rw [FTask.step]
        simp only [hit]
        split
        · exact Safe.throw _
        rename_i hs
        refine Safe.bind (Safe.of_ne (hE.fetch t it.uri it.request.ranges (hA (Classical.not_not.mp hs)))) fun r _ => ?_
        exact Safe.bind (setResult_safe r hit hf) fun m' hm' =>
          Safe.ok ⟨hm'.1, hm'.2, rfl, fun x hx => hq x (by simp [hx])⟩

/-! ## Runs -/

/-- All tasks are in order. -/
structure SysOk (E : ExtEnv) (A : String → Nat → List Interval → Prop) (m0 : ItemMap) (s : FSys) : Prop where
  same : SameItems m0 s.items
  filled : Filled s.items
  sound : ∀ T ∈ s.tasks, T.Sound A s.items
  queued : ∀ T ∈ s.tasks, T.Queued E s.items

theorem sysStep_safe {E : ExtEnv} {A : String → Nat → List Interval → Prop} (hE : Steady E A) (C : EngineConf)
    {m0 : ItemMap} {s : FSys} (h : SysOk E A m0 s) (j : Nat) : Safe (SysOk E A m0) (s.step E C j) := by
  unfold FSys.step
  cases hT : s.tasks[j]? with
  | none => exact Safe.ok ⟨h.same, h.filled, h.sound, h.queued⟩
  | some T =>
    have hm := List.mem_of_getElem? hT
    have hstep := step_safe hE C s.time h.filled (h.sound T hm) (h.queued T hm)
    simp only
    cases hr : T.step E C s.time s.items with
    | error e =>
      cases e with
      | ub => exact absurd hr hstep.1
      | exn e =>
        refine Safe.ok ⟨h.same, h.filled, ?_, ?_⟩
        · intro T' hT'
          rcases List.mem_or_eq_of_mem_set hT' with h' | rfl
          · exact h.sound T' h'
          · exact (h.sound T hm).kind rfl
        · intro T' hT'
          rcases List.mem_or_eq_of_mem_set hT' with h' | rfl
          · exact h.queued T' h'
          · unfold FTask.Queued
            cases T.kind <;> trivial
    | ok x =>
      obtain ⟨m', T1⟩ := x
      obtain ⟨h1, h2, h3, h4⟩ := hstep.2 _ hr
      refine Safe.ok ⟨h.same.trans h1, h2, ?_, ?_⟩
      · intro T' hT'
        rcases List.mem_or_eq_of_mem_set hT' with h' | rfl
        · exact (h.sound T' h').same h1
        · exact ((h.sound T hm).same h1).kind h3
      · intro T' hT'
        rcases List.mem_or_eq_of_mem_set hT' with h' | rfl
        · exact (h.queued T' h').same h1
        · exact h4

theorem run_safe {E : ExtEnv} {A : String → Nat → List Interval → Prop} (hE : Steady E A) (C : EngineConf)
    {m0 : ItemMap} : ∀ (js : List Nat) {s : FSys}, SysOk E A m0 s → Safe (SysOk E A m0) (s.run E C js) := by
  intro js
  induction js with
  | nil => intro s h; exact Safe.ok h
  | cons j js ih => intro s h; exact Safe.bind (sysStep_safe hE C h j) fun s' h' => ih h'

theorem runTasks_safe {E : ExtEnv} {A : String → Nat → List Interval → Prop} (hE : Steady E A) (C : EngineConf)
    {m : ItemMap} {ts : List FTask} (sched : List Nat) (hf : Filled m) (fresh : ∀ T ∈ ts, T.pc = .fresh)
    (hs : ∀ T ∈ ts, T.Sound A m) : Safe (fun s => SameItems m s.items ∧ Filled s.items) (runTasks E C m ts sched) := by
  unfold runTasks
  refine Safe.bind (Safe.cassert _) fun _ _ => ?_
  have h0 : SysOk E A m ⟨m, ts, [], 0⟩ := by
    refine ⟨SameItems.refl _, hf, hs, ?_⟩
    intro T hT
    have := fresh T hT
    unfold FTask.Queued
    rw [this]
    cases T.kind <;> trivial
  refine Safe.bind (run_safe hE C sched h0) fun s h1 => ?_
  exact (run_safe hE C _ h1).weaken fun s' h2 => ⟨h2.same, h2.filled⟩

/-! ## Scheduling -/

theorem firstUri_safe {m : ItemMap} {ks : List String} (hne : ks ≠ []) (hk : ∀ k ∈ ks, ∃ it, m.find k = some it) :
    Safe (fun u => ∃ k ∈ ks, ∃ it, m.find k = some it ∧ it.uri = u) (firstUri m ks) := by
  refine ⟨?_, ?_⟩
  · cases ks with
    | nil => exact absurd rfl hne
    | cons k ks =>
      obtain ⟨it, hit⟩ := hk k (by simp)
      rw [firstUri, hit]
      intro h; cases h
  · intro u hu
    obtain ⟨k, it, h1, h2, h3⟩ := firstUri_spec hu
    exact ⟨k, h1, it, h2, h3⟩

/-- What the scheduler needs: no file without items, and items that exist and may be asked for. -/
structure Schedulable (A : String → Nat → List Interval → Prop) (C : EngineConf) (fwd : Bool) (m : ItemMap) (fm : KeyMap) :
    Prop where
  filled : Filled m
  files : fm.keys.Nodup
  nonempty : ∀ f ∈ fm, f.2 ≠ []
  found : ∀ f ∈ fm, ∀ k ∈ f.2, ∃ it, m.find k = some it ∧ A f.1 it.uri.offset it.request.ranges ∧
    (it.uri.scheme = "fdb" → A it.uri.path it.uri.offset it.request.ranges)
  scheme : fwd = true ∨ C.inefficient = true ∨ ∀ f ∈ fm, ∀ k ∈ f.2, ∀ it, m.find k = some it → it.uri.scheme ≠ "fdb"

theorem localTasks_safe {A : String → Nat → List Interval → Prop} {C : EngineConf} {m : ItemMap} :
    ∀ {fm : KeyMap} (q : Bool), (∀ f ∈ fm, f.2 ≠ []) →
    (∀ f ∈ fm, ∀ k ∈ f.2, ∃ it, m.find k = some it ∧ A f.1 it.uri.offset it.request.ranges ∧
      (it.uri.scheme = "fdb" → A it.uri.path it.uri.offset it.request.ranges)) →
    (C.inefficient = true ∨ ∀ f ∈ fm, ∀ k ∈ f.2, ∀ it, m.find k = some it → it.uri.scheme ≠ "fdb") →
    Safe (fun ts => (∀ T ∈ ts, T.pc = .fresh) ∧ ∀ T ∈ ts, T.Sound A m) (localTasks C m q fm) := by
  intro fm
  induction fm with
  | nil => intro q _ _ _; exact Safe.ok ⟨(fun _ h => by cases h), (fun _ h => by cases h)⟩
  | cons f fm ih =>
    obtain ⟨f, ks⟩ := f
    intro q hne hk hsch
    rw [localTasks]
    have hks := hk (f, ks) (by simp)
    refine Safe.bind (firstUri_safe (hne (f, ks) (by simp)) fun k hk' => ?_) fun u hu => ?_
    · obtain ⟨it, hit, -⟩ := hks k hk'
      exact ⟨it, hit⟩
    have htl := ih true (fun g hg => hne g (by simp [hg])) (fun g hg => hk g (by simp [hg]))
      (hsch.imp id fun h g hg => h g (by simp [hg]))
    have hcons : ∀ (T : FTask) (ts : List FTask), T.pc = .fresh → T.Sound A m →
        ((∀ T ∈ ts, T.pc = .fresh) ∧ ∀ T ∈ ts, T.Sound A m) →
        (∀ T' ∈ T :: ts, T'.pc = .fresh) ∧ ∀ T' ∈ T :: ts, T'.Sound A m := by
      intro T ts h1 h2 h3
      refine ⟨?_, ?_⟩
      · intro T' hT'
        rcases List.mem_cons.mp hT' with rfl | hT'
        · exact h1
        · exact h3.1 T' hT'
      · intro T' hT'
        rcases List.mem_cons.mp hT' with rfl | hT'
        · exact h2
        · exact h3.2 T' hT'
    split
    · rename_i hs
      split
      · refine Safe.bind htl fun ts hts => Safe.ok (hcons _ _ rfl ?_ hts)
        intro k hk'
        obtain ⟨it, hit, -, hA⟩ := hks k hk'
        exact ⟨it, hit, hA⟩
      · rename_i hi
        rcases hsch with h | h
        · exact absurd h hi
        · obtain ⟨k, hk', it, hit, rfl⟩ := hu
          exact absurd hs (h (f, ks) (by simp) k hk' it hit)
    · refine Safe.bind htl fun ts hts => Safe.ok (hcons _ _ rfl ?_ hts)
      intro k hk'
      obtain ⟨it, hit, hA, -⟩ := hks k hk'
      exact ⟨it, hit, hA⟩

theorem serverFiles_safe {C : EngineConf} {m : ItemMap} : ∀ {fm : KeyMap} (acc : AMap (String × Int) (List String)),
    (∀ f ∈ fm, f.2 ≠ []) → (∀ f ∈ fm, ∀ k ∈ f.2, ∃ it, m.find k = some it) →
    serverFiles C m fm acc ≠ undef := by
  intro fm
  induction fm with
  | nil => intro acc _ _ h; cases h
  | cons f fm ih =>
    obtain ⟨f, ks⟩ := f
    intro acc hne hk
    rw [serverFiles]
    refine (Safe.bind (T := fun _ => True) (firstUri_safe (hne (f, ks) (by simp)) (hk (f, ks) (by simp)))
      fun u _ => ?_).1
    refine Safe.bind (Q := fun _ => True) ?_ fun s _ => ⟨ih _ (fun g hg => hne g (by simp [hg])) fun g hg => hk g (by simp [hg]),
      fun _ _ => trivial⟩
    unfold serverFor
    split
    · exact Safe.throw _
    · exact Safe.ok trivial

theorem scheduleTasks_safe {E : ExtEnv} {A : String → Nat → List Interval → Prop} (hE : Steady E A) (C : EngineConf)
    (fwd : Bool) {m : ItemMap} {fm : KeyMap} (h : Schedulable A C fwd m fm) (sched : List Nat) :
    Safe (fun x => SameItems m x.1 ∧ Filled x.1) (scheduleTasks E C fwd m fm sched) := by
  unfold scheduleTasks
  split
  · have hsm : serverFileMap C m fm ≠ undef := by
      unfold serverFileMap
      exact (Safe.bind (T := fun _ => True) (Safe.of_ne (serverFiles_safe [] h.nonempty fun f hf k hk =>
        let ⟨it, hit, _⟩ := h.found f hf k hk; ⟨it, hit⟩)) fun _ _ => Safe.ok trivial).1
    refine Safe.bind (Safe.of_ne hsm) fun sm hsm => ?_
    obtain ⟨-, -, -, hsub, hserv⟩ := serverFileMap_spec h.files hsm
    refine Safe.bind (runTasks_safe hE C sched h.filled ?_ ?_) fun s hs => Safe.ok hs
    · intro T hT
      obtain ⟨e, -, rfl⟩ := List.mem_map.mp hT
      rfl
    · intro T hT
      obtain ⟨e, he, rfl⟩ := List.mem_map.mp hT
      refine ⟨hsub e he, ?_⟩
      intro f hf k hk
      obtain ⟨it, hit, -⟩ := h.found f (hserv e he f hf).1 k hk
      exact ⟨it, hit⟩
  · rename_i hf
    refine Safe.bind (localTasks_safe false h.nonempty h.found (h.scheme.resolve_left hf)) fun ts hts => ?_
    exact Safe.bind (runTasks_safe hE C sched h.filled hts.1 hts.2) fun s hs => Safe.ok hs

end GJ
