import Verif.Lemmas.EngineMap
import Verif.Spec.Catalogue

namespace GJ

open Spec

theorem res_bind_inv {α β : Type} {x : Res α} {f : α → Res β} {b : β} (h : (x >>= f) = .ok b) :
    ∃ a, x = .ok a ∧ f a = .ok b := by
  cases x with
  | error e => cases h
  | ok a => exact ⟨a, rfl, h⟩

/-! ## Items -/

/-- Same items with the same requests and places; results may differ. -/
structure SameItems (m m' : ItemMap) : Prop where
  keys : m'.keys = m.keys
  rest : ∀ k, (m'.find k).map (fun i => (i.request, i.uri)) = (m.find k).map (fun i => (i.request, i.uri))

theorem SameItems.refl (m : ItemMap) : SameItems m m := ⟨rfl, fun _ => rfl⟩

theorem SameItems.trans {a b c : ItemMap} (h : SameItems a b) (h' : SameItems b c) : SameItems a c :=
  ⟨h'.keys.trans h.keys, fun k => (h'.rest k).trans (h.rest k)⟩

theorem SameItems.find {m m' : ItemMap} (h : SameItems m m') {k : String} {it : Item} (hf : m.find k = some it) :
    ∃ it', m'.find k = some it' ∧ it'.request = it.request ∧ it'.uri = it.uri := by
  have := h.rest k
  rw [hf] at this
  cases hm : m'.find k with
  | none => rw [hm] at this; cases this
  | some it' =>
    rw [hm] at this
    simp only [Option.map_some, Option.some.injEq, Prod.mk.injEq] at this
    exact ⟨it', rfl, this.1, this.2⟩

theorem SameItems.offsetOf {m m' : ItemMap} (h : SameItems m m') (k : String) : offsetOf m' k = offsetOf m k := by
  have := h.rest k
  rw [GJ.offsetOf, GJ.offsetOf]
  cases hm : m'.find k <;> cases hm' : m.find k <;> rw [hm, hm'] at this <;> simp_all

/-- The item has a result, which satisfies `P`. -/
def HasResult (P : Uri → ExRequest → WireResult → Prop) (m : ItemMap) (k : String) : Prop :=
  ∃ it r, m.find k = some it ∧ it.result = some r ∧ P it.uri it.request r

theorem setResult_spec {P : Uri → ExRequest → WireResult → Prop} {m m' : ItemMap} {k : String} {r : WireResult}
    (h : setResult m k r = .ok m') (hp : ∀ it, m.find k = some it → P it.uri it.request r) :
    SameItems m m' ∧ HasResult P m' k ∧ ∀ k', HasResult P m k' → HasResult P m' k' := by
  rw [setResult] at h
  cases hf : m.find k with
  | none => rw [hf] at h; cases h
  | some it =>
    rw [hf] at h
    have e := Except.ok.inj h
    subst e
    have hk : k ∈ m.keys := by rw [AMap.mem_keys_iff, hf]; rfl
    refine ⟨⟨by rw [AMap.keys_set, if_pos hk], ?_⟩, ?_, ?_⟩
    · intro k'
      rw [AMap.find_set]
      by_cases e : k = k'
      · subst e; rw [if_pos rfl, hf]; rfl
      · rw [if_neg e]
    · exact ⟨{ it with result := some r }, r, by rw [AMap.find_set, if_pos rfl], rfl, hp it hf⟩
    · rintro k' ⟨it', r', h1, h2, h3⟩
      by_cases e : k = k'
      · subst e
        exact ⟨{ it with result := some r }, r, by rw [AMap.find_set, if_pos rfl], rfl, hp it hf⟩
      · exact ⟨it', r', by rw [AMap.find_set, if_neg e]; exact h1, h2, h3⟩

theorem setResult_ok {m : ItemMap} {k : String} (r : WireResult) {it : Item} (h : m.find k = some it) :
    ∃ m', setResult m k r = .ok m' := by
  rw [setResult, h]; exact ⟨_, rfl⟩

/-! ## What tasks produce -/

/-- Every result the environment hands out satisfies `P`. -/
structure Produces (E : ExtEnv) (C : EngineConf) (fwd : Bool) (P : Uri → ExRequest → WireResult → Prop) : Prop where
  file : fwd = false → ∀ t t' u q offs infos (j : Nat) i r, u.scheme ≠ "fdb" → E.infos t u.path offs = .ok infos →
    offs[j]? = some u.offset → infos[j]? = some i →
    gridCheck C.ignoreGrid q.gridHash i.base.md5GridSection = .ok () →
    E.jump t' u.path u.offset i q.ranges = .ok r → P u q r
  fetch : fwd = false → ∀ t u q r, u.scheme = "fdb" → E.fetch t u q.ranges = .ok r → P u q r
  forward : fwd = true → ∀ t server fm back, Addressed C server fm → E.forward t server fm = .ok back →
    ∀ f items, (f, items) ∈ fm → ∃ items', back.find f = some items' ∧ items'.length = items.length ∧
      ∀ (j : Nat) i i' r, items[j]? = some i → items'[j]? = some i' → i'.result = some r → P i.uri i.request r

/-- All keys a task is responsible for. -/
def FTask.covers (T : FTask) : List String :=
  match T.kind with
  | .file _ ks => ks
  | .inefficient _ ks => ks
  | .forward _ files => files.flatMap Prod.snd

/-- The items of a task are where the task expects them. -/
def FTask.Valid (C : EngineConf) (fwd : Bool) (m : ItemMap) (T : FTask) : Prop :=
  match T.kind with
  | .file f ks => ∀ k ∈ ks, ∃ it, m.find k = some it ∧ it.uri.path = f ∧ it.uri.scheme ≠ "fdb" ∧ fwd = false
  | .inefficient f ks => ∀ k ∈ ks, ∃ it, m.find k = some it ∧ it.uri.path = f ∧ fwd = false
  | .forward server files => fwd = true ∧ files.keys.Nodup ∧ ∀ f ∈ files, ∀ k ∈ f.2, ∃ it, m.find k = some it ∧ it.uri.path = f.1 ∧
      C.servers.find (it.uri.host, it.uri.port) = some server

theorem FTask.Valid.same {C : EngineConf} {fwd : Bool} {m m' : ItemMap} {T : FTask} (h : T.Valid C fwd m) (hs : SameItems m m') :
    T.Valid C fwd m' := by
  obtain ⟨kind, pc⟩ := T
  cases kind with
  | file f ks =>
    intro k hk
    obtain ⟨it, h1, h2, h3, h4⟩ := h k hk
    obtain ⟨it', h1', -, hu⟩ := hs.find h1
    exact ⟨it', h1', by rw [hu]; exact h2, by rw [hu]; exact h3, h4⟩
  | inefficient f ks =>
    intro k hk
    obtain ⟨it, h1, h2, h3⟩ := h k hk
    obtain ⟨it', h1', -, hu⟩ := hs.find h1
    exact ⟨it', h1', by rw [hu]; exact h2, h3⟩
  | forward server files =>
    refine ⟨h.1, h.2.1, ?_⟩
    intro f hf k hk
    obtain ⟨it, h1, h2, h3⟩ := h.2.2 f hf k hk
    obtain ⟨it', h1', -, hu⟩ := hs.find h1
    exact ⟨it', h1', by rw [hu]; exact h2, by rw [hu]; exact h3⟩

/-- An entry of a task's work list: the item's own offset, and metadata for that offset. -/
def TodoOk (E : ExtEnv) (m : ItemMap) (fname : String) (x : String × Nat × Info) : Prop :=
  x.2.1 = offsetOf m x.1 ∧ ∃ t offs infos, ∃ j : Nat, E.infos t fname offs = .ok infos ∧ offs[j]? = some x.2.1 ∧ infos[j]? = some x.2.2

/-- How far a task has come. -/
def FTask.Progress (E : ExtEnv) (P : Uri → ExRequest → WireResult → Prop) (m : ItemMap) (T : FTask) : Prop :=
  match T.kind, T.pc with
  | _, .fresh => True
  | .file f ks, .work todo =>
    (∀ k ∈ ks, k ∈ todo.map Prod.fst ∨ HasResult P m k) ∧ (∀ x ∈ todo, x.1 ∈ ks ∧ TodoOk E m f x)
  | .inefficient _ ks, .fetching todo => (∀ k ∈ ks, k ∈ todo ∨ HasResult P m k) ∧ ∀ k ∈ todo, k ∈ ks
  | _, .finished => ∀ k ∈ T.covers, HasResult P m k
  | _, _ => False

/-- Steps a task still needs. -/
def FTask.left (T : FTask) : Nat :=
  match T.pc with
  | .fresh => T.fuel
  | .work todo => todo.length + 1
  | .fetching todo => todo.length + 1
  | .finished => 0
  | .failed => 0

theorem FTask.Progress.same {E : ExtEnv} {P : Uri → ExRequest → WireResult → Prop} {m m' : ItemMap} {T : FTask}
    (h : T.Progress E P m) (hs : SameItems m m') (hr : ∀ k, HasResult P m k → HasResult P m' k) : T.Progress E P m' := by
  obtain ⟨kind, pc⟩ := T
  cases pc with
  | fresh => cases kind <;> trivial
  | failed => cases kind <;> exact h
  | finished => cases kind <;> exact fun k hk => hr k (h k hk)
  | work todo =>
    cases kind with
    | file f ks =>
      refine ⟨fun k hk => (h.1 k hk).imp id (hr k), fun x hx => ⟨(h.2 x hx).1, ?_, (h.2 x hx).2.2⟩⟩
      rw [(h.2 x hx).2.1, hs.offsetOf]
    | inefficient f ks => exact h
    | forward s fs => exact h
  | fetching todo =>
    cases kind with
    | file f ks => exact h
    | inefficient f ks => exact ⟨fun k hk => (h.1 k hk).imp id (hr k), h.2⟩
    | forward s fs => exact h

theorem pairInfos_spec {m : ItemMap} {ks : List String} {is : List Info} {todo : List (String × Nat × Info)}
    (h : pairInfos m ks is = .ok todo) :
    todo.map Prod.fst = ks ∧ ∀ x ∈ todo, x.2.1 = offsetOf m x.1 ∧
      ∃ j : Nat, (ks.map (offsetOf m))[j]? = some x.2.1 ∧ is[j]? = some x.2.2 := by
  induction ks generalizing is todo with
  | nil => rw [pairInfos] at h; cases h; exact ⟨rfl, fun x hx => by cases hx⟩
  | cons k ks ih =>
    cases is with
    | nil => cases h
    | cons i is =>
      rw [pairInfos] at h
      obtain ⟨tl, h1, h2⟩ := res_bind_inv h
      cases h2
      obtain ⟨e, hx⟩ := ih h1
      refine ⟨by rw [List.map_cons, e], ?_⟩
      intro x hm
      rcases List.mem_cons.mp hm with rfl | hm
      · exact ⟨rfl, 0, rfl, rfl⟩
      · obtain ⟨h3, j, h4, h5⟩ := hx x hm
        exact ⟨h3, j + 1, h4, h5⟩

theorem sortKeys_perm (m : ItemMap) (ks : List String) : (sortKeys m ks).Perm ks := isort_perm _ ks

theorem storeResults_spec {P : Uri → ExRequest → WireResult → Prop} {m m' : ItemMap} {ks : List String}
    {is : List Item} (h : storeResults m ks is = .ok m')
    (hp : ∀ (j : Nat) k i' r it, ks[j]? = some k → is[j]? = some i' → i'.result = some r → m.find k = some it →
      P it.uri it.request r) :
    SameItems m m' ∧ (∀ k ∈ ks, HasResult P m' k) ∧ ∀ k, HasResult P m k → HasResult P m' k := by
  induction ks generalizing m is with
  | nil => rw [storeResults] at h; cases h; exact ⟨SameItems.refl _, (fun _ h => by cases h), fun _ h => h⟩
  | cons k ks ih =>
    cases is with
    | nil => cases h
    | cons i is =>
      rw [storeResults] at h
      cases hres : i.result with
      | none => rw [hres] at h; cases h
      | some r =>
        rw [hres] at h
        obtain ⟨m1, h1, h2⟩ := res_bind_inv h
        obtain ⟨s1, d1, p1⟩ := setResult_spec (P := P) h1 (fun it hit => hp 0 k i r it rfl rfl hres hit)
        obtain ⟨s2, d2, p2⟩ := ih h2 (by
          intro j k' i' r' it h3 h4 h5 h6
          have := s1.rest k'
          rw [h6] at this
          cases hm : m.find k' with
          | none => rw [hm] at this; cases this
          | some it0 =>
            rw [hm] at this
            simp only [Option.map_some, Option.some.injEq, Prod.mk.injEq] at this
            rw [this.1, this.2]
            exact hp (j + 1) k' i' r' it0 h3 h4 h5 hm)
        refine ⟨s1.trans s2, ?_, fun k' hk' => p2 k' (p1 k' hk')⟩
        intro k' hk'
        rcases List.mem_cons.mp hk' with rfl | hk'
        · exact p2 _ d1
        · exact d2 k' hk'

theorem storeAll_spec {P : Uri → ExRequest → WireResult → Prop} {m m' : ItemMap} {fs : KeyMap} {back : FileMap}
    (h : storeAll m fs back = .ok m')
    (hp : ∀ f ∈ fs, ∀ (j : Nat) k i' r it, f.2[j]? = some k → ((back.find f.1).getD [])[j]? = some i' →
      i'.result = some r → m.find k = some it → P it.uri it.request r) :
    SameItems m m' ∧ (∀ f ∈ fs, ∀ k ∈ f.2, HasResult P m' k) ∧ ∀ k, HasResult P m k → HasResult P m' k := by
  induction fs generalizing m with
  | nil => rw [storeAll] at h; cases h; exact ⟨SameItems.refl _, (fun _ h => by cases h), fun _ h => h⟩
  | cons f fs ih =>
    rw [storeAll] at h
    obtain ⟨m1, h1, h2⟩ := res_bind_inv h
    obtain ⟨s1, d1, p1⟩ := storeResults_spec (P := P) h1 (hp f (List.mem_cons_self ..))
    obtain ⟨s2, d2, p2⟩ := ih h2 (by
      intro g hg j k' i' r' it h3 h4 h5 h6
      have := s1.rest k'
      rw [h6] at this
      cases hm : m.find k' with
      | none => rw [hm] at this; cases this
      | some it0 =>
        rw [hm] at this
        simp only [Option.map_some, Option.some.injEq, Prod.mk.injEq] at this
        rw [this.1, this.2]
        exact hp g (List.mem_cons_of_mem _ hg) j k' i' r' it0 h3 h4 h5 hm)
    refine ⟨s1.trans s2, ?_, fun k' hk' => p2 k' (p1 k' hk')⟩
    intro g hg k hk
    rcases List.mem_cons.mp hg with rfl | hg
    · exact p2 _ (d1 k hk)
    · exact d2 g hg k hk

theorem mem_itemsOf {m : ItemMap} {ks : List String} {i : Item} (h : i ∈ itemsOf m ks) :
    ∃ k ∈ ks, m.find k = some i := by
  rw [itemsOf, List.mem_filterMap] at h
  exact h

theorem sortKeys_sorted (m : ItemMap) (ks : List String) :
    (sortKeys m ks).Pairwise fun a b => offsetOf m a ≤ offsetOf m b :=
  (isort_sorted _ (by simp only [decide_eq_true_eq]; intro a b c; omega)
    (by simp only [decide_eq_true_eq]; intro a b; omega) ks).imp (by simp)

theorem itemsOf_sorted {m : ItemMap} {ks : List String} (h : ks.Pairwise fun a b => offsetOf m a ≤ offsetOf m b) :
    (itemsOf m ks).Pairwise fun a b => a.uri.offset ≤ b.uri.offset := by
  rw [itemsOf, List.pairwise_filterMap]
  refine h.imp ?_
  intro a b hab i hi j hj
  rw [offsetOf, offsetOf, hi, hj] at hab
  exact hab

theorem itemsOf_get (m : ItemMap) (ks : List String) (h : ∀ k ∈ ks, ∃ it, m.find k = some it) (j : Nat) (k : String)
    (hk : ks[j]? = some k) : (itemsOf m ks)[j]? = m.find k := by
  induction ks generalizing j with
  | nil => simp at hk
  | cons x ks ih =>
    obtain ⟨it, hit⟩ := h x (List.mem_cons_self ..)
    rw [itemsOf, List.filterMap_cons, hit]
    cases j with
    | zero =>
      simp only [List.getElem?_cons_zero, Option.some.injEq] at hk
      subst hk
      rw [List.getElem?_cons_zero, hit]
    | succ j =>
      rw [List.getElem?_cons_succ]
      exact ih (fun k hk => h k (List.mem_cons_of_mem _ hk)) j (by simpa using hk)

/-- One step of a task. -/
theorem step_spec {E : ExtEnv} {C : EngineConf} {P : Uri → ExRequest → WireResult → Prop} {fwd : Bool} (hE : Produces E C fwd P)
    {t : Nat} {m m' : ItemMap} {T T' : FTask} (hv : T.Valid C fwd m) (hp : T.Progress E P m)
    (h : T.step E C t m = .ok (m', T')) :
    SameItems m m' ∧ T'.kind = T.kind ∧ T'.Progress E P m' ∧ (∀ k, HasResult P m k → HasResult P m' k) ∧
      T'.left ≤ T.left - 1 := by
  obtain ⟨kind, pc⟩ := T
  cases pc with
  | failed => cases kind <;> exact absurd hp (by simp [FTask.Progress])
  | finished =>
    have : (m', T') = (m, ⟨kind, .finished⟩) := by cases kind <;> exact (Except.ok.inj h).symm
    cases this
    exact ⟨SameItems.refl _, rfl, hp, fun _ h => h, Nat.le_refl _⟩
  | fresh =>
    cases kind with
    | file f ks =>
      rw [FTask.step] at h
      simp only [] at h
      obtain ⟨infos, h1, h2⟩ := res_bind_inv h
      obtain ⟨todo, h3, h4⟩ := res_bind_inv h2
      cases h4
      obtain ⟨e, hx⟩ := pairInfos_spec h3
      refine ⟨SameItems.refl _, rfl, ⟨?_, ?_⟩, fun _ h => h, ?_⟩
      · intro k hk
        left
        rw [e]
        exact (sortKeys_perm m ks).mem_iff.mpr hk
      · intro x hm
        obtain ⟨h5, j, h6, h7⟩ := hx x hm
        refine ⟨?_, h5, t, _, infos, j, h1, h6, h7⟩
        have : x.1 ∈ todo.map Prod.fst := List.mem_map.mpr ⟨x, hm, rfl⟩
        rw [e] at this
        exact (sortKeys_perm m ks).mem_iff.mp this
      · have : todo.length = ks.length := by
          rw [← (sortKeys_perm m ks).length_eq, ← e, List.length_map]
        simp only [FTask.left, FTask.fuel]
        omega
    | inefficient f ks =>
      rw [FTask.step] at h
      cases h
      refine ⟨SameItems.refl _, rfl, ⟨?_, ?_⟩, fun _ h => h, ?_⟩
      · intro k hk
        exact Or.inl ((sortKeys_perm m ks).mem_iff.mpr hk)
      · intro k hk
        exact (sortKeys_perm m ks).mem_iff.mp hk
      · simp only [FTask.left, FTask.fuel, (sortKeys_perm m ks).length_eq]
        omega
    | forward server files =>
      rw [FTask.step] at h
      simp only [] at h
      obtain ⟨back, h1, h2⟩ := res_bind_inv h
      obtain ⟨m1, h3, h4⟩ := res_bind_inv h2
      cases h4
      have hfind : ∀ f ∈ files, ∀ k ∈ sortKeys m f.2, ∃ it, m.find k = some it ∧ it.uri.path = f.1 ∧
          C.servers.find (it.uri.host, it.uri.port) = some server := fun f hf k hk =>
        hv.2.2 f hf k ((sortKeys_perm m f.2).mem_iff.mp hk)
      have hadd : Addressed C server
          ((files.map fun f => (f.1, sortKeys m f.2)).map fun f => (f.1, itemsOf m f.2)) := by
        refine ⟨by simpa [AMap.keys, List.map_map, Function.comp_def] using hv.2.1, ?_, ?_⟩
        · intro g hg i hi
          simp only [List.map_map, List.mem_map, Function.comp_def] at hg
          obtain ⟨f, hf, rfl⟩ := hg
          obtain ⟨k, hk, hm⟩ := mem_itemsOf hi
          obtain ⟨it, hit, hp, hs⟩ := hfind f hf k hk
          rw [hit] at hm; cases hm
          exact ⟨hp, hs⟩
        · intro g hg
          simp only [List.map_map, List.mem_map, Function.comp_def] at hg
          obtain ⟨f, -, rfl⟩ := hg
          exact itemsOf_sorted (sortKeys_sorted m f.2)
      obtain ⟨s1, d1, p1⟩ := storeAll_spec (P := P) h3 (by
        intro g hg j k i' r it hk hi hr hit
        obtain ⟨f, hf, rfl⟩ := List.mem_map.mp hg
        simp only [] at hk hi
        obtain ⟨items', hb, -, hall⟩ := hE.forward hv.1 t server _ back
          hadd h1 f.1 (itemsOf m (sortKeys m f.2))
          (List.mem_map.mpr ⟨_, hg, rfl⟩)
        rw [hb, Option.getD_some] at hi
        obtain ⟨it', hit', hpath, hsrv⟩ := hfind f hf k (List.mem_of_getElem? hk)
        have : it' = it := by rw [hit] at hit'; exact (Option.some.inj hit').symm
        subst this
        refine hall j it' i' r ?_ hi hr
        rw [itemsOf_get m _ (fun k hk => (hfind f hf k hk).imp fun _ h => h.1) j k hk, hit])
      refine ⟨s1, rfl, ?_, p1, Nat.le_refl _⟩
      intro k hk
      obtain ⟨f, hf, hk⟩ := List.mem_flatMap.mp hk
      exact d1 (f.1, sortKeys m f.2) (List.mem_map.mpr ⟨f, hf, rfl⟩) k ((sortKeys_perm m f.2).mem_iff.mpr hk)
  | work todo =>
    cases kind with
    | inefficient f ks => exact absurd hp (by simp [FTask.Progress])
    | forward s fs => exact absurd hp (by simp [FTask.Progress])
    | file f ks =>
      cases todo with
      | nil =>
        rw [FTask.step] at h
        · cases h
          refine ⟨SameItems.refl _, rfl, ?_, fun _ h => h, Nat.le_refl _⟩
          intro k hk
          exact (hp.1 k hk).resolve_left (by simp)
        all_goals simp
      | cons x todo =>
        obtain ⟨k, o, i⟩ := x
        rw [FTask.step] at h
        obtain ⟨hko, t0, offs, infos, j, hinf, hoj, hij⟩ := (hp.2 _ (List.mem_cons_self ..)).2
        obtain ⟨it, hit, hpath, hsch, hloc⟩ := hv k (hp.2 _ (List.mem_cons_self ..)).1
        simp only [hit] at h
        simp only [] at hko hoj hij
        obtain ⟨⟨⟩, hg, h⟩ := res_bind_inv h
        obtain ⟨r, hj, h⟩ := res_bind_inv h
        obtain ⟨m1, hs, h⟩ := res_bind_inv h
        cases h
        have ho : o = it.uri.offset := by rw [hko, offsetOf, hit]; rfl
        obtain ⟨s1, d1, p1⟩ := setResult_spec (P := P) hs (by
          intro it' hit'
          rw [hit] at hit'
          cases hit'
          refine hE.file hloc t0 t it.uri it.request offs infos j i r hsch ?_ ?_ hij hg ?_
          · rw [hpath]; exact hinf
          · rw [← ho]; exact hoj
          · rw [hpath, ← ho]; exact hj)
        refine ⟨s1, rfl, ⟨?_, ?_⟩, p1, Nat.le_refl _⟩
        · intro k' hk'
          rcases hp.1 k' hk' with h | h
          · rw [List.map_cons] at h
            rcases List.mem_cons.mp h with rfl | h
            · exact Or.inr d1
            · exact Or.inl h
          · exact Or.inr (p1 k' h)
        · intro x hx
          have := hp.2 x (List.mem_cons_of_mem _ hx)
          refine ⟨this.1, ?_, this.2.2⟩
          rw [this.2.1, s1.offsetOf]
  | fetching todo =>
    cases kind with
    | file f ks => exact absurd hp (by simp [FTask.Progress])
    | forward s fs => exact absurd hp (by simp [FTask.Progress])
    | inefficient f ks =>
      cases todo with
      | nil =>
        rw [FTask.step] at h
        · cases h
          refine ⟨SameItems.refl _, rfl, ?_, fun _ h => h, Nat.le_refl _⟩
          intro k hk
          exact (hp.1 k hk).resolve_left (by simp)
        all_goals simp
      | cons k todo =>
        rw [FTask.step] at h
        obtain ⟨it, hit, hpath, hloc⟩ := hv k (hp.2 _ (List.mem_cons_self ..))
        simp only [hit] at h
        split at h
        · cases h
        · rename_i hsch
          obtain ⟨r, hj, h⟩ := res_bind_inv h
          obtain ⟨m1, hs, h⟩ := res_bind_inv h
          cases h
          obtain ⟨s1, d1, p1⟩ := setResult_spec (P := P) hs (by
            intro it' hit'
            rw [hit] at hit'
            cases hit'
            exact hE.fetch hloc t it.uri it.request r (by simpa using hsch) hj)
          refine ⟨s1, rfl, ⟨?_, ?_⟩, p1, Nat.le_refl _⟩
          · intro k' hk'
            rcases hp.1 k' hk' with h | h
            · rcases List.mem_cons.mp h with rfl | h
              · exact Or.inr d1
              · exact Or.inl h
            · exact Or.inr (p1 k' h)
          · intro k' hk'
            exact hp.2 k' (List.mem_cons_of_mem _ hk')

/-! ## Runs -/

/-- What holds of a run while no error has been reported. -/
structure RunInv (E : ExtEnv) (C : EngineConf) (fwd : Bool) (P : Uri → ExRequest → WireResult → Prop) (m : ItemMap)
    (tasks : List FTask) (s : FSys) : Prop where
  same : SameItems m s.items
  kinds : s.tasks.map FTask.kind = tasks.map FTask.kind
  valid : ∀ T ∈ s.tasks, T.Valid C fwd s.items
  progress : s.errors = [] → ∀ T ∈ s.tasks, T.Progress E P s.items

theorem sysStep_errors {E : ExtEnv} {C : EngineConf} {s s' : FSys} {j : Nat} (h : s.step E C j = .ok s') :
    s'.errors = [] → s.errors = [] := by
  intro he
  rw [FSys.step] at h
  cases ht : s.tasks[j]? with
  | none => rw [ht] at h; cases h; exact he
  | some T =>
    rw [ht] at h
    simp only [] at h
    split at h
    · cases h; exact he
    · cases h
    · cases h; simp at he

theorem run_errors {E : ExtEnv} {C : EngineConf} {js : List Nat} {s s' : FSys} (h : s.run E C js = .ok s') :
    s'.errors = [] → s.errors = [] := by
  induction js generalizing s with
  | nil => rw [FSys.run] at h; cases h; exact id
  | cons j js ih =>
    rw [FSys.run] at h
    obtain ⟨s1, h1, h2⟩ := res_bind_inv h
    intro he
    exact sysStep_errors h1 (ih h2 he)

theorem sysStep_spec {E : ExtEnv} {C : EngineConf} {P : Uri → ExRequest → WireResult → Prop} {fwd : Bool} (hE : Produces E C fwd P)
    {m : ItemMap} {tasks : List FTask} {s s' : FSys} {j : Nat} (hi : RunInv E C fwd P m tasks s)
    (h : s.step E C j = .ok s') (he : s'.errors = []) :
    RunInv E C fwd P m tasks s' ∧
      ∀ l, ((s'.tasks[l]?).map FTask.left).getD 0 ≤ ((s.tasks[l]?).map FTask.left).getD 0 - (if l = j then 1 else 0) := by
  have he0 := sysStep_errors h he
  rw [FSys.step] at h
  cases ht : s.tasks[j]? with
  | none =>
    rw [ht] at h
    cases h
    refine ⟨⟨hi.same, hi.kinds, hi.valid, hi.progress⟩, ?_⟩
    intro l
    by_cases e : l = j
    · subst e; simp [ht]
    · simp [e]
  | some T =>
    rw [ht] at h
    simp only [] at h
    have hj : j < s.tasks.length := (List.getElem?_eq_some_iff.mp ht).1
    have hTm : T ∈ s.tasks := List.mem_of_getElem? ht
    split at h
    · rename_i m1 T1 hst
      cases h
      obtain ⟨s1, hk, hp, hr, hl⟩ := step_spec hE (hi.valid T hTm) (hi.progress he0 T hTm) hst
      refine ⟨⟨hi.same.trans s1, ?_, ?_, ?_⟩, ?_⟩
      · simp only []
        rw [List.map_set, hk, ← hi.kinds]
        apply List.ext_getElem?
        intro l
        rw [List.getElem?_set]
        by_cases e : j = l
        · subst e
          rw [if_pos rfl, if_pos (by rw [List.length_map]; exact hj), List.getElem?_map, ht]
          rfl
        · rw [if_neg e]
      · intro T2 hT2
        rcases List.mem_or_eq_of_mem_set hT2 with h2 | rfl
        · exact (hi.valid T2 h2).same s1
        · have := (hi.valid T hTm).same s1
          unfold FTask.Valid at this ⊢
          rw [hk]; exact this
      · intro _ T2 hT2
        rcases List.mem_or_eq_of_mem_set hT2 with h2 | rfl
        · exact (hi.progress he0 T2 h2).same s1 hr
        · exact hp
      · intro l
        simp only [List.getElem?_set]
        by_cases e : j = l
        · subst e
          rw [if_pos rfl, if_pos hj, ht, if_pos rfl]
          exact hl
        · rw [if_neg e, if_neg (fun h => e h.symm)]
          exact Nat.le_refl _
    · cases h
    · cases h; simp at he

theorem run_spec {E : ExtEnv} {C : EngineConf} {P : Uri → ExRequest → WireResult → Prop} {fwd : Bool} (hE : Produces E C fwd P)
    {m : ItemMap} {tasks : List FTask} {js : List Nat} {s s' : FSys} (hi : RunInv E C fwd P m tasks s)
    (h : s.run E C js = .ok s') (he : s'.errors = []) :
    RunInv E C fwd P m tasks s' ∧
      ∀ l, ((s'.tasks[l]?).map FTask.left).getD 0 ≤ ((s.tasks[l]?).map FTask.left).getD 0 - js.count l := by
  induction js generalizing s with
  | nil => rw [FSys.run] at h; cases h; exact ⟨hi, fun l => by simp⟩
  | cons j js ih =>
    rw [FSys.run] at h
    obtain ⟨s1, h1, h2⟩ := res_bind_inv h
    obtain ⟨i1, l1⟩ := sysStep_spec hE hi h1 (run_errors h2 he)
    obtain ⟨i2, l2⟩ := ih i1 h2
    refine ⟨i2, ?_⟩
    intro l
    have a := l1 l
    have b := l2 l
    rw [List.count_cons]
    by_cases e : l = j
    · subst e; simp at a ⊢; omega
    · have e' : (j == l) = false := by simpa using fun h : j = l => e h.symm
      rw [if_neg e] at a
      rw [e']
      simp
      omega

theorem le_sum_of_mem {l : List Nat} {x : Nat} (h : x ∈ l) : x ≤ l.sum := by
  induction l with
  | nil => cases h
  | cons a l ih =>
    rw [List.sum_cons]
    rcases List.mem_cons.mp h with rfl | h
    · omega
    · have := ih h; omega

theorem count_rounds (n : Nat) (f : Nat → Nat) (l : Nat) (h : l < n) :
    f l ≤ ((List.range n).flatMap fun j => List.replicate (f j) j).count l := by
  rw [List.count_flatMap]
  have hm : f l ∈ (List.range n).map (List.count l ∘ fun j => List.replicate (f j) j) := by
    rw [List.mem_map]
    exact ⟨l, List.mem_range.mpr h, by simp⟩
  exact le_sum_of_mem hm

theorem left_zero {E : ExtEnv} {P : Uri → ExRequest → WireResult → Prop} {m : ItemMap} {T : FTask}
    (hp : T.Progress E P m) (h : T.left = 0) : ∀ k ∈ T.covers, HasResult P m k := by
  obtain ⟨kind, pc⟩ := T
  cases pc with
  | fresh => cases kind <;> simp [FTask.left, FTask.fuel] at h
  | work todo => simp [FTask.left] at h
  | fetching todo => simp [FTask.left] at h
  | failed => cases kind <;> exact absurd hp (by simp [FTask.Progress])
  | finished => cases kind <;> exact hp

/-- After an error-free run every item of every task has a result, which satisfies `P`. -/
theorem runTasks_spec {E : ExtEnv} {C : EngineConf} {P : Uri → ExRequest → WireResult → Prop} {fwd : Bool} (hE : Produces E C fwd P)
    {m : ItemMap} {tasks : List FTask} {sched : List Nat} {s : FSys} (hf : ∀ T ∈ tasks, T.pc = .fresh)
    (hv : ∀ T ∈ tasks, T.Valid C fwd m) (h : runTasks E C m tasks sched = .ok s) (he : s.errors = []) :
    tasks ≠ [] ∧ SameItems m s.items ∧ ∀ T ∈ tasks, ∀ k ∈ T.covers, HasResult P s.items k := by
  rw [runTasks] at h
  obtain ⟨⟨⟩, hpos, h⟩ := res_bind_inv h
  obtain ⟨s1, h1, h2⟩ := res_bind_inv h
  have hne : tasks ≠ [] := by
    rintro rfl
    cases hpos
  have i0 : RunInv E C fwd P m tasks ⟨m, tasks, [], 0⟩ := by
    refine ⟨SameItems.refl _, rfl, hv, ?_⟩
    intro _ T hT
    have := hf T hT
    obtain ⟨kind, pc⟩ := T
    simp only [] at this
    subst this
    cases kind <;> trivial
  obtain ⟨i1, l1⟩ := run_spec hE i0 h1 (run_errors h2 he)
  obtain ⟨i2, l2⟩ := run_spec hE i1 h2 he
  refine ⟨hne, i2.same, ?_⟩
  intro T hT
  obtain ⟨l, hl⟩ := List.getElem?_of_mem hT
  have hlt : l < tasks.length := (List.getElem?_eq_some_iff.mp hl).1
  have hcnt := count_rounds tasks.length (fun j => (tasks[j]?.map FTask.fuel).getD 0) l hlt
  have a := l1 l
  have b := l2 l
  simp only [hl, Option.map_some, Option.getD_some] at a hcnt
  have hfuel : T.left = T.fuel := by rw [FTask.left, hf T hT]
  have hlen : s.tasks.length = tasks.length := by
    have := congrArg List.length i2.kinds
    simpa using this
  have hl' : l < s.tasks.length := by omega
  have hkind : s.tasks[l].kind = T.kind := by
    have := congrArg (fun x => x[l]?) i2.kinds
    simp only [List.getElem?_map, List.getElem?_eq_getElem hl', hl, Option.map_some, Option.some.injEq] at this
    exact this
  rw [List.getElem?_eq_getElem hl', Option.map_some, Option.getD_some] at b
  have hz : s.tasks[l].left = 0 := by omega
  have := left_zero (i2.progress he _ (List.getElem_mem hl')) hz
  intro k hk
  apply this
  rw [FTask.covers] at hk ⊢
  rw [hkind]; exact hk

end GJ
