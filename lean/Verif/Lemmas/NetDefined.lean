import Verif.Lemmas.NetMachine
import Verif.Lemmas.NetPresent
import Verif.Props.C55

/-!
# Processes that forward to each other: nothing is undefined

Lemmas on what is scheduled for a call, on what arrives from it at another process, and on the answer.
-/

namespace GJ
open Spec

/-! ## What is scheduled -/

/-- The files and items of a call by fields. -/
theorem fields_schedulable {E : ExtEnv} {C : EngineConf} {A : String → Nat → List Interval → Prop} (hfdb : NoStrayFdb E C)
    {rs rs' : List ExRequest} (hacc : Acceptable E C A (.extract rs)) {u : Union} {m m1 : ItemMap} {fm : KeyMap}
    {L : List (FdbKey × Uri)} (hb : buildRequestMap C.ignoreYearMonth rs = .ok (rs', u, m)) (hL : E.list u = .ok L)
    (hf : fileMap C L m = .ok (m1, fm)) : Schedulable A C C.forward m1 fm := by
  rw [buildRequestMap_eq] at hb
  split at hb
  case isFalse => cases hb
  rename_i hn
  have hacc' := hacc _ L hL
  have hentry := fun k it => entriesOf_find (k := k) (it := it) hn
  obtain ⟨-, e⟩ := Prod.mk.inj (Except.ok.inj hb)
  obtain ⟨-, e⟩ := Prod.mk.inj e
  subst e
  generalize canonAll C.ignoreYearMonth false rs = rs' at *
  have hl := listLoop_safe C.ignoreYearMonth (fun u => C.forward = true ∨ C.inefficient = true ∨ u.scheme ≠ "fdb") A L (entriesOf rs') [] 0
    (fun e he => hfdb.imp id fun h => h.imp id fun h => h _ L hL e he)
    (fun _ _ _ _ f hf => by cases hf)
    (fun e he e' he' ht it hit => by
      obtain ⟨r, hr, hk, rfl⟩ := hentry _ it hit
      exact hacc' r hr e he e' he' hk (ht.trans hk))
    (fun k it hit => by
      obtain ⟨r, hr, hk, rfl⟩ := hentry _ it hit
      simp [newItem])
    List.nodup_nil (fun f hf => by cases hf) (fun f hf => by cases hf)
  unfold fileMap at hf
  generalize listLoop C.ignoreYearMonth L (entriesOf rs') [] 0 = x at *
  obtain ⟨m2, fm2, n2⟩ := x
  obtain ⟨h1, h2, h3, h4, -, -⟩ := hl
  simp only at h1 h2 h3 h4 hf
  split at hf
  · cases hf
  obtain ⟨e1, e2⟩ := Prod.mk.inj (Except.ok.inj hf)
  subst e1 e2
  refine ⟨h1, h2, h3, ?_, ?_⟩
  · intro f hf k hk
    obtain ⟨it, hit, a, b, -⟩ := h4 f hf k hk
    exact ⟨it, hit, a, fun _ => b⟩
  · by_cases h : C.forward = true
    · exact .inl h
    by_cases h' : C.inefficient = true
    · exact .inr (.inl h')
    refine .inr (.inr fun f hf k hk it hit => ?_)
    obtain ⟨it', hit', -, -, hs⟩ := h4 f hf k hk
    rw [hit] at hit'
    cases hit'
    exact (hs.resolve_left h).resolve_left h'

/-- The files and items of a call by paths. -/
theorem paths_schedulable {C : EngineConf} {A : String → Nat → List Interval → Prop} {rs : List PathReq}
    (acc : ∀ r ∈ rs, A r.path r.offset r.ranges) {fwd : Bool}
    (places : fwd = true ∨ C.inefficient = true ∨ ∀ r ∈ rs, r.scheme ≠ "fdb") :
    Schedulable A C fwd (buildPathMap rs) (fileMapFromPaths (buildPathMap rs)) := by
  obtain ⟨hn, hinv⟩ := buildPathMap_inv rs [] [] List.nodup_nil (fun k it h => by cases h)
  rw [List.nil_append] at hinv
  change (AMap.keys (buildPathMap rs)).Nodup at hn
  change ∀ k it, AMap.find (buildPathMap rs) k = some it → _ at hinv
  have g := fileMapFromPaths_spec (buildPathMap rs) hn
  generalize buildPathMap rs = m at *
  refine ⟨?_, g.files, g.nonempty, ?_, ?_⟩
  · intro k it hit
    obtain ⟨r, -, -, -, h⟩ := hinv k it hit
    exact h
  · intro f hf k hk
    obtain ⟨it, hit, hp⟩ := g.path f hf k hk
    obtain ⟨r, hr, hu, hq, -⟩ := hinv k it hit
    have hA : A it.uri.path it.uri.offset it.request.ranges := by
      rw [hu, hq]
      exact acc r hr
    exact ⟨it, hit, by rw [← hp]; exact hA, fun _ => hA⟩
  · refine places.imp id fun h => h.imp id fun h f hf k hk it hit => ?_
    obtain ⟨r, hr, hu, -, -⟩ := hinv k it hit
    rw [hu]
    exact h r hr

/-- The tasks of a call are planned over items that may be asked for. -/
theorem asked_schedulable {q : Asked} {E : ExtEnv} {C : EngineConf} {Known : String → Nat → Info → Prop}
    (hacc : q.Acceptable E C Known) {x : List ExRequest × ItemMap × List FTask} (hx : (q.call E).start C = .ok x) :
    ∃ fm fwd, Schedulable (Askable Known) C fwd x.2.1 fm ∧ plannedTasks C fwd x.2.1 fm = .ok x.2.2 := by
  cases q with
  | fields rs =>
    change callStart E C rs = .ok x at hx
    rw [callStart] at hx
    obtain ⟨⟨rs', u, m⟩, hb, hx⟩ := res_bind_inv hx
    obtain ⟨L, hL, hx⟩ := res_bind_inv hx
    obtain ⟨⟨m1, fm⟩, hf, hx⟩ := res_bind_inv hx
    obtain ⟨ts, hts, hx⟩ := res_bind_inv hx
    cases hx
    exact ⟨fm, _, fields_schedulable hacc.1 hacc.2 hb hL hf, hts⟩
  | paths rs =>
    change (Call.paths E rs).start C = .ok x at hx
    rw [Call.start] at hx
    obtain ⟨y, hp, hx⟩ := res_bind_inv hx
    cases hx
    cases rs with
    | nil => exact absurd rfl hacc.1
    | cons r rs =>
      rw [pathStart] at hp
      obtain ⟨ts, hts, hp⟩ := res_bind_inv hp
      cases hp
      exact ⟨_, _, paths_schedulable hacc.2.1 (hacc.2.2.imp (fun h => by rcases h r rfl with h | h <;> simp [h]) id), hts⟩

/-- The tasks are sound; those that forward have files, with items that may be asked for. -/
theorem planned_sound {A : String → Nat → List Interval → Prop} {C : EngineConf} {m : ItemMap} {fm : KeyMap}
    {fwd : Bool} (h : Schedulable A C fwd m fm) {ts : List FTask} (hts : plannedTasks C fwd m fm = .ok ts) :
    (∀ T ∈ ts, T.pc = .fresh) ∧ (∀ T ∈ ts, T.Sound A m) ∧
      ∀ T ∈ ts, ∀ server files, T.kind = .forward server files → files ≠ [] ∧ files.keys.Nodup ∧ ∀ f ∈ files, f.2 ≠ [] ∧
        ∀ k ∈ f.2, ∃ it, m.find k = some it ∧ A f.1 it.uri.offset it.request.ranges := by
  rw [plannedTasks] at hts
  split at hts
  · obtain ⟨sm, hsm, hts⟩ := res_bind_inv hts
    cases hts
    obtain ⟨-, -, hne, hsub, hserv⟩ := serverFileMap_spec h.files hsm
    have hkey : ∀ e ∈ sm, ∀ f ∈ e.2, f.2 ≠ [] ∧
        ∀ k ∈ f.2, ∃ it, m.find k = some it ∧ A f.1 it.uri.offset it.request.ranges := by
      intro e he f hf
      refine ⟨h.nonempty f (hserv e he f hf).1, fun k hk => ?_⟩
      obtain ⟨it, hit, hA, -⟩ := h.found f (hserv e he f hf).1 k hk
      exact ⟨it, hit, hA⟩
    refine ⟨?_, ?_, ?_⟩
    · intro T hT
      obtain ⟨e, -, rfl⟩ := List.mem_map.mp hT
      rfl
    · intro T hT
      obtain ⟨e, he, rfl⟩ := List.mem_map.mp hT
      refine ⟨hsub e he, fun f hf k hk => ?_⟩
      obtain ⟨it, hit, -⟩ := (hkey e he f hf).2 k hk
      exact ⟨it, hit⟩
    · intro T hT server files hk
      obtain ⟨e, he, rfl⟩ := List.mem_map.mp hT
      cases hk
      exact ⟨hne e he, hsub e he, hkey e he⟩
  · rename_i hf
    obtain ⟨h1, h2⟩ := (localTasks_safe (A := A) false h.nonempty h.found (h.scheme.resolve_left hf)).2 _ hts
    exact ⟨h1, h2, fun T hT server files hk => absurd hk (localTasks_here hts T hT server files)⟩

/-! ## What arrives -/

/-- Results can be sent, for requests with 64-bit bounds. -/
def Fitting (m : ItemMap) : Prop :=
  ∀ k it, m.find k = some it → it.request.Fits ∧ ∃ r, it.result = some r ∧ WireResult.Fits r

/-- What a forwarding task sends arrives as it was sent. -/
theorem arrived_files {Known : String → Nat → Info → Prop} {m : ItemMap} {files : KeyMap} {ctx c : String} {fm : FileMap}
    {rest : List Tok} (hne : files ≠ []) (hn : files.keys.Nodup)
    (hk : ∀ f ∈ files, f.2 ≠ [] ∧ ∀ k ∈ f.2, ∃ it, m.find k = some it ∧ Askable Known f.1 it.uri.offset it.request.ranges)
    (hd : dispatch (encHeader .forwardExtract ctx ++ (encForwardExtract (sentFiles m files)).1) =
      .ok ((c, .forwardExtract fm), rest)) :
    FreshFiles fm ∧ (∀ E C, Acceptable E C (Askable Known) (.forwardExtract fm)) ∧ Fitting (numFiles 0 fm).1 := by
  have hkeys : AMap.keys (sentFiles m files) = files.keys := by
    simp [sentFiles, AMap.keys, List.map_map, Function.comp_def]
  have hsort : ∀ f ∈ sentFiles m files, f.2.Pairwise fun a b => a.uri.offset ≤ b.uri.offset := by
    intro g hg
    simp only [sentFiles, List.map_map, List.mem_map, Function.comp_def] at hg
    obtain ⟨f, -, rfl⟩ := hg
    exact itemsOf_sorted (sortKeys_sorted m f.2)
  have hmem : ∀ g ∈ sentFiles m files, g.2 ≠ [] ∧ ∀ i ∈ g.2, Askable Known g.1 i.uri.offset i.request.ranges := by
    intro g hg
    simp only [sentFiles, List.map_map, List.mem_map, Function.comp_def] at hg
    obtain ⟨f, hf, rfl⟩ := hg
    obtain ⟨h1, h2⟩ := hk f hf
    refine ⟨?_, ?_⟩
    · intro e
      have hl := itemsOf_length (m := m) (ks := sortKeys m f.2) fun k hk => by
        obtain ⟨it, hit, -⟩ := h2 k ((sortKeys_perm m f.2).mem_iff.mp hk)
        exact ⟨it, hit⟩
      simp only at e
      rw [e, (sortKeys_perm m f.2).length_eq] at hl
      exact h1 (List.length_eq_zero_iff.mp hl.symm)
    · intro i hi
      obtain ⟨k, hk, hm⟩ := mem_itemsOf hi
      obtain ⟨it, hit, hA⟩ := h2 k ((sortKeys_perm m f.2).mem_iff.mp hk)
      rw [hit] at hm
      cases hm
      exact hA
  generalize sentFiles m files = sent at *
  have hkw : (wrapFiles sent).keys = sent.keys := by simp [wrapFiles, AMap.keys, Function.comp_def]
  have hd' := dispatch_forwardExtract ctx (wrapFiles sent) (wrapFiles sent)
    (by rw [encForwardExtract_sorted (wrapFiles_sorted hsort)]) (by rw [hkw, hkeys]; exact hn) (by
      intro f hf i hi
      obtain ⟨g, -, rfl⟩ := List.mem_map.mp hf
      obtain ⟨i', -, rfl⟩ := List.mem_map.mp hi
      exact wrap_fits i') (by
      cases hs : sent with
      | nil =>
        rw [hs] at hkeys
        exact absurd (List.map_eq_nil_iff.mp hkeys.symm) hne
      | cons f sent' =>
        refine ⟨(f.1, f.2.map Item.wrap), List.mem_cons_self, fun e => ?_⟩
        exact (hmem f (by rw [hs]; exact List.mem_cons_self)).1 (List.map_eq_nil_iff.mp e))
  rw [encForwardExtract_wrap hsort, hd] at hd'
  have e := (Prod.mk.inj (Prod.mk.inj (Except.ok.inj hd')).1).2
  have e : fm = (wrapFiles sent).map fun f => (f.1, f.2.map received) := by cases e; rfl
  have hback : ∀ g ∈ fm, ∃ f ∈ sent, g.1 = f.1 ∧ g.2 = f.2.map fun i => received i.wrap := by
    intro g hg
    rw [e] at hg
    obtain ⟨g1, hg1, rfl⟩ := List.mem_map.mp hg
    obtain ⟨f, hf, rfl⟩ := List.mem_map.mp hg1
    exact ⟨f, hf, rfl, by rw [List.map_map]; rfl⟩
  refine ⟨⟨?_, ?_⟩, fun E C => ⟨?_, ?_⟩, ?_⟩
  · rw [e]
    have : AMap.keys ((wrapFiles sent).map fun f => (f.1, f.2.map received)) = sent.keys := by
      rw [← hkw]; simp [AMap.keys, List.map_map, Function.comp_def]
    rw [this, hkeys]
    exact hn
  · intro g hg i hi
    obtain ⟨f, hf, e1, e2⟩ := hback g hg
    rw [e2] at hi
    obtain ⟨i0, -, rfl⟩ := List.mem_map.mp hi
    exact ⟨rfl, by simp [received]⟩
  · intro g hg
    obtain ⟨f, hf, e1, e2⟩ := hback g hg
    rw [e2]
    exact fun e => (hmem f hf).1 (List.map_eq_nil_iff.mp e)
  · intro g hg i hi
    obtain ⟨f, hf, e1, e2⟩ := hback g hg
    rw [e2] at hi
    obtain ⟨i0, hi0, rfl⟩ := List.mem_map.mp hi
    have hA := (hmem f hf).2 i0 hi0
    rw [e1]
    show Askable Known f.1 i0.uri.offset (i0.request.ranges.map Interval.wrap)
    rw [ranges_wrap (q := i0.request) fun x hx => ⟨Nat.lt_of_le_of_lt (hA.1 x hx).1 (hA.1 x hx).2, (hA.1 x hx).2⟩]
    exact hA
  · intro k it hit
    have hm := (AMap.mem_iff_find _ (numFiles_nodup fm 0) k it).mpr hit
    obtain ⟨g, hg, hi⟩ := numFiles_mem hm
    obtain ⟨f, hf, e1, e2⟩ := hback g hg
    simp only at hi
    rw [e2] at hi
    obtain ⟨i0, -, rfl⟩ := List.mem_map.mp hi
    exact ⟨wrap_fits i0, ⟨[], []⟩, rfl, (fun _ h => by cases h), (fun _ h => by cases h)⟩

/-! ## Results that can be sent -/

theorem setResult_fitting {m m' : ItemMap} {k : String} {r : WireResult} (h : Fitting m) (hr : WireResult.Fits r)
    (hm : setResult m k r = .ok m') : Fitting m' := by
  rw [setResult] at hm
  cases hk : m.find k with
  | none => rw [hk] at hm; cases hm
  | some it =>
    rw [hk] at hm
    have e := Except.ok.inj hm
    subst e
    intro k' it' hk'
    rw [AMap.find_set] at hk'
    split at hk'
    · cases hk'
      exact ⟨(h k it hk).1, r, rfl, hr⟩
    · exact h k' it' hk'

/-- What is read here can be sent. -/
def ExtEnv.Sends (E : ExtEnv) : Prop :=
  (∀ t f o i is r, (∀ x ∈ is, x.b < 2 ^ 64 ∧ x.e < 2 ^ 64) → E.jump t f o i is = .ok r → WireResult.Fits r) ∧
  ∀ t u is r, (∀ x ∈ is, x.b < 2 ^ 64 ∧ x.e < 2 ^ 64) → E.fetch t u is = .ok r → WireResult.Fits r

theorem step_fitting {E : ExtEnv} (hE : E.Sends) {C : EngineConf} {t : Nat} {m m' : ItemMap} {T T' : FTask} (h : Fitting m)
    (here : ∀ server files, T.kind ≠ .forward server files) (hs : T.step E C t m = .ok (m', T')) :
    Fitting m' ∧ T'.kind = T.kind := by
  obtain ⟨kind, pc⟩ := T
  cases kind with
  | forward server files => exact absurd rfl (here server files)
  | file f ks =>
    cases pc with
    | finished => cases hs; exact ⟨h, rfl⟩
    | failed => cases hs; exact ⟨h, rfl⟩
    | fresh =>
      rw [FTask.step] at hs
      simp only at hs
      obtain ⟨is, -, hs⟩ := res_bind_inv hs
      obtain ⟨todo, -, hs⟩ := res_bind_inv hs
      cases hs
      exact ⟨h, rfl⟩
    | fetching todo => cases todo <;> (cases hs; exact ⟨h, rfl⟩)
    | work todo =>
      cases todo with
      | nil => cases hs; exact ⟨h, rfl⟩
      | cons x todo =>
        obtain ⟨k, o, i⟩ := x
        rw [FTask.step] at hs
        simp only at hs
        cases hk : m.find k with
        | none => rw [hk] at hs; cases hs
        | some it =>
          rw [hk] at hs
          simp only at hs
          obtain ⟨⟨⟩, -, hs⟩ := res_bind_inv hs
          obtain ⟨r, hr, hs⟩ := res_bind_inv hs
          obtain ⟨m1, hm, hs⟩ := res_bind_inv hs
          cases hs
          exact ⟨setResult_fitting h (hE.1 _ _ _ _ _ _ (h k it hk).1 hr) hm, rfl⟩
  | inefficient f ks =>
    cases pc with
    | finished => cases hs; exact ⟨h, rfl⟩
    | failed => cases hs; exact ⟨h, rfl⟩
    | fresh => cases hs; exact ⟨h, rfl⟩
    | work todo => cases todo <;> (cases hs; exact ⟨h, rfl⟩)
    | fetching todo =>
      cases todo with
      | nil => cases hs; exact ⟨h, rfl⟩
      | cons k todo =>
        rw [FTask.step] at hs
        simp only at hs
        cases hk : m.find k with
        | none => rw [hk] at hs; cases hs
        | some it =>
          rw [hk] at hs
          simp only at hs
          split at hs
          · cases hs
          obtain ⟨r, hr, hs⟩ := res_bind_inv hs
          obtain ⟨m1, hm, hs⟩ := res_bind_inv hs
          cases hs
          exact ⟨setResult_fitting h (hE.2 _ _ _ _ (h k it hk).1 hr) hm, rfl⟩

theorem fsys_fitting {E : ExtEnv} (hE : E.Sends) {C : EngineConf} (js : List Nat) {s s' : FSys} (h : Fitting s.items)
    (here : ∀ T ∈ s.tasks, ∀ server files, T.kind ≠ .forward server files) (hs : s.run E C js = .ok s') :
    Fitting s'.items ∧ ∀ T ∈ s'.tasks, ∀ server files, T.kind ≠ .forward server files := by
  induction js generalizing s with
  | nil => cases hs; exact ⟨h, here⟩
  | cons j js ih =>
    rw [FSys.run] at hs
    obtain ⟨s1, h1, hs⟩ := res_bind_inv hs
    have hone : Fitting s1.items ∧ ∀ T ∈ s1.tasks, ∀ server files, T.kind ≠ .forward server files := by
      rw [FSys.step] at h1
      cases hT : s.tasks[j]? with
      | none => rw [hT] at h1; cases h1; exact ⟨h, here⟩
      | some T =>
        rw [hT] at h1
        simp only at h1
        have hm := List.mem_of_getElem? hT
        cases hr : T.step E C s.time s.items with
        | error e =>
          rw [hr] at h1
          cases e with
          | ub => cases h1
          | exn e =>
            cases h1
            refine ⟨h, fun T' hT' => ?_⟩
            rcases List.mem_or_eq_of_mem_set hT' with h' | rfl
            · exact here T' h'
            · exact here T hm
        | ok x =>
          obtain ⟨m', T1⟩ := x
          rw [hr] at h1
          cases h1
          obtain ⟨h2, h3⟩ := step_fitting hE h (here T hm) hr
          refine ⟨h2, fun T' hT' => ?_⟩
          rcases List.mem_or_eq_of_mem_set hT' with h' | rfl
          · exact here T' h'
          · rw [h3]; exact here T hm
    exact ih hone.1 hone.2 hs

theorem runTasks_fitting {E : ExtEnv} (hE : E.Sends) {C : EngineConf} {m : ItemMap} {ts : List FTask} {sched : List Nat}
    {s : FSys} (h : Fitting m) (here : ∀ T ∈ ts, ∀ server files, T.kind ≠ .forward server files)
    (hs : runTasks E C m ts sched = .ok s) : Fitting s.items := by
  rw [runTasks] at hs
  obtain ⟨⟨⟩, -, hs⟩ := res_bind_inv hs
  obtain ⟨s1, h1, hs⟩ := res_bind_inv hs
  obtain ⟨h2, h3⟩ := fsys_fitting hE sched (s := ⟨m, ts, [], 0⟩) h here h1
  exact (fsys_fitting hE _ h2 h3 hs).1

/-! ## Answers -/

/-- The process computes with the numbers of the machine, in `mem` bytes of memory; the store behind it holds, at a place,
messages with metadata `stored`; listing is defined. -/
structure Site.Machine (p : Site) (mem : Nat) (stored : Uri → Info → Prop) : Prop where
  jump : p.jump = machineExtract mem p.reader
  fetch : ∀ u is, (∃ e, p.fetch u is = throwExn e) ∨
    ∃ msg info, stored u info ∧ p.fetch u is = machineExtract mem p.reader msg 0 info is
  list : ∀ g u, (p.calls g).list u ≠ undef

theorem lived_sends {p : Site} {mem : Nat} {stored : Uri → Info → Prop} (h : p.Machine mem stored)
    {fwd : Nat → Nat → String × Int → FileMap → Res FileMap} {U : String → Prop} {start : Svc UInt64} {d : Disk} {g : Nat}
    {E : ExtEnv} (hL : Lived (p.told fwd) U start d g E) : E.Sends := by
  refine ⟨?_, ?_⟩
  · intro t f o i is r hi hr
    obtain ⟨d', -, -, he⟩ := hL.jump t f o i is
    rw [he] at hr
    unfold Site.jumpOn at hr
    cases hf : d' f with
    | none => rw [hf] at hr; cases hr
    | some file =>
      rw [hf] at hr
      have hr : p.jump file o i is = .ok r := hr
      rw [h.jump] at hr
      exact machineExtract_fits hi hr
  · intro t u is r hi hr
    rw [hL.fetch] at hr
    have hr : p.fetch u is = .ok r := hr
    rcases h.fetch u is with ⟨e, he⟩ | ⟨msg, info, -, he⟩
    · rw [he] at hr; cases hr
    · rw [he] at hr
      exact machineExtract_fits hi hr

/-- What forwarding tasks send may be asked for. -/
def Net.Sends (N : Net) (Known : String → Nat → Info → Prop) : Prop :=
  ∀ a g (j : Nat) server files, (N.jobs a g).2[j]? = some ⟨.forward server files, .fresh⟩ →
    files ≠ [] ∧ files.keys.Nodup ∧ ∀ f ∈ files, f.2 ≠ [] ∧
      ∀ k ∈ f.2, ∃ it, (N.jobs a g).1.find k = some it ∧ Askable Known f.1 it.uri.offset it.request.ranges

section
variable {N : Net} {U : Nat → String → Prop} {asked : Nat → Nat → Asked} {written : Nat → Nat → List ExRequest}

/-- What comes back is an answer of this program. -/
theorem heard_answered (sound : N.Sound U asked written) {mem : Nat → Nat} {stored : Nat → Uri → Info → Prop}
    (machine : ∀ a, (N.site a).Machine (mem a) (stored a)) {Known : String → Nat → Info → Prop} (sends : N.Sends Known)
    {st : NetSys} (began : N.Began U st) {es : List NetEv} (allowed : ∀ e ∈ es, NetEv.Allowed U e) {a g : Nat}
    {server : String × Int} {fm : FileMap} {res : Res FileMap} (h : N.Heard st es a g server fm res) : Answered fm res := by
  obtain ⟨ea, e, eb, sx, w, j, files, rfl, hrun, hconn, hT, hfm, hcase⟩ := h
  have hal : ∀ e ∈ ea, NetEv.Allowed U e := fun x hx => allowed x (List.mem_append_left _ hx)
  have ok := net_ok sound began ea sx hrun hal
  rcases hcase with ⟨r, hr, rfl⟩ | ⟨-, rfl⟩
  case inr => exact .inl ⟨_, rfl⟩
  have hk := ok.kinds a g j
  rw [hT] at hk
  cases hJ : (N.jobs a g).2[j]? with
  | none => rw [hJ] at hk; cases hk
  | some T =>
    rw [hJ] at hk
    simp only [Option.map_some, Option.some.injEq] at hk
    have hfresh := sound.fresh a g T (List.mem_of_getElem? hJ)
    obtain ⟨kind, pc⟩ := T
    simp only at hk hfresh
    subst hk hfresh
    cases htg : N.target a g j with
    | none =>
      rw [Net.reply, htg] at hr
      cases hr
      exact .inl ⟨_, rfl⟩
    | some q =>
      obtain ⟨b, k⟩ := q
      rw [Net.reply, htg] at hr
      simp only [] at hr
      split at hr
      case isFalse => cases hr
      rename_i hph
      cases hr
      obtain ⟨server', files', fm0, hjob, hhost, hdis, hitems, htasks⟩ := sound.sent _ _ _ _ _ htg
      rw [hJ] at hjob
      cases hjob
      obtain ⟨s1, s2, s3⟩ := sends a g j server files hJ
      obtain ⟨-, -, hfit⟩ := arrived_files s1 s2 s3 hdis
      rw [← sentFiles_bytes (ok.items a g), ← hfm] at hdis
      obtain ⟨fwdB, -, invB, -⟩ := net_srv sound began hrun hal b
      obtain ⟨EB, qsB, hLB, hrB⟩ := invB.run
      obtain ⟨sched, s', hrt, hit, her, -⟩ := C71_refines (N.threads b) EB _ (N.jobs b) (sound.fresh b) qsB _ hrB k hph
      have hrt : runTasks (EB k) (N.site b).conf (N.jobs b k).1 (N.jobs b k).2 sched = .ok s' := hrt
      rw [← hitems] at hfit
      have hend := runTasks_fitting (lived_sends (machine b) (hLB k)) hfit
        (localTasks_here (hitems ▸ htasks)) hrt
      rw [hit] at hend
      have hserved : Served ((numFiles 0 fm0).2.map fun f =>
          (f.1, itemsOf ((sx b).x.job k).items (sortKeys ((sx b).x.job k).items f.2))) := by
        intro f hf i hi
        obtain ⟨g, -, rfl⟩ := List.mem_map.mp hf
        obtain ⟨k, -, hk⟩ := mem_itemsOf hi
        exact (hend k i hk).2
      obtain ⟨bytes, hbytes, -⟩ := decForwardReplyLoop_defined _ hserved
      refine .inr ⟨((sx b).x.t.grp k).errors, _, bytes, hserved, hbytes, ?_⟩
      rw [remoteForwardExtract, remoteCall, serve, hdis]
      simp only [handle]
      rw [show (Net.answering sx b k).forwardExtract fm0 = .ok ((numFiles 0 fm0).2.map fun f =>
          (f.1, itemsOf ((sx b).x.job k).items (sortKeys ((sx b).x.job k).items f.2)), ((sx b).x.t.grp k).errors) from rfl,
        ok_bind]
      simp only [hbytes]
      rw [ok_bind]

/-- Requests that may be made lead to tasks that send what may be asked for. -/
theorem net_sends (sound : N.Sound U asked written) {Known : String → Nat → Info → Prop}
    (acceptable : ∀ a g, N.origin a g = none → (N.jobs a g).2 ≠ [] →
      (asked a g).Acceptable ((N.site a).calls g) (N.site a).conf Known) : N.Sends Known := by
  intro a g j server files hJ
  have hmem := List.mem_of_getElem? hJ
  have hne : (N.jobs a g).2 ≠ [] := List.ne_nil_of_mem hmem
  cases ho : N.origin a g with
  | some q =>
    obtain ⟨b, k, t⟩ := q
    obtain ⟨_, _, _, _, _, _, _, htasks⟩ := sound.sent _ _ _ _ _ ((sound.back _ _ _ _ _).mpr ho)
    exact absurd rfl (localTasks_here htasks _ hmem server files)
  | none =>
    rcases sound.client a g ho with hx | hx
    · obtain ⟨fm, fwd, hsch, hts⟩ := asked_schedulable (acceptable a g ho hne) hx
      exact (planned_sound hsch hts).2.2 _ hmem server files rfl
    · exact absurd hx hne

theorem Askable.less {K K' : String → Nat → Info → Prop} (h : ∀ f o i, K' f o i → K f o i) {f : String} {o : Nat}
    {rs : List Interval} (ha : Askable K f o rs) : Askable K' f o rs :=
  ⟨ha.1, fun i hi => ha.2 i (h f o i hi)⟩

theorem Steady.less {E : ExtEnv} {A A' : String → Nat → List Interval → Prop} (h : ∀ f o rs, A' f o rs → A f o rs)
    (hs : Steady E A) : Steady E A' where
  list := hs.list
  infos := hs.infos
  jump t t' f o i rs os is j ha := hs.jump t t' f o i rs os is j (h f o rs ha)
  fetch t u rs ha := hs.fetch t u rs (h _ _ rs ha)
  forward := hs.forward

/-- Tasks of a client's call and of a request that arrived are defined, as long as all that is heard are answers. -/
theorem tasks_defined (sound : N.Sound U asked written) {Known : String → Nat → Info → Prop}
    (acceptable : ∀ a g, N.origin a g = none → (N.jobs a g).2 ≠ [] →
      (asked a g).Acceptable ((N.site a).calls g) (N.site a).conf Known) {a g : Nat} (hne : (N.jobs a g).2 ≠ [])
    {E : ExtEnv} (hE : Steady E (Askable Known)) (sched : List Nat) :
    runTasks E (N.site a).conf (N.jobs a g).1 (N.jobs a g).2 sched ≠ undef := by
  cases ho : N.origin a g with
  | none =>
    rcases sound.client a g ho with hx | hx
    · obtain ⟨fm, fwd, hsch, hts⟩ := asked_schedulable (acceptable a g ho hne) hx
      obtain ⟨h1, h2, -⟩ := planned_sound hsch hts
      exact (runTasks_safe hE _ sched hsch.filled h1 h2).1
    · exact absurd hx hne
  | some q =>
    obtain ⟨b, k, t⟩ := q
    obtain ⟨server, files, fm, hJ, -, hdis, hitems, htasks⟩ := sound.sent _ _ _ _ _ ((sound.back _ _ _ _ _).mpr ho)
    obtain ⟨s1, s2, s3⟩ := net_sends sound acceptable b k t server files hJ
    obtain ⟨h1, h2, -⟩ := arrived_files s1 s2 s3 hdis
    have h3 := (serverForward_safe hE (C := (N.site a).conf) sched h1 (h2 _ _)).1
    intro hu
    apply h3
    rw [serverForward]
    simp only []
    rw [scheduleTasks]
    simp only [Bool.false_eq_true, if_false]
    rw [htasks, ok_bind, ← hitems, hu]
    rfl

/-- Files of all processes after a step. -/
def NetEv.grow (d : Nat → Disk) : NetEv → Nat → Disk
  | .on a e => fun b => if b = a then e.grow (d b) else d b
  | .lost _ _ => d

/-- Files of all processes after a history. -/
def netDisks (d : Nat → Disk) (es : List NetEv) : Nat → Disk := es.foldl NetEv.grow d

def NetSys.disks (s : NetSys) : Nat → Disk := fun a => (s a).svc.disk

theorem net_grow_before (d : Nat → Disk) (e : NetEv) (a : Nat) : (d a).Before (e.grow d a) := by
  cases e with
  | lost b w => exact Disk.Before.refl _
  | on b e =>
    show (d a).Before (if a = b then e.grow (d a) else d a)
    split
    · exact grow_before _ _
    · exact Disk.Before.refl _

theorem netDisks_before (es : List NetEv) (d : Nat → Disk) (a : Nat) : (d a).Before (netDisks d es a) := by
  induction es generalizing d with
  | nil => exact Disk.Before.refl _
  | cons e es ih => exact (net_grow_before d e a).trans (ih _)

theorem net_step_disks {s s' : NetSys} {e : NetEv} (h : N.step s e = .ok s') : s'.disks = e.grow s.disks := by
  rw [Net.step] at h
  generalize hact : N.act s e = q at h
  obtain ⟨c, o⟩ := q
  cases o with
  | none =>
    cases h
    cases e with
    | lost b w => rfl
    | on b e =>
      have hq : ∀ d, e.grow d = d := by
        intro d
        cases e with
        | queue e => rfl
        | other e => exact absurd (congrArg Prod.snd hact) (by simp [Net.act])
      funext a
      show s.disks a = if a = b then e.grow (s.disks a) else s.disks a
      rw [hq, ite_self]
  | some q =>
    obtain ⟨p, e'⟩ := q
    simp only at h
    obtain ⟨y, hy, h⟩ := res_bind_inv h
    cases h
    have hd := srv_disk hy
    funext a
    show (if a = c then y else s a).svc.disk = _
    rcases net_act_inv hact with ⟨-, he, -⟩ | ⟨w, g, j, r, he', -, -, he⟩
    · subst he
      show _ = if a = c then e'.grow (s.disks a) else s.disks a
      by_cases hac : a = c
      · subst hac; rw [if_pos rfl, if_pos rfl]; exact hd
      · rw [if_neg hac, if_neg hac]; rfl
    · subst he'
      have hg : e.grow s.disks a = s.disks a := by
        rcases he with ⟨rfl, -⟩ | ⟨rfl, -⟩
        · show (if a = c then s.disks a else s.disks a) = _
          rw [ite_self]
        · rfl
      rw [hg]
      by_cases hac : a = c
      · subst hac; rw [if_pos rfl]; exact hd
      · rw [if_neg hac]; rfl

/-- Metadata that some process can have of the field at a place. -/
def Net.Known (N : Net) (stored : Nat → Uri → Info → Prop) (d : Nat → Disk) (f : String) (o : Nat) (i : Info) : Prop :=
  ∃ a, (N.site a).Known (stored a) (d a) f o i

/-- The next step of the network is defined. -/
theorem net_defined_step (sound : N.Sound U asked written) {mem : Nat → Nat} (memory : ∀ a, mem a ≤ 2 ^ 60)
    (lib : ∀ a, AecContract (N.site a).reader.lib) {stored : Nat → Uri → Info → Prop}
    (machine : ∀ a, (N.site a).Machine (mem a) (stored a)) {st : NetSys} (began : N.Began U st) {D : Nat → Disk}
    (blocks : ∀ a f o i x, (N.site a).Known (stored a) (D a) f o (.ccsds i x) → x.rsi * x.blockSize ≠ 0)
    (acceptable : ∀ a g, N.origin a g = none → (N.jobs a g).2 ≠ [] →
      (asked a g).Acceptable ((N.site a).calls g) (N.site a).conf (N.Known stored D))
    {es : List NetEv} {e : NetEv} (allowed : ∀ x ∈ es ++ [e], NetEv.Allowed U x) {s : NetSys} (hrun : N.run st es = .ok s)
    (hD : ∀ a, (s.disks a).Before (D a)) : ∃ s', N.step s e = .ok s' := by
  have hal : ∀ x ∈ es, NetEv.Allowed U x := fun x hx => allowed x (List.mem_append_left _ hx)
  cases hact : (N.act s e).2 with
  | none => exact ⟨s, by rw [Net.step, hact]⟩
  | some q =>
    obtain ⟨p, e'⟩ := q
    generalize hc : (N.act s e).1 = c
    have hact' : N.act s e = (c, some (p, e')) := Prod.ext hc hact
    obtain ⟨fwd0, hF0⟩ := net_hears (N := N) (U := U) (st := st) (es1 := []) rfl (fun _ h => by cases h) c
      (fun _ _ _ _ => throwExn .ioError) es s hrun hal
    obtain ⟨fwd, hF, hnext⟩ := net_next hrun hF0 e
    have hans : ∀ g t server fm, Answered fm (fwd g t server fm) := by
      intro g t server fm
      have h0 : ((st c).x.job g).time = 0 := by
        obtain ⟨d, mode, lazy, cap, fs, -, -, -, rfl⟩ := began
        rfl
      obtain ⟨_, _, _, _, _, _, hh⟩ := hF
      rcases hh g t server fm (by rw [h0]; exact Nat.zero_le _) with h | h
      · rw [h]; exact .inl ⟨_, rfl⟩
      · exact heard_answered sound machine (net_sends sound acceptable) began allowed h
    obtain ⟨from_, hfrom, inv⟩ := net_since sound began hF
    have hzero : ∀ g, from_ g = (st c).svc := by
      intro g
      refine hfrom g ?_
      obtain ⟨d, mode, lazy, cap, fs, -, -, -, rfl⟩ := began
      rfl
    have good : SvcGood (N.site c).reader (N.site c).offs (U c) (st c).svc := by
      obtain ⟨d, mode, lazy, cap, fs, h1, h2, h3, rfl⟩ := began
      exact SvcGood.start (sound.offs c) (h1 c) (h2 c) (h3 c)
    have computes : ((N.site c).told fwd).Computes (mem c) (stored c) :=
      ⟨(machine c).jump, (machine c).fetch, (machine c).list, hans⟩
    have hae : e'.Allowed (U c) := by
      have := allowed e (List.mem_append_right _ (List.mem_singleton.mpr rfl))
      rcases net_act_inv hact' with ⟨-, he, -⟩ | ⟨w, g, j, r, he', -⟩
      · subst he; exact this
      · subst he'; trivial
    obtain ⟨y, hy⟩ := inv.steps (p := (N.site c).told fwd) (sound.reader c) (sound.offs c) (sound.fresh c) (e := e') (by
      intro g E hL hne sched
      rw [hzero g] at hL
      have hm := lived_machine (p := (N.site c).told fwd) (sound.reader c) (sound.offs c) good (hL.before (hD c)) computes
        (blocks c)
      exact tasks_defined sound acceptable hne ((hm.steady (lib c) (memory c)).less
        fun f o rs ha => ha.less fun f o i hi => ⟨c, hi⟩) sched) hae
    rw [← hnext p e' hact'] at hy
    exact ⟨_, by rw [Net.step, hact]; simp only []; rw [hc, hy, ok_bind]⟩

end

end GJ
