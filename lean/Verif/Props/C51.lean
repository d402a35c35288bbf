import Verif.Lemmas.Scan

/-!
# C51: scans of several files
-/

namespace GJ

/-! ## Files scanned in parallel -/

/-- The files of a scan have index files of their own. -/
def FilesApart (c : Cache) (sm : ScanMap) : Prop :=
  sm.keys.Nodup ∧ ∀ f ∈ sm.keys, ∀ g ∈ sm.keys, c.mode.indexPath f = c.mode.indexPath g → f = g

theorem scanApart_of {c : Cache} {sm : ScanMap} (h : FilesApart c sm) :
    ScanApart c (sm.map fun f => ScanKind.file f.1 f.2) := by
  intro i j f os g os' hi hj hij he
  rw [List.getElem?_map] at hi hj
  cases hx : sm[i]? with
  | none => rw [hx] at hi; cases hi
  | some x =>
    cases hy : sm[j]? with
    | none => rw [hy] at hj; cases hj
    | some y =>
      rw [hx] at hi; rw [hy] at hj
      cases hi; cases hj
      have hfx : sm.keys[i]? = some x.1 := by rw [AMap.keys, List.getElem?_map, hx]; rfl
      have hfy : sm.keys[j]? = some y.1 := by rw [AMap.keys, List.getElem?_map, hy]; rfl
      have := h.2 _ (List.mem_of_getElem? hfx) _ (List.mem_of_getElem? hfy) he
      rw [this] at hfx
      obtain ⟨hl, e1⟩ := List.getElem?_eq_some_iff.mp hfx
      obtain ⟨hl', e2⟩ := List.getElem?_eq_some_iff.mp hfy
      exact hij ((List.getElem_inj h.1).mp (e1.trans e2.symm))

theorem forward_notin {sm : ScanMap} {srv : String × Int} {fm : ScanMap} :
    ScanKind.forward srv fm ∉ sm.map fun f => ScanKind.file f.1 f.2 := by
  intro h
  obtain ⟨x, -, hx⟩ := List.mem_map.mp h
  cases hx

theorem file_in {sm : ScanMap} {f : String} {os : List Nat} :
    ScanKind.file f os ∈ (sm.map fun f => ScanKind.file f.1 f.2) ↔ (f, os) ∈ sm := by
  constructor
  · intro h
    obtain ⟨⟨g, os'⟩, hm, hx⟩ := List.mem_map.mp h
    cases hx
    exact hm
  · intro h; exact List.mem_map.mpr ⟨_, h, rfl⟩

/-- C51.  Files are scanned by several workers in any interleaving.  For each file the outcome is the one of scanning
it alone: if all succeed, the number reported is the sum, and each index file is what its own scan writes; an error is
reported exactly when the scan of some file fails, and then each index file is either untouched or what its own scan
writes.  No other index file is touched. -/
theorem C51_files_as_if_alone (E : ScanEnv) (c : Cache) (sm : ScanMap) (some_ : sm ≠ []) (apart : FilesApart c sm)
    (defined : ∀ f os, (f, os) ∈ sm → scanAlone E.W c f os ≠ undef) (sched : List ScanEv) :
    ∃ n errs c', scheduleScan E c sm sched = .ok (n, errs, c') ∧ c' = { c with fs := c'.fs } ∧
      (errs = [] → ∃ ns : List Nat, n = ns.sum ∧ ns.length = sm.length ∧
        ∀ (j : Nat) f os k, sm[j]? = some (f, os) → ns[j]? = some k → ∃ c1, scanAlone E.W c f os = .ok (k, c1) ∧
          c'.fs.find (c.mode.indexPath f) = c1.fs.find (c.mode.indexPath f)) ∧
      (errs ≠ [] ↔ ∃ f os e, (f, os) ∈ sm ∧ scanAlone E.W c f os = throwExn e) ∧
      (∀ f os, (f, os) ∈ sm → c'.fs.find (c.mode.indexPath f) = c.fs.find (c.mode.indexPath f) ∨
        ∃ k c1, scanAlone E.W c f os = .ok (k, c1) ∧
          c'.fs.find (c.mode.indexPath f) = c1.fs.find (c.mode.indexPath f)) ∧
      (∀ p, (∀ f ∈ sm.keys, c.mode.indexPath f ≠ p) → c'.fs.find p = c.fs.find p) := by
  have hdef : ScanDefined E c (sm.map fun f => ScanKind.file f.1 f.2) :=
    ⟨fun f os h => defined f os (file_in.mp h), fun srv fm t h => absurd h forward_notin⟩
  obtain ⟨s, h1, hi, hend⟩ := scanTasks_spec c _ (by simpa using some_) (scanApart_of apart) hdef sched
  obtain ⟨ns, hl, hsum, htask⟩ := hi.tasks
  have hkind : ∀ j : Nat, (s.tasks[j]?).map (·.kind) = (sm[j]?).map fun f => ScanKind.file f.1 f.2 := by
    intro j
    rw [← List.getElem?_map, hi.kindsEq, List.getElem?_map]
  have hlen : s.tasks.length = sm.length := by
    have := congrArg List.length hi.kindsEq
    simpa using this
  have hat : ∀ (j : Nat) f os, sm[j]? = some (f, os) → ∃ pc k, s.tasks[j]? = some ⟨.file f os, pc⟩ ∧ ns[j]? = some k := by
    intro j f os hj
    have := hkind j
    rw [hj] at this
    cases hT : s.tasks[j]? with
    | none => rw [hT] at this; cases this
    | some T =>
      rw [hT] at this
      obtain ⟨k, pc⟩ := T
      obtain ⟨hlt, -⟩ := List.getElem?_eq_some_iff.mp hT
      simp only [Option.map_some, Option.some.injEq] at this
      subst this
      exact ⟨pc, ns[j], rfl, List.getElem?_eq_getElem (by omega)⟩
  refine ⟨s.count, s.errors, s.c, h1, hi.same, ?_, ⟨?_, ?_⟩, ?_, ?_⟩
  · intro he
    refine ⟨ns, hsum, by omega, fun j f os k hj hk => ?_⟩
    obtain ⟨pc, k', hT, hk'⟩ := hat j f os hj
    rw [hk] at hk'
    cases hk'
    have hok := htask j _ _ hT hk
    have hz := hend _ (List.mem_of_getElem? hT)
    cases pc with
    | fresh => cases hz
    | planned p => cases hz
    | done => exact hok
    | failed => exact absurd he hok.2.2.1
    | cancelled => exact absurd he hok.2.2
  · intro he
    obtain ⟨T, hT, hf⟩ := hi.errors he
    obtain ⟨j, hj⟩ := List.mem_iff_getElem?.mp hT
    obtain ⟨hlt, -⟩ := List.getElem?_eq_some_iff.mp hj
    have hk := hkind j
    rw [hj] at hk
    cases hx : sm[j]? with
    | none => rw [hx] at hk; cases hk
    | some x =>
      rw [hx] at hk
      obtain ⟨f, os⟩ := x
      obtain ⟨kd, pc⟩ := T
      simp only [Option.map_some, Option.some.injEq] at hk hf
      subst hk; subst hf
      have hok := htask j _ _ hj (List.getElem?_eq_getElem (by omega))
      obtain ⟨e, he⟩ := hok.2.2.2
      exact ⟨f, os, e, List.mem_of_getElem? hx, he⟩
  · rintro ⟨f, os, e, hm, he⟩ hnil
    obtain ⟨j, hj⟩ := List.mem_iff_getElem?.mp hm
    obtain ⟨pc, k, hT, hk⟩ := hat j f os hj
    have hok := htask j _ _ hT hk
    have hz := hend _ (List.mem_of_getElem? hT)
    cases pc with
    | fresh => cases hz
    | planned p => cases hz
    | done => obtain ⟨c1, h, -⟩ := hok; rw [he] at h; cases h
    | failed => exact absurd hnil hok.2.2.1
    | cancelled => exact absurd hnil hok.2.2
  · intro f os hm
    obtain ⟨j, hj⟩ := List.mem_iff_getElem?.mp hm
    obtain ⟨pc, k, hT, hk⟩ := hat j f os hj
    have hok := htask j _ _ hT hk
    have hz := hend _ (List.mem_of_getElem? hT)
    cases pc with
    | fresh => cases hz
    | planned p => cases hz
    | done => exact Or.inr ⟨k, hok⟩
    | failed => exact Or.inl hok.2.1
    | cancelled => exact Or.inl hok.2.1
  · intro p hp
    apply hi.other
    intro f os h
    apply hp
    rw [AMap.keys]
    exact List.mem_map.mpr ⟨_, file_in.mp h, rfl⟩

/-! ## What the indexes hold afterwards -/

/-- The offsets a scan of a file is to index: those given, or those of all its messages. -/
def scanTargets (W : World) (f : String) (os : List Nat) : Res (List Nat) :=
  if os = [] then W.offsetsOf f else .ok os

/-- Every file of the scan has an index that can be loaded (or none), and every offset to be indexed that is not in it
yet has a message from which metadata can be built. -/
def Scannable (W : World) (c : Cache) (sm : ScanMap) : Prop :=
  ∀ f os, (f, os) ∈ sm → c.readable f ∧ ∃ l, scanTargets W f os = .ok l ∧
    ∀ o ∈ l, c.indexed f o = none → ∃ i, W.data f o = .ok i

/-- The scan covers offset `o` of file `f`. -/
def Covered (W : World) (sm : ScanMap) (f : String) (o : Nat) : Prop :=
  ∃ os l, (f, os) ∈ sm ∧ scanTargets W f os = .ok l ∧ o ∈ l

/-- The number of offsets of a file that are not indexed yet. -/
def newOffsets (W : World) (c : Cache) (f : String) (os : List Nat) : Nat :=
  match scanTargets W f os with
  | .ok l => (l.filter fun o => (c.indexed f o).isNone).length
  | .error _ => 0

theorem scanAlone_spec {W : World} {c : Cache} {f : String} {os l : List Nat} (hr : c.readable f)
    (ht : scanTargets W f os = .ok l) (hd : ∀ o ∈ l, c.indexed f o = none → ∃ i, W.data f o = .ok i) :
    ∃ c1, scanAlone W c f os = .ok (newOffsets W c f os, c1) ∧ c1.mode = c.mode ∧ c1.readable f ∧
      ∀ o i, c1.indexed f o = some i ↔
        (c.indexed f o = some i ∨ (c.indexed f o = none ∧ o ∈ l ∧ W.data f o = .ok i)) := by
  have key : scanAlone W c f os = c.scan W f l := by
    unfold scanAlone
    unfold scanTargets at ht
    by_cases h : os = []
    · rw [if_pos h] at ht ⊢
      exact C18_scan_file W c f l ht
    · rw [if_neg h] at ht ⊢
      cases ht
      rfl
  obtain ⟨es, hes, hl⟩ := hr
  simp only [Cache.indexed_of_load hl] at hd
  obtain ⟨es', c', h1, h2, h3, h4, -, h6, -⟩ := scan_spec W c f l es hes hl hd
  refine ⟨c', ?_, h6, ⟨es', h2, by rw [h6]; exact h3⟩, ?_⟩
  · rw [key, h1]
    unfold newOffsets
    rw [ht]
    simp only [Cache.indexed_of_load hl]
  · intro o i
    have h3' : loadIndex c'.fs (c'.mode.indexPath f) = .ok (noNull es') := by rw [h6]; exact h3
    rw [Cache.indexed_of_load h3', h4, Cache.indexed_of_load hl]
    cases hf : AMap.find es o with
    | some i' => simp
    | none =>
      simp only [reduceCtorEq, false_or, true_and]
      split
      · rename_i hm
        rw [World.info_some]
        exact ⟨fun h => ⟨hm, h⟩, fun h => h.2⟩
      · rename_i hm
        simp [hm]

theorem indexed_congr {c c' : Cache} {f : String} (hm : c'.mode = c.mode)
    (hf : c'.fs.find (c.mode.indexPath f) = c.fs.find (c.mode.indexPath f)) (o : Nat) :
    c'.indexed f o = c.indexed f o := by
  unfold Cache.indexed loadIndex
  rw [hm, hf]

theorem readable_congr {c c' : Cache} {f : String} (hm : c'.mode = c.mode)
    (hf : c'.fs.find (c.mode.indexPath f) = c.fs.find (c.mode.indexPath f)) (h : c.readable f) : c'.readable f := by
  unfold Cache.readable loadIndex at h ⊢
  rw [hm, hf]
  exact h

/-- C51.  A scan of files and offsets, whatever the schedule: it succeeds, the number reported is the number of
offsets that were not indexed, and afterwards the indexes hold the metadata of all covered messages besides what they
held before, and nothing else.  (For files whose index is not taken for that of another file, see C15.) -/
theorem C51_scan_indexes (E : ScanEnv) (c : Cache) (sm : ScanMap) (some_ : sm ≠ []) (apart : FilesApart c sm)
    (possible : Scannable E.W c sm) (sched : List ScanEv) :
    ∃ c', scheduleScan E c sm sched = .ok ((sm.map fun f => newOffsets E.W c f.1 f.2).sum, [], c') ∧
      c' = { c with fs := c'.fs } ∧ (∀ f ∈ sm.keys, c'.readable f) ∧
      ∀ f, (∀ g ∈ sm.keys, c.mode.indexPath f = c.mode.indexPath g → f = g) → ∀ o i,
        c'.indexed f o = some i ↔
          (c.indexed f o = some i ∨ (c.indexed f o = none ∧ Covered E.W sm f o ∧ E.W.data f o = .ok i)) := by
  have hal : ∀ f os, (f, os) ∈ sm → ∃ l c1, scanTargets E.W f os = .ok l ∧
      scanAlone E.W c f os = .ok (newOffsets E.W c f os, c1) ∧ c1.mode = c.mode ∧ c1.readable f ∧
      ∀ o i, c1.indexed f o = some i ↔
        (c.indexed f o = some i ∨ (c.indexed f o = none ∧ o ∈ l ∧ E.W.data f o = .ok i)) := by
    intro f os hm
    obtain ⟨hr, l, ht, hd⟩ := possible f os hm
    obtain ⟨c1, h1, h2, h3, h4⟩ := scanAlone_spec hr ht hd
    exact ⟨l, c1, ht, h1, h2, h3, h4⟩
  obtain ⟨n, errs, c', h1, h2, h3, h4, -, h6⟩ := C51_files_as_if_alone E c sm some_ apart (by
    intro f os hm h
    obtain ⟨l, c1, -, h', -⟩ := hal f os hm
    rw [h] at h'; cases h') sched
  have hnil : errs = [] := by
    by_cases he : errs = []
    · exact he
    · obtain ⟨f, os, e, hm, h⟩ := h4.mp he
      obtain ⟨l, c1, -, h', -⟩ := hal f os hm
      rw [h] at h'; cases h'
  subst hnil
  obtain ⟨ns, hn, hl, hns⟩ := h3 rfl
  have hns' : ns = sm.map fun f => newOffsets E.W c f.1 f.2 := by
    apply List.ext_getElem?
    intro j
    rw [List.getElem?_map]
    cases hj : sm[j]? with
    | none =>
      rw [List.getElem?_eq_none_iff] at hj
      rw [List.getElem?_eq_none (by omega)]; rfl
    | some x =>
      obtain ⟨f, os⟩ := x
      obtain ⟨hlt, -⟩ := List.getElem?_eq_some_iff.mp hj
      obtain ⟨c1, hc, -⟩ := hns j f os ns[j] hj (List.getElem?_eq_getElem (by omega))
      obtain ⟨l, c2, -, h', -⟩ := hal f os (List.mem_of_getElem? hj)
      rw [h', Except.ok.injEq, Prod.mk.injEq] at hc
      rw [List.getElem?_eq_getElem (by omega), ← hc.1]; rfl
  have hmode : c'.mode = c.mode := by rw [h2]
  have hfile : ∀ f os, (f, os) ∈ sm → ∃ c1, scanAlone E.W c f os = .ok (newOffsets E.W c f os, c1) ∧
      c'.fs.find (c.mode.indexPath f) = c1.fs.find (c.mode.indexPath f) := by
    intro f os hm
    obtain ⟨j, hj⟩ := List.mem_iff_getElem?.mp hm
    obtain ⟨hlt, -⟩ := List.getElem?_eq_some_iff.mp hj
    obtain ⟨c1, hc, hfs⟩ := hns j f os ns[j] hj (List.getElem?_eq_getElem (by omega))
    obtain ⟨l, c2, -, h', -⟩ := hal f os hm
    rw [h', Except.ok.injEq, Prod.mk.injEq] at hc
    rw [← hc.2] at hfs
    exact ⟨c2, h', hfs⟩
  refine ⟨c', by rw [h1, hn, hns'], h2, ?_, ?_⟩
  · intro f hf
    rw [AMap.keys] at hf
    obtain ⟨⟨g, os⟩, hm, rfl⟩ := List.mem_map.mp hf
    obtain ⟨l, c1, -, h', hmd, hr, -⟩ := hal g os hm
    obtain ⟨c2, h'', hfs⟩ := hfile g os hm
    rw [h', Except.ok.injEq, Prod.mk.injEq] at h''
    rw [← h''.2] at hfs
    apply readable_congr (c := c1) (hmode.trans hmd.symm) _ hr
    rw [hmd]; exact hfs
  · intro f hf o i
    by_cases hin : f ∈ sm.keys
    · rw [AMap.keys] at hin
      obtain ⟨⟨g, os⟩, hm, rfl⟩ := List.mem_map.mp hin
      obtain ⟨l, c1, ht, h', hmd, -, hidx⟩ := hal g os hm
      obtain ⟨c2, h'', hfs⟩ := hfile g os hm
      rw [h', Except.ok.injEq, Prod.mk.injEq] at h''
      rw [← h''.2] at hfs
      rw [indexed_congr (c := c1) (hmode.trans hmd.symm) (by rw [hmd]; exact hfs), hidx]
      have hcov : Covered E.W sm g o ↔ o ∈ l := by
        constructor
        · rintro ⟨os', l', hm', ht', ho⟩
          have e1 := (AMap.mem_iff_find sm apart.1 g os).mp hm
          have e2 := (AMap.mem_iff_find sm apart.1 g os').mp hm'
          rw [e1] at e2
          cases e2
          rw [ht] at ht'
          cases ht'
          exact ho
        · intro ho; exact ⟨os, l, hm, ht, ho⟩
      simp only [hcov]
    · rw [indexed_congr hmode]
      · constructor
        · exact Or.inl
        · rintro (h | ⟨-, ⟨os, l, hm, -⟩, -⟩)
          · exact h
          · exact absurd (List.mem_map.mpr ⟨_, hm, rfl⟩) hin
      · apply h6
        intro g hg he
        have := hf g hg he.symm
        subst this
        exact hin hg

/-! ## Scans of requests -/

/-- The listing of several requests is the concatenation of their listings; it fails if one of them fails. -/
theorem C51_listing (E : ScanEnv) (rs : List String) (us : List Uri) :
    listUris E rs = .ok us ↔ ∃ uss, rs.mapM E.list = .ok uss ∧ us = uss.flatten := by
  induction rs generalizing us with
  | nil =>
    rw [listUris, List.mapM_nil]
    constructor
    · intro h; cases h; exact ⟨[], rfl, rfl⟩
    · rintro ⟨uss, h, rfl⟩; cases h; rfl
  | cons r rs ih =>
    rw [listUris, List.mapM_cons]
    cases hr : E.list r with
    | error e =>
      rw [error_bind, error_bind]
      constructor
      · intro h; cases h
      · rintro ⟨uss, h, -⟩; cases h
    | ok u =>
      rw [ok_bind, ok_bind]
      cases ht : listUris E rs with
      | error e =>
        rw [error_bind]
        constructor
        · intro h; cases h
        · rintro ⟨uss, h, -⟩
          obtain ⟨tl, h1, -⟩ := res_bind_inv h
          rw [(ih tl.flatten).mpr ⟨tl, h1, rfl⟩] at ht
          cases ht
      | ok tl =>
        obtain ⟨uss, h1, h2⟩ := (ih tl).mp ht
        rw [ok_bind, h1, ok_bind]
        constructor
        · intro h; cases h; exact ⟨u :: uss, rfl, by rw [h2]; rfl⟩
        · rintro ⟨uss', h, rfl⟩; cases h; rw [h2]; rfl

/-- Adding one location to the files and offsets to scan. -/
def addOffset (m : ScanMap) (u : Uri) : ScanMap := m.set u.path ((m.find u.path).getD [] ++ [u.offset])

theorem insert_eq_set {K V : Type} [DecidableEq K] (m : AMap K V) (k : K) (v : V) (h : m.find k = none) :
    m.insert k v = m.set k v := by
  induction m with
  | nil => rfl
  | cons p m ih =>
    obtain ⟨k', v'⟩ := p
    rw [AMap.find] at h
    by_cases hk : k' = k
    · rw [if_pos hk] at h; cases h
    · rw [if_neg hk] at h
      rw [AMap.insert, AMap.set, if_neg hk, if_neg hk, ih h]

theorem filesOffsets_eq (us : List Uri) : filesOffsets us = us.foldl addOffset [] := by
  unfold filesOffsets
  congr 1
  funext m u
  unfold addOffset
  cases h : m.find u.path with
  | none => exact insert_eq_set m _ _ h
  | some os => rfl

/-- The offsets of the listed locations of a file, in the order listed. -/
def offsetsIn (us : List Uri) (f : String) : List Nat := (us.filter fun u => decide (u.path = f)).map (·.offset)

theorem addOffset_spec (us : List Uri) (m : ScanMap) (hn : m.keys.Nodup) :
    (us.foldl addOffset m).keys.Nodup ∧
    ∀ f, (us.foldl addOffset m).find f =
      if offsetsIn us f = [] then m.find f else some ((m.find f).getD [] ++ offsetsIn us f) := by
  induction us generalizing m with
  | nil => exact ⟨hn, fun f => by simp [offsetsIn]⟩
  | cons u us ih =>
    rw [List.foldl_cons]
    obtain ⟨h1, h2⟩ := ih (addOffset m u) (AMap.nodup_set _ _ _ hn)
    refine ⟨h1, fun f => ?_⟩
    rw [h2]
    unfold addOffset
    rw [AMap.find_set]
    by_cases hf : u.path = f
    · have : offsetsIn (u :: us) f = u.offset :: offsetsIn us f := by
        simp [offsetsIn, hf]
      rw [this, if_neg (List.cons_ne_nil _ _)]
      subst hf
      rw [if_pos rfl]
      split
      · rename_i h; rw [h]
      · simp
    · have : offsetsIn (u :: us) f = offsetsIn us f := by
        simp [offsetsIn, hf]
      rw [this]
      simp only [if_neg hf]

theorem filesOffsets_find (us : List Uri) (f : String) :
    (filesOffsets us).find f = if offsetsIn us f = [] then none else some (offsetsIn us f) := by
  rw [filesOffsets_eq, (addOffset_spec us [] (by simp [AMap.keys])).2]
  rfl

theorem filesOffsets_nodup (us : List Uri) : (filesOffsets us).keys.Nodup := by
  rw [filesOffsets_eq]
  exact (addOffset_spec us [] (by simp [AMap.keys])).1

theorem mem_offsetsIn {us : List Uri} {f : String} {o : Nat} :
    o ∈ offsetsIn us f ↔ ∃ u ∈ us, u.path = f ∧ u.offset = o := by
  simp [offsetsIn, and_assoc]

theorem mem_filesOffsets {us : List Uri} {f : String} {os : List Nat} :
    (f, os) ∈ filesOffsets us ↔ os = offsetsIn us f ∧ os ≠ [] := by
  rw [AMap.mem_iff_find _ (filesOffsets_nodup us), filesOffsets_find]
  split
  · rename_i h
    constructor
    · intro h; cases h
    · rintro ⟨rfl, h'⟩; exact absurd h h'
  · rename_i h
    constructor
    · intro h'; cases h'; exact ⟨rfl, h⟩
    · rintro ⟨rfl, -⟩; rfl

theorem mem_files {us : List Uri} {f : String} : f ∈ (filesOffsets us).keys ↔ ∃ u ∈ us, u.path = f := by
  rw [AMap.mem_keys_iff, filesOffsets_find]
  constructor
  · intro h
    split at h
    · cases h
    · rename_i hne
      obtain ⟨o, ho⟩ := List.exists_mem_of_ne_nil _ hne
      obtain ⟨u, hu, hp, -⟩ := mem_offsetsIn.mp ho
      exact ⟨u, hu, hp⟩
  · rintro ⟨u, hu, hp⟩
    rw [if_neg]
    · rfl
    · exact List.ne_nil_of_mem (mem_offsetsIn.mpr ⟨u, hu, hp, rfl⟩)

theorem sum_set_by {K V : Type} [DecidableEq K] (g : K → V → Nat) (m : AMap K V) (k : K) (v : V) :
    ((m.set k v).map fun x => g x.1 x.2).sum + ((m.find k).map (g k)).getD 0
      = (m.map fun x => g x.1 x.2).sum + g k v := by
  induction m with
  | nil => simp [AMap.set, AMap.find]
  | cons p m ih =>
    obtain ⟨k', v'⟩ := p
    rw [AMap.set, AMap.find]
    by_cases h : k' = k
    · rw [if_pos h, if_pos h]; subst h; simp; omega
    · rw [if_neg h, if_neg h]; simp only [List.map_cons, List.sum_cons] at ih ⊢; omega

theorem addOffset_sum (q : String → Nat → Bool) (us : List Uri) (m : ScanMap) :
    ((us.foldl addOffset m).map fun x => (x.2.filter (q x.1)).length).sum
      = (m.map fun x => (x.2.filter (q x.1)).length).sum + (us.filter fun u => q u.path u.offset).length := by
  induction us generalizing m with
  | nil => rfl
  | cons u us ih =>
    rw [List.foldl_cons, ih]
    have := sum_set_by (fun f (os : List Nat) => (os.filter (q f)).length) m u.path
      ((m.find u.path).getD [] ++ [u.offset])
    have h0 : ((m.find u.path).map fun os : List Nat => (os.filter (q u.path)).length).getD 0
        = (((m.find u.path).getD []).filter (q u.path)).length := by
      cases m.find u.path <;> rfl
    rw [h0, List.filter_append, List.length_append] at this
    unfold addOffset
    cases hq : q u.path u.offset with
    | true => simp [hq] at this ⊢; omega
    | false => simp [hq] at this ⊢; omega

theorem filesOffsets_count (W : World) (c : Cache) (us : List Uri) :
    ((filesOffsets us).map fun f => newOffsets W c f.1 f.2).sum
      = (us.filter fun u => (c.indexed u.path u.offset).isNone).length := by
  have h : ((filesOffsets us).map fun f => newOffsets W c f.1 f.2)
      = (filesOffsets us).map fun x => (x.2.filter fun o => (c.indexed x.1 o).isNone).length := by
    apply List.map_congr_left
    rintro ⟨f, os⟩ hm
    have := (mem_filesOffsets.mp hm).2
    unfold newOffsets scanTargets
    rw [if_neg this]
  rw [h, filesOffsets_eq, addOffset_sum (fun f o => (c.indexed f o).isNone)]
  simp

theorem filesOffsets_ne {us : List Uri} (h : us ≠ []) : filesOffsets us ≠ [] := by
  obtain ⟨u, hu⟩ := List.exists_mem_of_ne_nil _ h
  intro hn
  have := mem_files.mpr ⟨u, hu, rfl⟩
  rw [hn] at this
  cases this

/-- The listed files have index files of their own. -/
def UrisApart (c : Cache) (us : List Uri) : Prop :=
  ∀ u ∈ us, ∀ v ∈ us, c.mode.indexPath u.path = c.mode.indexPath v.path → u.path = v.path

/-- A scan of listed messages. -/
theorem scan_listed (E : ScanEnv) (c : Cache) (us : List Uri) (hus : us ≠ []) (apart : UrisApart c us)
    (possible : ∀ u ∈ us, c.readable u.path ∧
      (c.indexed u.path u.offset = none → ∃ i, E.W.data u.path u.offset = .ok i)) (sched : List ScanEv) :
    ∃ c', scheduleScan E c (filesOffsets us) sched
        = .ok ((us.filter fun u => (c.indexed u.path u.offset).isNone).length, [], c') ∧
      c' = { c with fs := c'.fs } ∧ (∀ u ∈ us, c'.readable u.path) ∧
      ∀ f, (∀ u ∈ us, c.mode.indexPath f = c.mode.indexPath u.path → f = u.path) → ∀ o i,
        c'.indexed f o = some i ↔ (c.indexed f o = some i ∨
          (c.indexed f o = none ∧ (∃ u ∈ us, u.path = f ∧ u.offset = o) ∧ E.W.data f o = .ok i)) := by
  obtain ⟨c', h1, h2, h3, h4⟩ := C51_scan_indexes E c (filesOffsets us) (filesOffsets_ne hus)
    ⟨filesOffsets_nodup us, by
      intro f hf g hg he
      obtain ⟨u, hu, rfl⟩ := mem_files.mp hf
      obtain ⟨v, hv, rfl⟩ := mem_files.mp hg
      exact apart u hu v hv he⟩ (by
      intro f os hm
      obtain ⟨rfl, hne⟩ := mem_filesOffsets.mp hm
      constructor
      · obtain ⟨o, ho⟩ := List.exists_mem_of_ne_nil _ hne
        obtain ⟨u, hu, rfl, -⟩ := mem_offsetsIn.mp ho
        exact (possible u hu).1
      · refine ⟨_, by rw [scanTargets, if_neg hne], fun o ho hi => ?_⟩
        obtain ⟨u, hu, rfl, rfl⟩ := mem_offsetsIn.mp ho
        exact (possible u hu).2 hi) sched
  have hcov : ∀ f o, Covered E.W (filesOffsets us) f o ↔ ∃ u ∈ us, u.path = f ∧ u.offset = o := by
    intro f o
    rw [← mem_offsetsIn]
    constructor
    · rintro ⟨os, l, hm, ht, ho⟩
      obtain ⟨rfl, hne⟩ := mem_filesOffsets.mp hm
      rw [scanTargets, if_neg hne] at ht
      cases ht
      exact ho
    · intro ho
      have hne := List.ne_nil_of_mem ho
      exact ⟨_, _, mem_filesOffsets.mpr ⟨rfl, hne⟩, by rw [scanTargets, if_neg hne], ho⟩
  refine ⟨c', by rw [h1, filesOffsets_count], h2, ?_, ?_⟩
  · intro u hu
    exact h3 _ (mem_files.mpr ⟨u, hu, rfl⟩)
  · intro f hf o i
    rw [h4 f (by
      intro g hg he
      obtain ⟨u, hu, rfl⟩ := mem_files.mp hg
      exact hf u hu he), hcov]

/-- C51.  A scan of requests indexes the listed messages: whatever the schedule, it reports how many of the listed
messages were not indexed, and afterwards the indexes hold the metadata of the listed messages besides what they held
before, and nothing else. -/
theorem C51_scan_requests (E : ScanEnv) (C : ScanConf) (c : Cache) (rs : List String) (us : List Uri)
    (local_ : C.forwardScan = false) (some_ : rs ≠ []) (listed : listUris E rs = .ok us) (apart : UrisApart c us)
    (possible : ∀ u ∈ us, c.readable u.path ∧
      (c.indexed u.path u.offset = none → ∃ i, E.W.data u.path u.offset = .ok i)) (sched : List ScanEv) :
    ∃ c', apiScan E C c rs false sched
        = .ok ((us.filter fun u => (c.indexed u.path u.offset).isNone).length, c') ∧
      c' = { c with fs := c'.fs } ∧ (∀ u ∈ us, c'.readable u.path) ∧
      ∀ f, (∀ u ∈ us, c.mode.indexPath f = c.mode.indexPath u.path → f = u.path) → ∀ o i,
        c'.indexed f o = some i ↔ (c.indexed f o = some i ∨
          (c.indexed f o = none ∧ (∃ u ∈ us, u.path = f ∧ u.offset = o) ∧ E.W.data f o = .ok i)) := by
  unfold apiScan
  rw [if_neg some_]
  unfold engineScan
  rw [listed, ok_bind]
  by_cases hus : us = []
  · rw [if_pos hus]
    subst hus
    refine ⟨c, rfl, rfl, (fun u hu => (by cases hu)), fun f _ o i => ⟨Or.inl, ?_⟩⟩
    rintro (h | ⟨-, ⟨u, hu, -⟩, -⟩)
    · exact h
    · cases hu
  · rw [if_neg hus, local_]
    obtain ⟨c', h1, h2, h3, h4⟩ := scan_listed E c us hus apart possible sched
    refine ⟨c', ?_, h2, h3, h4⟩
    show raiseScan (scheduleScan E c (filesOffsets us) sched) = _
    rw [h1]
    rfl

/-- C51.  Repeating a scan reports nothing new and changes no index. -/
theorem C51_scan_again (E : ScanEnv) (C : ScanConf) (c c' : Cache) (rs : List String) (us : List Uri) (n : Nat)
    (local_ : C.forwardScan = false) (some_ : rs ≠ []) (listed : listUris E rs = .ok us) (apart : UrisApart c us)
    (possible : ∀ u ∈ us, c.readable u.path ∧
      (c.indexed u.path u.offset = none → ∃ i, E.W.data u.path u.offset = .ok i)) (sched sched' : List ScanEv)
    (first : apiScan E C c rs false sched = .ok (n, c')) :
    ∃ c'', apiScan E C c' rs false sched' = .ok (0, c'') ∧
      ∀ u ∈ us, ∀ o, c''.indexed u.path o = c'.indexed u.path o := by
  obtain ⟨c1, h1, h2, h3, h4⟩ := C51_scan_requests E C c rs us local_ some_ listed apart possible sched
  rw [first, Except.ok.injEq, Prod.mk.injEq] at h1
  rw [← h1.2] at h2 h3 h4
  have hmode : c'.mode = c.mode := by rw [h2]
  have hin : ∀ u ∈ us, (c'.indexed u.path u.offset).isSome := by
    intro u hu
    have := h4 u.path (fun v hv he => apart u hu v hv he) u.offset
    cases hi : c.indexed u.path u.offset with
    | some i => rw [(this i).mpr (Or.inl hi)]; rfl
    | none =>
      obtain ⟨i, hd⟩ := (possible u hu).2 hi
      rw [(this i).mpr (Or.inr ⟨hi, ⟨u, hu, rfl, rfl⟩, hd⟩)]; rfl
  have hapart' : UrisApart c' us := by
    intro u hu v hv he
    rw [hmode] at he
    exact apart u hu v hv he
  obtain ⟨c2, g1, -, -, g4⟩ := C51_scan_requests E C c' rs us local_ some_ listed hapart' (fun u hu =>
    ⟨h3 u hu, fun hn => by have := hin u hu; rw [hn] at this; cases this⟩) sched'
  refine ⟨c2, ?_, ?_⟩
  · rw [g1]
    have : (us.filter fun u => (c'.indexed u.path u.offset).isNone) = [] := by
      rw [List.filter_eq_nil_iff]
      intro u hu
      have := hin u hu
      cases hc : c'.indexed u.path u.offset with
      | none => rw [hc] at this; cases this
      | some i => simp
    rw [this]; rfl
  · intro u hu o
    have key := g4 u.path (fun v hv he => hapart' u hu v hv he) o
    have key' : ∀ i, c2.indexed u.path o = some i ↔ c'.indexed u.path o = some i := by
      intro i
      rw [key]
      constructor
      · rintro (h | ⟨hn, ⟨v, hv, hp, ho⟩, -⟩)
        · exact h
        · have := hin v hv
          rw [hp, ho, hn] at this
          cases this
      · exact Or.inl
    cases hx : c'.indexed u.path o with
    | some i => exact (key' i).mpr hx
    | none =>
      cases hy : c2.indexed u.path o with
      | none => rfl
      | some i => rw [(key' i).mp hy] at hx; cases hx

/-! ## Scans of whole files -/

/-- The outcome of scanning whole files: the distinct files are `fs`. -/
def WholeFiles (E : ScanEnv) (c : Cache) (isFile : String → Prop) (r : Res (Nat × Cache)) : Prop :=
  ∃ (fs : List String) (c' : Cache), fs.Nodup ∧ (∀ f, f ∈ fs ↔ isFile f) ∧
    r = .ok ((fs.map fun f => newOffsets E.W c f []).sum, c') ∧
    c' = { c with fs := c'.fs } ∧ (∀ f ∈ fs, c'.readable f) ∧
    ∀ f, (∀ g ∈ fs, c.mode.indexPath f = c.mode.indexPath g → f = g) → ∀ o i,
      c'.indexed f o = some i ↔ (c.indexed f o = some i ∨
        (c.indexed f o = none ∧ f ∈ fs ∧ (∃ l, E.W.offsetsOf f = .ok l ∧ o ∈ l) ∧ E.W.data f o = .ok i))

/-- Every file can be scanned in whole. -/
def WholePossible (E : ScanEnv) (c : Cache) (isFile : String → Prop) : Prop :=
  (∀ f, isFile f → c.readable f ∧ ∃ l, E.W.offsetsOf f = .ok l ∧
    ∀ o ∈ l, c.indexed f o = none → ∃ i, E.W.data f o = .ok i) ∧
  ∀ f g, isFile f → isFile g → c.mode.indexPath f = c.mode.indexPath g → f = g

theorem whole_files (E : ScanEnv) (c : Cache) (sm : ScanMap) (isFile : String → Prop) (hne : sm ≠ [])
    (hn : sm.keys.Nodup) (hk : ∀ f, f ∈ sm.keys ↔ isFile f) (hempty : ∀ f os, (f, os) ∈ sm → os = [])
    (possible : WholePossible E c isFile) (sched : List ScanEv) :
    WholeFiles E c isFile (raiseScan (scheduleScan E c sm sched)) := by
  have hmk : ∀ f os, (f, os) ∈ sm → f ∈ sm.keys := fun f os h => List.mem_map.mpr ⟨_, h, rfl⟩
  obtain ⟨c', h1, h2, h3, h4⟩ := C51_scan_indexes E c sm hne
    ⟨hn, fun f hf g hg he => possible.2 f g ((hk f).mp hf) ((hk g).mp hg) he⟩ (by
      intro f os hm
      obtain ⟨hr, l, hl, hd⟩ := possible.1 f ((hk f).mp (hmk f os hm))
      refine ⟨hr, l, ?_, hd⟩
      rw [scanTargets, if_pos (hempty f os hm)]; exact hl) sched
  refine ⟨sm.keys, c', hn, hk, ?_, h2, h3, ?_⟩
  · rw [h1]
    have : (sm.map fun f => newOffsets E.W c f.1 f.2) = sm.keys.map fun f => newOffsets E.W c f [] := by
      rw [AMap.keys, List.map_map]
      apply List.map_congr_left
      rintro ⟨f, os⟩ hm
      rw [hempty f os hm]; rfl
    rw [this]; rfl
  · intro f hf o i
    rw [h4 f hf]
    have hcov : Covered E.W sm f o ↔ (f ∈ sm.keys ∧ ∃ l, E.W.offsetsOf f = .ok l ∧ o ∈ l) := by
      constructor
      · rintro ⟨os, l, hm, ht, ho⟩
        rw [scanTargets, if_pos (hempty f os hm)] at ht
        exact ⟨hmk f os hm, l, ht, ho⟩
      · rintro ⟨hm, l, ht, ho⟩
        obtain ⟨⟨g, os⟩, hx, rfl⟩ := List.mem_map.mp hm
        exact ⟨os, l, hx, by rw [scanTargets, if_pos (hempty g os hx)]; exact ht, ho⟩
    rw [hcov, and_assoc]

theorem filesMap_spec (files : List String) (m : ScanMap) (hn : m.keys.Nodup) (he : ∀ f os, (f, os) ∈ m → os = []) :
    (files.foldl (fun m f => AMap.set m f []) m).keys.Nodup ∧
    (∀ f, f ∈ (files.foldl (fun m f => AMap.set m f []) m).keys ↔ (f ∈ m.keys ∨ f ∈ files)) ∧
    ∀ f os, (f, os) ∈ files.foldl (fun m f => AMap.set m f []) m → os = [] := by
  induction files generalizing m with
  | nil => exact ⟨hn, fun f => by simp, he⟩
  | cons a files ih =>
    rw [List.foldl_cons]
    obtain ⟨h1, h2, h3⟩ := ih (AMap.set m a []) (AMap.nodup_set _ _ _ hn) (by
      intro f os hm
      have := (AMap.mem_iff_find _ (AMap.nodup_set m a [] hn) f os).mp hm
      rw [AMap.find_set] at this
      split at this
      · cases this; rfl
      · exact he f os ((AMap.mem_iff_find m hn f os).mpr this))
    refine ⟨h1, fun f => ?_, h3⟩
    rw [h2, AMap.mem_keys_iff, AMap.find_set, List.mem_cons, AMap.mem_keys_iff]
    by_cases hf : a = f
    · subst hf; simp
    · have hf' : ¬ f = a := fun h => hf h.symm
      simp [hf, hf']

/-- C51.  A scan of files indexes all their messages; a file named twice is scanned once. -/
theorem C51_scan_files (E : ScanEnv) (c : Cache) (files : List String) (some_ : files ≠ [])
    (possible : WholePossible E c (· ∈ files)) (sched : List ScanEv) :
    WholeFiles E c (· ∈ files) (apiScanFiles E c files sched) := by
  unfold apiScanFiles
  rw [if_neg some_]
  obtain ⟨h1, h2, h3⟩ := filesMap_spec files [] (by simp [AMap.keys]) (fun f os h => by cases h)
  apply whole_files E c _ (· ∈ files) _ h1 _ h3 possible sched
  · intro hn
    obtain ⟨f, hf⟩ := List.exists_mem_of_ne_nil _ some_
    have := (h2 f).mpr (Or.inr hf)
    rw [hn] at this
    cases this
  · intro f
    rw [h2]
    simp [AMap.keys]

/-- C51.  A scan of requests by files indexes all messages of every file with a listed message. -/
theorem C51_scan_by_files (E : ScanEnv) (C : ScanConf) (c : Cache) (rs : List String) (us : List Uri)
    (local_ : C.forwardScan = false) (some_ : rs ≠ []) (listed : listUris E rs = .ok us) (found : us ≠ [])
    (possible : WholePossible E c fun f => ∃ u ∈ us, u.path = f) (sched : List ScanEv) :
    WholeFiles E c (fun f => ∃ u ∈ us, u.path = f) (apiScan E C c rs true sched) := by
  have hkeys : AMap.keys ((filesOffsets us).map fun f => (f.1, ([] : List Nat))) = (filesOffsets us).keys := by
    simp only [AMap.keys, List.map_map]; rfl
  have := whole_files E c ((filesOffsets us).map fun f => (f.1, [])) (fun f => ∃ u ∈ us, u.path = f) (by
    intro hn
    exact filesOffsets_ne found (List.map_eq_nil_iff.mp hn)) (by rw [hkeys]; exact filesOffsets_nodup us) (by
    intro f; rw [hkeys]; exact mem_files) (by
    intro f os hm
    obtain ⟨x, -, hx⟩ := List.mem_map.mp hm
    cases hx; rfl) possible sched
  unfold apiScan
  rw [if_neg some_]
  unfold engineScan
  rw [listed, ok_bind, if_neg found, local_]
  exact this

/-! ## Failures -/

/-- C51.  Nothing to scan is an error; requests that list nothing are not: they report zero. -/
theorem C51_nothing_to_scan (E : ScanEnv) (C : ScanConf) (c : Cache) (rs : List String) (byfiles : Bool)
    (sched : List ScanEv) :
    apiScan E C c [] byfiles sched = throwExn .userError ∧ apiScanFiles E c [] sched = throwExn .userError ∧
    (rs ≠ [] → listUris E rs = .ok [] → apiScan E C c rs byfiles sched = .ok (0, c)) := by
  refine ⟨rfl, rfl, fun h hl => ?_⟩
  unfold apiScan
  rw [if_neg h]
  unfold engineScan
  rw [hl, ok_bind, if_pos rfl]
  rfl

/-- C51.  A scan of files fails exactly if the scan of one of them does; it is then an exception, never a count. -/
theorem C51_scan_files_fails_iff (E : ScanEnv) (c : Cache) (files : List String) (some_ : files ≠ [])
    (apart : ∀ f ∈ files, ∀ g ∈ files, c.mode.indexPath f = c.mode.indexPath g → f = g)
    (defined : ∀ f ∈ files, c.scanFile E.W f true ≠ undef) (sched : List ScanEv) :
    (apiScanFiles E c files sched = throwExn .seriousBug ↔ ∃ f ∈ files, ∃ e, c.scanFile E.W f true = throwExn e) ∧
    ((∀ f ∈ files, ∃ n c', c.scanFile E.W f true = .ok (n, c')) → ∃ n c', apiScanFiles E c files sched = .ok (n, c')) := by
  obtain ⟨h1, h2, h3⟩ := filesMap_spec files [] (by simp [AMap.keys]) (fun f os h => by cases h)
  have hk : ∀ f, f ∈ (files.foldl (fun m f => AMap.set m f []) ([] : ScanMap)).keys ↔ f ∈ files := by
    intro f; rw [h2]; simp [AMap.keys]
  have hm : ∀ f os, (f, os) ∈ files.foldl (fun m f => AMap.set m f []) ([] : ScanMap) → f ∈ files :=
    fun f os h => (hk f).mp (List.mem_map.mpr ⟨_, h, rfl⟩)
  have halone : ∀ f os, (f, os) ∈ files.foldl (fun m f => AMap.set m f []) ([] : ScanMap) →
      scanAlone E.W c f os = c.scanFile E.W f true := by
    intro f os h
    rw [scanAlone, if_pos (h3 f os h)]
  obtain ⟨n, errs, c', g1, -, -, g4, -⟩ := C51_files_as_if_alone E c
    (files.foldl (fun m f => AMap.set m f []) []) (by
      intro hn
      obtain ⟨f, hf⟩ := List.exists_mem_of_ne_nil _ some_
      have := (hk f).mpr hf
      rw [hn] at this
      cases this)
    ⟨h1, fun f hf g hg he => apart f ((hk f).mp hf) g ((hk g).mp hg) he⟩ (by
      intro f os h
      rw [halone f os h]
      exact defined f (hm f os h)) sched
  have hapi : apiScanFiles E c files sched = if errs ≠ [] then throwExn .seriousBug else .ok (n, c') := by
    unfold apiScanFiles
    rw [if_neg some_]
    unfold engineScanFiles raiseScan
    rw [g1, ok_bind]
  have hiff : errs ≠ [] ↔ ∃ f ∈ files, ∃ e, c.scanFile E.W f true = throwExn e := by
    rw [g4]
    constructor
    · rintro ⟨f, os, e, h, he⟩
      rw [halone f os h] at he
      exact ⟨f, hm f os h, e, he⟩
    · rintro ⟨f, hf, e, he⟩
      obtain ⟨⟨g, os⟩, hx, rfl⟩ := List.mem_map.mp ((hk f).mpr hf)
      exact ⟨g, os, e, hx, by rw [halone g os hx]; exact he⟩
  rw [hapi]
  constructor
  · rw [← hiff]
    by_cases he : errs = []
    · rw [if_neg (by simp [he])]
      constructor
      · intro h; cases h
      · intro h; exact absurd he h
    · rw [if_pos he]
      exact ⟨fun _ => he, fun _ => rfl⟩
  · intro hall
    rw [if_neg]
    · exact ⟨n, c', rfl⟩
    · rw [hiff]
      rintro ⟨f, hf, e, he⟩
      obtain ⟨n, c1, h⟩ := hall f hf
      rw [he] at h
      cases h

/-! ## Forwarded scans -/

/-- The listed locations that a server is responsible for. -/
def sentTo (C : ScanConf) (us : List Uri) (s : String × Int) : List Uri :=
  us.filter fun u => decide (C.servers.find (u.host, u.port) = some s)

theorem serverScans_spec (C : ScanConf) (us : List Uri) (acc : AMap (String × Int) ScanMap) (hn : acc.keys.Nodup)
    (known : ∀ u ∈ us, ∃ s, C.servers.find (u.host, u.port) = some s) :
    ∃ m, serverScans C us acc = .ok m ∧ m.keys.Nodup ∧ ∀ s, m.find s =
      if sentTo C us s = [] then acc.find s else some ((sentTo C us s).foldl addOffset ((acc.find s).getD [])) := by
  induction us generalizing acc with
  | nil => exact ⟨acc, rfl, hn, fun s => by simp [sentTo]⟩
  | cons u us ih =>
    obtain ⟨v, hv⟩ := known u List.mem_cons_self
    obtain ⟨m, h1, h2, h3⟩ := ih (acc.set v (addOffset ((acc.find v).getD []) u)) (AMap.nodup_set _ _ _ hn)
      fun w hw => known w (List.mem_cons_of_mem _ hw)
    refine ⟨m, ?_, h2, fun s => ?_⟩
    · rw [serverScans.eq_def]
      simp only [hv]
      exact h1
    · rw [h3, AMap.find_set]
      by_cases hs : v = s
      · have : sentTo C (u :: us) s = u :: sentTo C us s := by simp [sentTo, hv, hs]
        rw [this, if_neg (List.cons_ne_nil _ _)]
        subst hs
        simp only [if_true]
        split
        · rename_i h; rw [h]; rfl
        · rfl
      · have : sentTo C (u :: us) s = sentTo C us s := by simp [sentTo, hv, hs]
        rw [this]
        simp only [if_neg hs]

theorem serverScans_unknown (C : ScanConf) (us : List Uri) (acc : AMap (String × Int) ScanMap)
    (unknown : ∃ u ∈ us, C.servers.find (u.host, u.port) = none) : serverScans C us acc = throwExn .seriousBug := by
  induction us generalizing acc with
  | nil => obtain ⟨u, hu, -⟩ := unknown; cases hu
  | cons u us ih =>
    rw [serverScans.eq_def]
    cases hv : C.servers.find (u.host, u.port) with
    | none => simp only [hv]
    | some s =>
      simp only [hv]
      apply ih
      obtain ⟨w, hw, hwn⟩ := unknown
      rcases List.mem_cons.mp hw with rfl | hw
      · rw [hv] at hwn; cases hwn
      · exact ⟨w, hw, hwn⟩

/-- C51.  What is scanned of a file: the listed offsets, all of them and in the order listed; a file is there only if
some offset is. -/
theorem C51_grouping (us : List Uri) :
    (filesOffsets us).keys.Nodup ∧ ∀ f os, (f, os) ∈ filesOffsets us ↔ os = offsetsIn us f ∧ os ≠ [] :=
  ⟨filesOffsets_nodup us, fun _ _ => mem_filesOffsets⟩

/-- C51.  A forwarded scan contacts every server that is responsible for a listed message once, with exactly the
messages it is responsible for; the number reported is the sum of the answers; an error is reported exactly when a
server that was asked answered with one.  The indexes on this host are not changed. -/
theorem C51_forwarded (E : ScanEnv) (C : ScanConf) (c : Cache) (rs : List String) (us : List Uri) (byfiles : Bool)
    (forward : C.forwardScan = true) (listed : listUris E rs = .ok us) (found : us ≠ [])
    (known : ∀ u ∈ us, ∃ s, C.servers.find (u.host, u.port) = some s)
    (defined : ∀ t s, E.forward t s (filesOffsets (sentTo C us s)) ≠ undef) (sched : List ScanEv) :
    ∃ (m : AMap (String × Int) ScanMap) (n : Nat) (errs : List String) (c' : Cache), m.keys.Nodup ∧
      (∀ s fm, (s, fm) ∈ m ↔ fm = filesOffsets (sentTo C us s) ∧ sentTo C us s ≠ []) ∧
      engineScan E C c rs byfiles sched = .ok (n, errs, c') ∧ c' = { c with fs := c'.fs } ∧
      (∀ p, c'.fs.find p = c.fs.find p) ∧
      (errs = [] → ∃ ns : List Nat, n = ns.sum ∧ ns.length = m.length ∧
        ∀ (j : Nat) s fm k, m[j]? = some (s, fm) → ns[j]? = some k → ∃ t, E.forward t s fm = .ok k) ∧
      (errs ≠ [] → ∃ s fm t e, (s, fm) ∈ m ∧ E.forward t s fm = throwExn e) := by
  obtain ⟨m, h1, h2, h3⟩ := serverScans_spec C us [] (by simp [AMap.keys]) known
  have hmem : ∀ s fm, (s, fm) ∈ m ↔ fm = filesOffsets (sentTo C us s) ∧ sentTo C us s ≠ [] := by
    intro s fm
    rw [AMap.mem_iff_find m h2, h3, filesOffsets_eq]
    split
    · rename_i h
      constructor
      · intro h; cases h
      · rintro ⟨-, h'⟩; exact absurd h h'
    · rename_i h
      constructor
      · intro h'; cases h'; exact ⟨rfl, h⟩
      · rintro ⟨rfl, -⟩; rfl
  have hne : m ≠ [] := by
    obtain ⟨u, hu⟩ := List.exists_mem_of_ne_nil _ found
    obtain ⟨s, hs⟩ := known u hu
    have : (s, filesOffsets (sentTo C us s)) ∈ m :=
      (hmem _ _).mpr ⟨rfl, List.ne_nil_of_mem (List.mem_filter.mpr ⟨hu, by simpa using hs⟩)⟩
    exact List.ne_nil_of_mem this
  have hfile : ∀ f os, ScanKind.file f os ∉ m.map fun e => ScanKind.forward e.1 e.2 := by
    intro f os h
    obtain ⟨x, -, hx⟩ := List.mem_map.mp h
    cases hx
  obtain ⟨s, g1, hi, hend⟩ := scanTasks_spec (E := E) c (m.map fun e => ScanKind.forward e.1 e.2) (by simpa using hne)
    (fun i j f os g os' hi _ _ => absurd (List.mem_of_getElem? hi) (hfile f os))
    ⟨fun f os h => absurd h (hfile f os), fun srv fm t h => by
      obtain ⟨x, hx, he⟩ := List.mem_map.mp h
      cases he
      rw [((hmem _ _).mp hx).1]
      exact defined t x.1⟩ sched
  obtain ⟨ns, hl, hsum, htask⟩ := hi.tasks
  have hkind : ∀ j : Nat, (s.tasks[j]?).map (·.kind) = (m[j]?).map fun e => ScanKind.forward e.1 e.2 := by
    intro j
    rw [← List.getElem?_map, hi.kindsEq, List.getElem?_map]
  have hlen : s.tasks.length = m.length := by
    have := congrArg List.length hi.kindsEq
    simpa using this
  refine ⟨m, s.count, s.errors, s.c, h2, hmem, ?_, hi.same, ?_, ?_, ?_⟩
  · unfold engineScan
    rw [listed, ok_bind, if_neg found, if_pos forward]
    unfold forwarderScan
    rw [cassert_of (by simpa using List.length_pos_iff.mpr found), ok_bind, h1, ok_bind]
    exact g1
  · intro p
    apply hi.other
    intro f os h
    exact absurd h (hfile f os)
  · intro he
    refine ⟨ns, hsum, by omega, fun j srv fm k hj hk => ?_⟩
    have := hkind j
    rw [hj] at this
    cases hT : s.tasks[j]? with
    | none => rw [hT] at this; cases this
    | some T =>
      rw [hT] at this
      obtain ⟨kd, pc⟩ := T
      simp only [Option.map_some, Option.some.injEq] at this
      subst this
      have hok := htask j _ _ hT hk
      have hz := hend _ (List.mem_of_getElem? hT)
      cases pc with
      | fresh => cases hz
      | planned p => cases hz
      | done => exact hok
      | failed => exact absurd he hok.2.1
      | cancelled => exact absurd he hok.2
  · intro he
    obtain ⟨T, hT, hf⟩ := hi.errors he
    obtain ⟨j, hj⟩ := List.mem_iff_getElem?.mp hT
    obtain ⟨hlt, -⟩ := List.getElem?_eq_some_iff.mp hj
    have hk := hkind j
    rw [hj] at hk
    cases hx : m[j]? with
    | none => rw [hx] at hk; cases hk
    | some x =>
      rw [hx] at hk
      obtain ⟨srv, fm⟩ := x
      obtain ⟨kd, pc⟩ := T
      simp only [Option.map_some, Option.some.injEq] at hk hf
      subst hk; subst hf
      have hok := htask j _ _ hj (List.getElem?_eq_getElem (by omega))
      obtain ⟨t, e, he⟩ := hok.2.2
      exact ⟨srv, fm, t, e, List.mem_of_getElem? hx, he⟩

/-- C51.  If no server is configured for a listed message, the scan fails, and no server has been contacted: the
outcome does not depend on what servers would answer. -/
theorem C51_unknown_endpoint (E : ScanEnv) (C : ScanConf) (c : Cache) (rs : List String) (us : List Uri) (byfiles : Bool)
    (forward : C.forwardScan = true) (listed : listUris E rs = .ok us)
    (unknown : ∃ u ∈ us, C.servers.find (u.host, u.port) = none)
    (answers : Nat → String × Int → ScanMap → Res Nat) (sched : List ScanEv) :
    engineScan { E with forward := answers } C c rs byfiles sched = throwExn .seriousBug := by
  have hl : ∀ rs, listUris { E with forward := answers } rs = listUris E rs := by
    intro rs
    induction rs with
    | nil => rfl
    | cons r rs ih => rw [listUris, listUris, ih]
  have hne : us ≠ [] := by
    obtain ⟨u, hu, -⟩ := unknown
    exact List.ne_nil_of_mem hu
  unfold engineScan
  rw [hl, listed, ok_bind, if_neg hne, if_pos forward]
  unfold forwarderScan
  rw [cassert_of (by simpa using List.length_pos_iff.mpr hne), ok_bind, serverScans_unknown C us [] unknown]
  rfl

/-- C51, disagreement.  With forwarding, a scan by files does what a scan of the listed messages does: the whole files
are not scanned (Engine.cc:264-266 passes the locations on before `byfiles` is looked at). -/
theorem C51_forwarded_by_files_ignored (E : ScanEnv) (C : ScanConf) (c : Cache) (rs : List String) (b : Bool)
    (forward : C.forwardScan = true) (sched : List ScanEv) :
    engineScan E C c rs b sched = engineScan E C c rs false sched := by
  unfold engineScan
  rw [forward]
  rfl

/-! ## A concrete case -/

/-- Two files, five messages; the catalogue lists three of them. -/
def c51World : World where
  data path o := if (path = "/fdb/a" ∨ path = "/fdb/b") ∧ o % 204 = 0 ∧ o < 1000 then
      .ok (.simple { sampleBase with referenceValue := UInt64.ofNat o })
    else throwExn .userError
  offsetsOf path := if path = "/fdb/a" then .ok [0, 204, 408] else if path = "/fdb/b" then .ok [0, 204]
    else throwExn .readError

def c51Uris : List Uri :=
  [⟨"fdb", "h", 7, "/fdb/a", 408⟩, ⟨"fdb", "h", 7, "/fdb/b", 0⟩, ⟨"fdb", "h", 7, "/fdb/a", 0⟩]

def c51Env : ScanEnv where
  W := c51World
  list r := if r = "q" then .ok c51Uris else .ok []
  forward _ s fm := if s = ("s", 9) then .ok (fm.map fun f => f.2.length).sum else throwExn .remote

def c51Conf : ScanConf := ⟨false, [(("h", 7), ("s", 9))]⟩

/-- The index of `/fdb/a` has an entry for offset 0. -/
def c51Cache : Cache := sampleCache

def c51Readable (c : Cache) (f : String) : Bool :=
  match loadIndex c.fs (c.mode.indexPath f) with
  | .ok m => decide (m = []) || decide (m = noNull [(0, .simple sampleBase)])
  | .error _ => false

theorem c51_readable {f : String} (h : c51Readable c51Cache f = true) : c51Cache.readable f := by
  unfold c51Readable at h
  unfold Cache.readable
  cases hl : loadIndex c51Cache.fs (c51Cache.mode.indexPath f) with
  | error e => rw [hl] at h; cases h
  | ok m =>
    rw [hl] at h
    simp only [Bool.or_eq_true, decide_eq_true_eq] at h
    rcases h with rfl | rfl
    · exact ⟨[], by simp [AMap.keys], rfl⟩
    · exact ⟨_, by decide, rfl⟩

theorem c51_possible : ∀ u ∈ c51Uris, c51Cache.readable u.path ∧
    (c51Cache.indexed u.path u.offset = none → ∃ i, c51Env.W.data u.path u.offset = .ok i) := by
  intro u hu
  simp only [c51Uris, List.mem_cons, List.not_mem_nil, or_false] at hu
  rcases hu with rfl | rfl | rfl
  · exact ⟨c51_readable (by decide +kernel), fun _ => ⟨_, rfl⟩⟩
  · exact ⟨c51_readable (by decide +kernel), fun _ => ⟨_, rfl⟩⟩
  · exact ⟨c51_readable (by decide +kernel), fun _ => ⟨_, rfl⟩⟩

theorem c51_apart : UrisApart c51Cache c51Uris := by unfold UrisApart; decide +kernel

/-- Two of the three listed messages are new, whatever the workers do. -/
example (sched : List ScanEv) : ∃ c', apiScan c51Env c51Conf c51Cache ["q", "r"] false sched = .ok (2, c') ∧
    c'.indexed "/fdb/a" 204 = none ∧
    c'.indexed "/fdb/b" 0 = some (.simple { sampleBase with referenceValue := UInt64.ofNat 0 }) := by
  obtain ⟨c', h1, -, -, h4⟩ := C51_scan_requests c51Env c51Conf c51Cache ["q", "r"] c51Uris rfl (by simp)
    (by decide +kernel) c51_apart c51_possible sched
  have hc : (c51Uris.filter fun u => (c51Cache.indexed u.path u.offset).isNone).length = 2 := by decide +kernel
  rw [hc] at h1
  refine ⟨c', h1, ?_, ?_⟩
  · cases h : c'.indexed "/fdb/a" 204 with
    | none => rfl
    | some i =>
      have := (h4 "/fdb/a" (by decide +kernel) 204 i).mp h
      have h0 : c51Cache.indexed "/fdb/a" 204 = none := by decide +kernel
      rcases this with h | ⟨-, ⟨u, hu, hp, ho⟩, -⟩
      · rw [h0] at h; cases h
      · have : ∀ u ∈ c51Uris, u.path = "/fdb/a" → u.offset ≠ 204 := by decide +kernel
        exact absurd ho (this u hu hp)
  · apply (h4 "/fdb/b" (by decide +kernel) 0 _).mpr
    exact Or.inr ⟨by decide +kernel, by decide +kernel, by rfl⟩

/-- By files, all four new messages of the two files are indexed. -/
example : WholePossible c51Env c51Cache fun f => ∃ u ∈ c51Uris, u.path = f := by
  constructor
  · rintro f ⟨u, hu, rfl⟩
    simp only [c51Uris, List.mem_cons, List.not_mem_nil, or_false] at hu
    rcases hu with rfl | rfl | rfl
    · refine ⟨c51_readable (by decide +kernel), _, rfl, fun o ho _ => ?_⟩
      simp only [List.mem_cons, List.not_mem_nil, or_false] at ho
      rcases ho with rfl | rfl | rfl <;> exact ⟨_, rfl⟩
    · refine ⟨c51_readable (by decide +kernel), _, rfl, fun o ho _ => ?_⟩
      simp only [List.mem_cons, List.not_mem_nil, or_false] at ho
      rcases ho with rfl | rfl <;> exact ⟨_, rfl⟩
    · refine ⟨c51_readable (by decide +kernel), _, rfl, fun o ho _ => ?_⟩
      simp only [List.mem_cons, List.not_mem_nil, or_false] at ho
      rcases ho with rfl | rfl | rfl <;> exact ⟨_, rfl⟩
  · rintro f g ⟨u, hu, rfl⟩ ⟨v, hv, rfl⟩ h
    exact c51_apart u hu v hv h

example : (newOffsets c51World c51Cache "/fdb/a" [], newOffsets c51World c51Cache "/fdb/b" []) = (2, 2) := by
  decide +kernel

/-- Forwarded: one server gets the three messages of the two files. -/
example : sentTo c51Conf c51Uris ("s", 9) = c51Uris := by decide +kernel
example : filesOffsets c51Uris = [("/fdb/a", [408, 0]), ("/fdb/b", [0])] := by decide +kernel
example : (match engineScan c51Env { c51Conf with forwardScan := true } c51Cache ["q"] true [] with
    | .ok (n, errs, _) => decide (n = 3 ∧ errs = [])
    | .error _ => false) = true := by decide +kernel

/-! ## Errors -/

/-- A task that failed. -/
def ScanTask.hasFailed (T : ScanTask) : Bool := match T.pc with | .failed => true | _ => false

theorem countP_set_task {ts : List ScanTask} {j : Nat} {T U : ScanTask} (p : ScanTask → Bool) (h : ts[j]? = some T)
    (hT : p T = false) : (ts.set j U).countP p = ts.countP p + (if p U then 1 else 0) := by
  induction ts generalizing j with
  | nil => cases h
  | cons x ts ih =>
    cases j with
    | zero =>
      have e : x = T := by simpa using h
      subst e
      simp [List.countP_cons, hT]
    | succ j =>
      rw [List.set_cons_succ, List.countP_cons, List.countP_cons, ih (by simpa using h)]
      omega

theorem fail_counts {s : ScanSys} {j : Nat} {T : ScanTask} (hT : s.tasks[j]? = some T) (hf : T.hasFailed = false)
    (ih : s.errors.length = s.tasks.countP ScanTask.hasFailed) :
    (s.fail j T).errors.length = (s.fail j T).tasks.countP ScanTask.hasFailed := by
  show (s.errors ++ ["error"]).length = (s.tasks.set j { T with pc := .failed }).countP ScanTask.hasFailed
  rw [List.length_append, countP_set_task _ hT hf, ih]; rfl

theorem moves_counts {s : ScanSys} {j : Nat} {T : ScanTask} {pc : ScanPc} (hT : s.tasks[j]? = some T) (hf : T.hasFailed = false)
    (hp : ScanTask.hasFailed { T with pc := pc } = false) (ih : s.errors.length = s.tasks.countP ScanTask.hasFailed) :
    s.errors.length = (s.tasks.set j { T with pc := pc }).countP ScanTask.hasFailed := by
  rw [countP_set_task _ hT hf, ih, hp]; rfl

theorem runTask_counts {E : ScanEnv} {s s' : ScanSys} {j : Nat} {T : ScanTask} (hT : s.tasks[j]? = some T)
    (ih : s.errors.length = s.tasks.countP ScanTask.hasFailed) (h : s.runTask E j T = .ok s') :
    s'.errors.length = s'.tasks.countP ScanTask.hasFailed := by
  obtain ⟨k, pc⟩ := T
  rw [ScanSys.runTask.eq_def] at h
  cases k with
  | file path offsets =>
    cases pc with
    | fresh =>
      simp only at h
      split at h
      · cases h; exact moves_counts hT rfl rfl ih
      · cases h
      · cases h; exact fail_counts hT rfl ih
    | planned p =>
      simp only at h
      split at h
      · cases h; exact moves_counts hT rfl rfl ih
      · cases h
      · cases h; exact fail_counts hT rfl ih
    | done => simp only at h; cases h; exact ih
    | failed => simp only at h; cases h; exact ih
    | cancelled => simp only at h; cases h; exact ih
  | forward server files =>
    cases pc with
    | fresh =>
      simp only at h
      split at h
      · cases h; exact moves_counts hT rfl rfl ih
      · cases h
      · cases h; exact fail_counts hT rfl ih
    | planned p => simp only at h; cases h; exact ih
    | done => simp only at h; cases h; exact ih
    | failed => simp only at h; cases h; exact ih
    | cancelled => simp only at h; cases h; exact ih

/-- C51.  Whatever the schedule, one error is reported for every task that failed. -/
theorem C51_every_error_reported (E : ScanEnv) (c : Cache) (kinds : List ScanKind) (es : List ScanEv) (s : ScanSys)
    (ran : ScanSys.run E ⟨c, kinds.map fun k => ⟨k, .fresh⟩, 0, [], 0⟩ es = .ok s) :
    s.errors.length = s.tasks.countP ScanTask.hasFailed := by
  have gen : ∀ (es : List ScanEv) (s0 : ScanSys), s0.errors.length = s0.tasks.countP ScanTask.hasFailed →
      ScanSys.run E s0 es = .ok s → s.errors.length = s.tasks.countP ScanTask.hasFailed := by
    intro es
    induction es with
    | nil => intro s0 h0 h; cases h; exact h0
    | cons e es ih =>
      intro s0 h0 h
      rw [ScanSys.run] at h
      obtain ⟨s1, h1, h2⟩ := res_bind_inv h
      refine ih s1 ?_ h2
      cases e with
      | run j =>
        rw [ScanSys.step.eq_def] at h1
        simp only at h1
        cases hT : s0.tasks[j]? with
        | none => rw [hT] at h1; cases h1; exact h0
        | some T =>
          rw [hT] at h1
          obtain ⟨s2, h3, h4⟩ := res_bind_inv h1
          cases h4
          exact (runTask_counts hT h0 h3 : s2.errors.length = s2.tasks.countP ScanTask.hasFailed)
      | cancel j =>
        rw [ScanSys.step.eq_def] at h1
        simp only at h1
        split at h1
        · rename_i k hT
          split at h1
          · cases h1; exact h0
          · cases h1; exact moves_counts (T := ⟨k, .fresh⟩) hT rfl rfl h0
        · cases h1; exact h0
  refine gen es _ ?_ ran
  show 0 = (kinds.map fun k => (⟨k, .fresh⟩ : ScanTask)).countP ScanTask.hasFailed
  clear ran gen
  induction kinds with
  | nil => rfl
  | cons k ks ih => rw [List.map_cons, List.countP_cons, ← ih]; rfl

/-- Non-vacuity: both files fail. -/
example : (match ScanSys.run { c51Env with W := { c51Env.W with data := fun _ _ => throwExn .badValue } }
      ⟨c51Cache, [.file "/fdb/x" [1], .file "/fdb/y" [2]].map fun k => ⟨k, .fresh⟩, 0, [], 0⟩ [.run 1, .run 0] with
    | .ok s => some (s.errors.length, s.tasks.countP ScanTask.hasFailed)
    | .error _ => none) = some (2, 2) := by decide +kernel

end GJ
