import Verif.Props.C16
import Verif.Model.CacheSystem

/-!
# C18, C19: scanning
-/

namespace GJ

open Spec

/-! ## Plain entries -/

/-- Add entries to a map, keeping what is there. -/
def addAll (m es : List (Nat × Info)) : List (Nat × Info) :=
  es.foldl (fun m p => AMap.insert m p.1 p.2) m

theorem insert_noNull (m : List (Nat × Info)) (o : Nat) (i : Info) :
    AMap.insert (noNull m) o (some i) = noNull (AMap.insert m o i) := by
  induction m with
  | nil => rfl
  | cons p m ih =>
    obtain ⟨k, j⟩ := p
    show AMap.insert ((k, some j) :: noNull m) o (some i) = _
    rw [AMap.insert, AMap.insert]
    split
    · rfl
    · rw [ih]; rfl

theorem insertAll_noNull (m es : List (Nat × Info)) : insertAll (noNull m) es = noNull (addAll m es) := by
  induction es generalizing m with
  | nil => rfl
  | cons p es ih =>
    show insertAll (AMap.insert (noNull m) p.1 (some p.2)) es = _
    rw [insert_noNull, ih]; rfl

theorem nodup_addAll (m es : List (Nat × Info)) (h : (AMap.keys m).Nodup) :
    (AMap.keys (addAll m es)).Nodup := by
  have := nodup_insertAll es (noNull m) (by rw [keys_noNull]; exact h)
  rwa [insertAll_noNull, keys_noNull] at this

theorem find_addAll (m es : List (Nat × Info)) (o : Nat) :
    AMap.find (addAll m es) o = match AMap.find m o with
      | some x => some x
      | none => AMap.find es o := by
  have := find_insertAll es (noNull m) o
  rw [insertAll_noNull, find_noNull, find_noNull] at this
  cases h : AMap.find m o with
  | some x => rw [h] at this; simpa using this
  | none =>
    rw [h] at this
    cases h1 : AMap.find (addAll m es) o <;> cases h2 : AMap.find es o <;> simp_all

/-! ## Extraction of several messages -/

theorem extractInfos_inv (W : World) (path : String) (os : List Nat) (is : List Info)
    (h : extractInfos W path os = .ok is) :
    is.length = os.length ∧ (∀ o ∈ os, ∃ i, W.data path o = .ok i) ∧
    ∀ o i, AMap.find (os.zip is) o = some i ↔ o ∈ os ∧ W.data path o = .ok i := by
  induction os generalizing is with
  | nil =>
    cases h
    exact ⟨rfl, by simp, by simp [AMap.find]⟩
  | cons a os ih =>
    rw [extractInfos, List.mapM_cons] at h
    cases ha : W.data path a with
    | error e => rw [ha, error_bind] at h; cases h
    | ok i =>
      rw [ha, ok_bind] at h
      cases hr : os.mapM (W.data path) with
      | error e => rw [hr, error_bind] at h; cases h
      | ok js =>
        rw [hr, ok_bind] at h
        cases h
        obtain ⟨h1, h2, h3⟩ := ih js hr
        refine ⟨by simp [h1], ?_, ?_⟩
        · intro o ho
          rcases List.mem_cons.mp ho with rfl | ho
          · exact ⟨i, ha⟩
          · exact h2 o ho
        · intro o j
          rw [List.zip_cons_cons, AMap.find]
          by_cases hao : a = o
          · subst hao
            rw [if_pos rfl, ha]
            simp
          · rw [if_neg hao, h3]
            have : ¬ o = a := fun e => hao e.symm
            simp [this]

theorem extractInfos_total (W : World) (path : String) (os : List Nat)
    (h : ∀ o ∈ os, ∃ i, W.data path o = .ok i) : ∃ is, extractInfos W path os = .ok is := by
  induction os with
  | nil => exact ⟨[], rfl⟩
  | cons a os ih =>
    obtain ⟨i, hi⟩ := h a List.mem_cons_self
    obtain ⟨is, his⟩ := ih (fun o ho => h o (List.mem_cons_of_mem _ ho))
    refine ⟨i :: is, ?_⟩
    rw [extractInfos] at his
    rw [extractInfos, List.mapM_cons, hi, ok_bind, his, ok_bind]; rfl

/-! ## C18 -/

/-- What the index of a data file on disk says about an offset. -/
def Cache.indexed (c : Cache) (path : String) (o : Nat) : Option Info :=
  match loadIndex c.fs (c.mode.indexPath path) with
  | .ok m => indexFind m o
  | .error _ => none

/-- The number of entries of the index of a data file. -/
def Cache.entries (c : Cache) (path : String) : Nat :=
  match loadIndex c.fs (c.mode.indexPath path) with
  | .ok m => m.length
  | .error _ => 0

/-- The index of a data file can be loaded, and no entry is a null pointer (see `C17_append_corrupts` and
`C18_null_entry_undefined` for how that fails). -/
def Cache.readable (c : Cache) (path : String) : Prop :=
  ∃ es, (AMap.keys es).Nodup ∧ loadIndex c.fs (c.mode.indexPath path) = .ok (noNull es)

/-- The metadata of a message, when it can be extracted. -/
def World.info (W : World) (path : String) (o : Nat) : Option Info := (W.data path o).toOption

theorem World.info_some {W : World} {path : String} {o : Nat} {i : Info} :
    W.info path o = some i ↔ W.data path o = .ok i := by
  unfold World.info
  cases W.data path o with
  | ok j => simp [Except.toOption]
  | error e => simp [Except.toOption]

theorem find_zip_info {W : World} {path : String} {os : List Nat} {is : List Info}
    (h : extractInfos W path os = .ok is) (o : Nat) :
    AMap.find (os.zip is) o = if o ∈ os then W.info path o else none := by
  obtain ⟨-, h2, h3⟩ := extractInfos_inv W path os is h
  by_cases ho : o ∈ os
  · obtain ⟨i, hi⟩ := h2 o ho
    rw [if_pos ho, World.info_some.mpr hi, h3]
    exact ⟨ho, hi⟩
  · rw [if_neg ho]
    cases hf : AMap.find (os.zip is) o with
    | none => rfl
    | some i => exact absurd ((h3 o i).mp hf).1 ho

theorem indexFind_noNull (es : List (Nat × Info)) (o : Nat) :
    indexFind (noNull es) o = AMap.find es o := by
  rw [indexFind, find_noNull]
  cases AMap.find es o <;> rfl

theorem length_insert_new {V : Type} (m : AMap Nat V) (k : Nat) (v : V) (h : k ∉ m.keys) :
    (AMap.insert m k v).length = m.length + 1 := by
  have := AMap.keys_insert m k v
  rw [if_neg h] at this
  have h2 := congrArg List.length this
  simpa [AMap.keys] using h2

theorem length_addAll_new (m es : List (Nat × Info)) (hd : (AMap.keys es).Nodup)
    (hn : ∀ k ∈ AMap.keys es, k ∉ AMap.keys m) : (addAll m es).length = m.length + es.length := by
  induction es generalizing m with
  | nil => rfl
  | cons p es ih =>
    obtain ⟨k, i⟩ := p
    simp only [AMap.keys, List.map_cons, List.nodup_cons] at hd
    show (addAll (AMap.insert m k i) es).length = _
    rw [ih _ hd.2, length_insert_new _ _ _ (hn k (by simp [AMap.keys]))]
    · rw [List.length_cons]; omega
    · intro x hx
      rw [AMap.keys_insert, if_neg (hn k (by simp [AMap.keys])), List.mem_append, List.mem_singleton]
      rintro (h | rfl)
      · exact hn x (by simp only [AMap.keys, List.map_cons, List.mem_cons]; exact Or.inr hx) h
      · exact hd.1 hx

theorem keys_zip {os : List Nat} {is : List Info} (h : is.length = os.length) :
    AMap.keys (os.zip is) = os := by
  rw [AMap.keys, List.map_fst_zip]
  omega

/-- One scan, in full: the answer and the new index. -/
theorem scan_spec (W : World) (c : Cache) (path : String) (offsets : List Nat) (es : List (Nat × Info))
    (hes : (AMap.keys es).Nodup)
    (hl : loadIndex c.fs (c.mode.indexPath path) = .ok (noNull es))
    (hd : ∀ o ∈ offsets, AMap.find es o = none → ∃ i, W.data path o = .ok i) :
    ∃ es' c', c.scan W path offsets
        = .ok ((offsets.filter fun o => (AMap.find es o).isNone).length, c') ∧
      (AMap.keys es').Nodup ∧
      loadIndex c'.fs (c.mode.indexPath path) = .ok (noNull es') ∧
      (∀ o, AMap.find es' o = match AMap.find es o with
        | some i => some i
        | none => if o ∈ offsets then W.info path o else none) ∧
      (∀ p, p ≠ c.mode.indexPath path → c'.fs.find p = c.fs.find p) ∧
      c'.mode = c.mode ∧ c'.lazy = c.lazy ∧ c'.mem = c.mem ∧ c'.staged = c.staged ∧
      (offsets.Nodup → es'.length
        = es.length + (offsets.filter fun o => (AMap.find es o).isNone).length) := by
  have hfi : (fun o => (indexFind (noNull es) o).isNone) = fun o => (AMap.find es o).isNone := by
    funext o; rw [indexFind_noNull]
  rw [Cache.scan, hl, ok_bind]
  simp only [hfi]
  generalize hnew : (offsets.filter fun o => (AMap.find es o).isNone) = new
  have hmem : ∀ o, o ∈ new ↔ o ∈ offsets ∧ AMap.find es o = none := by
    intro o; rw [← hnew, List.mem_filter]; simp
  by_cases he : new = []
  · rw [if_pos he]
    refine ⟨es, c, by rw [he]; rfl, hes, hl, ?_, fun _ _ => rfl, rfl, rfl, rfl, rfl, by simp [he]⟩
    intro o
    cases hf : AMap.find es o with
    | some i => rfl
    | none =>
      have : ¬ o ∈ offsets := fun ho => by
        have := (hmem o).mpr ⟨ho, hf⟩
        rw [he] at this; cases this
      rw [if_neg this]
  · rw [if_neg he]
    obtain ⟨is, his⟩ := extractInfos_total W path (isort (fun a b => decide (a ≤ b)) new) (by
      intro o ho
      have ho' := (hmem o).mp ((isort_perm (fun a b => decide (a ≤ b)) new).mem_iff.mp ho)
      exact hd o ho'.1 ho'.2)
    rw [his, ok_bind, insertAll_noNull, writeIndex, encIndex_ok, ok_bind, ok_bind]
    obtain ⟨hlen, -, -⟩ := extractInfos_inv W path _ _ his
    have hlen' : is.length = new.length := by rw [hlen, (isort_perm (fun a b => decide (a ≤ b)) new).length_eq]
    have hnd := nodup_addAll es ((isort (fun a b => decide (a ≤ b)) new).zip is) hes
    refine ⟨_, { c with fs := _ }, by rw [hlen'], hnd, loadIndex_written _ _ _ hnd, ?_, ?_, rfl, rfl, rfl, rfl, ?_⟩
    · intro o
      rw [find_addAll, find_zip_info his]
      cases hf : AMap.find es o with
      | some i => rfl
      | none =>
        simp only
        have : o ∈ (isort (fun a b => decide (a ≤ b)) new) ↔ o ∈ offsets := by
          rw [(isort_perm (fun a b => decide (a ≤ b)) new).mem_iff, hmem]; simp [hf]
        simp only [this]
    · intro p hp
      show (AMap.set c.fs _ _).find p = _
      rw [AMap.find_set, if_neg (fun e => hp e.symm)]
    · intro hod
      have hk := keys_zip hlen
      rw [length_addAll_new]
      · rw [List.length_zip, hlen, (isort_perm (fun a b => decide (a ≤ b)) new).length_eq]; omega
      · rw [hk, (isort_perm (fun a b => decide (a ≤ b)) new).nodup_iff, ← hnew]
        exact hod.filter _
      · intro k hkk
        rw [hk, (isort_perm (fun a b => decide (a ≤ b)) new).mem_iff, hmem] at hkk
        exact (AMap.find_eq_none_iff _ _).mp hkk.2

theorem Cache.indexed_of_load {c : Cache} {path : String} {es : List (Nat × Info)}
    (h : loadIndex c.fs (c.mode.indexPath path) = .ok (noNull es)) (o : Nat) :
    c.indexed path o = AMap.find es o := by
  rw [Cache.indexed, h]
  exact indexFind_noNull es o

/-- C18.  Scanning offsets of a file adds the metadata of those not yet indexed, keeps all other entries,
leaves the indexes of other files alone, and a second scan changes nothing and reports 0. -/
theorem C18_scan (W : World) (c : Cache) (path : String) (offsets : List Nat)
    (hr : c.readable path)
    (hd : ∀ o ∈ offsets, c.indexed path o = none → ∃ i, W.data path o = .ok i) :
    ∃ n c', c.scan W path offsets = .ok (n, c') ∧
      (∀ o, c'.indexed path o = match c.indexed path o with
        | some i => some i
        | none => if o ∈ offsets then W.info path o else none) ∧
      (∀ q o, c.mode.indexPath q ≠ c.mode.indexPath path → c'.indexed q o = c.indexed q o) ∧
      c'.readable path ∧
      c'.scan W path offsets = .ok (0, c') := by
  obtain ⟨es, hes, hl⟩ := hr
  simp only [Cache.indexed_of_load hl] at hd
  obtain ⟨es', c', h1, h2, h3, h4, h5, h6, -, -, -, -⟩ := scan_spec W c path offsets es hes hl hd
  have h3' : loadIndex c'.fs (c'.mode.indexPath path) = .ok (noNull es') := by rw [h6]; exact h3
  have hsome : ∀ o ∈ offsets, (AMap.find es' o).isNone = false := by
    intro o ho
    rw [h4]
    cases hf : AMap.find es o with
    | some i => rfl
    | none =>
      obtain ⟨i, hi⟩ := hd o ho hf
      simp only
      rw [if_pos ho, World.info_some.mpr hi]; rfl
  refine ⟨_, c', h1, ?_, ?_, ⟨es', h2, h3'⟩, ?_⟩
  · intro o
    rw [Cache.indexed_of_load hl, Cache.indexed_of_load h3', h4]
  · intro q o hq
    rw [Cache.indexed, Cache.indexed, h6, loadIndex, loadIndex, h5 _ hq]
  · rw [Cache.scan, h3', ok_bind]
    have : (offsets.filter fun o => (indexFind (noNull es') o).isNone) = [] := by
      rw [List.filter_eq_nil_iff]
      intro o ho
      rw [indexFind_noNull, hsome o ho]; simp
    rw [this, if_pos rfl]

/-- C18.  The reported number, when no offset is repeated: the number of entries added. -/
theorem C18_reported_count_partial (W : World) (c : Cache) (path : String) (offsets : List Nat)
    (hr : c.readable path)
    (hd : ∀ o ∈ offsets, c.indexed path o = none → ∃ i, W.data path o = .ok i) (hn : offsets.Nodup) :
    ∃ n c', c.scan W path offsets = .ok (n, c') ∧ c'.entries path = c.entries path + n ∧
      n = (offsets.filter fun o => (c.indexed path o).isNone).length := by
  obtain ⟨es, hes, hl⟩ := hr
  simp only [Cache.indexed_of_load hl] at hd
  obtain ⟨es', c', h1, -, h3, -, -, h6, -, -, -, h10⟩ := scan_spec W c path offsets es hes hl hd
  refine ⟨_, c', h1, ?_, ?_⟩
  · rw [Cache.entries, Cache.entries, h6, h3, hl]
    simpa [noNull] using h10 hn
  · simp only [Cache.indexed_of_load hl]

/-- C18.  Scanning a whole file, merging: the same with the offsets of the messages in the file. -/
theorem C18_scan_file (W : World) (c : Cache) (path : String) (offsets : List Nat)
    (ho : W.offsetsOf path = .ok offsets) : c.scanFile W path true = c.scan W path offsets := by
  rw [Cache.scanFile, if_pos rfl, ho, ok_bind]

def sampleWorld : World where
  data path o := if path = "/fdb/a" ∧ o % 204 = 0 ∧ o < 1000 then
      .ok (.simple { sampleBase with referenceValue := UInt64.ofNat o })
    else throwExn .userError
  offsetsOf path := if path = "/fdb/a" then .ok [0, 204, 408] else throwExn .readError

def sampleCache : Cache :=
  { mode := .directory "/d", lazy := true, mem := .empty 16, staged := [], fs := sampleIndex }

example : sampleCache.readable "/fdb/a" :=
  ⟨[(0, .simple sampleBase)], by decide, by decide +kernel⟩
example : ∀ o ∈ [0, 408, 204], ∃ i, sampleWorld.data "/fdb/a" o = .ok i := by
  intro o ho
  simp only [List.mem_cons, List.not_mem_nil, or_false] at ho
  rcases ho with rfl | rfl | rfl <;> exact ⟨_, rfl⟩
example : (match sampleCache.scan sampleWorld "/fdb/a" [0, 408, 204] with
    | .ok (n, c') => decide (n = 2 ∧ c'.entries "/fdb/a" = 3)
    | .error _ => false) = true := by decide +kernel

/-- C18, reported number: a repeated offset is counted twice although one entry is added. -/
theorem C18_repeated_offset_counted_twice :
    ∃ W c path offsets n c', Cache.readable c path ∧ Cache.scan W c path offsets = .ok (n, c') ∧
      n = 2 ∧ c'.entries path = c.entries path + 1 := by
  obtain ⟨es', c', h1, h2, h3, h4, h5, h6, -⟩ := scan_spec sampleWorld sampleCache "/fdb/a" [204, 204]
    [(0, .simple sampleBase)] (by decide) (by decide +kernel) (by
      intro o ho _
      simp only [List.mem_cons, List.not_mem_nil, or_false, or_self] at ho
      subst ho; exact ⟨_, rfl⟩)
  refine ⟨_, _, _, _, _, c', ⟨[(0, .simple sampleBase)], by decide, by decide +kernel⟩, h1, rfl, ?_⟩
  have : (match sampleCache.scan sampleWorld "/fdb/a" [204, 204] with
    | .ok (_, c') => c'.entries "/fdb/a"
    | .error _ => 0) = sampleCache.entries "/fdb/a" + 1 := by decide +kernel
  rw [h1] at this
  exact this

def Cache.withFs (c : Cache) (fs : FS) : Cache := { c with fs := fs }

/-- An interrupted append can leave an entry whose metadata object cannot be rebuilt; it is loaded as a
null pointer, and the next scan that adds an entry dereferences it. -/
theorem C18_null_entry_undefined :
    ∃ k, (match loadIndex (runOps sampleIndex
        ((appendOps "/d/a.gribjump" (entryToks [(204, .simple sampleBase)])).take k)) "/d/a.gribjump" with
      | .ok m => decide (m = [(0, some (.simple sampleBase)), (204, none)])
      | .error _ => false) = true ∧
    (match Cache.scan sampleWorld (sampleCache.withFs (runOps sampleIndex
        ((appendOps "/d/a.gribjump" (entryToks [(204, .simple sampleBase)])).take k))) "/fdb/a" [408] with
      | .ok _ => false
      | .error f => decide (f = .ub)) = true :=
  ⟨2, by decide +kernel, by decide +kernel⟩

/-! ### Concurrent scans -/

theorem scan_eq_plan_commit (W : World) (c : Cache) (path : String) (offsets : List Nat) :
    c.scan W path offsets = (do let p ← c.scanPlan W path offsets; c.scanCommit path p) := by
  rw [Cache.scan, Cache.scanPlan]
  cases loadIndex c.fs (c.mode.indexPath path) with
  | error e => rfl
  | ok m =>
    rw [ok_bind, ok_bind]
    simp only
    split
    · rfl
    · cases extractInfos W path _ with
      | error e => rfl
      | ok is => rfl

theorem scanFile_eq_plan_commit (W : World) (c : Cache) (path : String) (merge : Bool) :
    c.scanFile W path merge = (do let p ← c.scanFilePlan W path merge; c.scanCommit path p) := by
  rw [Cache.scanFile, Cache.scanFilePlan]
  cases merge with
  | true =>
    simp only [if_true]
    cases W.offsetsOf path with
    | error e => rfl
    | ok os => rw [ok_bind, ok_bind]; exact scan_eq_plan_commit W c path os
  | false =>
    simp only [Bool.false_eq_true, if_false]
    cases loadIndex c.fs (c.mode.indexPath path) with
    | error e => rfl
    | ok m =>
      cases W.offsetsOf path with
      | error e => rfl
      | ok os =>
        cases h : extractInfos W path os with
        | error e => simp only [ok_bind, h, error_bind]
        | ok is => simp only [ok_bind, h]; rfl

/-- C18 under concurrency.  Two scans of different files may overlap: what a scan is about to write does
not depend on a scan of another file having been written in between. -/
theorem C18_overlapping_scans_of_different_files (W : World) (c c' : Cache) (p q : String) (n : Nat)
    (offsets : List Nat) (pl : Option (Nat × InfoMap))
    (hpq : c.mode.indexPath p ≠ c.mode.indexPath q) (hc : c.scanCommit q pl = .ok (n, c')) :
    c'.scanPlan W p offsets = c.scanPlan W p offsets := by
  cases pl with
  | none => cases hc; rfl
  | some x =>
    obtain ⟨k, m⟩ := x
    rw [Cache.scanCommit, writeIndex] at hc
    cases he : encIndex m with
    | error e => rw [he] at hc; cases hc
    | ok toks =>
      rw [he, ok_bind, ok_bind] at hc
      cases hc
      rw [Cache.scanPlan, Cache.scanPlan, loadIndex, loadIndex]
      rw [show AMap.find (AMap.set c.fs (c.mode.indexPath q) toks) (c.mode.indexPath p)
        = AMap.find c.fs (c.mode.indexPath p) by rw [AMap.find_set, if_neg (fun e => hpq e.symm)]]

/-- C18 fails for overlapping scans of the same file (nothing prevents two requests to a server from
scanning one file at the same time): both report success, but the entries of one are lost. -/
theorem C18_overlapping_scans_lose_entries :
    (match (do
      let p1 ← sampleCache.scanPlan sampleWorld "/fdb/a" [204]
      let p2 ← sampleCache.scanPlan sampleWorld "/fdb/a" [408]
      let (n1, c1) ← sampleCache.scanCommit "/fdb/a" p1
      let (n2, c2) ← c1.scanCommit "/fdb/a" p2
      .ok (n1, n2, c2.indexed "/fdb/a" 204, c2.indexed "/fdb/a" 408) : Res _) with
    | .ok (n1, n2, i, j) => decide (n1 = 1 ∧ n2 = 1 ∧ i = none) && j.isSome
    | .error _ => false) = true := by decide +kernel

/-! ## C19 -/

theorem scanFile_spec (W : World) (c : Cache) (path : String) (offsets : List Nat) (es : List (Nat × Info))
    (hes : (AMap.keys es).Nodup)
    (hl : loadIndex c.fs (c.mode.indexPath path) = .ok (noNull es))
    (ho : W.offsetsOf path = .ok offsets)
    (hd : ∀ o ∈ offsets, ∃ i, W.data path o = .ok i) :
    ∃ es' c', c.scanFile W path false = .ok (offsets.length, c') ∧
      (AMap.keys es').Nodup ∧
      loadIndex c'.fs (c.mode.indexPath path) = .ok (noNull es') ∧
      (∀ o, AMap.find es' o = match AMap.find es o with
        | some i => some i
        | none => if o ∈ offsets then W.info path o else none) ∧
      (∀ p, p ≠ c.mode.indexPath path → c'.fs.find p = c.fs.find p) ∧
      c'.mode = c.mode ∧ c'.lazy = c.lazy ∧ c'.mem = c.mem ∧ c'.staged = c.staged := by
  obtain ⟨is, his⟩ := extractInfos_total W path offsets hd
  obtain ⟨hlen, -, -⟩ := extractInfos_inv W path _ _ his
  have hnd := nodup_addAll es (offsets.zip is) hes
  rw [Cache.scanFile, if_neg (by simp), hl, ok_bind, ho, ok_bind, his, ok_bind, insertAll_noNull,
    writeIndex, encIndex_ok, ok_bind, ok_bind, hlen]
  refine ⟨_, _, rfl, hnd, loadIndex_written _ _ _ hnd, ?_, ?_, rfl, rfl, rfl, rfl⟩
  · intro o
    rw [find_addAll, find_zip_info his]
  · intro p hp
    show (AMap.set c.fs _ _).find p = _
    rw [AMap.find_set, if_neg (fun e => hp e.symm)]

/-- C19, what holds.  Scanning a whole file without merging gives the content of the data file whenever
what the index held before was not out of date: in particular when there was no index. -/
theorem C19_rebuild_partial (W : World) (c : Cache) (path : String) (offsets : List Nat)
    (hr : c.readable path) (ho : W.offsetsOf path = .ok offsets)
    (hd : ∀ o ∈ offsets, ∃ i, W.data path o = .ok i)
    (hold : ∀ o i, c.indexed path o = some i → o ∈ offsets ∧ W.data path o = .ok i) :
    ∃ c', c.scanFile W path false = .ok (offsets.length, c') ∧
      ∀ o, c'.indexed path o = if o ∈ offsets then W.info path o else none := by
  obtain ⟨es, hes, hl⟩ := hr
  simp only [Cache.indexed_of_load hl] at hold
  obtain ⟨es', c', h1, h2, h3, h4, -, h6, -, -, -⟩ := scanFile_spec W c path offsets es hes hl ho hd
  refine ⟨c', h1, ?_⟩
  intro o
  have h3' : loadIndex c'.fs (c'.mode.indexPath path) = .ok (noNull es') := by rw [h6]; exact h3
  rw [Cache.indexed_of_load h3', h4]
  cases hf : AMap.find es o with
  | none => rfl
  | some i =>
    obtain ⟨h, hi⟩ := hold o i hf
    simp only
    rw [if_pos h, World.info_some.mpr hi]

/-- C19, in general: entries the index held before win over the data file. -/
theorem C19_old_entries_win (W : World) (c : Cache) (path : String) (offsets : List Nat)
    (hr : c.readable path) (ho : W.offsetsOf path = .ok offsets)
    (hd : ∀ o ∈ offsets, ∃ i, W.data path o = .ok i) :
    ∃ c', c.scanFile W path false = .ok (offsets.length, c') ∧
      ∀ o, c'.indexed path o = match c.indexed path o with
        | some i => some i
        | none => if o ∈ offsets then W.info path o else none := by
  obtain ⟨es, hes, hl⟩ := hr
  obtain ⟨es', c', h1, h2, h3, h4, -, h6, -, -, -⟩ := scanFile_spec W c path offsets es hes hl ho hd
  refine ⟨c', h1, ?_⟩
  intro o
  have h3' : loadIndex c'.fs (c'.mode.indexPath path) = .ok (noNull es') := by rw [h6]; exact h3
  rw [Cache.indexed_of_load h3', h4, Cache.indexed_of_load hl]

/-- A data file that was replaced after it was indexed: its message at 0 has other metadata now. -/
def staleWorld : World where
  data path o := if path = "/fdb/a" ∧ o = 0 then .ok (.unsupported sampleBase) else throwExn .userError
  offsetsOf path := if path = "/fdb/a" then .ok [0] else throwExn .readError

/-- C19 fails: after the data file is replaced, a scan without merging keeps the old metadata. -/
theorem C19_stale_entry_kept :
    ∃ W c c' path o n, Cache.readable c path ∧ Cache.scanFile W c path false = .ok (n, c') ∧
      W.offsetsOf path = .ok [o] ∧ W.info path o = some (.unsupported sampleBase) ∧
      c'.indexed path o = some (.simple sampleBase) := by
  have hr : sampleCache.readable "/fdb/a" := ⟨[(0, .simple sampleBase)], by decide, by decide +kernel⟩
  obtain ⟨c', h1, h2⟩ := C19_old_entries_win staleWorld sampleCache "/fdb/a" [0] hr rfl (by
    intro o ho; rw [List.mem_singleton] at ho; subst ho; exact ⟨_, rfl⟩)
  refine ⟨staleWorld, sampleCache, c', "/fdb/a", 0, _, hr, h1, rfl, rfl, ?_⟩
  rw [h2, show sampleCache.indexed "/fdb/a" 0 = some (.simple sampleBase) by decide +kernel]

example : ({ sampleCache with fs := [] } : Cache).readable "/fdb/a" ∧
    ∀ o i, ({ sampleCache with fs := [] } : Cache).indexed "/fdb/a" o = some i →
      o ∈ [0, 204, 408] ∧ sampleWorld.data "/fdb/a" o = .ok i := by
  refine ⟨⟨[], by decide, by decide +kernel⟩, ?_⟩
  intro o i h
  have : ({ sampleCache with fs := [] } : Cache).indexed "/fdb/a" o = none := rfl
  rw [this] at h; cases h

end GJ
