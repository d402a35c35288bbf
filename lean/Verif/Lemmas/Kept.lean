import Verif.Props.C69

/-!
# Entries of index files that stay

Rewriting an index file replaces all of it, so an entry stays if no scan that is under way read the file before the entry was
there, flushes append, and other processes do the same.
-/

namespace GJ
open Spec

/-- The index of the data file has an entry for the message, and so will what any scan under way writes there. -/
structure KeptEntry (s : Sys) (path : String) (o : Nat) : Prop where
  here : (s.c.indexed path o).isSome = true
  plans : ∀ x ∈ s.scans, s.c.mode.indexPath x.1 = s.c.mode.indexPath path → ∀ n m, x.2 = some (n, m) →
    (indexFind m o).isSome = true

/-- Flushes append, as those of the plugin do (InfoAggregator.cc:85, 135); another process appends to the index, or writes all of
it with the entry. -/
def CEv.Keeps (mode : CacheMode) (path : String) (o : Nat) : CEv → Prop
  | .flush append => append = true
  | .elsewhere append ws => append = true ∨ ∀ x ∈ ws, mode.indexPath x.1 = mode.indexPath path → o ∈ x.2
  | _ => True

/-- The same for a step of a service. -/
def SEv.Keeps (mode : CacheMode) (path : String) (o : Nat) : SEv → Prop
  | .cache e => e.Keeps mode path o
  | _ => True

/-- An index file has an entry. -/
def Entry (fs : FS) (f : String) (o : Nat) : Prop := ∃ m, loadIndex fs f = .ok m ∧ (indexFind m o).isSome = true

theorem indexed_iff {c : Cache} {p : String} {o : Nat} : (c.indexed p o).isSome = true ↔ Entry c.fs (c.mode.indexPath p) o := by
  rw [Cache.indexed, Entry]
  cases loadIndex c.fs (c.mode.indexPath p) with
  | error e => exact ⟨(fun h => by cases h), (fun ⟨_, h, _⟩ => by cases h)⟩
  | ok m => exact ⟨(fun h => ⟨m, rfl, h⟩), (fun ⟨_, h, h2⟩ => by cases h; exact h2)⟩

theorem Holds.entry {fs : FS} {f : String} {es : List (Nat × Info)} (h : Holds fs f es) {o : Nat} :
    Entry fs f o ↔ (AMap.find es o).isSome = true := by
  constructor
  · rintro ⟨m, h1, h2⟩
    rw [h.load] at h1
    cases h1
    rw [indexFind_insertAll] at h2
    exact h2
  · intro h2
    exact ⟨_, h.load, by rw [indexFind_insertAll]; exact h2⟩

theorem entry_other {fs fs' : FS} {f : String} {o : Nat} (h : Entry fs f o) (he : fs'.find f = fs.find f) : Entry fs' f o := by
  obtain ⟨m, h1, h2⟩ := h
  refine ⟨m, ?_, h2⟩
  rw [loadIndex, he]
  exact h1

theorem entry_write {fs fs' : FS} {f g : String} {o : Nat} {es : List (Nat × Info)} (h : g ≠ f → Entry fs f o)
    (hm : g = f → (AMap.find es o).isSome = true) (hw : writeIndex fs g (noNull es) = .ok fs') : Entry fs' f o := by
  rw [writeIndex, encIndex_ok, ok_bind] at hw
  cases hw
  by_cases hg : g = f
  · subst hg
    exact (Holds.entry (es := es) (Or.inr (by rw [AMap.find_set, if_pos rfl]))).mpr (hm rfl)
  · exact entry_other (h hg) (by rw [AMap.find_set, if_neg hg])

theorem entry_append {fs fs' : FS} {f g : String} {o : Nat} {old es : List (Nat × Info)} (ho : Holds fs g old)
    (h : Entry fs f o ∨ (g = f ∧ (AMap.find es o).isSome = true)) (hw : appendIndex fs g (noNull es) = .ok fs') : Entry fs' f o := by
  obtain ⟨fs1, h1, h2, h3⟩ := ho.append es
  rw [hw] at h1
  cases h1
  have app : ∀ {a b : List (Nat × Info)}, (AMap.find a o).isSome = true ∨ (AMap.find b o).isSome = true →
      (AMap.find (a ++ b) o).isSome = true := by
    intro a b hab
    rw [← AMap.mem_keys_iff] at hab ⊢
    rw [← AMap.mem_keys_iff] at hab
    rw [AMap.keys, List.map_append, List.mem_append]
    exact hab
  rcases h with h | ⟨rfl, h⟩
  · by_cases hg : g = f
    · subst hg
      exact h2.entry.mpr (app (.inl (ho.entry.mp h)))
    · exact entry_other h (h3 f fun e => hg e.symm)
  · exact h2.entry.mpr (app (.inr h))

theorem entry_flush {W : World} {U : String → Prop} {mode : CacheMode} (hU : ToldApart mode U) {f : String} {o : Nat} :
    ∀ (st : AMap String InfoMap) (fs fs' : FS), (∀ x ∈ st, ∃ p, U p ∧ x.1 = mode.indexPath p ∧ GoodMap W p x.2) →
      GoodIndex W U mode fs → (Entry fs f o ∨ ∃ x ∈ st, x.1 = f ∧ (indexFind x.2 o).isSome = true) →
      flushLoop true fs st = .ok fs' → Entry fs' f o := by
  intro st
  induction st with
  | nil =>
    intro fs fs' _ _ h hf
    cases hf
    rcases h with h | ⟨x, hx, -⟩
    · exact h
    · cases hx
  | cons x st ih =>
    intro fs fs' hst hg h hf
    obtain ⟨g, m⟩ := x
    obtain ⟨p, hp, rfl, es, rfl, ha⟩ := hst (g, m) List.mem_cons_self
    rw [flushLoop] at hf
    obtain ⟨fs1, h1, h2⟩ := res_bind_inv hf
    obtain ⟨fs2, h3, h4⟩ := appendIndex_good hU hg hp ⟨es, rfl, ha⟩
    rw [flushIndex, if_pos rfl, h3] at h1
    obtain rfl := Except.ok.inj h1
    obtain ⟨old, ho, -⟩ := hg p hp
    refine ih fs2 fs' (fun y hy => hst y (List.mem_cons_of_mem _ hy)) h4 ?_ h2
    rcases h with h | ⟨x, hx, hxf, hxo⟩
    · exact .inl (entry_append ho (.inl h) h3)
    · rcases List.mem_cons.mp hx with rfl | hx
      · exact .inl (entry_append ho (.inr ⟨hxf, by rw [indexFind_noNull] at hxo; exact hxo⟩) h3)
      · exact .inr ⟨x, hx, hxf, hxo⟩

theorem zip_find {W : World} {p : String} {os : List Nat} {is : List Info} (h : extractInfos W p os = .ok is) {o : Nat}
    (ho : o ∈ os) : (AMap.find (os.zip is) o).isSome = true := by
  obtain ⟨-, h2, h3⟩ := extractInfos_inv W p os is h
  obtain ⟨i, hi⟩ := h2 o ho
  rw [(h3 o i).mpr ⟨ho, hi⟩]
  rfl

theorem entry_elsewhere {W : World} {U : String → Prop} {mode : CacheMode} (hU : ToldApart mode U) (append : Bool) {path : String}
    {o : Nat} : ∀ (ws : List (String × List Nat)) (fs fs' : FS), (∀ x ∈ ws, U x.1) → GoodIndex W U mode fs →
      (append = true ∨ ∀ x ∈ ws, mode.indexPath x.1 = mode.indexPath path → o ∈ x.2) →
      Entry fs (mode.indexPath path) o → writtenElsewhere W mode append fs ws = .ok fs' →
      Entry fs' (mode.indexPath path) o := by
  intro ws
  induction ws with
  | nil => intro fs fs' _ _ _ h hf; cases hf; exact h
  | cons x ws ih =>
    intro fs fs' hw hg hk h hf
    obtain ⟨p, os⟩ := x
    have hp : U p := hw (p, os) List.mem_cons_self
    have hrest : ∀ y ∈ ws, U y.1 := fun y hy => hw y (List.mem_cons_of_mem _ hy)
    have hk' : append = true ∨ ∀ x ∈ ws, mode.indexPath x.1 = mode.indexPath path → o ∈ x.2 := by
      rcases hk with hk | hk
      · exact .inl hk
      · exact .inr fun y hy => hk y (List.mem_cons_of_mem _ hy)
    rw [writtenElsewhere] at hf
    cases hx : extractInfos W p os with
    | error e =>
      rw [hx] at hf
      exact ih fs fs' hrest hg hk' h hf
    | ok is =>
      rw [hx] at hf
      simp only at hf
      obtain ⟨fs1, h1, h2⟩ := res_bind_inv hf
      have hm : GoodMap W p (noNull (os.zip is)) := ⟨_, rfl, extractInfos_zip hx⟩
      have h1 : flushIndex append fs (mode.indexPath p) (noNull (os.zip is)) = .ok fs1 := h1
      rw [flushIndex] at h1
      split at h1
      · obtain ⟨fs2, h3, h4⟩ := appendIndex_good hU hg hp hm
        rw [h3] at h1
        obtain rfl := Except.ok.inj h1
        obtain ⟨old, ho, -⟩ := hg p hp
        exact ih fs2 fs' hrest h4 hk' (entry_append ho (.inl h) h3) h2
      · rename_i happ
        obtain ⟨fs2, h3, h4⟩ := writeIndex_good hU hg hp hm
        rw [h3] at h1
        obtain rfl := Except.ok.inj h1
        refine ih fs2 fs' hrest h4 hk' (entry_write (fun _ => h) (fun e => ?_) h3) h2
        rcases hk with hk | hk
        · exact absurd hk happ
        · exact zip_find hx (hk (p, os) List.mem_cons_self e)

/-- A plan holds what the index held, and what was to be scanned. -/
theorem scanPlan_entries {W : World} {U : String → Prop} {c : Cache} (hg : GoodIndex W U c.mode c.fs) {p : String} (hp : U p)
    {os : List Nat} {pl : Option (Nat × InfoMap)} (h : c.scanPlan W p os = .ok pl) :
    (pl = none → ∀ o ∈ os, Entry c.fs (c.mode.indexPath p) o) ∧
    ∀ n m, pl = some (n, m) → (∀ o, Entry c.fs (c.mode.indexPath p) o → (indexFind m o).isSome = true) ∧
      ∀ o ∈ os, (indexFind m o).isSome = true := by
  obtain ⟨es, hl, -⟩ := loaded_good hg hp
  rw [Cache.scanPlan, hl, ok_bind] at h
  simp only at h
  have hin : ∀ o, Entry c.fs (c.mode.indexPath p) o ↔ (AMap.find es o).isSome = true := by
    intro o
    constructor
    · rintro ⟨m, h1, h2⟩
      rw [hl] at h1
      cases h1
      rw [indexFind_noNull] at h2
      exact h2
    · intro h2
      exact ⟨_, hl, by rw [indexFind_noNull]; exact h2⟩
  have hfi : (fun o => (indexFind (noNull es) o).isNone) = fun o => (AMap.find es o).isNone := by
    funext o; rw [indexFind_noNull]
  rw [hfi] at h
  split at h
  · rename_i hnil
    cases h
    refine ⟨fun _ o ho => ?_, (fun n m e => by cases e)⟩
    rw [hin]
    cases hf : AMap.find es o with
    | some i => rfl
    | none =>
      exfalso
      have : o ∈ (os.filter fun o => (AMap.find es o).isNone) := List.mem_filter.mpr ⟨ho, by rw [hf]; rfl⟩
      rw [hnil] at this
      cases this
  · obtain ⟨infos, h1, h2⟩ := res_bind_inv h
    cases h2
    refine ⟨(fun e => by cases e), fun n m e => ?_⟩
    cases e
    rw [insertAll_noNull]
    have hor : ∀ o, (AMap.find es o).isSome = true ∨
        o ∈ isort (fun a b => decide (a ≤ b)) (os.filter fun o => (AMap.find es o).isNone) →
        (indexFind (noNull (addAll es ((isort (fun a b => decide (a ≤ b)) (os.filter fun o => (AMap.find es o).isNone)).zip
          infos))) o).isSome = true := by
      intro o ho
      rw [indexFind_noNull, find_addAll]
      cases hf : AMap.find es o with
      | some i => rfl
      | none =>
        rcases ho with ho | ho
        · rw [hf] at ho; cases ho
        · exact zip_find h1 ho
    refine ⟨fun o ho => hor o (.inl ((hin o).mp ho)), fun o ho => hor o ?_⟩
    cases hf : AMap.find es o with
    | some i => exact .inl rfl
    | none => exact .inr ((isort_perm _ _).mem_iff.mpr (List.mem_filter.mpr ⟨ho, by rw [hf]; rfl⟩))

theorem scanFilePlan_entries {W : World} {U : String → Prop} {c : Cache} (hg : GoodIndex W U c.mode c.fs) {p : String} (hp : U p)
    {merge : Bool} {pl : Option (Nat × InfoMap)} (h : c.scanFilePlan W p merge = .ok pl) :
    ∃ os, W.offsetsOf p = .ok os ∧ (pl = none → ∀ o ∈ os, Entry c.fs (c.mode.indexPath p) o) ∧
    ∀ n m, pl = some (n, m) → (∀ o, Entry c.fs (c.mode.indexPath p) o → (indexFind m o).isSome = true) ∧
      ∀ o ∈ os, (indexFind m o).isSome = true := by
  rw [Cache.scanFilePlan] at h
  split at h
  · obtain ⟨os, h1, h2⟩ := res_bind_inv h
    exact ⟨os, h1, scanPlan_entries hg hp h2⟩
  · obtain ⟨es, hl, -⟩ := loaded_good hg hp
    rw [hl, ok_bind] at h
    obtain ⟨os, h1, h2⟩ := res_bind_inv h
    obtain ⟨infos, h3, h4⟩ := res_bind_inv h2
    cases h4
    refine ⟨os, h1, (fun e => by cases e), fun n m e => ?_⟩
    cases e
    rw [insertAll_noNull]
    have hor : ∀ o, (AMap.find es o).isSome = true ∨ o ∈ os →
        (indexFind (noNull (addAll es (os.zip infos))) o).isSome = true := by
      intro o ho
      rw [indexFind_noNull, find_addAll]
      cases hf : AMap.find es o with
      | some i => rfl
      | none =>
        rcases ho with ho | ho
        · rw [hf] at ho; cases ho
        · exact zip_find h3 ho
    refine ⟨fun o ho => hor o (.inl ?_), fun o ho => hor o (.inr ho)⟩
    obtain ⟨m, h1, h2⟩ := ho
    rw [hl] at h1
    cases h1
    rw [indexFind_noNull] at h2
    exact h2

theorem getCached_kept {c c' : Cache} {p : String} {os : List Nat} {r : AMap Nat Info} (h : getCached c p os = .ok (r, c')) :
    c'.mode = c.mode ∧ c'.lazy = c.lazy ∧ c'.fs = c.fs ∧ c'.staged = c.staged := by
  rw [getCached] at h
  obtain ⟨x, -, h⟩ := res_bind_inv h
  cases h
  exact ⟨rfl, rfl, rfl, rfl⟩

theorem putCache_kept {c c' : Cache} {p : String} {l : List (Nat × Info)} (h : putCache c p l = .ok c') :
    c'.mode = c.mode ∧ c'.lazy = c.lazy ∧ c'.fs = c.fs ∧ c'.staged = c.staged := by
  rw [putCache] at h
  obtain ⟨x, -, h⟩ := res_bind_inv h
  cases h
  exact ⟨rfl, rfl, rfl, rfl⟩

theorem insert_kept (c : Cache) (p : String) (o : Nat) (i : Info) :
    (c.insert p o i).mode = c.mode ∧ (c.insert p o i).lazy = c.lazy ∧ (c.insert p o i).fs = c.fs := by
  rw [Cache.insert]
  split <;> exact ⟨rfl, rfl, rfl⟩

theorem KeptEntry.same {s s' : Sys} {path : String} {o : Nat} (h : KeptEntry s path o) (hm : s'.c.mode = s.c.mode) (hf : s'.c.fs = s.c.fs)
    (hs : ∀ x ∈ s'.scans, x ∈ s.scans) : KeptEntry s' path o := by
  refine ⟨?_, fun x hx e n m hnm => h.plans x (hs x hx) (by rw [← hm]; exact e) n m hnm⟩
  rw [indexed_iff, hm, hf]
  exact indexed_iff.mp h.here

/-- The setting of the cache does not change. -/
theorem Sys.step_mode {s s' : Sys} {e : CEv} (h : s.step e = .ok s') : s'.c.mode = s.c.mode ∧ s'.c.lazy = s.c.lazy := by
  have pl : ∀ p r, s.planned p r = .ok s' → s'.c.mode = s.c.mode ∧ s'.c.lazy = s.c.lazy := by
    intro p r hr
    cases r with
    | ok x => cases hr; exact ⟨rfl, rfl⟩
    | error f => cases f with
      | ub => cases hr
      | exn e => cases hr; exact ⟨rfl, rfl⟩
  cases e with
  | lookup p os =>
    obtain ⟨⟨found, c⟩, h1, h2⟩ := res_bind_inv h
    cases h2
    exact ⟨(getCached_kept h1).1, (getCached_kept h1).2.1⟩
  | answer k =>
    rw [Sys.step] at h
    split at h
    · cases h; exact ⟨rfl, rfl⟩
    · rw [Sys.finish] at h
      split at h
      · obtain ⟨c, h3, h4⟩ := res_bind_inv h
        cases h4
        exact ⟨(putCache_kept h3).1, (putCache_kept h3).2.1⟩
      · cases h
      · cases h; exact ⟨rfl, rfl⟩
  | scan p os => exact pl _ _ h
  | scanFile p m => exact pl _ _ h
  | commit k =>
    rw [Sys.step] at h
    split at h
    · cases h; exact ⟨rfl, rfl⟩
    · rename_i p m hk
      obtain ⟨⟨n, c⟩, h1, h2⟩ := res_bind_inv h
      cases h2
      cases m with
      | none => cases h1; exact ⟨rfl, rfl⟩
      | some x =>
        rw [Cache.scanCommit] at h1
        obtain ⟨fs, -, h1⟩ := res_bind_inv h1
        cases h1
        exact ⟨rfl, rfl⟩
  | insert p o =>
    rw [Sys.step] at h
    split at h
    · cases h
      exact ⟨(insert_kept _ _ _ _).1, (insert_kept _ _ _ _).2.1⟩
    · cases h; exact ⟨rfl, rfl⟩
  | flush a =>
    obtain ⟨c, h1, h2⟩ := res_bind_inv h
    cases h2
    rw [Cache.flush] at h1
    obtain ⟨fs, -, h1⟩ := res_bind_inv h1
    cases h1
    exact ⟨rfl, rfl⟩
  | clear => cases h; exact ⟨rfl, rfl⟩
  | elsewhere a ws =>
    obtain ⟨fs, -, h2⟩ := res_bind_inv h
    cases h2
    exact ⟨rfl, rfl⟩
  | grow W' => cases h; exact ⟨rfl, rfl⟩

/-- Entries stay. -/
theorem KeptEntry.step {U : String → Prop} {s s' : Sys} (g : Good U s) {e : CEv} (ha : Allowed U s.W e) {path : String} {o : Nat}
    (h : KeptEntry s path o) (hk : e.Keeps s.c.mode path o) (hs : s.step e = .ok s') : KeptEntry s' path o := by
  have pl : ∀ p r, U p → (∀ n m, r = .ok (some (n, m)) → ∀ o, Entry s.c.fs (s.c.mode.indexPath p) o → (indexFind m o).isSome = true) →
      s.planned p r = .ok s' → KeptEntry s' path o := by
    intro p r hp hr hpl
    cases r with
    | ok x =>
      cases hpl
      refine ⟨h.here, fun y hy hyp n m hnm => ?_⟩
      rcases List.mem_append.mp hy with hy | hy
      · exact h.plans y hy hyp n m hnm
      · rw [List.mem_singleton] at hy
        subst hy
        have hyp : s.c.mode.indexPath p = s.c.mode.indexPath path := hyp
        exact hr n m (by rw [show x = some (n, m) from hnm]) o (by rw [hyp]; exact indexed_iff.mp h.here)
    | error f => cases f with
      | ub => cases hpl
      | exn e => cases hpl; exact h
  cases e with
  | lookup p os =>
    obtain ⟨⟨found, c⟩, h1, h2⟩ := res_bind_inv hs
    cases h2
    have := getCached_kept h1
    exact h.same this.1 this.2.2.1 fun x hx => hx
  | answer k =>
    rw [Sys.step] at hs
    split at hs
    · cases hs; exact h
    · rw [Sys.finish] at hs
      split at hs
      · obtain ⟨c, h3, h4⟩ := res_bind_inv hs
        cases h4
        have := putCache_kept h3
        exact h.same this.1 this.2.2.1 fun x hx => hx
      · cases hs
      · cases hs; exact h.same rfl rfl fun x hx => hx
  | scan p os =>
    refine pl p _ ha (fun n m hr o ho => ?_) hs
    exact ((scanPlan_entries g.index ha hr).2 n m rfl).1 o ho
  | scanFile p merge =>
    refine pl p _ ha (fun n m hr o ho => ?_) hs
    obtain ⟨os, -, -, h2⟩ := scanFilePlan_entries g.index ha hr
    exact (h2 n m rfl).1 o ho
  | commit k =>
    rw [Sys.step] at hs
    split at hs
    · cases hs; exact h
    · rename_i p m hkk
      obtain ⟨⟨n, c⟩, h1, h2⟩ := res_bind_inv hs
      cases h2
      cases m with
      | none => cases h1; exact h.same rfl rfl fun x hx => List.mem_of_mem_eraseIdx hx
      | some x =>
        obtain ⟨n', m⟩ := x
        rw [Cache.scanCommit] at h1
        obtain ⟨fs, hw, h1⟩ := res_bind_inv h1
        cases h1
        have hmem := List.mem_of_getElem? hkk
        obtain ⟨es, rfl, -⟩ := (g.scans _ hmem).2 _ _ rfl
        refine ⟨?_, fun x hx e n m hnm => h.plans x (List.mem_of_mem_eraseIdx hx) e n m hnm⟩
        rw [indexed_iff]
        refine entry_write (fun _ => (indexed_iff (c := s.c)).mp h.here) (fun e => ?_) hw
        have := h.plans _ hmem e _ _ rfl
        rw [indexFind_noNull] at this
        exact this
  | insert p o =>
    rw [Sys.step] at hs
    split at hs
    · cases hs
      have := insert_kept s.c p o ‹Info›
      exact h.same (insert_kept _ _ _ _).1 (insert_kept _ _ _ _).2.2 fun x hx => hx
    · cases hs; exact h
  | flush a =>
    obtain ⟨c, h1, h2⟩ := res_bind_inv hs
    cases h2
    rw [Cache.flush] at h1
    obtain ⟨fs, hf, h1⟩ := res_bind_inv h1
    cases h1
    have hk : a = true := hk
    subst hk
    refine ⟨?_, h.plans⟩
    rw [indexed_iff]
    exact entry_flush g.sep s.c.staged s.c.fs fs g.staged g.index (.inl (indexed_iff.mp h.here)) hf
  | clear => cases hs; exact h.same rfl rfl fun x hx => hx
  | elsewhere a ws =>
    obtain ⟨fs, hf, h2⟩ := res_bind_inv hs
    cases h2
    refine ⟨?_, h.plans⟩
    rw [indexed_iff]
    exact entry_elsewhere g.sep a ws s.c.fs fs ha g.index hk (indexed_iff.mp h.here) hf
  | grow W' => cases hs; exact h.same rfl rfl fun x hx => hx

end GJ
