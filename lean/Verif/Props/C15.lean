import Verif.Lemmas.Text
import Verif.Props.C18

/-!
# C15: metadata lookups
-/

namespace GJ

open Spec

/-! ## Lists -/

theorem subset_of_nodup_length {α : Type} [DecidableEq α] (K L : List α) (hK : K.Nodup)
    (hs : ∀ x ∈ K, x ∈ L) (hl : L.length ≤ K.length) : ∀ x ∈ L, x ∈ K := by
  induction K generalizing L with
  | nil =>
    intro x hx
    have : L = [] := List.length_eq_zero_iff.mp (by simpa using hl)
    rw [this] at hx; exact hx
  | cons a K ih =>
    rw [List.nodup_cons] at hK
    obtain ⟨L1, L2, rfl⟩ := List.append_of_mem (hs a List.mem_cons_self)
    intro x hx
    by_cases hxa : x = a
    · rw [hxa]; exact List.mem_cons_self
    · refine List.mem_cons_of_mem _ (ih (L1 ++ L2) hK.2 ?_ ?_ x ?_)
      · intro y hy
        have := hs y (List.mem_cons_of_mem _ hy)
        rw [List.mem_append, List.mem_cons] at this
        rw [List.mem_append]
        rcases this with h | h | h
        · exact Or.inl h
        · exact absurd (h ▸ hy) hK.1
        · exact Or.inr h
      · simp only [List.length_append, List.length_cons] at hl ⊢; omega
      · rw [List.mem_append, List.mem_cons] at hx
        rw [List.mem_append]
        rcases hx with h | h | h
        · exact Or.inl h
        · exact absurd h hxa
        · exact Or.inr h

theorem length_le_of_nodup_subset {α : Type} [DecidableEq α] (K L : List α) (hK : K.Nodup)
    (hs : ∀ x ∈ K, x ∈ L) : K.length ≤ L.length := by
  induction K generalizing L with
  | nil => simp
  | cons a K ih =>
    rw [List.nodup_cons] at hK
    obtain ⟨L1, L2, rfl⟩ := List.append_of_mem (hs a List.mem_cons_self)
    have := ih (L1 ++ L2) hK.2 (by
      intro y hy
      have := hs y (List.mem_cons_of_mem _ hy)
      rw [List.mem_append, List.mem_cons] at this
      rw [List.mem_append]
      rcases this with h | h | h
      · exact Or.inl h
      · exact absurd (h ▸ hy) hK.1
      · exact Or.inr h)
    simp only [List.length_append, List.length_cons] at this ⊢; omega

theorem mapM_congr_res {α β : Type} (f g : α → Res β) (l : List α) (h : ∀ x ∈ l, f x = g x) :
    l.mapM f = l.mapM g := by
  induction l with
  | nil => rfl
  | cons a l ih =>
    rw [List.mapM_cons, List.mapM_cons, h a List.mem_cons_self,
      ih (fun x hx => h x (List.mem_cons_of_mem _ hx))]

/-! ## What a correct cache holds -/

/-- Entries that are the metadata of the messages of `path`. -/
def Agree (W : World) (path : String) (es : List (Nat × Info)) : Prop :=
  ∀ x ∈ es, W.data path x.1 = .ok x.2

theorem Agree.find {W : World} {path : String} {es : List (Nat × Info)} (h : Agree W path es) {o : Nat}
    {i : Info} (hf : AMap.find es o = some i) : W.data path o = .ok i := by
  induction es with
  | nil => cases hf
  | cons p es ih =>
    obtain ⟨k, j⟩ := p
    rw [AMap.find] at hf
    split at hf
    · rename_i hk
      cases hf
      have := h _ List.mem_cons_self
      rw [← hk]; exact this
    · exact ih (fun x hx => h x (List.mem_cons_of_mem _ hx)) hf

theorem mem_insert_cases {K V : Type} [DecidableEq K] (m : AMap K V) (k : K) (v : V) (x : K × V)
    (h : x ∈ AMap.insert m k v) : x ∈ m ∨ x = (k, v) := by
  induction m with
  | nil => exact Or.inr (List.mem_singleton.mp h)
  | cons p m ih =>
    obtain ⟨a, b⟩ := p
    rw [AMap.insert] at h
    split at h
    · exact Or.inl h
    · rcases List.mem_cons.mp h with h | h
      · exact Or.inl (h ▸ List.mem_cons_self)
      · rcases ih h with h | h
        · exact Or.inl (List.mem_cons_of_mem _ h)
        · exact Or.inr h

theorem mem_set_cases {K V : Type} [DecidableEq K] (m : AMap K V) (k : K) (v : V) (x : K × V)
    (h : x ∈ AMap.set m k v) : x ∈ m ∨ x = (k, v) := by
  induction m with
  | nil => exact Or.inr (List.mem_singleton.mp h)
  | cons p m ih =>
    obtain ⟨a, b⟩ := p
    rw [AMap.set] at h
    split at h
    · rename_i hk
      rcases List.mem_cons.mp h with h | h
      · exact Or.inr (by rw [h, hk])
      · exact Or.inl (List.mem_cons_of_mem _ h)
    · rcases List.mem_cons.mp h with h | h
      · exact Or.inl (h ▸ List.mem_cons_self)
      · rcases ih h with h | h
        · exact Or.inl (List.mem_cons_of_mem _ h)
        · exact Or.inr h

theorem Agree.insert {W : World} {path : String} {es : List (Nat × Info)} (h : Agree W path es) {o : Nat}
    {i : Info} (hi : W.data path o = .ok i) : Agree W path (AMap.insert es o i) := by
  intro x hx
  rcases mem_insert_cases _ _ _ _ hx with hx | rfl
  · exact h x hx
  · exact hi

theorem Agree.addAll {W : World} {path : String} {m es : List (Nat × Info)} (hm : Agree W path m)
    (he : Agree W path es) : Agree W path (addAll m es) := by
  induction es generalizing m with
  | nil => exact hm
  | cons p es ih =>
    exact ih (hm.insert (he p List.mem_cons_self)) (fun x hx => he x (List.mem_cons_of_mem _ hx))

theorem extractInfos_zip {W : World} {path : String} {os : List Nat} {is : List Info}
    (h : extractInfos W path os = .ok is) : Agree W path (os.zip is) := by
  induction os generalizing is with
  | nil => intro x hx; simp at hx
  | cons a os ih =>
    rw [extractInfos, List.mapM_cons] at h
    cases ha : W.data path a with
    | error e => rw [ha, error_bind] at h; cases h
    | ok i =>
      rw [ha, ok_bind] at h
      cases hr : os.mapM (W.data path) with
      | error e => rw [hr, error_bind] at h; cases h
      | ok js =>
        rw [hr, ok_bind] at h
        cases h
        intro x hx
        rcases List.mem_cons.mp hx with rfl | hx
        · exact ha
        · exact ih hr x hx

/-- The files in use.  The cache tells messages apart by `cachekey` and files by the index path; the
hypotheses say that these do tell apart the files in use. -/
structure ToldApart (mode : CacheMode) (U : String → Prop) : Prop where
  key : ∀ p q o o', U p → U q → cachekey p o = cachekey q o' → p = q ∧ o = o'
  index : ∀ p q, U p → U q → mode.indexPath p = mode.indexPath q → p = q

structure GoodMem (W : World) (U : String → Prop) (mem : LRU String Info) : Prop where
  cap : 0 < mem.cap
  nodup : mem.map.keys.Nodup
  ok : ∀ k i, mem.map.find k = some i → ∃ p o, U p ∧ cachekey p o = k ∧ W.data p o = .ok i

def GoodIndex (W : World) (U : String → Prop) (mode : CacheMode) (fs : FS) : Prop :=
  ∀ p, U p → ∃ es, Holds fs (mode.indexPath p) es ∧ Agree W p es

/-- A map to be written for a data file. -/
def GoodMap (W : World) (p : String) (m : InfoMap) : Prop := ∃ es, m = noNull es ∧ Agree W p es

/-- What a lookup has found so far. -/
structure GoodFound (W : World) (path : String) (offsets : List Nat) (r : AMap Nat Info) : Prop where
  nodup : r.keys.Nodup
  ok : ∀ o i, r.find o = some i → o ∈ offsets ∧ W.data path o = .ok i

theorem GoodFound.set {W : World} {path : String} {offsets : List Nat} {r : AMap Nat Info}
    (h : GoodFound W path offsets r) {o : Nat} {i : Info} (ho : o ∈ offsets) (hi : W.data path o = .ok i) :
    GoodFound W path offsets (r.set o i) := by
  refine ⟨AMap.nodup_set _ _ _ h.nodup, ?_⟩
  intro o' j hf
  rw [AMap.find_set] at hf
  split at hf
  · rename_i e
    cases hf
    exact ⟨e ▸ ho, e ▸ hi⟩
  · exact h.ok o' j hf

theorem getCachedLoop_ok {W : World} {U : String → Prop} {mode : CacheMode} (hU : ToldApart mode U)
    {path : String} (hp : U path) {offsets : List Nat} (os : List Nat) (hos : ∀ o ∈ os, o ∈ offsets)
    (mem : LRU String Info) (r : AMap Nat Info) (hm : GoodMem W U mem) (hr : GoodFound W path offsets r) :
    ∃ r' mem', getCachedLoop path mem r os = .ok (r', mem') ∧ GoodMem W U mem' ∧
      GoodFound W path offsets r' := by
  induction os generalizing mem r with
  | nil => exact ⟨r, mem, rfl, hm, hr⟩
  | cons o os ih =>
    rw [getCachedLoop]
    have hos' : ∀ x ∈ os, x ∈ offsets := fun x hx => hos x (List.mem_cons_of_mem _ hx)
    cases hf : mem.map.find (cachekey path o) with
    | none =>
      rw [if_neg (by rw [LRU.exists?, hf]; simp)]
      exact ih hos' mem r hm hr
    | some i =>
      rw [if_pos (by rw [LRU.exists?, hf]; rfl), LRU.get, hf]
      simp only
      rw [ok_bind]
      obtain ⟨p', o', hp', hk, hd⟩ := hm.ok _ _ hf
      obtain ⟨rfl, rfl⟩ := hU.key _ _ _ _ hp' hp hk
      exact ih hos' _ _ ⟨hm.cap, hm.nodup, hm.ok⟩ (hr.set (hos _ List.mem_cons_self) hd)

theorem putLoop_ok {W : World} {U : String → Prop} {path : String} (hp : U path) (pairs : List (Nat × Info))
    (hpairs : Agree W path pairs) (mem : LRU String Info) (hm : GoodMem W U mem) :
    ∃ mem', putLoop path mem pairs = .ok mem' ∧ GoodMem W U mem' := by
  induction pairs generalizing mem with
  | nil => exact ⟨mem, rfl, hm⟩
  | cons x pairs ih =>
    obtain ⟨o, i⟩ := x
    rw [putLoop]
    have hx : W.data path o = .ok i := hpairs (o, i) List.mem_cons_self
    have hrest : Agree W path pairs := fun y hy => hpairs y (List.mem_cons_of_mem _ hy)
    have hset : ∀ m : AMap String Info, m.keys.Nodup →
        (∀ k i, m.find k = some i → ∃ p o, U p ∧ cachekey p o = k ∧ W.data p o = .ok i) →
        ∀ l, GoodMem W U { mem with list := l, map := m.set (cachekey path o) i } := by
      intro m hn hok l
      refine ⟨hm.cap, AMap.nodup_set _ _ _ hn, ?_⟩
      intro k j hf
      have hf' : (AMap.set m (cachekey path o) i).find k = some j := hf
      rw [AMap.find_set] at hf'
      split at hf'
      · rename_i e
        cases hf'
        exact ⟨path, o, hp, e, hx⟩
      · exact hok k j hf'
    have : ∃ mem', mem.put (cachekey path o) i = .ok mem' ∧ GoodMem W U mem' := by
      rw [LRU.put]
      cases mem.map.find (cachekey path o) with
      | some _ => exact ⟨_, rfl, hset _ hm.nodup hm.ok _⟩
      | none =>
        simp only
        split
        · rename_i hlen
          cases hl : mem.list.getLast? with
          | none =>
            rw [List.getLast?_eq_none_iff] at hl
            rw [hl] at hlen
            have := hm.cap
            simp at hlen
            omega
          | some last =>
            refine ⟨_, rfl, hset _ (AMap.nodup_erase _ _ hm.nodup) ?_ _⟩
            intro k j hf
            rw [AMap.find_erase _ _ _ hm.nodup] at hf
            split at hf
            · cases hf
            · exact hm.ok k j hf
        · exact ⟨_, rfl, hset _ hm.nodup hm.ok _⟩
    obtain ⟨mem', h1, h2⟩ := this
    rw [h1, ok_bind]
    exact ih hrest mem' h2

/-! ## The lookup between the two locks -/

theorem find_indexGet (m : InfoMap) (os : List Nat) (o : Nat) :
    (indexGet m os).find o = if o ∈ os then indexFind m o else none := by
  have : ∀ (os : List Nat) (r : AMap Nat Info), (∀ k i, r.find k = some i → indexFind m k = some i) →
      AMap.find (os.foldl (fun r o => match indexFind m o with
        | some i => AMap.insert r o i
        | none => r) r) o = match AMap.find r o with
          | some i => some i
          | none => if o ∈ os then indexFind m o else none := by
    intro os
    induction os with
    | nil => intro r _; cases h : AMap.find r o <;> simp [h]
    | cons a os ih =>
      intro r hr
      rw [List.foldl_cons]
      cases hi : indexFind m a with
      | none =>
        simp only
        rw [ih r hr]
        cases AMap.find r o with
        | some j => rfl
        | none =>
          simp only [List.mem_cons]
          by_cases hoa : o = a
          · subst hoa; simp [hi]
          · simp [hoa]
      | some i =>
        simp only
        rw [ih]
        · rw [AMap.find_insert]
          by_cases hao : a = o
          · subst hao
            rw [if_pos rfl]
            cases hf : AMap.find r a with
            | some j => rfl
            | none => simp [hi]
          · rw [if_neg hao]
            cases AMap.find r o with
            | some j => rfl
            | none =>
              have : ¬ o = a := fun e => hao e.symm
              simp [this]
        · intro k j hf
          rw [AMap.find_insert] at hf
          split at hf
          · rename_i e
            subst e
            cases hra : AMap.find r a with
            | some x =>
              rw [hra] at hf
              simp at hf
              rw [← hf]; exact hr a x hra
            | none =>
              rw [hra] at hf
              simp at hf
              rw [← hf]; exact hi
          · exact hr k j hf
  have h := this os [] (by intro k i h; cases h)
  exact h

theorem extractInfos_exn {W : World} (hW : ∀ p o, W.data p o ≠ .error .ub) (path : String) (os : List Nat)
    (e : Fault) (h : extractInfos W path os = .error e) :
    e ≠ .ub ∧ ∃ o ∈ os, ∀ i, W.data path o ≠ .ok i := by
  induction os with
  | nil => cases h
  | cons a os ih =>
    rw [extractInfos, List.mapM_cons] at h
    cases ha : W.data path a with
    | error f =>
      rw [ha, error_bind] at h
      cases h
      exact ⟨fun he => hW path a (by rw [ha, he]), a, List.mem_cons_self, fun i hi => by rw [ha] at hi; cases hi⟩
    | ok i =>
      rw [ha, ok_bind] at h
      cases hr : os.mapM (W.data path) with
      | error f =>
        rw [hr, error_bind] at h
        cases h
        obtain ⟨h1, o, h2, h3⟩ := ih hr
        exact ⟨h1, o, List.mem_cons_of_mem _ h2, h3⟩
      | ok js => rw [hr, ok_bind] at h; cases h

/-- The fold that merges found entries into the result. -/
theorem foldl_set_good {W : World} {path : String} {offsets : List Nat} (pairs : List (Nat × Info))
    (hp : ∀ x ∈ pairs, x.1 ∈ offsets ∧ W.data path x.1 = .ok x.2) (r : AMap Nat Info)
    (hr : GoodFound W path offsets r) :
    GoodFound W path offsets (pairs.foldl (fun r p => r.set p.1 p.2) r) ∧
    ∀ o, (∃ i, r.find o = some i) ∨ o ∈ pairs.map (·.1) →
      ∃ i, AMap.find (pairs.foldl (fun r p => AMap.set r p.1 p.2) r) o = some i := by
  induction pairs generalizing r with
  | nil =>
    refine ⟨hr, ?_⟩
    rintro o (h | h)
    · exact h
    · cases h
  | cons x pairs ih =>
    obtain ⟨ho, hi⟩ := hp x List.mem_cons_self
    obtain ⟨h1, h2⟩ := ih (fun y hy => hp y (List.mem_cons_of_mem _ hy)) _ (hr.set ho hi)
    refine ⟨h1, ?_⟩
    intro o h
    refine h2 o ?_
    rw [AMap.find_set]
    by_cases hx : x.1 = o
    · exact Or.inl ⟨x.2, by rw [if_pos hx]⟩
    · rw [if_neg hx]
      rcases h with h | h
      · exact Or.inl h
      · rw [List.map_cons, List.mem_cons] at h
        exact Or.inr (h.resolve_left (fun e => hx e.symm))

theorem foldl_index_good {W : World} {path : String} {offsets : List Nat} (m : AMap Nat Info)
    (hm : ∀ o i, m.find o = some i → W.data path o = .ok i) (os : List Nat) (hos : ∀ o ∈ os, o ∈ offsets)
    (r : AMap Nat Info) (hr : GoodFound W path offsets r) :
    GoodFound W path offsets (os.foldl (fun r o => match m.find o with
        | some i => r.set o i
        | none => r) r) ∧
    ∀ o, (∃ i, r.find o = some i) ∨ (o ∈ os ∧ ∃ i, m.find o = some i) →
      ∃ i, AMap.find (os.foldl (fun r o => match m.find o with
        | some i => AMap.set r o i
        | none => r) r) o = some i := by
  induction os generalizing r with
  | nil =>
    refine ⟨hr, ?_⟩
    rintro o (h | h)
    · exact h
    · exact absurd h.1 (by simp)
  | cons a os ih =>
    have hos' : ∀ x ∈ os, x ∈ offsets := fun x hx => hos x (List.mem_cons_of_mem _ hx)
    rw [List.foldl_cons]
    cases hf : AMap.find m a with
    | none =>
      simp only
      obtain ⟨h1, h2⟩ := ih hos' r hr
      refine ⟨h1, ?_⟩
      rintro o (h | ⟨ho, i, hi⟩)
      · exact h2 o (Or.inl h)
      · rcases List.mem_cons.mp ho with rfl | ho
        · rw [hf] at hi; cases hi
        · exact h2 o (Or.inr ⟨ho, i, hi⟩)
    | some j =>
      simp only
      obtain ⟨h1, h2⟩ := ih hos' _ (hr.set (hos a List.mem_cons_self) (hm a j hf))
      refine ⟨h1, ?_⟩
      intro o h
      refine h2 o ?_
      rw [AMap.find_set]
      by_cases hx : a = o
      · exact Or.inl ⟨j, by rw [if_pos hx]⟩
      · rw [if_neg hx]
        rcases h with h | ⟨ho, hi⟩
        · exact Or.inl h
        · rcases List.mem_cons.mp ho with rfl | ho
          · exact absurd rfl hx
          · exact Or.inr ⟨ho, hi⟩

/-- The end of `get`: a complete correct map of the right size gives the answer. -/
theorem resolve_end {W : World} {path : String} {offsets : List Nat} (r : AMap Nat Info)
    (hr : GoodFound W path offsets r) (hall : ∀ o ∈ offsets, ∃ i, r.find o = some i) :
    (do
      cassert (decide (r.length = offsets.length))
      offsets.mapM fun o => match r.find o with
        | some i => .ok i
        | none => undef : Res (List Info))
      = if r.length = offsets.length then extractInfos W path offsets else throwExn .assertFailed := by
  by_cases h : r.length = offsets.length
  · rw [if_pos h, cassert, decide_eq_true h, if_pos rfl, ok_bind, extractInfos]
    apply mapM_congr_res
    intro o ho
    obtain ⟨i, hi⟩ := hall o ho
    rw [hi, (hr.ok o i hi).2]
  · rw [if_neg h, cassert, decide_eq_false h, if_neg (by simp)]; rfl

theorem GoodFound.length_eq {W : World} {path : String} {offsets : List Nat} {r : AMap Nat Info}
    (hr : GoodFound W path offsets r) (hall : ∀ o ∈ offsets, ∃ i, r.find o = some i) (hn : offsets.Nodup) :
    r.length = offsets.length := by
  have hk : r.keys.length = r.length := by simp [AMap.keys]
  have h1 := length_le_of_nodup_subset r.keys offsets hr.nodup (by
    intro o ho
    rw [AMap.mem_keys_iff] at ho
    obtain ⟨i, hi⟩ := Option.isSome_iff_exists.mp ho
    exact (hr.ok o i hi).1)
  have h2 := length_le_of_nodup_subset offsets r.keys hn (by
    intro o ho
    rw [AMap.mem_keys_iff]
    obtain ⟨i, hi⟩ := hall o ho
    rw [hi]; rfl)
  omega

theorem extractInfos_of_all {W : World} {path : String} {offsets : List Nat}
    (h : ∀ o ∈ offsets, ∃ i, W.data path o = .ok i) : ∃ is, extractInfos W path offsets = .ok is :=
  extractInfos_total W path offsets h

/-- The middle of a lookup: the right answer, or an exception, which happens only when an offset is
repeated, or some message is not indexed and cannot be extracted now. -/
theorem resolve_ok {W : World} (hW : ∀ p o, W.data p o ≠ .error .ub) (lazy : Bool) (mode : CacheMode)
    (fs : FS) (path : String) (offsets : List Nat) (found : AMap Nat Info) (es : List (Nat × Info))
    (hh : Holds fs (mode.indexPath path) es) (ha : Agree W path es)
    (hf : GoodFound W path offsets found) :
    (∃ is, resolve W lazy mode fs path offsets found = .ok is ∧ extractInfos W path offsets = .ok is) ∨
    (∃ e, resolve W lazy mode fs path offsets found = throwExn e ∧
      ¬ (offsets.Nodup ∧ ∀ o ∈ offsets, (∃ i, found.find o = some i) ∨ (∃ i, AMap.find es o = some i) ∨
          (lazy = true ∧ ∃ i, W.data path o = .ok i))) := by
  rw [resolve]
  -- a complete map ends the lookup
  have fin : ∀ r : AMap Nat Info, GoodFound W path offsets r → (∀ o ∈ offsets, ∃ i, r.find o = some i) →
      (∃ is, (do
        cassert (decide (r.length = offsets.length))
        offsets.mapM fun o => match r.find o with
          | some i => .ok i
          | none => undef : Res (List Info)) = .ok is ∧ extractInfos W path offsets = .ok is) ∨
      (∃ e, (do
        cassert (decide (r.length = offsets.length))
        offsets.mapM fun o => match r.find o with
          | some i => .ok i
          | none => undef : Res (List Info)) = throwExn e ∧
        ¬ (offsets.Nodup ∧ ∀ o ∈ offsets, (∃ i, found.find o = some i) ∨ (∃ i, AMap.find es o = some i) ∨
          (lazy = true ∧ ∃ i, W.data path o = .ok i))) := by
    intro r hr hall
    rw [resolve_end r hr hall]
    by_cases hl : r.length = offsets.length
    · rw [if_pos hl]
      obtain ⟨is, his⟩ := extractInfos_total W path offsets (fun o ho => by
        obtain ⟨i, hi⟩ := hall o ho
        exact ⟨i, (hr.ok o i hi).2⟩)
      exact Or.inl ⟨is, his, his⟩
    · rw [if_neg hl]
      exact Or.inr ⟨_, rfl, fun h => hl (hr.length_eq hall h.1)⟩
  by_cases hlen : found.length = offsets.length
  · rw [if_neg (by simpa using hlen), ok_bind]
    apply fin found hf
    intro o ho
    have hk : found.keys.length = found.length := by simp [AMap.keys]
    have := subset_of_nodup_length found.keys offsets hf.nodup (by
      intro o ho
      rw [AMap.mem_keys_iff] at ho
      obtain ⟨i, hi⟩ := Option.isSome_iff_exists.mp ho
      exact (hf.ok o i hi).1) (by omega) o ho
    rw [AMap.mem_keys_iff] at this
    exact Option.isSome_iff_exists.mp this
  · rw [if_pos hlen, hh.load, ok_bind]
    generalize hfo : (offsets.filter fun o => (found.find o).isNone) = fo
    have hfo_mem : ∀ o, o ∈ fo ↔ o ∈ offsets ∧ found.find o = none := by
      intro o; rw [← hfo, List.mem_filter]; simp
    have hidx : ∀ o, (indexGet (insertAll [] es) fo).find o = if o ∈ fo then AMap.find es o else none := by
      intro o
      rw [find_indexGet, indexFind_insertAll]; rfl
    obtain ⟨hg, hc⟩ := foldl_index_good (W := W) (path := path) (offsets := offsets)
      (indexGet (insertAll [] es) fo) (by
        intro o i hi
        rw [hidx] at hi
        split at hi
        · exact ha.find hi
        · cases hi) fo (fun o ho => ((hfo_mem o).mp ho).1) found hf
    simp only
    generalize hmi : (fo.filter fun o => ((indexGet (insertAll [] es) fo).find o).isNone) = missing
    have hmi_mem : ∀ o, o ∈ missing ↔ o ∈ fo ∧ AMap.find es o = none := by
      intro o
      rw [← hmi, List.mem_filter, hidx]
      by_cases h : o ∈ fo
      · simp [h]
      · simp [h]
    have hcover : ∀ o ∈ offsets, o ∉ missing → (∃ i, found.find o = some i) ∨
        (o ∈ fo ∧ ∃ i, (indexGet (insertAll [] es) fo).find o = some i) := by
      intro o ho hnm
      cases hfound : found.find o with
      | some i => exact Or.inl ⟨i, rfl⟩
      | none =>
        have hof := (hfo_mem o).mpr ⟨ho, hfound⟩
        refine Or.inr ⟨hof, ?_⟩
        rw [hidx, if_pos hof]
        cases hes : AMap.find es o with
        | some i => exact ⟨i, rfl⟩
        | none => exact absurd ((hmi_mem o).mpr ⟨hof, hes⟩) hnm
    have hbad : missing ≠ [] → (¬ ∀ o ∈ missing, lazy = true ∧ ∃ i, W.data path o = .ok i) →
        ¬ (offsets.Nodup ∧ ∀ o ∈ offsets, (∃ i, found.find o = some i) ∨ (∃ i, AMap.find es o = some i) ∨
          (lazy = true ∧ ∃ i, W.data path o = .ok i)) := by
      intro _ hb h
      apply hb
      intro o ho
      obtain ⟨hof, hes⟩ := (hmi_mem o).mp ho
      obtain ⟨hoo, hfound⟩ := (hfo_mem o).mp hof
      rcases h.2 o hoo with ⟨i, hi⟩ | ⟨i, hi⟩ | h
      · rw [hfound] at hi; cases hi
      · rw [hes] at hi; cases hi
      · exact h
    by_cases hm0 : missing = []
    · rw [if_pos hm0, ok_bind]
      apply fin _ hg
      intro o ho
      exact hc o (hcover o ho (by rw [hm0]; simp))
    · rw [if_neg hm0]
      by_cases hlz : lazy = false
      · rw [if_pos hlz]
        refine Or.inr ⟨.jumpInfoDisabled, rfl, hbad hm0 ?_⟩
        intro h
        obtain ⟨o, ho⟩ := List.exists_mem_of_ne_nil _ hm0
        have := (h o ho).1
        rw [hlz] at this; cases this
      · rw [if_neg hlz]
        cases hx : extractInfos W path missing with
        | error e =>
          obtain ⟨hne, o, ho, hno⟩ := extractInfos_exn hW path missing e hx
          rw [error_bind, error_bind]
          cases e with
          | ub => exact absurd rfl hne
          | exn e =>
            refine Or.inr ⟨e, rfl, hbad hm0 ?_⟩
            intro h
            obtain ⟨i, hi⟩ := (h o ho).2
            exact hno i hi
        | ok is =>
          rw [ok_bind, ok_bind]
          obtain ⟨hl, -, -⟩ := extractInfos_inv W path missing is hx
          obtain ⟨hg2, hc2⟩ := foldl_set_good (W := W) (path := path) (offsets := offsets)
            (missing.zip is) (by
              intro x hxm
              refine ⟨?_, extractInfos_zip hx x hxm⟩
              have : x.1 ∈ missing := (List.of_mem_zip hxm).1
              exact ((hfo_mem _).mp ((hmi_mem _).mp this).1).1) _ hg
          apply fin _ hg2
          intro o ho
          apply hc2
          by_cases hom : o ∈ missing
          · right
            have := keys_zip hl
            rw [AMap.keys] at this
            rw [this]; exact hom
          · left
            exact hc o (hcover o ho hom)

/-! ## The invariant -/

/-- The data files grew: every message that could be read can still be read, with the same metadata. -/
def Grown (W W' : World) : Prop := ∀ p o i, W.data p o = .ok i → W'.data p o = .ok i

/-- Reading a data file is never undefined (eccodes, outside the model). -/
structure World.Defined (W : World) : Prop where
  data : ∀ p o, W.data p o ≠ .error .ub
  offsets : ∀ p, W.offsetsOf p ≠ .error .ub

structure Good (U : String → Prop) (s : Sys) : Prop where
  defined : s.W.Defined
  sep : ToldApart s.c.mode U
  mem : GoodMem s.W U s.c.mem
  index : GoodIndex s.W U s.c.mode s.c.fs
  staged : ∀ x ∈ s.c.staged, ∃ p, U p ∧ x.1 = s.c.mode.indexPath p ∧ GoodMap s.W p x.2
  lookups : ∀ l ∈ s.lookups, U l.path ∧ GoodFound s.W l.path l.offsets l.found
  scans : ∀ x ∈ s.scans, U x.1 ∧ ∀ n m, x.2 = some (n, m) → GoodMap s.W x.1 m
  answers : ∀ a ∈ s.answers, ∀ is, a.result = .ok is → extractInfos s.W a.path a.offsets = .ok is

/-- Events concern files in use; data files only grow. -/
def Allowed (U : String → Prop) (W : World) : CEv → Prop
  | .lookup p _ => U p
  | .scan p _ => U p
  | .scanFile p _ => U p
  | .insert p _ => U p
  | .elsewhere _ ws => ∀ x ∈ ws, U x.1
  | .grow W' => Grown W W' ∧ W'.Defined
  | _ => True

theorem GoodIndex.put {W : World} {U : String → Prop} {mode : CacheMode} (hU : ToldApart mode U) {fs : FS}
    (h : GoodIndex W U mode fs) {p : String} (hp : U p) {fs' : FS} {es : List (Nat × Info)}
    (he : Holds fs' (mode.indexPath p) es) (ha : Agree W p es)
    (ho : ∀ q, q ≠ mode.indexPath p → fs'.find q = fs.find q) : GoodIndex W U mode fs' := by
  intro q hq
  by_cases hpq : q = p
  · subst hpq; exact ⟨es, he, ha⟩
  · obtain ⟨es', he', ha'⟩ := h q hq
    refine ⟨es', ?_, ha'⟩
    unfold Holds
    rw [ho _ (fun e => hpq (hU.index q p hq hp e))]
    exact he'

theorem writeIndex_good {W : World} {U : String → Prop} {mode : CacheMode} (hU : ToldApart mode U) {fs : FS}
    (h : GoodIndex W U mode fs) {p : String} (hp : U p) {m : InfoMap} (hm : GoodMap W p m) :
    ∃ fs', writeIndex fs (mode.indexPath p) m = .ok fs' ∧ GoodIndex W U mode fs' := by
  obtain ⟨es, rfl, ha⟩ := hm
  rw [writeIndex, encIndex_ok, ok_bind]
  refine ⟨_, rfl, h.put hU hp (es := es) (Or.inr (by rw [AMap.find_set, if_pos rfl])) ha ?_⟩
  intro q hq
  rw [AMap.find_set, if_neg (fun e => hq e.symm)]

theorem appendIndex_good {W : World} {U : String → Prop} {mode : CacheMode} (hU : ToldApart mode U) {fs : FS}
    (h : GoodIndex W U mode fs) {p : String} (hp : U p) {m : InfoMap} (hm : GoodMap W p m) :
    ∃ fs', appendIndex fs (mode.indexPath p) m = .ok fs' ∧ GoodIndex W U mode fs' := by
  obtain ⟨es, rfl, ha⟩ := hm
  obtain ⟨old, ho, hao⟩ := h p hp
  obtain ⟨fs', h1, h2, h3⟩ := ho.append es
  refine ⟨fs', h1, h.put hU hp h2 ?_ h3⟩
  intro x hx
  rcases List.mem_append.mp hx with hx | hx
  · exact hao x hx
  · exact ha x hx

theorem flushLoop_good {W : World} {U : String → Prop} {mode : CacheMode} (hU : ToldApart mode U)
    (append : Bool) (st : AMap String InfoMap)
    (hst : ∀ x ∈ st, ∃ p, U p ∧ x.1 = mode.indexPath p ∧ GoodMap W p x.2) (fs : FS)
    (h : GoodIndex W U mode fs) :
    ∃ fs', flushLoop append fs st = .ok fs' ∧ GoodIndex W U mode fs' := by
  induction st generalizing fs with
  | nil => exact ⟨fs, rfl, h⟩
  | cons x st ih =>
    obtain ⟨f, m⟩ := x
    obtain ⟨p, hp, rfl, hm⟩ := hst _ List.mem_cons_self
    have : ∃ fs', flushIndex append fs (mode.indexPath p) m = .ok fs' ∧ GoodIndex W U mode fs' := by
      rw [flushIndex]
      split
      · exact appendIndex_good hU h hp hm
      · exact writeIndex_good hU h hp hm
    obtain ⟨fs', h1, h2⟩ := this
    rw [flushLoop, h1, ok_bind]
    exact ih (fun y hy => hst y (List.mem_cons_of_mem _ hy)) fs' h2

theorem writtenElsewhere_good {W : World} {U : String → Prop} {mode : CacheMode} (hU : ToldApart mode U)
    (append : Bool) (ws : List (String × List Nat)) (hws : ∀ x ∈ ws, U x.1) (fs : FS) (h : GoodIndex W U mode fs) :
    ∃ fs', writtenElsewhere W mode append fs ws = .ok fs' ∧ GoodIndex W U mode fs' := by
  induction ws generalizing fs with
  | nil => exact ⟨fs, rfl, h⟩
  | cons x ws ih =>
    obtain ⟨p, os⟩ := x
    have hp : U p := hws (p, os) List.mem_cons_self
    have hrest : ∀ y ∈ ws, U y.1 := fun y hy => hws y (List.mem_cons_of_mem _ hy)
    rw [writtenElsewhere]
    cases hx : extractInfos W p os with
    | error e => exact ih hrest fs h
    | ok is =>
      have : ∃ fs', flushIndex append fs (mode.indexPath p) ((os.zip is).map fun x => (x.1, some x.2)) = .ok fs' ∧
          GoodIndex W U mode fs' := by
        have hm : GoodMap W p (noNull (os.zip is)) := ⟨_, rfl, extractInfos_zip hx⟩
        rw [flushIndex]
        split
        · exact appendIndex_good hU h hp hm
        · exact writeIndex_good hU h hp hm
      obtain ⟨fs', h1, h2⟩ := this
      simp only
      rw [h1, ok_bind]
      exact ih hrest fs' h2

theorem loaded_good {W : World} {U : String → Prop} {mode : CacheMode} {fs : FS}
    (h : GoodIndex W U mode fs) {p : String} (hp : U p) :
    ∃ es, loadIndex fs (mode.indexPath p) = .ok (noNull es) ∧ Agree W p es := by
  obtain ⟨es, he, ha⟩ := h p hp
  refine ⟨addAll [] es, ?_, Agree.addAll (by intro x hx; cases hx) ha⟩
  rw [he.load, ← insertAll_noNull]; rfl

theorem scanPlan_good {W : World} (hW : W.Defined) {U : String → Prop} (c : Cache)
    (h : GoodIndex W U c.mode c.fs) {p : String} (hp : U p) (os : List Nat) :
    c.scanPlan W p os ≠ undef ∧
    ∀ n m, c.scanPlan W p os = .ok (some (n, m)) → GoodMap W p m := by
  obtain ⟨es, hl, ha⟩ := loaded_good h hp
  rw [Cache.scanPlan, hl, ok_bind]
  simp only
  split
  · exact ⟨(fun e => by cases e), fun n m e => by cases e⟩
  · cases hx : extractInfos W p _ with
    | error e =>
      have := (extractInfos_exn hW.data p _ e hx).1
      rw [error_bind]
      refine ⟨fun he => ?_, fun n m e => by cases e⟩
      cases he; exact this rfl
    | ok is =>
      rw [ok_bind]
      refine ⟨(fun e => by cases e), fun n m e => ?_⟩
      cases e
      exact ⟨_, insertAll_noNull _ _, ha.addAll (extractInfos_zip hx)⟩

theorem scanFilePlan_good {W : World} (hW : W.Defined) {U : String → Prop} (c : Cache)
    (h : GoodIndex W U c.mode c.fs) {p : String} (hp : U p) (merge : Bool) :
    c.scanFilePlan W p merge ≠ undef ∧
    ∀ n m, c.scanFilePlan W p merge = .ok (some (n, m)) → GoodMap W p m := by
  rw [Cache.scanFilePlan]
  have hoff : ∀ e, W.offsetsOf p = .error e → e ≠ .ub := fun e he hu => hW.offsets p (by rw [he, hu])
  split
  · cases ho : W.offsetsOf p with
    | error e =>
      have := hoff e ho
      rw [error_bind]
      refine ⟨fun he => ?_, fun n m e => by cases e⟩
      cases he; exact this rfl
    | ok os => rw [ok_bind]; exact scanPlan_good hW c h hp os
  · obtain ⟨es, hl, ha⟩ := loaded_good h hp
    rw [hl, ok_bind]
    cases ho : W.offsetsOf p with
    | error e =>
      have := hoff e ho
      rw [error_bind]
      refine ⟨fun he => ?_, fun n m e => by cases e⟩
      cases he; exact this rfl
    | ok os =>
      rw [ok_bind]
      cases hx : extractInfos W p os with
      | error e =>
        have := (extractInfos_exn hW.data p _ e hx).1
        rw [error_bind]
        refine ⟨fun he => ?_, fun n m e => by cases e⟩
        cases he; exact this rfl
      | ok is =>
        rw [ok_bind]
        refine ⟨(fun e => by cases e), fun n m e => ?_⟩
        cases e
        exact ⟨_, insertAll_noNull _ _, ha.addAll (extractInfos_zip hx)⟩

theorem Agree.grow {W W' : World} (hg : Grown W W') {p : String} {es : List (Nat × Info)}
    (h : Agree W p es) : Agree W' p es := fun x hx => hg _ _ _ (h x hx)

theorem GoodFound.grow {W W' : World} (hg : Grown W W') {p : String} {os : List Nat} {r : AMap Nat Info}
    (h : GoodFound W p os r) : GoodFound W' p os r :=
  ⟨h.nodup, fun o i hf => ⟨(h.ok o i hf).1, hg _ _ _ (h.ok o i hf).2⟩⟩

theorem extractInfos_grow {W W' : World} (hg : Grown W W') {p : String} {os : List Nat} {is : List Info}
    (h : extractInfos W p os = .ok is) : extractInfos W' p os = .ok is := by
  rw [← h]
  apply mapM_congr_res
  intro o ho
  obtain ⟨i, hi⟩ := (extractInfos_inv W p os is h).2.1 o ho
  rw [hi, hg _ _ _ hi]

theorem Good.planned {U : String → Prop} {s : Sys} (h : Good U s) {p : String} (hp : U p)
    {r : Res (Option (Nat × InfoMap))} (hr : r ≠ undef)
    (hm : ∀ n m, r = .ok (some (n, m)) → GoodMap s.W p m) :
    ∃ s', s.planned p r = .ok s' ∧ Good U s' := by
  cases r with
  | error e =>
    cases e with
    | ub => exact absurd rfl hr
    | exn e => exact ⟨s, rfl, h⟩
  | ok pl =>
    refine ⟨_, rfl, { h with scans := ?_ }⟩
    intro x hx
    rcases List.mem_append.mp hx with hx | hx
    · exact h.scans x hx
    · rw [List.mem_singleton] at hx
      subst hx
      exact ⟨hp, fun n m e => hm n m (by rw [← e])⟩

theorem Good.step {U : String → Prop} {s : Sys} (h : Good U s) (e : CEv) (ha : Allowed U s.W e) :
    ∃ s', s.step e = .ok s' ∧ Good U s' := by
  cases e with
  | lookup p os =>
    obtain ⟨r, mem, h1, h2, h3⟩ := getCachedLoop_ok h.sep ha os (fun _ ho => ho) s.c.mem []
      h.mem ⟨List.nodup_nil, fun o i hf => by cases hf⟩
    rw [Sys.step, getCached, h1, ok_bind, ok_bind]
    refine ⟨_, rfl, { h with mem := h2, lookups := ?_ }⟩
    intro l hl
    rcases List.mem_append.mp hl with hl | hl
    · exact h.lookups l hl
    · rw [List.mem_singleton] at hl
      subst hl
      exact ⟨ha, h3⟩
  | answer k =>
    rw [Sys.step]
    cases hk : s.lookups[k]? with
    | none => exact ⟨s, rfl, h⟩
    | some l =>
      obtain ⟨hp, hf⟩ := h.lookups l (List.mem_of_getElem? hk)
      obtain ⟨es, he, hag⟩ := h.index l.path hp
      have hlk : ∀ x ∈ s.lookups.eraseIdx k, U x.path ∧ GoodFound s.W x.path x.offsets x.found :=
        fun x hx => h.lookups x (List.mem_of_mem_eraseIdx hx)
      simp only
      rw [Sys.finish]
      rcases resolve_ok h.defined.data s.c.lazy s.c.mode s.c.fs l.path l.offsets l.found es he hag hf with
        ⟨is, h1, h2⟩ | ⟨e, h1, -⟩
      · rw [h1]
        obtain ⟨mem, h3, h4⟩ := putLoop_ok hp _ (extractInfos_zip h2) s.c.mem h.mem
        simp only
        rw [putCache, h3, ok_bind, ok_bind]
        refine ⟨_, rfl, { h with mem := h4, lookups := hlk, answers := ?_ }⟩
        intro a haa js hjs
        rcases List.mem_append.mp haa with haa | haa
        · exact h.answers a haa js hjs
        · rw [List.mem_singleton] at haa
          subst haa
          cases hjs
          exact h2
      · rw [h1]
        refine ⟨_, rfl, { h with lookups := hlk, answers := ?_ }⟩
        intro a haa js hjs
        rcases List.mem_append.mp haa with haa | haa
        · exact h.answers a haa js hjs
        · rw [List.mem_singleton] at haa
          subst haa
          cases hjs
  | scan p os =>
    obtain ⟨h1, h2⟩ := scanPlan_good h.defined s.c h.index ha os
    exact h.planned ha h1 h2
  | scanFile p merge =>
    obtain ⟨h1, h2⟩ := scanFilePlan_good h.defined s.c h.index ha merge
    exact h.planned ha h1 h2
  | commit k =>
    rw [Sys.step]
    cases hk : s.scans[k]? with
    | none => exact ⟨s, rfl, h⟩
    | some x =>
      obtain ⟨p, pl⟩ := x
      obtain ⟨hp, hm⟩ := h.scans _ (List.mem_of_getElem? hk)
      have hsc : ∀ x ∈ s.scans.eraseIdx k, U x.1 ∧ ∀ n m, x.2 = some (n, m) → GoodMap s.W x.1 m :=
        fun x hx => h.scans x (List.mem_of_mem_eraseIdx hx)
      simp only
      cases pl with
      | none =>
        rw [Cache.scanCommit, ok_bind]
        exact ⟨_, rfl, { h with scans := hsc }⟩
      | some y =>
        obtain ⟨n, m⟩ := y
        obtain ⟨fs', h1, h2⟩ := writeIndex_good h.sep h.index hp (hm n m rfl)
        rw [Cache.scanCommit, h1, ok_bind, ok_bind]
        exact ⟨_, rfl, { h with index := h2, scans := hsc }⟩
  | insert p o =>
    rw [Sys.step]
    cases hd : s.W.data p o with
    | error e => exact ⟨s, rfl, h⟩
    | ok i =>
      refine ⟨_, rfl, ?_⟩
      have key : ∀ m, GoodMap s.W p m → Good U { s with c := { s.c with
          staged := s.c.staged.set (s.c.mode.indexPath p) (AMap.insert m o (some i)) } } := by
        rintro m ⟨es, rfl, hag⟩
        refine { h with staged := ?_ }
        intro x hx
        rcases mem_set_cases _ _ _ _ hx with hx | rfl
        · exact h.staged x hx
        · exact ⟨p, ha, rfl, _, insert_noNull es o i, hag.insert hd⟩
      rw [Cache.insert]
      cases hs : s.c.staged.find (s.c.mode.indexPath p) with
      | none => exact key [] ⟨[], rfl, by intro x hx; cases hx⟩
      | some m =>
        refine key m ?_
        have hmem : (s.c.mode.indexPath p, m) ∈ s.c.staged := by
          have : ∀ l : AMap String InfoMap, l.find (s.c.mode.indexPath p) = some m →
              (s.c.mode.indexPath p, m) ∈ l := by
            intro l
            induction l with
            | nil => intro hf; cases hf
            | cons y l ih =>
              obtain ⟨a, b⟩ := y
              intro hf
              rw [AMap.find] at hf
              split at hf
              · rename_i e
                cases hf
                rw [e]; exact List.mem_cons_self
              · exact List.mem_cons_of_mem _ (ih hf)
          exact this _ hs
        obtain ⟨q, hq, he, hm⟩ := h.staged _ hmem
        rw [h.sep.index p q ha hq he]
        exact hm
  | flush append =>
    obtain ⟨fs', h1, h2⟩ := flushLoop_good h.sep append s.c.staged h.staged s.c.fs h.index
    rw [Sys.step, Cache.flush, h1, ok_bind, ok_bind]
    exact ⟨_, rfl, { h with index := h2, staged := by intro x hx; cases hx }⟩
  | clear =>
    exact ⟨_, rfl, { h with mem := ⟨h.mem.cap, List.nodup_nil, fun k i hf => by cases hf⟩ }⟩
  | elsewhere append ws =>
    obtain ⟨fs', h1, h2⟩ := writtenElsewhere_good h.sep append ws ha s.c.fs h.index
    rw [Sys.step, h1, ok_bind]
    exact ⟨_, rfl, { h with index := h2 }⟩
  | grow W' =>
    obtain ⟨hg, hdef⟩ := ha
    refine ⟨_, rfl, ⟨hdef, h.sep, ⟨h.mem.cap, h.mem.nodup, ?_⟩, ?_, ?_, ?_, ?_, ?_⟩⟩
    · intro k i hf
      obtain ⟨p, o, h1, h2, h3⟩ := h.mem.ok k i hf
      exact ⟨p, o, h1, h2, hg _ _ _ h3⟩
    · intro p hp
      obtain ⟨es, h1, h2⟩ := h.index p hp
      exact ⟨es, h1, h2.grow hg⟩
    · intro x hx
      obtain ⟨p, h1, h2, es, h3, h4⟩ := h.staged x hx
      exact ⟨p, h1, h2, es, h3, h4.grow hg⟩
    · intro l hl
      exact ⟨(h.lookups l hl).1, (h.lookups l hl).2.grow hg⟩
    · intro x hx
      refine ⟨(h.scans x hx).1, fun n m e => ?_⟩
      obtain ⟨es, h3, h4⟩ := (h.scans x hx).2 n m e
      exact ⟨es, h3, h4.grow hg⟩
    · intro a haa is his
      exact extractInfos_grow hg (h.answers a haa is his)

/-- The data files after an event. -/
def CEv.world (W : World) : CEv → World
  | .grow W' => W'
  | _ => W

/-- Every event is allowed in the world it happens in. -/
def AllowedRun (U : String → Prop) : World → List CEv → Prop
  | _, [] => True
  | W, e :: es => Allowed U W e ∧ AllowedRun U (e.world W) es

theorem Sys.step_world {s s' : Sys} {e : CEv} (h : s.step e = .ok s') :
    s'.W = e.world s.W := by
  have bind_inv : ∀ {α β : Type} {x : Res α} {f : α → Res β} {b : β}, (x >>= f) = .ok b →
      ∃ a, x = .ok a ∧ f a = .ok b := by
    intro α β x f b hx
    cases x with
    | error e => cases hx
    | ok a => exact ⟨a, rfl, hx⟩
  have pl : ∀ p r, s.planned p r = .ok s' → s'.W = s.W := by
    intro p r hr
    cases r with
    | ok x => cases hr; rfl
    | error f => cases f with
      | ub => cases hr
      | exn e => cases hr; rfl
  cases e with
  | lookup p os =>
    obtain ⟨a, -, h2⟩ := bind_inv h
    cases h2; rfl
  | answer k =>
    rw [Sys.step] at h
    split at h
    · cases h; rfl
    · rw [Sys.finish] at h
      split at h
      · obtain ⟨a, -, h2⟩ := bind_inv h
        cases h2; rfl
      · cases h
      · cases h; rfl
  | scan p os => exact pl _ _ h
  | scanFile p m => exact pl _ _ h
  | commit k =>
    rw [Sys.step] at h
    split at h
    · cases h; rfl
    · obtain ⟨a, -, h2⟩ := bind_inv h
      cases h2; rfl
  | insert p o =>
    rw [Sys.step] at h
    split at h <;> (cases h; rfl)
  | flush a =>
    obtain ⟨a, -, h2⟩ := bind_inv h
    cases h2; rfl
  | clear => cases h; rfl
  | elsewhere a ws =>
    obtain ⟨a, -, h2⟩ := bind_inv h
    cases h2; rfl
  | grow W' => cases h; rfl

theorem Good.run {U : String → Prop} (es : List CEv) {s : Sys} (h : Good U s) (ha : AllowedRun U s.W es) :
    ∃ s', s.run es = .ok s' ∧ Good U s' := by
  induction es generalizing s with
  | nil => exact ⟨s, rfl, h⟩
  | cons e es ih =>
    obtain ⟨s1, h1, h2⟩ := h.step e ha.1
    rw [Sys.run, h1, ok_bind]
    refine ih h2 ?_
    rw [Sys.step_world h1]
    exact ha.2

theorem Good.start {U : String → Prop} {W : World} {mode : CacheMode} {lazy : Bool} {cap : Nat} {fs : FS}
    (hW : W.Defined) (hU : ToldApart mode U) (hcap : 0 < cap) (hi : GoodIndex W U mode fs) :
    Good U (Sys.start W mode lazy cap fs) where
  defined := hW
  sep := hU
  mem := ⟨hcap, List.nodup_nil, fun k i hf => by cases hf⟩
  index := hi
  staged := by intro x hx; cases hx
  lookups := by intro x hx; cases hx
  scans := by intro x hx; cases hx
  answers := by intro x hx; cases hx

/-- C15.  Threads look up metadata, scan files, insert and flush in any interleaving, while data files grow.
Starting from index files that agree with the data, nothing undefined happens and every lookup that answers
gives, in the order asked, the metadata of the messages asked for.  `ToldApart`: the file names in use are
told apart by the cache's keys. -/
theorem C15_lookup_partial (U : String → Prop) (W : World) (mode : CacheMode) (lazy : Bool) (cap : Nat)
    (fs : FS) (hW : W.Defined) (hU : ToldApart mode U) (hcap : 0 < cap) (hi : GoodIndex W U mode fs)
    (es : List CEv) (ha : AllowedRun U W es) :
    ∃ s, (Sys.start W mode lazy cap fs).run es = .ok s ∧
      ∀ a ∈ s.answers, ∀ is, a.result = .ok is → a.offsets.mapM (s.W.data a.path) = .ok is := by
  obtain ⟨s, h1, h2⟩ := (Good.start (lazy := lazy) hW hU hcap hi).run es ha
  exact ⟨s, h1, h2.answers⟩

theorem lookup_answers (U : String → Prop) (s : Sys) (h : Good U s) (path : String) (hp : U path)
    (offsets : List Nat) (hn : offsets.Nodup)
    (hd : ∀ o ∈ offsets, (∃ i, s.c.indexed path o = some i) ∨ (s.c.lazy = true ∧ ∃ i, s.W.data path o = .ok i)) :
    ∃ is c', s.c.get s.W path offsets = .ok (is, c') ∧ offsets.mapM (s.W.data path) = .ok is := by
  obtain ⟨r, mem, h1, h2, h3⟩ := getCachedLoop_ok h.sep hp offsets (fun _ ho => ho) s.c.mem []
      h.mem ⟨List.nodup_nil, fun o i hf => by cases hf⟩
  obtain ⟨es, he, hag⟩ := h.index path hp
  rw [Cache.get, getCached, h1, ok_bind, ok_bind]
  simp only
  rcases resolve_ok h.defined.data s.c.lazy s.c.mode s.c.fs path offsets r es he hag h3 with
    ⟨is, h4, h5⟩ | ⟨e, -, h5⟩
  · obtain ⟨mem', h6, -⟩ := putLoop_ok hp _ (extractInfos_zip h5) mem h2
    rw [h4, ok_bind, putCache]
    simp only
    rw [h6, ok_bind, ok_bind]
    exact ⟨is, _, rfl, h5⟩
  · refine absurd ⟨hn, ?_⟩ h5
    intro o ho
    rcases hd o ho with ⟨i, hi⟩ | hl
    · refine Or.inr (Or.inl ⟨i, ?_⟩)
      rw [Cache.indexed, he.load] at hi
      simp only at hi
      rw [indexFind_insertAll] at hi
      exact hi
    · exact Or.inr (Or.inr hl)

/-- C15.  In any state so reached, a lookup of distinct offsets answers as soon as each message is in the
index or (with on-the-fly extraction) can be read; and the answer is right. -/
theorem C15_lookup_answers_partial (U : String → Prop) (W : World) (mode : CacheMode) (lazy : Bool)
    (cap : Nat) (fs : FS) (hW : W.Defined) (hU : ToldApart mode U) (hcap : 0 < cap)
    (hi : GoodIndex W U mode fs) (es : List CEv) (ha : AllowedRun U W es) (path : String) (hp : U path)
    (offsets : List Nat) (hn : offsets.Nodup) :
    ∃ s, (Sys.start W mode lazy cap fs).run es = .ok s ∧
      ((∀ o ∈ offsets, (∃ i, s.c.indexed path o = some i) ∨
          (s.c.lazy = true ∧ ∃ i, s.W.data path o = .ok i)) →
        ∃ is c', s.c.get s.W path offsets = .ok (is, c') ∧ offsets.mapM (s.W.data path) = .ok is) := by
  obtain ⟨s, h1, h2⟩ := (Good.start (lazy := lazy) hW hU hcap hi).run es ha
  exact ⟨s, h1, lookup_answers U s h2 path hp offsets hn⟩

/-! ## When file names are told apart -/

theorem takeWhile_all {α : Type} (p : α → Bool) (l : List α) : ∀ x ∈ l.takeWhile p, p x = true := by
  intro x hx
  induction l with
  | nil => cases hx
  | cons a l ih =>
    rw [List.takeWhile_cons] at hx
    split at hx
    · rename_i h
      rcases List.mem_cons.mp hx with rfl | hx
      · exact h
      · exact ih hx
    · cases hx

/-- Two strings ending in digits: if what precedes the digits does not end in a digit, both parts are
determined. -/
theorem split_digits (a b d e : List Char) (hd : ∀ c ∈ d, c.isDigit = true) (he : ∀ c ∈ e, c.isDigit = true)
    (ha : ∀ c, a.getLast? = some c → c.isDigit = false) (hb : ∀ c, b.getLast? = some c → c.isDigit = false)
    (h : a ++ d = b ++ e) : a = b ∧ d = e := by
  have key : ∀ x y : List Char, (∀ c ∈ y, c.isDigit = true) → (∀ c, x.getLast? = some c → c.isDigit = false) →
      (x ++ y).reverse.takeWhile Char.isDigit = y.reverse := by
    intro x y hy hx
    rw [List.reverse_append, List.takeWhile_append_of_pos (by
      intro c hc; exact hy c (List.mem_reverse.mp hc))]
    have : x.reverse.takeWhile Char.isDigit = [] := by
      cases hr : x.reverse with
      | nil => rfl
      | cons c r =>
        have hc : x.getLast? = some c := by
          rw [List.getLast?_eq_head?_reverse, hr]; rfl
        rw [List.takeWhile_cons, hx c hc]; rfl
    rw [this, List.append_nil]
  have h1 := key a d hd ha
  rw [h, key b e he hb] at h1
  have hde : d = e := by
    have := congrArg List.reverse h1
    simpa using this.symm
  subst hde
  exact ⟨List.append_cancel_right h, rfl⟩

/-- Files with different base names that do not end in a digit are told apart, as are their messages
(`.data`, the FDB's extension, does not). -/
theorem C15_separated (mode : CacheMode) (U : String → Prop)
    (hb : ∀ p q, U p → U q → baseName p = baseName q → p = q)
    (hdig : ∀ p, U p → ∀ c, (baseName p).toList.getLast? = some c → c.isDigit = false) :
    ToldApart mode U where
  key := by
    intro p q o o' hp hq h
    have h' : (baseName p).toList ++ (toString o).toList = (baseName q).toList ++ (toString o').toList := by
      have := congrArg String.toList h
      simpa [cachekey, String.toList_append] using this
    obtain ⟨h1, h2⟩ := split_digits _ _ _ _ (toString_nat_digits o) (toString_nat_digits o')
      (hdig p hp) (hdig q hq) h'
    exact ⟨hb p q hp hq (String.toList_inj.mp h1), toString_nat_inj o o' h2⟩
  index := by
    intro p q hp hq h
    cases mode with
    | shadow =>
      have := congrArg String.toList h
      simp only [CacheMode.indexPath, String.toList_append] at this
      exact String.toList_inj.mp (List.append_cancel_right this)
    | directory d =>
      have := congrArg String.toList h
      simp only [CacheMode.indexPath, String.toList_append] at this
      exact hb p q hp hq (String.toList_inj.mp (List.append_cancel_left (List.append_cancel_right this)))

/-! ## Where the property fails -/

/-- Two data files of the same base name in different directories, each with one message at offset 0. -/
def twoFiles : World where
  data path o := if o = 0 then
      (if path = "/fdb/x/a.data" then .ok (.simple sampleBase)
       else if path = "/fdb/y/a.data" then .ok (.unsupported sampleBase) else throwExn .readError)
    else throwExn .userError
  offsetsOf _ := .ok [0]

def getTwice (W : World) (p : String) (o : Nat) (q : String) (o' : Nat) : Res (List Info) := do
  let c : Cache := { mode := .shadow, lazy := true, mem := .empty 16, staged := [], fs := [] }
  let (_, c) ← c.get W p [o]
  let (is, _) ← c.get W q [o']
  .ok is

/-- C15 fails: files in different directories that have the same base name share cache entries. -/
theorem C15_same_basename_confused :
    getTwice twoFiles "/fdb/x/a.data" 0 "/fdb/y/a.data" 0 = .ok [.simple sampleBase] ∧
    twoFiles.data "/fdb/y/a.data" 0 = .ok (.unsupported sampleBase) := by
  constructor <;> decide +kernel

def digitFiles : World where
  data path o := if path = "/fdb/f1" ∧ o = 2 then .ok (.simple sampleBase)
    else if path = "/fdb/f" ∧ o = 12 then .ok (.unsupported sampleBase) else throwExn .readError
  offsetsOf _ := .ok []

/-- C15 fails: message 2 of file `f1` and message 12 of file `f` share a cache entry. -/
theorem C15_digits_confused :
    getTwice digitFiles "/fdb/f1" 2 "/fdb/f" 12 = .ok [.simple sampleBase] ∧
    digitFiles.data "/fdb/f" 12 = .ok (.unsupported sampleBase) := by
  constructor <;> decide +kernel

/-- C15: asking for the same offset twice in one lookup fails. -/
theorem C15_repeated_offset_rejected :
    (match ({ mode := .shadow, lazy := true, mem := .empty 16, staged := [], fs := [] } : Cache).get
        twoFiles "/fdb/x/a.data" [0, 0] with
      | .error f => decide (f = .exn .assertFailed)
      | .ok _ => false) = true := by decide +kernel

/-! ## The hypotheses are met -/

def oneFile (p : String) : Prop := p = "/fdb/a.data"

def oneFileWorld : World where
  data path o := if path = "/fdb/a.data" ∧ o % 204 = 0 then
      .ok (.simple { sampleBase with referenceValue := UInt64.ofNat o }) else throwExn .userError
  offsetsOf _ := .ok [0, 204]

example : oneFileWorld.Defined ∧ ToldApart .shadow oneFile ∧ GoodIndex oneFileWorld oneFile .shadow [] ∧
    AllowedRun oneFile oneFileWorld
      [.lookup "/fdb/a.data" [204, 0], .scan "/fdb/a.data" [0], .commit 0, .answer 0, .clear,
       .insert "/fdb/a.data" 408, .flush true, .grow oneFileWorld] := by
  refine ⟨⟨?_, fun p h => by cases h⟩, C15_separated _ _ ?_ ?_, ?_, ?_⟩
  · intro p o h
    unfold oneFileWorld at h
    simp only at h
    split at h <;> cases h
  · intro p q hp hq _; rw [hp, hq]
  · intro p hp c hc
    rw [hp] at hc
    have : (baseName "/fdb/a.data").toList.getLast? = some 'a' := by decide +kernel
    rw [this] at hc
    cases hc; decide
  · intro p _
    exact ⟨[], Or.inl ⟨rfl, rfl⟩, by intro x hx; cases hx⟩
  · refine ⟨rfl, rfl, trivial, trivial, trivial, rfl, trivial, ⟨fun _ _ _ h => h, ?_, fun p h => by cases h⟩, trivial⟩
    intro p o h
    unfold oneFileWorld at h
    simp only at h
    split at h <;> cases h

end GJ
