import Verif.Model.IndexOrder
import Verif.Spec.IndexOrder
import Verif.Lemmas.CacheSafe
import Verif.Props.C18

/-!
# Maps iterated in the order of their keys
-/

namespace GJ

open Spec

/-! ## Sorting entries -/

/-- Plain entries by offset. -/
def sortEntries (es : List (Nat × Info)) : List (Nat × Info) := isort (fun a b => decide (a.1 ≤ b.1)) es

theorem isort_map {α β : Type} (f : α → β) (le : β → β → Bool) (l : List α) :
    isort le (l.map f) = (isort (fun a b => le (f a) (f b)) l).map f := by
  have ins : ∀ (x : α) (l : List α),
      insertSorted le (f x) (l.map f) = (insertSorted (fun a b => le (f a) (f b)) x l).map f := by
    intro x l
    induction l with
    | nil => rfl
    | cons y l ih =>
      rw [List.map_cons, insertSorted, insertSorted]
      split
      · rfl
      · rw [ih]; rfl
  induction l with
  | nil => rfl
  | cons x l ih => rw [List.map_cons, isort, isort, ih, ins]

theorem inOrder_noNull (es : List (Nat × Info)) : inOrder (noNull es) = noNull (sortEntries es) := by
  rw [inOrder, noNull, isort_map]; rfl

theorem sortEntries_perm (es : List (Nat × Info)) : (sortEntries es).Perm es := isort_perm _ es

theorem keys_sortEntries_perm (es : List (Nat × Info)) : (AMap.keys (sortEntries es)).Perm (AMap.keys es) :=
  (sortEntries_perm es).map _

theorem nodup_sortEntries {es : List (Nat × Info)} (h : (AMap.keys es).Nodup) : (AMap.keys (sortEntries es)).Nodup :=
  (keys_sortEntries_perm es).nodup_iff.mpr h

theorem sortEntries_sorted (es : List (Nat × Info)) : (sortEntries es).Pairwise (fun a b => a.1 ≤ b.1) := by
  have := isort_sorted (fun a b : Nat × Info => decide (a.1 ≤ b.1)) (by simp only [decide_eq_true_eq]; omega)
    (by simp only [decide_eq_true_eq]; omega) es
  exact this.imp (fun h => of_decide_eq_true h)

theorem sortEntries_increasing {es : List (Nat × Info)} (h : (AMap.keys es).Nodup) : Increasing (sortEntries es) := by
  have hn := nodup_sortEntries h
  rw [AMap.keys, List.Nodup, List.pairwise_map] at hn
  exact ((sortEntries_sorted es).and hn).imp (fun h => by omega)

theorem Spec.Increasing.nodup {es : List (Nat × Info)} (h : Increasing es) : (AMap.keys es).Nodup := by
  rw [AMap.keys, List.Nodup, List.pairwise_map]
  exact h.imp (fun h => by omega)

theorem nodup_of_keys {V : Type} {es : List (Nat × V)} (h : (AMap.keys es).Nodup) : es.Nodup := by
  rw [AMap.keys, List.Nodup, List.pairwise_map] at h
  exact h.imp (fun h e => h (congrArg _ e))

theorem mem_iff_find' {es : List (Nat × Info)} (h : (AMap.keys es).Nodup) (o : Nat) (i : Info) :
    (o, i) ∈ es ↔ AMap.find es o = some i := AMap.mem_iff_find es h o i

theorem perm_of_find {a b : List (Nat × Info)} (ha : (AMap.keys a).Nodup) (hb : (AMap.keys b).Nodup)
    (h : ∀ o, AMap.find a o = AMap.find b o) : a.Perm b := by
  rw [List.perm_ext_iff_of_nodup (nodup_of_keys ha) (nodup_of_keys hb)]
  rintro ⟨o, i⟩
  rw [mem_iff_find' ha, mem_iff_find' hb, h]

/-- Entries with increasing offsets are determined by what is found for each offset. -/
theorem Spec.Increasing.unique {a b : List (Nat × Info)} (ha : Increasing a) (hb : Increasing b)
    (h : ∀ o, AMap.find a o = AMap.find b o) : a = b :=
  List.Perm.eq_of_pairwise (fun x y _ _ hxy hyx => absurd hxy (by omega)) ha hb (perm_of_find ha.nodup hb.nodup h)

theorem find_sortEntries {es : List (Nat × Info)} (h : (AMap.keys es).Nodup) (o : Nat) :
    AMap.find (sortEntries es) o = AMap.find es o := by
  apply Option.ext
  intro i
  rw [← mem_iff_find' h, ← mem_iff_find' (nodup_sortEntries h), (sortEntries_perm es).mem_iff]

theorem sortEntries_unique {a b : List (Nat × Info)} (ha : (AMap.keys a).Nodup) (hb : (AMap.keys b).Nodup)
    (h : ∀ o, AMap.find a o = AMap.find b o) : sortEntries a = sortEntries b :=
  (sortEntries_increasing ha).unique (sortEntries_increasing hb)
    (fun o => by rw [find_sortEntries ha, find_sortEntries hb, h])

/-! ## Index files whose entries are complete -/

theorem find_append_entries (a b : List (Nat × Info)) (o : Nat) :
    AMap.find (a ++ b) o = match AMap.find a o with
      | some x => some x
      | none => AMap.find b o := by
  induction a with
  | nil => rfl
  | cons p a ih =>
    obtain ⟨k, i⟩ := p
    rw [List.cons_append, AMap.find, AMap.find]
    split
    · rfl
    · exact ih

theorem indexOf_eq (es : List (Nat × Info)) : indexOf es = .u8 1 :: entryToks es := rfl

theorem loadIndex_of {fs : FS} {p : String} {es : List (Nat × Info)} (h : fs.find p = some (indexOf es)) :
    ∃ m, loadIndex fs p = .ok (noNull m) ∧ (AMap.keys m).Nodup ∧ ∀ o, AMap.find m o = AMap.find es o := by
  refine ⟨addAll [] es, ?_, nodup_addAll [] es List.nodup_nil, fun o => by rw [find_addAll]; rfl⟩
  rw [loadIndex, h]
  simp only
  rw [indexOf_eq, decIndex_ok]
  exact congrArg _ (insertAll_noNull [] es)

theorem loadIndex_none {fs : FS} {p : String} (h : fs.find p = none) : loadIndex fs p = .ok (noNull []) := by
  rw [loadIndex, h]; rfl

/-- Two file systems whose index files are complete and say the same. -/
def FsSim (a b : FS) : Prop :=
  ∀ p, (a.find p = none ∧ b.find p = none) ∨
    ∃ es es', a.find p = some (indexOf es) ∧ b.find p = some (indexOf es') ∧ ∀ o, AMap.find es o = AMap.find es' o

/-- Two maps without null entries that say the same. -/
def MapSim (a b : InfoMap) : Prop :=
  ∃ es es', a = noNull es ∧ b = noNull es' ∧ (AMap.keys es).Nodup ∧ (AMap.keys es').Nodup ∧
    ∀ o, AMap.find es o = AMap.find es' o

theorem FsSim.load {a b : FS} (h : FsSim a b) (p : String) :
    ∃ m m', loadIndex a p = .ok m ∧ loadIndex b p = .ok m' ∧ MapSim m m' := by
  rcases h p with ⟨ha, hb⟩ | ⟨es, es', ha, hb, he⟩
  · exact ⟨_, _, loadIndex_none ha, loadIndex_none hb, [], [], rfl, rfl, List.nodup_nil, List.nodup_nil, fun _ => rfl⟩
  · obtain ⟨m, h1, h2, h3⟩ := loadIndex_of ha
    obtain ⟨m', h1', h2', h3'⟩ := loadIndex_of hb
    exact ⟨_, _, h1, h1', m, m', rfl, rfl, h2, h2', fun o => by rw [h3, h3', he]⟩

theorem MapSim.indexFind {a b : InfoMap} (h : MapSim a b) (o : Nat) : indexFind a o = indexFind b o := by
  obtain ⟨es, es', rfl, rfl, -, -, h⟩ := h
  rw [indexFind_noNull, indexFind_noNull, h]

theorem MapSim.insertAll {a b : InfoMap} (h : MapSim a b) (es : List (Nat × Info)) :
    MapSim (insertAll a es) (insertAll b es) := by
  obtain ⟨x, y, rfl, rfl, hx, hy, h⟩ := h
  exact ⟨_, _, insertAll_noNull x es, insertAll_noNull y es, nodup_addAll x es hx, nodup_addAll y es hy,
    fun o => by rw [find_addAll, find_addAll, h]⟩

theorem FsSim.set {a b : FS} (h : FsSim a b) (p : String) {es es' : List (Nat × Info)}
    (he : ∀ o, AMap.find es o = AMap.find es' o) : FsSim (a.set p (indexOf es)) (b.set p (indexOf es')) := by
  intro q
  rw [AMap.find_set, AMap.find_set]
  by_cases hq : p = q
  · rw [if_pos hq, if_pos hq]
    exact .inr ⟨es, es', rfl, rfl, he⟩
  · rw [if_neg hq, if_neg hq]
    exact h q

theorem writeIndex_noNull (fs : FS) (p : String) (es : List (Nat × Info)) :
    writeIndex fs p (noNull es) = .ok (fs.set p (indexOf es)) := by
  rw [writeIndex, encIndex_ok, ok_bind]; rfl

theorem appendIndex_noNull (fs : FS) (p : String) (es : List (Nat × Info)) :
    appendIndex fs p (noNull es) = .ok (fs.set p (match fs.find p with
      | none => indexOf es
      | some old => old ++ entryToks es)) := by
  rw [appendIndex]
  cases fs.find p with
  | none => simp only; rw [encIndex_ok, ok_bind]; rfl
  | some old => simp only; rw [encEntries_ok, ok_bind]

theorem indexOf_append (a b : List (Nat × Info)) : indexOf a ++ entryToks b = indexOf (a ++ b) := by
  rw [indexOf_eq, indexOf_eq, entryToks_append]; rfl

theorem writeSorted_noNull (fs : FS) (p : String) (es : List (Nat × Info)) :
    writeSorted fs p (noNull es) = .ok (fs.set p (indexOf (sortEntries es))) := by
  rw [writeSorted, inOrder_noNull, writeIndex_noNull]

/-- Writing a map by insertion order and by offset. -/
theorem FsSim.write {a b : FS} (h : FsSim a b) (p : String) {m m' : InfoMap} (hm : MapSim m m') :
    ∃ x y, writeIndex a p m = .ok x ∧ writeSorted b p m' = .ok y ∧ FsSim x y := by
  obtain ⟨es, es', rfl, rfl, h1, h2, he⟩ := hm
  refine ⟨_, _, writeIndex_noNull a p es, writeSorted_noNull b p es', h.set p ?_⟩
  intro o
  rw [find_sortEntries h2, he]

/-- Appending a map by insertion order and by offset. -/
theorem FsSim.append {a b : FS} (h : FsSim a b) (p : String) {es : List (Nat × Info)} (hn : (AMap.keys es).Nodup) :
    ∃ x y, appendIndex a p (noNull es) = .ok x ∧ appendSorted b p (noNull es) = .ok y ∧ FsSim x y := by
  rw [appendSorted, inOrder_noNull]
  refine ⟨_, _, appendIndex_noNull a p es, appendIndex_noNull b p _, ?_⟩
  rcases h p with ⟨ha, hb⟩ | ⟨x, y, ha, hb, he⟩
  · rw [ha, hb]
    exact h.set p (fun o => (find_sortEntries hn o).symm)
  · rw [ha, hb]
    simp only
    rw [indexOf_append, indexOf_append]
    exact h.set p (fun o => by rw [find_append_entries, find_append_entries, he, find_sortEntries hn])

/-! ## Flushing -/

theorem find_perm {V : Type} {a b : AMap String V} (h : a.Perm b) (hn : a.keys.Nodup) (p : String) : a.find p = b.find p := by
  have hb : b.keys.Nodup := (show a.keys.Perm b.keys from h.map _).nodup_iff.mp hn
  apply Option.ext
  intro v
  rw [← AMap.mem_iff_find a hn, ← AMap.mem_iff_find b hb, h.mem_iff]

/-- Staged files: each once, with entries that are not null. -/
def StagedOk (st : AMap String InfoMap) : Prop :=
  st.keys.Nodup ∧ ∀ x ∈ st, ∃ es, x.2 = noNull es ∧ (AMap.keys es).Nodup

/-- What a flush makes of a file. -/
def flushed (append : Bool) (old : Option (List Tok)) (es : List (Nat × Info)) : List Tok :=
  match append, old with
  | true, some old => old ++ entryToks es
  | _, _ => indexOf es

theorem flushIndex_noNull (append : Bool) (fs : FS) (p : String) (es : List (Nat × Info)) :
    flushIndex append fs p (noNull es) = .ok (fs.set p (flushed append (fs.find p) es)) := by
  rw [flushIndex]
  cases append with
  | true =>
    rw [if_pos rfl, appendIndex_noNull]
    cases fs.find p <;> rfl
  | false => rw [if_neg (by decide), writeIndex_noNull]; rfl

/-- The same entries written to both. -/
theorem FsSim.written {a b : FS} (h : FsSim a b) (append : Bool) (p : String) (es : List (Nat × Info)) :
    ∃ x y, flushIndex append a p (noNull es) = .ok x ∧ flushIndex append b p (noNull es) = .ok y ∧ FsSim x y := by
  refine ⟨_, _, flushIndex_noNull append a p es, flushIndex_noNull append b p es, ?_⟩
  cases append with
  | false => exact h.set p (fun _ => rfl)
  | true =>
    rcases h p with ⟨ha, hb⟩ | ⟨x, y, ha, hb, he⟩
    · rw [ha, hb]; exact h.set p (fun _ => rfl)
    · rw [ha, hb]
      simp only [flushed]
      rw [indexOf_append, indexOf_append]
      exact h.set p (fun o => by rw [find_append_entries, find_append_entries, he])

theorem FsSim.elsewhere (W : World) (mode : CacheMode) (append : Bool) (ws : List (String × List Nat)) :
    ∀ {a b : FS}, FsSim a b → ∃ x y, writtenElsewhere W mode append a ws = .ok x ∧
      writtenElsewhere W mode append b ws = .ok y ∧ FsSim x y := by
  induction ws with
  | nil => intro a b h; exact ⟨a, b, rfl, rfl, h⟩
  | cons z ws ih =>
    intro a b h
    obtain ⟨p, os⟩ := z
    rw [writtenElsewhere, writtenElsewhere]
    cases extractInfos W p os with
    | error e => exact ih h
    | ok is =>
      obtain ⟨x, y, h1, h2, h3⟩ := h.written append (mode.indexPath p) (os.zip is)
      rw [noNull] at h1 h2
      obtain ⟨x', y', h4, h5, h6⟩ := ih h3
      refine ⟨x', y', ?_, ?_, h6⟩
      · simp only [h1]; rw [ok_bind]; exact h4
      · simp only [h2]; rw [ok_bind]; exact h5

theorem flushLoop_ok (append : Bool) (st : AMap String InfoMap) : ∀ fs : FS, StagedOk st →
    ∃ fs', flushLoop append fs st = .ok fs' ∧ ∀ p,
      (st.find p = none → fs'.find p = fs.find p) ∧
      ∀ es, st.find p = some (noNull es) → fs'.find p = some (flushed append (fs.find p) es) := by
  induction st with
  | nil => intro fs _; exact ⟨fs, rfl, fun p => ⟨fun _ => rfl, fun es h => by cases h⟩⟩
  | cons x st ih =>
    obtain ⟨q, m⟩ := x
    intro fs h
    obtain ⟨es, hm, -⟩ := h.2 (q, m) List.mem_cons_self
    have hm : m = noNull es := hm
    subst hm
    have hn := h.1
    simp only [AMap.keys, List.map_cons, List.nodup_cons] at hn
    have hq : AMap.find st q = none := (AMap.find_eq_none_iff st q).mpr hn.1
    obtain ⟨fs', h1, h2⟩ := ih (fs.set q (flushed append (fs.find q) es))
      ⟨hn.2, fun x hx => h.2 x (List.mem_cons_of_mem _ hx)⟩
    refine ⟨fs', ?_, fun p => ?_⟩
    · rw [flushLoop, flushIndex_noNull, ok_bind, h1]
    · rw [AMap.find]
      by_cases hp : q = p
      · subst hp
        rw [if_pos rfl]
        refine ⟨fun h => (by cases h), fun es' he => ?_⟩
        have he : noNull es = noNull es' := Option.some.inj he
        have : es = es' := by
          rw [noNull, noNull] at he
          exact (List.map_inj_right (fun a b hab => by
            obtain ⟨a1, a2⟩ := a; obtain ⟨b1, b2⟩ := b
            simp only [Prod.mk.injEq, Option.some.injEq] at hab ⊢
            exact hab)).mp he
        subst this
        rw [(h2 q).1 hq, AMap.find_set, if_pos rfl]
      · rw [if_neg hp]
        have := h2 p
        rw [AMap.find_set, if_neg hp] at this
        exact this

/-- The staged files with entries by offset. -/
def sortedStaged (st : AMap String InfoMap) : AMap String InfoMap := st.map fun x => (x.1, inOrder x.2)

theorem flushSortedLoop_eq (append : Bool) (st : AMap String InfoMap) : ∀ fs : FS,
    flushSortedLoop append fs st = flushLoop append fs (sortedStaged st) := by
  induction st with
  | nil => intro fs; rfl
  | cons x st ih =>
    obtain ⟨q, m⟩ := x
    intro fs
    show _ = flushLoop append fs ((q, inOrder m) :: sortedStaged st)
    rw [flushSortedLoop, flushLoop]
    have : flushSorted append fs q m = flushIndex append fs q (inOrder m) := by
      rw [flushSorted, flushIndex, appendSorted, writeSorted]
    rw [this]
    cases flushIndex append fs q (inOrder m) with
    | error e => rfl
    | ok fs' => rw [ok_bind, ok_bind, ih]

theorem find_sortedStaged (st : AMap String InfoMap) (p : String) :
    (sortedStaged st).find p = (st.find p).map inOrder := by
  induction st with
  | nil => rfl
  | cons x st ih =>
    obtain ⟨q, m⟩ := x
    show AMap.find ((q, inOrder m) :: sortedStaged st) p = _
    rw [AMap.find, AMap.find]
    split
    · rfl
    · exact ih

theorem StagedOk.sorted {st : AMap String InfoMap} (h : StagedOk st) : StagedOk (sortedStaged (byPath st)) := by
  have hp : (byPath st).Perm st := isort_perm _ st
  refine ⟨?_, ?_⟩
  · have : (sortedStaged (byPath st)).keys = (byPath st).keys := by simp [AMap.keys, sortedStaged, Function.comp_def]
    rw [this]
    exact (show (byPath st).keys.Perm st.keys from hp.map _).nodup_iff.mpr h.1
  · intro x hx
    obtain ⟨y, hy, rfl⟩ := List.mem_map.mp hx
    obtain ⟨es, he, hn⟩ := h.2 y (hp.mem_iff.mp hy)
    exact ⟨sortEntries es, by show inOrder y.2 = _; rw [he, inOrder_noNull], nodup_sortEntries hn⟩

theorem FsSim.flush {a b : FS} (h : FsSim a b) (append : Bool) {st : AMap String InfoMap} (hs : StagedOk st) :
    ∃ x y, flushLoop append a st = .ok x ∧ flushSortedLoop append b (byPath st) = .ok y ∧ FsSim x y := by
  obtain ⟨x, h1, h2⟩ := flushLoop_ok append st a hs
  obtain ⟨y, h3, h4⟩ := flushLoop_ok append _ b hs.sorted
  refine ⟨x, y, h1, by rw [flushSortedLoop_eq, h3], fun p => ?_⟩
  have hf : (sortedStaged (byPath st)).find p = (st.find p).map inOrder := by
    have hp : (byPath st).Perm st := isort_perm _ st
    rw [find_sortedStaged]
    rw [find_perm hp ((show (byPath st).keys.Perm st.keys from hp.map _).nodup_iff.mpr hs.1) p]
  cases hp : st.find p with
  | none =>
    rw [(h2 p).1 hp, (h4 p).1 (by rw [hf, hp]; rfl)]
    exact h p
  | some m =>
    obtain ⟨es, he, hn⟩ := hs.2 _ (mem_of_find hp)
    have he : m = noNull es := he
    subst he
    rw [(h2 p).2 es hp, (h4 p).2 (sortEntries es) (by rw [hf, hp, ← inOrder_noNull]; rfl)]
    right
    cases append with
    | false => exact ⟨es, sortEntries es, rfl, rfl, fun o => (find_sortEntries hn o).symm⟩
    | true =>
      rcases h p with ⟨ha, hb⟩ | ⟨x, y, ha, hb, hxy⟩
      · rw [ha, hb]
        exact ⟨es, sortEntries es, rfl, rfl, fun o => (find_sortEntries hn o).symm⟩
      · rw [ha, hb]
        refine ⟨x ++ es, y ++ sortEntries es, ?_, ?_, fun o => ?_⟩
        · exact congrArg _ (indexOf_append x es)
        · exact congrArg _ (indexOf_append y _)
        · rw [find_append_entries, find_append_entries, hxy, find_sortEntries hn]

/-! ## The whole cache -/

/-- Two results of the same kind: related values, or the same fault. -/
def SameRes {α β : Type} (R : α → β → Prop) : Res α → Res β → Prop
  | .ok a, .ok b => R a b
  | .error e, .error e' => e = e'
  | _, _ => False

theorem SameRes.refl {α : Type} {R : α → α → Prop} (h : ∀ a, R a a) : ∀ r : Res α, SameRes R r r
  | .ok a => h a
  | .error _ => rfl

theorem SameRes.bind {α β γ δ : Type} {R : α → β → Prop} {S : γ → δ → Prop} {a : Res α} {b : Res β} {f : α → Res γ}
    {g : β → Res δ} (h : SameRes R a b) (hf : ∀ x y, R x y → SameRes S (f x) (g y)) : SameRes S (a >>= f) (b >>= g) := by
  match a, b, h with
  | .ok x, .ok y, h => exact hf x y h
  | .error e, .error e', h => exact h

theorem SameRes.of_eq {α β : Type} {R : α → β → Prop} {a : Res α} {b : Res β} {x : α} {y : β} (ha : a = .ok x) (hb : b = .ok y)
    (h : R x y) : SameRes R a b := by
  subst ha; subst hb; exact h

/-- Planned scans that say the same. -/
def PlanSim : Option (Nat × InfoMap) → Option (Nat × InfoMap) → Prop
  | none, none => True
  | some (n, m), some (n', m') => n = n' ∧ MapSim m m'
  | _, _ => False

inductive ScansSim : List (String × Option (Nat × InfoMap)) → List (String × Option (Nat × InfoMap)) → Prop where
  | nil : ScansSim [] []
  | cons {path : String} {p q : Option (Nat × InfoMap)} {a b : List (String × Option (Nat × InfoMap))} :
      PlanSim p q → ScansSim a b → ScansSim ((path, p) :: a) ((path, q) :: b)

theorem ScansSim.concat {a b : List (String × Option (Nat × InfoMap))} (h : ScansSim a b) (path : String)
    {p q : Option (Nat × InfoMap)} (hp : PlanSim p q) : ScansSim (a ++ [(path, p)]) (b ++ [(path, q)]) := by
  induction h with
  | nil => exact .cons hp .nil
  | cons h _ ih => exact .cons h ih

theorem ScansSim.erase {a b : List (String × Option (Nat × InfoMap))} (h : ScansSim a b) :
    ∀ k, ScansSim (a.eraseIdx k) (b.eraseIdx k) := by
  induction h with
  | nil => intro k; exact .nil
  | cons h hs ih =>
    intro k
    cases k with
    | zero => exact hs
    | succ k => exact .cons h (ih k)

theorem ScansSim.get {a b : List (String × Option (Nat × InfoMap))} (h : ScansSim a b) :
    ∀ k : Nat, (a[k]? = none ∧ b[k]? = none) ∨
      ∃ path p q, a[k]? = some (path, p) ∧ b[k]? = some (path, q) ∧ PlanSim p q := by
  induction h with
  | nil => intro k; exact .inl ⟨rfl, rfl⟩
  | cons h hs ih =>
    intro k
    cases k with
    | zero => exact .inr ⟨_, _, _, rfl, rfl, h⟩
    | succ k => exact ih k

/-- Two caches in use that differ only in the order in which they keep entries. -/
structure SimSys (s t : Sys) : Prop where
  world : t.W = s.W
  cache : t.c = { s.c with fs := t.c.fs }
  fs : FsSim s.c.fs t.c.fs
  staged : StagedOk s.c.staged
  lookups : t.lookups = s.lookups
  scans : ScansSim s.scans t.scans
  answers : t.answers = s.answers

theorem indexGet_sim {m m' : InfoMap} (h : MapSim m m') (os : List Nat) : indexGet m os = indexGet m' os := by
  rw [indexGet, indexGet]
  have : (fun o => indexFind m o) = fun o => indexFind m' o := funext h.indexFind
  simp only [h.indexFind]

theorem resolve_sim (W : World) (lazy : Bool) (mode : CacheMode) {a b : FS} (h : FsSim a b) (path : String)
    (offsets : List Nat) (found : AMap Nat Info) :
    resolve W lazy mode a path offsets found = resolve W lazy mode b path offsets found := by
  obtain ⟨m, m', h1, h2, hm⟩ := h.load (mode.indexPath path)
  rw [resolve, resolve, h1, h2]
  simp only [ok_bind, indexGet_sim hm]

theorem scanPlan_sim (W : World) {c d : Cache} (hm : d.mode = c.mode) (h : FsSim c.fs d.fs) (path : String)
    (offsets : List Nat) : SameRes PlanSim (c.scanPlan W path offsets) (d.scanPlan W path offsets) := by
  obtain ⟨m, m', h1, h2, hs⟩ := h.load (c.mode.indexPath path)
  rw [Cache.scanPlan, Cache.scanPlan, hm, h1, h2, ok_bind, ok_bind]
  simp only [hs.indexFind]
  split
  · exact True.intro
  · refine SameRes.bind (R := Eq) (SameRes.refl (fun _ => rfl) _) ?_
    rintro x _ rfl
    exact ⟨rfl, hs.insertAll _⟩

theorem scanFilePlan_sim (W : World) {c d : Cache} (hm : d.mode = c.mode) (h : FsSim c.fs d.fs) (path : String)
    (merge : Bool) : SameRes PlanSim (c.scanFilePlan W path merge) (d.scanFilePlan W path merge) := by
  rw [Cache.scanFilePlan, Cache.scanFilePlan]
  cases merge with
  | true =>
    rw [if_pos rfl, if_pos rfl]
    refine SameRes.bind (R := Eq) (SameRes.refl (fun _ => rfl) _) ?_
    rintro x _ rfl
    exact scanPlan_sim W hm h path x
  | false =>
    rw [if_neg (by decide), if_neg (by decide)]
    obtain ⟨m, m', h1, h2, hs⟩ := h.load (c.mode.indexPath path)
    rw [hm, h1, h2, ok_bind, ok_bind]
    refine SameRes.bind (R := Eq) (SameRes.refl (fun _ => rfl) _) ?_
    rintro x _ rfl
    refine SameRes.bind (R := Eq) (SameRes.refl (fun _ => rfl) _) ?_
    rintro y _ rfl
    exact ⟨rfl, hs.insertAll _⟩

theorem planned_sim {s t : Sys} (h : SimSys s t) (path : String) {a b : Res (Option (Nat × InfoMap))}
    (hr : SameRes PlanSim a b) : SameRes SimSys (s.planned path a) (t.planned path b) := by
  match a, b, hr with
  | .ok p, .ok q, hr => exact ⟨h.world, h.cache, h.fs, h.staged, h.lookups, h.scans.concat path hr, h.answers⟩
  | .error .ub, .error e', hr => cases hr; exact rfl
  | .error (.exn e), .error e', hr => cases hr; exact h

theorem scanCommit_sim {c d : Cache} (hd : d = { c with fs := d.fs }) (h : FsSim c.fs d.fs) (path : String)
    {p q : Option (Nat × InfoMap)} (hp : PlanSim p q) :
    SameRes (fun x y => x.1 = y.1 ∧ y.2 = { x.2 with fs := y.2.fs } ∧ FsSim x.2.fs y.2.fs ∧ x.2.staged = c.staged)
      (c.scanCommit path p) (d.scanCommitO path q) := by
  match p, q, hp with
  | none, none, _ => exact ⟨rfl, hd, h, rfl⟩
  | some (n, m), some (n', m'), hp =>
    obtain ⟨rfl, hm⟩ := hp
    have hmode : d.mode = c.mode := by rw [hd]
    obtain ⟨x, y, h1, h2, h3⟩ := h.write (c.mode.indexPath path) hm
    rw [Cache.scanCommit, Cache.scanCommitO, hmode, h1, h2, ok_bind, ok_bind]
    refine ⟨rfl, ?_, h3, rfl⟩
    show (⟨c.mode, d.lazy, d.mem, d.staged, y⟩ : Cache) = ⟨c.mode, c.lazy, c.mem, c.staged, y⟩
    rw [hd]

theorem getCached_sim {c d : Cache} (hd : d = { c with fs := d.fs }) (path : String) (offsets : List Nat) :
    SameRes (fun x y => x.1 = y.1 ∧ y.2 = { x.2 with fs := d.fs } ∧ x.2.fs = c.fs ∧ x.2.staged = c.staged)
      (getCached c path offsets) (getCached d path offsets) := by
  rw [hd]
  rw [getCached, getCached]
  show SameRes _ (getCachedLoop path c.mem [] offsets >>= _) (getCachedLoop path c.mem [] offsets >>= _)
  refine SameRes.bind (R := Eq) (SameRes.refl (fun _ => rfl) _) ?_
  rintro x _ rfl
  exact ⟨rfl, rfl, rfl, rfl⟩

theorem putCache_sim {c d : Cache} (hd : d = { c with fs := d.fs }) (path : String) (pairs : List (Nat × Info)) :
    SameRes (fun x y => y = { x with fs := d.fs } ∧ x.fs = c.fs ∧ x.staged = c.staged)
      (putCache c path pairs) (putCache d path pairs) := by
  rw [hd]
  rw [putCache, putCache]
  show SameRes _ (putLoop path c.mem pairs >>= _) (putLoop path c.mem pairs >>= _)
  refine SameRes.bind (R := Eq) (SameRes.refl (fun _ => rfl) _) ?_
  rintro x _ rfl
  exact ⟨rfl, rfl, rfl⟩

theorem StagedOk.insert {c : Cache} (h : StagedOk c.staged) (path : String) (o : Nat) (i : Info) :
    StagedOk (c.insert path o i).staged := by
  have key : ∀ m es, (∃ es, m = noNull es ∧ (AMap.keys es).Nodup) → es = AMap.insert m o (some i) →
      StagedOk (c.staged.set (c.mode.indexPath path) es) := by
    rintro m _ ⟨es, rfl, hn⟩ rfl
    refine ⟨AMap.nodup_set _ _ _ h.1, fun x hx => ?_⟩
    rw [AMap.mem_iff_find _ (AMap.nodup_set _ _ _ h.1) x.1 x.2, AMap.find_set] at hx
    by_cases hp : c.mode.indexPath path = x.1
    · rw [if_pos hp] at hx
      exact ⟨AMap.insert es o i, by rw [← Option.some.inj hx, insert_noNull], AMap.nodup_insert es o i hn⟩
    · rw [if_neg hp] at hx
      exact h.2 x (mem_of_find hx)
  rw [Cache.insert]
  cases hf : c.staged.find (c.mode.indexPath path) with
  | none => exact key [] _ ⟨[], rfl, List.nodup_nil⟩ rfl
  | some m => exact key m _ (h.2 _ (mem_of_find hf)) rfl

theorem SimSys.step {s t : Sys} (h : SimSys s t) (e : CEv) : SameRes SimSys (s.step e) (t.stepO e) := by
  have hmode : t.c.mode = s.c.mode := by rw [h.cache]
  have hlazy : t.c.lazy = s.c.lazy := by rw [h.cache]
  cases e with
  | lookup path offsets =>
    rw [Sys.stepO.eq_def]
    simp only
    rw [Sys.step, Sys.step]
    refine SameRes.bind (getCached_sim h.cache path offsets) ?_
    rintro ⟨f, c⟩ ⟨g, d⟩ ⟨h1, h2, h3, h4⟩
    simp only at h1 h2 h3 h4
    subst h1; subst h2
    exact ⟨h.world, rfl, h3 ▸ h.fs, h4 ▸ h.staged, congrArg (· ++ _) h.lookups, h.scans, h.answers⟩
  | answer k =>
    rw [Sys.stepO.eq_def]
    simp only
    rw [Sys.step, Sys.step, h.lookups]
    cases s.lookups[k]? with
    | none => exact h
    | some l =>
      simp only
      rw [Sys.finish, Sys.finish, h.world, hmode, hlazy,
        ← resolve_sim s.W s.c.lazy s.c.mode h.fs l.path l.offsets l.found]
      generalize resolve s.W s.c.lazy s.c.mode s.c.fs l.path l.offsets l.found = r
      match r with
      | .ok infos =>
        refine SameRes.bind (putCache_sim h.cache l.path _) ?_
        rintro c _ ⟨rfl, h3, h4⟩
        exact ⟨rfl, rfl, h3 ▸ h.fs, h4 ▸ h.staged, congrArg (List.eraseIdx · k) h.lookups, h.scans,
          congrArg (· ++ _) h.answers⟩
      | .error .ub => exact rfl
      | .error (.exn e) =>
        exact ⟨rfl, h.cache, h.fs, h.staged, congrArg (List.eraseIdx · k) h.lookups, h.scans,
          congrArg (· ++ _) h.answers⟩
  | scan path offsets =>
    show SameRes _ (s.planned path _) (t.planned path (t.c.scanPlan t.W path offsets))
    rw [h.world]
    exact planned_sim h path (scanPlan_sim s.W hmode h.fs path offsets)
  | scanFile path merge =>
    show SameRes _ (s.planned path _) (t.planned path (t.c.scanFilePlan t.W path merge))
    rw [h.world]
    exact planned_sim h path (scanFilePlan_sim s.W hmode h.fs path merge)
  | commit k =>
    rw [Sys.step, Sys.stepO]
    rcases h.scans.get k with ⟨h1, h2⟩ | ⟨path, p, q, h1, h2, hp⟩
    · rw [h1, h2]; exact h
    · rw [h1, h2]
      refine SameRes.bind (scanCommit_sim h.cache h.fs path hp) ?_
      rintro ⟨n, c⟩ ⟨n', d⟩ ⟨-, h3, h4, h5⟩
      exact ⟨h.world, h3, h4, (show c.staged = _ from h5) ▸ h.staged, h.lookups, h.scans.erase k, h.answers⟩
  | insert path offset =>
    rw [Sys.stepO.eq_def]
    simp only
    rw [Sys.step, Sys.step, h.world]
    cases s.W.data path offset with
    | error e => exact h
    | ok i =>
      have e : t.c.insert path offset i = { s.c.insert path offset i with fs := t.c.fs } := by
        rw [h.cache, Cache.insert, Cache.insert]
        show (match s.c.staged.find (s.c.mode.indexPath path) with | some m => _ | none => _) = _
        cases s.c.staged.find (s.c.mode.indexPath path) <;> rfl
      have e1 : (s.c.insert path offset i).fs = s.c.fs := by
        rw [Cache.insert]
        cases s.c.staged.find (s.c.mode.indexPath path) <;> rfl
      refine ⟨rfl, ?_, ?_, h.staged.insert path offset i, h.lookups, h.scans, h.answers⟩
      · show t.c.insert path offset i = { s.c.insert path offset i with fs := (t.c.insert path offset i).fs }
        rw [e]
      · show FsSim (s.c.insert path offset i).fs (t.c.insert path offset i).fs
        rw [e, e1]; exact h.fs
  | flush append =>
    rw [Sys.step, Sys.stepO, Cache.flush, Cache.flushO]
    have hst : t.c.staged = s.c.staged := by rw [h.cache]
    obtain ⟨x, y, h1, h2, h3⟩ := h.fs.flush append h.staged
    rw [hst, h1, h2]
    refine ⟨h.world, ?_, h3, ⟨List.nodup_nil, fun x hx => by cases hx⟩, h.lookups, h.scans, h.answers⟩
    show { t.c with fs := y, staged := [] } = { s.c with fs := y, staged := [] }
    rw [h.cache]
  | clear =>
    refine ⟨h.world, ?_, h.fs, h.staged, h.lookups, h.scans, h.answers⟩
    show { t.c with mem := t.c.mem.clear } = { s.c with mem := s.c.mem.clear, fs := t.c.fs }
    rw [h.cache]
  | elsewhere append ws =>
    rw [Sys.stepO.eq_def]
    simp only
    rw [Sys.step, Sys.step, h.world, hmode]
    obtain ⟨x, y, h1, h2, h3⟩ := FsSim.elsewhere s.W s.c.mode append ws h.fs
    rw [h1, h2]
    refine ⟨rfl, ?_, h3, h.staged, h.lookups, h.scans, h.answers⟩
    show { t.c with fs := y } = { s.c with fs := y }
    rw [h.cache]
  | grow W' => exact ⟨rfl, h.cache, h.fs, h.staged, h.lookups, h.scans, h.answers⟩

theorem SimSys.run (es : List CEv) : ∀ {s t : Sys}, SimSys s t → SameRes SimSys (s.run es) (t.runO es) := by
  induction es with
  | nil => intro s t h; exact h
  | cons e es ih =>
    intro s t h
    rw [Sys.run, Sys.runO]
    exact SameRes.bind (h.step e) (fun _ _ h' => ih h')

end GJ
