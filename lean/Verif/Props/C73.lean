import Verif.Lemmas.IndexOrder
import Verif.Props.C51
import Verif.Props.C70

/-!
# C73: index files as files, and the tools that show and make them
-/

namespace GJ

open Spec

/-! ## The order of entries does not show in answers -/

theorem FsSim.refl {fs : FS} (h : Complete fs) : FsSim fs fs := by
  intro p
  cases hp : fs.find p with
  | none => exact .inl ⟨rfl, rfl⟩
  | some toks =>
    obtain ⟨es, rfl⟩ := h p toks hp
    exact .inr ⟨es, es, rfl, rfl, fun _ => rfl⟩

theorem SimSys.start (W : World) (mode : CacheMode) (lazy : Bool) (cap : Nat) {fs : FS} (h : Complete fs) :
    SimSys (.start W mode lazy cap fs) (.start W mode lazy cap fs) :=
  ⟨rfl, rfl, FsSim.refl h, ⟨List.nodup_nil, fun x hx => (by cases hx)⟩, rfl, .nil, rfl⟩

theorem SimSys.indexed {s t : Sys} (h : SimSys s t) (path : String) (o : Nat) :
    s.c.indexed path o = t.c.indexed path o := by
  have hmode : t.c.mode = s.c.mode := by rw [h.cache]
  obtain ⟨m, m', h1, h2, hm⟩ := h.fs.load (s.c.mode.indexPath path)
  rw [Cache.indexed, Cache.indexed, hmode, h1, h2]
  exact hm.indexFind o

/-- C73.  The order in which entries are kept does not show: over index files that were not cut short, every history of
cache use gives the same answers, the same memory and the same content of every index whether the entries of an index
are kept and written in the order in which they were added or by offset, and files are flushed in the order in which
they were first used or by name. -/
theorem C73_order_does_not_show (W : World) (mode : CacheMode) (lazy : Bool) (cap : Nat) (fs : FS) (h : Complete fs)
    (es : List CEv) :
    SameRes (fun s t => s.answers = t.answers ∧ s.c.mem = t.c.mem ∧ s.c.staged = t.c.staged ∧
        ∀ path o, s.c.indexed path o = t.c.indexed path o)
      ((Sys.start W mode lazy cap fs).run es) ((Sys.start W mode lazy cap fs).runO es) := by
  have := (SimSys.start W mode lazy cap h).run es
  generalize (Sys.start W mode lazy cap fs).run es = a at this
  generalize (Sys.start W mode lazy cap fs).runO es = b at this
  match a, b, this with
  | .ok s, .ok t, h => exact ⟨h.answers.symm, by rw [h.cache], by rw [h.cache], h.indexed⟩
  | .error e, .error e', h => exact h

theorem FsSim.complete {a b : FS} (h : FsSim a b) : Complete b := by
  intro p toks hp
  rcases h p with ⟨-, hb⟩ | ⟨-, es, -, hb, -⟩
  · rw [hb] at hp; cases hp
  · rw [hb] at hp; exact ⟨es, (Option.some.inj hp).symm⟩

/-- C73.  No history of cache use cuts an index file short (a process that is stopped may, see `C17_append_corrupts`). -/
theorem C73_complete (W : World) (mode : CacheMode) (lazy : Bool) (cap : Nat) (fs : FS) (h : Complete fs)
    (es : List CEv) (t : Sys) (ht : (Sys.start W mode lazy cap fs).runO es = .ok t) : Complete t.c.fs := by
  have := (SimSys.start W mode lazy cap h).run es
  rw [ht] at this
  generalize (Sys.start W mode lazy cap fs).run es = a at this
  match a, this with
  | .ok s, h => exact h.fs.complete

/-! ## Index files made by scans -/

/-- An event that is not a flush, here or in another process; other processes too write entries by offset. -/
def CEv.noFlush : CEv → Bool
  | .flush _ => false
  | .elsewhere append ws => !append && ws.all fun x => decide (x.2.Pairwise (· < ·))
  | _ => true

theorem Spec.Ordered.set {fs : FS} (h : Ordered fs) (p : String) {es : List (Nat × Info)} (he : Increasing es) :
    Ordered (fs.set p (indexOf es)) := by
  intro q toks hq
  rw [AMap.find_set] at hq
  by_cases hp : p = q
  · rw [if_pos hp] at hq
    exact ⟨es, (Option.some.inj hq).symm, he⟩
  · rw [if_neg hp] at hq
    exact h q toks hq

theorem getCached_fs {c c' : Cache} {path : String} {offsets : List Nat} {f : AMap Nat Info}
    (h : getCached c path offsets = .ok (f, c')) : c'.fs = c.fs := by
  rw [getCached] at h
  obtain ⟨x, -, h⟩ := res_bind_inv h
  have := (Prod.mk.inj (Except.ok.inj h)).2
  rw [← this]

theorem putCache_fs {c c' : Cache} {path : String} {pairs : List (Nat × Info)} (h : putCache c path pairs = .ok c') :
    c'.fs = c.fs := by
  rw [putCache] at h
  obtain ⟨x, -, h⟩ := res_bind_inv h
  rw [← Except.ok.inj h]

theorem elsewhere_ordered {W : World} {mode : CacheMode} (ws : List (String × List Nat))
    (hw : ∀ x ∈ ws, x.2.Pairwise (· < ·)) : ∀ {fs fs' : FS}, Ordered fs → writtenElsewhere W mode false fs ws = .ok fs' →
      Ordered fs' := by
  induction ws with
  | nil => intro fs fs' h hf; cases hf; exact h
  | cons x ws ih =>
    intro fs fs' h hf
    obtain ⟨p, os⟩ := x
    have hrest : ∀ y ∈ ws, y.2.Pairwise (· < ·) := fun y hy => hw y (List.mem_cons_of_mem _ hy)
    rw [writtenElsewhere] at hf
    cases hx : extractInfos W p os with
    | error e => rw [hx] at hf; exact ih hrest h hf
    | ok is =>
      rw [hx] at hf
      simp only at hf
      obtain ⟨fs1, h1, hf⟩ := res_bind_inv hf
      have h2 : flushIndex false fs (mode.indexPath p) (noNull (os.zip is)) = .ok fs1 := h1
      rw [flushIndex_noNull] at h2
      rw [← Except.ok.inj h2] at hf
      refine ih hrest (h.set _ ?_) hf
      exact List.pairwise_map.mp (by
        rw [show (os.zip is).map Prod.fst = os from keys_zip (extractInfos_inv W p os is hx).1]
        exact hw (p, os) List.mem_cons_self)

theorem stepO_ordered {s t t' : Sys} {e : CEv} (hs : SimSys s t) (h : Ordered t.c.fs) (hf : e.noFlush = true)
    (ht : t.stepO e = .ok t') : Ordered t'.c.fs := by
  cases e with
  | flush append => cases hf
  | lookup path offsets =>
    rw [Sys.stepO.eq_def] at ht
    simp only at ht
    rw [Sys.step] at ht
    obtain ⟨⟨f, c⟩, hc, ht⟩ := res_bind_inv ht
    have e := Except.ok.inj ht
    subst e
    show Ordered c.fs
    rw [getCached_fs hc]; exact h
  | answer k =>
    rw [Sys.stepO.eq_def] at ht
    simp only at ht
    rw [Sys.step] at ht
    generalize t.lookups[k]? = l at ht
    match l with
    | none => have e := Except.ok.inj ht; subst e; exact h
    | some l =>
      simp only at ht
      rw [Sys.finish] at ht
      generalize resolve t.W t.c.lazy t.c.mode t.c.fs l.path l.offsets l.found = r at ht
      match r with
      | .ok infos =>
        obtain ⟨c, hc, ht⟩ := res_bind_inv ht
        have e := Except.ok.inj ht
        subst e
        show Ordered c.fs
        rw [putCache_fs hc]; exact h
      | .error .ub => cases ht
      | .error (.exn x) => have e := Except.ok.inj ht; subst e; exact h
  | scan path offsets =>
    rw [Sys.stepO.eq_def] at ht
    simp only at ht
    rw [Sys.step] at ht
    generalize t.c.scanPlan t.W path offsets = r at ht
    match r with
    | .ok p => have e := Except.ok.inj ht; subst e; exact h
    | .error .ub => cases ht
    | .error (.exn x) => have e := Except.ok.inj ht; subst e; exact h
  | scanFile path merge =>
    rw [Sys.stepO.eq_def] at ht
    simp only at ht
    rw [Sys.step] at ht
    generalize t.c.scanFilePlan t.W path merge = r at ht
    match r with
    | .ok p => have e := Except.ok.inj ht; subst e; exact h
    | .error .ub => cases ht
    | .error (.exn x) => have e := Except.ok.inj ht; subst e; exact h
  | commit k =>
    rw [Sys.stepO] at ht
    rcases hs.scans.get k with ⟨-, h2⟩ | ⟨path, p, q, -, h2, hp⟩
    · rw [h2] at ht; have e := Except.ok.inj ht; subst e; exact h
    · rw [h2] at ht
      simp only at ht
      obtain ⟨⟨n, c⟩, hc, ht⟩ := res_bind_inv ht
      have e := Except.ok.inj ht
      subst e
      show Ordered c.fs
      match p, q, hp with
      | none, none, _ =>
        have := (Prod.mk.inj (Except.ok.inj hc)).2
        rw [← this]; exact h
      | some (n, m), some (n', m'), hp =>
        obtain ⟨-, -, es', -, rfl, -, hn, -⟩ := hp
        rw [Cache.scanCommitO, writeSorted_noNull, ok_bind] at hc
        have := (Prod.mk.inj (Except.ok.inj hc)).2
        rw [← this]
        exact h.set _ (sortEntries_increasing hn)
  | insert path offset =>
    rw [Sys.stepO.eq_def] at ht
    simp only at ht
    rw [Sys.step] at ht
    generalize t.W.data path offset = r at ht
    match r with
    | .error x => have e := Except.ok.inj ht; subst e; exact h
    | .ok i =>
      have e := Except.ok.inj ht
      subst e
      show Ordered (t.c.insert path offset i).fs
      have e1 : (t.c.insert path offset i).fs = t.c.fs := by
        rw [Cache.insert]
        cases t.c.staged.find (t.c.mode.indexPath path) <;> rfl
      rw [e1]; exact h
  | clear => have e := Except.ok.inj ht; subst e; exact h
  | elsewhere append ws =>
    rw [Sys.stepO.eq_def] at ht
    simp only at ht
    rw [Sys.step] at ht
    rw [CEv.noFlush, Bool.and_eq_true, Bool.not_eq_true'] at hf
    obtain ⟨rfl, hf⟩ := hf
    obtain ⟨fs, h1, ht⟩ := res_bind_inv ht
    have e := Except.ok.inj ht
    subst e
    exact elsewhere_ordered ws (fun x hx => of_decide_eq_true (List.all_eq_true.mp hf x hx)) h h1
  | grow W' => have e := Except.ok.inj ht; subst e; exact h

theorem runO_ordered (es : List CEv) : ∀ {s t t' : Sys}, SimSys s t → Ordered t.c.fs → (∀ e ∈ es, e.noFlush = true) →
    t.runO es = .ok t' → Ordered t'.c.fs := by
  induction es with
  | nil => intro s t t' _ h _ ht; have e := Except.ok.inj ht; subst e; exact h
  | cons e es ih =>
    intro s t t' hs h hf ht
    rw [Sys.runO] at ht
    obtain ⟨t1, h1, ht⟩ := res_bind_inv ht
    have hsim := hs.step e
    rw [h1] at hsim
    generalize s.step e = a at hsim
    match a, hsim with
    | .ok s1, hsim =>
      exact ih hsim (stepO_ordered hs h (hf e List.mem_cons_self) h1) (fun x hx => hf x (List.mem_cons_of_mem _ hx)) ht

theorem Spec.Ordered.complete {fs : FS} (h : Ordered fs) : Complete fs := fun p toks hp =>
  (h p toks hp).imp fun _ h => h.1

/-- C73.  Without flushes (which only the FDB plugin asks for) every index file has its entries in increasing order of
offset, each once, whatever lookups and scans are made, in whatever order and however they overlap. -/
theorem C73_scanned_in_order (W : World) (mode : CacheMode) (lazy : Bool) (cap : Nat) (fs : FS) (h : Ordered fs)
    (es : List CEv) (hf : ∀ e ∈ es, e.noFlush = true) (t : Sys)
    (ht : (Sys.start W mode lazy cap fs).runO es = .ok t) : Ordered t.c.fs :=
  runO_ordered es (SimSys.start W mode lazy cap h.complete) h hf ht

theorem indexed_of_file {c : Cache} {path : String} {es : List (Nat × Info)}
    (h : c.fs.find (c.mode.indexPath path) = some (indexOf es)) (o : Nat) : c.indexed path o = AMap.find es o := by
  obtain ⟨m, h1, -, h3⟩ := loadIndex_of h
  rw [Cache.indexed_of_load h1, h3]

/-- C73.  Index files made by scans are reproducible: two histories without flushes, of whatever kind, that leave an index
for the same data file with the same entries, leave the same file, item for item. -/
theorem C73_reproducible {W W' : World} {mode mode' : CacheMode} {lazy lazy' : Bool} {cap cap' : Nat} {fs fs' : FS}
    (h : Ordered fs) (h' : Ordered fs') (es es' : List CEv) (hf : ∀ e ∈ es, e.noFlush = true)
    (hf' : ∀ e ∈ es', e.noFlush = true) (s t : Sys)
    (hs : (Sys.start W mode lazy cap fs).runO es = .ok s) (ht : (Sys.start W' mode' lazy' cap' fs').runO es' = .ok t)
    (path : String) (a b : List Tok) (ha : s.c.fs.find (s.c.mode.indexPath path) = some a)
    (hb : t.c.fs.find (t.c.mode.indexPath path) = some b) (hi : ∀ o, s.c.indexed path o = t.c.indexed path o) : a = b := by
  obtain ⟨x, rfl, hx⟩ := C73_scanned_in_order W mode lazy cap fs h es hf s hs _ _ ha
  obtain ⟨y, rfl, hy⟩ := C73_scanned_in_order W' mode' lazy' cap' fs' h' es' hf' t ht _ _ hb
  rw [hx.unique hy]
  intro o
  rw [← indexed_of_file ha, ← indexed_of_file hb, hi]

/-- One scan over an index in order. -/
theorem scanO_ordered (W : World) (c : Cache) (path : String) (offsets : List Nat) (es : List (Nat × Info))
    (hes : Increasing es) (hfile : c.fs.find (c.mode.indexPath path) = none ∧ es = [] ∨
      c.fs.find (c.mode.indexPath path) = some (indexOf es))
    (hd : ∀ o ∈ offsets, ∃ i, W.data path o = .ok i) :
    ∃ n c' es', c.scanO W path offsets = .ok (n, c') ∧ c'.mode = c.mode ∧ Increasing es' ∧
      c'.fs.find (c.mode.indexPath path) =
        (if es' = es then c.fs.find (c.mode.indexPath path) else some (indexOf es')) ∧
      (∀ p, p ≠ c.mode.indexPath path → c'.fs.find p = c.fs.find p) ∧
      (∀ o, AMap.find es' o = match AMap.find es o with
        | some i => some i
        | none => if o ∈ offsets then W.info path o else none) := by
  have hload : ∃ m, loadIndex c.fs (c.mode.indexPath path) = .ok (noNull m) ∧ (AMap.keys m).Nodup ∧
      ∀ o, AMap.find m o = AMap.find es o := by
    rcases hfile with ⟨h, rfl⟩ | h
    · exact ⟨[], loadIndex_none h, List.nodup_nil, fun _ => rfl⟩
    · exact loadIndex_of h
  obtain ⟨m, hl, hn, hm⟩ := hload
  rw [Cache.scanO, Cache.scanPlan, hl, ok_bind]
  simp only [indexFind_noNull, hm]
  by_cases he : (offsets.filter fun o => (AMap.find es o).isNone) = []
  · rw [if_pos he, ok_bind, Cache.scanCommitO]
    refine ⟨0, c, es, rfl, rfl, hes, by rw [if_pos rfl], fun _ _ => rfl, fun o => ?_⟩
    cases hf : AMap.find es o with
    | some i => rfl
    | none =>
      have : o ∉ offsets := fun ho => by
        have : o ∈ (offsets.filter fun o => (AMap.find es o).isNone) := List.mem_filter.mpr ⟨ho, by rw [hf]; rfl⟩
        rw [he] at this; cases this
      simp only
      rw [if_neg this]
  · rw [if_neg he]
    generalize hnew : (offsets.filter fun o => (AMap.find es o).isNone) = new at he
    have hmem : ∀ o, o ∈ new ↔ o ∈ offsets ∧ AMap.find es o = none := by
      intro o; rw [← hnew, List.mem_filter]; simp
    have hsm : ∀ o, o ∈ isort (fun a b => decide (a ≤ b)) new ↔ o ∈ new :=
      fun o => (isort_perm (fun a b => decide (a ≤ b)) new).mem_iff
    obtain ⟨is, his⟩ := extractInfos_total W path (isort (fun a b => decide (a ≤ b)) new) (by
      intro o ho
      exact hd o ((hmem o).mp ((hsm o).mp ho)).1)
    rw [his, ok_bind, ok_bind, insertAll_noNull, Cache.scanCommitO, writeSorted_noNull, ok_bind]
    have hnd := nodup_addAll m ((isort (fun a b => decide (a ≤ b)) new).zip is) hn
    have hfind : ∀ o, AMap.find (sortEntries (addAll m ((isort (fun a b => decide (a ≤ b)) new).zip is))) o =
        match AMap.find es o with
        | some i => some i
        | none => if o ∈ offsets then W.info path o else none := by
      intro o
      rw [find_sortEntries hnd, find_addAll, find_zip_info his, hm]
      cases hf : AMap.find es o with
      | some i => rfl
      | none => simp only [hsm, hmem, hf, and_true]
    refine ⟨_, _, _, rfl, rfl, sortEntries_increasing hnd, ?_, ?_, hfind⟩
    · show AMap.find (AMap.set _ _ _) _ = _
      rw [AMap.find_set, if_pos rfl]
      rw [if_neg]
      intro e
      obtain ⟨o, ho⟩ := List.exists_mem_of_ne_nil _ he
      obtain ⟨ho1, ho2⟩ := (hmem o).mp ho
      have := hfind o
      rw [e, ho2] at this
      simp only at this
      obtain ⟨i, hi⟩ := hd o ho1
      rw [if_pos ho1, World.info_some.mpr hi] at this
      cases this
    · intro p hp
      show AMap.find (AMap.set _ _ _) _ = _
      rw [AMap.find_set, if_neg (fun e => hp e.symm)]

theorem scansO_ordered (W : World) (path : String) (A : List (List Nat)) : ∀ (c : Cache) (es : List (Nat × Info)),
    Increasing es → (c.fs.find (c.mode.indexPath path) = none ∧ es = [] ∨
      c.fs.find (c.mode.indexPath path) = some (indexOf es)) → (∀ o ∈ A.flatten, ∃ i, W.data path o = .ok i) →
    ∃ c' es', c.scansO W path A = .ok c' ∧ c'.mode = c.mode ∧ Increasing es' ∧
      c'.fs.find (c.mode.indexPath path) =
        (if es' = es then c.fs.find (c.mode.indexPath path) else some (indexOf es')) ∧
      (∀ p, p ≠ c.mode.indexPath path → c'.fs.find p = c.fs.find p) ∧
      (∀ o, AMap.find es' o = match AMap.find es o with
        | some i => some i
        | none => if o ∈ A.flatten then W.info path o else none) := by
  induction A with
  | nil =>
    intro c es hes _ _
    refine ⟨c, es, rfl, rfl, hes, by rw [if_pos rfl], fun _ _ => rfl, fun o => ?_⟩
    cases AMap.find es o with
    | some i => rfl
    | none => simp
  | cons os A ih =>
    intro c es hes hfile hd
    obtain ⟨n, c1, e1, h1, h2, h3, h4, h5, h6⟩ := scanO_ordered W c path os es hes hfile
      (fun o ho => hd o (by rw [List.flatten_cons]; exact List.mem_append_left _ ho))
    have hfile1 : c1.fs.find (c1.mode.indexPath path) = none ∧ e1 = [] ∨
        c1.fs.find (c1.mode.indexPath path) = some (indexOf e1) := by
      rw [h2, h4]
      by_cases he : e1 = es
      · rw [if_pos he, he]; exact hfile
      · rw [if_neg he]; exact .inr rfl
    obtain ⟨c2, e2, g1, g2, g3, g4, g5, g6⟩ := ih c1 e1 h3 hfile1
      (fun o ho => hd o (by rw [List.flatten_cons]; exact List.mem_append_right _ ho))
    have g6' : ∀ o, AMap.find e2 o = match AMap.find es o with
        | some i => some i
        | none => if o ∈ (os :: A).flatten then W.info path o else none := by
      intro o
      rw [g6, h6]
      cases AMap.find es o with
      | some i => rfl
      | none =>
        simp only [List.flatten_cons, List.mem_append]
        by_cases ho : o ∈ os
        · rw [if_pos ho, if_pos (Or.inl ho)]
          cases W.info path o with
          | some i => rfl
          | none => simp
        · rw [if_neg ho]
          simp only [ho, false_or]
    refine ⟨c2, e2, ?_, g2.trans h2, g3, ?_, ?_, g6'⟩
    · rw [Cache.scansO, h1, ok_bind]; exact g1
    · rw [h2] at g4
      rw [g4]
      by_cases he : e2 = e1
      · subst he
        rw [if_pos rfl, h4]
      · rw [if_neg he]
        by_cases he2 : e2 = es
        · -- what a scan adds is not taken away again
          refine absurd ?_ he
          refine g3.unique h3 (fun o => ?_)
          have a1 := g6 o
          have a2 := h6 o
          rw [he2] at a1 ⊢
          cases hf : AMap.find es o with
          | some i => rw [hf] at a2; simp only at a2; rw [a2]
          | none =>
            rw [hf] at a1
            cases hf1 : AMap.find e1 o with
            | none => rfl
            | some i => rw [hf1] at a1; cases a1
        · rw [if_neg he2]
    · intro p hp
      rw [g5 p (by rw [h2]; exact hp), h5 p hp]

/-- C73.  However the messages of a file are divided among scans, and in whatever order they are scanned (again): if the
same messages are asked for, the index file is the same, item for item, and it holds their metadata by offset. -/
theorem C73_scans_in_any_order (W : World) (c : Cache) (path : String) (h : Ordered c.fs) (A B : List (List Nat))
    (hAB : ∀ o, o ∈ A.flatten ↔ o ∈ B.flatten) (hd : ∀ o ∈ A.flatten, ∃ i, W.data path o = .ok i) :
    ∃ a b, c.scansO W path A = .ok a ∧ c.scansO W path B = .ok b ∧ (∀ p, a.fs.find p = b.fs.find p) ∧
      ∀ o, a.indexed path o = match c.indexed path o with
        | some i => some i
        | none => if o ∈ A.flatten then W.info path o else none := by
  obtain ⟨es, hes, hfile⟩ : ∃ es, Increasing es ∧ (c.fs.find (c.mode.indexPath path) = none ∧ es = [] ∨
      c.fs.find (c.mode.indexPath path) = some (indexOf es)) := by
    cases hp : c.fs.find (c.mode.indexPath path) with
    | none => exact ⟨[], List.Pairwise.nil, .inl ⟨rfl, rfl⟩⟩
    | some toks =>
      obtain ⟨es, rfl, he⟩ := h _ _ hp
      exact ⟨es, he, .inr rfl⟩
  have hidx : ∀ (d : Cache) (e : List (Nat × Info)), (d.fs.find (d.mode.indexPath path) = none ∧ e = [] ∨
      d.fs.find (d.mode.indexPath path) = some (indexOf e)) → ∀ o, d.indexed path o = AMap.find e o := by
    rintro d e (⟨hd, rfl⟩ | hd) o
    · rw [Cache.indexed_of_load (loadIndex_none hd)]
    · exact indexed_of_file hd o
  obtain ⟨a, x, a1, a2, a3, a4, a5, a6⟩ := scansO_ordered W path A c es hes hfile hd
  obtain ⟨b, y, b1, b2, b3, b4, b5, b6⟩ := scansO_ordered W path B c es hes hfile
    (fun o ho => hd o ((hAB o).mpr ho))
  have hxy : x = y := a3.unique b3 (fun o => by rw [a6, b6]; simp only [hAB])
  subst hxy
  refine ⟨a, b, a1, b1, fun p => ?_, fun o => ?_⟩
  · by_cases hp : p = c.mode.indexPath path
    · subst hp; rw [a4, b4]
    · rw [a5 p hp, b5 p hp]
  · rw [hidx c es hfile, ← a6]
    refine hidx a x ?_ o
    rw [a2, a4]
    by_cases he : x = es
    · rw [if_pos he, he]; exact hfile
    · rw [if_neg he]; exact .inr rfl

/-- The history of the FDB plugin: two messages seen, written by one flush or by two. -/
def c73Flush (two : Bool) : List CEv :=
  if two then [.insert "/fdb/a" 204, .flush true, .insert "/fdb/a" 0, .flush true]
  else [.insert "/fdb/a" 204, .insert "/fdb/a" 0, .flush true]

/-- The index file, the offsets it has and whether it is in order. -/
def c73File (r : Res Sys) : Option (List Tok) :=
  match r with
  | .ok s => s.c.fs.find "/d/a.gribjump"
  | .error _ => none

def c73Says (r : Res Sys) (o : Nat) : Option Info :=
  match r with
  | .ok s => s.c.indexed "/fdb/a" o
  | .error _ => none

/-- C73 fails for flushes: the same messages flushed together or one by one leave different files (with the same entries),
one of them out of order. -/
theorem C73_flushes_not_reproducible :
    let one := (Sys.start sampleWorld (.directory "/d") true 16 []).runO (c73Flush false)
    let two := (Sys.start sampleWorld (.directory "/d") true 16 []).runO (c73Flush true)
    let i0 : Info := .simple { sampleBase with referenceValue := UInt64.ofNat 0 }
    let i1 : Info := .simple { sampleBase with referenceValue := UInt64.ofNat 204 }
    c73File one = some (indexOf [(0, i0), (204, i1)]) ∧ c73File two = some (indexOf [(204, i1), (0, i0)]) ∧
      c73File one ≠ c73File two ∧ c73Says one 0 = c73Says two 0 ∧ c73Says one 204 = c73Says two 204 :=
  ⟨by decide +kernel, by decide +kernel, by decide +kernel, by decide +kernel, by decide +kernel⟩

/-! ## gribjump-dump-info -/

/-- What an index file says of an offset, to whoever loads it. -/
def fileSays (fs : FS) (p : String) (o : Nat) : Option Info :=
  match loadIndex fs p with
  | .ok m => indexFind m o
  | .error _ => none

theorem printEntries_ok (es : List (Nat × Info)) : printEntries (noNull es) = .ok es := by
  induction es with
  | nil => rfl
  | cons p es ih =>
    show printEntries ((p.1, some p.2) :: noNull es) = _
    rw [printEntries, ih, ok_bind]

theorem dumpFiles_cons {fs : FS} {p : String} (h : ∃ es, fs.find p = some (indexOf es)) (ps : List String) :
    ∃ d : Dumped, dumpFiles fs (p :: ps) = (d :: (dumpFiles fs ps).1, (dumpFiles fs ps).2) ∧ d.path = p ∧
      Increasing d.entries ∧ d.count = d.entries.length ∧ ∀ o i, (o, i) ∈ d.entries ↔ fileSays fs p o = some i := by
  obtain ⟨es, he⟩ := h
  obtain ⟨m, h1, h2, -⟩ := loadIndex_of he
  refine ⟨⟨p, (noNull m).length, sortEntries m⟩, ?_, rfl, sortEntries_increasing h2, ?_, fun o i => ?_⟩
  · rw [dumpFiles, he]
    simp only
    rw [h1]
    simp only
    rw [printIndex, inOrder_noNull, printEntries_ok, ok_bind]
  · show (noNull m).length = (sortEntries m).length
    rw [(sortEntries_perm m).length_eq, noNull, List.length_map]
  · rw [fileSays, h1]
    simp only
    rw [indexFind_noNull, ← mem_iff_find' h2, (sortEntries_perm m).mem_iff]

/-- C73.  Of index files that were not cut short, `gribjump-dump-info` prints for each in turn its path, the number of its
entries and the entries: exactly what a lookup would find in it, each offset once, in increasing order. -/
theorem C73_dump (fs : FS) (ps : List String) (h : ∀ p ∈ ps, ∃ es, fs.find p = some (indexOf es)) :
    (dumpFiles fs ps).2 = .ok () ∧ (dumpFiles fs ps).1.map (·.path) = ps ∧
      ∀ d ∈ (dumpFiles fs ps).1, Increasing d.entries ∧ d.count = d.entries.length ∧
        ∀ o i, (o, i) ∈ d.entries ↔ fileSays fs d.path o = some i := by
  induction ps with
  | nil => exact ⟨rfl, rfl, fun d hd => by cases hd⟩
  | cons p ps ih =>
    obtain ⟨i1, i2, i3⟩ := ih (fun q hq => h q (List.mem_cons_of_mem _ hq))
    obtain ⟨d, h1, h2, h3, h4, h5⟩ := dumpFiles_cons (h p List.mem_cons_self) ps
    rw [h1]
    refine ⟨i1, ?_, fun x hx => ?_⟩
    · rw [List.map_cons, h2, i2]
    · rcases List.mem_cons.mp hx with rfl | hx
      · exact ⟨h3, h4, by rw [h2]; exact h5⟩
      · exact i3 x hx

/-- C73.  A path without a file ends the tool with a user error, after the indexes before it have been printed. -/
theorem C73_dump_missing (fs : FS) (ps qs : List String) (p : String)
    (h : ∀ p ∈ ps, ∃ es, fs.find p = some (indexOf es)) (hp : fs.find p = none) :
    dumpFiles fs (ps ++ p :: qs) = ((dumpFiles fs ps).1, throwExn .userError) := by
  induction ps with
  | nil =>
    show dumpFiles fs (p :: qs) = ([], throwExn .userError)
    rw [dumpFiles, hp]
  | cons q ps ih =>
    have ih := ih (fun x hx => h x (List.mem_cons_of_mem _ hx))
    obtain ⟨d, -, h1⟩ : ∃ d, True ∧ ∀ l, dumpFiles fs (q :: l) = (d :: (dumpFiles fs l).1, (dumpFiles fs l).2) := by
      obtain ⟨es, he⟩ := h q List.mem_cons_self
      obtain ⟨m, h1, -, -⟩ := loadIndex_of he
      refine ⟨⟨q, (noNull m).length, sortEntries m⟩, trivial, fun l => ?_⟩
      rw [dumpFiles, he]
      simp only
      rw [h1]
      simp only
      rw [printIndex, inOrder_noNull, printEntries_ok, ok_bind]
    rw [List.cons_append, h1, h1, ih]

/-- C73 fails for an index cut short: after a process was stopped while it appended, showing the index dereferences a null
pointer; stopped a little later, the tool ends with a stream error. -/
theorem C73_dump_undefined :
    (dumpFiles stoppedFlush ["/d/a.gribjump"]).2 = undef ∧
    (dumpFiles (runOps sampleIndex ((appendOps "/d/a.gribjump" (entryToks [(204, .simple sampleBase)])).take 5))
      ["/d/a.gribjump"]).2 = throwExn .streamError :=
  ⟨by decide +kernel, by decide +kernel⟩

/-! ## gribjump-scan -/

/-- C73.  The scan tool with requests on the command line: every request is parsed, in the order given, and all are scanned
by one call; files are scanned whole only if `--byfiles` says so. -/
theorem C73_tool_arguments (E : ScanEnv) (C : ScanConf) (c : Cache) (T : ScanToolEnv) (raw byfiles : Option Bool)
    (args : List String) (parsed : List (List String)) (hp : args.mapM (T.fromString (raw.getD false)) = .ok parsed)
    (sched : List ScanEv) :
    toolScan E C c T ⟨raw, byfiles, none, args⟩ sched = apiScan E C c parsed.flatten (byfiles.getD false) sched := by
  have : scanToolRequests T ⟨raw, byfiles, none, args⟩ = .ok parsed.flatten := by
    rw [scanToolRequests]
    simp only [Option.getD_none]
    rw [if_neg (by simp), if_neg (by simp), hp, ok_bind]
  rw [toolScan, this, ok_bind]

/-- C73.  The scan tool with a file of requests: raw, those of the file; otherwise their expansion. -/
theorem C73_tool_file (E : ScanEnv) (C : ScanConf) (c : Cache) (T : ScanToolEnv) (raw : Bool) (byfiles : Option Bool)
    (file : String) (hf : file ≠ "") (text : Str) (ht : T.text file = some text) (rs es : List String)
    (hp : T.parse text = .ok rs) (he : T.expand rs = .ok es) (sched : List ScanEv) :
    toolScan E C c T ⟨some raw, byfiles, some file, []⟩ sched =
      apiScan E C c (if raw then rs else es) (byfiles.getD false) sched := by
  have : scanToolRequests T ⟨some raw, byfiles, some file, []⟩ = .ok (if raw then rs else es) := by
    rw [scanToolRequests]
    simp only [Option.getD_some]
    rw [if_neg (by simp), if_pos hf, ht, Option.getD_some, hp, ok_bind]
    cases raw with
    | true => rfl
    | false => exact he
  rw [toolScan, this, ok_bind]

/-- C73.  Requests both in a file and on the command line, or no request at all: a user error, and nothing is scanned.  A
file that cannot be opened counts as one without requests; it is not reported as a read error. -/
theorem C73_tool_refuses (E : ScanEnv) (C : ScanConf) (c : Cache) (T : ScanToolEnv) (raw byfiles : Option Bool)
    (sched : List ScanEv) :
    (∀ (file : String) (args : List String), file ≠ "" → args ≠ [] →
      toolScan E C c T ⟨raw, byfiles, some file, args⟩ sched = throwExn .userError) ∧
    toolScan E C c T ⟨raw, byfiles, none, []⟩ sched = throwExn .userError ∧
    (∀ file : String, file ≠ "" → T.text file = none → T.parse [] = .ok [] → T.expand [] = .ok [] →
      toolScan E C c T ⟨raw, byfiles, some file, []⟩ sched = throwExn .userError) := by
  refine ⟨fun file args hf ha => ?_, ?_, fun file hf ht hp he => ?_⟩
  · have : scanToolRequests T ⟨raw, byfiles, some file, args⟩ = throwExn .userError := by
      rw [scanToolRequests]
      simp only [Option.getD_some]
      rw [if_pos ⟨ha, hf⟩]
    rw [toolScan, this]; rfl
  · rw [C73_tool_arguments E C c T raw byfiles [] [] rfl sched]
    exact if_pos rfl
  · have : scanToolRequests T ⟨raw, byfiles, some file, []⟩ = .ok [] := by
      rw [scanToolRequests]
      simp only [Option.getD_some]
      rw [if_neg (by simp), if_pos hf, ht, Option.getD_none, hp, ok_bind, he]
      exact ite_self _
    rw [toolScan, this, ok_bind]
    exact if_pos rfl

def c73Tool : ScanToolEnv where
  text f := if f = "reqs" then some "q".toList else none
  parse s := .ok (if s = [] then [] else [String.ofList s])
  expand := .ok
  fromString _ s := .ok [s]

/-- What the tool leaves in the index of the first file for the message that no request lists. -/
def c73Scanned (byfiles : Option Bool) : Option (Nat × Bool) :=
  match toolScan c51Env c51Conf c51Cache c73Tool ⟨none, byfiles, none, ["q"]⟩ [] with
  | .ok (n, c) => some (n, (c.indexed "/fdb/a" 204).isSome)
  | .error _ => none

/-- C73 fails: the help text says that whole files are scanned unless one asks otherwise; without the option only the
messages listed are. -/
theorem C73_byfiles_not_default :
    c73Scanned none = some (2, false) ∧ c73Scanned (some true) = some (4, true) ∧
      c73Scanned (some false) = c73Scanned none :=
  ⟨by decide +kernel, by decide +kernel, by decide +kernel⟩

/-! ## The hypotheses are met -/

theorem sampleIndex_ordered : Ordered sampleIndex := by
  intro p toks h
  rw [sampleIndex, AMap.find] at h
  split at h
  · exact ⟨_, (Option.some.inj h).symm, List.pairwise_singleton _ _⟩
  · cases h

/-- A history with overlapping scans of a file that has an index. -/
def c73History : List CEv :=
  [.scan "/fdb/a" [408], .scan "/fdb/a" [816, 204], .lookup "/fdb/a" [204, 0], .commit 0, .answer 0, .commit 0,
    .scan "/fdb/a" [408], .commit 0]

/-- The offsets in an index file, in the order in which they are there. -/
def c73Offsets (r : Res Sys) : List Nat :=
  match r with
  | .ok s => match loadIndex s.c.fs "/d/a.gribjump" with
    | .ok m => m.keys
    | .error _ => []
  | .error _ => []

/-- Non-vacuity: written as they come the entries are out of order, written by offset they are in order. -/
example : Ordered sampleIndex ∧ (∀ e ∈ c73History, e.noFlush = true) ∧
    c73Offsets ((Sys.start sampleWorld (.directory "/d") true 16 sampleIndex).run c73History) = [0, 204, 816, 408] ∧
    c73Offsets ((Sys.start sampleWorld (.directory "/d") true 16 sampleIndex).runO c73History) = [0, 204, 408, 816] :=
  ⟨sampleIndex_ordered, by simp [c73History, CEv.noFlush], by decide +kernel, by decide +kernel⟩

/-- Non-vacuity: three scans in one order, two in another. -/
example : (∀ o, o ∈ [[408], [816, 0], [408, 408]].flatten ↔ o ∈ [[816], [0, 408]].flatten) ∧
    (∀ o ∈ [[408], [816, 0], [408, 408]].flatten, ∃ i, sampleWorld.data "/fdb/a" o = .ok i) := by
  refine ⟨fun o => by simp; omega, fun o ho => ?_⟩
  simp at ho
  rcases ho with rfl | rfl | rfl | rfl <;> exact ⟨_, rfl⟩

/-- Non-vacuity: an index out of order (two flushes) is shown in order. -/
example : ((dumpFiles [("/d/a.gribjump", indexOf [(204, .simple sampleBase), (0, .simple sampleBase), (204, .unsupported sampleBase)])]
      ["/d/a.gribjump", "/d/b.gribjump"]).1.map fun d => (d.count, d.entries.map (·.1))) = [(2, [0, 204])] ∧
    (dumpFiles [("/d/a.gribjump", indexOf [(204, .simple sampleBase), (0, .simple sampleBase)])]
      ["/d/a.gribjump", "/d/b.gribjump"]).2 = throwExn .userError :=
  ⟨by decide +kernel, by decide +kernel⟩

end GJ
