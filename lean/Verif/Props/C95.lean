import Verif.Model.Together
import Verif.Lemmas.Shared
import Verif.Props.C87

/-!
# C95: what one process indexes, all processes over the same files serve

Servers, scanning tools and archiving processes over the same data and index files, in every interleaving, each of them ended and
started again at any time.
-/

namespace GJ
open Spec

/-- The event concerns files in use. -/
def GEv.Allowed (U : String → Prop) : GEv → Prop
  | .act _ e => e.Allowed U
  | .again _ _ cap => 0 < cap

/-- Flushes append; writers that are not listed append, or write the whole index with the entry. -/
def GEv.Keeps (mode : CacheMode) (path : String) (o : Nat) : GEv → Prop
  | .act _ e => e.Keeps mode path o
  | .again _ _ _ => True

/-- The event starts no scan of the file. -/
def GEv.NoScan (mode : CacheMode) (path : String) : GEv → Prop
  | .act _ e => e.NoScan mode path
  | .again _ _ _ => True

/-- No process is scanning the file. -/
def Together.Idle (s : Nat → Svc UInt64) (path : String) : Prop := ∀ i, ¬ (s i).sys.Scanning path

/-- All have right caches and the same files. -/
structure Joint (R : Reader UInt64) (offs : List UInt8 → Res (List Nat)) (U : String → Prop) (mode : CacheMode)
    (s : Nat → Svc UInt64) : Prop where
  good : ∀ i, SvcGood R offs U (s i)
  mode : ∀ i, (s i).sys.c.mode = mode
  disk : ∀ i j, (s i).disk = (s j).disk
  fs : ∀ i j, (s i).sys.c.fs = (s j).sys.c.fs

section
variable {R : Reader UInt64} {offs : List UInt8 → Res (List Nat)} {U : String → Prop} {mode : CacheMode}

theorem Joint.start (hoffs : ∀ file, offs file ≠ undef) (apart : ToldApart mode U) {d : Disk} {lazy : Nat → Bool} {cap : Nat → Nat}
    {fs : FS} (room : ∀ i, 0 < cap i) (agree : GoodIndex (diskWorld R offs d) U mode fs) :
    Joint R offs U mode (Together.start R offs d mode lazy cap fs) where
  good i := SvcGood.start hoffs apart (room i) agree
  mode _ := rfl
  disk _ _ := rfl
  fs _ _ := rfl

theorem SEv.Allowed.writes {e : SEv} (h : e.Allowed U) : (∀ ap ws, e = .cache (.elsewhere ap ws) → ∀ x ∈ ws, U x.1) ∧
    ∀ W, e ≠ .cache (.grow W) := by
  refine ⟨?_, ?_⟩
  · rintro ap ws rfl
    exact h
  · rintro W rfl
    exact h

/-- One step is defined, and leaves everything right. -/
theorem Joint.step (sound : SoundReader R) (hoffs : ∀ file, offs file ≠ undef) {s : Nat → Svc UInt64} (J : Joint R offs U mode s)
    (e : GEv) (ha : e.Allowed U) : ∃ s', Together.step R offs s e = .ok s' ∧ Joint R offs U mode s' := by
  cases e with
  | act i e =>
    obtain ⟨t, ht, g⟩ := (J.good i).step sound hoffs e ha
    obtain ⟨hm, o, ho1, -, ho3⟩ := svc_step_seen (J.good i) ha.writes.1 ha.writes.2 ht
    refine ⟨_, by rw [Together.step, ht, ok_bind], ?_⟩
    have hov : ∀ j, SvcGood R offs U ((s j).over R offs t.disk t.sys.c.fs) := by
      intro j
      have hj := ho3 (s j) (J.disk j i) (by rw [(J.good j).world, (J.good i).world, J.disk j i])
        ((J.mode j).trans (J.mode i).symm) (J.fs j i)
      have hal : o.on.Allowed U := by cases o <;> first | exact ho1 | trivial
      obtain ⟨t', h1, g'⟩ := (J.good j).step sound hoffs o.on hal
      rw [hj] at h1
      cases h1
      exact g'
    have hd : ∀ j, (if j = i then t else (s j).over R offs t.disk t.sys.c.fs).disk = t.disk := by
      intro j; split <;> rfl
    have hf : ∀ j, (if j = i then t else (s j).over R offs t.disk t.sys.c.fs).sys.c.fs = t.sys.c.fs := by
      intro j; split <;> rfl
    refine ⟨fun j => ?_, fun j => ?_, fun j k => (hd j).trans (hd k).symm, fun j k => (hf j).trans (hf k).symm⟩
    · split
      · exact g
      · exact hov j
    · split
      · exact hm.trans (J.mode i)
      · exact J.mode j
  | again i lazy cap =>
    have gi := J.good i
    have g : SvcGood R offs U (Svc.start R offs (s i).disk (s i).sys.c.mode lazy cap (s i).sys.c.fs) :=
      SvcGood.start hoffs gi.cache.sep ha (by rw [← gi.world]; exact gi.cache.index)
    refine ⟨_, rfl, fun j => ?_, fun j => ?_, fun j k => ?_, fun j k => ?_⟩
    · split
      · exact g
      · exact J.good j
    · split
      · exact J.mode i
      · exact J.mode j
    · split <;> split <;> first | rfl | exact J.disk _ _
    · split <;> split <;> first | rfl | exact J.fs _ _

theorem Joint.run (sound : SoundReader R) (hoffs : ∀ file, offs file ≠ undef) : ∀ (es : List GEv) {s : Nat → Svc UInt64},
    Joint R offs U mode s → (∀ e ∈ es, e.Allowed U) → ∃ s', Together.run R offs s es = .ok s' ∧ Joint R offs U mode s' := by
  intro es
  induction es with
  | nil => intro s J _; exact ⟨s, rfl, J⟩
  | cons e es ih =>
    intro s J ha
    obtain ⟨s1, h1, J1⟩ := J.step sound hoffs e (ha e List.mem_cons_self)
    obtain ⟨s2, h2, J2⟩ := ih J1 fun e he => ha e (List.mem_cons_of_mem _ he)
    exact ⟨s2, by rw [Together.run, h1, ok_bind]; exact h2, J2⟩

/-- What every step keeps, every run keeps. -/
theorem Joint.run_keeps (sound : SoundReader R) (hoffs : ∀ file, offs file ≠ undef) {P : (Nat → Svc UInt64) → Prop} {Q : GEv → Prop}
    (hstep : ∀ s s' e, Joint R offs U mode s → e.Allowed U → Q e → P s → Together.step R offs s e = .ok s' → P s') :
    ∀ (es : List GEv) {s s' : Nat → Svc UInt64}, Joint R offs U mode s → P s → (∀ e ∈ es, e.Allowed U) → (∀ e ∈ es, Q e) →
      Together.run R offs s es = .ok s' → Joint R offs U mode s' ∧ P s' := by
  intro es
  induction es with
  | nil => intro s s' J hp _ _ h; cases h; exact ⟨J, hp⟩
  | cons e es ih =>
    intro s s' J hp ha hq h
    rw [Together.run] at h
    obtain ⟨s1, h1, h2⟩ := res_bind_inv h
    obtain ⟨s1', h1', J1⟩ := J.step sound hoffs e (ha e List.mem_cons_self)
    rw [h1] at h1'
    cases h1'
    exact ih J1 (hstep s s1 e J (ha e List.mem_cons_self) (hq e List.mem_cons_self) hp h1)
      (fun e he => ha e (List.mem_cons_of_mem _ he)) (fun e he => hq e (List.mem_cons_of_mem _ he)) h2

/-- A step of a process, seen from its cache: a step of the cache, or one that leaves everything but the data files. -/
theorem Svc.step_sys {s t : Svc UInt64} {e : SEv} (h : s.step R offs e = .ok t) :
    (∃ c, e = .cache c ∧ s.sys.step c = .ok t.sys ∧ t.disk = s.disk) ∨
    ((∀ c, e ≠ .cache c) ∧ t.sys.c = s.sys.c ∧ t.sys.scans = s.sys.scans ∧ t.sys.answers = s.sys.answers) := by
  cases e with
  | cache c =>
    rw [Svc.step] at h
    obtain ⟨y, hy, h⟩ := res_bind_inv h
    cases h
    exact .inl ⟨c, rfl, hy, rfl⟩
  | append p b => cases h; exact .inr ⟨(fun _ h => by cases h), rfl, rfl, rfl⟩
  | jump k j is =>
    rw [Svc.step] at h
    refine .inr ⟨(fun _ h => by cases h), ?_⟩
    split at h
    · split at h <;> (cases h; exact ⟨rfl, rfl, rfl⟩)
    · cases h; exact ⟨rfl, rfl, rfl⟩

theorem SEv.Allowed.cache {c : CEv} {W : World} (h : SEv.Allowed U (.cache c)) : GJ.Allowed U W c := by
  cases c <;> first | exact h | trivial | exact absurd h id

theorem Svc.step_kept {s t : Svc UInt64} {e : SEv} (g : SvcGood R offs U s) (ha : e.Allowed U) {path : String} {o : Nat}
    (hk : e.Keeps s.sys.c.mode path o) (h : KeptEntry s.sys path o) (hs : s.step R offs e = .ok t) : KeptEntry t.sys path o := by
  rcases Svc.step_sys hs with ⟨c, rfl, hc, -⟩ | ⟨-, h1, h2, -⟩
  · exact h.step g.cache ha.cache hk hc
  · exact h.same (by rw [h1]) (by rw [h1]) (fun x hx => by rw [← h2]; exact hx)

/-- An entry that is in the index, and that no scan under way leaves out, stays so, for every process. -/
theorem Joint.kept {s s' : Nat → Svc UInt64} {e : GEv} (J : Joint R offs U mode s) (ha : e.Allowed U) {path : String} {o : Nat}
    (hk : e.Keeps mode path o) (h : ∀ i, KeptEntry (s i).sys path o) (hs : Together.step R offs s e = .ok s') :
    ∀ i, KeptEntry (s' i).sys path o := by
  intro j
  cases e with
  | act i e =>
    rw [Together.step] at hs
    obtain ⟨t, ht, hs⟩ := res_bind_inv hs
    cases hs
    have kt := Svc.step_kept (J.good i) ha (by rw [J.mode i]; exact hk) (h i) ht
    have hm := (svc_step_seen (J.good i) ha.writes.1 ha.writes.2 ht).1
    simp only
    split
    · exact kt
    · refine ⟨?_, (h j).plans⟩
      have := indexed_iff.mp kt.here
      rw [hm, J.mode i, ← J.mode j] at this
      exact indexed_iff.mpr this
  | again i lazy cap =>
    cases hs
    simp only
    split
    · exact ⟨indexed_iff.mpr (indexed_iff.mp (h i).here), fun x hx => by cases hx⟩
    · exact h j

/-- While nobody scans the file, it is enough that the entry is in the index. -/
theorem Joint.everyone {s : Nat → Svc UInt64} (J : Joint R offs U mode s) {path : String} {o w : Nat} (idle : Together.Idle s path)
    (h : KeptEntry (s w).sys path o) : ∀ i, KeptEntry (s i).sys path o := by
  intro i
  refine ⟨?_, fun x hx hp => absurd ⟨x, hx, hp⟩ (idle i)⟩
  have := indexed_iff.mp h.here
  rw [J.mode w, J.fs w i, ← J.mode i] at this
  exact indexed_iff.mpr this

/-- What a process answers in one step. -/
def Together.newAnswers (s s' : Nat → Svc UInt64) (i : Nat) : List Answer := (s' i).sys.answers.drop (s i).sys.answers.length

/-- From a state in which entries are there for everybody: they stay, and lookups of them are answered, by everybody. -/
theorem Joint.serves (sound : SoundReader R) (hoffs : ∀ file, offs file ≠ undef) {s s1 s2 : Nat → Svc UInt64}
    (J : Joint R offs U mode s) {path : String} {os : List Nat} (kept : ∀ i, ∀ o ∈ os, KeptEntry (s i).sys path o)
    {after : List GEv} {i : Nat} {e : SEv} (ha : ∀ x ∈ after ++ [.act i e], x.Allowed U)
    (hk : ∀ x ∈ after, ∀ o ∈ os, x.Keeps mode path o) (run1 : Together.run R offs s after = .ok s1)
    (last : Together.step R offs s1 (.act i e) = .ok s2) :
    ∀ a ∈ Together.newAnswers s1 s2 i, a.path = path → a.offsets.Nodup → (∀ o ∈ a.offsets, o ∈ os) →
      ∃ is, a.result = .ok is ∧ extractInfos (diskWorld R offs (s2 i).disk) path a.offsets = .ok is := by
  obtain ⟨J1, k1⟩ := Joint.run_keeps sound hoffs (P := fun s => ∀ i, ∀ o ∈ os, KeptEntry (s i).sys path o)
    (Q := fun x => ∀ o ∈ os, x.Keeps mode path o)
    (fun s s' e J ha hq hp hs i o ho => J.kept ha (hq o ho) (fun j => hp j o ho) hs i) after J kept
    (fun x hx => ha x (List.mem_append_left _ hx)) hk run1
  have hae : e.Allowed U := ha (.act i e) (by simp)
  obtain ⟨s2', h2', J2⟩ := J1.step sound hoffs (.act i e) hae
  rw [last] at h2'
  cases h2'
  intro a ha hp hnd hos
  have good := (J2.good i).cache.answers a (List.mem_of_mem_drop ha)
  rw [(J2.good i).world, hp] at good
  rw [Together.step] at last
  obtain ⟨t, ht, last⟩ := res_bind_inv last
  cases last
  have ha' : a ∈ t.sys.answers.drop (s1 i).sys.answers.length := by
    have := ha
    rw [Together.newAnswers] at this
    simpa using this
  rcases Svc.step_sys ht with ⟨c, rfl, hc, -⟩ | ⟨-, -, -, h3⟩
  · obtain ⟨new, hn, hsv⟩ := Sys.step_serves_kept (J1.good i).cache (K := fun p o => p = path ∧ o ∈ os)
      (fun p o h => by obtain ⟨rfl, ho⟩ := h; exact k1 i o ho) hc
    rw [hn, List.drop_left] at ha'
    obtain ⟨is, his⟩ := hsv a ha' hnd fun o ho => ⟨hp, hos o ho⟩
    exact ⟨is, his, good is his⟩
  · rw [h3, List.drop_length] at ha'
    cases ha'

/-- C95.  Processes over the same files, right index files to begin with; whatever they do, in every interleaving, ending and starting
again: nothing is undefined, and whatever metadata any of them returns is what the data say. -/
theorem C95_answers_right (sound : SoundReader R) (hoffs : ∀ file, offs file ≠ undef) (apart : ToldApart mode U) (d : Disk)
    (lazy : Nat → Bool) (cap : Nat → Nat) (fs : FS) (room : ∀ i, 0 < cap i) (agree : GoodIndex (diskWorld R offs d) U mode fs)
    (es : List GEv) (allowed : ∀ e ∈ es, e.Allowed U) :
    ∃ s, Together.run R offs (Together.start R offs d mode lazy cap fs) es = .ok s ∧
      (∀ i j, (s i).disk = (s j).disk ∧ (s i).sys.c.fs = (s j).sys.c.fs) ∧
      ∀ i, ∀ a ∈ (s i).sys.answers, ∀ is, a.result = .ok is →
        extractInfos (diskWorld R offs (s i).disk) a.path a.offsets = .ok is := by
  obtain ⟨s, h, J⟩ := (Joint.start hoffs apart room agree).run sound hoffs es allowed
  refine ⟨s, h, fun i j => ⟨J.disk i j, J.fs i j⟩, fun i a ha is his => ?_⟩
  rw [← (J.good i).world]
  exact (J.good i).cache.answers a ha is his

/-- C95.  Messages that are in the index files when the processes are started are served by all of them, whatever they do, as long as
flushes append. -/
theorem C95_indexed_before_served_by_all_partial (sound : SoundReader R) (hoffs : ∀ file, offs file ≠ undef) (apart : ToldApart mode U)
    (d : Disk) (lazy : Nat → Bool) (cap : Nat → Nat) (fs : FS) (room : ∀ i, 0 < cap i) (agree : GoodIndex (diskWorld R offs d) U mode fs)
    (path : String) (os : List Nat) (indexed : ∀ o ∈ os, Entry fs (mode.indexPath path) o) (es : List GEv) (i : Nat) (e : SEv)
    (s1 s2 : Nat → Svc UInt64) (allowed : ∀ x ∈ es ++ [.act i e], x.Allowed U)
    (run : Together.run R offs (Together.start R offs d mode lazy cap fs) es = .ok s1)
    (keeps : ∀ x ∈ es, ∀ o ∈ os, x.Keeps mode path o) (last : Together.step R offs s1 (.act i e) = .ok s2) :
    ∀ a ∈ Together.newAnswers s1 s2 i, a.path = path → a.offsets.Nodup → (∀ o ∈ a.offsets, o ∈ os) →
      ∃ is, a.result = .ok is ∧ extractInfos (diskWorld R offs (s2 i).disk) path a.offsets = .ok is :=
  (Joint.start hoffs apart room agree).serves sound hoffs
    (fun _ o ho => ⟨indexed_iff.mpr (indexed o ho), fun x hx => by cases hx⟩) allowed keeps run last

/-! ## Archiving -/

/-- What process `w` inserted waits to be written, whatever the others do. -/
theorem staged_step {s s' : Nat → Svc UInt64} {e : GEv} {path : String} {o w : Nat} (h : (s w).sys.Staged path o)
    (hq : (∀ a, e ≠ .act w (.cache (.flush a))) ∧ ∀ lazy cap, e ≠ .again w lazy cap) (hs : Together.step R offs s e = .ok s') :
    (s' w).sys.Staged path o := by
  cases e with
  | act i e =>
    rw [Together.step] at hs
    obtain ⟨t, ht, hs⟩ := res_bind_inv hs
    cases hs
    simp only
    split
    · rename_i hwi
      subst hwi
      rcases Svc.step_sys ht with ⟨c, rfl, hc, -⟩ | ⟨-, h1, -, -⟩
      · exact h.step (fun a ha => hq.1 a (by rw [ha])) hc
      · unfold Sys.Staged
        rw [h1]
        exact h
    · exact h
  | again i lazy cap =>
    cases hs
    simp only
    split
    · rename_i hwi
      exact absurd (by rw [hwi]) (hq.2 lazy cap)
    · exact h

theorem Together.run_append (l1 l2 : List GEv) : ∀ s : Nat → Svc UInt64,
    Together.run R offs s (l1 ++ l2) = (Together.run R offs s l1 >>= fun s' => Together.run R offs s' l2) := by
  induction l1 with
  | nil => intro s; rfl
  | cons e l1 ih =>
    intro s
    rw [List.cons_append, Together.run, Together.run]
    cases Together.step R offs s e with
    | error f => rfl
    | ok s1 => exact ih s1

/-- Data files only grow, for every process. -/
theorem Joint.step_disk {s s' : Nat → Svc UInt64} {e : GEv} (J : Joint R offs U mode s) (hs : Together.step R offs s e = .ok s') (j : Nat) :
    (s j).disk.Before (s' j).disk := by
  cases e with
  | act i e =>
    rw [Together.step] at hs
    obtain ⟨t, ht, hs⟩ := res_bind_inv hs
    cases hs
    have hr : (s i).run R offs [e] = .ok t := by rw [Svc.run, ht]; rfl
    have := Svc.run_disk [e] hr
    rw [J.disk i j] at this
    simp only
    split
    · exact this
    · exact this
  | again i lazy cap =>
    cases hs
    simp only
    split
    · rename_i h; subst h; exact Disk.Before.refl _
    · exact Disk.Before.refl _

/-- C95.  A process `w` sees messages archived and inserts their metadata, then flushes, appending, while no process scans the file; in
between it neither flushes nor ends.  Before, meanwhile and afterwards all processes do what they like, and end and start again; only
flushes that rewrite an index are excluded afterwards.  From then on every lookup of those messages that ends, in whatever process and
whenever it began, is answered with what the data say.  Missing from the full property: files being scanned at that moment
(`C95_scan_elsewhere_refused`), and names of files the cache confuses (C15). -/
theorem C95_archived_served_by_all_partial (sound : SoundReader R) (hoffs : ∀ file, offs file ≠ undef) (apart : ToldApart mode U) (d : Disk)
    (lazy : Nat → Bool) (cap : Nat → Nat) (fs : FS) (room : ∀ i, 0 < cap i) (agree : GoodIndex (diskWorld R offs d) U mode fs)
    (w : Nat) (path : String) (os : List Nat) (before during after : List GEv) (i : Nat) (e : SEv)
    (s0 s1 s2 s3 s4 : Nat → Svc UInt64)
    (allowed : ∀ x ∈ before ++ during ++ after ++ [.act i e], x.Allowed U)
    (run0 : Together.run R offs (Together.start R offs d mode lazy cap fs) before = .ok s0)
    (there : ∀ o ∈ os, ∃ info, (diskWorld R offs (s0 w).disk).data path o = .ok info)
    (run1 : Together.run R offs s0 during = .ok s1) (inserted : ∀ o ∈ os, GEv.act w (.cache (.insert path o)) ∈ during)
    (unflushed : ∀ a, GEv.act w (.cache (.flush a)) ∉ during) (alive : ∀ lazy cap, GEv.again w lazy cap ∉ during)
    (idle : Together.Idle s1 path) (flushed : Together.step R offs s1 (.act w (.cache (.flush true))) = .ok s2)
    (run2 : Together.run R offs s2 after = .ok s3) (keeps : ∀ x ∈ after, ∀ o ∈ os, x.Keeps mode path o)
    (last : Together.step R offs s3 (.act i e) = .ok s4) :
    ∀ a ∈ Together.newAnswers s3 s4 i, a.path = path → a.offsets.Nodup → (∀ o ∈ a.offsets, o ∈ os) →
      ∃ is, a.result = .ok is ∧ extractInfos (diskWorld R offs (s4 i).disk) path a.offsets = .ok is := by
  have al : ∀ {l : List GEv}, (∀ x ∈ l, x ∈ before ++ during ++ after ++ [.act i e]) → ∀ x ∈ l, x.Allowed U :=
    fun hl x hx => allowed x (hl x hx)
  have step0 : ∀ {l : List GEv} {s s' : Nat → Svc UInt64}, Joint R offs U mode s → (∀ x ∈ l, x.Allowed U) →
      Together.run R offs s l = .ok s' → Joint R offs U mode s' ∧ (s w).disk.Before (s' w).disk := by
    intro l s s' J ha hr
    exact Joint.run_keeps sound hoffs (P := fun t => (s w).disk.Before (t w).disk) (Q := fun _ => True)
      (fun t t' e J _ _ hp hs => hp.trans (J.step_disk hs w)) l J (Disk.Before.refl _) ha (fun _ _ => trivial) hr
  obtain ⟨J0, -⟩ := step0 (Joint.start hoffs apart room agree) (al fun x hx => by simp [hx]) run0
  obtain ⟨J1, -⟩ := step0 J0 (al fun x hx => by simp [hx]) run1
  have staged : ∀ o ∈ os, (s1 w).sys.Staged path o := by
    intro o ho
    obtain ⟨l1, l2, hl⟩ := List.append_of_mem (inserted o ho)
    rw [hl, Together.run_append] at run1
    obtain ⟨sa, ha, run1⟩ := res_bind_inv run1
    rw [Together.run] at run1
    obtain ⟨sb, hb, run1⟩ := res_bind_inv run1
    obtain ⟨Ja, da⟩ := step0 J0 (al fun x hx => by simp [hl, hx]) ha
    obtain ⟨sb', hb', Jb⟩ := Ja.step sound hoffs _ (allowed (.act w (.cache (.insert path o))) (by simp [hl]))
    rw [hb] at hb'
    cases hb'
    obtain ⟨info, hi⟩ := there o ho
    have hi' : (sa w).sys.W.data path o = .ok info := by
      rw [(Ja.good w).world]
      exact da.grown sound (offs := offs) _ _ _ hi
    rw [Together.step] at hb
    obtain ⟨t, ht, hb⟩ := res_bind_inv hb
    rw [Svc.step] at ht
    obtain ⟨y, hy, ht⟩ := res_bind_inv ht
    cases ht
    cases hb
    have hst : y.Staged path o := insert_staged (Ja.good w).cache hi' hy
    refine (Joint.run_keeps sound hoffs (P := fun s => (s w).sys.Staged path o)
      (Q := fun e => (∀ a, e ≠ .act w (.cache (.flush a))) ∧ ∀ lazy cap, e ≠ .again w lazy cap)
      (fun _ _ _ _ _ hq hp hs => staged_step hp hq hs) l2 Jb ?_ (al fun x hx => by simp [hl, hx])
      (fun x hx => ⟨fun a h => unflushed a (by rw [hl, ← h]; simp [hx]), fun lz c h => alive lz c (by rw [hl, ← h]; simp [hx])⟩) run1).2
    simp only [if_pos]
    exact hst
  obtain ⟨s2', h2', J2⟩ := J1.step sound hoffs (.act w (.cache (.flush true))) trivial
  rw [flushed] at h2'
  cases h2'
  rw [Together.step] at flushed
  obtain ⟨t, ht, flushed⟩ := res_bind_inv flushed
  rw [Svc.step] at ht
  obtain ⟨y, hy, ht⟩ := res_bind_inv ht
  cases ht
  cases flushed
  have kw : ∀ o ∈ os, KeptEntry y path o := fun o ho => flush_kept (J1.good w).cache (staged o ho) (idle w) hy
  have hm : y.c.mode = mode := (Sys.step_mode hy).1.trans (J1.mode w)
  refine J2.serves sound hoffs (os := os) (fun j o ho => ?_) (al fun x hx => by
    rcases List.mem_append.mp hx with h | h
    · simp [h]
    · simp [List.mem_singleton.mp h]) keeps run2 last
  simp only
  split
  · exact kw o ho
  · refine ⟨?_, fun x hx hp => absurd ⟨x, hx, hp⟩ (idle j)⟩
    have := indexed_iff.mp (kw o ho).here
    rw [hm, ← J1.mode j] at this
    exact indexed_iff.mpr this

/-! ## Scanning -/

/-- A step that starts no scan of a file starts none. -/
theorem Sys.step_noscan {s s' : Sys} {e : CEv} {path : String} (h : s.step e = .ok s') (hn : e.NoScan s.c.mode path)
    (idle : ¬ s.Scanning path) : ∀ x ∈ s'.scans, s.c.mode.indexPath x.1 ≠ s.c.mode.indexPath path := by
  have same : s'.scans = s.scans → ∀ x ∈ s'.scans, s.c.mode.indexPath x.1 ≠ s.c.mode.indexPath path :=
    fun hs x hx hp => idle ⟨x, by rw [← hs]; exact hx, hp⟩
  have pl : ∀ p r, s.c.mode.indexPath p ≠ s.c.mode.indexPath path → s.planned p r = .ok s' →
      ∀ x ∈ s'.scans, s.c.mode.indexPath x.1 ≠ s.c.mode.indexPath path := by
    intro p r hp hr
    cases r with
    | ok x =>
      cases hr
      intro y hy
      rcases List.mem_append.mp hy with hy | hy
      · exact fun h => idle ⟨y, hy, h⟩
      · rw [List.mem_singleton] at hy
        subst hy
        exact hp
    | error f => cases f with
      | ub => cases hr
      | exn e => cases hr; exact same rfl
  cases e with
  | lookup p os =>
    obtain ⟨⟨found, c⟩, h1, h2⟩ := res_bind_inv h
    cases h2
    exact same rfl
  | answer k =>
    rw [Sys.step] at h
    split at h
    · cases h; exact same rfl
    · rw [Sys.finish] at h
      split at h
      · obtain ⟨c, h3, h4⟩ := res_bind_inv h
        cases h4
        exact same rfl
      · cases h
      · cases h; exact same rfl
  | scan p os => exact pl p _ hn h
  | scanFile p m => exact pl p _ hn h
  | commit k =>
    rw [Sys.step] at h
    split at h
    · cases h; exact same rfl
    · obtain ⟨⟨n, c⟩, h1, h2⟩ := res_bind_inv h
      cases h2
      exact fun x hx hp => idle ⟨x, List.mem_of_mem_eraseIdx hx, hp⟩
  | insert p o =>
    rw [Sys.step] at h
    split at h <;> (cases h; exact same rfl)
  | flush a =>
    obtain ⟨c, h1, h2⟩ := res_bind_inv h
    cases h2
    exact same rfl
  | clear => cases h; exact same rfl
  | elsewhere a ws =>
    obtain ⟨fs, -, h2⟩ := res_bind_inv h
    cases h2
    exact same rfl
  | grow W' => cases h; exact same rfl

/-- While `w` scans the file and nobody else does. -/
theorem Joint.coming {s s' : Nat → Svc UInt64} {e : GEv} (J : Joint R offs U mode s) (ha : e.Allowed U) {path : String} {o w : Nat}
    (hk : e.Keeps mode path o) (hn : e.NoScan mode path) (hw : ∀ lazy cap, e ≠ .again w lazy cap)
    (h : Coming (s w).sys path o ∧ ∀ j, j ≠ w → ¬ (s j).sys.Scanning path) (hs : Together.step R offs s e = .ok s') :
    Coming (s' w).sys path o ∧ ∀ j, j ≠ w → ¬ (s' j).sys.Scanning path := by
  obtain ⟨hc, hidle⟩ := h
  cases e with
  | act i e =>
    rw [Together.step] at hs
    obtain ⟨t, ht, hs⟩ := res_bind_inv hs
    cases hs
    have hmt := (svc_step_seen (J.good i) ha.writes.1 ha.writes.2 ht).1
    by_cases hi : i = w
    · subst hi
      refine ⟨?_, fun j hj => ?_⟩
      · simp only [if_pos]
        rcases Svc.step_sys ht with ⟨c, rfl, hcs, -⟩ | ⟨-, h1, h2, -⟩
        · exact hc.step (J.good i).cache ha.cache (by rw [J.mode i]; exact hk) (by rw [J.mode i]; exact hn) hcs
        · exact hc.same (by rw [h1]) (by rw [h1]) h2
      · simp only [if_neg hj]
        exact hidle j hj
    · have hwi : ¬ w = i := fun h => hi h.symm
      refine ⟨?_, fun j hj => ?_⟩
      · simp only [if_neg hwi]
        refine ⟨?_, hc.plans⟩
        rcases hc.here with h | h
        · left
          have ki : KeptEntry (s i).sys path o := by
            refine ⟨?_, fun x hx hp => absurd ⟨x, hx, hp⟩ (hidle i hi)⟩
            rw [indexed_iff, J.mode i, J.fs i w, ← J.mode w]
            exact h
          have := indexed_iff.mp (Svc.step_kept (J.good i) ha (by rw [J.mode i]; exact hk) ki ht).here
          rw [hmt, J.mode i, ← J.mode w] at this
          exact this
        · exact .inr h
      · by_cases hji : j = i
        · subst hji
          simp only [if_pos]
          rintro ⟨x, hx, hp⟩
          rcases Svc.step_sys ht with ⟨c, rfl, hcs, -⟩ | ⟨-, h1, h2, -⟩
          · rw [hmt] at hp
            exact Sys.step_noscan hcs (by rw [J.mode j]; exact hn) (hidle j hi) x hx hp
          · rw [h1] at hp
            exact hidle j hi ⟨x, by rw [← h2]; exact hx, hp⟩
        · simp only [if_neg hji]
          exact hidle j hj
  | again i lz c =>
    cases hs
    have hi : ¬ w = i := fun h => hw lz c (by rw [h])
    refine ⟨by simp only [if_neg hi]; exact hc, fun j hj => ?_⟩
    by_cases hji : j = i
    · subst hji
      simp only [if_pos]
      rintro ⟨x, hx, -⟩
      cases hx
    · simp only [if_neg hji]
      exact hidle j hj

/-- C95.  The same for messages that a process scanned, while no other process scanned the file. -/
theorem C95_scanned_served_by_all_partial (sound : SoundReader R) (hoffs : ∀ file, offs file ≠ undef) (apart : ToldApart mode U) (d : Disk)
    (lazy : Nat → Bool) (cap : Nat → Nat) (fs : FS) (room : ∀ i, 0 < cap i) (agree : GoodIndex (diskWorld R offs d) U mode fs)
    (w : Nat) (path : String) (used : U path) (os : List Nat) (before during after : List GEv) (scan : SEv) (i : Nat) (e : SEv)
    (s0 s1 s2 s3 s4 : Nat → Svc UInt64)
    (allowed : ∀ x ∈ before ++ .act w scan :: during ++ after ++ [.act i e], x.Allowed U)
    (run0 : Together.run R offs (Together.start R offs d mode lazy cap fs) before = .ok s0)
    (idle : Together.Idle s0 path) (scans : scan.Scans offs (s0 w).disk path os)
    (begins : Together.step R offs s0 (.act w scan) = .ok s1) (begun : (s1 w).sys.Scanning path)
    (run1 : Together.run R offs s1 during = .ok s2) (alone : ∀ x ∈ during, x.NoScan mode path)
    (alive : ∀ lazy cap, GEv.again w lazy cap ∉ during) (over : ¬ (s2 w).sys.Scanning path)
    (run2 : Together.run R offs s2 after = .ok s3) (keeps : ∀ x ∈ during ++ after, ∀ o ∈ os, x.Keeps mode path o)
    (last : Together.step R offs s3 (.act i e) = .ok s4) :
    ∀ a ∈ Together.newAnswers s3 s4 i, a.path = path → a.offsets.Nodup → (∀ o ∈ a.offsets, o ∈ os) →
      ∃ is, a.result = .ok is ∧ extractInfos (diskWorld R offs (s4 i).disk) path a.offsets = .ok is := by
  have al : ∀ {l : List GEv}, (∀ x ∈ l, x ∈ before ++ .act w scan :: during ++ after ++ [.act i e]) → ∀ x ∈ l, x.Allowed U :=
    fun hl x hx => allowed x (hl x hx)
  obtain ⟨s0', h0', J0⟩ := (Joint.start (lazy := lazy) hoffs apart room agree).run sound hoffs before (al fun x hx => by simp [hx])
  rw [run0] at h0'
  cases h0'
  obtain ⟨s1', h1', J1⟩ := J0.step sound hoffs (.act w scan) (allowed _ (by simp))
  rw [begins] at h1'
  cases h1'
  have c1 : ∀ o ∈ os, Coming (s1 w).sys path o ∧ ∀ j, j ≠ w → ¬ (s1 j).sys.Scanning path := by
    intro o ho
    rw [Together.step] at begins
    obtain ⟨t, ht, hs⟩ := res_bind_inv begins
    cases hs
    simp only [if_pos] at begun ⊢
    refine ⟨scan_coming (J0.good w) used scans (idle w) ht begun o ho, fun j hj => ?_⟩
    simp only [if_neg hj]
    exact idle j
  obtain ⟨J2, c2⟩ := Joint.run_keeps sound hoffs
    (P := fun s => ∀ o ∈ os, Coming (s w).sys path o ∧ ∀ j, j ≠ w → ¬ (s j).sys.Scanning path)
    (Q := fun x => (∀ o ∈ os, x.Keeps mode path o) ∧ x.NoScan mode path ∧ ∀ lazy cap, x ≠ .again w lazy cap)
    (fun s s' x J ha hq hp hs o ho => J.coming ha (hq.1 o ho) hq.2.1 hq.2.2 (hp o ho) hs) during J1 c1 (al fun x hx => by simp [hx])
    (fun x hx => ⟨keeps x (by simp [hx]), alone x hx, fun lz c h => alive lz c (by rw [← h]; exact hx)⟩) run1
  refine J2.serves sound hoffs (os := os) (fun j o ho => ?_) (al fun x hx => by
    rcases List.mem_append.mp hx with h | h
    · simp [h]
    · simp [List.mem_singleton.mp h]) (fun x hx => keeps x (by simp [hx])) run2 last
  have hidle : Together.Idle s2 path := by
    intro k
    by_cases hk : k = w
    · rw [hk]; exact over
    · exact (c2 o ho).2 k hk
  exact J2.everyone hidle ((c2 o ho).1.done over) j

/-! ## Cases -/

/-- If nobody scans the file and nobody begins to, nobody scans it. -/
theorem Joint.idle {s s' : Nat → Svc UInt64} {e : GEv} (J : Joint R offs U mode s) (ha : e.Allowed U) {path : String}
    (hn : e.NoScan mode path) (h : Together.Idle s path) (hs : Together.step R offs s e = .ok s') : Together.Idle s' path := by
  intro j
  cases e with
  | act i e =>
    rw [Together.step] at hs
    obtain ⟨t, ht, hs⟩ := res_bind_inv hs
    cases hs
    have hmt := (svc_step_seen (J.good i) ha.writes.1 ha.writes.2 ht).1
    by_cases hji : j = i
    · subst hji
      simp only [if_pos]
      rintro ⟨x, hx, hp⟩
      rcases Svc.step_sys ht with ⟨c, rfl, hcs, -⟩ | ⟨-, h1, h2, -⟩
      · rw [hmt] at hp
        exact Sys.step_noscan hcs (by rw [J.mode j]; exact hn) (h j) x hx hp
      · rw [h1] at hp
        exact h j ⟨x, by rw [← h2]; exact hx, hp⟩
    · simp only [if_neg hji]
      exact h j
  | again i lz c =>
    cases hs
    by_cases hji : j = i
    · subst hji
      simp only [if_pos]
      rintro ⟨x, hx, -⟩
      cases hx
    · simp only [if_neg hji]
      exact h j

end

def c95Start : Nat → Svc UInt64 := Together.start toyReader (fun _ => .ok [0, 6]) c87Disk .shadow (fun _ => false) (fun _ => 16) []

def c95After (es : List GEv) : Nat → Svc UInt64 := ((Together.run toyReader (fun _ => .ok [0, 6]) c95Start es).toOption).getD c95Start

theorem c95_run (es : List GEv) (h : (Together.run toyReader (fun _ => .ok [0, 6]) c95Start es).toOption.isSome = true) :
    Together.run toyReader (fun _ => .ok [0, 6]) c95Start es = .ok (c95After es) := by
  unfold c95After
  cases hr : Together.run toyReader (fun _ => .ok [0, 6]) c95Start es with
  | error e => rw [hr] at h; cases h
  | ok s => rfl

theorem c95_joint : Joint toyReader (fun _ => .ok [0, 6]) oneFile .shadow c95Start :=
  Joint.start (fun _ h => by cases h) oneFile_apart (fun _ => by decide) c87_agree

theorem c95_idle {es : List GEv} (h : (Together.run toyReader (fun _ => .ok [0, 6]) c95Start es).toOption.isSome = true)
    (ha : ∀ e ∈ es, e.Allowed oneFile) (hn : ∀ e ∈ es, e.NoScan .shadow "/fdb/a.data") : Together.Idle (c95After es) "/fdb/a.data" :=
  (Joint.run_keeps toySound (fun _ h => by cases h) (P := fun s => Together.Idle s "/fdb/a.data") (Q := fun e => e.NoScan .shadow "/fdb/a.data")
    (fun _ _ _ J ha hq hp hs => J.idle ha hq hp hs) es c95_joint (by rintro i ⟨x, hx, -⟩; cases hx) ha hn (c95_run es h)).2

/-- Process 1 has refused a client, and has begun to answer another; process 0 archives. -/
def c95Before : List GEv :=
  [.act 1 (.cache (.lookup "/fdb/a.data" [6])), .act 1 (.cache (.answer 0)), .act 1 (.cache (.lookup "/fdb/a.data" [0, 6]))]

def c95During : List GEv :=
  [.act 0 (.cache (.insert "/fdb/a.data" 6)), .act 2 (.append "/fdb/a.data" [0x47, 1, 5]), .act 0 (.cache (.insert "/fdb/a.data" 0))]

/-- The archiving process ends, another is started. -/
def c95Later : List GEv := [.again 0 false 4, .act 1 (.cache .clear), .again 2 true 1]

def c95All : List GEv := c95Before ++ c95During ++ [.act 0 (.cache (.flush true))] ++ c95Later

theorem c95_allowed : ∀ x ∈ c95Before ++ c95During ++ c95Later ++ [.act 1 (.cache (.answer 0))], x.Allowed oneFile := by
  intro e he
  simp only [c95Before, c95During, c95Later, List.cons_append, List.nil_append, List.mem_cons, List.mem_nil_iff, or_false] at he
  rcases he with rfl | rfl | rfl | rfl | rfl | rfl | rfl | rfl | rfl | rfl <;> first | rfl | trivial | (show 0 < _; decide)

/-- Non-vacuity of `C95_archived_served_by_all_partial`: the client whose lookup had begun is answered. -/
example : (∀ a ∈ Together.newAnswers (c95After c95All) (c95After (c95All ++ [.act 1 (.cache (.answer 0))])) 1, a.path = "/fdb/a.data" →
      a.offsets.Nodup → (∀ o ∈ a.offsets, o ∈ [0, 6]) → ∃ is, a.result = .ok is ∧ extractInfos (diskWorld toyReader (fun _ => .ok [0, 6])
        (c95After (c95All ++ [.act 1 (.cache (.answer 0))]) 1).disk) "/fdb/a.data" a.offsets = .ok is) ∧
    ((c95After (c95All ++ [.act 1 (.cache (.answer 0))]) 1).sys.answers.map fun a => (a.path, a.offsets, a.result.toOption.map List.length)) =
      [("/fdb/a.data", [6], none), ("/fdb/a.data", [0, 6], some 2)] := by
  refine ⟨?_, by decide +kernel⟩
  have r0 := c95_run c95Before (by decide +kernel)
  have r1 := c95_run (c95Before ++ c95During) (by decide +kernel)
  have r2 := c95_run (c95Before ++ c95During ++ [.act 0 (.cache (.flush true))]) (by decide +kernel)
  have r3 := c95_run c95All (by decide +kernel)
  have r4 := c95_run (c95All ++ [.act 1 (.cache (.answer 0))]) (by decide +kernel)
  rw [Together.run_append, r3, ok_bind, Together.run] at r4
  rw [c95All, Together.run_append, r2] at r3
  have id1 := c95_idle (es := c95Before ++ c95During) (by decide +kernel) (fun x hx => c95_allowed x (by
    rw [List.append_assoc]; exact List.mem_append_left _ hx)) (by
    intro e he
    simp only [c95Before, c95During, List.cons_append, List.nil_append, List.mem_cons, List.mem_nil_iff, or_false] at he
    rcases he with rfl | rfl | rfl | rfl | rfl | rfl <;> trivial)
  rw [Together.run_append, r1, ok_bind, Together.run] at r2
  rw [Together.run_append, r0] at r1
  obtain ⟨s2, h2, h2'⟩ := res_bind_inv r2
  cases h2'
  obtain ⟨s4, h4, h4'⟩ := res_bind_inv r4
  cases h4'
  refine C95_archived_served_by_all_partial toySound (fun _ h => by cases h) oneFile_apart c87Disk (fun _ => false) (fun _ => 16) []
    (fun _ => by decide) c87_agree 0 "/fdb/a.data" [0, 6] c95Before c95During c95Later 1 (.cache (.answer 0)) _ _ _ _ _ c95_allowed r0 ?_ r1 ?_ ?_ ?_
    id1 h2 r3 ?_ h4
  · intro o ho
    simp only [List.mem_cons, List.mem_nil_iff, or_false] at ho
    rcases ho with rfl | rfl <;> exact ⟨_, rfl⟩
  · intro o ho
    simp only [List.mem_cons, List.mem_nil_iff, or_false] at ho
    rcases ho with rfl | rfl <;> simp [c95During]
  · intro a; simp [c95During]
  · intro l c; simp [c95During]
  · intro x hx o _
    simp only [c95Later, List.mem_cons, List.mem_nil_iff, or_false] at hx
    rcases hx with rfl | rfl | rfl <;> trivial

/-- Process 2 scans the whole file while process 1 is answering and process 0 archives; then process 1 answers. -/
def c95ScanDuring : List GEv := [.act 0 (.cache (.insert "/fdb/a.data" 6)), .act 0 (.cache (.flush true)), .act 2 (.cache (.commit 0))]

def c95Scanned : List GEv := c95Before ++ [.act 2 (.cache (.scanFile "/fdb/a.data" true))] ++ c95ScanDuring ++ c95Later

theorem c95_scan_allowed : ∀ x ∈ c95Before ++ .act 2 (.cache (.scanFile "/fdb/a.data" true)) :: c95ScanDuring ++ c95Later ++
    [.act 1 (.cache (.answer 0))], x.Allowed oneFile := by
  intro e he
  simp only [c95Before, c95ScanDuring, c95Later, List.cons_append, List.nil_append, List.mem_cons, List.mem_nil_iff, or_false] at he
  rcases he with rfl | rfl | rfl | rfl | rfl | rfl | rfl | rfl | rfl | rfl | rfl <;> first | rfl | trivial | (show 0 < _; decide)

/-- Non-vacuity of `C95_scanned_served_by_all_partial`. -/
example : (∀ a ∈ Together.newAnswers (c95After c95Scanned) (c95After (c95Scanned ++ [.act 1 (.cache (.answer 0))])) 1, a.path = "/fdb/a.data" →
      a.offsets.Nodup → (∀ o ∈ a.offsets, o ∈ [0, 6]) → ∃ is, a.result = .ok is ∧ extractInfos (diskWorld toyReader (fun _ => .ok [0, 6])
        (c95After (c95Scanned ++ [.act 1 (.cache (.answer 0))]) 1).disk) "/fdb/a.data" a.offsets = .ok is) ∧
    ((c95After (c95Scanned ++ [.act 1 (.cache (.answer 0))]) 1).sys.answers.map fun a => (a.path, a.offsets, a.result.toOption.map List.length)) =
      [("/fdb/a.data", [6], none), ("/fdb/a.data", [0, 6], some 2)] := by
  refine ⟨?_, by decide +kernel⟩
  have r0 := c95_run c95Before (by decide +kernel)
  have r1 := c95_run (c95Before ++ [.act 2 (.cache (.scanFile "/fdb/a.data" true))]) (by decide +kernel)
  have r2 := c95_run (c95Before ++ [.act 2 (.cache (.scanFile "/fdb/a.data" true))] ++ c95ScanDuring) (by decide +kernel)
  have r3 := c95_run c95Scanned (by decide +kernel)
  have r4 := c95_run (c95Scanned ++ [.act 1 (.cache (.answer 0))]) (by decide +kernel)
  rw [Together.run_append, r3, ok_bind, Together.run] at r4
  rw [c95Scanned, Together.run_append, r2] at r3
  have id0 := c95_idle (es := c95Before) (by decide +kernel) (fun x hx => c95_allowed x (by
    rw [List.append_assoc, List.append_assoc]; exact List.mem_append_left _ hx)) (by
    intro e he
    simp only [c95Before, List.mem_cons, List.mem_nil_iff, or_false] at he
    rcases he with rfl | rfl | rfl <;> trivial)
  rw [Together.run_append, r1] at r2
  rw [Together.run_append, r0, ok_bind, Together.run] at r1
  obtain ⟨s1, h1, h1'⟩ := res_bind_inv r1
  cases h1'
  obtain ⟨s4, h4, h4'⟩ := res_bind_inv r4
  cases h4'
  refine C95_scanned_served_by_all_partial toySound (fun _ h => by cases h) oneFile_apart c87Disk (fun _ => false) (fun _ => 16) []
    (fun _ => by decide) c87_agree 2 "/fdb/a.data" rfl [0, 6] c95Before c95ScanDuring c95Later (.cache (.scanFile "/fdb/a.data" true)) 1
    (.cache (.answer 0)) _ _ _ _ _ c95_scan_allowed r0 id0 ⟨rfl, _, rfl, rfl⟩ h1 ?_ r2 ?_ ?_ ?_ r3 ?_ h4
  · have : ((c95After (c95Before ++ [.act 2 (.cache (.scanFile "/fdb/a.data" true))]) 2).sys.scans.map fun x => x.1) = ["/fdb/a.data"] := by
      decide +kernel
    cases hs : (c95After (c95Before ++ [.act 2 (.cache (.scanFile "/fdb/a.data" true))]) 2).sys.scans with
    | nil => rw [hs] at this; cases this
    | cons x l =>
      rw [hs] at this
      refine ⟨x, by rw [hs]; exact List.mem_cons_self, ?_⟩
      exact congrArg _ (List.cons.inj this).1
  · intro x hx
    simp only [c95ScanDuring, List.mem_cons, List.mem_nil_iff, or_false] at hx
    rcases hx with rfl | rfl | rfl <;> trivial
  · intro l c; simp [c95ScanDuring]
  · rintro ⟨x, hx, -⟩
    have : (c95After (c95Before ++ [.act 2 (.cache (.scanFile "/fdb/a.data" true))] ++ c95ScanDuring) 2).sys.scans.length = 0 := by
      decide +kernel
    rw [List.eq_nil_of_length_eq_zero this] at hx
    cases hx
  · intro x hx o _
    simp only [c95ScanDuring, c95Later, List.cons_append, List.nil_append, List.mem_cons, List.mem_nil_iff, or_false] at hx
    rcases hx with rfl | rfl | rfl | rfl | rfl | rfl <;> first | rfl | trivial

/-- Process 2 has begun to scan one message of the file when process 0 flushes another, and writes the index without it. -/
def c95Race : List GEv :=
  [.act 0 (.cache (.insert "/fdb/a.data" 6)), .act 2 (.cache (.scan "/fdb/a.data" [0])), .act 0 (.cache (.flush true)),
   .act 2 (.cache (.commit 0)), .act 1 (.cache (.lookup "/fdb/a.data" [6])), .act 1 (.cache (.answer 0))]

/-- C95, without the condition that no process scans the file, fails: the message was archived and flushed, and is refused. -/
theorem C95_scan_elsewhere_refused :
    (∀ e ∈ c95Race, e.Allowed oneFile) ∧ (∀ e ∈ c95Race, e.Keeps .shadow "/fdb/a.data" 6) ∧
    ((c95After (c95Race.take 3) 1).sys.c.indexed "/fdb/a.data" 6).isSome = true ∧
    ((c95After c95Race 1).sys.answers.map fun a => (a.path, a.offsets, decide (a.result = throwExn .jumpInfoDisabled))) =
      [("/fdb/a.data", [6], true)] := by
  refine ⟨?_, ?_, by decide +kernel, by decide +kernel⟩
  · intro e he
    simp only [c95Race, List.mem_cons, List.mem_nil_iff, or_false] at he
    rcases he with rfl | rfl | rfl | rfl | rfl | rfl <;> first | rfl | trivial
  · intro e he
    simp only [c95Race, List.mem_cons, List.mem_nil_iff, or_false] at he
    rcases he with rfl | rfl | rfl | rfl | rfl | rfl <;> first | rfl | trivial

/-- The index files after `c95All`. -/
def c95Files : FS := (c95After c95All 0).sys.c.fs

/-- Non-vacuity of `C95_indexed_before_served_by_all_partial`: such files are left by the histories above; processes started on them
answer. -/
example : GoodIndex (diskWorld toyReader (fun _ => .ok [0, 6]) (c95After c95All 0).disk) oneFile .shadow c95Files ∧
    (∀ o ∈ [0, 6], Entry c95Files (CacheMode.indexPath .shadow "/fdb/a.data") o) ∧
    (Together.run toyReader (fun _ => .ok [0, 6]) (Together.start toyReader (fun _ => .ok [0, 6]) (c95After c95All 0).disk .shadow
        (fun _ => false) (fun _ => 16) c95Files)
      [.act 3 (.cache (.lookup "/fdb/a.data" [6, 0])), .again 4 false 2, .act 3 (.cache (.answer 0))]).toOption.map
        (fun s => (s 3).sys.answers.map fun a => a.result.toOption.map List.length) = some [some 2] := by
  have hr := c95_run c95All (by decide +kernel)
  obtain ⟨s, h, J⟩ := c95_joint.run toySound (fun _ h => by cases h) c95All (by
    intro x hx
    simp only [c95All, List.mem_append, List.mem_singleton] at hx
    rcases hx with ((h | h) | h) | h
    · exact c95_allowed x (by simp [h])
    · exact c95_allowed x (by simp [h])
    · rw [h]; trivial
    · exact c95_allowed x (by simp [h]))
  obtain rfl : s = c95After c95All := Except.ok.inj (h.symm.trans hr)
  refine ⟨?_, ?_, by decide +kernel⟩
  · have := (J.good 0).cache.index
    rw [(J.good 0).world, J.mode 0] at this
    exact this
  · intro o ho
    have hi : ((c95After c95All 0).sys.c.indexed "/fdb/a.data" o).isSome = true := by
      simp only [List.mem_cons, List.mem_nil_iff, or_false] at ho
      rcases ho with rfl | rfl <;> decide +kernel
    have := indexed_iff.mp hi
    rw [J.mode 0] at this
    exact this

/-- Non-vacuity of `C95_answers_right`: the same history is allowed. -/
example : ∃ s, Together.run toyReader (fun _ => .ok [0, 6]) c95Start c95Race = .ok s ∧ (s 1).sys.answers.length = 1 ∧
    (s 0).disk = (s 7).disk := by
  obtain ⟨s, h, h2, -⟩ := C95_answers_right toySound (fun _ h => by cases h) oneFile_apart c87Disk (fun _ => false) (fun _ => 16) []
    (fun _ => by decide) c87_agree c95Race C95_scan_elsewhere_refused.1
  have hr := c95_run c95Race (by decide +kernel)
  have hs : s = c95After c95Race := by
    have := h.symm.trans hr
    exact Except.ok.inj this
  subst hs
  exact ⟨_, h, by decide +kernel, (h2 0 7).1⟩

end GJ
