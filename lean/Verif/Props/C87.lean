import Verif.Lemmas.CacheSafe
import Verif.Lemmas.Kept

/-!
# C87: what was scanned can be extracted, also where metadata is not built on demand

A node may be told not to build metadata on demand (`gribjumpLazyInfo` false); then a lookup takes metadata from memory and
from index files only.  Here: once a scan is over, its messages stay in the index, whatever else goes on, so extractions from them
succeed on such a node too.
-/

namespace GJ
open Spec

/-! ## A scan -/

/-- A scan of the index of this file is not over. -/
def Sys.Scanning (s : Sys) (path : String) : Prop := ∃ x ∈ s.scans, s.c.mode.indexPath x.1 = s.c.mode.indexPath path

/-- The event starts no scan of the index of this file. -/
def CEv.NoScan (mode : CacheMode) (path : String) : CEv → Prop
  | .scan p _ => mode.indexPath p ≠ mode.indexPath path
  | .scanFile p _ => mode.indexPath p ≠ mode.indexPath path
  | _ => True

/-- The message is in the index, or a scan under way will put it there; and no scan under way will leave it out. -/
structure Coming (s : Sys) (path : String) (o : Nat) : Prop where
  here : Entry s.c.fs (s.c.mode.indexPath path) o ∨
    ∃ x ∈ s.scans, s.c.mode.indexPath x.1 = s.c.mode.indexPath path ∧ x.2 ≠ none
  plans : ∀ x ∈ s.scans, s.c.mode.indexPath x.1 = s.c.mode.indexPath path → ∀ n m, x.2 = some (n, m) →
    (indexFind m o).isSome = true

theorem Coming.same {s s' : Sys} {path : String} {o : Nat} (h : Coming s path o) (hm : s'.c.mode = s.c.mode) (hf : s'.c.fs = s.c.fs)
    (hs : s'.scans = s.scans) : Coming s' path o := by
  refine ⟨?_, fun x hx e n m hnm => h.plans x (by rw [← hs]; exact hx) (by rw [← hm]; exact e) n m hnm⟩
  rw [hm, hf, hs]
  exact h.here

theorem Coming.done {s : Sys} {path : String} {o : Nat} (h : Coming s path o) (hn : ¬ s.Scanning path) : KeptEntry s path o := by
  refine ⟨?_, h.plans⟩
  rw [indexed_iff]
  rcases h.here with h | ⟨x, hx, hp, -⟩
  · exact h
  · exact absurd ⟨x, hx, hp⟩ hn

theorem KeptEntry.coming {s : Sys} {path : String} {o : Nat} (h : KeptEntry s path o) : Coming s path o :=
  ⟨.inl (indexed_iff.mp h.here), h.plans⟩

theorem mem_eraseIdx_or {α : Type} {l : List α} {k : Nat} {x y : α} (hk : l[k]? = some y) (hx : x ∈ l) :
    x = y ∨ x ∈ l.eraseIdx k := by
  obtain ⟨j, hj⟩ := List.getElem?_of_mem hx
  by_cases h : j = k
  · subst h
    rw [hj] at hk
    exact .inl (Option.some.inj hk)
  · refine .inr (List.mem_eraseIdx_iff_getElem?.mpr ⟨j, h, hj⟩)

theorem Coming.step {U : String → Prop} {s s' : Sys} (g : Good U s) {e : CEv} (ha : Allowed U s.W e) {path : String} {o : Nat}
    (h : Coming s path o) (hk : e.Keeps s.c.mode path o) (hn : e.NoScan s.c.mode path) (hs : s.step e = .ok s') :
    Coming s' path o := by
  have pl : ∀ p r, s.c.mode.indexPath p ≠ s.c.mode.indexPath path → s.planned p r = .ok s' → Coming s' path o := by
    intro p r hp hpl
    cases r with
    | ok x =>
      cases hpl
      refine ⟨?_, fun y hy hyp n m hnm => ?_⟩
      · rcases h.here with h | ⟨y, hy, h⟩
        · exact .inl h
        · exact .inr ⟨y, List.mem_append_left _ hy, h⟩
      · rcases List.mem_append.mp hy with hy | hy
        · exact h.plans y hy hyp n m hnm
        · rw [List.mem_singleton] at hy
          subst hy
          exact absurd hyp hp
    | error f => cases f with
      | ub => cases hpl
      | exn e => cases hpl; exact h
  cases e with
  | lookup p os =>
    obtain ⟨⟨found, c⟩, h1, h2⟩ := res_bind_inv hs
    cases h2
    have := getCached_kept h1
    exact h.same this.1 this.2.2.1 rfl
  | answer k =>
    rw [Sys.step] at hs
    split at hs
    · cases hs; exact h
    · rw [Sys.finish] at hs
      split at hs
      · obtain ⟨c, h3, h4⟩ := res_bind_inv hs
        cases h4
        have := putCache_kept h3
        exact h.same this.1 this.2.2.1 rfl
      · cases hs
      · cases hs; exact h.same rfl rfl rfl
  | scan p os => exact pl p _ hn hs
  | scanFile p merge => exact pl p _ hn hs
  | commit k =>
    rw [Sys.step] at hs
    split at hs
    · cases hs; exact h
    · rename_i p m hkk
      obtain ⟨⟨n, c⟩, h1, h2⟩ := res_bind_inv hs
      cases h2
      have hmem := List.mem_of_getElem? hkk
      cases m with
      | none =>
        cases h1
        refine ⟨?_, fun x hx e n m hnm => h.plans x (List.mem_of_mem_eraseIdx hx) e n m hnm⟩
        rcases h.here with h | ⟨y, hy, hyp, hyn⟩
        · exact .inl h
        · rcases mem_eraseIdx_or hkk hy with rfl | hy
          · exact absurd rfl hyn
          · exact .inr ⟨y, hy, hyp, hyn⟩
      | some x =>
        obtain ⟨n', m⟩ := x
        rw [Cache.scanCommit] at h1
        obtain ⟨fs, hw, h1⟩ := res_bind_inv h1
        cases h1
        obtain ⟨es, rfl, -⟩ := (g.scans _ hmem).2 _ _ rfl
        refine ⟨?_, fun x hx e n m hnm => h.plans x (List.mem_of_mem_eraseIdx hx) e n m hnm⟩
        have hin : s.c.mode.indexPath p = s.c.mode.indexPath path → (AMap.find es o).isSome = true := by
          intro e
          have := h.plans _ hmem e _ _ rfl
          rw [indexFind_noNull] at this
          exact this
        by_cases hp : s.c.mode.indexPath p = s.c.mode.indexPath path
        · exact .inl (entry_write (fun e => absurd hp e) (fun _ => hin hp) hw)
        · rcases h.here with h | ⟨y, hy, hyp, hyn⟩
          · exact .inl (entry_write (fun _ => h) (fun e => absurd e hp) hw)
          · rcases mem_eraseIdx_or hkk hy with rfl | hy
            · exact absurd hyp hp
            · exact .inr ⟨y, hy, hyp, hyn⟩
  | insert p o =>
    rw [Sys.step] at hs
    split at hs
    · cases hs
      exact h.same (insert_kept _ _ _ _).1 (insert_kept _ _ _ _).2.2 rfl
    · cases hs; exact h
  | flush a =>
    obtain ⟨c, h1, h2⟩ := res_bind_inv hs
    cases h2
    rw [Cache.flush] at h1
    obtain ⟨fs, hf, h1⟩ := res_bind_inv h1
    cases h1
    have hk : a = true := hk
    subst hk
    refine ⟨?_, h.plans⟩
    rcases h.here with h | h
    · exact .inl (entry_flush g.sep s.c.staged s.c.fs fs g.staged g.index (.inl h) hf)
    · exact .inr h
  | clear => cases hs; exact h.same rfl rfl rfl
  | elsewhere a ws =>
    obtain ⟨fs, hf, h2⟩ := res_bind_inv hs
    cases h2
    refine ⟨?_, h.plans⟩
    rcases h.here with h | h
    · exact .inl (entry_elsewhere g.sep a ws s.c.fs fs ha g.index hk h hf)
    · exact .inr h
  | grow W' => cases hs; exact h.same rfl rfl rfl

/-- The event starts no scan of the index of this file. -/
def SEv.NoScan (mode : CacheMode) (path : String) : SEv → Prop
  | .cache e => e.NoScan mode path
  | _ => True

/-- What steps of the cache keep, and the files have no part in, is kept. -/
theorem Svc.run_keeps {R : Reader UInt64} {offs : List UInt8 → Res (List Nat)} (sound : SoundReader R)
    (hoffs : ∀ file, offs file ≠ undef) {U : String → Prop} {P : Sys → Prop} {Q : SEv → Prop} {mode : CacheMode}
    (hworld : ∀ (s : Sys) W, P s → P { s with W := W })
    (hstep : ∀ s s' e, Good U s → s.c.mode = mode → Allowed U s.W e → Q (.cache e) → P s → s.step e = .ok s' → P s') (es : List SEv) :
    ∀ {s s' : Svc UInt64}, SvcGood R offs U s → s.sys.c.mode = mode → P s.sys → (∀ e ∈ es, e.Allowed U) → (∀ e ∈ es, Q e) →
      s.run R offs es = .ok s' → SvcGood R offs U s' ∧ s'.sys.c.mode = mode ∧ P s'.sys := by
  induction es with
  | nil => intro s s' g hm hp _ _ h; cases h; exact ⟨g, hm, hp⟩
  | cons e es ih =>
    intro s s' g hm hp ha hq h
    rw [Svc.run] at h
    obtain ⟨s1, h1, h2⟩ := res_bind_inv h
    obtain ⟨s1', h1', g1⟩ := g.step sound hoffs e (ha e List.mem_cons_self)
    rw [h1] at h1'
    cases h1'
    have hx : s1.sys.c.mode = mode ∧ P s1.sys := by
      cases e with
      | cache e =>
        have hal : Allowed U s.sys.W e := by
          have := ha (.cache e) List.mem_cons_self
          cases e <;> first | exact this | trivial | exact absurd this id
        rw [Svc.step] at h1
        obtain ⟨y, hy, h1⟩ := res_bind_inv h1
        cases h1
        exact ⟨(Sys.step_mode hy).1.trans hm, hstep s.sys y e g.cache hm hal (hq _ List.mem_cons_self) hp hy⟩
      | append p b => cases h1; exact ⟨hm, hworld _ _ hp⟩
      | jump k j is =>
        rw [Svc.step] at h1
        split at h1
        · split at h1 <;> (cases h1; exact ⟨hm, hp⟩)
        · cases h1; exact ⟨hm, hp⟩
    exact ih g1 hx.1 hx.2 (fun e he => ha e (List.mem_cons_of_mem _ he)) (fun e he => hq e (List.mem_cons_of_mem _ he)) h2

theorem Svc.run_kept {R : Reader UInt64} {offs : List UInt8 → Res (List Nat)} (sound : SoundReader R)
    (hoffs : ∀ file, offs file ≠ undef) {U : String → Prop} {path : String} {o : Nat} {es : List SEv} {s s' : Svc UInt64}
    (g : SvcGood R offs U s) (h : KeptEntry s.sys path o) (ha : ∀ e ∈ es, e.Allowed U) (hk : ∀ e ∈ es, e.Keeps s.sys.c.mode path o)
    (hr : s.run R offs es = .ok s') : KeptEntry s'.sys path o :=
  (Svc.run_keeps sound hoffs (P := fun s => KeptEntry s path o) (Q := fun e => e.Keeps s.sys.c.mode path o)
    (fun _ _ hp => hp.same rfl rfl fun _ hx => hx)
    (fun _ _ _ g hm ha hq hp hs => hp.step g ha (by rw [hm]; exact hq) hs) es g rfl h ha hk hr).2.2

theorem Svc.run_coming {R : Reader UInt64} {offs : List UInt8 → Res (List Nat)} (sound : SoundReader R)
    (hoffs : ∀ file, offs file ≠ undef) {U : String → Prop} {path : String} {o : Nat} {es : List SEv} {s s' : Svc UInt64}
    (g : SvcGood R offs U s) (h : Coming s.sys path o) (ha : ∀ e ∈ es, e.Allowed U) (hk : ∀ e ∈ es, e.Keeps s.sys.c.mode path o)
    (hn : ∀ e ∈ es, e.NoScan s.sys.c.mode path) (hr : s.run R offs es = .ok s') : Coming s'.sys path o :=
  (Svc.run_keeps sound hoffs (P := fun s => Coming s path o)
    (Q := fun e => e.Keeps s.sys.c.mode path o ∧ e.NoScan s.sys.c.mode path)
    (fun _ _ hp => hp.same rfl rfl rfl)
    (fun _ _ _ g hm ha hq hp hs => hp.step g ha (by rw [hm]; exact hq.1) (by rw [hm]; exact hq.2) hs) es g rfl h ha
    (fun e he => ⟨hk e he, hn e he⟩) hr).2.2

/-- A step other than the end of a lookup answers nothing. -/
theorem Sys.step_answers {s s' : Sys} {e : CEv} (h : s.step e = .ok s') :
    s'.answers = s.answers ∨ ∃ k l, e = .answer k ∧ s.lookups[k]? = some l ∧ s.finish k l = .ok s' := by
  have pl : ∀ p r, s.planned p r = .ok s' → s'.answers = s.answers := by
    intro p r hr
    cases r with
    | ok x => cases hr; rfl
    | error f => cases f with
      | ub => cases hr
      | exn e => cases hr; rfl
  cases e with
  | lookup p os =>
    obtain ⟨⟨found, c⟩, h1, h2⟩ := res_bind_inv h
    cases h2
    exact .inl rfl
  | answer k =>
    rw [Sys.step] at h
    split at h
    · cases h; exact .inl rfl
    · rename_i l hk
      exact .inr ⟨k, l, rfl, hk, h⟩
  | scan p os => exact .inl (pl _ _ h)
  | scanFile p m => exact .inl (pl _ _ h)
  | commit k =>
    rw [Sys.step] at h
    split at h
    · cases h; exact .inl rfl
    · obtain ⟨⟨n, c⟩, h1, h2⟩ := res_bind_inv h
      cases h2
      exact .inl rfl
  | insert p o =>
    rw [Sys.step] at h
    split at h <;> (cases h; exact .inl rfl)
  | flush a =>
    obtain ⟨c, h1, h2⟩ := res_bind_inv h
    cases h2
    exact .inl rfl
  | clear => cases h; exact .inl rfl
  | elsewhere a ws =>
    obtain ⟨fs, -, h2⟩ := res_bind_inv h
    cases h2
    exact .inl rfl
  | grow W' => cases h; exact .inl rfl

/-- The lookup of messages of which `K` holds is answered. -/
def Answer.ServedFor (K : String → Nat → Prop) (a : Answer) : Prop :=
  a.offsets.Nodup → (∀ o ∈ a.offsets, K a.path o) → ∃ is, a.result = .ok is

/-- A lookup of messages that are in the index is answered. -/
theorem Sys.step_serves_kept {U : String → Prop} {s s' : Sys} (g : Good U s) {K : String → Nat → Prop}
    (hK : ∀ p o, K p o → KeptEntry s p o) {e : CEv} (h : s.step e = .ok s') :
    ∃ new, s'.answers = s.answers ++ new ∧ ∀ a ∈ new, a.ServedFor K := by
  rcases Sys.step_answers h with h | ⟨k, l, rfl, hk, h⟩
  · exact ⟨[], by rw [h, List.append_nil], fun a ha => by cases ha⟩
  · obtain ⟨hp, hf⟩ := g.lookups l (List.mem_of_getElem? hk)
    obtain ⟨es, he, hag⟩ := g.index l.path hp
    rw [Sys.finish] at h
    rcases resolve_ok g.defined.data s.c.lazy s.c.mode s.c.fs l.path l.offsets l.found es he hag hf with
      ⟨is, h1, h2⟩ | ⟨e, h1, h2⟩
    · rw [h1] at h
      simp only at h
      obtain ⟨c, -, h4⟩ := res_bind_inv h
      cases h4
      refine ⟨[_], rfl, fun a ha _ _ => ?_⟩
      rw [List.mem_singleton] at ha
      subst ha
      exact ⟨is, rfl⟩
    · rw [h1] at h
      cases h
      refine ⟨[_], rfl, fun a ha hn hr => ?_⟩
      rw [List.mem_singleton] at ha
      subst ha
      refine absurd ⟨hn, fun o ho => ?_⟩ h2
      have := he.entry.mp (indexed_iff.mp (hK _ _ (hr o ho)).here)
      exact .inr (.inl (Option.isSome_iff_exists.mp this))

/-- From a state in which the messages of `K` are in the index, they stay there and lookups of them are answered. -/
theorem Svc.run_serves {R : Reader UInt64} {offs : List UInt8 → Res (List Nat)} (sound : SoundReader R)
    (hoffs : ∀ file, offs file ≠ undef) {U : String → Prop} {K : String → Nat → Prop} (es : List SEv) :
    ∀ {s s' : Svc UInt64}, SvcGood R offs U s → (∀ p o, K p o → KeptEntry s.sys p o) → (∀ e ∈ es, e.Allowed U) →
      (∀ e ∈ es, ∀ p o, K p o → e.Keeps s.sys.c.mode p o) → s.run R offs es = .ok s' →
      SvcGood R offs U s' ∧ (∀ p o, K p o → KeptEntry s'.sys p o) ∧
      ∃ new, s'.sys.answers = s.sys.answers ++ new ∧ ∀ a ∈ new, a.ServedFor K := by
  induction es with
  | nil =>
    intro s s' g hK _ _ h
    cases h
    exact ⟨g, hK, [], by rw [List.append_nil], fun a ha => by cases ha⟩
  | cons e es ih =>
    intro s s' g hK ha hk h
    rw [Svc.run] at h
    obtain ⟨s1, h1, h2⟩ := res_bind_inv h
    obtain ⟨s1', h1', g1⟩ := g.step sound hoffs e (ha e List.mem_cons_self)
    rw [h1] at h1'
    cases h1'
    have hx : s1.sys.c.mode = s.sys.c.mode ∧ (∀ p o, K p o → KeptEntry s1.sys p o) ∧
        ∃ new, s1.sys.answers = s.sys.answers ++ new ∧ ∀ a ∈ new, a.ServedFor K := by
      cases e with
      | cache e =>
        have hal : Allowed U s.sys.W e := by
          have := ha (.cache e) List.mem_cons_self
          cases e <;> first | exact this | trivial | exact absurd this id
        rw [Svc.step] at h1
        obtain ⟨y, hy, h1⟩ := res_bind_inv h1
        cases h1
        exact ⟨(Sys.step_mode hy).1, fun p o hpo => (hK p o hpo).step g.cache hal (hk _ List.mem_cons_self p o hpo) hy,
          Sys.step_serves_kept g.cache hK hy⟩
      | append p b =>
        cases h1
        exact ⟨rfl, fun p o hpo => (hK p o hpo).same rfl rfl fun _ hx => hx, [], by rw [List.append_nil], fun a ha => by cases ha⟩
      | jump k j is =>
        have same : s1.sys = s.sys := by
          rw [Svc.step] at h1
          split at h1
          · split at h1 <;> (cases h1; rfl)
          · cases h1; rfl
        rw [same]
        exact ⟨rfl, hK, [], by rw [List.append_nil], fun a ha => by cases ha⟩
    obtain ⟨hm, hK1, new, hn, hsv⟩ := hx
    obtain ⟨g2, hK2, new', hn', hsv'⟩ := ih g1 hK1 (fun e he => ha e (List.mem_cons_of_mem _ he))
      (fun e he p o hpo => by rw [hm]; exact hk e (List.mem_cons_of_mem _ he) p o hpo) h2
    refine ⟨g2, hK2, new ++ new', by rw [hn', hn, List.append_assoc], fun a haa => ?_⟩
    rcases List.mem_append.mp haa with haa | haa
    · exact hsv a haa
    · exact hsv' a haa

/-- The event scans these messages of the file: those given, or all that the file has at this time. -/
def SEv.Scans (offs : List UInt8 → Res (List Nat)) (d : Disk) (path : String) (os : List Nat) : SEv → Prop
  | .cache (.scan p os') => p = path ∧ os' = os
  | .cache (.scanFile p _) => p = path ∧ ∃ file, d path = some file ∧ offs file = .ok os
  | _ => False

/-- A scan is planned. -/
theorem scan_coming {R : Reader UInt64} {offs : List UInt8 → Res (List Nat)} {U : String → Prop} {s s1 : Svc UInt64}
    (g : SvcGood R offs U s) {e : SEv} {path : String} {os : List Nat} (hU : U path) (hs : e.Scans offs s.disk path os)
    (hn : ¬ s.sys.Scanning path) (h : s.step R offs e = .ok s1) (hpl : s1.sys.Scanning path) :
    ∀ o ∈ os, Coming s1.sys path o := by
  have pl : ∀ r y, s.sys.planned path r = .ok y → y.Scanning path →
      (∀ pl, r = .ok pl → (pl = none → ∀ o ∈ os, Entry s.sys.c.fs (s.sys.c.mode.indexPath path) o) ∧
        ∀ n m, pl = some (n, m) → ∀ o ∈ os, (indexFind m o).isSome = true) → ∀ o ∈ os, Coming y path o := by
    intro r y hy hsc hr o ho
    cases r with
    | error f => cases f with
      | ub => cases hy
      | exn e => cases hy; exact absurd hsc hn
    | ok x =>
      cases hy
      obtain ⟨h1, h2⟩ := hr x rfl
      refine ⟨?_, fun z hz hzp n m hnm => ?_⟩
      · cases x with
        | none => exact .inl (h1 rfl o ho)
        | some q => exact .inr ⟨(path, some q), List.mem_append_right _ (List.mem_singleton.mpr rfl), rfl, (by intro h; cases h)⟩
      · rcases List.mem_append.mp hz with hz | hz
        · exact absurd ⟨z, hz, hzp⟩ hn
        · rw [List.mem_singleton] at hz
          subst hz
          exact h2 n m hnm o ho
  cases e with
  | cache e =>
    rw [Svc.step] at h
    obtain ⟨y, hy, h⟩ := res_bind_inv h
    cases h
    cases e with
    | scan p os' =>
      obtain ⟨rfl, rfl⟩ := hs
      refine pl _ y hy hpl fun x hx => ?_
      obtain ⟨h1, h2⟩ := scanPlan_entries g.cache.index hU hx
      exact ⟨h1, fun n m e => (h2 n m e).2⟩
    | scanFile p merge =>
      obtain ⟨rfl, file, hf, ho⟩ := hs
      refine pl _ y hy hpl fun x hx => ?_
      obtain ⟨os', h0, h1, h2⟩ := scanFilePlan_entries g.cache.index hU hx
      rw [g.world] at h0
      have : os' = os := by
        simp only [diskWorld, hf, ho] at h0
        exact (Except.ok.inj h0).symm
      subst this
      exact ⟨h1, fun n m e => (h2 n m e).2⟩
    | _ => exact absurd hs id
  | append _ _ => exact absurd hs id
  | jump _ _ _ => exact absurd hs id

/-- C87.  A node over index files that agree with the data, building metadata on demand or not; any history.  Then a scan of
messages of a file, not overlapped by another scan of that file, and neither by a process that rewrites the index with less; it is
over before lookups start.  From then on lookups of those messages are answered, with their metadata, whatever goes on, as long as
flushes append (as those of the plugin do) and other processes append, or rewrite the index with these messages.  Missing from the
full property: overlapping scans (`C87_overlapping_scans_refused`), and file names the cache confuses. -/
theorem C87_scanned_messages_served_partial {R : Reader UInt64} {offs : List UInt8 → Res (List Nat)} (sound : SoundReader R)
    (hoffs : ∀ file, offs file ≠ undef) {U : String → Prop} (d : Disk) (mode : CacheMode) (lazy : Bool) (cap : Nat) (fs : FS)
    (apart : ToldApart mode U) (room : 0 < cap) (agree : GoodIndex (diskWorld R offs d) U mode fs)
    (path : String) (os : List Nat) (used : U path) (before during after : List SEv) (scan : SEv) (s0 s1 s2 s3 : Svc UInt64)
    (allowed : ∀ e ∈ before ++ scan :: during ++ after, e.Allowed U)
    (run0 : (Svc.start R offs d mode lazy cap fs).run R offs before = .ok s0)
    (idle : ¬ s0.sys.Scanning path) (scans : scan.Scans offs s0.disk path os) (run1 : s0.step R offs scan = .ok s1)
    (begun : s1.sys.Scanning path) (run2 : s1.run R offs during = .ok s2) (alone : ∀ e ∈ during, e.NoScan mode path)
    (over : ¬ s2.sys.Scanning path) (run3 : s2.run R offs after = .ok s3)
    (keeps : ∀ e ∈ during ++ after, ∀ o ∈ os, e.Keeps mode path o) :
    (∀ o ∈ os, (s3.sys.c.indexed path o).isSome = true) ∧
    ∀ a ∈ s3.sys.answers.drop s2.sys.answers.length, a.path = path → a.offsets.Nodup → (∀ o ∈ a.offsets, o ∈ os) →
      ∃ is, a.result = .ok is ∧ extractInfos (diskWorld R offs s3.disk) path a.offsets = .ok is := by
  have al : ∀ {l : List SEv}, (∀ e ∈ l, e ∈ before ++ scan :: during ++ after) → ∀ e ∈ l, e.Allowed U :=
    fun hl e he => allowed e (hl e he)
  have hstart : SvcGood R offs U (Svc.start R offs d mode lazy cap fs) := SvcGood.start hoffs apart room agree
  obtain ⟨g0, m0, -⟩ := Svc.run_keeps sound hoffs (P := fun _ => True) (Q := fun _ => True) (mode := mode) (fun _ _ _ => trivial)
    (fun _ _ _ _ _ _ _ _ _ => trivial) before hstart rfl trivial (al fun e he => by simp [he]) (fun _ _ => trivial) run0
  have ascan := allowed scan (by simp)
  obtain ⟨s1', h1', g1⟩ := g0.step sound hoffs scan ascan
  rw [run1] at h1'
  cases h1'
  have m1 : s1.sys.c.mode = mode := by
    cases scan with
    | cache e =>
      rw [Svc.step] at run1
      obtain ⟨y, hy, h⟩ := res_bind_inv run1
      cases h
      exact (Sys.step_mode hy).1.trans m0
    | append _ _ => exact absurd scans id
    | jump _ _ _ => exact absurd scans id
  have c1 := scan_coming g0 used scans idle run1 begun
  obtain ⟨g2, m2, -⟩ := Svc.run_keeps sound hoffs (P := fun _ => True) (Q := fun _ => True) (mode := mode) (fun _ _ _ => trivial)
    (fun _ _ _ _ _ _ _ _ _ => trivial) during g1 m1 trivial (al fun e he => by simp [he]) (fun _ _ => trivial) run2
  have k2 : ∀ o ∈ os, KeptEntry s2.sys path o := fun o ho =>
    (Svc.run_coming sound hoffs g1 (c1 o ho) (al fun e he => by simp [he])
      (fun e he => by rw [m1]; exact keeps e (by simp [he]) o ho) (fun e he => by rw [m1]; exact alone e he) run2).done over
  obtain ⟨g3, k3, new, hn, hsv⟩ := Svc.run_serves sound hoffs (K := fun p o => p = path ∧ o ∈ os) after g2
    (fun p o h => by obtain ⟨rfl, ho⟩ := h; exact k2 o ho) (al fun e he => by simp [he])
    (fun e he p o h => by obtain ⟨rfl, ho⟩ := h; rw [m2]; exact keeps e (by simp [he]) o ho) run3
  refine ⟨fun o ho => (k3 path o ⟨rfl, ho⟩).here, fun a ha hp hnd hos => ?_⟩
  have ha' := ha
  rw [hn, List.drop_left] at ha'
  obtain ⟨is, his⟩ := hsv a ha' hnd fun o ho => ⟨hp, hos o ho⟩
  refine ⟨is, his, ?_⟩
  rw [← hp, ← g3.world]
  exact g3.cache.answers a (List.mem_of_mem_drop ha) is his

/-! ## Messages the plugin saw -/

/-- The message waits in memory to be written to the index. -/
def Sys.Staged (s : Sys) (path : String) (o : Nat) : Prop :=
  ∃ m, s.c.staged.find (s.c.mode.indexPath path) = some m ∧ (indexFind m o).isSome = true

theorem indexFind_insert_some {m : InfoMap} {o : Nat} (k : Nat) (i : Info) (h : (indexFind m o).isSome = true) :
    (indexFind (AMap.insert m k (some i)) o).isSome = true := by
  rw [indexFind] at h ⊢
  rw [AMap.find_insert]
  cases hf : AMap.find m o with
  | none => rw [hf] at h; cases h
  | some x =>
    rw [hf] at h
    by_cases hk : k = o
    · subst hk
      rw [if_pos rfl, hf]
      exact h
    · rw [if_neg hk]
      exact h

theorem indexFind_insert_self {m : InfoMap} (es : List (Nat × Info)) (hm : m = noNull es) (o : Nat) (i : Info) :
    (indexFind (AMap.insert m o (some i)) o).isSome = true := by
  subst hm
  rw [indexFind, AMap.find_insert, if_pos rfl, find_noNull]
  cases AMap.find es o <;> rfl

theorem Sys.Staged.step {s s' : Sys} {e : CEv} {path : String} {o : Nat} (h : s.Staged path o) (hn : ∀ a, e ≠ .flush a)
    (hs : s.step e = .ok s') : s'.Staged path o := by
  have same : s'.c.staged = s.c.staged → s'.Staged path o := by
    intro hst
    unfold Sys.Staged
    rw [hst, (Sys.step_mode hs).1]
    exact h
  have pl : ∀ p r, s.planned p r = .ok s' → s'.c.staged = s.c.staged := by
    intro p r hr
    cases r with
    | ok x => cases hr; rfl
    | error f => cases f with
      | ub => cases hr
      | exn e => cases hr; rfl
  cases e with
  | lookup p os =>
    apply same
    obtain ⟨⟨found, c⟩, h1, h2⟩ := res_bind_inv hs
    cases h2
    exact (getCached_kept h1).2.2.2
  | answer k =>
    apply same
    rw [Sys.step] at hs
    split at hs
    · cases hs; rfl
    · rw [Sys.finish] at hs
      split at hs
      · obtain ⟨c, h3, h4⟩ := res_bind_inv hs
        cases h4
        exact (putCache_kept h3).2.2.2
      · cases hs
      · cases hs; rfl
  | scan p os => exact same (pl _ _ hs)
  | scanFile p merge => exact same (pl _ _ hs)
  | commit k =>
    apply same
    rw [Sys.step] at hs
    split at hs
    · cases hs; rfl
    · rename_i p m hkk
      obtain ⟨⟨n, c⟩, h1, h2⟩ := res_bind_inv hs
      cases h2
      cases m with
      | none => cases h1; rfl
      | some x =>
        rw [Cache.scanCommit] at h1
        obtain ⟨fs, -, h1⟩ := res_bind_inv h1
        cases h1
        rfl
  | insert p k =>
    rw [Sys.step] at hs
    split at hs
    · cases hs
      obtain ⟨m, hm, ho⟩ := h
      unfold Sys.Staged
      rw [(insert_kept _ _ _ _).1, Cache.insert]
      simp only
      by_cases hp : s.c.mode.indexPath p = s.c.mode.indexPath path
      · rw [hp, hm]
        exact ⟨_, by rw [AMap.find_set, if_pos rfl], indexFind_insert_some _ _ ho⟩
      · split
        · exact ⟨m, by rw [AMap.find_set, if_neg hp]; exact hm, ho⟩
        · exact ⟨m, by rw [AMap.find_set, if_neg hp]; exact hm, ho⟩
    · cases hs; exact same rfl
  | flush a => exact absurd rfl (hn a)
  | clear => cases hs; exact same rfl
  | elsewhere a ws =>
    apply same
    obtain ⟨fs, -, h2⟩ := res_bind_inv hs
    cases h2
    rfl
  | grow W' => cases hs; exact same rfl

/-- The plugin inserts the metadata of a message. -/
theorem insert_staged {U : String → Prop} {s s' : Sys} (g : Good U s) {path : String} {o : Nat}
    {i : Info} (hi : s.W.data path o = .ok i) (hs : s.step (.insert path o) = .ok s') : s'.Staged path o := by
  rw [Sys.step, hi] at hs
  cases hs
  unfold Sys.Staged
  rw [(insert_kept _ _ _ _).1, Cache.insert]
  simp only
  split
  · rename_i m hm
    obtain ⟨p, -, -, es, he, -⟩ := g.staged _ (mem_of_find hm)
    exact ⟨_, by rw [AMap.find_set, if_pos rfl], indexFind_insert_self es he o i⟩
  · exact ⟨_, by rw [AMap.find_set, if_pos rfl], indexFind_insert_self (m := []) [] rfl o i⟩

/-- A flush that appends puts what waits into the index. -/
theorem flush_kept {U : String → Prop} {s s' : Sys} (g : Good U s) {path : String} {o : Nat} (h : s.Staged path o)
    (hn : ¬ s.Scanning path) (hs : s.step (.flush true) = .ok s') : KeptEntry s' path o := by
  obtain ⟨c, h1, h2⟩ := res_bind_inv hs
  cases h2
  rw [Cache.flush] at h1
  obtain ⟨fs, hf, h1⟩ := res_bind_inv h1
  cases h1
  refine ⟨?_, fun x hx hp => absurd ⟨x, hx, hp⟩ hn⟩
  rw [indexed_iff]
  obtain ⟨m, hm, ho⟩ := h
  exact entry_flush g.sep s.c.staged s.c.fs fs g.staged g.index (.inr ⟨_, mem_of_find hm, rfl, ho⟩) hf

theorem Svc.run_append {R : Reader UInt64} {offs : List UInt8 → Res (List Nat)} (l1 l2 : List SEv) :
    ∀ s : Svc UInt64, s.run R offs (l1 ++ l2) = (s.run R offs l1 >>= fun s' => s'.run R offs l2) := by
  induction l1 with
  | nil => intro s; rfl
  | cons e l1 ih =>
    intro s
    rw [List.cons_append, Svc.run, Svc.run]
    cases s.step R offs e with
    | error f => rfl
    | ok s1 => exact ih s1

theorem Svc.run_disk {R : Reader UInt64} {offs : List UInt8 → Res (List Nat)} (es : List SEv) :
    ∀ {s s' : Svc UInt64}, s.run R offs es = .ok s' → s.disk.Before s'.disk := by
  induction es with
  | nil => intro s s' h; cases h; exact Disk.Before.refl _
  | cons e es ih =>
    intro s s' h
    rw [Svc.run] at h
    obtain ⟨s1, h1, h2⟩ := res_bind_inv h
    refine Disk.Before.trans ?_ (ih h2)
    cases e with
    | cache e =>
      obtain ⟨y, -, h1⟩ := res_bind_inv h1
      cases h1
      exact Disk.Before.refl _
    | append p b => cases h1; exact Disk.append_before _ _ _
    | jump k j is =>
      rw [Svc.step] at h1
      split at h1
      · split at h1 <;> (cases h1; exact Disk.Before.refl _)
      · cases h1; exact Disk.Before.refl _

/-- C87.  The same for messages that the plugin saw: while a file was written it inserted the metadata of messages of it, and then
flushed, at a time when nobody scanned the file.  Missing: as above. -/
theorem C87_flushed_messages_served_partial {R : Reader UInt64} {offs : List UInt8 → Res (List Nat)} (sound : SoundReader R)
    (hoffs : ∀ file, offs file ≠ undef) {U : String → Prop} (d : Disk) (mode : CacheMode) (lazy : Bool) (cap : Nat) (fs : FS)
    (apart : ToldApart mode U) (room : 0 < cap) (agree : GoodIndex (diskWorld R offs d) U mode fs)
    (path : String) (os : List Nat) (before during after : List SEv) (s0 s1 s2 s3 : Svc UInt64)
    (allowed : ∀ e ∈ before ++ during ++ after, e.Allowed U)
    (run0 : (Svc.start R offs d mode lazy cap fs).run R offs before = .ok s0)
    (there : ∀ o ∈ os, ∃ i, (diskWorld R offs s0.disk).data path o = .ok i)
    (run1 : s0.run R offs during = .ok s1) (inserted : ∀ o ∈ os, SEv.cache (.insert path o) ∈ during)
    (unflushed : ∀ a, SEv.cache (.flush a) ∉ during) (idle : ¬ s1.sys.Scanning path)
    (run2 : s1.step R offs (.cache (.flush true)) = .ok s2) (run3 : s2.run R offs after = .ok s3)
    (keeps : ∀ e ∈ after, ∀ o ∈ os, e.Keeps mode path o) :
    (∀ o ∈ os, (s3.sys.c.indexed path o).isSome = true) ∧
    ∀ a ∈ s3.sys.answers.drop s2.sys.answers.length, a.path = path → a.offsets.Nodup → (∀ o ∈ a.offsets, o ∈ os) →
      ∃ is, a.result = .ok is ∧ extractInfos (diskWorld R offs s3.disk) path a.offsets = .ok is := by
  have al : ∀ {l : List SEv}, (∀ e ∈ l, e ∈ before ++ during ++ after) → ∀ e ∈ l, e.Allowed U :=
    fun hl e he => allowed e (hl e he)
  have hstart : SvcGood R offs U (Svc.start R offs d mode lazy cap fs) := SvcGood.start hoffs apart room agree
  have step0 : ∀ {l : List SEv} {s s' : Svc UInt64}, SvcGood R offs U s → s.sys.c.mode = mode → (∀ e ∈ l, e.Allowed U) →
      s.run R offs l = .ok s' → SvcGood R offs U s' ∧ s'.sys.c.mode = mode := by
    intro l s s' g hm ha hr
    have := Svc.run_keeps sound hoffs (P := fun _ => True) (Q := fun _ => True) (mode := mode) (fun _ _ _ => trivial)
      (fun _ _ _ _ _ _ _ _ _ => trivial) l g hm trivial ha (fun _ _ => trivial) hr
    exact ⟨this.1, this.2.1⟩
  obtain ⟨g0, m0⟩ := step0 hstart rfl (al fun e he => by simp [he]) run0
  obtain ⟨g1, m1⟩ := step0 g0 m0 (al fun e he => by simp [he]) run1
  have staged : ∀ o ∈ os, s1.sys.Staged path o := by
    intro o ho
    obtain ⟨l1, l2, hl⟩ := List.append_of_mem (inserted o ho)
    rw [hl, Svc.run_append] at run1
    obtain ⟨sa, ha, run1⟩ := res_bind_inv run1
    rw [Svc.run] at run1
    obtain ⟨sb, hb, run1⟩ := res_bind_inv run1
    obtain ⟨ga, ma⟩ := step0 g0 m0 (al fun e he => by simp [hl, he]) ha
    obtain ⟨sb', hb', gb⟩ := ga.step sound hoffs _ (allowed (.cache (.insert path o)) (by simp [hl]))
    rw [hb] at hb'
    cases hb'
    obtain ⟨i, hi⟩ := there o ho
    have hi' : sa.sys.W.data path o = .ok i := by
      rw [ga.world]
      exact (Svc.run_disk l1 ha).grown sound (offs := offs) _ _ _ hi
    rw [Svc.step] at hb
    obtain ⟨y, hy, hb⟩ := res_bind_inv hb
    cases hb
    have hst : y.Staged path o := insert_staged ga.cache hi' hy
    exact (Svc.run_keeps sound hoffs (P := fun s => s.Staged path o) (Q := fun e => ∀ a, e ≠ .cache (.flush a)) (mode := mode)
      (fun _ _ hp => hp) (fun _ _ e _ _ _ hq hp hs => hp.step (fun a he => hq a (by rw [he])) hs) l2 gb
      ((Sys.step_mode hy).1.trans ma) hst (al fun e he => by simp [hl, he])
      (fun e he a hea => unflushed a (by rw [hl, ← hea]; simp [he])) run1).2.2
  obtain ⟨s2', h2', g2⟩ := g1.step sound hoffs (.cache (.flush true)) trivial
  rw [run2] at h2'
  cases h2'
  rw [Svc.step] at run2
  obtain ⟨y, hy, run2⟩ := res_bind_inv run2
  cases run2
  have m2 : y.c.mode = mode := (Sys.step_mode hy).1.trans m1
  obtain ⟨g3, k3, new, hn, hsv⟩ := Svc.run_serves sound hoffs (K := fun p o => p = path ∧ o ∈ os) after g2
    (fun p o h => by obtain ⟨rfl, ho⟩ := h; exact flush_kept g1.cache (staged o ho) idle hy) (al fun e he => by simp [he])
    (fun e he p o h => by obtain ⟨rfl, ho⟩ := h; exact (m2 ▸ keeps e he o ho : e.Keeps y.c.mode p o)) run3
  refine ⟨fun o ho => (k3 path o ⟨rfl, ho⟩).here, fun a ha hp hnd hos => ?_⟩
  have ha' := ha
  rw [hn, List.drop_left] at ha'
  obtain ⟨is, his⟩ := hsv a ha' hnd fun o ho => ⟨hp, hos o ho⟩
  refine ⟨is, his, ?_⟩
  rw [← hp, ← g3.world]
  exact g3.cache.answers a (List.mem_of_mem_drop ha) is his

/-! ## Messages that were not scanned -/

/-- C87.  A node that does not build metadata on demand refuses a lookup of a message that is in no index and was not in memory
when the lookup began, whatever else is asked for with it. -/
theorem C87_unscanned_refused {U : String → Prop} {s : Sys} (g : Good U s) (off : s.c.lazy = false) (k : Nat) (l : Lookup)
    (pending : s.lookups[k]? = some l) (o : Nat) (asked : o ∈ l.offsets) (unknown : l.found.find o = none)
    (unindexed : s.c.indexed l.path o = none) :
    ∃ s', s.step (.answer k) = .ok s' ∧ s'.c = s.c ∧ s'.answers = s.answers ++ [⟨l.path, l.offsets, throwExn .jumpInfoDisabled⟩] := by
  obtain ⟨hp, hf⟩ := g.lookups l (List.mem_of_getElem? pending)
  obtain ⟨es, hl, -⟩ := loaded_good g.index hp
  have hlen : l.found.length ≠ l.offsets.length := by
    have h1 := length_le_of_nodup_subset l.found.keys (l.offsets.erase o) hf.nodup (by
      intro x hx
      rw [AMap.mem_keys_iff] at hx
      obtain ⟨i, hi⟩ := Option.isSome_iff_exists.mp hx
      refine (List.mem_erase_of_ne ?_).mpr (hf.ok x i hi).1
      rintro rfl
      rw [hi] at unknown
      cases unknown)
    rw [List.length_erase_of_mem asked] at h1
    have h2 : l.found.keys.length = l.found.length := by simp [AMap.keys]
    have h3 : 0 < l.offsets.length := List.length_pos_of_mem asked
    omega
  have hres : resolve s.W s.c.lazy s.c.mode s.c.fs l.path l.offsets l.found = throwExn .jumpInfoDisabled := by
    have hidx : indexFind (noNull es) o = none := by
      rw [Cache.indexed, hl] at unindexed
      exact unindexed
    have hmiss : ((l.offsets.filter fun o => (l.found.find o).isNone).filter fun x =>
        ((indexGet (noNull es) (l.offsets.filter fun o => (l.found.find o).isNone)).find x).isNone) ≠ [] := by
      apply List.ne_nil_of_mem (a := o)
      refine List.mem_filter.mpr ⟨List.mem_filter.mpr ⟨asked, by rw [unknown]; rfl⟩, ?_⟩
      rw [find_indexGet, hidx]
      split <;> rfl
    rw [resolve, if_pos hlen, hl, ok_bind]
    simp only
    rw [if_neg hmiss, if_pos off]
    rfl
  rw [Sys.step, pending]
  simp only
  rw [Sys.finish, hres]
  exact ⟨_, rfl, rfl, rfl⟩

/-! ## A node -/

/-- A node that builds metadata on demand or not.  The messages of `K` are in their indexes when the call starts (see the
theorems above); during the call anything goes on that leaves them there. -/
structure Node.Scanned (n : Node) (K : String → Nat → Prop) : Prop where
  reader : SoundReader n.reader
  offs : ∀ file, n.offs file ≠ undef
  began : ∃ d mode lazy cap fs es, ToldApart mode n.names ∧ 0 < cap ∧ GoodIndex (diskWorld n.reader n.offs d) n.names mode fs ∧
    (∀ e ∈ es, SEv.Allowed n.names e) ∧ (Svc.start n.reader n.offs d mode lazy cap fs).run n.reader n.offs es = .ok n.start
  indexed : ∀ p o, K p o → KeptEntry n.start.sys p o
  infos : ∀ t f os, n.names f → ∃ es s, (∀ e ∈ es, SEv.Allowed n.names e) ∧
    (∀ e ∈ es, ∀ p o, K p o → e.Keeps n.start.sys.c.mode p o) ∧
    n.start.run n.reader n.offs es = .ok s ∧ s.disk.Before n.later ∧
    (⟨f, os, n.env.infos t f os⟩ : Answer) ∈ s.sys.answers.drop n.start.sys.answers.length
  jump : ∀ t f o i is, ∃ d : Disk, n.start.disk.Before d ∧ d.Before n.later ∧
    n.env.jump t f o i is = diskJump n.reader d f o i is
  fetch : ∀ t u is, n.env.fetch t u is = slowExtract n.reader n.store u is

theorem Node.Scanned.good {n : Node} {K : String → Nat → Prop} (h : n.Scanned K) : SvcGood n.reader n.offs n.names n.start := by
  obtain ⟨d, mode, lazy, cap, fs, es, h1, h2, h3, h4, h5⟩ := h.began
  obtain ⟨s, hs, g⟩ := (SvcGood.start (lazy := lazy) h.offs h1 h2 h3).run h.reader h.offs es h4
  rw [h5] at hs
  cases hs
  exact g

theorem Node.Scanned.runs {n : Node} {K : String → Nat → Prop} (h : n.Scanned K) : n.Runs K where
  reader := h.reader
  before := by
    obtain ⟨d, h1, h2, -⟩ := h.jump 0 "" 0 (.unsupported ⟨0, 0, 0, 0, 0, 0, 0, 0, 0, 0, 0, 0, 0, "", ""⟩) []
    exact h1.trans h2
  metadata {t f os is} hf hi := by
    obtain ⟨es, s, h1, h2, h3, h4, h5⟩ := h.infos t f os hf
    obtain ⟨g, -, -⟩ := Svc.run_serves h.reader h.offs es h.good h.indexed h1 h2 h3
    have := g.cache.answers _ (List.mem_of_mem_drop h5) is hi
    rw [g.world] at this
    exact extractInfos_grow (h4.grown h.reader) this
  served t f os hf hnd hr := by
    obtain ⟨es, s, h1, h2, h3, h4, h5⟩ := h.infos t f os hf
    obtain ⟨-, -, new, hn, hsv⟩ := Svc.run_serves h.reader h.offs es h.good h.indexed h1 h2 h3
    rw [hn, List.drop_left] at h5
    exact hsv _ h5 hnd fun o ho => (hr o ho).1
  jump := h.jump
  fetch := h.fetch

/-- C87.  As `C69_request_succeeds_partial`, for a node that need not build metadata on demand: every request names a field of the
catalogue that the node has and, if it is in a file, one that is in the index when the call starts. -/
theorem C87_scanned_request_succeeds_partial (n : Node) (K : String → Nat → Prop) (scanned : n.Scanned K)
    (here : n.conf.forward = false) (cat : List (FdbKey × Uri))
    (catalogue : Catalogue n.conf.ignoreYearMonth cat) (lists : ListsOnly n.env cat)
    (complete : ListsAll n.conf.ignoreYearMonth n.env cat)
    (places : ∀ a ∈ cat, ∀ b ∈ cat, a.2.path = b.2.path → a.2.offset = b.2.offset → a = b) (sched : List Nat)
    (rs : List ExRequest) (ws : List WrittenRequest) (written : Written rs ws) (nonempty : rs ≠ [])
    (different : ws.Pairwise fun a b =>
      ¬ (essential n.conf.ignoreYearMonth a.pairs).Perm (essential n.conf.ignoreYearMonth b.pairs))
    (sameKeywords : ∀ a ∈ ws, ∀ b ∈ ws, ∀ k, k ∈ (essential n.conf.ignoreYearMonth a.pairs).map Prod.fst →
      k ∈ (essential n.conf.ignoreYearMonth b.pairs).map Prod.fst)
    (found : ∀ i (hi : i < rs.length) (hj : i < ws.length), ∃ e ∈ cat,
      SameField n.conf.ignoreYearMonth ws[i].pairs e.1 ∧ (e.2.scheme ≠ "fdb" → K e.2.path e.2.offset) ∧
        ∃ r, n.Gives e.2 rs[i].ranges rs[i].gridHash r) :
    ∃ out, localExtract n.env n.conf sched rs = .ok out ∧ out.length = rs.length ∧
      ∀ i (hi : i < rs.length) (hj : i < ws.length), ∃ e ∈ cat, SameField n.conf.ignoreYearMonth ws[i].pairs e.1 ∧
        ∃ r, out[i]? = some r ∧ n.Gives e.2 rs[i].ranges rs[i].gridHash r :=
  scanned.runs.extract here catalogue lists complete places sched written nonempty different sameKeywords found

/-- C87.  The same for requests by path on such a node. -/
theorem C87_scanned_path_request_succeeds_partial (n : Node) (K : String → Nat → Prop) (scanned : n.Scanned K) (sched : List Nat)
    (rs : List PathReq) (nonempty : rs ≠ []) (here : ∀ r ∈ rs, r.host = "" ∧ r.port = 0)
    (place : ∀ a ∈ rs, ∀ b ∈ rs, a.path = b.path → a.scheme = b.scheme) (different : (rs.map PathReq.text).Nodup)
    (found : ∀ r ∈ rs, (r.scheme ≠ "fdb" → K r.path r.offset) ∧
      ∃ x, n.Gives ⟨r.scheme, r.host, r.port, r.path, r.offset⟩ r.ranges r.gridHash x) :
    ∃ out, localExtractPaths n.env n.conf sched rs = .ok out ∧ out.length = rs.length ∧
      ∀ (i : Nat) r, rs[i]? = some r →
        ∃ x, out[i]? = some x ∧ n.Gives ⟨r.scheme, r.host, r.port, r.path, r.offset⟩ r.ranges r.gridHash x := by
  have hplace : ∀ a ∈ rs, ∀ b ∈ rs, a.path = b.path → a.scheme = b.scheme ∧ a.host = b.host ∧ a.port = b.port := by
    intro a ha b hb hp
    rw [(here a ha).1, (here a ha).2, (here b hb).1, (here b hb).2]
    exact ⟨place a ha b hb hp, rfl, rfl⟩
  have hfwd : ∀ r rest, rs = r :: rest → (!(decide (r.host = "") && decide (r.port = 0))) = false := by
    intro r rest hrs
    obtain ⟨h1, h2⟩ := here r (by rw [hrs]; exact List.mem_cons_self ..)
    rw [h1, h2]; rfl
  obtain ⟨out, ho⟩ := ready_paths sched scanned.runs.produces scanned.runs.ready nonempty hfwd hplace different
    fun r hr => ⟨(found r hr).2, (found r hr).1⟩
  obtain ⟨hlen, -, hx⟩ := paths_deliver (P := n.Right)
    (fun r rest hrs => by rw [hfwd r rest hrs]; exact scanned.runs.produces) hplace ho
  refine ⟨out, ho, hlen, fun i r hr => ?_⟩
  obtain ⟨x, hxi, hright⟩ := hx i r hr
  obtain ⟨-, y, hy⟩ := found r (List.mem_of_getElem? hr)
  exact ⟨x, hxi, by rw [hright.2 y hy]; exact hy⟩

theorem Relays.on {K : String × Int → String → Nat → Prop} {E : ExtEnv} {C : EngineConf} {peer : String × Int → Node}
    (h : Relays E peer) (up : ∀ e ∈ C.servers, (peer e.2).Scanned (K e.2)) : RelaysOn K E C peer := by
  intro t server fm ha
  refine ⟨peer server, fun hne => ?_, fun _ _ _ _ h => h, h t server fm⟩
  obtain ⟨f0, hf0, hi⟩ := hne
  obtain ⟨i0, hi0⟩ := List.exists_mem_of_ne_nil _ hi
  exact (up _ (find_some_mem (ha.place f0 hf0 i0 hi0).2)).runs

/-- C87.  As `C69_forwarded_request_succeeds_partial`, for servers that need not build metadata on demand: every request names a
field of the catalogue whose message is in the index of the server responsible for it when the call starts. -/
theorem C87_forwarded_request_succeeds_partial (E : ExtEnv) (C : EngineConf) (forwards : C.forward = true)
    (peer : String × Int → Node) (wire : Relays E peer) (K : String × Int → String → Nat → Prop)
    (scanned : ∀ e ∈ C.servers, (peer e.2).Scanned (K e.2))
    (cat : List (FdbKey × Uri)) (catalogue : Catalogue C.ignoreYearMonth cat) (lists : ListsOnly E cat)
    (complete : ListsAll C.ignoreYearMonth E cat)
    (places : ∀ a ∈ cat, ∀ b ∈ cat, a.2.path = b.2.path → a.2.offset = b.2.offset → a = b) (sched : List Nat)
    (rs : List ExRequest) (ws : List WrittenRequest) (written : Written rs ws) (nonempty : rs ≠ [])
    (fit : ∀ q ∈ rs, q.Fits) (different : ws.Pairwise fun a b =>
      ¬ (essential C.ignoreYearMonth a.pairs).Perm (essential C.ignoreYearMonth b.pairs))
    (sameKeywords : ∀ a ∈ ws, ∀ b ∈ ws, ∀ k, k ∈ (essential C.ignoreYearMonth a.pairs).map Prod.fst →
      k ∈ (essential C.ignoreYearMonth b.pairs).map Prod.fst)
    (found : ∀ i (hi : i < rs.length) (hj : i < ws.length), ∃ e ∈ cat,
      SameField C.ignoreYearMonth ws[i].pairs e.1 ∧
        (∀ server, C.servers.find (e.2.host, e.2.port) = some server → K server e.2.path e.2.offset) ∧
        ∃ r, Answering C peer e.2 rs[i].ranges rs[i].gridHash r) :
    ∃ out, localExtract E C sched rs = .ok out ∧ out.length = rs.length ∧
      (∀ i (hi : i < rs.length) (hj : i < ws.length), ∃ e ∈ cat, SameField C.ignoreYearMonth ws[i].pairs e.1 ∧
        ∃ r, out[i]? = some r ∧ Answering C peer e.2 rs[i].ranges rs[i].gridHash r) ∧
      ∀ axes scan forwardScan ctx, remoteExtract (nodeEngine E C sched axes scan forwardScan) ctx rs = .ok out :=
  relayed_extract_on K E C forwards peer (wire.on scanned) cat catalogue lists complete places sched rs ws written nonempty fit
    different sameKeywords found

/-- C87.  The same for requests by path with host and port. -/
theorem C87_forwarded_path_request_succeeds_partial (E : ExtEnv) (C : EngineConf) (peer : String × Int → Node)
    (wire : Relays E peer) (K : String × Int → String → Nat → Prop) (scanned : ∀ e ∈ C.servers, (peer e.2).Scanned (K e.2))
    (sched : List Nat) (rs : List PathReq) (nonempty : rs ≠ []) (remote : ∀ q ∈ rs, q.host ≠ "" ∨ q.port ≠ 0)
    (fit : ∀ q ∈ rs, ∀ i ∈ q.ranges, i.b < 2 ^ 64 ∧ i.e < 2 ^ 64)
    (place : ∀ a ∈ rs, ∀ b ∈ rs, a.path = b.path → a.scheme = b.scheme ∧ a.host = b.host ∧ a.port = b.port)
    (different : (rs.map PathReq.text).Nodup)
    (found : ∀ r ∈ rs, (∀ server, C.servers.find (r.host, r.port) = some server → K server r.path r.offset) ∧
      ∃ x, Answering C peer ⟨r.scheme, r.host, r.port, r.path, r.offset⟩ r.ranges r.gridHash x) :
    ∃ out, localExtractPaths E C sched rs = .ok out ∧ out.length = rs.length ∧
      ∀ (i : Nat) r, rs[i]? = some r → ∃ x, out[i]? = some x ∧
        Answering C peer ⟨r.scheme, r.host, r.port, r.path, r.offset⟩ r.ranges r.gridHash x :=
  relayed_paths_on K E C peer (wire.on scanned) sched rs nonempty remote fit place different found

/-! ## Overlapping scans, and examples -/

def c87Disk : Disk := toyDisk.append "/fdb/a.data" [0x47, 2, 7, 8]

/-- A node that does not build metadata on demand, over a file with two messages and no index. -/
def c87Start : Svc UInt64 := Svc.start toyReader (fun _ => .ok [0, 6]) c87Disk .shadow false 16 []

theorem c87_agree : GoodIndex (diskWorld toyReader (fun _ => .ok [0, 6]) c87Disk) oneFile .shadow [] := by
  intro p _
  exact ⟨[], Or.inl ⟨rfl, rfl⟩, fun x hx => by cases hx⟩

/-- Two clients have the two messages of a file scanned at the same time; both scans succeed; then one of the messages is asked
for. -/
def c87Race : List SEv :=
  [.cache (.scan "/fdb/a.data" [0]), .cache (.scan "/fdb/a.data" [6]), .cache (.commit 0), .cache (.commit 0),
   .cache (.lookup "/fdb/a.data" [0]), .cache (.answer 0)]

/-- C87, without the condition that scans of a file do not overlap, fails: the message was scanned and is refused. -/
theorem C87_overlapping_scans_refused :
    (∀ e ∈ c87Race, e.Allowed oneFile) ∧
    (∀ e ∈ c87Race, e.Keeps .shadow "/fdb/a.data" 0) ∧
    ((c87Start.run toyReader (fun _ => .ok [0, 6]) c87Race).toOption.map fun s =>
      s.sys.answers.map fun a => (a.path, a.offsets, decide (a.result = throwExn .jumpInfoDisabled))) =
      some [("/fdb/a.data", [0], true)] ∧
    (messageExtract toyReader (toyMessage ++ [0x47, 2, 7, 8]) 0 [⟨0, 1⟩]).toOption.isSome = true := by
  refine ⟨?_, ?_, by decide +kernel, by decide +kernel⟩
  · intro e he
    simp only [c87Race, List.mem_cons, List.mem_nil_iff, or_false] at he
    rcases he with rfl | rfl | rfl | rfl | rfl | rfl <;> first | rfl | trivial
  · intro e he
    simp only [c87Race, List.mem_cons, List.mem_nil_iff, or_false] at he
    rcases he with rfl | rfl | rfl | rfl | rfl | rfl <;> trivial

/-- The state after some events. -/
def c87After (es : List SEv) : Svc UInt64 := ((c87Start.run toyReader (fun _ => .ok [0, 6]) es).toOption).getD c87Start

def c87During : List SEv := [.cache (.lookup "/fdb/a.data" [0]), .cache (.commit 0)]

def c87Later : List SEv :=
  [.cache .clear, .cache (.insert "/fdb/a.data" 0), .cache (.flush true), .cache (.lookup "/fdb/a.data" [6, 0]),
   .cache (.scan "/fdb/a.data" [6]), .cache (.answer 1), .cache (.answer 0)]

theorem c87_run (es : List SEv) (h : (c87Start.run toyReader (fun _ => .ok [0, 6]) es).toOption.isSome = true) :
    c87Start.run toyReader (fun _ => .ok [0, 6]) es = .ok (c87After es) := by
  unfold c87After
  cases hr : c87Start.run toyReader (fun _ => .ok [0, 6]) es with
  | error e => rw [hr] at h; cases h
  | ok s => rfl

/-- Non-vacuity of `C87_scanned_messages_served_partial`: the whole file is scanned while a lookup is under way; afterwards the memory
is cleared, the plugin inserts and flushes, and there is another scan.  Both lookups are answered. -/
example : (∀ o ∈ [0, 6], ((c87After ([.cache (.scanFile "/fdb/a.data" true)] ++ c87During ++ c87Later)).sys.c.indexed "/fdb/a.data" o).isSome = true) ∧
    (c87After ([.cache (.scanFile "/fdb/a.data" true)] ++ c87During)).sys.answers.length = 0 ∧
    ((c87After ([.cache (.scanFile "/fdb/a.data" true)] ++ c87During ++ c87Later)).sys.answers.map fun a =>
      (a.path, a.offsets, (a.result.toOption.map List.length))) = [("/fdb/a.data", [6, 0], some 2), ("/fdb/a.data", [0], some 1)] := by
  have r1 := c87_run [.cache (.scanFile "/fdb/a.data" true)] (by decide +kernel)
  have r2 := c87_run ([.cache (.scanFile "/fdb/a.data" true)] ++ c87During) (by decide +kernel)
  have r3 := c87_run ([.cache (.scanFile "/fdb/a.data" true)] ++ c87During ++ c87Later) (by decide +kernel)
  rw [Svc.run_append, r2] at r3
  rw [Svc.run_append, r1] at r2
  have r1' := r1
  rw [Svc.run] at r1'
  obtain ⟨s1, h1, h1'⟩ := res_bind_inv r1'
  cases h1'
  have := C87_scanned_messages_served_partial toySound (fun _ h => by cases h) (U := oneFile) c87Disk .shadow false 16 [] oneFile_apart
    (by decide) c87_agree "/fdb/a.data" [0, 6] rfl [] c87During c87Later (.cache (.scanFile "/fdb/a.data" true)) c87Start _ _ _ (by
      intro e he
      simp only [c87During, c87Later, List.cons_append, List.nil_append, List.mem_cons, List.mem_nil_iff, or_false] at he
      rcases he with rfl | rfl | rfl | rfl | rfl | rfl | rfl | rfl | rfl | rfl <;> first | rfl | trivial) rfl
    (by rintro ⟨x, hx, -⟩; cases hx) ⟨rfl, _, rfl, rfl⟩ h1
    (by
      have : ((c87After [.cache (.scanFile "/fdb/a.data" true)]).sys.scans.map fun x => x.1) = ["/fdb/a.data"] := by decide +kernel
      cases hs : (c87After [.cache (.scanFile "/fdb/a.data" true)]).sys.scans with
      | nil => rw [hs] at this; cases this
      | cons x l =>
        rw [hs] at this
        refine ⟨x, by rw [hs]; exact List.mem_cons_self, ?_⟩
        exact congrArg _ (List.cons.inj this).1) r2 (by
      intro e he
      simp only [c87During, List.mem_cons, List.mem_nil_iff, or_false] at he
      rcases he with rfl | rfl <;> trivial)
    (by
      rintro ⟨x, hx, -⟩
      have : (c87After ([.cache (.scanFile "/fdb/a.data" true)] ++ c87During)).sys.scans.length = 0 := by decide +kernel
      rw [List.eq_nil_of_length_eq_zero this] at hx
      cases hx) r3 (by
      intro e he o _
      simp only [c87During, c87Later, List.cons_append, List.nil_append, List.mem_cons, List.mem_nil_iff, or_false] at he
      rcases he with rfl | rfl | rfl | rfl | rfl | rfl | rfl | rfl | rfl <;> first | rfl | trivial)
  exact ⟨this.1, by decide +kernel, by decide +kernel⟩

/-- Non-vacuity of `C87_flushed_messages_served_partial`. -/
example : ∀ o ∈ [0, 6], ((c87After ([.cache (.insert "/fdb/a.data" 0), .append "/fdb/a.data" [0x47, 1, 5], .cache (.insert "/fdb/a.data" 6)] ++
    [.cache (.flush true)] ++ c87Later)).sys.c.indexed "/fdb/a.data" o).isSome = true := by
  have r1 := c87_run [.cache (.insert "/fdb/a.data" 0), .append "/fdb/a.data" [0x47, 1, 5], .cache (.insert "/fdb/a.data" 6)] (by decide +kernel)
  have r2 := c87_run ([.cache (.insert "/fdb/a.data" 0), .append "/fdb/a.data" [0x47, 1, 5], .cache (.insert "/fdb/a.data" 6)] ++
    [.cache (.flush true)]) (by decide +kernel)
  have r3 := c87_run ([.cache (.insert "/fdb/a.data" 0), .append "/fdb/a.data" [0x47, 1, 5], .cache (.insert "/fdb/a.data" 6)] ++
    [.cache (.flush true)] ++ c87Later) (by decide +kernel)
  rw [Svc.run_append, r2] at r3
  rw [Svc.run_append, r1, ok_bind, Svc.run] at r2
  obtain ⟨s2, h2, h2'⟩ := res_bind_inv r2
  cases h2'
  exact (C87_flushed_messages_served_partial toySound (fun _ h => by cases h) (U := oneFile) c87Disk .shadow false 16 [] oneFile_apart
    (by decide) c87_agree "/fdb/a.data" [0, 6] [] _ c87Later c87Start _ _ _ (by
      intro e he
      simp only [c87Later, List.cons_append, List.nil_append, List.mem_cons, List.mem_nil_iff, or_false] at he
      rcases he with rfl | rfl | rfl | rfl | rfl | rfl | rfl | rfl | rfl | rfl <;> first | rfl | trivial) rfl
    (by
      intro o ho
      simp only [List.mem_cons, List.mem_nil_iff, or_false] at ho
      rcases ho with rfl | rfl
      · exact ⟨_, rfl⟩
      · exact ⟨_, rfl⟩) r1
    (by
      intro o ho
      simp only [List.mem_cons, List.mem_nil_iff, or_false] at ho
      rcases ho with rfl | rfl <;> simp)
    (by intro a; simp)
    (by
      rintro ⟨x, hx, -⟩
      have : (c87After [.cache (.insert "/fdb/a.data" 0), .append "/fdb/a.data" [0x47, 1, 5], .cache (.insert "/fdb/a.data" 6)]).sys.scans.length = 0 := by
        decide +kernel
      rw [List.eq_nil_of_length_eq_zero this] at hx
      cases hx) h2 r3 (by
      intro e he o _
      simp only [c87Later, List.mem_cons, List.mem_nil_iff, or_false] at he
      rcases he with rfl | rfl | rfl | rfl | rfl | rfl | rfl <;> first | rfl | trivial)).1

/-- Non-vacuity of `C87_unscanned_refused`: one message is in the index, the other is not. -/
example : let es : List SEv := [.cache (.scan "/fdb/a.data" [0]), .cache (.commit 0), .cache (.lookup "/fdb/a.data" [0, 6])]
    (c87After es).sys.c.lazy = false ∧ ((c87After es).sys.lookups.map fun l => (l.path, l.offsets, (l.found.find 6).isNone)) =
      [("/fdb/a.data", [0, 6], true)] ∧ ((c87After es).sys.c.indexed "/fdb/a.data" 6).isNone = true ∧
    ((c87After (es ++ [.cache (.answer 0)])).sys.answers.map fun a => decide (a.result = throwExn .jumpInfoDisabled)) = [true] := by
  exact ⟨by decide +kernel, by decide +kernel, by decide +kernel, by decide +kernel⟩

theorem busyNode_scanned {C : EngineConf} {R : Reader UInt64} (sound : SoundReader R) {offs : List UInt8 → Res (List Nat)}
    (hoffs : ∀ file, offs file ≠ undef) {U : String → Prop} {S : Store} {d : Disk} {mode : CacheMode} {lazy : Bool} {cap : Nat}
    {fs : FS} (apart : ToldApart mode U) (room : 0 < cap) (agree : GoodIndex (diskWorld R offs d) U mode fs)
    {es : List SEv} (allowed : ∀ e ∈ es, e.Allowed U) {s : Svc UInt64}
    (history : (Svc.start R offs d mode lazy cap fs).run R offs es = .ok s) {K : String → Nat → Prop}
    (indexed : ∀ p o, K p o → KeptEntry s.sys p o)
    (list : Union → Res (List (FdbKey × Uri))) (f0 : String) (bytes : List UInt8) :
    (busyNode C R offs U S s list f0 bytes).Scanned K where
  reader := sound
  offs := hoffs
  began := ⟨d, mode, lazy, cap, fs, es, apart, room, agree, allowed, history⟩
  indexed := indexed
  infos t f os hf := by
    obtain ⟨s', h1, g⟩ := (SvcGood.start (lazy := lazy) hoffs apart room agree).run sound hoffs es allowed
    rw [history] at h1
    cases h1
    obtain ⟨h1, s', h2, h3, h4⟩ := answerNow_run sound hoffs g f hf os
    refine ⟨_, s', h1, ?_, h2, by rw [h3]; exact Disk.append_before _ _ _, h4⟩
    intro e he p o _
    simp only [List.mem_cons, List.mem_nil_iff, or_false] at he
    rcases he with rfl | rfl <;> trivial
  jump t f o i is := by
    refine ⟨if t % 2 = 0 then s.disk else s.disk.append f0 bytes, ?_, ?_, rfl⟩
    · split
      · exact Disk.Before.refl _
      · exact Disk.append_before _ _ _
    · split
      · exact Disk.append_before _ _ _
      · exact Disk.Before.refl _
  fetch t u is := rfl

/-- The messages of the file were scanned. -/
def c87Steps : List SEv := [.cache (.scan "/fdb/a.data" [0, 6]), .cache (.commit 0)]

def c87Node : Node :=
  busyNode c50Conf toyReader (fun _ => .ok [0, 6]) oneFile c50Store (c87After c87Steps) (fun _ => .ok c50Cat) "/fdb/a.data" [0x47, 1, 9]

def c87Known (p : String) (o : Nat) : Prop := p = "/fdb/a.data" ∧ o ∈ [0, 6]

theorem c87_scanned : c87Node.Scanned c87Known :=
  busyNode_scanned toySound (fun _ h => by cases h) (d := c87Disk) (mode := .shadow) (lazy := false) (cap := 16) (fs := []) (es := c87Steps)
    oneFile_apart (by decide) c87_agree (by
      intro e he
      simp only [c87Steps, List.mem_cons, List.mem_nil_iff, or_false] at he
      rcases he with rfl | rfl <;> first | rfl | trivial) (c87_run _ (by decide +kernel)) (by
      rintro p o ⟨rfl, ho⟩
      refine ⟨?_, ?_⟩
      · simp only [List.mem_cons, List.mem_nil_iff, or_false] at ho
        rcases ho with rfl | rfl <;> decide +kernel
      · intro x hx
        have : (c87After c87Steps).sys.scans.length = 0 := by decide +kernel
        rw [List.eq_nil_of_length_eq_zero this] at hx
        cases hx) _ _ _

/-- Non-vacuity of `C87_scanned_request_succeeds_partial`: the node does not build metadata on demand; its file was scanned. -/
example : c87Node.Scanned c87Known ∧ c87Node.start.sys.c.lazy = false ∧ c87Node.conf.forward = false ∧
    ListsOnly c87Node.env c50Cat ∧ ListsAll c87Node.conf.ignoreYearMonth c87Node.env c50Cat ∧
    (∀ i (hi : i < c50Reqs.length) (hj : i < c27Written.length), ∃ e ∈ c50Cat, SameField true c27Written[i].pairs e.1 ∧
      (e.2.scheme ≠ "fdb" → c87Known e.2.path e.2.offset) ∧ ∃ r, c87Node.Gives e.2 c50Reqs[i].ranges c50Reqs[i].gridHash r) ∧
    localExtract c87Node.env c87Node.conf [1, 0, 1, 0, 0, 1] c50Reqs =
      .ok [⟨[[10, 11, 12, 13]], [[15]]⟩, ⟨[[11], [12, 13]], [[1], [3]]⟩, ⟨[[7, 8]], [[3]]⟩] := by
  refine ⟨c87_scanned, by decide +kernel, rfl, ?_, fun u => ⟨c50Cat, rfl, fun e he _ => he⟩, ?_, by decide +kernel⟩
  · intro u L h
    have := Except.ok.inj h
    subst this
    exact ⟨fun e he => he, by decide +kernel⟩
  · refine c69_at (p := fun i hi _ e => (e.2.scheme ≠ "fdb" → c87Known e.2.path e.2.offset) ∧
        ∃ r, c87Node.Gives e.2 c50Reqs[i].ranges c50Reqs[i].gridHash r) (cat := c50Cat) rfl ?_ ?_ ?_
    · refine ⟨fun h => absurd rfl h, ⟨[[10, 11, 12, 13]], [[15]]⟩, ?_⟩
      unfold Node.Gives
      rw [if_pos (by decide)]
      exact ⟨rfl, toyMessage, _, [some 100], rfl, rfl, ⟨100, [], rfl, by decide, fun a ha => by cases ha⟩, toyGood,
        by decide +kernel⟩
    · exact ⟨fun _ => ⟨rfl, by simp⟩, ⟨[[11], [12, 13]], [[1], [3]]⟩, c69_file (file := toyMessage ++ [0x47, 2, 7, 8])
        (h := (toyParse toyMessage).get (by decide))
        (by decide) rfl (by decide +kernel) (by decide +kernel) (by decide +kernel) (by decide +kernel)⟩
    · exact ⟨fun _ => ⟨rfl, by simp⟩, ⟨[[7, 8]], [[3]]⟩, c69_file (file := toyMessage ++ [0x47, 2, 7, 8])
        (h := (toyParse [0x47, 2, 7, 8]).get (by decide))
        (by decide) rfl (by decide +kernel) (by decide +kernel) (by decide +kernel) (by decide +kernel)⟩

/-! ## Servers -/

/-- A server that does not build metadata on demand; the two messages of its file were scanned. -/
def c87Told (f : String) (msg : List UInt8) : Res (Svc UInt64) :=
  (Svc.start toyReader (fun _ => .ok [0, 6]) (c52Disk f msg) .shadow false 16 []).run toyReader (fun _ => .ok [0, 6])
    [.cache (.scan f [0, 6]), .cache (.commit 0)]

def c87Now (f : String) (msg : List UInt8) : Svc UInt64 :=
  ((c87Told f msg).toOption).getD (Svc.start toyReader (fun _ => .ok [0, 6]) (c52Disk f msg) .shadow false 16 [])

def c87Peer (f : String) (msg : List UInt8) : Node :=
  busyNode c27Conf toyReader (fun _ => .ok [0, 6]) (fun g => g = f) c50Store (c87Now f msg) (fun _ => throwExn .ioError) f
    [0x47, 1, 9]

def c87Has (f : String) (p : String) (o : Nat) : Prop := p = f ∧ (o = 0 ∨ o = 6)

theorem c87_peer {f : String} {msg : List UInt8} (hf : (baseName f).toList.getLast? = some 'a')
    (hr : (c87Told f msg).toOption.isSome = true) (hs : (c87Now f msg).sys.scans.length = 0)
    (h0 : ((c87Now f msg).sys.c.indexed f 0).isSome = true) (h6 : ((c87Now f msg).sys.c.indexed f 6).isSome = true) :
    (c87Peer f msg).Scanned (c87Has f) :=
  busyNode_scanned toySound (fun _ h => by cases h) (d := c52Disk f msg) (mode := .shadow) (lazy := false) (cap := 16) (fs := [])
    (es := [.cache (.scan f [0, 6]), .cache (.commit 0)]) (by
      refine C15_separated _ _ ?_ ?_
      · intro p q hp hq _; rw [hp, hq]
      · intro p hp c hc
        rw [hp, hf] at hc
        cases hc; decide) (by decide) (by
      intro p _
      exact ⟨[], Or.inl ⟨rfl, rfl⟩, fun x hx => by cases hx⟩) (by
      intro e he
      simp only [List.mem_cons, List.mem_nil_iff, or_false] at he
      rcases he with rfl | rfl <;> first | rfl | trivial) (by
      show c87Told f msg = .ok (c87Now f msg)
      unfold c87Now
      cases h : c87Told f msg with
      | error e => rw [h] at hr; cases hr
      | ok s => rfl) (by
      rintro p o ⟨rfl, rfl | rfl⟩
      · refine ⟨h0, fun x hx => ?_⟩
        rw [List.eq_nil_of_length_eq_zero hs] at hx
        cases hx
      · refine ⟨h6, fun x hx => ?_⟩
        rw [List.eq_nil_of_length_eq_zero hs] at hx
        cases hx) _ _ _

def c87Peers (server : String × Int) : Node :=
  if server.1 = "gx" then c87Peer "/fdb/a.data" (toyMessage ++ [0x47, 2, 7, 8])
  else c87Peer "/fdb/b.data" ([0x47, 4, 20, 21, 22, 23] ++ [0x47, 2, 7, 8])

def c87Engine (server : String × Int) : Engine :=
  nodeEngine (c87Peers server).env (c87Peers server).conf [0, 0, 0] (fun _ _ => throwExn .ioError)
    (fun _ _ => throwExn .ioError) (fun _ => throwExn .ioError)

def c87Front : ExtEnv :=
  { c52Env with forward := fun _ server fm => remoteForwardExtract (c87Engine server) "ctx" fm }

/-- What the servers scanned. -/
def c87Hold (server : String × Int) : String → Nat → Prop :=
  c87Has (if server.1 = "gx" then "/fdb/a.data" else "/fdb/b.data")

/-- Non-vacuity of `C87_forwarded_request_succeeds_partial` and of the theorem for requests by path. -/
example : Relays c87Front c87Peers ∧ (∀ e ∈ c52Conf.servers, (c87Peers e.2).Scanned (c87Hold e.2)) ∧
    (∀ e ∈ c52Conf.servers, (c87Peers e.2).start.sys.c.lazy = false) ∧ ListsOnly c87Front c52Cat ∧ ListsAll true c87Front c52Cat ∧
    (∀ i (hi : i < c50Reqs.length) (hj : i < c27Written.length), ∃ e ∈ c52Cat, SameField true c27Written[i].pairs e.1 ∧
      (∀ server, c52Conf.servers.find (e.2.host, e.2.port) = some server → c87Hold server e.2.path e.2.offset) ∧
      ∃ r, Answering c52Conf c87Peers e.2 c50Reqs[i].ranges c50Reqs[i].gridHash r) ∧
    localExtract c87Front c52Conf [1, 0] c50Reqs =
      .ok [⟨[[10, 11, 12, 13]], [[15]]⟩, ⟨[[21], [22, 23]], [[1], [3]]⟩, ⟨[[7, 8]], [[3]]⟩] ∧
    localExtractPaths c87Front c52Conf [] [⟨"/fdb/b.data", "fdb", 0, "y", 2, [⟨0, 2⟩], "g"⟩] = .ok [⟨[[20, 21]], [[3]]⟩] := by
  have at_ : ∀ {k : String × Int} {server0 : String × Int} {p : String} {o : Nat}, c52Conf.servers.find k = some server0 →
      c87Hold server0 p o → ∀ server, c52Conf.servers.find k = some server → c87Hold server p o := by
    intro k server0 p o h1 h2 server h3
    rw [h1] at h3
    cases h3
    exact h2
  refine ⟨fun t server fm => ⟨"ctx", [0, 0, 0], _, _, _, rfl⟩, ?_, by decide +kernel, ?_,
    fun u => ⟨c52Cat, rfl, fun e he _ => he⟩, ?_, by decide +kernel, by decide +kernel⟩
  · intro e he
    simp only [c52Conf, List.mem_cons, List.mem_nil_iff, or_false] at he
    rcases he with rfl | rfl
    · exact c87_peer (by decide +kernel) (by decide +kernel) (by decide +kernel) (by decide +kernel) (by decide +kernel)
    · exact c87_peer (by decide +kernel) (by decide +kernel) (by decide +kernel) (by decide +kernel) (by decide +kernel)
  · intro u L h
    have := Except.ok.inj h
    subst this
    exact ⟨fun e he => he, by decide +kernel⟩
  · refine c69_at (p := fun i hi _ e =>
      (∀ server, c52Conf.servers.find (e.2.host, e.2.port) = some server → c87Hold server e.2.path e.2.offset) ∧
      ∃ r, Answering c52Conf c87Peers e.2 c50Reqs[i].ranges c50Reqs[i].gridHash r) (cat := c52Cat) rfl ?_ ?_ ?_
    · exact ⟨at_ (server0 := ("gx", 9)) (by decide +kernel) ⟨rfl, Or.inl rfl⟩, ⟨[[10, 11, 12, 13]], [[15]]⟩, ("gx", 9), by decide +kernel,
        c69_file (file := toyMessage ++ [0x47, 2, 7, 8]) (h := (toyParse toyMessage).get (by decide))
        (show "file" ≠ "fdb" by decide) rfl (by decide +kernel) (by decide +kernel) (by decide +kernel) (by decide +kernel)⟩
    · exact ⟨at_ (server0 := ("gy", 9)) (by decide +kernel) ⟨rfl, Or.inl rfl⟩, ⟨[[21], [22, 23]], [[1], [3]]⟩, ("gy", 9), by decide +kernel,
        c69_file (file := [0x47, 4, 20, 21, 22, 23] ++ [0x47, 2, 7, 8]) (h := (toyParse toyMessage).get (by decide))
        (show "file" ≠ "fdb" by decide) rfl (by decide +kernel) (by decide +kernel) (by decide +kernel) (by decide +kernel)⟩
    · exact ⟨at_ (server0 := ("gx", 9)) (by decide +kernel) ⟨rfl, Or.inr rfl⟩, ⟨[[7, 8]], [[3]]⟩, ("gx", 9), by decide +kernel,
        c69_file (file := toyMessage ++ [0x47, 2, 7, 8]) (h := (toyParse [0x47, 2, 7, 8]).get (by decide))
        (show "file" ≠ "fdb" by decide) rfl (by decide +kernel) (by decide +kernel) (by decide +kernel) (by decide +kernel)⟩

end GJ
