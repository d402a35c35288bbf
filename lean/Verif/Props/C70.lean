import Verif.Lemmas.CacheSafe
import Verif.Props.C18
import Verif.Props.C55
import Verif.Model.Axes

/-!
# C70: nothing that is done with the metadata cache is undefined, and no metadata is made up

Here the cache may confuse files (base names that collide), index files may hold anything that is not a null entry, and
data files may change in any way, shrink included: what C15 needs to show that answers are *right* is not supposed.
-/

namespace GJ

open Spec

/-- Where metadata can come from: a message in a data file at some time, or an index file as it was at the start. -/
def Seen (W : World) (es : List CEv) (fs : FS) (i : Info) : Prop :=
  (∃ p o, W.data p o = .ok i) ∨ (∃ W', CEv.grow W' ∈ es ∧ ∃ p o, W'.data p o = .ok i) ∨
  ∃ p m o, loadIndex fs p = .ok m ∧ (o, some i) ∈ m

/-- Index files that can be loaded hold no null entries. -/
def NoNullEntries (fs : FS) : Prop := ∀ p m, loadIndex fs p = .ok m → ∀ x ∈ m, x.2 ≠ none

theorem seen_clean {fs : FS} (hfs : NoNullEntries fs) (W : World) (es : List CEv) : CleanFs (Seen W es fs) fs := by
  intro p m hm x hx
  obtain ⟨o, i⟩ := x
  cases i with
  | none => exact absurd rfl (hfs p m hm _ hx)
  | some i => exact ⟨i, rfl, .inr (.inr ⟨p, m, o, hm, hx⟩)⟩

/-- The state after a history. -/
theorem history_sound (W : World) (hW : W.Defined) (mode : CacheMode) (lazy : Bool) (cap : Nat) (hc : 0 < cap) (fs : FS)
    (hfs : NoNullEntries fs) (es : List CEv) (hes : ∀ W', .grow W' ∈ es → W'.Defined) :
    ∃ s, (Sys.start W mode lazy cap fs).run es = .ok s ∧ SoundSys (Seen W es fs) s := by
  have hs : SoundSys (Seen W es fs) (.start W mode lazy cap fs) :=
    SoundSys.start ⟨hW, fun p o i h => .inl ⟨p, o, h⟩⟩ mode lazy hc (seen_clean hfs W es)
  refine NoThrow.safe (Sys.run_noThrow es _) (hs.run es ?_)
  intro e he
  cases e with
  | grow W' => exact ⟨hes W' he, fun p o i h => .inr (.inl ⟨W', he, p, o, h⟩)⟩
  | _ => exact trivial

/-- C70 (partial).  Any interleaving of lookups, scans, insertions, flushes, clearings and changes of the data files, from
index files of any content: every step is defined, and every lookup that was answered got an exception, or one piece of
metadata for each offset, each of which is that of a message that was in some data file at some time, or was in an index
file at the start.  Missing: a capacity of zero (`C70_no_capacity_undefined`), and index files with null entries, which an
interrupted flush leaves (`C70_interrupted_flush_undefined`). -/
theorem C70_history_defined_partial (W : World) (hW : W.Defined) (mode : CacheMode) (lazy : Bool) (cap : Nat) (hc : 0 < cap)
    (fs : FS) (hfs : NoNullEntries fs) (es : List CEv) (hes : ∀ W', .grow W' ∈ es → W'.Defined) :
    ∃ s, (Sys.start W mode lazy cap fs).run es = .ok s ∧
      ∀ a ∈ s.answers, (∃ e, a.result = throwExn e) ∨
        ∃ is, a.result = .ok is ∧ is.length = a.offsets.length ∧ ∀ i ∈ is, Seen W es fs i := by
  obtain ⟨s, h1, h2⟩ := history_sound W hW mode lazy cap hc fs hfs es hes
  refine ⟨s, h1, fun a ha => ?_⟩
  have hr := h2.answers a ha
  match h : a.result with
  | .ok is => exact .inr ⟨is, rfl, hr.2 is h⟩
  | .error (.exn e) => exact .inl ⟨e, rfl⟩
  | .error .ub => exact absurd h hr.1

/-- C70.  At any point of such a history a scan through the interface, by requests or by files, in any interleaving of its
tasks and with any that are cancelled, is defined; and it leaves a cache with which any further history is defined. -/
theorem C70_scans_defined_partial (W : World) (hW : W.Defined) (mode : CacheMode) (lazy : Bool) (cap : Nat) (hc : 0 < cap)
    (fs : FS) (hfs : NoNullEntries fs) (es : List CEv) (hes : ∀ W', .grow W' ∈ es → W'.Defined) (s : Sys)
    (hs : (Sys.start W mode lazy cap fs).run es = .ok s)
    (E : ScanEnv) (hE : E.W = s.W) (hl : ∀ r, E.list r ≠ undef) (hf : ∀ t server files, E.forward t server files ≠ undef)
    (C : ScanConf) (rs files : List String) (byfiles : Bool) (sched : List ScanEv) (r : Res (Nat × Cache))
    (hr : r = apiScan E C s.c rs byfiles sched ∨ r = apiScanFiles E s.c files sched) :
    r ≠ undef ∧ ∀ n c', r = .ok (n, c') → ∀ es', (∀ W', .grow W' ∈ es' → W'.Defined) →
      ∃ s', Sys.run { s with c := c' } es' = .ok s' := by
  obtain ⟨s', h1, h2⟩ := history_sound W hW mode lazy cap hc fs hfs es hes
  rw [hs] at h1
  cases h1
  have hg : E.Gives (Seen W es fs) := ⟨hE ▸ h2.world, hf⟩
  have key : Safe (fun x : Nat × Cache => SoundCache (Seen W es fs) x.2) r := by
    rcases hr with rfl | rfl
    · unfold apiScan
      split
      · exact Safe.throw _
      · exact raiseScan_safe (engineScan_safe hg hl C h2.cache rs byfiles sched)
    · unfold apiScanFiles
      split
      · exact Safe.throw _
      · exact raiseScan_safe (engineScanFiles_safe hg h2.cache files sched)
  refine ⟨key.1, fun n c' hc' es' hes' => ?_⟩
  -- forget where the metadata came from
  have weak : ∀ {m : InfoMap}, Clean (Seen W es fs) m → Clean (fun _ => True) m := by
    intro m h x hx
    obtain ⟨i, hi, -⟩ := h x hx
    exact ⟨i, hi, trivial⟩
  have hc2 := key.2 _ hc'
  have hs2 : SoundSys (fun _ => True) { s with c := c' } := by
    refine ⟨⟨h2.world.defined, fun _ _ _ _ => trivial⟩, ⟨hc2.cap, fun _ _ => trivial, ?_, ?_⟩, ?_, ?_, ?_⟩
    · intro p m h; exact weak (hc2.fs p m h)
    · intro x hx; exact weak (hc2.staged x hx)
    · intro l hl; exact ⟨(h2.lookups l hl).nodup, fun o i h => ⟨((h2.lookups l hl).ok o i h).1, trivial⟩⟩
    · intro x hx n m h; exact weak (h2.scans x hx n m h)
    · intro a ha; exact (h2.answers a ha).weaken fun is h => ⟨h.1, fun _ _ => trivial⟩
  obtain ⟨s', h, -⟩ := NoThrow.safe (Sys.run_noThrow es' _) (hs2.run es' (by
    intro e he
    cases e with
    | grow W' => exact ⟨hes' W' he, fun _ _ _ _ => trivial⟩
    | _ => exact trivial))
  exact ⟨s', h⟩

/-! ## The whole node -/

/-- Scans as a node does them, on its cache as it is. -/
def nodeScan (E : ScanEnv) (C : ScanConf) (c : Cache) (sched : List ScanEv) (rs : List String) (byfiles : Bool) :
    Res (Nat × List String) := do
  let (n, errs, _) ← engineScan E C c rs byfiles sched
  .ok (n, errs)

/-- C55 (partial), with nothing left open that the node computes itself: `C55_machine_node_answers_partial` where axes
queries and scans are those of the program, on the cache as any history left it. -/
theorem C55_whole_node_answers_partial {Q : Type} (mem : Nat) (R : Reader UInt64) (E : ExtEnv)
    (Known : String → Nat → Info → Prop) (C : EngineConf) (sched : List Nat)
    (node : MachineNode mem R E Known) (lib : AecContract R.lib) (memory : mem ≤ 2 ^ 60) (places : NoStrayFdb E C)
    (AE : AxesEnv Q) (parses : ∀ t, AE.parse t ≠ undef) (fdb : ∀ q l, AE.fdb q l ≠ undef)
    (W : World) (hW : W.Defined) (mode : CacheMode) (lazy : Bool) (cap : Nat) (hc : 0 < cap) (fs : FS)
    (hfs : NoNullEntries fs) (es : List CEv) (hes : ∀ W', .grow W' ∈ es → W'.Defined) (s : Sys)
    (hs : (Sys.start W mode lazy cap fs).run es = .ok s)
    (S : ScanEnv) (hS : S.W = s.W) (hl : ∀ r, S.list r ≠ undef) (hf : ∀ t server files, S.forward t server files ≠ undef)
    (SC : ScanConf) (scanSched : List ScanEv) (input : List Tok) (complete : RangesComplete input)
    (acceptable : ∀ ctx req rest, dispatch input = .ok ((ctx, req), rest) → Acceptable E C (Askable Known) req) :
    ∃ calls out, serve (nodeEngine E C sched (localAxes AE) (nodeScan S SC s.c scanSched)
      (serverForwardScan S s.c scanSched)) input = .ok (calls, out) ∧ calls.length ≤ 1 ∧ out ≠ [] := by
  obtain ⟨s', h1, h2⟩ := history_sound W hW mode lazy cap hc fs hfs es hes
  rw [hs] at h1
  cases h1
  have hg : S.Gives (Seen W es fs) := ⟨hS ▸ h2.world, hf⟩
  refine C55_machine_node_answers_partial mem R E Known C sched _ _ _ node lib memory places ?_ ?_ ?_ input complete
    acceptable
  · intro r l
    rw [localAxes]
    refine (Safe.bind (T := fun _ => True) (Safe.of_ne (parses r)) fun qs _ => ?_).1
    split
    · exact Safe.bind (Safe.of_ne (fdb _ _)) fun _ _ => Safe.ok trivial
    · exact Safe.throw _
  · intro rs b
    exact (Safe.bind (T := fun _ => True) (engineScan_safe hg hl SC h2.cache rs b scanSched) fun _ _ => Safe.ok trivial).1
  · intro sm
    exact (Safe.bind (T := fun _ => True) (scanTasks_safe hg h2.cache _ scanSched) fun _ _ => Safe.ok trivial).1

/-- The lookups of a node meet what `MachineNode` says of them, when they are lookups in such a history. -/
theorem C55_lookups_are_safe (W : World) (hW : W.Defined) (mode : CacheMode) (lazy : Bool) (cap : Nat) (hc : 0 < cap)
    (fs : FS) (hfs : NoNullEntries fs) (es : List CEv) (hes : ∀ W', .grow W' ∈ es → W'.Defined) (s : Sys)
    (hs : (Sys.start W mode lazy cap fs).run es = .ok s) (f : String) (os : List Nat) (r : Res (List Info))
    (ha : ⟨f, os, r⟩ ∈ s.answers) :
    Safe (fun is => is.length = os.length ∧ ∀ (j : Nat) o i, os[j]? = some o → is[j]? = some i → Seen W es fs i) r := by
  obtain ⟨s', h1, h2⟩ := history_sound W hW mode lazy cap hc fs hfs es hes
  rw [hs] at h1
  cases h1
  refine (h2.answers _ ha).weaken fun is h => ⟨h.1, fun j o i _ hi => ?_⟩
  exact h.2 i (List.mem_of_getElem? hi)

/-! ## Where the property fails -/

/-- The fault of a run, if any. -/
def faultOf {α : Type} : Res α → Option Fault
  | .ok _ => none
  | .error f => some f

/-- C70 fails: with a capacity of zero (which a setting can ask for) the first lookup that is answered is undefined. -/
theorem C70_no_capacity_undefined :
    faultOf ((Sys.start sampleWorld .shadow true 0 []).run [.lookup "/fdb/a" [0], .answer 0]) = some .ub := by
  decide +kernel

/-- The index after a flush of one entry that was stopped after two items. -/
def stoppedFlush : FS := runOps sampleIndex ((appendOps "/d/a.gribjump" (entryToks [(204, .simple sampleBase)])).take 2)

/-- C70 fails: the flush of a process that was stopped leaves an index with a null entry; the next process to scan the
file dereferences it. -/
theorem C70_interrupted_flush_undefined :
    faultOf ((Sys.start sampleWorld (.directory "/d") true 16 stoppedFlush).run [.scan "/fdb/a" [408], .commit 0])
      = some .ub := by
  decide +kernel

/-! ## The hypotheses are met -/

theorem twoFiles_defined : twoFiles.Defined := by
  refine ⟨fun p o h => ?_, fun p h => by cases h⟩
  unfold twoFiles at h
  simp only at h
  split at h
  · split at h
    · cases h
    · split at h <;> cases h
  · cases h

theorem sampleIndex_noNull : NoNullEntries sampleIndex := by
  intro p m hm
  by_cases hp : p = "/d/a.gribjump"
  · subst hp
    have : loadIndex sampleIndex "/d/a.gribjump" = .ok [(0, some (.simple sampleBase))] := by decide +kernel
    rw [this] at hm
    cases hm
    intro x hx
    rw [List.mem_singleton] at hx
    subst hx
    simp
  · rw [loadIndex, sampleIndex, AMap.find, if_neg (fun h => hp h.symm)] at hm
    cases hm
    intro x hx
    cases hx

/-- The number of answers and the last one. -/
def lastAnswer : Res Sys → Option (Nat × Res (List Info))
  | .ok s => s.answers.getLast?.map fun a => (s.answers.length, a.result)
  | .error _ => none

/-- Non-vacuity of C70: two files that the cache confuses, over an index file that knows nothing of them.  The second
lookup is answered with metadata of the first file (wrong, see C15, but seen); the third throws. -/
example : twoFiles.Defined ∧ NoNullEntries sampleIndex ∧
    lastAnswer ((Sys.start twoFiles (.directory "/d") true 16 sampleIndex).run
      [.lookup "/fdb/x/a.data" [0], .answer 0, .lookup "/fdb/y/a.data" [0], .scan "/fdb/y/a.data" [0], .commit 0, .answer 0])
      = some (2, .ok [.simple sampleBase]) ∧
    lastAnswer ((Sys.start twoFiles (.directory "/d") true 16 sampleIndex).run
      [.lookup "/fdb/x/a.data" [0], .answer 0, .insert "/fdb/x/a.data" 0, .flush true, .clear, .lookup "/fdb/y/a.data" [7],
       .answer 0]) = some (2, throwExn .userError) ∧
    Seen twoFiles [] sampleIndex (.simple sampleBase) := by
  refine ⟨twoFiles_defined, sampleIndex_noNull, by decide +kernel, by decide +kernel, .inl ⟨"/fdb/x/a.data", 0, rfl⟩⟩

/-- Non-vacuity of `C70_scans_defined_partial`: a scan by files with an interleaving of its two tasks, the second of which
fails. -/
example : (faultOf (apiScanFiles ⟨sampleWorld, fun _ => throwExn .ioError, fun _ _ _ => throwExn .ioError⟩
      (Sys.start sampleWorld (.directory "/d") true 16 sampleIndex).c ["/fdb/a", "/fdb/b"] [.run 1, .run 0])
      = some (.exn .seriousBug)) ∧
    (apiScanFiles ⟨sampleWorld, fun _ => throwExn .ioError, fun _ _ _ => throwExn .ioError⟩
      (Sys.start sampleWorld (.directory "/d") true 16 sampleIndex).c ["/fdb/a"] []).map Prod.fst = .ok 2 := by
  constructor <;> decide +kernel

/-- Non-vacuity of `C55_whole_node_answers_partial`: the node of C55 with a cache and one file to scan answers a scan with
the number of new entries. -/
example : (serve (nodeEngine c55Env c55Conf [] (localAxes (⟨fun _ => .ok [()], fun _ _ => .ok [("step", ["6"])]⟩ : AxesEnv Unit))
      (nodeScan ⟨sampleWorld, fun _ => .ok [⟨"file", "", 0, "/fdb/a", 408⟩], fun _ _ _ => throwExn .ioError⟩ ⟨false, []⟩
        (Sys.start sampleWorld (.directory "/d") true 16 sampleIndex).c [])
      (serverForwardScan ⟨sampleWorld, fun _ => throwExn .ioError, fun _ _ _ => throwExn .ioError⟩
        (Sys.start sampleWorld (.directory "/d") true 16 sampleIndex).c []))
      (encHeader .scan "" ++ encScanReq ["class=od"] false)).map Prod.snd = .ok (encErrors [] ++ encScanReply 1) ∧
    MachineNode 1000 wordReader c55Env (fun _ _ i => i = c55Info) := by
  exact ⟨by decide +kernel, c55_node⟩

end GJ
