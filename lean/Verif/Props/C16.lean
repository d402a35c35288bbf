import Verif.Lemmas.Index
import Verif.Model.Crash
import Verif.Spec.Index

/-!
# C16, C17, C18, C19: index files
-/

namespace GJ

open Spec

/-! ## C16 -/

/-- C16.  Writing an index and loading it gives the same map. -/
theorem C16_write_load (fs : FS) (path : String) (es : List (Nat × Info)) (h : (AMap.keys es).Nodup) :
    ∃ fs', writeIndex fs path (noNull es) = .ok fs' ∧ loadIndex fs' path = .ok (noNull es) ∧
      ∀ q, q ≠ path → fs'.find q = fs.find q := by
  refine ⟨_, by rw [writeIndex, encIndex_ok, ok_bind], loadIndex_written fs path es h, ?_⟩
  intro q hq
  rw [AMap.find_set, if_neg (fun e => hq e.symm)]

/-- Append batches one after the other. -/
def appendBatches (path : String) : FS → List (List (Nat × Info)) → Res FS
  | fs, [] => .ok fs
  | fs, b :: bs => do
    let fs' ← appendIndex fs path (noNull b)
    appendBatches path fs' bs

/-- The file is a complete index holding these entries in this order; no file is an empty index. -/
def Holds (fs : FS) (path : String) (es : List (Nat × Info)) : Prop :=
  (fs.find path = none ∧ es = []) ∨ fs.find path = some (.u8 1 :: entryToks es)

theorem Holds.load {fs : FS} {path : String} {es : List (Nat × Info)} (h : Holds fs path es) :
    loadIndex fs path = .ok (insertAll [] es) := by
  rcases h with ⟨h, rfl⟩ | h
  · rw [loadIndex, h]; rfl
  · rw [loadIndex, h]
    simp only
    rw [decIndex_ok]

theorem Holds.append {fs : FS} {path : String} {es : List (Nat × Info)} (h : Holds fs path es)
    (b : List (Nat × Info)) :
    ∃ fs', appendIndex fs path (noNull b) = .ok fs' ∧ Holds fs' path (es ++ b) ∧
      ∀ q, q ≠ path → fs'.find q = fs.find q := by
  rcases h with ⟨h, rfl⟩ | h
  · refine ⟨fs.set path (.u8 1 :: entryToks b), by rw [appendIndex, h]; simp only; rw [encIndex_ok, ok_bind],
      Or.inr (by rw [AMap.find_set, if_pos rfl]; rfl), ?_⟩
    intro q hq
    rw [AMap.find_set, if_neg (fun e => hq e.symm)]
  · refine ⟨fs.set path ((.u8 1 :: entryToks es) ++ entryToks b),
      by rw [appendIndex, h]; simp only; rw [encEntries_ok, ok_bind],
      Or.inr (by rw [AMap.find_set, if_pos rfl, entryToks_append]; rfl), ?_⟩
    intro q hq
    rw [AMap.find_set, if_neg (fun e => hq e.symm)]

theorem Holds.batches {path : String} (bs : List (List (Nat × Info))) {fs : FS} {es : List (Nat × Info)}
    (h : Holds fs path es) :
    ∃ fs', appendBatches path fs bs = .ok fs' ∧ Holds fs' path (es ++ bs.flatten) ∧
      ∀ q, q ≠ path → fs'.find q = fs.find q := by
  induction bs generalizing fs es with
  | nil => exact ⟨fs, rfl, by simpa using h, fun _ _ => rfl⟩
  | cons b bs ih =>
    obtain ⟨fs1, h1, hh1, ho1⟩ := h.append b
    obtain ⟨fs2, h2, hh2, ho2⟩ := ih hh1
    refine ⟨fs2, by rw [appendBatches, h1, ok_bind, h2], ?_, ?_⟩
    · rw [List.flatten_cons, ← List.append_assoc]; exact hh2
    · intro q hq; rw [ho2 q hq, ho1 q hq]

theorem find_eq_recorded (bs : List (List (Nat × Info))) (o : Nat) :
    AMap.find bs.flatten o = recorded bs o := by
  have : ∀ l : List (Nat × Info), AMap.find l o = (l.find? fun p => p.1 == o).map (·.2) := by
    intro l
    induction l with
    | nil => rfl
    | cons p l ih =>
      obtain ⟨k, i⟩ := p
      rw [AMap.find, List.find?_cons]
      by_cases h : k = o
      · simp [h]
      · have hb : (k == o) = false := by simpa using h
        simp only [hb, if_neg h, ih]
  exact this _

theorem indexFind_insertAll (es : List (Nat × Info)) (m : InfoMap) (o : Nat) :
    indexFind (insertAll m es) o = match m.find o with
      | some x => x
      | none => AMap.find es o := by
  rw [indexFind, find_insertAll]
  cases AMap.find m o with
  | some x => rfl
  | none => cases AMap.find es o <;> rfl

/-- C16.  Any number of batches appended to a file that did not exist: loading gives, for every offset,
the metadata recorded first for it. -/
theorem C16_append_load (fs : FS) (path : String) (bs : List (List (Nat × Info)))
    (hf : fs.find path = none) :
    ∃ fs' m, appendBatches path fs bs = .ok fs' ∧ loadIndex fs' path = .ok m ∧
      (∀ o, indexFind m o = recorded bs o) ∧ m.keys.Nodup := by
  obtain ⟨fs', h, hh, -⟩ := Holds.batches (path := path) bs (fs := fs) (es := []) (Or.inl ⟨hf, rfl⟩)
  refine ⟨fs', _, h, hh.load, ?_, nodup_insertAll _ _ List.nodup_nil⟩
  intro o
  rw [indexFind_insertAll, List.nil_append, find_eq_recorded]; rfl

/-- C16.  When batches do not contradict each other, the loaded map is exactly their union. -/
theorem C16_append_union (fs : FS) (path : String) (bs : List (List (Nat × Info)))
    (hf : fs.find path = none)
    (hc : ∀ o i j, mentions bs o i → mentions bs o j → i = j) :
    ∃ fs' m, appendBatches path fs bs = .ok fs' ∧ loadIndex fs' path = .ok m ∧
      ∀ o i, indexFind m o = some i ↔ mentions bs o i := by
  obtain ⟨fs', m, h1, h2, h3, -⟩ := C16_append_load fs path bs hf
  refine ⟨fs', m, h1, h2, ?_⟩
  intro o i
  rw [h3, recorded]
  constructor
  · intro h
    obtain ⟨p, hp, rfl⟩ := Option.map_eq_some_iff.mp h
    obtain ⟨b, hb, hpb⟩ := List.mem_flatten.mp (List.mem_of_find?_eq_some hp)
    have ho : p.1 = o := by simpa using List.find?_some hp
    exact ⟨b, hb, by rw [← ho]; exact hpb⟩
  · intro h
    have hex : (bs.flatten.find? fun p => p.1 == o).isSome := by
      obtain ⟨b, hb, hob⟩ := h
      rw [List.find?_isSome]
      exact ⟨(o, i), List.mem_flatten.mpr ⟨b, hb, hob⟩, by simp⟩
    obtain ⟨p, hp⟩ := Option.isSome_iff_exists.mp hex
    obtain ⟨b, hb, hpb⟩ := List.mem_flatten.mp (List.mem_of_find?_eq_some hp)
    have ho : p.1 = o := by simpa using List.find?_some hp
    rw [hp]
    show some p.2 = some i
    rw [hc o p.2 i ⟨b, hb, by rw [← ho]; exact hpb⟩ h]

/-! ## C17 -/

/-- Where a writer is: the steps it has left, and what its temporary file then holds. -/
inductive WriterAt (path tmp : String) (toks : List Tok) (fs : FS) : List FsOp → Prop where
  | start : WriterAt path tmp toks fs (writeOps path tmp toks)
  | writing (done todo : List Tok) (h : toks = done ++ todo) (hf : fs.find tmp = some done) :
      WriterAt path tmp toks fs (todo.map (.put tmp) ++ [.rename tmp path])
  | finished : WriterAt path tmp toks fs []

theorem WriterAt.congr {path tmp : String} {toks : List Tok} {fs fs' : FS} {ops : List FsOp}
    (h : WriterAt path tmp toks fs ops) (he : fs'.find tmp = fs.find tmp) :
    WriterAt path tmp toks fs' ops := by
  cases h with
  | start => exact .start
  | writing done todo h hf => exact .writing done todo h (by rw [he, hf])
  | finished => exact .finished

/-- One step of a writer: it stays in one of its positions, touches only its own temporary file and,
with its last step, the published file, which then holds its complete content. -/
theorem WriterAt.step {path tmp : String} {toks : List Tok} {fs : FS} {op : FsOp} {ops : List FsOp}
    (hk : (AMap.keys fs).Nodup) (hne : tmp ≠ path)
    (h : WriterAt path tmp toks fs (op :: ops)) :
    WriterAt path tmp toks (op.apply fs) ops ∧
    (∀ q, q ≠ tmp → q ≠ path → (op.apply fs).find q = fs.find q) ∧
    ((op.apply fs).find path = fs.find path ∨ (op.apply fs).find path = some toks) ∧
    (AMap.keys (op.apply fs)).Nodup := by
  generalize hops : op :: ops = all at h
  cases h with
  | start =>
    simp only [writeOps, List.cons.injEq] at hops
    obtain ⟨rfl, rfl⟩ := hops
    refine ⟨.writing [] toks rfl (by rw [FsOp.apply, AMap.find_set, if_pos rfl]), ?_, Or.inl ?_, AMap.nodup_set _ _ _ hk⟩
    · intro q hq _
      rw [FsOp.apply, AMap.find_set, if_neg (fun e => hq e.symm)]
    · rw [FsOp.apply, AMap.find_set, if_neg hne]
  | writing done todo he hf =>
    cases todo with
    | nil =>
      simp only [List.map_nil, List.nil_append, List.cons.injEq] at hops
      obtain ⟨rfl, rfl⟩ := hops
      have e : (FsOp.rename tmp path).apply fs = AMap.set (AMap.erase fs tmp) path done := by
        rw [FsOp.apply, hf]
      rw [e]
      refine ⟨.finished, ?_, Or.inr ?_, AMap.nodup_set _ _ _ (AMap.nodup_erase _ _ hk)⟩
      · intro q hq hp
        rw [AMap.find_set, if_neg (fun e => hp e.symm), AMap.find_erase _ _ _ hk, if_neg (fun e => hq e.symm)]
      · rw [AMap.find_set, if_pos rfl, he, List.append_nil]
    | cons t todo =>
      simp only [List.map_cons, List.cons_append, List.cons.injEq] at hops
      obtain ⟨rfl, rfl⟩ := hops
      refine ⟨.writing (done ++ [t]) todo (by rw [he]; simp) (by
        rw [FsOp.apply, AMap.find_set, if_pos rfl, hf]; rfl), ?_, Or.inl ?_, AMap.nodup_set _ _ _ hk⟩
      · intro q hq _
        rw [FsOp.apply, AMap.find_set, if_neg (fun e => hq e.symm)]
      · rw [FsOp.apply, AMap.find_set, if_neg hne]
  | finished => cases hops

theorem nodup_getElem_inj {α : Type} {l : List α} (h : l.Nodup) {i j : Nat} (hi : i < l.length)
    (hj : j < l.length) (e : l[i] = l[j]) : i = j := by
  have hp := List.pairwise_iff_getElem.mp h
  rcases Nat.lt_trichotomy i j with hlt | heq | hgt
  · exact absurd e (hp i j hi hj hlt)
  · exact heq
  · exact absurd e.symm (hp j i hj hi hgt)

theorem runWriters_spec (path : String) (ws : List (String × List Tok))
    (hd : (ws.map (·.1)).Nodup) (hp : path ∉ ws.map (·.1)) (sched : List Nat)
    (old : Option (List Tok)) (others : String → Option (List Tok))
    (fs : FS) (rem : List (List FsOp)) (hk : (AMap.keys fs).Nodup) (hlen : rem.length = ws.length)
    (hw : ∀ (i : Nat) (w : String × List Tok) (ops : List FsOp), ws[i]? = some w → rem[i]? = some ops → WriterAt path w.1 w.2 fs ops)
    (hold : fs.find path = old ∨ ∃ w ∈ ws, fs.find path = some w.2)
    (hoth : ∀ q, q ≠ path → q ∉ ws.map (·.1) → fs.find q = others q) :
    ((runWriters fs rem sched).find path = old ∨
      ∃ w ∈ ws, (runWriters fs rem sched).find path = some w.2) ∧
    ∀ q, q ≠ path → q ∉ ws.map (·.1) → (runWriters fs rem sched).find q = others q := by
  induction sched generalizing fs rem with
  | nil => exact ⟨hold, hoth⟩
  | cons i sched ih =>
    rw [runWriters]
    split
    · rename_i op ops hri
      have hi : i < rem.length := (List.getElem?_eq_some_iff.mp hri).1
      obtain ⟨w, hwi⟩ : ∃ w, ws[i]? = some w := ⟨ws[i]'(by omega), List.getElem?_eq_getElem (by omega)⟩
      have hmem : w ∈ ws := List.mem_of_getElem? hwi
      have hne : w.1 ≠ path := fun e => hp (e ▸ List.mem_map.mpr ⟨w, hmem, rfl⟩)
      obtain ⟨s1, s2, s3, s4⟩ := (hw i w _ hwi hri).step hk hne
      apply ih
      · exact s4
      · rw [List.length_set]; exact hlen
      · intro j w' ops' hj hr
        by_cases hij : i = j
        · subst hij
          rw [hwi] at hj; cases hj
          rw [List.getElem?_set_self hi] at hr; cases hr
          exact s1
        · rw [List.getElem?_set_ne hij] at hr
          refine (hw j w' ops' hj hr).congr (s2 _ ?_ ?_)
          · intro e
            have hi' : i < (ws.map (·.1)).length := by simp; omega
            have hj' : j < (ws.map (·.1)).length := by
              simp; exact (List.getElem?_eq_some_iff.mp hj).1
            have : (ws.map (·.1))[i] = (ws.map (·.1))[j] := by
              rw [List.getElem_map, List.getElem_map, (List.getElem?_eq_some_iff.mp hj).2,
                (List.getElem?_eq_some_iff.mp hwi).2, e]
            exact hij (nodup_getElem_inj hd hi' hj' this)
          · exact fun e => hp (e ▸ List.mem_map.mpr ⟨w', List.mem_of_getElem? hj, rfl⟩)
      · rcases s3 with s3 | s3
        · rw [s3]; exact hold
        · exact Or.inr ⟨w, hmem, s3⟩
      · intro q hq hqt
        rw [s2 q (fun e => hqt (e ▸ List.mem_map.mpr ⟨w, hmem, rfl⟩)) hq]
        exact hoth q hq hqt
    · exact ih fs rem hk hlen hw hold hoth

/-- C17.  Any number of threads write new contents of one index, each through its own temporary file,
and the process stops after any schedule of their steps: the published file holds its previous content
or the complete content of one of the writers; no other file is changed. -/
theorem C17_published_index_complete (path : String) (ws : List (String × List Tok))
    (hd : (ws.map (·.1)).Nodup) (hp : path ∉ ws.map (·.1)) (sched : List Nat)
    (fs : FS) (hk : (AMap.keys fs).Nodup) :
    ((runWriters fs (ws.map fun w => writeOps path w.1 w.2) sched).find path = fs.find path ∨
      ∃ w ∈ ws, (runWriters fs (ws.map fun w => writeOps path w.1 w.2) sched).find path = some w.2) ∧
    ∀ q, q ≠ path → q ∉ ws.map (·.1) →
      (runWriters fs (ws.map fun w => writeOps path w.1 w.2) sched).find q = fs.find q := by
  refine runWriters_spec path ws hd hp sched (fs.find path) fs.find fs _ hk (by simp) ?_ (Or.inl rfl)
    (fun _ _ _ => rfl)
  intro i w ops hi hr
  rw [List.getElem?_map, hi] at hr
  cases hr
  exact .start

theorem runWriters_single (fs : FS) (ops : List FsOp) (k : Nat) :
    runWriters fs [ops] (List.replicate k 0) = runOps fs (ops.take k) := by
  induction k generalizing fs ops with
  | zero => rfl
  | succ k ih =>
    rw [List.replicate_succ, runWriters]
    cases ops with
    | nil =>
      simp only [List.getElem?_cons_zero]
      rw [ih]; simp [runOps]
    | cons op ops =>
      simp only [List.getElem?_cons_zero, List.set_cons_zero]
      rw [ih]; rfl

/-- C17.  One writer stopped after any number of its steps: a reader finds the previous index or the new
one, complete. -/
theorem C17_crash_atomic (path tmp : String) (es : List (Nat × Info)) (hes : (AMap.keys es).Nodup)
    (fs : FS) (hk : (AMap.keys fs).Nodup) (hne : tmp ≠ path) (k : Nat) :
    loadIndex (runOps fs ((writeOps path tmp (.u8 1 :: entryToks es)).take k)) path = loadIndex fs path ∨
    loadIndex (runOps fs ((writeOps path tmp (.u8 1 :: entryToks es)).take k)) path = .ok (noNull es) := by
  have h := (C17_published_index_complete path [(tmp, .u8 1 :: entryToks es)] (by simp)
    (by simpa using fun e => hne e.symm) (List.replicate k 0) fs hk).1
  rw [List.map_cons, List.map_nil, runWriters_single] at h
  rcases h with h | ⟨w, hw, h⟩
  · left; rw [loadIndex, loadIndex, h]
  · right
    rw [List.mem_singleton] at hw
    subst hw
    rw [loadIndex, h]
    simp only
    rw [decIndex_ok, rebuild_noNull es hes]

theorem runOps_puts (fs : FS) (p : String) (toks pre : List Tok) (h : fs.find p = some pre) :
    (runOps fs (toks.map (.put p))).find p = some (pre ++ toks) := by
  induction toks generalizing fs pre with
  | nil => simpa [runOps] using h
  | cons t toks ih =>
    rw [List.map_cons]
    show (runOps (fs.set p ((fs.find p).getD [] ++ [t])) (toks.map (.put p))).find p = _
    rw [ih _ (pre ++ [t]) (by rw [AMap.find_set, if_pos rfl, h]; rfl)]
    simp

/-- C17.  All steps together have the effect of `writeIndex`. -/
theorem C17_all_steps (path tmp : String) (toks : List Tok) (fs : FS) (hne : tmp ≠ path)
    (hk : (AMap.keys fs).Nodup) :
    (runOps fs (writeOps path tmp toks)).find path = some toks ∧
    (runOps fs (writeOps path tmp toks)).find tmp = none := by
  have e : runOps fs (writeOps path tmp toks)
      = FsOp.apply (runOps (fs.set tmp []) (toks.map (.put tmp))) (.rename tmp path) := by
    rw [runOps, writeOps, List.foldl_cons, List.foldl_append]; rfl
  have hf := runOps_puts (fs.set tmp []) tmp toks [] (by rw [AMap.find_set, if_pos rfl])
  rw [List.nil_append] at hf
  have hk' : (AMap.keys (runOps (fs.set tmp []) (toks.map (.put tmp)))).Nodup := by
    have : ∀ (ts : List Tok) (g : FS), (AMap.keys g).Nodup → (AMap.keys (runOps g (ts.map (.put tmp)))).Nodup := by
      intro ts
      induction ts with
      | nil => intro g hg; exact hg
      | cons t ts ih => intro g hg; exact ih _ (AMap.nodup_set _ _ _ hg)
    exact this toks _ (AMap.nodup_set _ _ _ hk)
  rw [e, FsOp.apply, hf]
  simp only
  constructor
  · rw [AMap.find_set, if_pos rfl]
  · rw [AMap.find_set, if_neg (fun e => hne e.symm), AMap.find_erase _ _ _ hk', if_pos rfl]

/-! ### Appending is not atomic -/

def sampleBase : JumpInfo :=
  { version := 1, referenceValue := 0, binaryScaleFactor := 0, decimalScaleFactor := 0, editionNumber := 2,
    bitsPerValue := 8, offsetBeforeData := 100, offsetAfterData := 200, offsetBeforeBitmap := 0,
    numberOfValues := 100, numberOfDataPoints := 100, totalLength := 204, sphericalHarmonics := 0,
    md5GridSection := "33c7d6025995e1b4913811e77d38ec50", packingType := "grid_simple" }

def sampleIndex : FS := [("/d/a.gribjump", .u8 1 :: entryToks [(0, .simple sampleBase)])]

/-- C17 fails for appends (used by the FDB plugin): a process that stops while appending leaves an index
that can no longer be loaded at all. -/
theorem C17_append_corrupts :
    ∃ k, loadIndex sampleIndex "/d/a.gribjump" = .ok [(0, some (.simple sampleBase))] ∧
      loadIndex (runOps sampleIndex
        ((appendOps "/d/a.gribjump" (entryToks [(204, .simple sampleBase)])).take k)) "/d/a.gribjump"
        = throwExn .streamError :=
  ⟨5, by decide +kernel, by decide +kernel⟩

/-- C17.  What remains true of an append: stopped between two entries, the index is the old one plus the
entries written so far. -/
theorem C17_append_between_entries_partial (fs : FS) (path : String) (es b c : List (Nat × Info))
    (h : fs.find path = some (.u8 1 :: entryToks es)) :
    Holds (runOps fs ((appendOps path (entryToks (b ++ c))).take (entryToks b).length)) path (es ++ b) := by
  right
  have : (appendOps path (entryToks (b ++ c))).take (entryToks b).length = (entryToks b).map (.put path) := by
    rw [appendOps, entryToks_append, List.map_append]
    exact List.take_left' (by simp)
  rw [this, runOps_puts _ _ _ _ h, entryToks_append]; rfl

example : (AMap.keys sampleIndex).Nodup ∧ "/d/tmp.gribjump" ≠ "/d/a.gribjump" := by decide
example : (AMap.keys [(0, Info.simple sampleBase), (204, Info.unsupported sampleBase)]).Nodup := by decide
example : recorded [[(0, .simple sampleBase)], [(0, .unsupported sampleBase), (7, .unsupported sampleBase)]] 0
    = some (.simple sampleBase) := by decide

end GJ
