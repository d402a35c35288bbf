import Verif.Model.Scan
import Verif.Props.C18
import Verif.Lemmas.Tasks
import Verif.Lemmas.Liveness
import Verif.Lemmas.Engine
import Verif.Lemmas.Aec

/-!
# Scan tasks do not disturb each other
-/

namespace GJ

/-- Scanning one file, with nothing else going on: the whole file when no offsets are given. -/
def scanAlone (W : World) (c : Cache) (f : String) (os : List Nat) : Res (Nat × Cache) :=
  if os = [] then c.scanFile W f true else c.scan W f os

theorem sorted_perm_eq : ∀ {a b : List Nat}, a.Perm b → a.Pairwise (· ≤ ·) → b.Pairwise (· ≤ ·) → a = b := by
  intro a
  induction a with
  | nil => intro b h _ _; exact (List.nil_perm.mp h).symm
  | cons x a ih =>
    intro b h ha hb
    cases b with
    | nil => exact absurd (List.perm_nil.mp h) (by simp)
    | cons y b =>
      rw [List.pairwise_cons] at ha hb
      have hxy : x = y := by
        have h1 : x ∈ y :: b := h.mem_iff.mp List.mem_cons_self
        have h2 : y ∈ x :: a := h.mem_iff.mpr List.mem_cons_self
        rcases List.mem_cons.mp h1 with e | h1
        · exact e
        rcases List.mem_cons.mp h2 with e | h2
        · exact e.symm
        have := hb.1 _ h1
        have := ha.1 _ h2
        omega
      subst hxy
      rw [ih (List.Perm.cons_inv h) ha.2 hb.2]

theorem scanPlan_sorted (W : World) (c : Cache) (f : String) (os : List Nat) :
    c.scanPlan W f (isort (fun a b => decide (a ≤ b)) os) = c.scanPlan W f os := by
  rw [Cache.scanPlan, Cache.scanPlan]
  cases loadIndex c.fs (c.mode.indexPath f) with
  | error e => rfl
  | ok m =>
    rw [ok_bind, ok_bind]
    have hp : ((isort (fun a b => decide (a ≤ b)) os).filter fun o => (indexFind m o).isNone).Perm
        (os.filter fun o => (indexFind m o).isNone) := (isort_perm _ os).filter _
    have hs : isort (fun a b => decide (a ≤ b)) ((isort (fun a b => decide (a ≤ b)) os).filter fun o => (indexFind m o).isNone)
        = isort (fun a b => decide (a ≤ b)) (os.filter fun o => (indexFind m o).isNone) := by
      apply sorted_perm_eq (((isort_perm _ _).trans hp).trans (isort_perm _ _).symm)
      · exact (isort_sorted _ (by simp; omega) (by simp; omega) _).imp (fun h => of_decide_eq_true h)
      · exact (isort_sorted _ (by simp; omega) (by simp; omega) _).imp (fun h => of_decide_eq_true h)
    simp only [hs]
    by_cases he : (os.filter fun o => (indexFind m o).isNone) = []
    · rw [if_pos he, if_pos (by rw [he] at hp; exact List.perm_nil.mp hp)]
    · rw [if_neg he, if_neg (by intro h; rw [h] at hp; exact he (List.nil_perm.mp hp))]

theorem scanAlone_eq (W : World) (c : Cache) (f : String) (os : List Nat) :
    scanAlone W c f os = (do let p ← scanTaskPlan W c f os; c.scanCommit f p) := by
  have hl : (isort (fun a b => decide (a ≤ b)) os).length = os.length := (isort_perm _ os).length_eq
  unfold scanAlone scanTaskPlan
  simp only [hl]
  by_cases he : os = []
  · rw [if_pos he, if_pos (by rw [he]; rfl), scanFile_eq_plan_commit]
  · rw [if_neg he, if_neg (by intro h; exact he (List.length_eq_zero_iff.mp h)), scan_eq_plan_commit, scanPlan_sorted]

theorem scanPlan_congr {W : World} {c c' : Cache} {f : String} {os : List Nat} (hm : c'.mode = c.mode)
    (hf : c'.fs.find (c.mode.indexPath f) = c.fs.find (c.mode.indexPath f)) :
    c'.scanPlan W f os = c.scanPlan W f os := by
  rw [Cache.scanPlan, Cache.scanPlan, loadIndex, loadIndex, hm, hf]

theorem scanTaskPlan_congr {W : World} {c c' : Cache} {f : String} {os : List Nat} (hm : c'.mode = c.mode)
    (hf : c'.fs.find (c.mode.indexPath f) = c.fs.find (c.mode.indexPath f)) :
    scanTaskPlan W c' f os = scanTaskPlan W c f os := by
  unfold scanTaskPlan
  simp only
  rw [scanPlan_congr hm hf]
  split
  · unfold Cache.scanFilePlan
    rw [if_pos rfl, if_pos rfl]
    cases W.offsetsOf f with
    | error e => rfl
    | ok l => rw [ok_bind, ok_bind]; exact scanPlan_congr hm hf
  · rfl

/-- The write, in terms of the files. -/
theorem scanCommit_cases (c : Cache) (f : String) (p : Option (Nat × InfoMap)) :
    (∃ e, ∀ c' : Cache, c'.scanCommit f p = .error e) ∨
    (∃ n, ∀ c' : Cache, c'.scanCommit f p = .ok (n, c')) ∨
    (∃ n toks, ∀ c' : Cache, c'.scanCommit f p = .ok (n, { c' with fs := c'.fs.set (c'.mode.indexPath f) toks })) := by
  cases p with
  | none => exact Or.inr (Or.inl ⟨0, fun c' => rfl⟩)
  | some x =>
    obtain ⟨n, m⟩ := x
    cases he : encIndex m with
    | error e => exact Or.inl ⟨e, fun c' => by rw [Cache.scanCommit, writeIndex, he, error_bind, error_bind]⟩
    | ok toks =>
      exact Or.inr (Or.inr ⟨n, toks, fun c' => by rw [Cache.scanCommit, writeIndex, he, ok_bind, ok_bind]⟩)

/-- Where a task stands.  `n` is what it has added to the counter. -/
def TaskOk (E : ScanEnv) (c0 : Cache) (fs : FS) (errs : List String) (T : ScanTask) (n : Nat) : Prop :=
  match T.kind with
  | .file f os => match T.pc with
    | .fresh => n = 0 ∧ fs.find (c0.mode.indexPath f) = c0.fs.find (c0.mode.indexPath f)
    | .planned p => n = 0 ∧ fs.find (c0.mode.indexPath f) = c0.fs.find (c0.mode.indexPath f) ∧
        scanTaskPlan E.W c0 f os = .ok p
    | .done => ∃ c1, scanAlone E.W c0 f os = .ok (n, c1) ∧
        fs.find (c0.mode.indexPath f) = c1.fs.find (c0.mode.indexPath f)
    | .failed => n = 0 ∧ fs.find (c0.mode.indexPath f) = c0.fs.find (c0.mode.indexPath f) ∧ errs ≠ [] ∧
        ∃ e, scanAlone E.W c0 f os = throwExn e
    | .cancelled => n = 0 ∧ fs.find (c0.mode.indexPath f) = c0.fs.find (c0.mode.indexPath f) ∧ errs ≠ []
  | .forward srv fm => match T.pc with
    | .fresh => n = 0
    | .planned _ => False
    | .done => ∃ t, E.forward t srv fm = .ok n
    | .failed => n = 0 ∧ errs ≠ [] ∧ ∃ t e, E.forward t srv fm = throwExn e
    | .cancelled => n = 0 ∧ errs ≠ []

theorem TaskOk.mono {E : ScanEnv} {c0 : Cache} {fs fs' : FS} {errs errs' : List String} {T : ScanTask} {n : Nat}
    (h : TaskOk E c0 fs errs T n)
    (hf : ∀ f os, T.kind = .file f os → fs'.find (c0.mode.indexPath f) = fs.find (c0.mode.indexPath f))
    (he : errs ≠ [] → errs' ≠ []) : TaskOk E c0 fs' errs' T n := by
  obtain ⟨k, pc⟩ := T
  cases k with
  | file f os =>
    have hg := hf f os rfl
    cases pc with
    | fresh => exact ⟨h.1, hg.trans h.2⟩
    | planned p => exact ⟨h.1, hg.trans h.2.1, h.2.2⟩
    | done => obtain ⟨c1, h1, h2⟩ := h; exact ⟨c1, h1, hg.trans h2⟩
    | failed => exact ⟨h.1, hg.trans h.2.1, he h.2.2.1, h.2.2.2⟩
    | cancelled => exact ⟨h.1, hg.trans h.2.1, he h.2.2⟩
  | forward srv fm =>
    cases pc with
    | fresh => exact h
    | planned p => exact h
    | done => exact h
    | failed => exact ⟨h.1, he h.2.1, h.2.2⟩
    | cancelled => exact ⟨h.1, he h.2⟩

/-- Different files have different index files. -/
def ScanApart (c : Cache) (kinds : List ScanKind) : Prop :=
  ∀ (i j : Nat) f os g os', kinds[i]? = some (.file f os) → kinds[j]? = some (.file g os') → i ≠ j →
    c.mode.indexPath f ≠ c.mode.indexPath g

/-- No part of the scan is undefined on its own. -/
def ScanDefined (E : ScanEnv) (c : Cache) (kinds : List ScanKind) : Prop :=
  (∀ f os, .file f os ∈ kinds → scanAlone E.W c f os ≠ undef) ∧
  (∀ srv fm t, .forward srv fm ∈ kinds → E.forward t srv fm ≠ undef)

structure ScanInv (E : ScanEnv) (c0 : Cache) (kinds : List ScanKind) (s : ScanSys) : Prop where
  kindsEq : s.tasks.map (·.kind) = kinds
  same : s.c = { c0 with fs := s.c.fs }
  other : ∀ p, (∀ f os, ScanKind.file f os ∈ kinds → c0.mode.indexPath f ≠ p) → s.c.fs.find p = c0.fs.find p
  errors : s.errors ≠ [] → ∃ T ∈ s.tasks, T.pc = .failed
  tasks : ∃ ns : List Nat, ns.length = s.tasks.length ∧ s.count = ns.sum ∧
    ∀ (j : Nat) T n, s.tasks[j]? = some T → ns[j]? = some n → TaskOk E c0 s.c.fs s.errors T n

theorem nat_sum_set (l : List Nat) (j a b : Nat) (h : l[j]? = some a) : (l.set j b).sum + a = l.sum + b := by
  have := sum_map_set id l j a b h
  simpa using this

theorem sum_zeros {α : Type} (l : List α) : (l.map fun _ => 0).sum = 0 := by
  induction l with
  | nil => rfl
  | cons _ l ih => rw [List.map_cons, List.sum_cons, ih]

section
variable {E : ScanEnv} {c0 : Cache} {kinds : List ScanKind}

theorem ScanInv.set {s : ScanSys} (hi : ScanInv E c0 kinds s) {j : Nat} {T : ScanTask} (hT : s.tasks[j]? = some T)
    (pc : ScanPc) (n : Nat) (c : Cache) (errs : List String) (t : Nat)
    (hz : ∀ m, TaskOk E c0 s.c.fs s.errors T m → m = 0)
    (hc : c = { c0 with fs := c.fs })
    (hfs : ∀ p, (∀ f os, T.kind = .file f os → c0.mode.indexPath f ≠ p) → c.fs.find p = s.c.fs.find p)
    (apart : ScanApart c0 kinds)
    (he : s.errors ≠ [] → errs ≠ [])
    (hfail : errs ≠ [] → pc = .failed ∨ (s.errors ≠ [] ∧ T.pc ≠ .failed))
    (hok : TaskOk E c0 c.fs errs { T with pc := pc } n) :
    ScanInv E c0 kinds { c := c, tasks := s.tasks.set j { T with pc := pc }, count := s.count + n, errors := errs,
                         time := t } := by
  obtain ⟨hk, hs, ho, her, ns, hl, hsum, htask⟩ := hi
  obtain ⟨hj, hTe⟩ := List.getElem?_eq_some_iff.mp hT
  have hjn : ns[j]? = some ns[j] := List.getElem?_eq_getElem (by omega)
  have h0 := hz _ (htask j T _ hT hjn)
  refine ⟨?_, hc, ?_, ?_, ns.set j n, ?_, ?_, ?_⟩
  · rw [← hk]
    simp only
    rw [List.map_set]
    apply List.ext_getElem?
    intro i
    rw [getElem?_set' _ _ _ T.kind _ (by rw [List.getElem?_map, hT]; rfl)]
    split
    · rename_i e; subst e; rw [List.getElem?_map, hT]; rfl
    · rfl
  · intro p hp
    simp only
    rw [hfs p, ho p hp]
    intro f os hf
    apply hp f os
    rw [← hk]
    exact List.mem_map.mpr ⟨T, List.mem_of_getElem? hT, hf⟩
  · intro h
    simp only at h ⊢
    rcases hfail h with e | ⟨h1, h2⟩
    · exact ⟨{ T with pc := pc }, List.mem_of_getElem? (i := j) (by rw [getElem?_set' _ _ _ _ _ hT, if_pos rfl]), e⟩
    · obtain ⟨U, hU, hUf⟩ := her h1
      obtain ⟨i, hi⟩ := List.mem_iff_getElem?.mp hU
      refine ⟨U, List.mem_of_getElem? (i := i) ?_, hUf⟩
      rw [getElem?_set' _ _ _ _ _ hT, if_neg]
      · exact hi
      · intro e
        subst e
        rw [hT] at hi
        cases hi
        exact h2 hUf
  · simp only [List.length_set]; exact hl
  · simp only
    have := nat_sum_set ns j _ n hjn
    rw [h0] at this
    omega
  · intro i U m hU hm
    simp only at hU ⊢
    rw [getElem?_set' _ _ _ _ _ hT] at hU
    rw [getElem?_set' _ _ _ _ _ hjn] at hm
    by_cases e : i = j
    · rw [if_pos e] at hU hm
      cases hU; cases hm
      exact hok
    · rw [if_neg e] at hU hm
      refine (htask i U m hU hm).mono ?_ he
      intro f os hf
      apply hfs
      intro g os' hg
      apply apart j i g os' f os _ _ (fun h => e h.symm)
      · rw [← hk, List.getElem?_map, hT, ← hg]; rfl
      · rw [← hk, List.getElem?_map, hU, ← hf]; rfl

/-- Steps a task may still make. -/
def ScanPc.left : ScanPc → Nat
  | .fresh => 2
  | .planned _ => 1
  | _ => 0

/-- The tasks after a step: same kinds, less to do, and strictly less for the task that ran. -/
def ScanProgress (s s' : ScanSys) (e : ScanEv) : Prop :=
  ∀ (i : Nat) T, s.tasks[i]? = some T → ∃ T', s'.tasks[i]? = some T' ∧ T'.pc.left ≤ T.pc.left ∧
    (e = .run i → T'.pc.left ≤ T.pc.left - 1)

theorem ScanProgress.set {s : ScanSys} {j : Nat} {T : ScanTask} (hT : s.tasks[j]? = some T) (pc : ScanPc)
    (hpc : pc.left ≤ T.pc.left - 1) (c : Cache) (n t : Nat) (errs : List String) (e : ScanEv)
    (he : ∀ i, e = .run i → i = j) : ScanProgress s ⟨c, s.tasks.set j { T with pc := pc }, n, errs, t⟩ e := by
  intro i U hU
  by_cases h : i = j
  · subst h
    rw [hT] at hU
    cases hU
    exact ⟨_, by rw [getElem?_set' _ _ _ _ _ hT, if_pos rfl], by simp only; omega, fun _ => hpc⟩
  · exact ⟨U, by rw [getElem?_set' _ _ _ _ _ hT, if_neg h]; exact hU, Nat.le_refl _, fun hr => absurd (he i hr) h⟩

theorem ScanInv.step {s : ScanSys} (hi : ScanInv E c0 kinds s) (apart : ScanApart c0 kinds)
    (hdef : ScanDefined E c0 kinds) (e : ScanEv) : ∃ s', s.step E e = .ok s' ∧ ScanInv E c0 kinds s' ∧
      ScanProgress s s' e := by
  have hmode : s.c.mode = c0.mode := by rw [hi.same]
  cases e with
  | cancel j =>
    unfold ScanSys.step
    simp only
    split
    · rename_i k hT
      split
      · exact ⟨s, rfl, hi, fun i U hU => ⟨U, hU, Nat.le_refl _, fun h => by cases h⟩⟩
      · rename_i he
        refine ⟨_, rfl, ?_, ScanProgress.set hT .cancelled (by simp [ScanPc.left]) _ _ _ _ _ (by intro i h; cases h)⟩
        have hin := hi.set hT .cancelled 0 s.c s.errors s.time ?_ hi.same (fun p _ => rfl) apart id
          (fun h => Or.inr ⟨h, by simp⟩) ?_
        · exact hin
        · intro m hm
          cases k with
          | file f os => exact hm.1
          | forward srv fm => exact hm
        · obtain ⟨ns, hl, -, htask⟩ := hi.tasks
          obtain ⟨hj, -⟩ := List.getElem?_eq_some_iff.mp hT
          have hok := htask j _ _ hT (List.getElem?_eq_getElem (by omega))
          cases k with
          | file f os => exact ⟨rfl, hok.2, he⟩
          | forward srv fm => exact ⟨rfl, he⟩
    · exact ⟨s, rfl, hi, fun i U hU => ⟨U, hU, Nat.le_refl _, fun h => by cases h⟩⟩
  | run j =>
    unfold ScanSys.step
    simp only
    cases hT : s.tasks[j]? with
    | none =>
      refine ⟨s, rfl, hi, fun i U hU => ⟨U, hU, Nat.le_refl _, fun h => ?_⟩⟩
      cases h
      rw [hT] at hU
      cases hU
    | some T =>
      obtain ⟨ns, hl, -, htask⟩ := hi.tasks
      obtain ⟨hj, -⟩ := List.getElem?_eq_some_iff.mp hT
      have hok := htask j _ _ hT (List.getElem?_eq_getElem (by omega))
      have hmem : T.kind ∈ kinds := by
        rw [← hi.kindsEq]; exact List.mem_map.mpr ⟨T, List.mem_of_getElem? hT, rfl⟩
      have stay : T.pc.left = 0 → ∃ s', (do
            let s' ← (.ok s : Res ScanSys)
            .ok { s' with time := s.time + 1 } : Res ScanSys) = .ok s' ∧ ScanInv E c0 kinds s' ∧
            ScanProgress s s' (.run j) := by
        intro h0
        refine ⟨_, rfl, ⟨hi.kindsEq, hi.same, hi.other, hi.errors, hi.tasks⟩, fun i U hU => ⟨U, hU, Nat.le_refl _, fun h => ?_⟩⟩
        cases h
        rw [hT] at hU
        cases hU
        omega
      simp only
      obtain ⟨k, pc⟩ := T
      cases k with
      | file f os =>
        cases pc with
        | fresh =>
          have hplan := scanTaskPlan_congr (W := E.W) (os := os) hmode hok.2
          unfold ScanSys.runTask
          simp only [hplan]
          cases hp : scanTaskPlan E.W c0 f os with
          | ok p =>
            simp only [ok_bind]
            refine ⟨_, rfl, ?_, ScanProgress.set hT (.planned p) (by simp [ScanPc.left]) _ _ _ _ _ (by intro i h; cases h; rfl)⟩
            exact hi.set hT (.planned p) 0 s.c s.errors _ (fun m hm => hm.1) hi.same (fun p _ => rfl) apart id
              (fun h => Or.inr ⟨h, by simp⟩) ⟨rfl, hok.2, hp⟩
          | error x =>
            cases x with
            | ub =>
              exact absurd (by rw [scanAlone_eq, hp]; rfl) (hdef.1 f os hmem)
            | exn x =>
              simp only [ok_bind, ScanSys.fail]
              refine ⟨_, rfl, ?_, ScanProgress.set hT .failed (by simp [ScanPc.left]) _ _ _ _ _ (by intro i h; cases h; rfl)⟩
              exact hi.set hT .failed 0 s.c _ _ (fun m hm => hm.1) hi.same (fun p _ => rfl) apart (by simp)
                (fun _ => Or.inl rfl) ⟨rfl, hok.2, by simp, x, by rw [scanAlone_eq, hp]; rfl⟩
        | planned p =>
          obtain ⟨-, hsame, hp⟩ := hok
          have halone : scanAlone E.W c0 f os = c0.scanCommit f p := by rw [scanAlone_eq, hp, ok_bind]
          unfold ScanSys.runTask
          simp only
          rcases scanCommit_cases c0 f p with ⟨x, hc⟩ | ⟨n, hc⟩ | ⟨n, toks, hc⟩
          · rw [hc]
            cases x with
            | ub => exact absurd (by rw [halone, hc]) (hdef.1 f os hmem)
            | exn x =>
              simp only [ok_bind, ScanSys.fail]
              refine ⟨_, rfl, ?_, ScanProgress.set hT .failed (by simp [ScanPc.left]) _ _ _ _ _ (by intro i h; cases h; rfl)⟩
              exact hi.set hT .failed 0 s.c _ _ (fun m hm => hm.1) hi.same (fun p _ => rfl) apart (by simp)
                (fun _ => Or.inl rfl) ⟨rfl, hsame, by simp, x, by rw [halone, hc]⟩
          · rw [hc]
            simp only [ok_bind]
            refine ⟨_, rfl, ?_, ScanProgress.set hT .done (by simp [ScanPc.left]) _ _ _ _ _ (by intro i h; cases h; rfl)⟩
            exact hi.set hT .done n s.c s.errors _ (fun m hm => hm.1) hi.same (fun p _ => rfl) apart id
                (fun h => Or.inr ⟨h, by simp⟩) ⟨c0, by rw [halone, hc], hsame⟩
          · rw [hc]
            simp only [ok_bind]
            refine ⟨_, rfl, ?_, ScanProgress.set hT .done (by simp [ScanPc.left]) _ _ _ _ _ (by intro i h; cases h; rfl)⟩
            refine hi.set hT .done n { s.c with fs := s.c.fs.set (s.c.mode.indexPath f) toks } s.errors _
                (fun m hm => hm.1) ?_ ?_ apart id
                (fun h => Or.inr ⟨h, by simp⟩) ⟨{ c0 with fs := c0.fs.set (c0.mode.indexPath f) toks }, by rw [halone, hc], ?_⟩
            · have h1 : s.c.lazy = c0.lazy := by rw [hi.same]
              have h2 : s.c.mem = c0.mem := by rw [hi.same]
              have h3 : s.c.staged = c0.staged := by rw [hi.same]
              simp only [hmode, h1, h2, h3]
            · intro q hq
              show AMap.find (AMap.set _ _ _) _ = _
              rw [AMap.find_set, if_neg]
              rw [hmode]
              exact hq f os rfl
            · show AMap.find (AMap.set _ _ _) _ = AMap.find (AMap.set _ _ _) _
              rw [AMap.find_set, AMap.find_set, hmode, if_pos rfl, if_pos rfl]
        | done => exact stay rfl
        | failed => exact stay rfl
        | cancelled => exact stay rfl
      | forward srv fm =>
        cases pc with
        | fresh =>
          unfold ScanSys.runTask
          simp only
          cases hp : E.forward s.time srv fm with
          | ok n =>
            simp only [ok_bind]
            refine ⟨_, rfl, ?_, ScanProgress.set hT .done (by simp [ScanPc.left]) _ _ _ _ _ (by intro i h; cases h; rfl)⟩
            exact hi.set hT .done n s.c s.errors _ (fun m hm => hm) hi.same (fun p _ => rfl) apart id
              (fun h => Or.inr ⟨h, by simp⟩) ⟨_, hp⟩
          | error x =>
            cases x with
            | ub => exact absurd hp (hdef.2 srv fm _ hmem)
            | exn x =>
              simp only [ok_bind, ScanSys.fail]
              refine ⟨_, rfl, ?_, ScanProgress.set hT .failed (by simp [ScanPc.left]) _ _ _ _ _ (by intro i h; cases h; rfl)⟩
              exact hi.set hT .failed 0 s.c _ _ (fun m hm => hm) hi.same (fun p _ => rfl) apart (by simp)
                (fun _ => Or.inl rfl) ⟨rfl, by simp, _, x, hp⟩
        | planned p => exact hok.elim
        | done => exact stay rfl
        | failed => exact stay rfl
        | cancelled => exact stay rfl

theorem ScanInv.run {s : ScanSys} (hi : ScanInv E c0 kinds s) (apart : ScanApart c0 kinds)
    (hdef : ScanDefined E c0 kinds) (es : List ScanEv) : ∃ s', s.run E es = .ok s' ∧ ScanInv E c0 kinds s' ∧
      ∀ (i : Nat) T, s.tasks[i]? = some T → ∃ T', s'.tasks[i]? = some T' ∧
        T'.pc.left ≤ T.pc.left - (es.countP fun e => match e with | .run j => j == i | _ => false) := by
  induction es generalizing s with
  | nil => exact ⟨s, rfl, hi, fun i T hT => ⟨T, hT, by simp⟩⟩
  | cons e es ih =>
    obtain ⟨s1, h1, hi1, hp1⟩ := hi.step apart hdef e
    obtain ⟨s2, h2, hi2, hp2⟩ := ih hi1
    refine ⟨s2, by rw [ScanSys.run, h1, ok_bind, h2], hi2, fun i T hT => ?_⟩
    obtain ⟨T1, hT1, ha, hb⟩ := hp1 i T hT
    obtain ⟨T2, hT2, hc⟩ := hp2 i T1 hT1
    refine ⟨T2, hT2, ?_⟩
    rw [List.countP_cons]
    cases e with
    | cancel j => simp only [Bool.false_eq_true, if_false]; omega
    | run j =>
      simp only [beq_iff_eq]
      split
      · rename_i e; subst e; have := hb rfl; omega
      · omega

theorem countP_drain (n i : Nat) (hi : i < n) :
    2 ≤ ((List.range n).flatMap fun j => [ScanEv.run j, .run j]).countP
      fun e => match e with | .run j => j == i | _ => false := by
  have hm : i ∈ List.range n := List.mem_range.mpr hi
  obtain ⟨a, b, hab⟩ := List.append_of_mem hm
  rw [hab, List.flatMap_append, List.flatMap_cons, List.countP_append, List.countP_append]
  have : ([ScanEv.run i, .run i]).countP (fun e => match e with | .run j => j == i | _ => false) = 2 := by simp
  omega

/-- The wait ends with every task at its end. -/
theorem scanTasks_spec (c0 : Cache) (kinds : List ScanKind) (hne : kinds ≠ []) (apart : ScanApart c0 kinds)
    (hdef : ScanDefined E c0 kinds) (sched : List ScanEv) :
    ∃ s, scanTasks E c0 kinds sched = .ok (s.count, s.errors, s.c) ∧ ScanInv E c0 kinds s ∧
      ∀ T ∈ s.tasks, T.pc.left = 0 := by
  have h0 : ScanInv E c0 kinds ⟨c0, kinds.map fun k => ⟨k, .fresh⟩, 0, [], 0⟩ := by
    refine ⟨by simp [Function.comp_def], rfl, fun p _ => rfl, fun h => absurd rfl h, kinds.map fun _ => 0, by simp, ?_, ?_⟩
    · exact (sum_zeros kinds).symm
    · intro j T n hT hn
      simp only [List.getElem?_map] at hT hn
      cases hk : kinds[j]? with
      | none => rw [hk] at hT; cases hT
      | some k =>
        rw [hk] at hT hn
        cases hT; cases hn
        cases k with
        | file f os => exact ⟨rfl, rfl⟩
        | forward srv fm => rfl
  obtain ⟨s1, h1, hi1, -⟩ := h0.run apart hdef sched
  obtain ⟨s2, h2, hi2, hp⟩ := hi1.run apart hdef ((List.range kinds.length).flatMap fun j => [.run j, .run j])
  refine ⟨s2, ?_, hi2, ?_⟩
  · unfold scanTasks
    rw [cassert_of (by simpa using List.length_pos_iff.mpr hne), ok_bind, h1, ok_bind, h2, ok_bind]
  · intro T hT
    obtain ⟨i, hi⟩ := List.mem_iff_getElem?.mp hT
    have hlen1 : s1.tasks.length = kinds.length := by rw [← hi1.kindsEq, List.length_map]
    have hlen2 : s2.tasks.length = kinds.length := by rw [← hi2.kindsEq, List.length_map]
    obtain ⟨hlt, -⟩ := List.getElem?_eq_some_iff.mp hi
    obtain ⟨T', hT', hle⟩ := hp i s1.tasks[i] (List.getElem?_eq_getElem (by omega))
    rw [hi] at hT'
    cases hT'
    have := countP_drain kinds.length i (by omega)
    have h2 : s1.tasks[i].pc.left ≤ 2 := by
      cases s1.tasks[i].pc <;> simp [ScanPc.left]
    omega

end

end GJ
