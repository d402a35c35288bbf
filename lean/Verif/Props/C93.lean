import Verif.Model.OffsetText
import Verif.Props.C31
import Verif.Props.C58
import Verif.Lemmas.IndexOrder

/-!
# C93: offsets survive the way through texts

What the texts are, which ones are accepted, and that the engine that keeps offsets as texts does what the engine that
keeps numbers does.
-/

namespace GJ

open Spec

/-- The text is blanks, an optional sign, digits, and a rest that does not continue the digits. -/
def IsNumeral (s : Str) (neg : Bool) (n : Nat) : Prop :=
  ∃ blanks sign ds rest : Str, s = blanks ++ (sign ++ (ds ++ rest)) ∧ (∀ c ∈ blanks, isSpaceC c = true) ∧
    (neg = false ∧ sign = [] ∨ neg = false ∧ sign = ['+'] ∨ neg = true ∧ sign = ['-']) ∧ ds ≠ [] ∧
    (∀ c ∈ ds, c.isDigit = true) ∧ (∀ c, rest.head? = some c → c.isDigit = false) ∧ n = Nat.ofDigitChars 10 ds 0

/-- The number that is meant. -/
def signedValue (neg : Bool) (n : Nat) : Int := if neg then -(n : Int) else n

theorem takeWhile_pieces {p : Char → Bool} {ds rest : Str} (hd : ∀ c ∈ ds, p c = true)
    (hr : ∀ c, rest.head? = some c → p c = false) : (ds ++ rest).takeWhile p = ds := by
  induction ds with
  | nil =>
    cases rest with
    | nil => rfl
    | cons c r => rw [List.nil_append, List.takeWhile_cons, hr c rfl]; rfl
  | cons c cs ih =>
    rw [List.cons_append, List.takeWhile_cons_of_pos (hd c (List.mem_cons_self ..)),
      ih fun c hc => hd c (List.mem_cons_of_mem _ hc)]

theorem dropWhile_pieces {p : Char → Bool} {pre rest : Str} (hp : ∀ c ∈ pre, p c = true)
    (hr : ∀ c, rest.head? = some c → p c = false) : (pre ++ rest).dropWhile p = rest := by
  induction pre with
  | nil =>
    cases rest with
    | nil => rfl
    | cons c r => rw [List.nil_append, List.dropWhile_cons, hr c rfl]; rfl
  | cons c cs ih =>
    rw [List.cons_append, List.dropWhile_cons_of_pos (hp c (List.mem_cons_self ..))]
    exact ih fun c hc => hp c (List.mem_cons_of_mem _ hc)

theorem stoll_numeral {s : Str} {neg : Bool} {n : Nat} (h : IsNumeral s neg n) :
    stoll s = if signedValue neg n < -2 ^ 63 ∨ 2 ^ 63 ≤ signedValue neg n then throwExn .outOfRange
      else .ok (signedValue neg n) := by
  obtain ⟨blanks, sign, ds, rest, rfl, hb, hs, hne, hd, hr, rfl⟩ := h
  obtain ⟨d, ds', rfl⟩ := List.exists_cons_of_ne_nil hne
  have hdd := hd d (List.mem_cons_self ..)
  have hdrop : (blanks ++ (sign ++ (d :: ds' ++ rest))).dropWhile isSpaceC = sign ++ (d :: ds' ++ rest) := by
    apply dropWhile_pieces hb
    intro c hc
    rcases hs with ⟨-, rfl⟩ | ⟨-, rfl⟩ | ⟨-, rfl⟩
    · cases hc; exact digit_not_space hdd
    · cases hc; decide
    · cases hc; decide
  have hsign : takeSign (sign ++ (d :: ds' ++ rest)) = (neg, d :: ds' ++ rest) := by
    rcases hs with ⟨rfl, rfl⟩ | ⟨rfl, rfl⟩ | ⟨rfl, rfl⟩
    · rw [List.nil_append, List.cons_append, takeSign, if_neg (digit_not (by decide) hdd),
        if_neg (digit_not (by decide) hdd)]
    · rfl
    · rfl
  have htake := takeWhile_pieces (p := Char.isDigit) hd hr
  rw [stoll]
  simp only [hdrop, hsign, htake, if_neg hne]
  rfl

theorem head_dropWhile {p : Char → Bool} (s : Str) : ∀ c, (s.dropWhile p).head? = some c → p c = false := by
  induction s with
  | nil => intro c h; cases h
  | cons d s ih =>
    intro c h
    by_cases hd : p d = true
    · rw [List.dropWhile_cons_of_pos hd] at h; exact ih c h
    · rw [List.dropWhile_cons_of_neg hd] at h
      cases h
      simpa using hd

theorem mem_takeWhile {p : Char → Bool} (s : Str) : ∀ c ∈ s.takeWhile p, p c = true := by
  induction s with
  | nil => intro c h; cases h
  | cons d s ih =>
    intro c h
    by_cases hd : p d = true
    · rw [List.takeWhile_cons_of_pos hd] at h
      rcases List.mem_cons.mp h with rfl | h
      · exact hd
      · exact ih c h
    · rw [List.takeWhile_cons_of_neg hd] at h; cases h

theorem takeSign_pieces (s : Str) : ∃ sign : Str, s = sign ++ (takeSign s).2 ∧
    ((takeSign s).1 = false ∧ sign = [] ∨ (takeSign s).1 = false ∧ sign = ['+'] ∨ (takeSign s).1 = true ∧ sign = ['-']) := by
  cases s with
  | nil => exact ⟨[], rfl, Or.inl ⟨rfl, rfl⟩⟩
  | cons c r =>
    rw [takeSign]
    by_cases h1 : c = '-'
    · subst h1; exact ⟨['-'], rfl, Or.inr (Or.inr ⟨rfl, rfl⟩)⟩
    · rw [if_neg h1]
      by_cases h2 : c = '+'
      · subst h2; exact ⟨['+'], rfl, Or.inr (Or.inl ⟨rfl, rfl⟩)⟩
      · rw [if_neg h2]; exact ⟨[], rfl, Or.inl ⟨rfl, rfl⟩⟩

theorem numeral_of_digits {s : Str}
    (h : (takeSign (s.dropWhile isSpaceC)).2.takeWhile Char.isDigit ≠ []) :
    IsNumeral s (takeSign (s.dropWhile isSpaceC)).1
      (Nat.ofDigitChars 10 ((takeSign (s.dropWhile isSpaceC)).2.takeWhile Char.isDigit) 0) := by
  obtain ⟨sign, h1, h2⟩ := takeSign_pieces (s.dropWhile isSpaceC)
  refine ⟨s.takeWhile isSpaceC, sign, _, (takeSign (s.dropWhile isSpaceC)).2.dropWhile Char.isDigit, ?_,
    mem_takeWhile s, h2, h, mem_takeWhile _, head_dropWhile _, rfl⟩
  rw [List.takeWhile_append_dropWhile, ← h1, List.takeWhile_append_dropWhile]

/-- **C93.** Exactly which fragments are read, and as what: blanks, an optional sign and digits at the front count, whatever
follows is ignored, and the number must fit 64 bits with sign. -/
theorem C93_fragment_read (s : Str) (v : Int) :
    stoll s = .ok v ↔ ∃ neg n, IsNumeral s neg n ∧ v = signedValue neg n ∧ -2 ^ 63 ≤ v ∧ v < 2 ^ 63 := by
  constructor
  · intro h
    by_cases hd : (takeSign (s.dropWhile isSpaceC)).2.takeWhile Char.isDigit = []
    · rw [stoll] at h
      simp only [hd, if_true] at h
      cases h
    · have hn := numeral_of_digits hd
      rw [stoll_numeral hn] at h
      split at h
      · cases h
      · rename_i hr
        cases h
        exact ⟨_, _, hn, rfl, by omega, by omega⟩
  · rintro ⟨neg, n, hn, rfl, h1, h2⟩
    rw [stoll_numeral hn, if_neg (by omega)]

/-- **C93.** Exactly which fragments are refused as no number at all. -/
theorem C93_fragment_no_number (s : Str) : stoll s = throwExn .badValue ↔ ¬ ∃ neg n, IsNumeral s neg n := by
  constructor
  · rintro h ⟨neg, n, hn⟩
    rw [stoll_numeral hn] at h
    split at h <;> cases h
  · intro h
    by_cases hd : (takeSign (s.dropWhile isSpaceC)).2.takeWhile Char.isDigit = []
    · rw [stoll]
      simp only [hd, if_true]
    · exact absurd ⟨_, _, numeral_of_digits hd⟩ h

theorem offsetText_numeral (o : Nat) : IsNumeral (offsetText o) false o :=
  ⟨[], [], decimal o, [], by simp [offsetText, decimal], (fun _ h => by cases h), Or.inl ⟨rfl, rfl⟩, decimal_ne o,
    decimal_digits o, (fun _ h => by cases h), (decimal_value o).symm⟩

/-- **C93.** The offset of a request is read back as it was written, or refused: offsets from 2^63 on do not fit. -/
theorem C93_offset_read_back (o : Nat) :
    stoll (offsetText o) = if o < 2 ^ 63 then .ok (o : Int) else throwExn .outOfRange := by
  rw [stoll_numeral (offsetText_numeral o)]
  simp only [signedValue, Bool.false_eq_true, if_false]
  by_cases h : o < 2 ^ 63
  · rw [if_pos h, if_neg (by omega)]
  · rw [if_neg h, if_pos (by omega)]

/-- **C93.** Never another offset. -/
theorem C93_never_another (o : Nat) (v : Int) (h : stoll (offsetText o) = .ok v) : v = o := by
  rw [C93_offset_read_back] at h
  split at h
  · cases h; rfl
  · cases h

/-! ## Tasks -/

theorem mapM_read (l : List (String × Nat)) (h : ∀ e ∈ l, e.2 < 2 ^ 63) :
    ((l.map fun e => (e.1, offsetText e.2)).mapM fun i => do
      let v ← stoll i.2
      (.ok (i.1, v) : Res (String × Int))) = .ok (l.map fun e => (e.1, (e.2 : Int))) := by
  induction l with
  | nil => rfl
  | cons e l ih =>
    rw [List.map_cons, List.mapM_cons]
    simp only [C93_offset_read_back, if_pos (h e (List.mem_cons_self ..)), ok_bind]
    rw [ih fun e he => h e (List.mem_cons_of_mem _ he)]
    rfl

/-- **C93.** A task whose items are at offsets below 2^63 works on them in the order, and at the offsets, that the engine
with numbers uses. -/
theorem C93_task_offsets (m : ItemMap) (ks : List String) (h : ∀ k ∈ ks, offsetOf m k < 2 ^ 63) :
    readOffsets (ks.map fun k => (k, offsetText (offsetOf m k))) =
      .ok ((sortKeys m ks).map fun k => (k, (offsetOf m k : Int))) := by
  have := mapM_read (ks.map fun k => (k, offsetOf m k)) (by
    intro e he
    obtain ⟨k, hk, rfl⟩ := List.mem_map.mp he
    exact h k hk)
  rw [List.map_map, List.map_map] at this
  rw [readOffsets]
  rw [show (ks.map fun k => (k, offsetText (offsetOf m k))) =
    ks.map ((fun e : String × Nat => (e.1, offsetText e.2)) ∘ fun k => (k, offsetOf m k)) from rfl, this, ok_bind]
  rw [sortKeys]
  congr 1
  rw [isort_map]
  congr 2
  funext a b
  simp [Int.ofNat_le]

/-- **C93.** A task with an item from 2^63 on fails: nothing is extracted by it. -/
theorem C93_task_refused (m : ItemMap) (ks : List String) (k : String) (hk : k ∈ ks) (h : 2 ^ 63 ≤ offsetOf m k) :
    readOffsets (ks.map fun k => (k, offsetText (offsetOf m k))) = throwExn .outOfRange := by
  have : ((ks.map fun k => (k, offsetText (offsetOf m k))).mapM fun i => do
      let v ← stoll i.2
      (.ok (i.1, v) : Res (String × Int))) = throwExn .outOfRange := by
    induction ks with
    | nil => cases hk
    | cons k' ks ih =>
      rw [List.map_cons, List.mapM_cons]
      rw [show stoll (k', offsetText (offsetOf m k')).2 = _ from C93_offset_read_back (offsetOf m k')]
      by_cases h' : offsetOf m k' < 2 ^ 63
      · rw [if_pos h']
        rcases List.mem_cons.mp hk with rfl | hk
        · omega
        · have := ih hk
          rw [ok_bind, ok_bind, this]
          rfl
      · rw [if_neg h']
        rfl
  rw [readOffsets, this]
  rfl

/-! ## Calls -/

theorem readingTexts_infos (E : ExtEnv) (t : Nat) (f : String) (os : List Nat) :
    E.readingTexts.infos t f os = if ∀ o ∈ os, o < 2 ^ 63 then E.infos t f os else throwExn .outOfRange := by
  have h1 : (os.mapM fun o => stoll (offsetText o)) =
      if ∀ o ∈ os, o < 2 ^ 63 then .ok (os.map Int.ofNat) else throwExn .outOfRange := by
    induction os with
    | nil => rfl
    | cons o os ih =>
      rw [List.mapM_cons, C93_offset_read_back, ih]
      by_cases ho : o < 2 ^ 63
      · rw [if_pos ho, ok_bind]
        by_cases hos : ∀ o ∈ os, o < 2 ^ 63
        · rw [if_pos hos, if_pos (by
            intro x hx
            rcases List.mem_cons.mp hx with rfl | hx
            · exact ho
            · exact hos x hx)]
          rfl
        · rw [if_neg hos, if_neg (fun h => hos fun x hx => h x (List.mem_cons_of_mem _ hx))]
          rfl
      · rw [if_neg ho]
        rw [if_neg (c := ∀ x ∈ o :: os, x < 2 ^ 63) (fun h => ho (h o (List.mem_cons_self ..)))]
        rfl
  show (do let read ← os.mapM fun o => stoll (offsetText o); E.infos t f (read.map Int.toNat)) = _
  rw [h1]
  by_cases hos : ∀ o ∈ os, o < 2 ^ 63
  · rw [if_pos hos, if_pos hos, ok_bind, List.map_map]
    congr 1
    exact (List.map_congr_left fun o _ => (Int.toNat_natCast o)).trans (List.map_id' os)
  · rw [if_neg hos, if_neg hos]
    rfl

/-- Every place in the map is below 2^63. -/
def Small (m : ItemMap) : Prop := ∀ k it, m.find k = some it → it.uri.offset < 2 ^ 63

theorem Small.offset {m : ItemMap} (h : Small m) (k : String) : offsetOf m k < 2 ^ 63 := by
  rw [offsetOf]
  cases hf : m.find k with
  | none => exact Nat.two_pow_pos 63
  | some it => exact h k it hf

theorem Small.setResult {m m' : ItemMap} {k : String} {r : WireResult} (h : Small m)
    (hs : setResult m k r = .ok m') : Small m' := by
  rw [GJ.setResult.eq_def] at hs
  split at hs
  · cases hs
  · rename_i it hit
    cases hs
    intro k' it' hf
    rw [AMap.find_set] at hf
    split at hf
    · cases hf
      exact h k it hit
    · exact h k' it' hf

theorem Small.storeResults {m m' : ItemMap} {ks : List String} {is : List Item} (h : Small m)
    (hs : storeResults m ks is = .ok m') : Small m' := by
  induction ks generalizing m is with
  | nil => rw [GJ.storeResults] at hs; cases hs; exact h
  | cons k ks ih =>
    cases is with
    | nil => cases hs
    | cons i is =>
      rw [GJ.storeResults] at hs
      split at hs
      · cases hs
      · obtain ⟨m1, h1, h2⟩ := res_bind_inv hs
        exact ih (h.setResult h1) h2

theorem Small.storeAll {m m' : ItemMap} {fs : KeyMap} {g : FileMap} (h : Small m)
    (hs : storeAll m fs g = .ok m') : Small m' := by
  induction fs generalizing m with
  | nil => rw [GJ.storeAll] at hs; cases hs; exact h
  | cons f fs ih =>
    rw [GJ.storeAll] at hs
    obtain ⟨m1, h1, h2⟩ := res_bind_inv hs
    exact ih (h.storeResults h1) h2

theorem Small.step {E : ExtEnv} {C : EngineConf} {t : Nat} {m m' : ItemMap} {T T' : FTask} (h : Small m)
    (hs : T.step E C t m = .ok (m', T')) : Small m' := by
  unfold FTask.step at hs
  split at hs
  · cases hs; exact h
  · cases hs; exact h
  · obtain ⟨_, -, hs⟩ := res_bind_inv hs
    obtain ⟨_, -, hs⟩ := res_bind_inv hs
    cases hs; exact h
  · split at hs
    · cases hs
    · obtain ⟨_, -, hs⟩ := res_bind_inv hs
      obtain ⟨_, -, hs⟩ := res_bind_inv hs
      obtain ⟨_, h1, hs⟩ := res_bind_inv hs
      cases hs; exact h.setResult h1
  · cases hs; exact h
  · split at hs
    · cases hs
    · split at hs
      · cases hs
      · obtain ⟨_, -, hs⟩ := res_bind_inv hs
        obtain ⟨_, h1, hs⟩ := res_bind_inv hs
        cases hs; exact h.setResult h1
  · obtain ⟨_, -, hs⟩ := res_bind_inv hs
    obtain ⟨_, h1, hs⟩ := res_bind_inv hs
    cases hs; exact h.storeAll h1
  · cases hs; exact h

theorem step_texts (E : ExtEnv) (C : EngineConf) (t : Nat) {m : ItemMap} (h : Small m) (T : FTask) :
    T.step E.readingTexts C t m = T.step E C t m := by
  unfold FTask.step
  split
  · rfl
  · rfl
  · rename_i fname ks _ _
    simp only [readingTexts_infos]
    rw [if_pos]
    intro o ho
    obtain ⟨k, -, rfl⟩ := List.mem_map.mp ho
    exact h.offset k
  all_goals rfl

theorem sysStep_texts (E : ExtEnv) (C : EngineConf) (s : FSys) (h : Small s.items) (j : Nat) :
    s.step E.readingTexts C j = s.step E C j ∧ ∀ s', s.step E C j = .ok s' → Small s'.items := by
  unfold FSys.step
  split
  · refine ⟨rfl, fun s' hs => ?_⟩
    cases hs; exact h
  · rename_i T _
    rw [step_texts E C s.time h T]
    refine ⟨rfl, fun s' hs => ?_⟩
    split at hs
    · rename_i h1
      cases hs; exact h.step h1
    · cases hs
    · cases hs; exact h

theorem run_texts (E : ExtEnv) (C : EngineConf) (s : FSys) (h : Small s.items) (js : List Nat) :
    s.run E.readingTexts C js = s.run E C js ∧ ∀ s', s.run E C js = .ok s' → Small s'.items := by
  induction js generalizing s with
  | nil =>
    refine ⟨rfl, fun s' hs => ?_⟩
    cases hs; exact h
  | cons j js ih =>
    obtain ⟨h1, h2⟩ := sysStep_texts E C s h j
    rw [FSys.run, FSys.run, h1]
    cases hs : s.step E C j with
    | error e => exact ⟨rfl, fun s' h => by cases h⟩
    | ok s1 => exact ih s1 (h2 s1 hs)

theorem runTasks_texts (E : ExtEnv) (C : EngineConf) {m : ItemMap} (h : Small m) (ts : List FTask) (sched : List Nat) :
    runTasks E.readingTexts C m ts sched = runTasks E C m ts sched := by
  unfold runTasks
  obtain ⟨h1, h2⟩ := run_texts E C ⟨m, ts, [], 0⟩ h sched
  rw [h1]
  cases cassert (decide (0 < ts.length)) with
  | error e => rfl
  | ok u =>
    cases hs : FSys.run E C ⟨m, ts, [], 0⟩ sched with
    | error e => rfl
    | ok s1 => exact (run_texts E C s1 (h2 s1 hs) _).1

theorem scheduleTasks_texts (E : ExtEnv) (C : EngineConf) (fwd : Bool) {m : ItemMap} (h : Small m) (fm : KeyMap)
    (sched : List Nat) : scheduleTasks E.readingTexts C fwd m fm sched = scheduleTasks E C fwd m fm sched := by
  unfold scheduleTasks
  simp only [runTasks_texts E C h]

theorem buildPathMap_small {rs : List PathReq} (h : ∀ r ∈ rs, r.offset < 2 ^ 63) : Small (buildPathMap rs) := by
  intro k it hf
  obtain ⟨r, hr, -, rfl⟩ := (buildPathMap_keys rs).2 k it hf
  exact h r hr

/-- **C93.** As long as the offsets of the requests are below 2^63, a call of the program that keeps offsets as texts does
exactly what the engine with numbers does: whatever is said of calls by place holds of it. -/
theorem C93_paths_same (E : ExtEnv) (C : EngineConf) (sched : List Nat) (rs : List PathReq)
    (h : ∀ r ∈ rs, r.offset < 2 ^ 63) : localExtractPaths E.readingTexts C sched rs = localExtractPaths E C sched rs := by
  have : engineExtractPaths E.readingTexts C sched rs = engineExtractPaths E C sched rs := by
    unfold engineExtractPaths
    cases rs with
    | nil => rfl
    | cons r rest => simp only [scheduleTasks_texts E C _ (buildPathMap_small h)]
  unfold localExtractPaths
  rw [this]

theorem entriesOf_small (rs : List ExRequest) : Small (entriesOf rs) := by
  induction rs with
  | nil => intro k it h; cases h
  | cons r rs ih =>
    intro k it h
    rw [entriesOf, List.map_cons, AMap.find] at h
    split at h
    · cases h; exact Nat.two_pow_pos 63
    · exact ih k it h

theorem listLoop_small (ig : Bool) (L : List (FdbKey × Uri)) (h : ∀ e ∈ L, e.2.offset < 2 ^ 63) (m : ItemMap)
    (fm : KeyMap) (n : Nat) (hm : Small m) : Small (listLoop ig L m fm n).1 := by
  induction L generalizing m fm n with
  | nil => exact hm
  | cons e L ih =>
    obtain ⟨key, uri⟩ := e
    rw [listLoop]
    have hrest := ih fun e he => h e (List.mem_cons_of_mem _ he)
    split
    · exact hrest _ _ _ hm
    · refine hrest _ _ _ ?_
      intro k it hf
      rw [AMap.find_set] at hf
      split at hf
      · cases hf
        exact h (key, uri) (List.mem_cons_self ..)
      · exact hm k it hf

/-- **C93.** The same of calls by field, if the listing names places below 2^63. -/
theorem C93_fields_same (E : ExtEnv) (C : EngineConf) (sched : List Nat) (rs : List ExRequest)
    (h : ∀ u L, E.list u = .ok L → ∀ e ∈ L, e.2.offset < 2 ^ 63) :
    localExtract E.readingTexts C sched rs = localExtract E C sched rs := by
  have : engineExtract E.readingTexts C sched rs = engineExtract E C sched rs := by
    unfold engineExtract
    cases hb : buildRequestMap C.ignoreYearMonth rs with
    | error e => rfl
    | ok b =>
    obtain ⟨rs', u, m⟩ := b
    simp only [ok_bind]
    show (E.list u >>= _) = (E.list u >>= _)
    cases hl : E.list u with
    | error e => rfl
    | ok L =>
    simp only [ok_bind]
    cases hf : fileMap C L m with
    | error e => rfl
    | ok p =>
    obtain ⟨m', fm⟩ := p
    simp only [ok_bind]
    rw [scheduleTasks_texts]
    rw [buildRequestMap_eq] at hb
    split at hb
    · cases hb
      rw [fileMap.eq_def] at hf
      simp only at hf
      split at hf
      · cases hf
      · cases hf
        exact listLoop_small _ L (h _ L hl) _ _ _ (entriesOf_small _)
    · cases hb
  unfold localExtract
  rw [this]

/-- **C93.** A local call by place that names an offset from 2^63 on is refused whatever the files hold. -/
theorem C93_paths_refused (E : ExtEnv) (C : EngineConf) (sched : List Nat) (rs : List PathReq)
    (hplace : ∀ a ∈ rs, ∀ b ∈ rs, a.path = b.path → a.scheme = b.scheme ∧ a.host = b.host ∧ a.port = b.port)
    (hlocal : ∀ r ∈ rs, r.host = "" ∧ r.port = 0 ∧ r.scheme ≠ "fdb") (r : PathReq) (hr : r ∈ rs)
    (large : 2 ^ 63 ≤ r.offset) (out : List WireResult) : localExtractPaths E.readingTexts C sched rs ≠ .ok out := by
  intro h
  obtain ⟨-, -, h2⟩ := paths_deliver (P := fun u _ _ => u.scheme ≠ "fdb" → u.offset < 2 ^ 63) (by
    rintro r rest rfl
    obtain ⟨e1, e2, -⟩ := hlocal r (List.mem_cons_self ..)
    refine ⟨?_, fun _ t u q r hs _ hn => absurd hs hn, fun hc => by simp [e1, e2] at hc⟩
    intro _ t t' u q offs infos j i r hs hi ho hj hgr hjump _
    rw [readingTexts_infos] at hi
    split at hi
    · rename_i hall
      exact hall _ (List.mem_of_getElem? ho)
    · cases hi) hplace h
  obtain ⟨i, hi⟩ := List.getElem?_of_mem hr
  obtain ⟨x, -, hP⟩ := h2 i r hi
  have : r.offset < 2 ^ 63 := hP (hlocal r hr).2.2
  omega

/-! ## Cases -/

example : IsNumeral " +12abc".toList false 12 :=
  ⟨[' '], ['+'], ['1', '2'], ['a', 'b', 'c'], by decide, by decide, Or.inr (Or.inl ⟨rfl, rfl⟩), by decide, by decide,
    (fun c h => by cases h; decide), by decide⟩

example : stoll (offsetText 9223372036854775807) = .ok 9223372036854775807 ∧
    stoll (offsetText 9223372036854775808) = throwExn .outOfRange ∧ stoll [] = throwExn .badValue ∧
    stoll "end".toList = throwExn .badValue ∧ stoll "-7".toList = .ok (-7) ∧ stoll "0x10".toList = .ok 0 ∧
    stoll "-9223372036854775808".toList = .ok (-9223372036854775808) := by decide +kernel

/-- What follows the digits is not looked at: a damaged fragment can be read as another offset. -/
theorem C93_rest_ignored : stoll "12abc".toList = .ok 12 ∧ stoll "12".toList = .ok 12 := by decide +kernel

example : readOffsets [("a", "700".toList), ("b", "0".toList), ("c", "99".toList)] =
    .ok [("b", 0), ("c", 99), ("a", 700)] := by decide +kernel

example : readOffsets [("a", "700".toList), ("b", "9223372036854775808".toList)] = throwExn .outOfRange := by
  decide +kernel

example : localExtractPaths (c27Env []).readingTexts c27Conf [0, 1, 0, 1] c31Reqs =
    localExtractPaths (c27Env []) c27Conf [0, 1, 0, 1] c31Reqs ∧ c31Reqs ≠ [] :=
  ⟨C93_paths_same _ _ _ _ (by decide), by simp [c31Reqs]⟩

/-- Numbers alone would not refuse this one. -/
example : localExtractPaths (c27Env []) c27Conf [0] [⟨"b", "file", 2 ^ 63, "", 0, [⟨0, 1⟩], "h"⟩] =
    .ok [⟨[[98, 9223372036854775808, 0]], []⟩] := by decide +kernel

example (out : List WireResult) :
    localExtractPaths (c27Env []).readingTexts c27Conf [0] [⟨"b", "file", 2 ^ 63, "", 0, [⟨0, 1⟩], "h"⟩] ≠ .ok out :=
  C93_paths_refused _ _ _ _ (by decide) (by decide) _ (List.mem_cons_self ..) (by decide) out

end GJ
