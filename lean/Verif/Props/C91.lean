import Verif.Model.DumpText
import Verif.Spec.DumpText
import Verif.Lemmas.Text
import Verif.Props.C73

/-!
# C91: what the printed text of an index says
-/

namespace GJ

open Spec

/-- A text up to the first `c` and the rest are given by the whole. -/
theorem cut_unique {c : Char} {a b r r' : Str} (h : a ++ c :: r = b ++ c :: r') (ha : c ∉ a) (hb : c ∉ b) : a = b ∧ r = r' := by
  induction a generalizing b with
  | nil =>
    cases b with
    | nil => exact ⟨rfl, (List.cons.inj h).2⟩
    | cons x b =>
      have := (List.cons.inj h).1
      exact absurd (by rw [this]; exact List.mem_cons_self) hb
  | cons x a ih =>
    cases b with
    | nil =>
      have := (List.cons.inj h).1
      exact absurd (by rw [← this]; exact List.mem_cons_self) ha
    | cons y b =>
      obtain ⟨e1, e2⟩ := List.cons.inj h
      obtain ⟨e3, e4⟩ := ih e2 (fun m => ha (List.mem_cons_of_mem _ m)) (fun m => hb (List.mem_cons_of_mem _ m))
      exact ⟨by rw [e1, e3], e4⟩

theorem natText_inj {n m : Nat} (h : natText n = natText m) : n = m := toString_nat_inj n m h

theorem natText_not {c : Char} (hc : c.isDigit = false) (n : Nat) : c ∉ natText n := by
  intro m
  rw [toString_nat_digits n c m] at hc
  cases hc

theorem pyStr_not {c : Char} (hc : c.isDigit = false) (hm : c ≠ '-') (n : Int) : c ∉ pyStr n := by
  unfold pyStr
  split
  · exact natText_not hc _
  · intro m
    rcases List.mem_cons.mp m with e | m
    · exact hm e
    · exact natText_not hc _ m

theorem pyStr_inj {n m : Int} (h : pyStr n = pyStr m) : n = m := by
  have dash : ∀ k : Nat, '-' ∉ natText k := natText_not (by decide)
  unfold pyStr at h
  by_cases h1 : 0 ≤ n
  · by_cases h2 : 0 ≤ m
    · rw [if_pos h1, if_pos h2] at h
      have := toString_nat_inj _ _ h
      omega
    · rw [if_pos h1, if_neg h2] at h
      exact absurd (by rw [natText, h]; exact List.mem_cons_self) (dash n.toNat)
  · by_cases h2 : 0 ≤ m
    · rw [if_neg h1, if_pos h2] at h
      exact absurd (by rw [natText, ← h]; exact List.mem_cons_self) (dash m.toNat)
    · rw [if_neg h1, if_neg h2] at h
      have := toString_nat_inj _ _ (List.cons.inj h).2
      omega

/-- A field is given by a text that begins with it. -/
theorem field_unique {name : String} {v v' r r' : Str} (h : fieldText name v ++ r = fieldText name v' ++ r') (hv : ',' ∉ v)
    (hv' : ',' ∉ v') : v = v' ∧ r = r' := by
  unfold fieldText at h
  rw [List.append_assoc, List.append_assoc, List.append_cancel_left_eq, List.cons_append, List.cons_append] at h
  have h := (List.cons.inj h).2
  rw [List.append_assoc, List.append_assoc] at h
  exact cut_unique h hv hv'

/-- What is printed of a `double` has no comma and no new line. -/
def PlainShown (shown : UInt64 → Str) : Prop := ∀ x, ∀ c ∈ shown x, c ≠ ',' ∧ c ≠ '\n'

theorem base_unique {shown : UInt64 → Str} (hs : PlainShown shown) {a b : JumpInfo} {r r' : Str}
    (ha : ',' ∉ a.md5GridSection.toList) (hb : ',' ∉ b.md5GridSection.toList)
    (h : baseText shown a ++ r = baseText shown b ++ r')
    (pa : r = r' ∨ (',' ∉ a.packingType.toList ∧ ',' ∉ b.packingType.toList ∧ ∃ t t', r = ',' :: t ∧ r' = ',' :: t')) :
    BaseAlike shown a b ∧ r = r' := by
  have nt : ∀ n, ',' ∉ natText n := natText_not (by decide)
  have pt : ∀ n, ',' ∉ pyStr n := pyStr_not (by decide) (by decide)
  have st : ∀ x, ',' ∉ shown x := fun x m => (hs x _ m).1 rfl
  unfold baseText at h
  simp only [List.append_assoc] at h
  obtain ⟨e1, h⟩ := field_unique h (nt _) (nt _)
  obtain ⟨e2, h⟩ := field_unique h (st _) (st _)
  obtain ⟨e3, h⟩ := field_unique h (pt _) (pt _)
  obtain ⟨e4, h⟩ := field_unique h (pt _) (pt _)
  obtain ⟨e5, h⟩ := field_unique h (nt _) (nt _)
  obtain ⟨e6, h⟩ := field_unique h (nt _) (nt _)
  obtain ⟨e7, h⟩ := field_unique h (nt _) (nt _)
  obtain ⟨e8, h⟩ := field_unique h (nt _) (nt _)
  obtain ⟨e9, h⟩ := field_unique h (nt _) (nt _)
  obtain ⟨e10, h⟩ := field_unique h (nt _) (nt _)
  obtain ⟨e11, h⟩ := field_unique h (nt _) (nt _)
  obtain ⟨e12, h⟩ := field_unique h (nt _) (nt _)
  obtain ⟨e13, h⟩ := field_unique h (pt _) (pt _)
  obtain ⟨e14, h⟩ := field_unique h ha hb
  rw [List.append_cancel_left_eq] at h
  obtain ⟨e15, hr⟩ : a.packingType.toList = b.packingType.toList ∧ r = r' := by
    rcases pa with rfl | ⟨p1, p2, t, t', rfl, rfl⟩
    · exact ⟨List.append_cancel_right h, rfl⟩
    · obtain ⟨g1, g2⟩ := cut_unique h p1 p2
      exact ⟨g1, by rw [g2]⟩
  refine ⟨⟨e2, ?_⟩, hr⟩
  have f1 := natText_inj e1
  have f3 := pyStr_inj e3
  have f4 := pyStr_inj e4
  have f5 := natText_inj e5
  have f6 := natText_inj e6
  have f7 := natText_inj e7
  have f8 := natText_inj e8
  have f9 := natText_inj e9
  have f10 := natText_inj e10
  have f11 := natText_inj e11
  have f12 := natText_inj e12
  have f13 := pyStr_inj e13
  have f14 := String.toList_inj.mp e14
  have f15 := String.toList_inj.mp e15
  obtain ⟨⟩ := a
  obtain ⟨⟩ := b
  simp only at f1 f3 f4 f5 f6 f7 f8 f9 f10 f11 f12 f13 f14 f15
  subst f1 f3 f4 f5 f6 f7 f8 f9 f10 f11 f12 f13 f14 f15
  rfl

theorem ext_unique {x y : CcsdsExt} (h : extText x = extText y) :
    x.flags = y.flags ∧ x.blockSize = y.blockSize ∧ x.rsi = y.rsi ∧ x.offsets.length = y.offsets.length := by
  have nt : ∀ n, ',' ∉ natText n := natText_not (by decide)
  unfold extText at h
  have h := (List.cons.inj h).2
  obtain ⟨e1, h⟩ := field_unique h (nt _) (nt _)
  obtain ⟨e2, h⟩ := field_unique h (nt _) (nt _)
  obtain ⟨e3, h⟩ := field_unique h (nt _) (nt _)
  rw [List.append_cancel_left_eq] at h
  exact ⟨natText_inj e1, natText_inj e2, natText_inj e3, natText_inj h⟩

theorem plain_md5 {i : Info} (h : PlainInfo i) : ',' ∉ i.base.md5GridSection.toList :=
  fun m => (h _ (List.mem_append_left _ m)).1 rfl

theorem plain_packing {i : Info} (h : PlainInfo i) : ',' ∉ i.base.packingType.toList :=
  fun m => (h _ (List.mem_append_right _ m)).1 rfl

theorem info_unique {shown : UInt64 → Str} (hs : PlainShown shown) {i j : Info} (hi : PlainInfo i) (hj : PlainInfo j)
    (h : infoText shown i = infoText shown j) : Alike shown i j := by
  have base : ∀ {a b : JumpInfo}, ',' ∉ a.md5GridSection.toList → ',' ∉ b.md5GridSection.toList →
      baseText shown a = baseText shown b → BaseAlike shown a b := by
    intro a b ha hb e
    exact (base_unique hs (r := []) (r' := []) ha hb (by rw [e]) (Or.inl rfl)).1
  have mi := plain_md5 hi
  have mj := plain_md5 hj
  have qi := plain_packing hi
  have qj := plain_packing hj
  cases i with
  | simple a =>
    cases j with
    | simple b => exact base mi mj (List.append_cancel_left h)
    | ccsds b y => exact absurd (List.cons.inj h).1 (by decide)
    | unsupported b => exact absurd (List.cons.inj h).1 (by decide)
  | unsupported a =>
    cases j with
    | unsupported b => exact base mi mj (List.append_cancel_left h)
    | ccsds b y => exact absurd (List.cons.inj h).1 (by decide)
    | simple b => exact absurd (List.cons.inj h).1 (by decide)
  | ccsds a x =>
    cases j with
    | simple b => exact absurd (List.cons.inj h).1 (by decide)
    | unsupported b => exact absurd (List.cons.inj h).1 (by decide)
    | ccsds b y =>
      have h := List.append_cancel_left h
      obtain ⟨h1, h2⟩ := base_unique hs mi mj h (Or.inr ⟨qi, qj, _, _, rfl, rfl⟩)
      exact ⟨h1, ext_unique h2⟩

theorem line_unique {shown : UInt64 → Str} (hs : PlainShown shown) {e f : Nat × Info} (he : PlainInfo e.2) (hf : PlainInfo f.2)
    (h : entryLine shown e = entryLine shown f) : e.1 = f.1 ∧ Alike shown e.2 f.2 := by
  have h := List.append_cancel_left h
  rw [List.append_assoc, List.append_assoc] at h
  obtain ⟨h1, h2⟩ := cut_unique (c := ' ') (r := "-> ".toList ++ infoText shown e.2) (r' := "-> ".toList ++ infoText shown f.2) h
    (natText_not (by decide) _) (natText_not (by decide) _)
  exact ⟨natText_inj h1, info_unique hs he hf (List.append_cancel_left h2)⟩

/-! ## Lines -/

theorem lines_unique {ls ms : List Str} (hl : ∀ l ∈ ls, '\n' ∉ l) (hm : ∀ l ∈ ms, '\n' ∉ l)
    (h : (ls.flatMap fun l => l ++ ['\n']) = ms.flatMap fun l => l ++ ['\n']) : ls = ms := by
  induction ls generalizing ms with
  | nil =>
    cases ms with
    | nil => rfl
    | cons m ms =>
      rw [List.flatMap_cons, List.flatMap_nil] at h
      have := congrArg List.length h
      simp at this
  | cons l ls ih =>
    cases ms with
    | nil =>
      rw [List.flatMap_cons, List.flatMap_nil] at h
      have := congrArg List.length h
      simp at this
    | cons m ms =>
      rw [List.flatMap_cons, List.flatMap_cons, List.append_assoc, List.append_assoc] at h
      obtain ⟨h1, h2⟩ := cut_unique (c := '\n') h (hl l List.mem_cons_self) (hm m List.mem_cons_self)
      rw [h1, ih (fun x hx => hl x (List.mem_cons_of_mem _ hx)) (fun x hx => hm x (List.mem_cons_of_mem _ hx)) h2]

theorem field_plain {name : String} {v : Str} (hn : '\n' ∉ name.toList) (hv : '\n' ∉ v) : '\n' ∉ fieldText name v := by
  unfold fieldText
  intro m
  rcases List.mem_append.mp m with m | m
  · exact hn m
  · rcases List.mem_cons.mp m with e | m
    · exact absurd e (by decide)
    · rcases List.mem_append.mp m with m | m
      · exact hv m
      · exact absurd (List.mem_singleton.mp m) (by decide)

theorem not_mem_append {c : Char} {a b : Str} (ha : c ∉ a) (hb : c ∉ b) : c ∉ a ++ b := fun m =>
  (List.mem_append.mp m).elim ha hb

theorem base_plain {shown : UInt64 → Str} (hs : PlainShown shown) {b : JumpInfo} (h1 : '\n' ∉ b.md5GridSection.toList)
    (h2 : '\n' ∉ b.packingType.toList) : '\n' ∉ baseText shown b := by
  have nt : ∀ n, '\n' ∉ natText n := natText_not (by decide)
  have pt : ∀ n, '\n' ∉ pyStr n := pyStr_not (by decide) (by decide)
  have st : ∀ x, '\n' ∉ shown x := fun x m => (hs x _ m).2 rfl
  unfold baseText
  refine not_mem_append (field_plain (by decide) (nt _)) (not_mem_append (field_plain (by decide) (st _))
    (not_mem_append (field_plain (by decide) (pt _)) (not_mem_append (field_plain (by decide) (pt _))
    (not_mem_append (field_plain (by decide) (nt _)) (not_mem_append (field_plain (by decide) (nt _))
    (not_mem_append (field_plain (by decide) (nt _)) (not_mem_append (field_plain (by decide) (nt _))
    (not_mem_append (field_plain (by decide) (nt _)) (not_mem_append (field_plain (by decide) (nt _))
    (not_mem_append (field_plain (by decide) (nt _)) (not_mem_append (field_plain (by decide) (nt _))
    (not_mem_append (field_plain (by decide) (pt _)) (not_mem_append (field_plain (by decide) h1)
    (not_mem_append (by decide) h2))))))))))))))

theorem entry_plain {shown : UInt64 → Str} (hs : PlainShown shown) {e : Nat × Info} (he : PlainInfo e.2) :
    '\n' ∉ entryLine shown e := by
  have nt : ∀ n, '\n' ∉ natText n := natText_not (by decide)
  have h1 : '\n' ∉ e.2.base.md5GridSection.toList := fun m => (he _ (List.mem_append_left _ m)).2 rfl
  have h2 : '\n' ∉ e.2.base.packingType.toList := fun m => (he _ (List.mem_append_right _ m)).2 rfl
  unfold entryLine
  refine not_mem_append (by decide) (not_mem_append (not_mem_append (nt _) (by decide)) ?_)
  obtain ⟨o, i⟩ := e
  cases i with
  | simple b => exact not_mem_append (by decide) (base_plain hs h1 h2)
  | unsupported b => exact not_mem_append (by decide) (base_plain hs h1 h2)
  | ccsds b x =>
    refine not_mem_append (by decide) (not_mem_append (base_plain hs h1 h2) ?_)
    unfold extText
    intro m
    rcases List.mem_cons.mp m with e | m
    · exact absurd e (by decide)
    · exact not_mem_append (field_plain (by decide) (nt _)) (not_mem_append (field_plain (by decide) (nt _))
        (not_mem_append (field_plain (by decide) (nt _)) (not_mem_append (by decide) (nt _)))) m

/-- What is printed of one index can be told from the rest. -/
structure PlainDump (d : Dumped) : Prop where
  path : '\n' ∉ d.path.toList
  count : d.count = d.entries.length
  entries : ∀ e ∈ d.entries, PlainInfo e.2

/-- The same path and, entry by entry, the same offsets with what looks the same. -/
inductive EntriesAlike (shown : UInt64 → Str) : List (Nat × Info) → List (Nat × Info) → Prop
  | nil : EntriesAlike shown [] []
  | cons {o : Nat} {i j : Info} {l m : List (Nat × Info)} : Alike shown i j → EntriesAlike shown l m →
      EntriesAlike shown ((o, i) :: l) ((o, j) :: m)

inductive DumpsAlike (shown : UInt64 → Str) : List Dumped → List Dumped → Prop
  | nil : DumpsAlike shown [] []
  | cons {d e : Dumped} {l m : List Dumped} : d.path = e.path → EntriesAlike shown d.entries e.entries → DumpsAlike shown l m →
      DumpsAlike shown (d :: l) (e :: m)

theorem head_not_entry {shown : UInt64 → Str} {d : Dumped} {e : Nat × Info} : headLine d ≠ entryLine shown e := by
  intro h
  exact absurd (List.cons.inj h).1 (by decide)

theorem dumpLines_head (shown : UInt64 → Str) (ds : List Dumped) :
    dumpLines shown ds = [] ∨ ∃ d r, dumpLines shown ds = headLine d :: r := by
  cases ds with
  | nil => exact Or.inl rfl
  | cons d ds => exact Or.inr ⟨d, _, rfl⟩

/-- Entries up to the next first line. -/
theorem entries_unique {shown : UInt64 → Str} (hs : PlainShown shown) {l m : List (Nat × Info)} {r r' : List Str}
    (hl : ∀ e ∈ l, PlainInfo e.2) (hm : ∀ e ∈ m, PlainInfo e.2) (hr : r = [] ∨ ∃ d t, r = headLine d :: t)
    (hr' : r' = [] ∨ ∃ d t, r' = headLine d :: t) (h : l.map (entryLine shown) ++ r = m.map (entryLine shown) ++ r') :
    EntriesAlike shown l m ∧ l.length = m.length ∧ r = r' := by
  induction l generalizing m with
  | nil =>
    cases m with
    | nil => exact ⟨.nil, rfl, h⟩
    | cons f m =>
      rcases hr with rfl | ⟨d, t, rfl⟩
      · cases h
      · exact absurd (List.cons.inj h).1 head_not_entry
  | cons e l ih =>
    cases m with
    | nil =>
      rcases hr' with rfl | ⟨d, t, rfl⟩
      · cases h
      · exact absurd (List.cons.inj h).1.symm head_not_entry
    | cons f m =>
      obtain ⟨h1, h2⟩ := List.cons.inj h
      obtain ⟨g1, g2⟩ := line_unique hs (hl e List.mem_cons_self) (hm f List.mem_cons_self) h1
      obtain ⟨i1, i2, i3⟩ := ih (fun x hx => hl x (List.mem_cons_of_mem _ hx)) (fun x hx => hm x (List.mem_cons_of_mem _ hx)) h2
      obtain ⟨o, i⟩ := e
      obtain ⟨o', j⟩ := f
      cases g1
      exact ⟨.cons g2 i1, by rw [List.length_cons, List.length_cons, i2], i3⟩

theorem dumps_unique {shown : UInt64 → Str} (hs : PlainShown shown) {ds es : List Dumped} (hd : ∀ d ∈ ds, PlainDump d)
    (he : ∀ d ∈ es, PlainDump d) (h : dumpLines shown ds = dumpLines shown es) : DumpsAlike shown ds es := by
  induction ds generalizing es with
  | nil =>
    cases es with
    | nil => exact .nil
    | cons e es => cases h
  | cons d ds ih =>
    cases es with
    | nil => cases h
    | cons e es =>
      have pd := hd d List.mem_cons_self
      have pe := he e List.mem_cons_self
      have h : headLine d :: (d.entries.map (entryLine shown) ++ dumpLines shown ds) =
        headLine e :: (e.entries.map (entryLine shown) ++ dumpLines shown es) := h
      obtain ⟨h1, h2⟩ := List.cons.inj h
      obtain ⟨g1, g2, g3⟩ := entries_unique hs pd.entries pe.entries (dumpLines_head shown ds) (dumpLines_head shown es) h2
      refine .cons ?_ g1 (ih (fun x hx => hd x (List.mem_cons_of_mem _ hx)) (fun x hx => he x (List.mem_cons_of_mem _ hx)) g3)
      unfold headLine at h1
      have h1 := List.append_cancel_left h1
      rw [pd.count, pe.count, g2] at h1
      exact String.toList_inj.mp (List.append_cancel_right h1)

/-- C91.  Two lists of indexes that print the same are, index by index and entry by entry, the same as far as the text goes: paths,
offsets, classes, all numbers and names, the reference value as far as its digits are printed, and the number of blocks. -/
theorem C91_text_says {shown : UInt64 → Str} (hs : PlainShown shown) {ds es : List Dumped} (hd : ∀ d ∈ ds, PlainDump d)
    (he : ∀ d ∈ es, PlainDump d) (h : dumpText shown ds = dumpText shown es) : DumpsAlike shown ds es := by
  have plain : ∀ {xs : List Dumped}, (∀ d ∈ xs, PlainDump d) → ∀ l ∈ dumpLines shown xs, '\n' ∉ l := by
    intro xs hx l hl
    obtain ⟨d, h1, h2⟩ := List.mem_flatMap.mp hl
    rcases List.mem_cons.mp h2 with rfl | h2
    · unfold headLine
      exact not_mem_append (by decide) (not_mem_append (hx d h1).path (not_mem_append
        (not_mem_append (by decide) (natText_not (by decide) _)) (by decide)))
    · obtain ⟨e, h3, rfl⟩ := List.mem_map.mp h2
      exact entry_plain hs ((hx d h1).entries e h3)
  exact dumps_unique hs hd he (lines_unique (plain hd) (plain he) h)

theorem alike_mem {shown : UInt64 → Str} {l m : List (Nat × Info)} (h : EntriesAlike shown l m) {o : Nat} {i : Info} (hi : (o, i) ∈ l) :
    ∃ j, (o, j) ∈ m ∧ Alike shown i j := by
  induction h with
  | nil => cases hi
  | cons ha _ ih =>
    rcases List.mem_cons.mp hi with e | hi
    · cases e
      exact ⟨_, List.mem_cons_self, ha⟩
    · obtain ⟨j, h1, h2⟩ := ih hi
      exact ⟨j, List.mem_cons_of_mem _ h1, h2⟩

theorem alike_mem_right {shown : UInt64 → Str} {l m : List (Nat × Info)} (h : EntriesAlike shown l m) {o : Nat} {j : Info}
    (hj : (o, j) ∈ m) : ∃ i, (o, i) ∈ l ∧ Alike shown i j := by
  induction h with
  | nil => cases hj
  | cons ha _ ih =>
    rcases List.mem_cons.mp hj with e | hj
    · cases e
      exact ⟨_, List.mem_cons_self, ha⟩
    · obtain ⟨i, h1, h2⟩ := ih hj
      exact ⟨i, List.mem_cons_of_mem _ h1, h2⟩

theorem dumps_paths {shown : UInt64 → Str} {ds es : List Dumped} (h : DumpsAlike shown ds es) : ds.map (·.path) = es.map (·.path) := by
  induction h with
  | nil => rfl
  | cons hp _ _ ih => rw [List.map_cons, List.map_cons, hp, ih]

theorem dumps_mem {shown : UInt64 → Str} {ds es : List Dumped} (h : DumpsAlike shown ds es) {d : Dumped} (hd : d ∈ ds) :
    ∃ e ∈ es, d.path = e.path ∧ EntriesAlike shown d.entries e.entries := by
  induction h with
  | nil => cases hd
  | cons hp ha _ ih =>
    rcases List.mem_cons.mp hd with rfl | hd
    · exact ⟨_, List.mem_cons_self, hp, ha⟩
    · obtain ⟨e, h1, h2⟩ := ih hd
      exact ⟨e, List.mem_cons_of_mem _ h1, h2⟩

/-- **C91, for the tool.**  If what the tool prints for index files of two machines, or of one at two times, is the same text,
then the same files were printed, and at every offset the two say nothing or what looks the same. -/
theorem C91_dumps_compare_partial {shown : UInt64 → Str} (hs : PlainShown shown) (fs fs' : FS) (ps ps' : List String)
    (h : ∀ p ∈ ps, ∃ es, fs.find p = some (indexOf es)) (h' : ∀ p ∈ ps', ∃ es, fs'.find p = some (indexOf es))
    (lines : ∀ p ∈ ps ++ ps', '\n' ∉ p.toList)
    (plain : ∀ p o i, fileSays fs p o = some i ∨ fileSays fs' p o = some i → PlainInfo i)
    (same : dumpText shown (dumpFiles fs ps).1 = dumpText shown (dumpFiles fs' ps').1) :
    ps = ps' ∧ ∀ p ∈ ps, ∀ o, AlikeOpt shown (fileSays fs p o) (fileSays fs' p o) := by
  obtain ⟨-, a2, a3⟩ := C73_dump fs ps h
  obtain ⟨-, b2, b3⟩ := C73_dump fs' ps' h'
  have pa : ∀ d ∈ (dumpFiles fs ps).1, PlainDump d := by
    intro d hd
    obtain ⟨-, c1, c2⟩ := a3 d hd
    refine ⟨lines _ (List.mem_append_left _ (by rw [← a2]; exact List.mem_map.mpr ⟨d, hd, rfl⟩)), c1, ?_⟩
    intro e he
    exact plain d.path e.1 e.2 (Or.inl ((c2 e.1 e.2).mp he))
  have pb : ∀ d ∈ (dumpFiles fs' ps').1, PlainDump d := by
    intro d hd
    obtain ⟨-, c1, c2⟩ := b3 d hd
    refine ⟨lines _ (List.mem_append_right _ (by rw [← b2]; exact List.mem_map.mpr ⟨d, hd, rfl⟩)), c1, ?_⟩
    intro e he
    exact plain d.path e.1 e.2 (Or.inr ((c2 e.1 e.2).mp he))
  have al := C91_text_says hs pa pb same
  have paths := dumps_paths al
  rw [a2, b2] at paths
  refine ⟨paths, ?_⟩
  intro p hp o
  rw [← a2] at hp
  obtain ⟨d, hd, rfl⟩ := List.mem_map.mp hp
  obtain ⟨e, he, hpe, ea⟩ := dumps_mem al hd
  obtain ⟨-, -, c2⟩ := a3 d hd
  obtain ⟨-, -, c3⟩ := b3 e he
  cases h1 : fileSays fs d.path o with
  | none =>
    cases h2 : fileSays fs' d.path o with
    | none => exact trivial
    | some j =>
      rw [hpe] at h2
      obtain ⟨i, h3, -⟩ := alike_mem_right ea ((c3 o j).mpr h2)
      have h3 := (c2 o i).mp h3
      rw [h1] at h3
      cases h3
  | some i =>
    obtain ⟨j, h3, h4⟩ := alike_mem ea ((c2 o i).mpr h1)
    have h3 := (c3 o j).mp h3
    rw [← hpe] at h3
    rw [h3]
    exact h4

theorem base_alike_text {shown : UInt64 → Str} {a b : JumpInfo} (h : BaseAlike shown a b) : baseText shown a = baseText shown b := by
  obtain ⟨h1, h2⟩ := h
  obtain ⟨a1, a2, a3, a4, a5, a6, a7, a8, a9, a10, a11, a12, a13, a14, a15⟩ := a
  obtain ⟨b1, b2, b3, b4, b5, b6, b7, b8, b9, b10, b11, b12, b13, b14, b15⟩ := b
  obtain ⟨rfl, -, rfl, rfl, rfl, rfl, rfl, rfl, rfl, rfl, rfl, rfl, rfl, rfl, rfl⟩ := JumpInfo.mk.inj h2
  have h1 : shown a2 = shown b2 := h1
  unfold baseText
  simp only [h1]

/-- What looks the same prints the same: nothing else of an entry is in the text. -/
theorem C91_text_of_alike {shown : UInt64 → Str} {i j : Info} (h : Alike shown i j) (o : Nat) :
    entryLine shown (o, i) = entryLine shown (o, j) := by
  have info : infoText shown i = infoText shown j := by
    cases i with
    | simple a =>
      cases j with
      | simple b => exact congrArg ("SimpleInfo,".toList ++ ·) (base_alike_text h)
      | ccsds b y => exact False.elim h
      | unsupported b => exact False.elim h
    | unsupported a =>
      cases j with
      | unsupported b => exact congrArg ("UnsupportedInfo,".toList ++ ·) (base_alike_text h)
      | ccsds b y => exact False.elim h
      | simple b => exact False.elim h
    | ccsds a x =>
      cases j with
      | simple b => exact False.elim h
      | unsupported b => exact False.elim h
      | ccsds b y =>
        obtain ⟨h0, h1, h2, h3, h4⟩ := h
        have hx : extText x = extText y := by
          unfold extText
          simp only [h1, h2, h3, h4]
        show "CcsdsInfo,".toList ++ (baseText shown a ++ extText x) = "CcsdsInfo,".toList ++ (baseText shown b ++ extText y)
        rw [base_alike_text h0, hx]
  exact congrArg (fun t => "  Offset:".toList ++ (natText o ++ " -> ".toList ++ t)) info

/-! ## What the text leaves out -/

def c91Base : JumpInfo := ⟨1, 0x40091EB851EB851F, -3, 0, 2, 12, 179, 5000, 0, 8000, 8000, 5004, 0, "33c7d6025995e1b4", "grid_ccsds"⟩

/-- The index of one compressed message with these offsets of blocks. -/
def c91Index (offsets : List Nat) : FS := [("/d/a.gribjump", indexOf [(0, .ccsds c91Base ⟨14, 32, 128, offsets⟩)])]

/-- C91 fails for the offsets of the blocks of a compressed message: only their number is printed, so two indexes, of which one
leads to the wrong bytes of the message, print the same, however a `double` is printed. -/
theorem C91_block_offsets_not_shown (shown : UInt64 → Str) :
    dumpText shown (dumpFiles (c91Index [0, 1000]) ["/d/a.gribjump"]).1 =
      dumpText shown (dumpFiles (c91Index [0, 1008]) ["/d/a.gribjump"]).1 ∧
    fileSays (c91Index [0, 1000]) "/d/a.gribjump" 0 ≠ fileSays (c91Index [0, 1008]) "/d/a.gribjump" 0 := by
  refine ⟨?_, by decide +kernel⟩
  have h1 : (dumpFiles (c91Index [0, 1000]) ["/d/a.gribjump"]).1 =
      [⟨"/d/a.gribjump", 1, [(0, .ccsds c91Base ⟨14, 32, 128, [0, 1000]⟩)]⟩] := by decide +kernel
  have h2 : (dumpFiles (c91Index [0, 1008]) ["/d/a.gribjump"]).1 =
      [⟨"/d/a.gribjump", 1, [(0, .ccsds c91Base ⟨14, 32, 128, [0, 1008]⟩)]⟩] := by decide +kernel
  have h3 : entryLine shown (0, .ccsds c91Base ⟨14, 32, 128, [0, 1000]⟩) = entryLine shown (0, .ccsds c91Base ⟨14, 32, 128, [0, 1008]⟩) :=
    C91_text_of_alike (i := .ccsds c91Base ⟨14, 32, 128, [0, 1000]⟩) (j := .ccsds c91Base ⟨14, 32, 128, [0, 1008]⟩)
      ⟨⟨rfl, rfl⟩, rfl, rfl, rfl, rfl⟩ 0
  rw [h1, h2]
  unfold dumpText dumpLines
  simp only [List.flatMap_cons, List.flatMap_nil, indexLines, List.map_cons, List.map_nil, h3]
  rfl

/-- C91 fails for reference values that differ in digits that are not printed. -/
theorem C91_reference_as_shown (shown : UInt64 → Str) (b : JumpInfo) (x : UInt64) (h : shown b.referenceValue = shown x) (o : Nat) :
    entryLine shown (o, .simple b) = entryLine shown (o, .simple { b with referenceValue := x }) :=
  C91_text_of_alike (i := .simple b) (j := .simple { b with referenceValue := x }) ⟨h, rfl⟩ o

/-! ## A case -/

def c91Shown (x : UInt64) : Str := if x = 0x40091EB851EB851F then "3.14".toList else "0".toList

def c91Files : FS :=
  [("/d/a.gribjump", indexOf [(5004, .simple { c91Base with packingType := "grid_simple", referenceValue := 0 }),
    (0, .ccsds c91Base ⟨14, 32, 128, [0, 1000]⟩)])]

example : String.ofList (dumpText c91Shown (dumpFiles c91Files ["/d/a.gribjump"]).1) =
    "IndexFile[/d/a.gribjump (2 entries)]:\n" ++
    "  Offset:0 -> CcsdsInfo,version=1,referenceValue=3.14,binaryScaleFactor=-3,decimalScaleFactor=0,editionNumber=2,bitsPerValue=12,offsetBeforeData=179,offsetAfterData=5000,offsetBeforeBitmap=0,numberOfValues=8000,numberOfDataPoints=8000,totalLength=5004,sphericalHarmonics=0,md5GridSection=33c7d6025995e1b4,packingType=grid_ccsds,ccsdsFlags=14,ccsdsBlockSize=32,ccsdsRsi=128,ccsdsOffsets.size=2\n" ++
    "  Offset:5004 -> SimpleInfo,version=1,referenceValue=0,binaryScaleFactor=-3,decimalScaleFactor=0,editionNumber=2,bitsPerValue=12,offsetBeforeData=179,offsetAfterData=5000,offsetBeforeBitmap=0,numberOfValues=8000,numberOfDataPoints=8000,totalLength=5004,sphericalHarmonics=0,md5GridSection=33c7d6025995e1b4,packingType=grid_simple\n" := by
  decide +kernel

/-- The hypotheses of `C91_dumps_compare_partial` hold of these files. -/
example : PlainShown c91Shown ∧ (∀ p ∈ ["/d/a.gribjump"], ∃ es, c91Files.find p = some (indexOf es)) ∧
    (∀ p ∈ ["/d/a.gribjump"], '\n' ∉ p.toList) := by
  refine ⟨?_, ?_, by decide⟩
  · intro x c hc
    unfold c91Shown at hc
    split at hc
    · revert hc; revert c; decide
    · revert hc; revert c; decide
  · intro p hp
    rw [List.mem_singleton.mp hp]
    exact ⟨_, rfl⟩

example : ∀ o ∈ [0, 5004], ∀ i, fileSays c91Files "/d/a.gribjump" o = some i → PlainInfo i := by
  have h0 : fileSays c91Files "/d/a.gribjump" 0 = some (.ccsds c91Base ⟨14, 32, 128, [0, 1000]⟩) := by decide +kernel
  have h1 : fileSays c91Files "/d/a.gribjump" 5004 =
      some (.simple { c91Base with packingType := "grid_simple", referenceValue := 0 }) := by decide +kernel
  intro o ho i hi
  rcases List.mem_cons.mp ho with rfl | ho
  · rw [h0] at hi
    cases hi
    unfold PlainInfo
    decide
  · rw [List.mem_singleton.mp ho, h1] at hi
    cases hi
    unfold PlainInfo
    decide

end GJ
