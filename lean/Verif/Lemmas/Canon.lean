import Verif.Model.Canon
import Verif.Spec.Request

namespace GJ

open Spec

/-! ## The order of strings -/

theorem strLe_refl (a : Str) : strLe a a = true := by
  induction a with
  | nil => rfl
  | cons x xs ih => rw [strLe, if_neg (Nat.lt_irrefl _), if_neg (Nat.lt_irrefl _)]; exact ih

theorem strLe_cons (a b : Char) (as bs : Str) :
    strLe (a :: as) (b :: bs) = true ↔ a.toNat < b.toNat ∨ (a = b ∧ strLe as bs = true) := by
  rw [strLe]
  by_cases h1 : a.toNat < b.toNat
  · rw [if_pos h1]; simp [h1]
  · rw [if_neg h1]
    by_cases h2 : b.toNat < a.toNat
    · rw [if_pos h2]
      constructor
      · intro h; cases h
      · rintro (h | ⟨h, -⟩)
        · exact absurd h h1
        · subst h; omega
    · rw [if_neg h2]
      have e : a = b := Char.ext (UInt32.toNat_inj.mp (by show a.toNat = b.toNat; omega))
      constructor
      · intro h; exact Or.inr ⟨e, h⟩
      · rintro (h | ⟨-, h⟩)
        · exact absurd h h1
        · exact h

theorem strLe_trans (a b c : Str) (h1 : strLe a b = true) (h2 : strLe b c = true) : strLe a c = true := by
  induction a generalizing b c with
  | nil => rfl
  | cons x xs ih =>
    cases b with
    | nil => cases h1
    | cons y ys =>
      cases c with
      | nil => cases h2
      | cons z zs =>
        rw [strLe_cons] at h1 h2 ⊢
        rcases h1 with h1 | ⟨rfl, h1⟩
        · rcases h2 with h2 | ⟨rfl, h2⟩
          · exact Or.inl (Nat.lt_trans h1 h2)
          · exact Or.inl h1
        · rcases h2 with h2 | ⟨rfl, h2⟩
          · exact Or.inl h2
          · exact Or.inr ⟨rfl, ih _ _ h1 h2⟩

theorem strLe_total (a b : Str) : strLe a b = true ∨ strLe b a = true := by
  induction a generalizing b with
  | nil => exact Or.inl rfl
  | cons x xs ih =>
    cases b with
    | nil => exact Or.inr rfl
    | cons y ys =>
      rw [strLe_cons, strLe_cons]
      by_cases h1 : x.toNat < y.toNat
      · exact Or.inl (Or.inl h1)
      · by_cases h2 : y.toNat < x.toNat
        · exact Or.inr (Or.inl h2)
        · have e : x = y := Char.ext (UInt32.toNat_inj.mp (by show x.toNat = y.toNat; omega))
          rcases ih ys with h | h
          · exact Or.inl (Or.inr ⟨e, h⟩)
          · exact Or.inr (Or.inr ⟨e.symm, h⟩)

theorem strLe_antisymm (a b : Str) (h1 : strLe a b = true) (h2 : strLe b a = true) : a = b := by
  induction a generalizing b with
  | nil =>
    cases b with
    | nil => rfl
    | cons y ys => cases h2
  | cons x xs ih =>
    cases b with
    | nil => cases h1
    | cons y ys =>
      rw [strLe_cons] at h1 h2
      rcases h1 with h1 | ⟨rfl, h1⟩
      · rcases h2 with h2 | ⟨rfl, h2⟩ <;> omega
      · rcases h2 with h2 | ⟨-, h2⟩
        · omega
        · rw [ih _ h1 h2]

theorem isort_strLe_sorted (l : List Str) : (isort strLe l).Pairwise (fun a b => strLe a b = true) :=
  isort_sorted strLe strLe_trans strLe_total l

/-- A sorted list is the sorting of any of its permutations. -/
theorem isort_eq_of_sorted_perm {l s : List Str} (hs : s.Pairwise (fun a b => strLe a b = true)) (hp : s.Perm l) :
    isort strLe l = s :=
  List.Perm.eq_of_pairwise (fun a b _ _ h1 h2 => strLe_antisymm a b h1 h2) (isort_strLe_sorted l) hs
    ((isort_perm strLe l).trans hp.symm)

theorem isort_perm_eq {l l' : List Str} (hp : l.Perm l') : isort strLe l = isort strLe l' :=
  isort_eq_of_sorted_perm (isort_strLe_sorted l') ((isort_perm strLe l').trans hp.symm)

/-! ## Splitting -/

theorem splitOn_ne_nil (c : Char) (s : Str) : splitOn c s ≠ [] := by
  cases s with
  | nil => simp [splitOn]
  | cons a rest =>
    rw [splitOn]
    split
    · simp
    · split <;> simp

theorem splitOn_piece (c : Char) (p rest : Str) (h : c ∉ p) : splitOn c (p ++ c :: rest) = p :: splitOn c rest := by
  induction p with
  | nil => rw [List.nil_append, splitOn, if_pos rfl]
  | cons a as ih =>
    rw [List.cons_append, splitOn, if_neg (by rintro rfl; exact h (List.mem_cons_self ..)),
      ih (fun hm => h (List.mem_cons_of_mem _ hm))]

theorem splitOn_last (c : Char) (p : Str) (h : c ∉ p) : splitOn c p = [p] := by
  induction p with
  | nil => rfl
  | cons a as ih =>
    rw [splitOn, if_neg (by rintro rfl; exact h (List.mem_cons_self ..)), ih (fun hm => h (List.mem_cons_of_mem _ hm))]

theorem splitOn_commas (parts : List Str) (hne : parts ≠ []) (h : ∀ p ∈ parts, ',' ∉ p) :
    splitOn ',' (commas parts) = parts := by
  induction parts with
  | nil => exact absurd rfl hne
  | cons p rest ih =>
    cases rest with
    | nil => rw [commas, splitOn_last _ _ (h p (List.mem_cons_self ..))]
    | cons q rest =>
      rw [commas, splitOn_piece _ _ _ (h p (List.mem_cons_self ..)),
        ih (by simp) (fun x hx => h x (List.mem_cons_of_mem _ hx))]

theorem tokens_commas (parts : List Str) (h : ∀ p ∈ parts, p ≠ [] ∧ ',' ∉ p) : tokens ',' (commas parts) = parts := by
  cases parts with
  | nil => rfl
  | cons p rest =>
    rw [tokens, splitOn_commas _ (by simp) (fun q hq => (h q hq).2), List.filter_eq_self]
    intro q hq
    simpa using (h q hq).1

theorem tokens_pair (k v : Str) (hk : Clean k) (hv : Clean v) : tokens '=' (pairText (k, v)) = [k, v] := by
  rw [tokens, pairText, splitOn_piece _ _ _ hk.2.2, splitOn_last _ _ hv.2.2, List.filter_eq_self]
  intro q hq
  simp only [List.mem_cons, List.not_mem_nil, or_false] at hq
  rcases hq with rfl | rfl
  · simpa using hk.1
  · simpa using hv.1

theorem tokens_word (w : Str) (h : Clean w) : tokens '=' w = [w] := by
  rw [tokens, splitOn_last _ _ h.2.2, List.filter_eq_self]
  intro q hq
  rw [List.mem_singleton] at hq
  subst hq
  simpa using h.1

theorem pairText_ok (p : Str × Str) (hk : Clean p.1) (hv : Clean p.2) : pairText p ≠ [] ∧ ',' ∉ pairText p := by
  refine ⟨by simp [pairText], ?_⟩
  rw [pairText]
  simp only [List.mem_append, List.mem_cons, not_or]
  exact ⟨hk.2.1, by decide, hv.2.1⟩

theorem pairText_inj (p q : Str × Str) (hp : Clean p.1) (hq : Clean q.1) (hp2 : Clean p.2) (hq2 : Clean q.2)
    (h : pairText p = pairText q) : p = q := by
  have h1 := tokens_pair p.1 p.2 hp hp2
  have h2 := tokens_pair q.1 q.2 hq hq2
  rw [show ((p.1, p.2) : Str × Str) = p from rfl] at h1
  rw [show ((q.1, q.2) : Str × Str) = q from rfl] at h2
  rw [h, h2] at h1
  injection h1 with e1 e2
  injection e2 with e2 _
  exact Prod.ext e1.symm e2.symm

/-- The pairs of a request that survive. -/
def keepPair (drop : Bool) (p : Str × Str) : Bool := !(drop && (decide (p.1 = kYear) || decide (p.1 = kMonth)))

theorem keptPairs_text (drop : Bool) (words : List Str) (ps : List (Str × Str)) (hw : ∀ w ∈ words, Clean w)
    (hp : ∀ p ∈ ps, Clean p.1 ∧ Clean p.2) :
    keptPairs drop (requestText words ps) = (ps.filter (keepPair drop)).map fun p => (pairText p, p.1, p.2) := by
  rw [keptPairs, requestText, tokens_commas]
  · rw [List.filterMap_append]
    have h1 : List.filterMap (keepPiece drop) words = [] := by
      rw [List.filterMap_eq_nil_iff]
      intro w h
      rw [keepPiece, tokens_word w (hw w h)]
    rw [h1, List.nil_append]
    clear h1
    induction ps with
    | nil => rfl
    | cons p ps ih =>
      have hpp := hp p (List.mem_cons_self ..)
      have ih := ih (fun q hq => hp q (List.mem_cons_of_mem _ hq))
      rw [List.map_cons, List.filterMap_cons, List.filter_cons]
      have := tokens_pair p.1 p.2 hpp.1 hpp.2
      rw [show ((p.1, p.2) : Str × Str) = p from rfl] at this
      simp only [keepPiece, this]
      by_cases hd : (drop && (decide (p.1 = kYear) || decide (p.1 = kMonth))) = true
      · rw [if_pos hd, keepPair, hd]; exact ih
      · rw [if_neg hd, keepPair, show (drop && (decide (p.1 = kYear) || decide (p.1 = kMonth))) = false by simpa using hd]
        simp only [Bool.not_false, if_true, List.map_cons]
        rw [ih]
  · intro q hq
    rcases List.mem_append.mp hq with h | h
    · exact ⟨(hw q h).1, (hw q h).2.1⟩
    · obtain ⟨p, hpm, rfl⟩ := List.mem_map.mp h
      exact pairText_ok p (hp p hpm).1 (hp p hpm).2

/-! ## Joining -/

theorem joinCanon_nodup (l : List Str) (h : l.Nodup) : joinCanon l = commas l := by
  rcases List.eq_nil_or_concat l with rfl | ⟨init, z, rfl⟩
  · rfl
  · rw [joinCanon, List.concat_eq_append] at *
    rw [List.getLast?_append, List.getLast?_singleton]
    simp only [Option.some_or, Option.some.injEq, List.flatMap_append, List.flatMap_cons, List.flatMap_nil, if_true,
      List.append_nil]
    have hz : z ∉ init := by
      rw [List.nodup_append] at h
      intro hm
      exact h.2.2 z hm z (by simp) rfl
    clear h
    induction init with
    | nil => rfl
    | cons a as ih =>
      have ha : z ≠ a := by rintro rfl; exact hz (List.mem_cons_self ..)
      have ih := ih (fun hm => hz (List.mem_cons_of_mem _ hm))
      rw [List.flatMap_cons, if_neg ha, List.append_assoc, List.append_assoc, ih]
      cases as with
      | nil => rfl
      | cons b bs => rfl

theorem Spec.GoodPairs.texts_nodup {ps : List (Str × Str)} (h : GoodPairs ps) : (ps.map pairText).Nodup := by
  obtain ⟨hc, hn⟩ := h
  induction ps with
  | nil => exact List.nodup_nil
  | cons p ps ih =>
    rw [List.map_cons, List.nodup_cons] at hn ⊢
    refine ⟨?_, ih (fun q hq => hc q (List.mem_cons_of_mem _ hq)) hn.2⟩
    intro hm
    obtain ⟨q, hq, e⟩ := List.mem_map.mp hm
    have hp := hc p (List.mem_cons_self ..)
    have hq' := hc q (List.mem_cons_of_mem _ hq)
    have := pairText_inj q p hq'.1 hp.1 hq'.2 hp.2 e
    subst this
    exact hn.1 (List.mem_map.mpr ⟨q, hq, rfl⟩)

theorem Spec.GoodPairs.filter {ps : List (Str × Str)} (h : GoodPairs ps) (f : Str × Str → Bool) : GoodPairs (ps.filter f) :=
  ⟨fun p hp => h.1 p (List.mem_filter.mp hp).1, h.2.sublist (List.Sublist.map _ List.filter_sublist)⟩

theorem canonString_text (drop : Bool) (words : List Str) (ps : List (Str × Str)) (hw : ∀ w ∈ words, Clean w)
    (hp : GoodPairs ps) :
    canonString drop (requestText words ps) = commas (isort strLe ((ps.filter (keepPair drop)).map pairText)) := by
  rw [canonString, keptPairs_text drop words ps hw hp.1, List.map_map]
  rw [joinCanon_nodup]
  · rfl
  · exact ((isort_perm _ _).nodup_iff).mpr (hp.filter _).texts_nodup

theorem commas_inj {l l' : List Str} (h : ∀ p ∈ l, p ≠ [] ∧ ',' ∉ p) (h' : ∀ p ∈ l', p ≠ [] ∧ ',' ∉ p)
    (e : commas l = commas l') : l = l' := by
  rw [← tokens_commas l h, e, tokens_commas l' h']

theorem perm_of_map_perm {α β : Type} [DecidableEq α] [DecidableEq β] (f : α → β) {l l' : List α}
    (hf : ∀ a ∈ l ++ l', ∀ b ∈ l ++ l', f a = f b → a = b) (h : (l.map f).Perm (l'.map f)) : l.Perm l' := by
  induction l generalizing l' with
  | nil =>
    cases l' with
    | nil => exact List.Perm.refl _
    | cons b bs => exact absurd h.length_eq (by simp)
  | cons a as ih =>
    have hm : f a ∈ l'.map f := h.mem_iff.mp (by simp)
    obtain ⟨b, hb, e⟩ := List.mem_map.mp hm
    have hab : b = a := hf b (by simp [hb]) a (by simp) e
    subst hab
    have hp := List.perm_cons_erase hb
    have h2 : (as.map f).Perm ((l'.erase b).map f) := by
      have := h.trans (hp.map f)
      rw [List.map_cons, List.map_cons] at this
      exact this.cons_inv
    have := ih (l' := l'.erase b) (fun x hx y hy => hf x (by
        rcases List.mem_append.mp hx with hx | hx
        · simp [hx]
        · have := List.mem_of_mem_erase hx; simp [this]) y (by
        rcases List.mem_append.mp hy with hy | hy
        · simp [hy]
        · have := List.mem_of_mem_erase hy; simp [this])) h2
    exact (this.cons b).trans hp.symm

theorem sortedTexts_inj {ps qs : List (Str × Str)} (hp : GoodPairs ps) (hq : GoodPairs qs) :
    commas (isort strLe (ps.map pairText)) = commas (isort strLe (qs.map pairText)) ↔ ps.Perm qs := by
  constructor
  · intro e
    have ok : ∀ rs : List (Str × Str), GoodPairs rs → ∀ p ∈ isort strLe (rs.map pairText), p ≠ [] ∧ ',' ∉ p := by
      intro rs hr p hpm
      obtain ⟨q, hq, rfl⟩ := List.mem_map.mp ((isort_perm _ _).mem_iff.mp hpm)
      exact pairText_ok q (hr.1 q hq).1 (hr.1 q hq).2
    have e := commas_inj (ok ps hp) (ok qs hq) e
    have hperm : (ps.map pairText).Perm (qs.map pairText) :=
      (isort_perm strLe _).symm.trans ((List.Perm.of_eq e).trans (isort_perm strLe _))
    refine perm_of_map_perm pairText ?_ hperm
    intro a ha b hb
    have good : ∀ x ∈ ps ++ qs, Clean x.1 ∧ Clean x.2 := by
      intro x hx
      rcases List.mem_append.mp hx with h | h
      · exact hp.1 x h
      · exact hq.1 x h
    exact pairText_inj a b (good a ha).1 (good b hb).1 (good a ha).2 (good b hb).2
  · intro h
    rw [isort_perm_eq (h.map pairText)]

/-! ## Catalogue keys -/

/-- The order of the names is the order of the pieces. -/
theorem strLe_pairText (p q : Str × Str) (h : strLe p.1 q.1 = true) (hne : p.1 ≠ q.1)
    (ha : ∀ c rest, p.1 ++ c :: rest = q.1 → '='.toNat < c.toNat) : strLe (pairText p) (pairText q) = true := by
  obtain ⟨k, v⟩ := p
  obtain ⟨l, w⟩ := q
  simp only [pairText] at *
  induction k generalizing l with
  | nil =>
    cases l with
    | nil => exact absurd rfl hne
    | cons c rest =>
      rw [List.nil_append, List.cons_append, strLe_cons]
      exact Or.inl (ha c rest rfl)
  | cons x xs ih =>
    cases l with
    | nil => cases h
    | cons y ys =>
      rw [List.cons_append, List.cons_append, strLe_cons]
      rw [strLe_cons] at h
      rcases h with h | ⟨rfl, h⟩
      · exact Or.inl h
      · refine Or.inr ⟨rfl, ih ys h (fun e => hne (by rw [e])) ?_⟩
        intro c rest e
        exact ha c rest (by rw [List.cons_append, e])

/-- The pairs of a key, taken in the order of a list of names. -/
def pairsBy (key : FdbKey) (names : List Str) : List (Str × Str) :=
  names.filterMap fun k => (key.find k).bind fun v => if v = [] then none else some (k, v)

theorem pairsBy_cons (key : FdbKey) (k : Str) (ks : List Str) :
    pairsBy key (k :: ks) = match key.find k with
      | none => pairsBy key ks
      | some v => if v = [] then pairsBy key ks else (k, v) :: pairsBy key ks := by
  unfold pairsBy
  rw [List.filterMap_cons]
  cases key.find k with
  | none => rfl
  | some v =>
    simp only [Option.bind_some]
    by_cases hv : v = []
    · simp [hv]
    · simp [hv]

theorem keyLoop_eq (key : FdbKey) (names : List Str) (sep : Bool) :
    keyLoop key sep names =
      (if sep && decide (pairsBy key names ≠ []) then [','] else []) ++ commas ((pairsBy key names).map pairText) := by
  induction names generalizing sep with
  | nil => simp [keyLoop, pairsBy, commas]
  | cons k ks ih =>
    have e := pairsBy_cons key k ks
    rw [keyLoop]
    cases hf : key.find k with
    | none => rw [hf] at e; simp only [] at e ⊢; rw [ih, e]
    | some v =>
      rw [hf] at e
      simp only [] at e ⊢
      by_cases hv : v = []
      · rw [if_pos hv] at e ⊢; rw [ih, e]
      · rw [if_neg hv] at e ⊢
        rw [ih, e]
        simp only [List.map_cons, ne_eq, reduceCtorEq, not_false_eq_true, decide_true, Bool.and_true, Bool.true_and]
        cases hq : pairsBy key ks with
        | nil => simp [commas, pairText]
        | cons q qs => simp [commas, pairText]

theorem pairsBy_self (key : FdbKey) (hn : key.keys.Nodup) : pairsBy key key.keys = key.filter fun p => p.2 ≠ [] := by
  have aux : ∀ sub : FdbKey, (∀ p ∈ sub, key.find p.1 = some p.2) →
      pairsBy key sub.keys = sub.filter fun p => p.2 ≠ [] := by
    intro sub h
    induction sub with
    | nil => rfl
    | cons p sub ih =>
      have hp := h p (List.mem_cons_self ..)
      have ih := ih (fun q hq => h q (List.mem_cons_of_mem _ hq))
      rw [AMap.keys, List.map_cons, pairsBy, List.filterMap_cons, hp]
      simp only [Option.bind_some]
      rw [List.filter_cons]
      by_cases hv : p.2 = []
      · rw [if_pos hv]
        simp only [hv, ne_eq, not_true, decide_false, Bool.false_eq_true, if_false]
        exact ih
      · rw [if_neg hv]
        simp only [hv, ne_eq, not_false_eq_true, decide_true, if_true]
        have e : List.filterMap (fun k => (key.find k).bind fun v => if v = [] then none else some (k, v))
          (List.map Prod.fst sub) = List.filter (fun p => decide (p.2 ≠ [])) sub := ih
        rw [e]
  exact aux key (fun p hp => (AMap.mem_iff_find key hn p.1 p.2).mp hp)

theorem pairsBy_perm (key : FdbKey) {l l' : List Str} (h : l.Perm l') : (pairsBy key l).Perm (pairsBy key l') :=
  h.filterMap _

theorem pairsBy_filter (key : FdbKey) (l : List Str) (f : Str → Bool) :
    pairsBy key (l.filter f) = (pairsBy key l).filter fun p => f p.1 := by
  induction l with
  | nil => rfl
  | cons k ks ih =>
    rw [List.filter_cons, pairsBy_cons]
    by_cases hf : f k = true
    · rw [if_pos hf, pairsBy_cons, ih]
      cases key.find k with
      | none => rfl
      | some v =>
        simp only []
        by_cases hv : v = []
        · rw [if_pos hv, if_pos hv]
        · rw [if_neg hv, if_neg hv, List.filter_cons, if_pos hf]
    · rw [if_neg hf, ih]
      cases key.find k with
      | none => rfl
      | some v =>
        simp only []
        by_cases hv : v = []
        · rw [if_pos hv]
        · rw [if_neg hv, List.filter_cons, if_neg hf]

theorem pairsBy_name (key : FdbKey) (l : List Str) : ∀ p ∈ pairsBy key l, p.1 ∈ l := by
  intro p hp
  obtain ⟨k, hk, e⟩ := List.mem_filterMap.mp hp
  cases hf : key.find k with
  | none => rw [hf] at e; cases e
  | some v =>
    rw [hf, Option.bind_some] at e
    split at e
    · cases e
    · cases e; exact hk

/-- The pieces of a key come in the order of their text. -/
theorem pairsBy_sorted (key : FdbKey) (l : List Str) (hs : l.Pairwise (fun a b => strLe a b = true)) (hn : l.Nodup)
    (ha : NamesApart l) : ((pairsBy key l).map pairText).Pairwise (fun a b => strLe a b = true) := by
  induction l with
  | nil => exact List.Pairwise.nil
  | cons k ks ih =>
    rw [List.pairwise_cons] at hs
    rw [List.nodup_cons] at hn
    have ih := ih hs.2 hn.2 (fun a h c rest h' => ha a (List.mem_cons_of_mem _ h) c rest (List.mem_cons_of_mem _ h'))
    rw [pairsBy, List.filterMap_cons,
      show List.filterMap (fun k => (key.find k).bind fun v => if v = [] then none else some (k, v)) ks
          = pairsBy key ks from rfl]
    cases key.find k with
    | none => exact ih
    | some v =>
      simp only [Option.bind_some]
      by_cases hv : v = []
      · rw [if_pos hv]; exact ih
      · rw [if_neg hv]
        simp only [List.map_cons, List.pairwise_cons]
        refine ⟨?_, ih⟩
        intro t ht
        obtain ⟨q, hq, rfl⟩ := List.mem_map.mp ht
        have hm := pairsBy_name key ks q hq
        refine strLe_pairText _ _ (hs.1 q.1 hm) ?_ ?_
        · intro e; exact hn.1 (by rw [show k = q.1 from e]; exact hm)
        · intro c rest e
          exact ha k (List.mem_cons_self ..) c rest (by rw [show k ++ c :: rest = q.1 from e]; exact List.mem_cons_of_mem _ hm)

theorem essential_key (ig : Bool) (key : FdbKey) (hn : key.keys.Nodup) :
    ((essential ig key).filter fun p => p.2 ≠ []).Perm
      (pairsBy key (if ig && decide (kDate ∈ isort strLe key.keys) then
        (isort strLe key.keys).filter fun k => decide (k ≠ kYear) && decide (k ≠ kMonth) else isort strLe key.keys)) := by
  have hself : (pairsBy key (isort strLe key.keys)).Perm (key.filter fun p => p.2 ≠ []) := by
    rw [← pairsBy_self key hn]
    exact pairsBy_perm key (isort_perm strLe _)
  have hd : kDate ∈ isort strLe key.keys ↔ "date".toList ∈ key.map Prod.fst := (isort_perm strLe _).mem_iff
  by_cases h : ig = true ∧ "date".toList ∈ key.map Prod.fst
  · rw [essential, if_pos h, h.1, Bool.true_and, if_pos (by simpa using hd.mpr h.2)]
    rw [pairsBy_filter]
    refine List.Perm.trans ?_ (hself.filter _).symm
    rw [List.filter_filter, List.filter_filter]
    apply List.Perm.of_eq
    apply List.filter_congr
    intro p _
    rw [show "year".toList = kYear from rfl, show "month".toList = kMonth from rfl]
    by_cases h1 : p.1 = kYear <;> by_cases h2 : p.1 = kMonth <;> by_cases h3 : p.2 = [] <;> simp [h1, h2, h3]
  · rw [essential, if_neg h, if_neg (by
      intro hc
      rw [Bool.and_eq_true, decide_eq_true_iff] at hc
      exact h ⟨hc.1, hd.mp hc.2⟩)]
    exact hself.symm

theorem Spec.NamesApart.subset {l l' : List Str} (h : NamesApart l) (hs : ∀ x ∈ l', x ∈ l) : NamesApart l' :=
  fun a ha c rest h' => h a (hs a ha) c rest (hs _ h')

theorem fdbkeyToStr_eq (ig : Bool) (key : FdbKey) (hn : key.keys.Nodup) (ha : NamesApart key.keys) :
    fdbkeyToStr ig key =
      commas (isort strLe (((essential ig key).filter fun p => p.2 ≠ []).map pairText)) := by
  rw [fdbkeyToStr, keyLoop_eq]
  simp only [Bool.false_and, Bool.false_eq_true, if_false, List.nil_append]
  congr 1
  symm
  apply isort_eq_of_sorted_perm
  · apply pairsBy_sorted
    · split
      · exact (isort_strLe_sorted _).sublist List.filter_sublist
      · exact isort_strLe_sorted _
    · have h0 := ((isort_perm strLe key.keys).nodup_iff).mpr hn
      split
      · exact h0.sublist List.filter_sublist
      · exact h0
    · apply ha.subset
      intro x hx
      split at hx
      · exact (isort_perm strLe _).mem_iff.mp (List.mem_filter.mp hx).1
      · exact (isort_perm strLe _).mem_iff.mp hx
  · exact ((essential_key ig key hn).map pairText).symm

/-! ## Detecting year, month and date -/

theorem containsSub_mid (pat pre post : Str) : containsSub pat (pre ++ pat ++ post) = true := by
  induction pre with
  | nil =>
    rw [List.nil_append]
    cases pat with
    | nil => cases post <;> simp [containsSub]
    | cons c cs =>
      rw [List.cons_append, containsSub, Bool.or_eq_true]
      left
      rw [← List.cons_append, List.isPrefixOf_iff_prefix]
      exact List.prefix_append _ _
  | cons a as ih => rw [List.cons_append, List.cons_append, containsSub, ih, Bool.or_true]

theorem commas_mid (l : List Str) (x : Str) (h : x ∈ l) : ∃ pre post, commas l = pre ++ x ++ post := by
  induction l with
  | nil => cases h
  | cons p rest ih =>
    cases rest with
    | nil =>
      rw [List.mem_singleton] at h
      subst h
      exact ⟨[], [], by simp [commas]⟩
    | cons q rest =>
      rcases List.mem_cons.mp h with rfl | h
      · exact ⟨[], ',' :: commas (q :: rest), by simp [commas]⟩
      · obtain ⟨pre, post, e⟩ := ih h
        exact ⟨p ++ ',' :: pre, post, by rw [commas, e]; simp⟩

theorem containsSub_name (words : List Str) (ps : List (Str × Str)) (n : Str) (h : n ∈ ps.map Prod.fst) :
    containsSub n (requestText words ps) = true := by
  obtain ⟨p, hp, rfl⟩ := List.mem_map.mp h
  obtain ⟨pre, post, e⟩ := commas_mid (words ++ ps.map pairText) (pairText p)
    (List.mem_append.mpr (Or.inr (List.mem_map.mpr ⟨p, hp, rfl⟩)))
  rw [requestText, e, pairText]
  have : pre ++ (p.1 ++ '=' :: p.2) ++ post = pre ++ p.1 ++ ('=' :: p.2 ++ post) := by simp
  rw [this]
  exact containsSub_mid _ _ _

/-- The pairs kept are the essential ones, whether or not dropping was switched on by another request. -/
theorem kept_essential (ig drop : Bool) (words : List Str) (ps : List (Str × Str)) (hy : YearMonthTogether ps)
    (hd : drop = true → ig = true) :
    ps.filter (keepPair (drop || (ig && mentionsYearMonthDate (requestText words ps)))) = essential ig ps := by
  rcases hy with ⟨hy, hm⟩ | ⟨hy, hm, hdt⟩
  · have hall : ∀ p ∈ ps, p.1 ≠ kYear ∧ p.1 ≠ kMonth := fun p hp =>
      ⟨fun e => hy (List.mem_map.mpr ⟨p, hp, e⟩), fun e => hm (List.mem_map.mpr ⟨p, hp, e⟩)⟩
    have h1 : ps.filter (keepPair (drop || (ig && mentionsYearMonthDate (requestText words ps)))) = ps := by
      rw [List.filter_eq_self]
      intro p hp
      simp [keepPair, hall p hp]
    rw [h1, essential]
    split
    · symm
      rw [List.filter_eq_self]
      intro p hp
      have := hall p hp
      rw [show "year".toList = kYear from rfl, show "month".toList = kMonth from rfl]
      simp [this]
    · rfl
  · have hmen : mentionsYearMonthDate (requestText words ps) = true := by
      rw [mentionsYearMonthDate, containsSub_name words ps kYear hy, containsSub_name words ps kMonth hm,
        containsSub_name words ps kDate hdt]
      rfl
    rw [hmen, Bool.and_true]
    have e : (drop || ig) = ig := by
      cases drop with
      | false => rfl
      | true => rw [hd rfl]; rfl
    rw [e, essential]
    by_cases hi : ig = true
    · rw [if_pos ⟨hi, hdt⟩, hi]
      apply List.filter_congr
      intro p _
      rw [show "year".toList = kYear from rfl, show "month".toList = kMonth from rfl]
      by_cases h1 : p.1 = kYear <;> by_cases h2 : p.1 = kMonth <;> simp [keepPair, h1, h2]
    · rw [if_neg (fun h => hi h.1), show ig = false by simpa using hi, List.filter_eq_self]
      intro p _
      simp [keepPair]

end GJ
