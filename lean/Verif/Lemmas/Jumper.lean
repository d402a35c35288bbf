import Verif.Model.Jumper
import Verif.Lemmas.Bits
import Verif.Lemmas.Range

/-! Lemmas about masked extraction. -/

namespace GJ
open Spec

/-- Intervals in order from `pos`, none reversed, all within `n` points. -/
def Chain (n : Nat) : Nat → List Interval → Prop
  | _, [] => True
  | pos, i :: rest => pos ≤ i.b ∧ i.b ≤ i.e ∧ i.e ≤ n ∧ Chain n i.e rest

theorem count_take_add (bm : List Bool) (x : Bool) (b e : Nat) (h : b ≤ e) :
    (bm.take e).count x = (bm.take b).count x + ((bm.drop b).take (e - b)).count x := by
  have he : e = b + (e - b) := by omega
  conv => lhs; rw [he, List.take_add]
  rw [List.count_append]

theorem count_true_false (l : List Bool) : l.count true + l.count false = l.length := by
  induction l with
  | nil => rfl
  | cons a rest ih =>
    cases a
    · rw [List.count_cons_of_ne (by decide), List.count_cons_self, List.length_cons]; omega
    · rw [List.count_cons_self, List.count_cons_of_ne (by decide), List.length_cons]; omega

/-- The entry built for a well-placed interval or gap. -/
def extOf (bm : List Bool) (isGap : Bool) (b e : Nat) : Ext :=
  { isGap, b, e, missing := ((bm.drop b).take (e - b)).count false, bitmap := (bm.drop b).take (e - b) }

theorem mkExt_ok (bm : List Bool) (g : Bool) (b e : Nat) (h : b ≤ e) (h2 : e ≤ bm.length) :
    mkExt bm g b e = .ok (extOf bm g b e) := by
  rw [mkExt, if_pos ⟨h, h2⟩]; rfl

def gapsOf (bm : List Bool) : Nat → List Interval → List Ext
  | _, [] => []
  | pos, i :: rest => extOf bm true pos i.b :: gapsOf bm i.e rest

theorem mkGaps_ok (bm : List Bool) : ∀ (is : List Interval) (pos : Nat),
    Chain bm.length pos is → mkGaps bm pos is = .ok (gapsOf bm pos is) := by
  intro is
  induction is with
  | nil => intro pos _; rfl
  | cons i rest ih =>
    intro pos h
    obtain ⟨h1, h2, h3, h4⟩ := h
    rw [mkGaps, mkExt_ok bm true pos i.b h1 (by omega), ok_bind, ih _ h4, ok_bind]
    rfl

theorem chain_mem {n pos : Nat} {is : List Interval} (h : Chain n pos is) :
    ∀ i ∈ is, pos ≤ i.b ∧ i.b ≤ i.e ∧ i.e ≤ n := by
  induction is generalizing pos with
  | nil => simp
  | cons j rest ih =>
    obtain ⟨h1, h2, h3, h4⟩ := h
    intro i hi
    rcases List.mem_cons.mp hi with rfl | hi
    · exact ⟨h1, h2, h3⟩
    · have := ih h4 i hi; omega

/-- Expected output for one interval. -/
def maskedOf (bm : List Bool) (i : Interval) : Interval × List Bool :=
  (⟨(bm.take i.b).count true, (bm.take i.e).count true⟩, (bm.drop i.b).take (i.e - i.b))

/-- A gap without points. -/
def EmptyGap (x : Ext) (pos : Nat) : Prop := x.isGap = true ∧ x.missing = 0 ∧ x.b ≤ pos

theorem maskedOut_emptyGaps (gs : List Ext) (cum : Nat) (h : ∀ g ∈ gs, g.isGap = true) :
    maskedOut cum gs = [] := by
  induction gs generalizing cum with
  | nil => rfl
  | cons g rest ih =>
    rw [maskedOut, if_pos (h g (by simp))]
    exact ih _ (fun x hx => h x (by simp [hx]))

theorem maskedOut_interval (bm : List Bool) (i : Interval) (rest : List Ext)
    (h : i.b ≤ i.e) (hn : i.e ≤ bm.length) :
    maskedOut ((bm.take i.b).count false) (extOf bm false i.b i.e :: rest) =
      maskedOf bm i :: maskedOut ((bm.take i.e).count false) rest := by
  rw [maskedOut]
  have hg : (extOf bm false i.b i.e).isGap = false := rfl
  rw [hg]
  have hm : (extOf bm false i.b i.e).missing = ((bm.drop i.b).take (i.e - i.b)).count false := rfl
  have hadd := count_take_add bm false i.b i.e h
  simp only [Bool.false_eq_true, if_false, hm, ← hadd]
  congr 1
  have t1 := count_true_false (bm.take i.b)
  have t2 := count_true_false (bm.take i.e)
  rw [List.length_take] at t1 t2
  simp only [maskedOf, extOf]
  congr 2 <;> omega

/-- Main lemma: whatever empty gaps are still pending, each interval gets the number of missing
points before it. -/
theorem maskedOut_merge (bm : List Bool) : ∀ (is : List Interval) (pos : Nat) (E : List Ext),
    Chain bm.length pos is → (∀ g ∈ E, EmptyGap g pos) →
    maskedOut ((bm.take pos).count false)
      (mergeExt (is.map fun i => extOf bm false i.b i.e) (E ++ gapsOf bm pos is)) =
      is.map (maskedOf bm) := by
  intro is
  induction is with
  | nil =>
    intro pos E _ hE
    simp only [List.map_nil, gapsOf, List.append_nil, mergeExt]
    exact maskedOut_emptyGaps _ _ (fun g hg => (hE g hg).1)
  | cons i rest ih =>
    intro pos E hc
    obtain ⟨h1, h2, h3, h4⟩ := hc
    -- once the interval itself is at the front
    have takeI : ∀ (gs : List Ext), (∀ g, gs.head? = some g → i.b ≤ g.b) →
        mergeExt (extOf bm false i.b i.e :: rest.map (fun i => extOf bm false i.b i.e)) gs =
          extOf bm false i.b i.e :: mergeExt (rest.map (fun i => extOf bm false i.b i.e)) gs := by
      intro gs hg
      cases gs with
      | nil =>
        rw [mergeExt]
        cases rest with
        | nil => simp [mergeExt]
        | cons j r => simp [mergeExt]
      | cons g gs' =>
        rw [mergeExt, if_neg]
        have := hg g rfl
        have hb : (extOf bm false i.b i.e).b = i.b := rfl
        rw [hb]; omega
    induction E with
    | nil =>
      intro _
      simp only [List.nil_append, gapsOf, List.map_cons]
      by_cases hlt : pos < i.b
      · rw [mergeExt, if_pos (show (extOf bm true pos i.b).b < (extOf bm false i.b i.e).b from hlt),
          maskedOut, if_pos (show (extOf bm true pos i.b).isGap = true from rfl)]
        have hadd := count_take_add bm false pos i.b h1
        have hm : (extOf bm true pos i.b).missing = ((bm.drop pos).take (i.b - pos)).count false := rfl
        rw [hm, ← hadd, takeI, maskedOut_interval bm i _ h2 h3]
        · have := ih i.e [] h4 (by simp)
          rw [List.nil_append] at this
          rw [this]
        · intro g hg
          cases rest with
          | nil => simp [gapsOf] at hg
          | cons j r =>
            simp only [gapsOf, List.head?_cons, Option.some.injEq] at hg
            subst hg
            exact h2
      · have hpe : pos = i.b := by omega
        subst hpe
        rw [takeI, maskedOut_interval bm i _ h2 h3]
        · have := ih i.e [extOf bm true i.b i.b] h4 (by
            intro g hg
            simp only [List.mem_singleton] at hg
            subst hg
            exact ⟨rfl, by simp [extOf], h2⟩)
          rw [List.singleton_append] at this
          rw [this]
        · intro g hg
          simp only [List.head?_cons, Option.some.injEq] at hg
          subst hg
          exact Nat.le_refl _
    | cons g E' ihE =>
      intro hE
      have hg := hE g (by simp)
      by_cases hlt : g.b < i.b
      · rw [List.map_cons, List.cons_append, mergeExt,
          if_pos (show g.b < (extOf bm false i.b i.e).b from hlt), maskedOut, if_pos hg.1, hg.2.1,
          Nat.add_zero]
        have := ihE (fun x hx => hE x (by simp [hx]))
        rwa [List.map_cons] at this
      · have hpe : pos = i.b := by have := hg.2.2; omega
        subst hpe
        rw [List.map_cons, takeI, maskedOut_interval bm i _ h2 h3]
        · simp only [gapsOf, List.map_cons]
          have := ih i.e (g :: E' ++ [extOf bm true i.b i.b]) h4 (by
            intro x hx
            rcases List.mem_append.mp hx with hx | hx
            · have := hE x hx
              exact ⟨this.1, this.2.1, by have := this.2.2; omega⟩
            · simp only [List.mem_singleton] at hx
              subst hx
              exact ⟨rfl, by simp [extOf], h2⟩)
          rw [List.append_assoc, List.singleton_append] at this
          rw [this]
        · intro x hx
          simp only [List.cons_append, List.head?_cons, Option.some.injEq] at hx
          subst hx
          omega

theorem mapM_mkExt (bm : List Bool) (is : List Interval) (pos : Nat) (h : Chain bm.length pos is) :
    is.mapM (fun i => mkExt bm false i.b i.e) = .ok (is.map fun i => extOf bm false i.b i.e) := by
  apply mapM_ok
  intro i hi
  have := chain_mem h i hi
  exact mkExt_ok bm false i.b i.e this.2.1 this.2.2

/-- `calculateMaskedIntervals` on well-formed intervals. -/
theorem maskedIntervals_spec (bm : List Bool) (is : List Interval) (hne : is ≠ [])
    (h : Chain bm.length 0 is) :
    calculateMaskedIntervals is bm =
      .ok (is.map fun i => ⟨(bm.take i.b).count true, (bm.take i.e).count true⟩,
        is.map fun i => (bm.drop i.b).take (i.e - i.b)) := by
  rw [calculateMaskedIntervals, if_neg hne, mapM_mkExt bm is 0 h, ok_bind, mkGaps_ok bm is 0 h, ok_bind]
  have := maskedOut_merge bm is 0 [] h (by simp)
  simp only [List.nil_append, List.take_zero, List.count_nil] at this
  simp only [this, List.map_map]
  rfl

/-- Values placed on a bitmap. -/
theorem placeValues_ok {V : Type} (nan : V) : ∀ (bm : List Bool) (vs : List V),
    bm.count true ≤ vs.length → placeValues nan bm vs = .ok (spread nan bm vs) := by
  intro bm
  induction bm with
  | nil => intro vs _; rfl
  | cons b rest ih =>
    intro vs h
    cases b with
    | false =>
      rw [List.count_cons_of_ne (by decide)] at h
      rw [placeValues, ih vs h, ok_bind]; rfl
    | true =>
      rw [List.count_cons_self] at h
      cases vs with
      | nil => simp at h
      | cons v vs' =>
        rw [List.length_cons] at h
        rw [placeValues, ih vs' (by omega), ok_bind]; rfl

theorem spread_length {V : Type} (nan : V) : ∀ (bm : List Bool) (vs : List V),
    bm.count true ≤ vs.length → (spread nan bm vs).length = bm.length := by
  intro bm
  induction bm with
  | nil => intro vs _; rfl
  | cons b rest ih =>
    intro vs h
    cases b with
    | false =>
      rw [List.count_cons_of_ne (by decide)] at h
      simp [spread, ih vs h]
    | true =>
      rw [List.count_cons_self] at h
      cases vs with
      | nil => simp at h
      | cons v vs' =>
        rw [List.length_cons] at h
        simp [spread, ih vs' (by omega)]

theorem spread_drop {V : Type} (nan : V) : ∀ (k : Nat) (bm : List Bool) (vs : List V),
    bm.count true ≤ vs.length →
    (spread nan bm vs).drop k = spread nan (bm.drop k) (vs.drop ((bm.take k).count true)) := by
  intro k
  induction k with
  | zero => intro bm vs _; simp
  | succ k ih =>
    intro bm vs h
    cases bm with
    | nil => simp [spread]
    | cons b rest =>
      cases b with
      | false =>
        rw [List.count_cons_of_ne (by decide)] at h
        simp only [spread, List.drop_succ_cons, List.take_succ_cons]
        rw [ih rest vs h, List.count_cons_of_ne (by decide)]
      | true =>
        rw [List.count_cons_self] at h
        cases vs with
        | nil => simp at h
        | cons v vs' =>
          rw [List.length_cons] at h
          simp only [spread, List.drop_succ_cons, List.take_succ_cons]
          rw [ih rest vs' (by omega), List.count_cons_self, List.drop_succ_cons]

theorem spread_take {V : Type} (nan : V) : ∀ (k : Nat) (bm : List Bool) (vs : List V),
    bm.count true ≤ vs.length →
    (spread nan bm vs).take k = spread nan (bm.take k) (vs.take ((bm.take k).count true)) := by
  intro k
  induction k with
  | zero => intro bm vs _; simp [spread]
  | succ k ih =>
    intro bm vs h
    cases bm with
    | nil => simp [spread]
    | cons b rest =>
      cases b with
      | false =>
        rw [List.count_cons_of_ne (by decide)] at h
        simp only [spread, List.take_succ_cons]
        rw [ih rest vs h, List.count_cons_of_ne (by decide)]
      | true =>
        rw [List.count_cons_self] at h
        cases vs with
        | nil => simp at h
        | cons v vs' =>
          rw [List.length_cons] at h
          simp only [spread, List.take_succ_cons]
          rw [ih rest vs' (by omega), List.count_cons_self, List.take_succ_cons]
          rfl

theorem count_drop_le (bm : List Bool) (k : Nat) :
    (bm.take k).count true + (bm.drop k).count true = bm.count true := by
  rw [← List.count_append, List.take_append_drop]

/-- Placing the values of an interval equals slicing the placed field. -/
theorem spread_slice {V : Type} (nan : V) (bm : List Bool) (vs : List V) (b n : Nat)
    (h : bm.count true ≤ vs.length) :
    spread nan (slice bm b n) (slice vs ((bm.take b).count true) ((slice bm b n).count true)) =
      slice (spread nan bm vs) b n := by
  simp only [slice]
  rw [spread_drop nan b bm vs h, spread_take]
  rw [List.length_drop]
  have := count_drop_le bm b
  omega

theorem ordered_chain (n : Nat) (is : List Interval) (ho : ordered is = true)
    (hw : ∀ i ∈ is, i.b ≤ i.e ∧ i.e ≤ n) : Chain n 0 is := by
  have gen : ∀ (is : List Interval) (pos : Nat), ordered is = true →
      (∀ i ∈ is, i.b ≤ i.e ∧ i.e ≤ n) → (∀ i, is.head? = some i → pos ≤ i.b) → Chain n pos is := by
    intro is
    induction is with
    | nil => intro _ _ _ _; exact True.intro
    | cons i rest ih =>
      intro pos ho hw hh
      have hi := hw i (by simp)
      refine ⟨hh i rfl, hi.1, hi.2, ?_⟩
      cases rest with
      | nil => exact True.intro
      | cons j r =>
        simp only [ordered, Bool.and_eq_true, decide_eq_true_eq] at ho
        exact ih i.e ho.2 (fun x hx => hw x (by simp [hx])) (by
          intro x hx
          simp only [List.head?_cons, Option.some.injEq] at hx
          subst hx; exact ho.1)
  exact gen is 0 ho hw (by intro i _; omega)

theorem wsub_eq (x y : Nat) (h : y ≤ x) (hx : x < 2 ^ 64) : wsub x y = x - y := by
  simp only [wsub]; omega

/-- Bits of a mask word. -/
theorem bitsetWord_testBit (bm : List Bool) (i k : Nat) :
    (bitsetWord bm i).testBit k = (decide (k < 64) && (bm[i * 64 + k]?.getD false)) := by
  have gen : ∀ n : Nat, ((List.range n).foldl
      (fun acc j => if bm[i * 64 + j]? = some true then acc ||| 2 ^ j else acc) 0).testBit k =
      (decide (k < n) && (bm[i * 64 + k]?.getD false)) := by
    intro n
    induction n with
    | zero => simp
    | succ n ih =>
      rw [List.range_succ, List.foldl_append, List.foldl_cons, List.foldl_nil]
      generalize hacc : (List.range n).foldl
        (fun acc j => if bm[i * 64 + j]? = some true then acc ||| 2 ^ j else acc) 0 = acc at ih ⊢
      by_cases hb : bm[i * 64 + n]? = some true
      · rw [if_pos hb, Nat.testBit_or, ih, Nat.testBit_two_pow]
        by_cases hk : n = k
        · subst hk; simp [hb]
        · have : (decide (k < n + 1)) = decide (k < n) := by
            simp only [decide_eq_decide]; omega
          rw [this]; simp [hk]
      · rw [if_neg hb, ih]
        by_cases hk : n = k
        · subst hk
          cases hx : bm[i * 64 + n]? with
          | none => simp
          | some x =>
            cases x
            · simp
            · exact absurd hx hb
        · have : (decide (k < n + 1)) = decide (k < n) := by
            simp only [decide_eq_decide]; omega
          rw [this]
  exact gen 64

end GJ
