import Verif.Model.Plugin
import Verif.Spec.Plugin
import Verif.Props.C15
import Verif.Props.C18
import Verif.Lemmas.Aec
import Verif.Lemmas.Engine
import Verif.Props.C34

/-!
# C33: archived fields are in the index after a flush
-/

namespace GJ

open Spec

/-! ## Flushing -/

theorem flushLoop_append (st : AMap String InfoMap) : ∀ (fs : FS) (es : String → List (Nat × Info)),
    (AMap.keys st).Nodup → (∀ x ∈ st, ∃ l, x.2 = noNull l) → (∀ ip, Holds fs ip (es ip)) →
    ∃ (fs' : FS) (add : String → List (Nat × Info)), flushLoop true fs st = .ok fs' ∧ (∀ ip, Holds fs' ip (es ip ++ add ip)) ∧
      (∀ ip m, AMap.find st ip = some m → m = noNull (add ip)) ∧ (∀ ip, AMap.find st ip = none → add ip = []) := by
  induction st with
  | nil =>
    intro fs es _ _ h
    exact ⟨fs, fun _ => [], rfl, fun ip => by rw [List.append_nil]; exact h ip, fun ip m e => (by cases e), fun _ _ => rfl⟩
  | cons x rest ih =>
    intro fs es hn hl h
    obtain ⟨p, m⟩ := x
    obtain ⟨l, hml⟩ := hl (p, m) (.head _)
    simp only at hml
    subst hml
    simp only [AMap.keys, List.map_cons, List.nodup_cons] at hn
    obtain ⟨fs1, h1, h2, h3⟩ := (h p).append l
    obtain ⟨fs', add, g1, g2, g3, g4⟩ := ih fs1 (fun q => if q = p then es p ++ l else es q) hn.2
      (fun y hy => hl y (.tail _ hy)) (fun q => by
        by_cases hq : q = p
        · subst hq; simpa using h2
        · simp only [if_neg hq]
          have := h q
          rw [Holds] at this ⊢
          rw [h3 q hq]; exact this)
    have hp : AMap.find rest p = none := (AMap.find_eq_none_iff rest p).mpr hn.1
    refine ⟨fs', fun q => if q = p then l else add q, ?_, ?_, ?_, ?_⟩
    · rw [flushLoop, flushIndex, if_pos rfl, h1, ok_bind]; exact g1
    · intro q
      have := g2 q
      by_cases hq : q = p
      · subst hq; simp only [if_true] at this ⊢; rw [g4 q hp, List.append_nil] at this; exact this
      · simp only [if_neg hq] at this ⊢; exact this
    · intro q m hm
      rw [AMap.find] at hm
      by_cases hq : q = p
      · subst hq; simp only [if_true] at hm ⊢; exact (Option.some.inj hm).symm
      · rw [if_neg (fun e => hq e.symm)] at hm; simp only [if_neg hq]; exact g3 q m hm
    · intro q hm
      rw [AMap.find] at hm
      by_cases hq : q = p
      · subst hq; simp at hm
      · rw [if_neg (fun e => hq e.symm)] at hm; simp only [if_neg hq]; exact g4 q hm

/-! ## The invariant -/

/-- A field whose metadata the plugin is to put in the index: selected, and GRIB. -/
def Wanted (E : PlugEnv) (sel : List (Str × Str)) (f : ArchField) : Prop :=
  matchesKey E sel f.key = .ok true ∧ f.data.take 4 = gribMark

/-- The metadata `i` for offset `o` in the index file `ip` comes from an archived field that is wanted. -/
def FromField (E : PlugEnv) (s : PlugSys) (ip : String) (o : Nat) (i : Info) : Prop :=
  ∃ n f p, (n, f) ∈ s.archived ∧ Wanted E s.dict f ∧ E.build f.data = .ok i ∧ f.loc = some (p, o) ∧
    s.c.mode.indexPath p = ip

/-- Where the metadata of an archived field is. -/
def Whereabouts (s : PlugSys) (es : String → List (Nat × Info)) (n : Nat) (f : ArchField) (i : Info) : Prop :=
  (∃ a, s.aggs n = some a ∧ ((f, i) ∈ a.queue ∨ a.holding = some (f, i))) ∨
  (s.aggs n ≠ none ∧ ∃ p o m, f.loc = some (p, o) ∧ s.c.staged.find (s.c.mode.indexPath p) = some m ∧
    o ∈ AMap.keys m) ∨
  (∃ p o, f.loc = some (p, o) ∧ o ∈ AMap.keys (es (s.c.mode.indexPath p)))

structure PInv (E : PlugEnv) (old es : String → List (Nat × Info)) (s : PlugSys) : Prop where
  holds : ∀ ip, Holds s.c.fs ip (es ip)
  entries : ∀ ip x, x ∈ es ip → x ∈ old ip ∨ FromField E s ip x.1 x.2
  stagedKeys : (AMap.keys s.c.staged).Nodup
  staged : ∀ x ∈ s.c.staged, ∃ l, x.2 = noNull l ∧ ∀ y ∈ l, FromField E s x.1 y.1 y.2
  done : ∀ n f, (n, f) ∈ s.archived → Wanted E s.dict f → ∃ i, E.build f.data = .ok i ∧ Whereabouts s es n f i
  pending : ∀ n a x, s.aggs n = some a → x ∈ a.queue ∨ a.holding = some x →
    (n, x.1) ∈ s.archived ∧ Wanted E s.dict x.1 ∧ E.build x.1.data = .ok x.2
  exited : ∀ n a, s.aggs n = some a → a.exited = true → a.closed = true ∧ a.queue = [] ∧ a.holding = none

theorem FromField.mono {E : PlugEnv} {s s' : PlugSys} {ip : String} {o : Nat} {i : Info} (h : FromField E s ip o i)
    (hd : s'.dict = s.dict) (hm : s'.c.mode = s.c.mode) (ha : ∀ x ∈ s.archived, x ∈ s'.archived) :
    FromField E s' ip o i := by
  obtain ⟨n, f, p, h1, h2, h3, h4, h5⟩ := h
  exact ⟨n, f, p, ha _ h1, hd ▸ h2, h3, h4, hm ▸ h5⟩

theorem PlugSys.aggs_setAgg (s : PlugSys) (n : Nat) (a : Option Agg) (k : Nat) :
    (s.setAgg n a).aggs k = if k = n then a else s.aggs k := rfl

theorem PlugSys.done_aggs (s : PlugSys) (n : Nat) (f : ArchField) : (s.done n f).aggs = s.aggs := rfl

/-- Changing one aggregator and adding at most one archived field, with the cache left alone. -/
theorem PInv.change {E : PlugEnv} {old es : String → List (Nat × Info)} {s : PlugSys} (h : PInv E old es s)
    (s' : PlugSys) (n : Nat) (a : Agg) (hc : s'.c = s.c) (hd : s'.dict = s.dict)
    (ha : ∀ k, s'.aggs k = if k = n then some a else s.aggs k) (hsub : ∀ x ∈ s.archived, x ∈ s'.archived)
    (hnew : ∀ x ∈ s'.archived, x ∈ s.archived ∨ (x.1 = n ∧ (Wanted E s.dict x.2 → ∃ i, E.build x.2.data = .ok i ∧
      ((x.2, i) ∈ a.queue ∨ a.holding = some (x.2, i)))))
    (hkeep : ∀ b, s.aggs n = some b → ∀ x, x ∈ b.queue ∨ b.holding = some x → x ∈ a.queue ∨ a.holding = some x)
    (hpend : ∀ x, x ∈ a.queue ∨ a.holding = some x → (n, x.1) ∈ s'.archived ∧ Wanted E s.dict x.1 ∧
      E.build x.1.data = .ok x.2)
    (hex : a.exited = true → a.closed = true ∧ a.queue = [] ∧ a.holding = none) : PInv E old es s' := by
  have hff : ∀ {ip o i}, FromField E s ip o i → FromField E s' ip o i := fun hf => hf.mono hd (by rw [hc]) hsub
  constructor
  · rw [hc]; exact h.holds
  · intro ip x hx
    exact (h.entries ip x hx).imp id hff
  · rw [hc]; exact h.stagedKeys
  · rw [hc]; intro x hx
    obtain ⟨l, h1, h2⟩ := h.staged x hx
    exact ⟨l, h1, fun y hy => hff (h2 y hy)⟩
  · intro k f hf hw
    rw [hd] at hw
    rcases hnew _ hf with hf' | ⟨e, hi⟩
    · obtain ⟨i, hb, hwh⟩ := h.done k f hf' hw
      refine ⟨i, hb, ?_⟩
      rcases hwh with ⟨b, hb1, hb2⟩ | ⟨hne, p, o, m, h1, h2, h3⟩ | hidx
      · left
        by_cases hk : k = n
        · subst hk
          exact ⟨a, by rw [ha, if_pos rfl], hkeep b hb1 _ hb2⟩
        · exact ⟨b, by rw [ha, if_neg hk]; exact hb1, hb2⟩
      · right; left
        refine ⟨?_, p, o, m, h1, by rw [hc]; exact h2, h3⟩
        rw [ha]; split
        · simp
        · exact hne
      · right; right; rw [hc]; exact hidx
    · obtain ⟨i, hb, hq⟩ := hi hw
      simp only at e
      subst e
      exact ⟨i, hb, .inl ⟨a, by rw [ha, if_pos rfl], hq⟩⟩
  · intro k b x hb hx
    rw [ha] at hb
    rw [hd]
    by_cases hk : k = n
    · rw [if_pos hk] at hb; cases hb; subst hk; exact hpend x hx
    · rw [if_neg hk] at hb
      obtain ⟨h1, h2⟩ := h.pending k b x hb hx
      exact ⟨hsub _ h1, h2⟩
  · intro k b hb he
    rw [ha] at hb
    by_cases hk : k = n
    · rw [if_pos hk] at hb; cases hb; exact hex he
    · rw [if_neg hk] at hb; exact h.exited k b hb he

/-- Adding an archived field that is not wanted. -/
theorem PInv.skip {E : PlugEnv} {old es : String → List (Nat × Info)} {s : PlugSys} (h : PInv E old es s) (n : Nat)
    (f : ArchField) (hw : ¬ Wanted E s.dict f) : PInv E old es (s.done n f) := by
  have hsub : ∀ x ∈ s.archived, x ∈ (s.done n f).archived := fun x hx => List.mem_append_left _ hx
  constructor
  · exact h.holds
  · intro ip x hx
    exact (h.entries ip x hx).imp id (fun g => g.mono rfl rfl hsub)
  · exact h.stagedKeys
  · intro x hx
    obtain ⟨l, h1, h2⟩ := h.staged x hx
    exact ⟨l, h1, fun y hy => (h2 y hy).mono rfl rfl hsub⟩
  · intro k g hg hgw
    rcases List.mem_append.mp hg with hg | hg
    · exact h.done k g hg hgw
    · rw [List.mem_singleton] at hg
      cases hg
      exact absurd hgw hw
  · intro k b x hb hx
    obtain ⟨h1, h2⟩ := h.pending k b x hb hx
    exact ⟨hsub _ h1, h2⟩
  · exact h.exited

theorem getD_queue {s : PlugSys} {n : Nat} (b : Agg) (h : s.aggs n = some b) : (s.aggs n).getD .new = b := by
  rw [h]; rfl

theorem PInv.archive {E : PlugEnv} {old es : String → List (Nat × Info)} {s s' : PlugSys} (h : PInv E old es s)
    (n : Nat) (f : ArchField) (hs : stepArchive E s n f = .ok s') : PInv E old es s' := by
  have hfresh : ∀ x, x ∈ ((s.aggs n).getD .new).queue ∨ ((s.aggs n).getD .new).holding = some x →
      ∃ b, s.aggs n = some b ∧ (x ∈ b.queue ∨ b.holding = some x) := by
    intro x hx
    cases hb : s.aggs n with
    | none => rw [hb] at hx; simp [Agg.new] at hx
    | some b => rw [hb] at hx; exact ⟨b, rfl, hx⟩
  have hexit : ((s.aggs n).getD .new).exited = true →
      ((s.aggs n).getD .new).closed = true ∧ ((s.aggs n).getD .new).queue = [] ∧
        ((s.aggs n).getD .new).holding = none := by
    intro he
    cases hb : s.aggs n with
    | none => rw [hb] at he; cases he
    | some b => rw [hb] at he; exact h.exited n b hb he
  have htouch : PInv E old es (s.setAgg n (some ((s.aggs n).getD .new))) := by
    refine h.change _ n ((s.aggs n).getD .new) rfl rfl (fun _ => rfl) (fun _ hx => hx) (fun _ hx => .inl hx) ?_ ?_ hexit
    · intro b hb x hx; rw [hb]; exact hx
    · intro x hx
      obtain ⟨b, hb, hx⟩ := hfresh x hx
      exact h.pending n b x hb hx
  rw [stepArchive] at hs
  cases hm : matchesKey E s.dict f.key with
  | error e =>
    rw [hm] at hs
    cases e with
    | ub => cases hs
    | exn e => cases hs; exact h
  | ok sel =>
    rw [hm] at hs
    simp only at hs
    split at hs
    · rename_i hsel
      cases hs
      refine h.skip n f ?_
      rintro ⟨hw1, hw2⟩
      rw [hm] at hw1
      cases hw1
      simp only [Bool.not_true, Bool.false_or, decide_eq_true_eq] at hsel
      have := congrArg List.length hw2
      simp [gribMark] at this
      omega
    · rename_i hsel
      have hsel' : sel = true := by
        cases sel with
        | true => rfl
        | false => simp at hsel
      subst hsel'
      split at hs
      · cases hs; exact h
      · rename_i hcl
        split at hs
        · rename_i hg
          cases hs
          refine htouch.skip n f ?_
          rintro ⟨-, hw2⟩
          simp [isGrib, hw2] at hg
        · rename_i hg
          have hw : Wanted E s.dict f := ⟨hm, by simpa [isGrib] using hg⟩
          cases hb : E.build f.data with
          | error e =>
            rw [hb] at hs
            cases e with
            | ub => cases hs
            | exn e => cases hs; exact htouch
          | ok i =>
            rw [hb] at hs
            simp only at hs
            split at hs
            · cases hs; exact h
            · cases hs
              refine h.change _ n { (s.aggs n).getD .new with queue := ((s.aggs n).getD .new).queue ++ [(f, i)] } rfl rfl
                (fun _ => rfl) (fun x hx => List.mem_append_left _ hx) ?_ ?_ ?_ ?_
              · intro x hx
                rcases List.mem_append.mp hx with hx | hx
                · exact .inl hx
                · rw [List.mem_singleton] at hx
                  subst hx
                  exact .inr ⟨rfl, fun _ => ⟨i, hb, .inl (by simp)⟩⟩
              · intro b hb' x hx
                rw [getD_queue b hb']
                exact hx.imp (List.mem_append_left _) id
              · intro x hx
                have : x = (f, i) ∨ (x ∈ ((s.aggs n).getD .new).queue ∨ ((s.aggs n).getD .new).holding = some x) := by
                  rcases hx with hx | hx
                  · rcases List.mem_append.mp hx with hx | hx
                    · exact .inr (.inl hx)
                    · exact .inl (by simpa using hx)
                  · exact .inr (.inr hx)
                rcases this with rfl | hx
                · exact ⟨List.mem_append_right _ (.head _), hw, hb⟩
                · obtain ⟨b, hb', hx⟩ := hfresh x hx
                  obtain ⟨h1, h2⟩ := h.pending n b x hb' hx
                  exact ⟨List.mem_append_left _ h1, h2⟩
              · intro he
                exfalso
                have he' : ((s.aggs n).getD .new).exited = true := he
                exact hcl (hexit he').1

theorem PInv.take {E : PlugEnv} {old es : String → List (Nat × Info)} {s : PlugSys} (h : PInv E old es s)
    (n : Nat) : PInv E old es (stepTake s n) := by
  rw [stepTake]
  split
  · rename_i x rest cl ha
    refine h.change _ n ⟨rest, cl, some x, false⟩ rfl rfl (fun _ => rfl) (fun _ hx => hx) (fun _ hx => .inl hx)
      ?_ ?_ (fun e => (by cases e))
    · intro b hb y hy
      rw [ha] at hb; cases hb
      simp only [List.mem_cons, reduceCtorEq, or_false] at hy
      rcases hy with rfl | hy
      · exact .inr rfl
      · exact .inl hy
    · intro y hy
      refine h.pending n _ y ha ?_
      rcases hy with hy | hy
      · exact .inl (.tail _ hy)
      · cases hy; exact .inl (.head _)
  · exact h

theorem PInv.quit {E : PlugEnv} {old es : String → List (Nat × Info)} {s : PlugSys} (h : PInv E old es s)
    (n : Nat) : PInv E old es (stepQuit s n) := by
  rw [stepQuit]
  split
  · rename_i ex ha
    refine h.change _ n ⟨[], true, none, true⟩ rfl rfl (fun _ => rfl) (fun _ hx => hx) (fun _ hx => .inl hx)
      ?_ ?_ (fun _ => ⟨rfl, rfl, rfl⟩)
    · intro b hb y hy
      rw [ha] at hb; cases hb; exact hy
    · intro y hy; simp at hy
  · exact h

theorem PInv.close {E : PlugEnv} {old es : String → List (Nat × Info)} {s : PlugSys} (h : PInv E old es s)
    (n : Nat) : PInv E old es (stepClose s n) := by
  rw [stepClose]
  split
  · rename_i a ha
    refine h.change _ n { a with closed := true } rfl rfl (fun _ => rfl) (fun _ hx => hx) (fun _ hx => .inl hx)
      ?_ ?_ (fun e => ⟨rfl, (h.exited n a ha e).2⟩)
    · intro b hb y hy
      rw [ha] at hb; cases hb; exact hy
    · intro y hy
      exact h.pending n a y ha hy
  · exact h

theorem Cache.insert_find (c : Cache) (p : String) (o : Nat) (i : Info) (q : String) :
    (c.insert p o i).staged.find q = if c.mode.indexPath p = q then
      some (AMap.insert ((c.staged.find (c.mode.indexPath p)).getD []) o (some i)) else c.staged.find q := by
  rw [Cache.insert]
  split
  · rename_i m hm
    simp only [AMap.find_set, hm, Option.getD_some]
  · rename_i hm
    simp only [AMap.find_set, hm, Option.getD_none]

theorem Cache.insert_fs (c : Cache) (p : String) (o : Nat) (i : Info) :
    (c.insert p o i).fs = c.fs ∧ (c.insert p o i).mode = c.mode ∧
      ((AMap.keys c.staged).Nodup → (AMap.keys (c.insert p o i).staged).Nodup) := by
  rw [Cache.insert]
  split
  · exact ⟨rfl, rfl, AMap.nodup_set _ _ _⟩
  · exact ⟨rfl, rfl, AMap.nodup_set _ _ _⟩

theorem mem_keys_insert {V : Type} (m : AMap Nat V) (k x : Nat) (v : V) :
    x ∈ AMap.keys (AMap.insert m k v) ↔ x = k ∨ x ∈ AMap.keys m := by
  rw [AMap.keys_insert]
  split
  · constructor
    · exact .inr
    · rintro (rfl | h) <;> assumption
  · rw [List.mem_append, List.mem_singleton]; exact or_comm

theorem PInv.store {E : PlugEnv} {old es : String → List (Nat × Info)} {s s' : PlugSys} (h : PInv E old es s)
    (n : Nat) (hs : stepStore s n = .ok s') : PInv E old es s' := by
  rw [stepStore] at hs
  split at hs
  · rename_i q cl f i ex ha
    split at hs
    · cases hs
    · rename_i p o hl
      cases hs
      obtain ⟨hfs, hmode, hkeys⟩ := s.c.insert_fs p o i
      have hpf := h.pending n _ (f, i) ha (.inr rfl)
      have hsrc : FromField E s (s.c.mode.indexPath p) o i := ⟨n, f, p, hpf.1, hpf.2.1, hpf.2.2, hl, rfl⟩
      have hff : ∀ {ip o' i'}, FromField E s ip o' i' →
          FromField E (({ s with c := s.c.insert p o i } : PlugSys).setAgg n (some ⟨q, cl, none, ex⟩)) ip o' i' :=
        fun g => g.mono rfl hmode (fun _ hx => hx)
      have hstag : ∀ {p' o' m}, s.c.staged.find (s.c.mode.indexPath p') = some m → o' ∈ AMap.keys m →
          ∃ m', (s.c.insert p o i).staged.find (s.c.mode.indexPath p') = some m' ∧ o' ∈ AMap.keys m' := by
        intro p' o' m hm ho
        rw [Cache.insert_find]
        split
        · rename_i e
          rw [e, hm]
          exact ⟨_, rfl, (mem_keys_insert _ _ _ _).mpr (.inr ho)⟩
        · exact ⟨m, hm, ho⟩
      constructor
      · show ∀ ip, Holds (s.c.insert p o i).fs ip (es ip)
        rw [hfs]; exact h.holds
      · intro ip x hx
        exact (h.entries ip x hx).imp id hff
      · exact hkeys h.stagedKeys
      · intro x hx
        have hx' := (AMap.mem_iff_find _ (hkeys h.stagedKeys) x.1 x.2).mp hx
        rw [Cache.insert_find] at hx'
        split at hx'
        · rename_i e
          have hl0 : ∃ l, (s.c.staged.find (s.c.mode.indexPath p)).getD [] = noNull l ∧
              ∀ y ∈ l, FromField E s (s.c.mode.indexPath p) y.1 y.2 := by
            cases hfi : s.c.staged.find (s.c.mode.indexPath p) with
            | none => exact ⟨[], rfl, fun y hy => (by cases hy)⟩
            | some m => exact h.staged (_, m) ((AMap.mem_iff_find _ h.stagedKeys _ _).mpr hfi)
          obtain ⟨l, hl1, hl2⟩ := hl0
          rw [hl1, insert_noNull] at hx'
          refine ⟨_, (Option.some.inj hx').symm, fun y hy => ?_⟩
          rcases mem_insert_cases _ _ _ _ hy with hy | hy
          · rw [← e]; exact hff (hl2 y hy)
          · rw [← e, hy]; exact hff hsrc
        · obtain ⟨l, h1, h2⟩ := h.staged x ((AMap.mem_iff_find _ h.stagedKeys x.1 x.2).mpr hx')
          exact ⟨l, h1, fun y hy => hff (h2 y hy)⟩
      · intro k g hg hw
        obtain ⟨j, hj, hwh⟩ := h.done k g hg hw
        refine ⟨j, hj, ?_⟩
        rw [Whereabouts]
        rw [show (({ s with c := s.c.insert p o i } : PlugSys).setAgg n (some ⟨q, cl, none, ex⟩)).c =
          s.c.insert p o i from rfl, hmode]
        rcases hwh with ⟨b, hb1, hb2⟩ | ⟨hne, p', o', m, h1, h2, h3⟩ | hidx
        · by_cases hk : k = n
          · subst hk
            rw [ha] at hb1; cases hb1
            rcases hb2 with hb2 | hb2
            · exact .inl ⟨⟨q, cl, none, ex⟩, if_pos rfl, .inl hb2⟩
            · cases hb2
              refine .inr (.inl ⟨?_, p, o, AMap.insert ((s.c.staged.find (s.c.mode.indexPath p)).getD []) o (some i),
                hl, ?_, ?_⟩)
              · rw [PlugSys.aggs_setAgg, if_pos rfl]; exact Option.some_ne_none _
              · rw [Cache.insert_find, if_pos rfl]
              · exact (mem_keys_insert _ _ _ _).mpr (.inl rfl)
          · exact .inl ⟨b, by rw [PlugSys.aggs_setAgg, if_neg hk]; exact hb1, hb2⟩
        · right; left
          obtain ⟨m', hm1, hm2⟩ := hstag h2 h3
          refine ⟨?_, p', o', m', h1, hm1, hm2⟩
          rw [PlugSys.aggs_setAgg]; split
          · simp
          · exact hne
        · exact .inr (.inr hidx)
      · intro k b x hb hx
        rw [PlugSys.aggs_setAgg] at hb
        by_cases hk : k = n
        · rw [if_pos hk] at hb; cases hb; subst hk
          refine h.pending k _ x ha (hx.imp id (fun e => (by cases e)))
        · rw [if_neg hk] at hb; exact h.pending k b x hb hx
      · intro k b hb he
        rw [PlugSys.aggs_setAgg] at hb
        by_cases hk : k = n
        · rw [if_pos hk] at hb; cases hb; subst hk
          have := h.exited k _ ha he
          exact ⟨this.1, this.2.1, rfl⟩
        · rw [if_neg hk] at hb; exact h.exited k b hb he
  · cases hs; exact h

theorem PInv.flush {E : PlugEnv} {old es : String → List (Nat × Info)} {s : PlugSys} (h : PInv E old es s) :
    ∃ (c : Cache) (add : String → List (Nat × Info)), s.c.flush true = .ok c ∧ c.mode = s.c.mode ∧ c.staged = [] ∧
      (∀ ip, Holds c.fs ip (es ip ++ add ip)) ∧ (∀ ip x, x ∈ add ip → FromField E s ip x.1 x.2) ∧
      (∀ ip m o, s.c.staged.find ip = some m → o ∈ AMap.keys m → o ∈ AMap.keys (add ip)) := by
  obtain ⟨fs', add, h1, h2, h3, h4⟩ := flushLoop_append s.c.staged s.c.fs es h.stagedKeys
    (fun x hx => (h.staged x hx).imp fun l hl => hl.1) h.holds
  refine ⟨{ s.c with fs := fs', staged := [] }, add, by rw [Cache.flush, h1, ok_bind], rfl, rfl, h2, ?_, ?_⟩
  · intro ip x hx
    cases hf : s.c.staged.find ip with
    | none => rw [h4 ip hf] at hx; cases hx
    | some m =>
      obtain ⟨l, hl1, hl2⟩ := h.staged (ip, m) ((AMap.mem_iff_find _ h.stagedKeys _ _).mpr hf)
      have : noNull l = noNull (add ip) := by rw [← h3 ip m hf]; exact hl1.symm
      have hinj : l = add ip := by
        have := congrArg (List.filterMap fun p : Nat × Option Info => p.2.map fun i => (p.1, i)) this
        simpa [noNull, List.filterMap_map, Function.comp_def] using this
      exact hl2 x (hinj ▸ hx)
  · intro ip m o hf ho
    rw [h3 ip m hf, keys_noNull] at ho
    exact ho

theorem PInv.finish {E : PlugEnv} {old es : String → List (Nat × Info)} {s s' : PlugSys} (h : PInv E old es s)
    (n : Nat) (hs : stepEnd s n = .ok s') : ∃ es', PInv E old es' s' ∧ ∀ ip, ∃ b, es' ip = es ip ++ b := by
  rw [stepEnd] at hs
  split at hs
  · rename_i q hold ha
    obtain ⟨-, hq, hh⟩ := h.exited n _ ha rfl
    simp only at hq hh
    subst hq; subst hh
    obtain ⟨c, add, g1, g2, g3, g4, g5, g6⟩ := h.flush
    rw [cassert_of (by rfl), ok_bind, g1, ok_bind] at hs
    cases hs
    have hff : ∀ {ip o' i'}, FromField E s ip o' i' →
        FromField E (({ s with c := c } : PlugSys).setAgg n none) ip o' i' := fun g => g.mono rfl g2 (fun _ hx => hx)
    refine ⟨fun ip => es ip ++ add ip, ?_, fun ip => ⟨add ip, rfl⟩⟩
    constructor
    · exact g4
    · intro ip x hx
      rcases List.mem_append.mp hx with hx | hx
      · exact (h.entries ip x hx).imp id hff
      · exact .inr (hff (g5 ip x hx))
    · show (AMap.keys c.staged).Nodup
      rw [g3]; exact List.nodup_nil
    · show ∀ x ∈ c.staged, _
      rw [g3]; intro x hx; cases hx
    · intro k g hg hw
      obtain ⟨j, hj, hwh⟩ := h.done k g hg hw
      refine ⟨j, hj, ?_⟩
      rw [Whereabouts]
      rw [show (({ s with c := c } : PlugSys).setAgg n none).c = c from rfl, g2]
      rcases hwh with ⟨b, hb1, hb2⟩ | ⟨hne, p', o', m, h1, h2, h3⟩ | ⟨p', o', h1, h2⟩
      · by_cases hk : k = n
        · subst hk
          rw [ha] at hb1; cases hb1
          simp at hb2
        · exact .inl ⟨b, by rw [PlugSys.aggs_setAgg, if_neg hk]; exact hb1, hb2⟩
      · refine .inr (.inr ⟨p', o', h1, ?_⟩)
        have := g6 _ m o' h2 h3
        simp only [AMap.keys, List.map_append, List.mem_append] at this ⊢
        exact .inr this
      · refine .inr (.inr ⟨p', o', h1, ?_⟩)
        simp only [AMap.keys, List.map_append, List.mem_append] at h2 ⊢
        exact .inl h2
    · intro k b x hb hx
      rw [PlugSys.aggs_setAgg] at hb
      by_cases hk : k = n
      · rw [if_pos hk] at hb; cases hb
      · rw [if_neg hk] at hb; exact h.pending k b x hb hx
    · intro k b hb he
      rw [PlugSys.aggs_setAgg] at hb
      by_cases hk : k = n
      · rw [if_pos hk] at hb; cases hb
      · rw [if_neg hk] at hb; exact h.exited k b hb he
  · cases hs; exact ⟨es, h, fun ip => ⟨[], (List.append_nil _).symm⟩⟩

theorem PInv.step {E : PlugEnv} {old es : String → List (Nat × Info)} {s s' : PlugSys} (h : PInv E old es s)
    (e : PlugEv) (hs : s.step E e = .ok s') : ∃ es', PInv E old es' s' ∧ ∀ ip, ∃ b, es' ip = es ip ++ b := by
  have keep : ∀ {t}, PInv E old es t → ∃ es', PInv E old es' t ∧ ∀ ip, ∃ b, es' ip = es ip ++ b :=
    fun g => ⟨es, g, fun ip => ⟨[], (List.append_nil _).symm⟩⟩
  cases e with
  | archive n f => exact keep (h.archive n f hs)
  | take n => cases hs; exact keep (h.take n)
  | store n => exact keep (h.store n hs)
  | quit n => cases hs; exact keep (h.quit n)
  | close n => cases hs; exact keep (h.close n)
  | finish n => exact h.finish n hs

theorem PInv.run {E : PlugEnv} {old : String → List (Nat × Info)} (evs : List PlugEv) :
    ∀ {es : String → List (Nat × Info)} {s s' : PlugSys}, PInv E old es s → s.run E evs = .ok s' →
    ∃ es', PInv E old es' s' ∧ ∀ ip, ∃ b, es' ip = es ip ++ b := by
  induction evs with
  | nil => intro es s s' h hs; cases hs; exact ⟨es, h, fun ip => ⟨[], (List.append_nil _).symm⟩⟩
  | cons e evs ih =>
    intro es s s' h hs
    rw [PlugSys.run] at hs
    obtain ⟨t, ht, hs⟩ := res_bind_inv hs
    obtain ⟨es1, h1, g1⟩ := h.step e ht
    obtain ⟨es2, h2, g2⟩ := ih h1 hs
    refine ⟨es2, h2, fun ip => ?_⟩
    obtain ⟨b1, e1⟩ := g1 ip
    obtain ⟨b2, e2⟩ := g2 ip
    exact ⟨b1 ++ b2, by rw [e2, e1, List.append_assoc]⟩

theorem PInv.start (E : PlugEnv) (sel : AMap Str Str) (mode : CacheMode) (lazy : Bool) (cap : Nat) (fs : FS)
    (old : String → List (Nat × Info)) (h : ∀ ip, Holds fs ip (old ip)) :
    PInv E old old (.start sel mode lazy cap fs) where
  holds := h
  entries := fun _ _ hx => .inl hx
  stagedKeys := List.nodup_nil
  staged := fun _ hx => by cases hx
  done := fun _ _ hx => by cases hx
  pending := fun _ _ _ hb => by cases hb
  exited := fun _ _ hb => by cases hb

/-! ## The theorems -/

theorem Holds.indexed {c : Cache} {p : String} {es : List (Nat × Info)} (h : Holds c.fs (c.mode.indexPath p) es)
    (o : Nat) : c.indexed p o = AMap.find es o := by
  rw [Cache.indexed, h.load]
  exact indexFind_insertAll es [] o

theorem find_mem {V : Type} (l : AMap Nat V) (o : Nat) (v : V) (h : AMap.find l o = some v) : (o, v) ∈ l := by
  induction l with
  | nil => cases h
  | cons p rest ih =>
    obtain ⟨k, w⟩ := p
    rw [AMap.find] at h
    split at h
    · rename_i e; cases h; subst e; exact .head _
    · exact .tail _ (ih h)

theorem find_append_some {V : Type} (l b : AMap Nat V) (o : Nat) (v : V) (h : AMap.find l o = some v) :
    AMap.find (l ++ b) o = some v := by
  induction l with
  | nil => cases h
  | cons p rest ih =>
    obtain ⟨k, w⟩ := p
    rw [AMap.find] at h
    rw [List.cons_append, AMap.find]
    split at h
    · rename_i e; rw [if_pos e]; exact h
    · rename_i e; rw [if_neg e]; exact ih h

theorem PlugSys.step_mode {E : PlugEnv} {s s' : PlugSys} {e : PlugEv} (h : s.step E e = .ok s') :
    s'.c.mode = s.c.mode ∧ s'.dict = s.dict ∧ ∀ x ∈ s.archived, x ∈ s'.archived := by
  have same : s.c.mode = s.c.mode ∧ s.dict = s.dict ∧ ∀ x ∈ s.archived, x ∈ s.archived := ⟨rfl, rfl, fun _ hx => hx⟩
  cases e with
  | archive n f =>
    simp only [PlugSys.step, stepArchive] at h
    split at h
    · cases h
    · cases h; exact same
    · split at h
      · cases h; exact ⟨rfl, rfl, fun _ hx => List.mem_append_left _ hx⟩
      · split at h
        · cases h; exact same
        · split at h
          · cases h; exact ⟨rfl, rfl, fun _ hx => List.mem_append_left _ hx⟩
          · split at h
            · cases h
            · cases h; exact same
            · split at h
              · cases h; exact same
              · cases h; exact ⟨rfl, rfl, fun _ hx => List.mem_append_left _ hx⟩
  | take n =>
    simp only [PlugSys.step, stepTake] at h
    split at h <;> (cases h; exact same)
  | store n =>
    simp only [PlugSys.step, stepStore] at h
    split at h
    · split at h
      · cases h
      · cases h; exact ⟨(s.c.insert_fs _ _ _).2.1, rfl, fun _ hx => hx⟩
    · cases h; exact same
  | quit n =>
    simp only [PlugSys.step, stepQuit] at h
    split at h <;> (cases h; exact same)
  | close n =>
    simp only [PlugSys.step, stepClose] at h
    split at h <;> (cases h; exact same)
  | finish n =>
    simp only [PlugSys.step, stepEnd] at h
    split at h
    · obtain ⟨_, -, h⟩ := res_bind_inv h
      obtain ⟨c, hc, h⟩ := res_bind_inv h
      cases h
      rw [Cache.flush] at hc
      obtain ⟨fs, -, hc⟩ := res_bind_inv hc
      cases hc
      exact same
    · cases h; exact same

theorem PlugSys.run_mode {E : PlugEnv} (evs : List PlugEv) : ∀ {s s' : PlugSys}, s.run E evs = .ok s' →
    s'.c.mode = s.c.mode ∧ s'.dict = s.dict ∧ ∀ x ∈ s.archived, x ∈ s'.archived := by
  induction evs with
  | nil => intro s s' h; cases h; exact ⟨rfl, rfl, fun _ hx => hx⟩
  | cons e evs ih =>
    intro s s' h
    rw [PlugSys.run] at h
    obtain ⟨t, ht, h⟩ := res_bind_inv h
    obtain ⟨h1, h2, h3⟩ := PlugSys.step_mode ht
    obtain ⟨g1, g2, g3⟩ := ih h
    exact ⟨g1.trans h1, g2.trans h2, fun x hx => g3 x (h3 x hx)⟩

theorem PlugSys.run_append {E : PlugEnv} (a b : List PlugEv) : ∀ (s : PlugSys),
    s.run E (a ++ b) = (s.run E a >>= fun t => t.run E b) := by
  induction a with
  | nil => intro s; rfl
  | cons e a ih =>
    intro s
    rw [List.cons_append, PlugSys.run, PlugSys.run]
    cases s.step E e with
    | error e => rfl
    | ok t => rw [ok_bind, ok_bind]; exact ih t

/-- A GRIB message that the selection selects. -/
def SelectedGrib (rx : Str → Str → Bool) (sel : List (Str × Str)) (f : ArchField) : Prop :=
  (sel ≠ [] ∧ Selects rx sel f.key) ∧ f.data.take 4 = [71, 82, 73, 66]

theorem wanted_iff {E : PlugEnv} {e : Fault} (absent : E.absent = .error e) (sel : AMap Str Str) (f : ArchField)
    (hk : f.key.keys.Nodup) : Wanted E sel f ↔ SelectedGrib E.rx sel f := by
  rw [Wanted, SelectedGrib]
  refine and_congr ?_ Iff.rfl
  by_cases hne : sel = []
  · subst hne; simp [matchesKey]
  · rw [matchesKey_true_iff E e absent sel hne f.key hk]
    exact ⟨fun h => ⟨hne, h⟩, fun h => h.2⟩

/-- C33.  Once a flush of an FDB has returned (the last step of the flush has left no aggregator), every selected GRIB
field archived with that FDB before is in the index at its location, and stays there whatever happens next; with its own
metadata, unless an entry the index had from the start, or another archived field at the same place, says otherwise. -/
theorem C33_archived_fields_indexed (E : PlugEnv) (e : Fault) (absent : E.absent = .error e) (sel : AMap Str Str)
    (mode : CacheMode) (lazy : Bool) (cap : Nat) (fs : FS) (old : String → List (Nat × Info))
    (indexes : ∀ ip, Holds fs ip (old ip)) (pre post : List PlugEv) (n : Nat) (s1 s2 s3 : PlugSys)
    (before : (PlugSys.start sel mode lazy cap fs).run E pre = .ok s1)
    (flush : s1.step E (.finish n) = .ok s2) (returned : s2.aggs n = none) (after : s2.run E post = .ok s3)
    (f : ArchField) (archived : (n, f) ∈ s2.archived) (key : f.key.keys.Nodup)
    (selected : SelectedGrib E.rx sel f) :
    ∃ p o i, f.loc = some (p, o) ∧ E.build f.data = .ok i ∧ (s3.c.indexed p o).isSome = true ∧
      ((∀ j, (o, j) ∈ old (mode.indexPath p) → j = i) →
       (∀ k g q j, (k, g) ∈ s3.archived → g.loc = some (q, o) → mode.indexPath q = mode.indexPath p →
          E.build g.data = .ok j → j = i) →
       s3.c.indexed p o = some i) := by
  obtain ⟨es1, h1, -⟩ := (PInv.start E sel mode lazy cap fs old indexes).run pre before
  obtain ⟨es2, h2, -⟩ := h1.step (.finish n) flush
  obtain ⟨es3, h3, hb⟩ := h2.run post after
  obtain ⟨m1, d1, -⟩ := PlugSys.run_mode pre before
  obtain ⟨m2, d2, -⟩ := PlugSys.step_mode flush
  obtain ⟨m3, d3, -⟩ := PlugSys.run_mode post after
  have hd2 : s2.dict = sel := d2.trans d1
  have hm2 : s2.c.mode = mode := m2.trans m1
  have hm3 : s3.c.mode = mode := m3.trans hm2
  obtain ⟨i, hi, hwh⟩ := h2.done n f archived (by rw [hd2]; exact (wanted_iff absent sel f key).mpr selected)
  rcases hwh with ⟨a, ha, -⟩ | ⟨hne, -⟩ | ⟨p, o, hl, ho⟩
  · rw [returned] at ha; cases ha
  · exact absurd returned hne
  · rw [hm2] at ho
    obtain ⟨b, hbe⟩ := hb (mode.indexPath p)
    have hH : Holds s3.c.fs (s3.c.mode.indexPath p) (es3 (mode.indexPath p)) := by rw [hm3]; exact h3.holds _
    have ho3 : o ∈ AMap.keys (es3 (mode.indexPath p)) := by
      rw [hbe]; simp only [AMap.keys, List.map_append, List.mem_append] at ho ⊢; exact .inl ho
    have hsome := (AMap.mem_keys_iff _ o).mp ho3
    refine ⟨p, o, i, hl, hi, by rw [hH.indexed]; exact hsome, fun c1 c2 => ?_⟩
    rw [hH.indexed]
    cases hf : AMap.find (es3 (mode.indexPath p)) o with
    | none => rw [hf] at hsome; cases hsome
    | some j =>
      rcases h3.entries _ _ (find_mem _ _ _ hf) with hj | ⟨k, g, q, g1, -, g3, g4, g5⟩
      · rw [c1 j hj]
      · rw [hm3] at g5
        rw [c2 k g q j g1 g4 g5 g3]

/-- C33.  Nothing else gets into the index: every entry was there from the start, or is the metadata of an archived field
that is GRIB and selected, at its location.  (Locations of different data files may share an index file, see C15.) -/
theorem C33_nothing_else_indexed (E : PlugEnv) (e : Fault) (absent : E.absent = .error e) (sel : AMap Str Str)
    (mode : CacheMode) (lazy : Bool) (cap : Nat) (fs : FS) (old : String → List (Nat × Info))
    (indexes : ∀ ip, Holds fs ip (old ip)) (evs : List PlugEv) (s : PlugSys)
    (history : (PlugSys.start sel mode lazy cap fs).run E evs = .ok s)
    (keys : ∀ x ∈ s.archived, x.2.key.keys.Nodup) (p : String) (o : Nat) (i : Info)
    (indexed : s.c.indexed p o = some i) :
    (o, i) ∈ old (mode.indexPath p) ∨
      ∃ n f q, (n, f) ∈ s.archived ∧ SelectedGrib E.rx sel f ∧ E.build f.data = .ok i ∧ f.loc = some (q, o) ∧
        mode.indexPath q = mode.indexPath p := by
  obtain ⟨es, h, -⟩ := (PInv.start E sel mode lazy cap fs old indexes).run evs history
  obtain ⟨m1, d1, -⟩ := PlugSys.run_mode evs history
  have hm : s.c.mode = mode := m1
  have hH : Holds s.c.fs (s.c.mode.indexPath p) (es (mode.indexPath p)) := by rw [hm]; exact h.holds _
  rw [hH.indexed] at indexed
  rcases h.entries _ _ (find_mem _ _ _ indexed) with hj | ⟨n, f, q, g1, g2, g3, g4, g5⟩
  · exact .inl hj
  · rw [hm] at g5
    rw [show s.dict = sel from d1] at g2
    exact .inr ⟨n, f, q, g1, (wanted_iff absent sel f (keys _ g1)).mp g2, g3, g4, g5⟩

/-! ### Flushes end -/

theorem finish_ok {E : PlugEnv} {old es : String → List (Nat × Info)} {s : PlugSys} (h : PInv E old es s) (n : Nat)
    (ha : s.aggs n = some ⟨[], true, none, true⟩) :
    ∃ s', stepEnd s n = .ok s' ∧ s'.aggs n = none ∧ s'.archived = s.archived := by
  obtain ⟨c, add, g1, -⟩ := h.flush
  refine ⟨({ s with c := c } : PlugSys).setAgg n none, ?_, by rw [PlugSys.aggs_setAgg, if_pos rfl], rfl⟩
  rw [stepEnd, ha]
  simp only
  rw [cassert_of (by rfl), ok_bind, g1, ok_bind]

theorem drain {E : PlugEnv} {old : String → List (Nat × Info)} (n : Nat) (q : List (ArchField × Info)) :
    ∀ (es : String → List (Nat × Info)) (s : PlugSys), PInv E old es s → s.aggs n = some ⟨q, true, none, false⟩ →
    (∀ x ∈ q, x.1.loc.isSome = true) →
    ∃ evs s', s.run E evs = .ok s' ∧ s'.aggs n = none ∧ s'.archived = s.archived := by
  induction q with
  | nil =>
    intro es s h ha _
    have hq : (stepQuit s n).aggs n = some ⟨[], true, none, true⟩ := by
      rw [stepQuit, ha]; simp only [PlugSys.aggs_setAgg, if_true]
    have hqa : (stepQuit s n).archived = s.archived := by rw [stepQuit, ha]; rfl
    obtain ⟨s', h1, h2, h3⟩ := finish_ok (h.quit n) n hq
    refine ⟨[.quit n, .finish n], s', ?_, h2, h3.trans hqa⟩
    rw [PlugSys.run, PlugSys.step, ok_bind, PlugSys.run, PlugSys.step, h1, ok_bind]; rfl
  | cons x q ih =>
    intro es s h ha hl
    obtain ⟨f, i⟩ := x
    have ht : stepTake s n = s.setAgg n (some ⟨q, true, some (f, i), false⟩) := by rw [stepTake, ha]
    obtain ⟨⟨p, o⟩, hlo⟩ := Option.isSome_iff_exists.mp (hl (f, i) (.head _))
    have hs : stepStore (stepTake s n) n = .ok ({ stepTake s n with c := s.c.insert p o i }.setAgg n
        (some ⟨q, true, none, false⟩)) := by
      rw [stepStore, ht, PlugSys.aggs_setAgg, if_pos rfl]
      simp only at hlo ⊢
      rw [hlo]
      rfl
    obtain ⟨evs, s', h1, h2, h3⟩ := ih es _ ((h.take n).store n hs) (by rw [PlugSys.aggs_setAgg, if_pos rfl])
      (fun y hy => hl y (.tail _ hy))
    refine ⟨.take n :: .store n :: evs, s', ?_, h2, ?_⟩
    · rw [PlugSys.run, PlugSys.step, ok_bind, PlugSys.run, PlugSys.step, hs, ok_bind]; exact h1
    · rw [h3, ht]; rfl

/-- C33.  In every reachable state a flush of any FDB can run to its end, if the locations of the fields archived with it
are delivered: there is no deadlock, and the assertion on the empty queue never fails. -/
theorem C33_flush_completes (E : PlugEnv) (sel : AMap Str Str) (mode : CacheMode) (lazy : Bool) (cap : Nat) (fs : FS)
    (old : String → List (Nat × Info)) (indexes : ∀ ip, Holds fs ip (old ip)) (evs : List PlugEv) (s : PlugSys)
    (history : (PlugSys.start sel mode lazy cap fs).run E evs = .ok s) (n : Nat)
    (delivered : ∀ f, (n, f) ∈ s.archived → f.loc.isSome = true) :
    ∃ more s', s.run E (.close n :: more) = .ok s' ∧ s'.aggs n = none ∧ s'.archived = s.archived := by
  obtain ⟨es, h, -⟩ := (PInv.start E sel mode lazy cap fs old indexes).run evs history
  have hcl := h.close n
  cases ha : s.aggs n with
  | none =>
    have hc : stepClose s n = s := by rw [stepClose, ha]
    exact ⟨[], s, by rw [PlugSys.run, PlugSys.step, ok_bind, hc]; rfl, ha, rfl⟩
  | some a =>
    obtain ⟨q, cl, hold, ex⟩ := a
    have hc : stepClose s n = s.setAgg n (some ⟨q, true, hold, ex⟩) := by rw [stepClose, ha]
    have hdel : ∀ x, x ∈ q ∨ hold = some x → x.1.loc.isSome = true := fun x hx =>
      delivered x.1 (h.pending n _ x ha hx).1
    cases ex with
    | true =>
      obtain ⟨-, hq, hh⟩ := h.exited n _ ha rfl
      simp only at hq hh
      subst hq; subst hh
      obtain ⟨s', h1, h2, h3⟩ := finish_ok hcl n (by rw [hc, PlugSys.aggs_setAgg, if_pos rfl])
      refine ⟨[.finish n], s', ?_, h2, by rw [h3, hc]; rfl⟩
      rw [PlugSys.run, PlugSys.step, ok_bind, PlugSys.run, PlugSys.step, h1, ok_bind]; rfl
    | false =>
      cases hold with
      | none =>
        obtain ⟨evs', s', h1, h2, h3⟩ := drain n q es _ hcl (by rw [hc, PlugSys.aggs_setAgg, if_pos rfl])
          (fun x hx => hdel x (.inl hx))
        exact ⟨evs', s', by rw [PlugSys.run, PlugSys.step, ok_bind]; exact h1, h2, by rw [h3, hc]; rfl⟩
      | some x =>
        obtain ⟨f, i⟩ := x
        obtain ⟨⟨p, o⟩, hlo⟩ := Option.isSome_iff_exists.mp (hdel (f, i) (.inr rfl))
        have hs : stepStore (stepClose s n) n = .ok ({ stepClose s n with c := s.c.insert p o i }.setAgg n
            (some ⟨q, true, none, false⟩)) := by
          rw [stepStore, hc, PlugSys.aggs_setAgg, if_pos rfl]
          simp only at hlo ⊢
          rw [hlo]
          rfl
        obtain ⟨evs', s', h1, h2, h3⟩ := drain n q es _ (hcl.store n hs) (by rw [PlugSys.aggs_setAgg, if_pos rfl])
          (fun x hx => hdel x (.inl hx))
        refine ⟨.store n :: evs', s', ?_, h2, by rw [h3, hc]; rfl⟩
        rw [PlugSys.run, PlugSys.step, ok_bind, PlugSys.run, PlugSys.step, hs, ok_bind]; exact h1

/-! ### Archiving goes on between flushes -/

/-- The aggregator of this FDB, if there is one, takes more fields. -/
def Open (n : Nat) (s : PlugSys) : Prop := ∀ a, s.aggs n = some a → a.closed = false

theorem Open.setAgg {n : Nat} {s : PlugSys} (h : Open n s) (c : Cache) (ar : List (Nat × ArchField)) (k : Nat)
    (a : Option Agg) (ha : k = n → ∀ b, a = some b → b.closed = false) :
    Open n ({ ({ s with c := c } : PlugSys).setAgg k a with archived := ar }) := by
  intro b hb
  have hb : (if n = k then a else s.aggs n) = some b := hb
  by_cases hk : n = k
  · rw [if_pos hk] at hb; exact ha hk.symm b hb
  · rw [if_neg hk] at hb; exact h b hb

theorem Open.getD {n : Nat} {s : PlugSys} (h : Open n s) : ((s.aggs n).getD .new).closed = false := by
  cases ha : s.aggs n with
  | none => rfl
  | some a => exact h a ha

theorem Open.step {E : PlugEnv} {n : Nat} {s s' : PlugSys} (h : Open n s) (e : PlugEv) (hs : s.step E e = .ok s')
    (he : e ≠ .close n) : Open n s' := by
  cases e with
  | archive k f =>
    have hk : k = n → ((s.aggs k).getD .new).closed = false := fun e => e ▸ h.getD
    simp only [PlugSys.step, stepArchive] at hs
    split at hs
    · cases hs
    · cases hs; exact h
    · split at hs
      · cases hs; exact h
      · split at hs
        · cases hs; exact h
        · split at hs
          · cases hs; exact h.setAgg s.c _ k _ (fun e b hb => Option.some.inj hb ▸ hk e)
          · split at hs
            · cases hs
            · cases hs; exact h.setAgg s.c s.archived k _ (fun e b hb => Option.some.inj hb ▸ hk e)
            · split at hs
              · cases hs; exact h
              · cases hs
                refine h.setAgg s.c _ k _ (fun e b hb => ?_)
                rw [← Option.some.inj hb]
                exact hk e
  | take k =>
    cases hs
    show Open n (stepTake s k)
    rw [stepTake]
    split
    · rename_i x rest cl hk
      refine h.setAgg s.c s.archived k _ (fun e b hb => ?_)
      have hc := h _ (e ▸ hk)
      rw [← Option.some.inj hb]
      exact hc
    · exact h
  | store k =>
    simp only [PlugSys.step, stepStore] at hs
    split at hs
    · rename_i q cl f i ex hk
      split at hs
      · cases hs
      · cases hs
        refine h.setAgg _ s.archived k _ (fun e b hb => ?_)
        have hc := h _ (e ▸ hk)
        rw [← Option.some.inj hb]
        exact hc
    · cases hs; exact h
  | quit k =>
    cases hs
    show Open n (stepQuit s k)
    rw [stepQuit]
    split
    · rename_i ex hk
      refine h.setAgg s.c s.archived k _ (fun e b hb => ?_)
      have hc := h _ (e ▸ hk)
      rw [← Option.some.inj hb]
      exact hc
    · exact h
  | close k =>
    cases hs
    show Open n (stepClose s k)
    rw [stepClose]
    split
    · refine h.setAgg s.c s.archived k _ (fun e => ?_)
      subst e; exact absurd rfl he
    · exact h
  | finish k =>
    simp only [PlugSys.step, stepEnd] at hs
    split at hs
    · obtain ⟨-, -, hs⟩ := res_bind_inv hs
      obtain ⟨c, -, hs⟩ := res_bind_inv hs
      cases hs
      exact h.setAgg c s.archived k none (fun _ b hb => (by cases hb))
    · cases hs; exact h

theorem Open.run {E : PlugEnv} {n : Nat} (evs : List PlugEv) : ∀ {s s' : PlugSys}, Open n s → s.run E evs = .ok s' →
    PlugEv.close n ∉ evs → Open n s' := by
  induction evs with
  | nil => intro s s' h hs _; cases hs; exact h
  | cons e evs ih =>
    intro s s' h hs hc
    rw [PlugSys.run] at hs
    obtain ⟨t, h1, h2⟩ := res_bind_inv hs
    exact ih (h.step e h1 (fun e' => hc (e' ▸ .head _))) h2 (fun hm => hc (.tail _ hm))

/-- A selected GRIB field is taken by an aggregator with room. -/
theorem archive_accepted {E : PlugEnv} {s : PlugSys} {n : Nat} {f : ArchField} {i : Info} (h : Open n s)
    (hw : Wanted E s.dict f) (hb : E.build f.data = .ok i) (room : ((s.aggs n).getD .new).queue.length < aggQueueSize) :
    ∃ s', s.step E (.archive n f) = .ok s' ∧ s'.archived = s.archived ++ [(n, f)] := by
  have h4 : ¬ f.data.length < 4 := by
    intro hlt
    have := congrArg List.length hw.2
    rw [List.length_take] at this
    have : min 4 f.data.length = 4 := this
    omega
  have hg : isGrib f.data = true := by rw [isGrib, hw.2]; decide
  refine ⟨(s.setAgg n (some { (s.aggs n).getD .new with queue := ((s.aggs n).getD .new).queue ++ [(f, i)] })).done n f,
    ?_, rfl⟩
  rw [PlugSys.step, stepArchive, hw.1]
  simp only [hg, h4, h.getD, hb, Bool.not_true, Bool.false_or, decide_false, Bool.false_eq_true, if_false,
    if_neg (Nat.not_le.mpr room), ge_iff_le]

/-- C33.  From the opening of an FDB, or the end of a flush, to the next flush, every selected GRIB field whose metadata
can be built is accepted; if the queue is full this needs no more than the aggregator's thread going on. -/
theorem C33_archive_accepted (E : PlugEnv) (e : Fault) (absent : E.absent = .error e) (sel : AMap Str Str)
    (mode : CacheMode) (lazy : Bool) (cap : Nat) (fs : FS) (old : String → List (Nat × Info))
    (indexes : ∀ ip, Holds fs ip (old ip)) (pre evs : List PlugEv) (n : Nat) (s1 s : PlugSys)
    (before : (PlugSys.start sel mode lazy cap fs).run E pre = .ok s1) (flushed : s1.aggs n = none)
    (history : s1.run E evs = .ok s) (noFlush : PlugEv.close n ∉ evs)
    (delivered : ∀ f, (n, f) ∈ s.archived → f.loc.isSome = true)
    (f : ArchField) (key : f.key.keys.Nodup) (selected : SelectedGrib E.rx sel f) (i : Info)
    (builds : E.build f.data = .ok i) :
    ∃ more s', (∀ ev ∈ more, ev = .take n ∨ ev = .store n) ∧ s.run E (more ++ [.archive n f]) = .ok s' ∧
      s'.archived = s.archived ++ [(n, f)] := by
  obtain ⟨es1, h1, -⟩ := (PInv.start E sel mode lazy cap fs old indexes).run pre before
  obtain ⟨es, h, -⟩ := h1.run evs history
  have hop : Open n s := Open.run evs (fun a ha => by rw [flushed] at ha; cases ha) history noFlush
  have hd : s.dict = sel := (PlugSys.run_mode evs history).2.1.trans (PlugSys.run_mode pre before).2.1
  have hw : Wanted E s.dict f := by rw [hd]; exact (wanted_iff absent sel f key).mpr selected
  have one : ∀ (more : List PlugEv) (t : PlugSys), (∀ ev ∈ more, ev = .take n ∨ ev = .store n) →
      s.run E more = .ok t → t.archived = s.archived →
      ((t.aggs n).getD .new).queue.length < aggQueueSize →
      ∃ more s', (∀ ev ∈ more, ev = .take n ∨ ev = .store n) ∧ s.run E (more ++ [.archive n f]) = .ok s' ∧
        s'.archived = s.archived ++ [(n, f)] := by
    intro more t hm hr ha hroom
    have hot : Open n t := hop.run more hr (fun hc => by rcases hm _ hc with h | h <;> cases h)
    obtain ⟨s', g1, g2⟩ := archive_accepted hot (by rw [(PlugSys.run_mode more hr).2.1]; exact hw) builds hroom
    refine ⟨more, s', hm, ?_, by rw [g2, ha]⟩
    rw [PlugSys.run_append, hr, ok_bind, PlugSys.run, g1, ok_bind]; rfl
  -- the number of fields waiting goes down as the thread goes on
  suffices H : ∀ (k : Nat) (es : String → List (Nat × Info)) (more : List PlugEv) (t : PlugSys), PInv E old es t →
      (∀ ev ∈ more, ev = .take n ∨ ev = .store n) → s.run E more = .ok t → t.archived = s.archived →
      ((t.aggs n).getD .new).queue.length ≤ k →
      ∃ more s', (∀ ev ∈ more, ev = .take n ∨ ev = .store n) ∧ s.run E (more ++ [.archive n f]) = .ok s' ∧
        s'.archived = s.archived ++ [(n, f)] from
    H _ es [] s h (fun _ hx => (by cases hx)) rfl rfl (Nat.le_refl _)
  intro k
  induction k with
  | zero => intro es more t ht hm hr ha hk; exact one more t hm hr ha (by rw [aggQueueSize]; omega)
  | succ k ih =>
    intro es more t ht hm hr ha hk
    by_cases hroom : ((t.aggs n).getD .new).queue.length < aggQueueSize
    · exact one more t hm hr ha hroom
    cases hag : t.aggs n with
    | none => rw [hag] at hroom; exact absurd (by decide : 0 < 8) hroom
    | some a =>
      rw [hag] at hk
      have hk : a.queue.length ≤ k + 1 := hk
      have hot : Open n t := hop.run more hr (fun hc => by rcases hm _ hc with h | h <;> cases h)
      obtain ⟨q, cl, hold, ex⟩ := a
      have hcl : cl = false := hot _ hag
      subst hcl
      have hex : ex = false := by
        cases ex with
        | false => rfl
        | true => have := (ht.exited n _ hag rfl).1; cases this
      subst hex
      have run1 : ∀ (ev : PlugEv) (u : PlugSys), t.step E ev = .ok u → s.run E (more ++ [ev]) = .ok u := by
        intro ev u hu
        rw [PlugSys.run_append, hr, ok_bind, PlugSys.run, hu, ok_bind]; rfl
      have ext : ∀ (l : List PlugEv) (ev : PlugEv), (∀ x ∈ l, x = .take n ∨ x = .store n) → (ev = .take n ∨ ev = .store n) →
          ∀ x ∈ l ++ [ev], x = .take n ∨ x = .store n := by
        intro l ev hl he x hx
        rcases List.mem_append.mp hx with hx | hx
        · exact hl x hx
        · rw [List.mem_singleton.mp hx]; exact he
      cases q with
      | nil => rw [hag] at hroom; exact absurd (by decide : 0 < 8) hroom
      | cons x q =>
        cases hold with
        | none =>
          have htk : stepTake t n = t.setAgg n (some ⟨q, false, some x, false⟩) := by rw [stepTake, hag]
          refine ih es (more ++ [.take n]) (stepTake t n) (ht.take n) (ext _ _ hm (.inl rfl)) (run1 _ _ rfl)
            (by rw [htk]; exact ha) ?_
          rw [htk, PlugSys.aggs_setAgg, if_pos rfl]
          exact Nat.le_of_succ_le_succ hk
        | some y =>
          obtain ⟨g, j⟩ := y
          obtain ⟨⟨p, o⟩, hlo⟩ := Option.isSome_iff_exists.mp
            (delivered g (ha ▸ (ht.pending n _ (g, j) hag (.inr rfl)).1))
          have hs : stepStore t n = .ok ({ t with c := t.c.insert p o j }.setAgg n (some ⟨x :: q, false, none, false⟩)) := by
            rw [stepStore, hag]
            simp only
            rw [hlo]
          have hpi := ht.store n hs
          have hrs := run1 (.store n) _ hs
          refine ih es ((more ++ [.store n]) ++ [.take n]) (stepTake _ n) (hpi.take n)
            (ext _ _ (ext _ _ hm (.inr rfl)) (.inl rfl)) ?_ ?_ ?_
          · rw [PlugSys.run_append, hrs, ok_bind, PlugSys.run, PlugSys.step, ok_bind]; rfl
          · rw [stepTake, PlugSys.aggs_setAgg, if_pos rfl]; exact ha
          · rw [stepTake, PlugSys.aggs_setAgg, if_pos rfl]
            simp only [PlugSys.aggs_setAgg, if_true]
            exact Nat.le_of_succ_le_succ hk

/-- C33.  No history in which all locations are delivered, and nothing the plugin calls is undefined, ends the process or
is undefined. -/
theorem C33_no_failure (E : PlugEnv) (sel : AMap Str Str) (mode : CacheMode) (lazy : Bool) (cap : Nat) (fs : FS)
    (old : String → List (Nat × Info)) (indexes : ∀ ip, Holds fs ip (old ip))
    (keys : ∀ k, matchesKey E sel k ≠ undef) (builds : ∀ d, E.build d ≠ undef) (evs : List PlugEv)
    (delivered : ∀ n f, PlugEv.archive n f ∈ evs → f.loc.isSome = true) :
    ∃ s, (PlugSys.start sel mode lazy cap fs).run E evs = .ok s := by
  suffices H : ∀ (evs : List PlugEv) (es : String → List (Nat × Info)) (s : PlugSys), PInv E old es s → s.dict = sel →
      (∀ x ∈ s.archived, x.2.loc.isSome = true) → (∀ n f, PlugEv.archive n f ∈ evs → f.loc.isSome = true) →
      ∃ s', s.run E evs = .ok s' from
    H evs old _ (PInv.start E sel mode lazy cap fs old indexes) rfl (fun x hx => (by cases hx)) delivered
  clear delivered evs
  intro evs
  induction evs with
  | nil => intro es s _ _ _ _; exact ⟨s, rfl⟩
  | cons ev evs ih =>
    intro es s h hd hl hdel
    have hstep : ∃ t, s.step E ev = .ok t ∧ ∀ x ∈ t.archived, x.2.loc.isSome = true := by
      cases ev with
      | archive n f =>
        have hf := hdel n f (.head _)
        have hadd : ∀ x ∈ s.archived ++ [(n, f)], x.2.loc.isSome = true := by
          intro x hx
          rcases List.mem_append.mp hx with hx | hx
          · exact hl x hx
          · rw [List.mem_singleton] at hx; rw [hx]; exact hf
        simp only [PlugSys.step, stepArchive]
        cases hm : matchesKey E s.dict f.key with
        | error e =>
          cases e with
          | ub => exact absurd hm (hd ▸ keys f.key)
          | exn e => exact ⟨s, rfl, hl⟩
        | ok b =>
          simp only
          split
          · exact ⟨_, rfl, hadd⟩
          · split
            · exact ⟨_, rfl, hl⟩
            · split
              · exact ⟨_, rfl, hadd⟩
              · cases hb : E.build f.data with
                | error e =>
                  cases e with
                  | ub => exact absurd hb (builds _)
                  | exn e => exact ⟨_, rfl, hl⟩
                | ok i =>
                  simp only
                  split
                  · exact ⟨_, rfl, hl⟩
                  · exact ⟨_, rfl, hadd⟩
      | take n =>
        refine ⟨_, rfl, ?_⟩
        rw [stepTake]; split <;> exact hl
      | quit n =>
        refine ⟨_, rfl, ?_⟩
        rw [stepQuit]; split <;> exact hl
      | close n =>
        refine ⟨_, rfl, ?_⟩
        rw [stepClose]; split <;> exact hl
      | store n =>
        simp only [PlugSys.step, stepStore]
        split
        · rename_i q cl f i ex ha
          have := hl _ (h.pending n _ (f, i) ha (.inr rfl)).1
          obtain ⟨⟨p, o⟩, hlo⟩ := Option.isSome_iff_exists.mp this
          simp only at hlo
          rw [hlo]
          exact ⟨_, rfl, hl⟩
        · exact ⟨_, rfl, hl⟩
      | finish n =>
        simp only [PlugSys.step, stepEnd]
        split
        · rename_i q hold ha
          obtain ⟨-, hq, -⟩ := h.exited n _ ha rfl
          simp only at hq
          subst hq
          obtain ⟨c, add, g1, -⟩ := h.flush
          rw [cassert_of (by rfl), ok_bind, g1, ok_bind]
          exact ⟨_, rfl, hl⟩
        · exact ⟨_, rfl, hl⟩
    obtain ⟨t, ht, htl⟩ := hstep
    obtain ⟨es', h', -⟩ := h.step ev ht
    obtain ⟨s', hs'⟩ := ih es' t h' ((PlugSys.step_mode ht).2.1.trans hd) htl (fun n f hf => hdel n f (.tail _ hf))
    exact ⟨s', by rw [PlugSys.run, ht, ok_bind]; exact hs'⟩

/-! ### Disagreements -/

/-- Disagreement with C33: if a location is not delivered (its future throws), the indexing thread ends the process. -/
theorem C33_undelivered_location_terminates (s : PlugSys) (n : Nat) (q : List (ArchField × Info)) (closed exited : Bool)
    (f : ArchField) (i : Info) (taken : s.aggs n = some ⟨q, closed, some (f, i), exited⟩) (lost : f.loc = none) :
    stepStore s n = throwExn .terminated := by
  rw [stepStore, taken]
  simp only
  rw [lost]

/-- For the examples: the length of the data shows up in the metadata. -/
def c33Env : PlugEnv :=
  ⟨fun _ => true, fun p v => p == v, throwExn .seriousBug,
    fun d => .ok (.simple { sampleBase with offsetBeforeBitmap := d.length })⟩

def c33Sel : AMap Str Str := [(['c'], ['o', 'd'])]

def c33Field (c : Str) (len : Nat) (loc : Option (String × Nat)) : ArchField :=
  ⟨[(['c'], c)], [71, 82, 73, 66] ++ List.replicate len 0, loc⟩

/-- The value of one member of the metadata the index holds. -/
def c33Indexed (fs : FS) (evs : List PlugEv) (p : String) (o : Nat) : Option Nat :=
  match (PlugSys.start c33Sel (.directory "/c") true 4 fs).run c33Env evs with
  | .ok s => match s.c.indexed p o with
    | some (.simple b) => some b.offsetBeforeBitmap
    | _ => none
  | .error _ => none

def c33Terminated (evs : List PlugEv) : Bool :=
  match (PlugSys.start c33Sel (.directory "/c") true 4 []).run c33Env evs with
  | .error (.exn .terminated) => true
  | _ => false

/-- Two FDBs archive; the first one flushes while the second still has a field in its queue. -/
def c33Events : List PlugEv :=
  [.archive 0 (c33Field ['o', 'd'] 1 (some ("/d/a", 0))), .archive 1 (c33Field ['o', 'd'] 2 (some ("/d/b", 0))), .take 0,
   .archive 0 (c33Field ['r', 'd'] 3 (some ("/d/a", 10))), .archive 0 (c33Field ['o', 'd'] 4 (some ("/d/a", 20))),
   .close 0, .store 0, .take 0, .take 1, .store 0, .quit 0, .finish 0]

/-- Non-vacuity of C33: the selected fields of the flushed FDB are indexed, the others are not (yet). -/
example : c33Indexed [] c33Events "/d/a" 0 = some 5 ∧ c33Indexed [] c33Events "/d/a" 10 = none ∧
    c33Indexed [] c33Events "/d/a" 20 = some 8 ∧ c33Indexed [] c33Events "/d/b" 0 = none ∧
    c33Indexed [] (c33Events ++ [.store 1, .close 1, .quit 1, .finish 1]) "/d/b" 0 = some 6 := by
  decide +kernel

/-- Disagreement with C33: when the index already has an entry for the offset (a data file was removed and written again),
the old metadata stays. -/
theorem C33_old_entry_wins :
    c33Indexed [("/c/a.gribjump", .u8 1 :: entryToks [(0, .simple { sampleBase with offsetBeforeBitmap := 99 })])]
      c33Events "/d/a" 0 = some 99 := by
  decide +kernel

/-- The history of `C33_undelivered_location_terminates` exists. -/
example : c33Terminated [.archive 0 (c33Field ['o', 'd'] 1 none), .take 0, .store 0] = true := by decide +kernel

def c33Archived (evs : List PlugEv) : Nat :=
  match (PlugSys.start c33Sel (.directory "/c") true 4 []).run c33Env evs with
  | .ok s => s.archived.length
  | .error _ => 0

/-- A full queue, in which there is room again when the thread goes on (`C33_archive_accepted`). -/
example :
    let full := (List.range 8).map fun k => PlugEv.archive 0 (c33Field ['o', 'd'] 1 (some ("/d/a", k)))
    let next := PlugEv.archive 0 (c33Field ['o', 'd'] 1 (some ("/d/a", 8)))
    c33Archived full = 8 ∧ c33Archived (full ++ [next]) = 8 ∧ c33Archived (full ++ [.take 0, next]) = 9 := by
  decide +kernel

/-- A selected GRIB field of the examples. -/
example : SelectedGrib c33Env.rx c33Sel (c33Field ['o', 'd'] 1 (some ("/d/a", 0))) := by
  refine ⟨⟨by decide, ?_⟩, by decide⟩
  intro p hp
  have : p = (['c'], ['o', 'd']) := by simpa [c33Sel] using hp
  subst this
  exact ⟨['o', 'd'], by simp [c33Field], by decide⟩

end GJ
