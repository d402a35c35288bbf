import Verif.Model.Tools
import Verif.Spec.Tools
import Verif.Lemmas.Canon
import Verif.Lemmas.Text
import Verif.Lemmas.Engine
import Verif.Props.C48
import Verif.Props.C49

/-!
# C58: the ranges file of the command-line tools says what is extracted
-/

namespace GJ
open Spec

theorem decimal_digits (n : Nat) : ∀ c ∈ decimal n, c.isDigit = true := toString_nat_digits n

theorem decimal_ne (n : Nat) : decimal n ≠ [] := by
  intro h
  have h2 : (toString n).toList = [] := h
  rw [show toString n = Nat.repr n from rfl, Nat.toList_repr] at h2
  exact absurd h2 (by simp)

theorem decimal_value (n : Nat) : Nat.ofDigitChars 10 (decimal n) 0 = n := by
  have : decimal n = Nat.toDigits 10 n := by
    show (toString n).toList = _
    rw [show toString n = Nat.repr n from rfl, Nat.toList_repr]
  rw [this, Nat.ofDigitChars_toDigits (by decide) (by decide)]

theorem digit_not {c d : Char} (hd : d.isDigit = false) (h : c.isDigit = true) : c ≠ d := by
  rintro rfl
  rw [hd] at h
  cases h

theorem digit_not_space {c : Char} (h : c.isDigit = true) : isSpaceC c = false := by
  have h2 : 48 ≤ c.toNat := by
    simp only [Char.isDigit, Bool.and_eq_true, decide_eq_true_eq] at h
    exact h.1
  have h1 : c ≠ ' ' := digit_not (by decide) h
  rw [isSpaceC]
  simp only [h1, decide_false, Bool.false_or, Bool.and_eq_false_imp, decide_eq_true_eq, decide_eq_false_iff_not]
  intro _
  omega

theorem stoi_decimal (pre : Str) (hp : ∀ c ∈ pre, isSpaceC c = true) (n : Nat) :
    stoi (pre ++ decimal n) = if 2 ^ 31 ≤ n then throwExn .outOfRange else .ok (n : Int) := by
  have hdrop : (pre ++ decimal n).dropWhile isSpaceC = decimal n := by
    induction pre with
    | nil =>
      rw [List.nil_append]
      cases hd : decimal n with
      | nil => rfl
      | cons c cs =>
        rw [List.dropWhile_cons_of_neg]
        have := digit_not_space (decimal_digits n c (by rw [hd]; exact List.mem_cons_self ..))
        rw [this]; simp
    | cons c cs ih =>
      rw [List.cons_append, List.dropWhile_cons_of_pos (hp c (List.mem_cons_self ..))]
      exact ih fun c hc => hp c (List.mem_cons_of_mem _ hc)
  have htake : (decimal n).takeWhile Char.isDigit = decimal n := by
    have : ∀ l : Str, (∀ c ∈ l, c.isDigit = true) → l.takeWhile Char.isDigit = l := by
      intro l
      induction l with
      | nil => intro _; rfl
      | cons c cs ih =>
        intro h
        rw [List.takeWhile_cons_of_pos (h c (List.mem_cons_self ..)), ih fun c hc => h c (List.mem_cons_of_mem _ hc)]
    exact this _ (decimal_digits n)
  rw [stoi]
  simp only [hdrop]
  have hsign : takeSign (decimal n) = (false, decimal n) := by
    cases hd : decimal n with
    | nil => rfl
    | cons c cs =>
      have hc := decimal_digits n c (by rw [hd]; exact List.mem_cons_self ..)
      rw [takeSign, if_neg (digit_not (by decide) hc), if_neg (digit_not (by decide) hc)]
  rw [hsign]
  simp only [htake, if_neg (decimal_ne n), decimal_value, Bool.false_eq_true, if_false]
  by_cases h : 2 ^ 31 ≤ n
  · rw [if_pos h, if_pos (Or.inr (by omega))]
  · rw [if_neg h, if_neg (by omega)]

theorem toSizeT_nat (n : Nat) (h : n < 2 ^ 31) : toSizeT (n : Int) = n := by
  rw [toSizeT, Int.emod_eq_of_lt (by omega) (by omega)]
  rfl

theorem dash_notin (pre : Str) (hp : ∀ c ∈ pre, isSpaceC c = true) (n : Nat) (d : Char) (hd : d.isDigit = false)
    (hs : isSpaceC d = false) : d ∉ pre ++ decimal n := by
  intro h
  rcases List.mem_append.mp h with h | h
  · rw [hp d h] at hs; cases hs
  · rw [decimal_digits n d h] at hd; cases hd

theorem parseRange_text (pre : Str) (hp : ∀ c ∈ pre, isSpaceC c = true) (i : Interval) :
    parseRange (pre ++ rangeText i) =
      if 2 ^ 31 ≤ i.b ∨ 2 ^ 31 ≤ i.e then throwExn .outOfRange else .ok i := by
  have ht : tokens '-' (pre ++ rangeText i) = [pre ++ decimal i.b, decimal i.e] := by
    have hb := dash_notin pre hp i.b '-' (by decide) (by decide)
    have he := dash_notin [] (by simp) i.e '-' (by decide) (by decide)
    rw [List.nil_append] at he
    have : pre ++ rangeText i = (pre ++ decimal i.b) ++ '-' :: decimal i.e := by
      rw [rangeText]; simp
    have hne : pre ++ decimal i.b ≠ [] := by
      intro h
      exact decimal_ne i.b (List.append_eq_nil_iff.mp h).2
    rw [this, tokens, splitOn_piece _ _ _ hb, splitOn_last _ _ he]
    simp [hne, decimal_ne]
  rw [parseRange, ht]
  simp only
  rw [stoi_decimal pre hp]
  have h2 := stoi_decimal [] (by simp) i.e
  rw [List.nil_append] at h2
  rw [h2]
  by_cases hb : 2 ^ 31 ≤ i.b
  · rw [if_pos hb, if_pos (Or.inl hb)]; rfl
  · rw [if_neg hb, ok_bind]
    by_cases he : 2 ^ 31 ≤ i.e
    · rw [if_pos he, if_pos (Or.inr he)]; rfl
    · rw [if_neg he, ok_bind, toSizeT_nat _ (by omega), toSizeT_nat _ (by omega), if_neg (by omega)]

theorem rangeText_no (pre : Str) (hp : ∀ c ∈ pre, isSpaceC c = true) (i : Interval) (d : Char) (hd : d.isDigit = false)
    (hs : isSpaceC d = false) (hm : d ≠ '-') : d ∉ pre ++ rangeText i := by
  intro h
  rcases List.mem_append.mp h with h | h
  · rw [hp d h] at hs; cases hs
  · rw [rangeText, List.append_assoc] at h
    rcases List.mem_append.mp h with h | h
    · rw [decimal_digits _ d h] at hd; cases hd
    · rcases List.mem_cons.mp h with h | h
      · exact hm h
      · rw [decimal_digits _ d h] at hd; cases hd

theorem rangeText_ne (pre : Str) (i : Interval) : pre ++ rangeText i ≠ [] := by
  intro h
  have := (List.append_eq_nil_iff.mp h).2
  simp [rangeText] at this

theorem tokens_line : ∀ (rs : List Interval) (pre : Str), (∀ c ∈ pre, isSpaceC c = true) → rs ≠ [] →
    ∃ ps : List Str, tokens ',' (pre ++ rangesLine rs) = List.zipWith (fun p i => p ++ rangeText i) ps rs ∧
      ps.length = rs.length ∧ ∀ p ∈ ps, ∀ c ∈ p, isSpaceC c = true := by
  intro rs
  induction rs with
  | nil => intro pre _ h; exact absurd rfl h
  | cons i rest ih =>
    intro pre hp _
    have hno := rangeText_no pre hp i ',' (by decide) (by decide) (by decide)
    have hne := rangeText_ne pre i
    cases rest with
    | nil =>
      refine ⟨[pre], ?_, rfl, by simpa using hp⟩
      rw [rangesLine, tokens, splitOn_last _ _ hno]
      simp [hne]
    | cons j rest =>
      obtain ⟨ps, h1, h2, h3⟩ := ih [' '] (by decide) (by simp)
      refine ⟨pre :: ps, ?_, by simp [h2], ?_⟩
      · have : pre ++ rangesLine (i :: j :: rest) = (pre ++ rangeText i) ++ ',' :: ([' '] ++ rangesLine (j :: rest)) := by
          rw [rangesLine]; simp
          simp
        rw [this, tokens, splitOn_piece _ _ _ hno, List.filter_cons, if_pos (decide_eq_true hne)]
        rw [tokens] at h1
        rw [h1]
        rfl
      · intro p hp'
        rcases List.mem_cons.mp hp' with rfl | hp'
        · exact hp
        · exact h3 p hp'

theorem parse_pieces : ∀ (rs : List Interval) (ps : List Str), ps.length = rs.length →
    (∀ p ∈ ps, ∀ c ∈ p, isSpaceC c = true) →
    (List.zipWith (fun p i => p ++ rangeText i) ps rs).mapM parseRange =
      if ∃ i ∈ rs, 2 ^ 31 ≤ i.b ∨ 2 ^ 31 ≤ i.e then throwExn .outOfRange else .ok rs := by
  intro rs
  induction rs with
  | nil => intro ps h _; cases ps <;> simp_all [pure, Except.pure]
  | cons i rest ih =>
    intro ps hl hp
    cases ps with
    | nil => simp at hl
    | cons p ps =>
      rw [List.zipWith_cons_cons, List.mapM_cons, parseRange_text p (hp p (List.mem_cons_self ..))]
      rw [ih ps (by simpa using hl) fun p h => hp p (List.mem_cons_of_mem _ h)]
      by_cases h1 : 2 ^ 31 ≤ i.b ∨ 2 ^ 31 ≤ i.e
      · have h3 : ∃ x ∈ i :: rest, 2 ^ 31 ≤ x.b ∨ 2 ^ 31 ≤ x.e := ⟨i, List.mem_cons_self .., h1⟩
        rw [if_pos h1, if_pos h3]; rfl
      · rw [if_neg h1, ok_bind]
        by_cases h2 : ∃ i ∈ rest, 2 ^ 31 ≤ i.b ∨ 2 ^ 31 ≤ i.e
        · obtain ⟨j, hj, hc⟩ := h2
          rw [if_pos ⟨j, hj, hc⟩, if_pos ⟨j, List.mem_cons_of_mem _ hj, hc⟩]; rfl
        · rw [if_neg h2, ok_bind, if_neg]
          · rfl
          · rintro ⟨j, hj, hc⟩
            rcases List.mem_cons.mp hj with rfl | hj
            · exact h1 hc
            · exact h2 ⟨j, hj, hc⟩

theorem parseRangesLine_text (rs : List Interval) :
    parseRangesLine (rangesLine rs) =
      if ∃ i ∈ rs, 2 ^ 31 ≤ i.b ∨ 2 ^ 31 ≤ i.e then throwExn .outOfRange else .ok rs := by
  cases rs with
  | nil => simp [rangesLine, parseRangesLine, tokens, splitOn, pure, Except.pure]
  | cons i rest =>
    obtain ⟨ps, h1, h2, h3⟩ := tokens_line (i :: rest) [] (by simp) (by simp)
    rw [List.nil_append] at h1
    rw [parseRangesLine, h1, parse_pieces _ _ h2 h3]

theorem mapM_each {α β : Type} {f : α → Res β} {l : List α} {out : List β} (h : l.mapM f = .ok out) :
    ∀ a ∈ l, ∃ b ∈ out, f a = .ok b := by
  intro a ha
  obtain ⟨j, hj⟩ := List.getElem?_of_mem ha
  have hlen := mapM_length h
  have hlt : j < out.length := by rw [hlen]; exact (List.getElem?_eq_some_iff.mp hj).1
  have hb := List.getElem?_eq_getElem hlt
  exact ⟨out[j], List.mem_of_getElem? hb, mapM_getElem h hj hb⟩

theorem newline_notin_line (rs : List Interval) : '\n' ∉ rangesLine rs := by
  have hr : ∀ i, '\n' ∉ rangeText i := by
    intro i h
    rw [rangeText, List.append_assoc] at h
    rcases List.mem_append.mp h with h | h
    · exact absurd (decimal_digits _ _ h) (by decide)
    · rcases List.mem_cons.mp h with h | h
      · exact absurd h (by decide)
      · exact absurd (decimal_digits _ _ h) (by decide)
  induction rs with
  | nil => simp [rangesLine]
  | cons i rest ih =>
    cases rest with
    | nil => rw [rangesLine]; exact hr i
    | cons j rest =>
      rw [rangesLine]
      · intro h
        rw [List.append_assoc] at h
        rcases List.mem_append.mp h with h | h
        · exact hr i h
        · rcases List.mem_append.mp h with h | h
          · exact absurd h (by decide)
          · exact ih h
      · simp

theorem textLines_text (rss : List (List Interval)) : textLines (rangesText rss) = rss.map rangesLine := by
  have h : splitOn '\n' (rangesText rss) = rss.map rangesLine ++ [[]] := by
    induction rss with
    | nil => rfl
    | cons rs rest ih =>
      have : rangesText (rs :: rest) = rangesLine rs ++ '\n' :: rangesText rest := by
        rw [rangesText, List.flatMap_cons, List.append_assoc]; rfl
      rw [this, splitOn_piece _ _ _ (newline_notin_line rs), ih]
      rfl
  rw [textLines, h]
  simp

/-- **C58.**  A ranges file written as documented is read as the ranges it states, one list per line, if the numbers are
below `2^31`; otherwise reading it fails. -/
theorem C58_ranges_as_written (rss : List (List Interval)) :
    parseRangesFile (some (rangesText rss)) =
      if ∃ rs ∈ rss, ∃ i ∈ rs, 2 ^ 31 ≤ i.b ∨ 2 ^ 31 ≤ i.e then throwExn .outOfRange else .ok rss := by
  rw [parseRangesFile, textLines_text]
  induction rss with
  | nil => simp [pure, Except.pure]
  | cons rs rest ih =>
    rw [List.map_cons, List.mapM_cons, parseRangesLine_text, ih]
    by_cases h1 : ∃ i ∈ rs, 2 ^ 31 ≤ i.b ∨ 2 ^ 31 ≤ i.e
    · have h3 : ∃ x ∈ rs :: rest, ∃ i ∈ x, 2 ^ 31 ≤ i.b ∨ 2 ^ 31 ≤ i.e := ⟨rs, List.mem_cons_self .., h1⟩
      rw [if_pos h1, if_pos h3]; rfl
    · rw [if_neg h1, ok_bind]
      by_cases h2 : ∃ rs ∈ rest, ∃ i ∈ rs, 2 ^ 31 ≤ i.b ∨ 2 ^ 31 ≤ i.e
      · obtain ⟨j, hj, hc⟩ := h2
        rw [if_pos ⟨j, hj, hc⟩, if_pos ⟨j, List.mem_cons_of_mem _ hj, hc⟩]; rfl
      · rw [if_neg h2, ok_bind, if_neg]
        · rfl
        · rintro ⟨j, hj, hc⟩
          rcases List.mem_cons.mp hj with rfl | hj
          · exact h1 hc
          · exact h2 ⟨j, hj, hc⟩

theorem textLines_open (rss : List (List Interval)) (hlast : ∀ rs, rss.getLast? = some rs → rs ≠ []) :
    textLines (rangesTextOpen rss) = rss.map rangesLine := by
  have hne : ∀ rs : List Interval, rs ≠ [] → rangesLine rs ≠ [] := by
    intro rs h1 h2
    match rs with
    | [] => exact h1 rfl
    | [i] => exact rangeText_ne [] i (by rw [rangesLine] at h2; simpa using h2)
    | i :: j :: rest =>
      rw [rangesLine] at h2
      · exact rangeText_ne [] i (by simpa using (List.append_eq_nil_iff.mp (List.append_eq_nil_iff.mp h2).1).1)
      · simp
  have h : rss ≠ [] → splitOn '\n' (rangesTextOpen rss) = rss.map rangesLine := by
    clear hlast
    induction rss with
    | nil => intro h; exact absurd rfl h
    | cons rs rest ih =>
      intro _
      cases rest with
      | nil => rw [rangesTextOpen, splitOn_last _ _ (newline_notin_line rs)]; rfl
      | cons rs' rest =>
        rw [rangesTextOpen, List.append_assoc, List.singleton_append, splitOn_piece _ _ _ (newline_notin_line rs),
          ih (by simp)]
        · rfl
        · simp
  cases rss with
  | nil => rfl
  | cons rs rest =>
    rw [textLines, h (by simp), if_neg]
    rw [List.getLast?_map]
    intro e
    cases hl : (rs :: rest).getLast? with
    | none => rw [hl] at e; cases e
    | some x =>
      rw [hl] at e
      exact hne x (hlast x hl) (Option.some.inj e)

/-- **C58.**  The newline after the last line may be left out, if that line is not empty. -/
theorem C58_last_newline_optional (rss : List (List Interval)) (hlast : ∀ rs, rss.getLast? = some rs → rs ≠ []) :
    parseRangesFile (some (rangesTextOpen rss)) = parseRangesFile (some (rangesText rss)) := by
  rw [parseRangesFile, parseRangesFile, textLines_open rss hlast, textLines_text]

theorem stoi_number {s : Str} {v : Int} (h : stoi s = .ok v) : BeginsWithNumber s := by
  rw [stoi] at h
  simp only at h
  have hs : s = s.takeWhile isSpaceC ++ s.dropWhile isSpaceC := List.takeWhile_append_dropWhile.symm
  have hb : ∀ c ∈ s.takeWhile isSpaceC, c = ' ' ∨ (9 ≤ c.toNat ∧ c.toNat ≤ 13) := by
    intro c hc
    have := List.all_eq_true.mp (List.all_takeWhile (l := s) (p := isSpaceC)) c hc
    simpa [isSpaceC] using this
  generalize s.takeWhile isSpaceC = blanks at hs hb
  generalize s.dropWhile isSpaceC = t at hs h
  have hsign : ∃ sign, t = sign ++ (takeSign t).2 ∧ (sign = [] ∨ sign = ['-'] ∨ sign = ['+']) := by
    cases t with
    | nil => exact ⟨[], rfl, Or.inl rfl⟩
    | cons c r =>
      rw [takeSign]
      by_cases h1 : c = '-'
      · rw [if_pos h1, h1]; exact ⟨['-'], rfl, Or.inr (Or.inl rfl)⟩
      · rw [if_neg h1]
        by_cases h2 : c = '+'
        · rw [if_pos h2, h2]; exact ⟨['+'], rfl, Or.inr (Or.inr rfl)⟩
        · rw [if_neg h2]; exact ⟨[], rfl, Or.inl rfl⟩
  obtain ⟨sign, ht, hsg⟩ := hsign
  by_cases hd : (takeSign t).2.takeWhile Char.isDigit = []
  · rw [if_pos hd] at h; cases h
  · cases hu : (takeSign t).2 with
    | nil => rw [hu] at hd; exact absurd rfl hd
    | cons d rest =>
      refine ⟨blanks, sign, d, rest, ?_, hb, hsg, ?_⟩
      · rw [hs, List.append_assoc, ← hu, ← ht]
      · rw [hu] at hd
        cases hdd : d.isDigit with
        | true => rfl
        | false => rw [List.takeWhile_cons_of_neg (by simp [hdd])] at hd; exact absurd rfl hd

/-- **C58, what is refused.**  A file is only accepted if every piece between commas consists of two parts joined by a
dash, each beginning with a number. -/
theorem C58_accepted_only_numbers (text : Str) (rss : List (List Interval))
    (accepted : parseRangesFile (some text) = .ok rss) :
    ∀ line ∈ textLines text, ∀ piece ∈ tokens ',' line,
      ∃ b e, tokens '-' piece = [b, e] ∧ BeginsWithNumber b ∧ BeginsWithNumber e := by
  intro line hl piece hp
  obtain ⟨rs, -, h1⟩ := mapM_each accepted line hl
  obtain ⟨i, -, h2⟩ := mapM_each h1 piece hp
  rw [parseRange] at h2
  split at h2
  · rename_i b e heq
    obtain ⟨v, hv, h2⟩ := res_bind_inv h2
    obtain ⟨w, hw, h2⟩ := res_bind_inv h2
    exact ⟨b, e, heq, stoi_number hv, stoi_number hw⟩
  · cases h2

/-- **C58, pairing.**  The tools go on exactly if there is one line per request, or one line and a request; request `i`
gets line `i`, or the only line. -/
theorem C58_ranges_of_request (n : Nat) (rss out : List (List Interval)) :
    toolRanges n rss = .ok out ↔
      (rss.length = n ∧ out = rss) ∨ ∃ rs, rss = [rs] ∧ 1 ≤ n ∧ out = List.replicate n rs := by
  have hrep : ∀ rs : List Interval, 1 ≤ n → rs :: List.replicate (n - 1) rs = List.replicate n rs := by
    intro rs h
    rw [← List.replicate_succ, Nat.sub_add_cancel h]
  have hok : toolRanges n rss = .ok out ↔ n = (sharedRanges n rss).length ∧ out = sharedRanges n rss := by
    rw [toolRanges]
    split
    · rename_i h
      exact ⟨fun e => ⟨h, (Except.ok.inj e).symm⟩, fun e => by rw [e.2]⟩
    · rename_i h
      exact ⟨fun e => (by cases e), fun e => absurd e.1 h⟩
  rw [hok]
  match rss with
  | [] =>
    rw [show sharedRanges n [] = [] from rfl]
    constructor
    · rintro ⟨h, rfl⟩; exact Or.inl ⟨h.symm, rfl⟩
    · rintro (⟨h, rfl⟩ | ⟨rs, h, -⟩)
      · exact ⟨h.symm, rfl⟩
      · cases h
  | [rs] =>
    rw [show sharedRanges n [rs] = rs :: List.replicate (n - 1) rs from rfl, List.length_cons, List.length_replicate]
    constructor
    · rintro ⟨h, rfl⟩
      exact Or.inr ⟨rs, rfl, by omega, hrep rs (by omega)⟩
    · rintro (⟨h, rfl⟩ | ⟨rs', h, h1, rfl⟩)
      · subst h; exact ⟨rfl, rfl⟩
      · cases h
        exact ⟨by omega, (hrep rs h1).symm⟩
  | a :: b :: rest =>
    rw [show sharedRanges n (a :: b :: rest) = a :: b :: rest from rfl]
    constructor
    · rintro ⟨h, rfl⟩; exact Or.inl ⟨h.symm, rfl⟩
    · rintro (⟨h, rfl⟩ | ⟨rs, h, -⟩)
      · exact ⟨h.symm, rfl⟩
      · cases h

theorem stoi_defined (s : Str) : stoi s ≠ undef := by
  rw [stoi]
  simp only
  generalize hn : (if (takeSign (s.dropWhile isSpaceC)).1 = true then _ else _ : Int) = v
  by_cases h1 : (takeSign (s.dropWhile isSpaceC)).2.takeWhile Char.isDigit = []
  · rw [if_pos h1]; intro h; cases h
  · rw [if_neg h1]
    by_cases h2 : v < -2 ^ 31 ∨ 2 ^ 31 ≤ v
    · rw [if_pos h2]; intro h; cases h
    · rw [if_neg h2]; intro h; cases h

theorem mapM_defined {α β : Type} {f : α → Res β} (hf : ∀ a, f a ≠ undef) : ∀ l : List α, l.mapM f ≠ undef := by
  intro l
  induction l with
  | nil => intro h; rw [List.mapM_nil] at h; cases h
  | cons a l ih =>
    rw [List.mapM_cons]
    exact bind_defined (hf a) fun b => bind_defined ih fun bs h => by cases h

/-- **C58, any file.**  Whatever the file contains, reading it gives one list per line or an exception. -/
theorem C58_any_file (text : Str) :
    (parseRangesFile (some text) ≠ undef) ∧
    ∀ rss, parseRangesFile (some text) = .ok rss → rss.length = (textLines text).length := by
  refine ⟨?_, fun rss h => mapM_length h⟩
  refine mapM_defined (fun line => mapM_defined (fun s => ?_) _) _
  rw [parseRange]
  split
  · exact bind_defined (stoi_defined _) fun b => bind_defined (stoi_defined _) fun e h => by cases h
  · intro h; cases h

/-- C58 is false of texts that are not as documented: what follows the digits of a number is ignored, so a fraction or a
stray word changes nothing and is not reported; and a ranges file that cannot be opened is taken for an empty one. -/
theorem C58_junk_accepted :
    parseRangesFile (some "1.5-7.9e3, 10x-20 30\n".toList) = .ok [[⟨1, 7⟩, ⟨10, 20⟩]] ∧
    parseRangesFile none = .ok [] := by decide +kernel

/-- A minus sign is taken for a separator: a range with a negative start is not refused, the sign is dropped. -/
theorem C58_minus_dropped : parseRangesFile (some "-5-20\n".toList) = .ok [[⟨5, 20⟩]] ∧
    stoi "-5".toList = .ok (-5) := by decide +kernel

/-- Refused: no number, three numbers, only one. -/
example : parseRangesFile (some "10-20, a-5\n".toList) = throwExn .badValue ∧
    parseRangesFile (some "10-20-30".toList) = throwExn .assertFailed ∧
    parseRangesFile (some "10".toList) = throwExn .assertFailed ∧
    rangesTextOpen [[⟨10, 20⟩], [⟨1, 2⟩]] = "10-20\n1-2".toList := by decide +kernel

/-- Non-vacuity of C58. -/
example : parseRangesFile (some "10-20, 30-40\n\n0-2147483647\n".toList) = .ok [[⟨10, 20⟩, ⟨30, 40⟩], [], [⟨0, 2147483647⟩]] ∧
    rangesText [[⟨10, 20⟩, ⟨30, 40⟩], [], [⟨0, 2147483647⟩]] = "10-20, 30-40\n\n0-2147483647\n".toList ∧
    parseRangesFile (some "10-2147483648\n".toList) = throwExn .outOfRange ∧
    toolRanges 3 [[⟨10, 20⟩]] = .ok [[⟨10, 20⟩], [⟨10, 20⟩], [⟨10, 20⟩]] := by decide +kernel

end GJ
