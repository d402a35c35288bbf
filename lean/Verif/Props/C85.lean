import Verif.Model.PyContext
import Verif.Spec.Json
import Verif.Props.C66
import Verif.Props.C62

/-!
# C85: the context a Python user gives arrives whole

Whatever texts a Python user puts into the context of a call, the request headers and metrics lines written for this call
on any node hold a JSON object that reads back to exactly these texts, with the defaults for what was not given.
-/

namespace GJ
open Spec

theorem hexLower_value : ∀ n, n < 16 → hexDigitValue (hexLower n) = some n := by decide

theorem jsonUnit_escape (n : Nat) (hn : n < 0x10000) (rest : Str) :
    ∃ a b c d, pyUnicodeEscape n = '\\' :: 'u' :: a :: b :: c :: d :: [] ∧
      jsonUnit (a :: b :: c :: d :: rest) = some (n, rest) := by
  refine ⟨_, _, _, _, rfl, ?_⟩
  simp only [jsonUnit, hexLower_value _ (Nat.mod_lt _ (by decide : 0 < 16)), Option.bind_eq_bind, Option.bind_some]
  congr 2
  omega

theorem char_scalar (c : Char) : c.toNat < 0xD800 ∨ (0xE000 ≤ c.toNat ∧ c.toNat < 0x110000) := by
  have := c.valid
  simp only [UInt32.isValidChar, Nat.isValidChar] at this
  have e : c.toNat = c.val.toNat := rfl
  omega

theorem jsonUnicode_escape (c : Char) (h : c.toNat < 0x10000) (rest : Str) :
    ∃ t, pyUnicodeEscape c.toNat = '\\' :: 'u' :: t ∧ jsonUnicode (t ++ rest) = some (c, rest) := by
  obtain ⟨a, b, x, d, h1, h2⟩ := jsonUnit_escape c.toNat h rest
  refine ⟨_, h1, ?_⟩
  have hc := char_scalar c
  simp only [List.cons_append, List.nil_append, jsonUnicode, h2]
  rw [if_neg (by omega), if_neg (by omega), Char.ofNat_toNat]

theorem jsonUnicode_pair (c : Char) (h : 0x10000 ≤ c.toNat) (rest : Str) :
    ∃ t, pyUnicodeEscape (0xD800 + (c.toNat - 0x10000) / 0x400 % 0x400) ++
        pyUnicodeEscape (0xDC00 + (c.toNat - 0x10000) % 0x400) = '\\' :: 'u' :: t ∧
      jsonUnicode (t ++ rest) = some (c, rest) := by
  have hc := char_scalar c
  obtain ⟨a, b, x, d, h1, -⟩ := jsonUnit_escape (0xD800 + (c.toNat - 0x10000) / 0x400 % 0x400) (by omega) rest
  obtain ⟨a', b', x', d', h1', h2'⟩ := jsonUnit_escape (0xDC00 + (c.toNat - 0x10000) % 0x400) (by omega) rest
  obtain ⟨a2, b2, x2, d2, h3, h4⟩ := jsonUnit_escape (0xD800 + (c.toNat - 0x10000) / 0x400 % 0x400) (by omega)
    ('\\' :: 'u' :: a' :: b' :: x' :: d' :: rest)
  have e := h1.symm.trans h3
  simp only [List.cons.injEq, true_and, and_true] at e
  obtain ⟨rfl, rfl, rfl, rfl⟩ := e
  rw [h1, h1']
  refine ⟨a :: b :: x :: d :: '\\' :: 'u' :: a' :: b' :: x' :: d' :: [], rfl, ?_⟩
  simp only [List.cons_append, List.nil_append, jsonUnicode, h4, h2']
  rw [if_pos (by omega), if_pos (by omega)]
  have : 0x10000 + (0xD800 + (c.toNat - 0x10000) / 0x400 % 0x400 - 0xD800) * 0x400 +
      (0xDC00 + (c.toNat - 0x10000) % 0x400 - 0xDC00) = c.toNat := by omega
  rw [this, Char.ofNat_toNat]

theorem jsonChar_dumped (c : Char) (rest : Str) : jsonChar (pyJsonChar c ++ rest) = some (some c, rest) := by
  rw [pyJsonChar]
  by_cases h1 : c = '"'
  · rw [if_pos h1, h1]; rfl
  rw [if_neg h1]
  by_cases h2 : c = '\\'
  · rw [if_pos h2, h2]; rfl
  rw [if_neg h2]
  by_cases h3 : c = '\n'
  · rw [if_pos h3, h3]; rfl
  rw [if_neg h3]
  by_cases h4 : c = '\r'
  · rw [if_pos h4, h4]; rfl
  rw [if_neg h4]
  by_cases h5 : c = '\t'
  · rw [if_pos h5, h5]; rfl
  rw [if_neg h5]
  by_cases h6 : c = Char.ofNat 12
  · rw [if_pos h6, h6]; rfl
  rw [if_neg h6]
  by_cases h7 : c = Char.ofNat 8
  · rw [if_pos h7, h7]; rfl
  rw [if_neg h7]
  by_cases h8 : 32 ≤ c.toNat ∧ c.toNat ≤ 126
  · rw [if_pos h8, List.cons_append, List.nil_append, jsonChar.eq_def]
    simp only []
    rw [if_neg h1, if_neg h2, if_neg (by omega)]
  rw [if_neg h8]
  by_cases h9 : c.toNat < 0x10000
  · rw [if_pos h9]
    obtain ⟨t, h, h'⟩ := jsonUnicode_escape c h9 rest
    rw [h, List.cons_append, List.cons_append, jsonChar, if_neg (by decide), if_pos rfl]
    simp only [if_true]
    rw [h']
    rfl
  · rw [if_neg h9]
    obtain ⟨t, h, h'⟩ := jsonUnicode_pair c (by omega) rest
    rw [h, List.cons_append, List.cons_append, jsonChar, if_neg (by decide), if_pos rfl]
    simp only [if_true]
    rw [h']
    rfl

theorem pyJsonChar_pos (c : Char) : 0 < (pyJsonChar c).length := by
  cases h : pyJsonChar c with
  | nil =>
    have := jsonChar_dumped c []
    rw [h] at this
    cases this
  | cons a l => exact Nat.succ_pos _

theorem jsonChars_dumped (s rest : Str) : ∀ fuel, s.length < fuel →
    jsonChars fuel (s.flatMap pyJsonChar ++ '"' :: rest) = some (s, rest) := by
  induction s with
  | nil =>
    intro fuel hf
    obtain ⟨f, rfl⟩ : ∃ f, fuel = f + 1 := ⟨fuel - 1, by omega⟩
    rfl
  | cons c s ih =>
    intro fuel hf
    rw [List.length_cons] at hf
    obtain ⟨f, rfl⟩ : ∃ f, fuel = f + 1 := ⟨fuel - 1, by omega⟩
    rw [List.flatMap_cons, List.append_assoc, jsonChars, jsonChar_dumped]
    simp only []
    rw [ih f (by omega)]
    rfl

theorem flatMap_len (s : Str) : s.length ≤ (s.flatMap pyJsonChar).length := by
  induction s with
  | nil => exact Nat.le_refl _
  | cons c s ih =>
    have := pyJsonChar_pos c
    rw [List.flatMap_cons, List.length_append, List.length_cons]
    omega

/-- **C85, texts.**  What `json.dumps` writes for a text is read back as that text, for every text. -/
theorem C85_text_round_trip (s rest : Str) : jsonString (pyJsonText s ++ rest) = some (s, rest) := by
  rw [pyJsonText, List.cons_append, jsonString, List.append_assoc]
  apply jsonChars_dumped
  have := flatMap_len s
  simp only [List.length_append, List.length_cons]
  omega

theorem jsonSkip_of {c : Char} {rest : Str} (h : ¬ (c = ' ' ∨ c = '\n' ∨ c = '\r' ∨ c = '\t')) :
    jsonSkip (c :: rest) = c :: rest := by
  rw [jsonSkip, if_neg h]

theorem jsonPair_dumped (kv : Str × Str) (rest : Str) : jsonPair (pyJsonPair kv ++ rest) = some (kv, jsonSkip rest) := by
  rw [pyJsonPair, List.append_assoc, List.append_assoc, jsonPair, C85_text_round_trip]
  have e : ": ".toList ++ (pyJsonText kv.2 ++ rest) = ':' :: ' ' :: (pyJsonText kv.2 ++ rest) := rfl
  have e2 : jsonSkip (' ' :: (pyJsonText kv.2 ++ rest)) = pyJsonText kv.2 ++ rest := by
    rw [jsonSkip, if_pos (Or.inl rfl), pyJsonText, List.cons_append, jsonSkip_of (by decide)]
  simp only [Option.bind_eq_bind, Option.bind_some]
  rw [e, jsonSkip_of (by decide)]
  simp only []
  rw [e2, C85_text_round_trip]
  rfl

theorem jsonSkip_pairs (kv : Str × Str) (tail : List (Str × Str)) (rest : Str) :
    jsonSkip (pyJsonPairs (kv :: tail) ++ rest) = pyJsonPairs (kv :: tail) ++ rest ∧
    jsonSkip (' ' :: (pyJsonPairs (kv :: tail) ++ rest)) = pyJsonPairs (kv :: tail) ++ rest := by
  have : ∃ t, pyJsonPairs (kv :: tail) ++ rest = '"' :: t := by
    cases tail <;> exact ⟨_, rfl⟩
  obtain ⟨t, ht⟩ := this
  rw [ht]
  refine ⟨jsonSkip_of (by decide), ?_⟩
  rw [jsonSkip, if_pos (Or.inl rfl), jsonSkip_of (by decide)]

theorem jsonPairs_dumped (rest : Str) : ∀ (dic : List (Str × Str)) (fuel : Nat), dic ≠ [] → dic.length ≤ fuel →
    jsonPairs fuel (pyJsonPairs dic ++ '}' :: rest) = some (dic, rest) := by
  intro dic
  induction dic with
  | nil => intro _ h; exact absurd rfl h
  | cons kv tail ih =>
    intro fuel _ hf
    rw [List.length_cons] at hf
    obtain ⟨f, rfl⟩ : ∃ f, fuel = f + 1 := ⟨fuel - 1, by omega⟩
    cases tail with
    | nil =>
      rw [pyJsonPairs, jsonPairs, jsonPair_dumped, jsonSkip_of (by decide)]
      rfl
    | cons kv' tail =>
      have h := ih f (by simp) (by omega)
      have e : pyJsonPairs (kv :: kv' :: tail) = pyJsonPair kv ++ ", ".toList ++ pyJsonPairs (kv' :: tail) := rfl
      have e2 : ", ".toList ++ (pyJsonPairs (kv' :: tail) ++ '}' :: rest) =
          ',' :: ' ' :: (pyJsonPairs (kv' :: tail) ++ '}' :: rest) := rfl
      rw [e, List.append_assoc, List.append_assoc, jsonPairs, jsonPair_dumped, e2, jsonSkip_of (by decide)]
      simp only []
      rw [(jsonSkip_pairs kv' tail ('}' :: rest)).2, h]
      rfl

theorem pairs_len (dic : List (Str × Str)) : dic.length ≤ (pyJsonPairs dic).length := by
  induction dic with
  | nil => exact Nat.le_refl _
  | cons kv tail ih =>
    cases tail with
    | nil => exact Nat.succ_pos _
    | cons kv' tail =>
      have e : pyJsonPairs (kv :: kv' :: tail) = pyJsonPair kv ++ ", ".toList ++ pyJsonPairs (kv' :: tail) := rfl
      have e2 : ", ".toList.length = 2 := rfl
      rw [e, List.length_append, List.length_append, e2]
      simp only [List.length_cons] at ih ⊢
      omega

/-- **C85, dictionaries.**  What `json.dumps` writes for a dictionary of texts is read back as that dictionary. -/
theorem C85_json_round_trip (dic : List (Str × Str)) : jsonObject (pyJsonDumps dic) = some dic := by
  rw [pyJsonDumps, jsonObject, jsonSkip_of (by decide)]
  simp only []
  cases dic with
  | nil => rfl
  | cons kv tail =>
    have hs := (jsonSkip_pairs kv tail ['}']).1
    have ht : ∃ t, pyJsonPairs (kv :: tail) ++ ['}'] = '"' :: t := by
      cases tail <;> exact ⟨_, rfl⟩
    obtain ⟨t, ht⟩ := ht
    rw [hs]
    have hp := jsonPairs_dumped [] (kv :: tail) (pyJsonPairs (kv :: tail) ++ ['}']).length (by simp)
      (by have := pairs_len (kv :: tail); rw [List.length_append]; omega)
    rw [ht] at hp ⊢
    show (match jsonPairs ('"' :: t).length ('"' :: t) with
      | some (ps, rest) => if jsonSkip rest = [] then some ps else none
      | none => none) = _
    rw [hp]
    rfl

/-! ## Only printable ASCII is written -/

theorem hexLower_plain : ∀ n, n < 16 → 32 ≤ (hexLower n).toNat ∧ (hexLower n).toNat ≤ 126 := by decide

theorem escape_plain (n : Nat) : ∀ c ∈ pyUnicodeEscape n, 32 ≤ c.toNat ∧ c.toNat ≤ 126 := by
  intro c hc
  simp only [pyUnicodeEscape, List.mem_cons, List.not_mem_nil, or_false] at hc
  rcases hc with rfl | rfl | rfl | rfl | rfl | rfl
  · decide
  · decide
  all_goals exact hexLower_plain _ (Nat.mod_lt _ (by decide))

theorem pyJsonChar_plain (x : Char) : ∀ c ∈ pyJsonChar x, 32 ≤ c.toNat ∧ c.toNat ≤ 126 := by
  intro c hc
  rw [pyJsonChar] at hc
  repeat' (split at hc)
  all_goals first
    | (simp only [List.mem_cons, List.not_mem_nil, or_false] at hc
       rcases hc with rfl | rfl <;> decide)
    | (simp only [List.mem_cons, List.not_mem_nil, or_false] at hc
       subst hc; assumption)
    | exact escape_plain _ c hc
    | (rcases List.mem_append.mp hc with hc | hc <;> exact escape_plain _ c hc)

theorem text_plain (s : Str) : ∀ c ∈ pyJsonText s, 32 ≤ c.toNat ∧ c.toNat ≤ 126 := by
  intro c hc
  rw [pyJsonText] at hc
  rcases List.mem_cons.mp hc with rfl | hc
  · decide
  rcases List.mem_append.mp hc with hc | hc
  · obtain ⟨x, -, hx⟩ := List.mem_flatMap.mp hc
    exact pyJsonChar_plain x c hx
  · rw [List.mem_singleton.mp hc]; decide

theorem pair_plain (kv : Str × Str) : ∀ c ∈ pyJsonPair kv, 32 ≤ c.toNat ∧ c.toNat ≤ 126 := by
  intro c hc
  rw [pyJsonPair] at hc
  rcases List.mem_append.mp hc with hc | hc
  · rcases List.mem_append.mp hc with hc | hc
    · exact text_plain _ c hc
    · have : c = ':' ∨ c = ' ' := by simpa using hc
      rcases this with rfl | rfl <;> decide
  · exact text_plain _ c hc

theorem pairs_plain (dic : List (Str × Str)) : ∀ c ∈ pyJsonPairs dic, 32 ≤ c.toNat ∧ c.toNat ≤ 126 := by
  induction dic with
  | nil => intro c hc; cases hc
  | cons kv tail ih =>
    cases tail with
    | nil => exact pair_plain kv
    | cons kv' tail =>
      have e : pyJsonPairs (kv :: kv' :: tail) = pyJsonPair kv ++ ", ".toList ++ pyJsonPairs (kv' :: tail) := rfl
      intro c hc
      rw [e] at hc
      rcases List.mem_append.mp hc with hc | hc
      · rcases List.mem_append.mp hc with hc | hc
        · exact pair_plain _ c hc
        · have : c = ',' ∨ c = ' ' := by simpa using hc
          rcases this with rfl | rfl <;> decide
      · exact ih c hc

theorem dumps_plain (dic : List (Str × Str)) : ∀ c ∈ pyJsonDumps dic, 32 ≤ c.toNat ∧ c.toNat ≤ 126 := by
  intro c hc
  rw [pyJsonDumps] at hc
  rcases List.mem_cons.mp hc with rfl | hc
  · decide
  rcases List.mem_append.mp hc with hc | hc
  · exact pairs_plain dic c hc
  · rw [List.mem_singleton.mp hc]; decide

/-- **C85, the text given to the library.**  Whatever the context, encoding it never fails, C sees all of it, and it reads
as the context with the defaults for the keys it has not. -/
theorem C85_context_whole (ctx : Option (List (Str × Str))) (defaults : List (Str × Str)) :
    ∃ text, pyContext ctx defaults = .ok text ∧ jsonObject text.toList = some (mergeDefaultContext ctx defaults) := by
  have hp := dumps_plain (mergeDefaultContext ctx defaults)
  refine ⟨String.ofList (pyJsonDumps (mergeDefaultContext ctx defaults)), ?_, ?_⟩
  · rw [pyContext, pyAscii, if_pos, ok_bind, cstr_id]
    · intro h0
      have := (hp _ h0).1
      exact absurd this (by decide)
    · rw [List.all_eq_true]
      intro c hc
      have := (hp c hc).2
      exact decide_eq_true (by omega)
  · rw [String.toList_ofList, C85_json_round_trip]

/-! ## Defaults -/

/-- The value of a key. -/
def valueOf (dic : List (Str × Str)) (k : Str) : Option Str := (dic.find? fun kv => kv.1 = k).map Prod.snd

theorem valueOf_filter (defaults : List (Str × Str)) (k : Str) (p : Str → Bool) (hk : p k = true) :
    valueOf (defaults.filter fun kv => p kv.1) k = valueOf defaults k := by
  induction defaults with
  | nil => rfl
  | cons kv rest ih =>
    rw [valueOf, valueOf] at ih ⊢
    by_cases h : kv.1 = k
    · rw [List.filter_cons, if_pos (by rw [h]; exact hk), List.find?_cons_of_pos (by simpa using h),
        List.find?_cons_of_pos (by simpa using h)]
    · rw [List.find?_cons_of_neg (by simpa using h), List.filter_cons]
      by_cases h2 : p kv.1 = true
      · rw [if_pos h2, List.find?_cons_of_neg (by simpa using h)]; exact ih
      · rw [if_neg h2]; exact ih

/-- **C85, defaults.**  A key the user gave has the user's value; any other has its default value, if it has one. -/
theorem C85_defaults (ctx : Option (List (Str × Str))) (defaults : List (Str × Str)) (k : Str) :
    valueOf (mergeDefaultContext ctx defaults) k = (valueOf (ctx.getD []) k).or (valueOf defaults k) := by
  cases ctx with
  | none => rfl
  | some ctx =>
    rw [mergeDefaultContext, Option.getD_some]
    by_cases hk : k ∈ ctx.map Prod.fst
    · obtain ⟨kv, h1, h2⟩ := List.mem_map.mp hk
      have hs : (ctx.find? fun kv => kv.1 = k).isSome = true := by
        rw [List.find?_isSome]
        exact ⟨kv, h1, by simpa using h2⟩
      obtain ⟨x, hx⟩ := Option.isSome_iff_exists.mp hs
      rw [valueOf, valueOf, List.find?_append, hx]
      rfl
    · have hn : ctx.find? (fun kv => decide (kv.1 = k)) = none := by
        rw [List.find?_eq_none]
        intro kv h1 h2
        exact hk (List.mem_map.mpr ⟨kv, h1, by simpa using h2⟩)
      rw [valueOf, List.find?_append, hn, Option.none_or]
      have h3 : valueOf ctx k = none := by rw [valueOf, hn]; rfl
      rw [h3, Option.none_or]
      exact valueOf_filter defaults k (fun x => !(ctx.map Prod.fst).contains x) (by simpa using hk)

/-- What the defaults say: each of the six keys that the user leaves out has the value of that name — the program, the call,
the two versions, the user and the host — and no other key is added. -/
theorem C85_default_values (ctx : Option (List (Str × Str))) (action pyVersion version user host : Str) :
    ∃ text dic, pyContext ctx (defaultContext action pyVersion version user host) = .ok text ∧ jsonObject text.toList = some dic ∧
      valueOf dic "source".toList = some ((valueOf (ctx.getD []) "source".toList).getD "pygribjump".toList) ∧
      valueOf dic "action".toList = some ((valueOf (ctx.getD []) "action".toList).getD action) ∧
      valueOf dic "pygribjump_version".toList = some ((valueOf (ctx.getD []) "pygribjump_version".toList).getD pyVersion) ∧
      valueOf dic "gribjump_version".toList = some ((valueOf (ctx.getD []) "gribjump_version".toList).getD version) ∧
      valueOf dic "user".toList = some ((valueOf (ctx.getD []) "user".toList).getD user) ∧
      valueOf dic "hostname".toList = some ((valueOf (ctx.getD []) "hostname".toList).getD host) ∧
      ∀ k, k ∉ ["source".toList, "action".toList, "pygribjump_version".toList, "gribjump_version".toList, "user".toList,
        "hostname".toList] → valueOf dic k = valueOf (ctx.getD []) k := by
  obtain ⟨t, h1, h2⟩ := C85_context_whole ctx (defaultContext action pyVersion version user host)
  have or_some : ∀ (o : Option Str) (x : Str), o.or (some x) = some (o.getD x) := by
    intro o x
    cases o <;> rfl
  refine ⟨t, _, h1, h2, ?_, ?_, ?_, ?_, ?_, ?_, ?_⟩
  · rw [C85_defaults, ← or_some]; rfl
  · rw [C85_defaults, ← or_some]; rfl
  · rw [C85_defaults, ← or_some]; rfl
  · rw [C85_defaults, ← or_some]; rfl
  · rw [C85_defaults, ← or_some]; rfl
  · rw [C85_defaults, ← or_some]; rfl
  · intro k hk
    rw [C85_defaults]
    have hn : valueOf (defaultContext action pyVersion version user host) k = none := by
      rw [valueOf, List.find?_eq_none.mpr]
      · rfl
      · intro kv hm he
        apply hk
        have he := of_decide_eq_true he
        rw [← he]
        have hm2 : kv.1 ∈ (defaultContext action pyVersion version user host).map Prod.fst := List.mem_map.mpr ⟨kv, hm, rfl⟩
        exact hm2
    rw [hn, Option.or_none]

/-- **C85, end to end.**  Whatever the threads, workers and servers of a system do: a request header or metrics line for a
call made from Python holds a JSON object in which every key the user gave has the user's value, and every other key its
default.  What eckit's own JSON reader accepts is the parameter `valid`, as in C66. -/
theorem C85_python_context (valid : String → Bool) (es : List CtxEv) (m : CtxMsg)
    (h : m ∈ (ctxInit.run valid es).sent ∨ m ∈ (ctxInit.run valid es).lines) (ctx : Option (List (Str × Str)))
    (defaults : List (Str × Str)) (text : String) (made : pyContext ctx defaults = .ok text)
    (call : (ctxInit.run valid es).calls[m.call]? = some text) :
    ∃ dic, jsonObject m.ctx.toList = some dic ∧
      ∀ k, valueOf dic k = (valueOf (ctx.getD []) k).or (valueOf defaults k) := by
  obtain ⟨t, h1, h2⟩ := C85_context_whole ctx defaults
  rw [made] at h1
  cases h1
  have := C66_context_of_the_call valid es m h
  rw [call] at this
  cases this
  exact ⟨_, h2, C85_defaults ctx defaults⟩

/-! ## A case -/

def c85Ctx : List (Str × Str) := [("origin".toList, "Łódź \"1\"\n😀".toList), ("user".toList, "me".toList)]

def c85Defaults : List (Str × Str) :=
  defaultContext "pygribjump_extract".toList "0.10".toList "0.10".toList "unknown".toList "host".toList

def c85Text : String := (pyContext (some c85Ctx) c85Defaults).toOption.getD ""

example : pyContext (some c85Ctx) [] =
    .ok "{\"origin\": \"\\u0141\\u00f3d\\u017a \\\"1\\\"\\n\\ud83d\\ude00\", \"user\": \"me\"}" := by decide +kernel

example : pyContext (some c85Ctx) c85Defaults = .ok c85Text ∧
    (ctxInit.run (fun _ => true) [.call 0 c85Text, .send 0, .receive 2 0, .report 2]).calls[0]? = some c85Text ∧
    (ctxInit.run (fun _ => true) [.call 0 c85Text, .send 0, .receive 2 0, .report 2]).lines = [⟨c85Text, 0⟩] ∧
    (jsonObject c85Text.toList).map (fun d => (valueOf d "user".toList, valueOf d "source".toList)) =
      some (some "me".toList, some "pygribjump".toList) := by decide +kernel

/-- A user who gives one of the six and one more: the other five are as named. -/
example : ((pyContext (some c85Ctx) c85Defaults).toOption.bind fun t => jsonObject t.toList).map (fun d =>
      (valueOf d "user".toList, valueOf d "hostname".toList, valueOf d "action".toList, valueOf d "time".toList)) =
    some (some "me".toList, some "host".toList, some "pygribjump_extract".toList, none) := by decide +kernel

end GJ
