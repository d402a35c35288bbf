import Verif.Model.Axes
import Verif.Spec.Axes
import Verif.Props.C22
import Verif.Props.C62

/-!
# C63: axes queries

What FDB lists for a request is what a C++, Python or Rust user gets, on the node itself or through a server.
-/

namespace GJ

open Spec

/-! ## The lister -/

theorem foldl_setInsert (vs s : List String) (hs : s.Nodup) :
    (vs.foldl setInsert s).Nodup ∧ ∀ v, v ∈ vs.foldl setInsert s ↔ v ∈ s ∨ v ∈ vs := by
  induction vs generalizing s with
  | nil => exact ⟨hs, fun v => by simp⟩
  | cons x rest ih =>
    rw [List.foldl_cons, setInsert]
    by_cases hx : x ∈ s
    · rw [if_pos hx]
      obtain ⟨h1, h2⟩ := ih s hs
      refine ⟨h1, fun v => (h2 v).trans ?_⟩
      rw [List.mem_cons]
      constructor
      · rintro (h | h)
        · exact Or.inl h
        · exact Or.inr (Or.inr h)
      · rintro (h | h | h)
        · exact Or.inl h
        · exact Or.inl (h ▸ hx)
        · exact Or.inr h
    · rw [if_neg hx]
      have hn : (s ++ [x]).Nodup := by
        rw [List.nodup_append]
        refine ⟨hs, by simp, ?_⟩
        intro a ha b hb
        rw [List.mem_singleton] at hb
        subst hb
        rintro rfl
        exact hx ha
      obtain ⟨h1, h2⟩ := ih _ hn
      refine ⟨h1, fun v => (h2 v).trans ?_⟩
      simp only [List.mem_append, List.mem_cons, List.not_mem_nil, or_false, or_assoc]

theorem axesOf_eq (listing : List (String × List String)) (once : (listing.map Prod.fst).Nodup) :
    axesOf listing = listing.map fun kv => (kv.1, kv.2.foldl setInsert []) := by
  have h := AMap.rebuild (listing.map fun kv => (kv.1, kv.2.foldl setInsert [])) [] (by
    simpa [AMap.keys, List.map_map, Function.comp_def] using once)
  rw [List.foldl_map, List.nil_append] at h
  exact h

theorem axesOf_spec (listing : List (String × List String)) (once : (listing.map Prod.fst).Nodup) :
    AxesOfListing listing (axesOf listing) := by
  rw [axesOf_eq listing once]
  have e : (listing.map fun kv => (kv.1, kv.2.foldl setInsert [])).map Prod.fst = listing.map Prod.fst := by
    rw [List.map_map]; rfl
  refine ⟨by rw [e]; exact once, fun k => by rw [e], ?_⟩
  intro k vs ws hv hw
  obtain ⟨p, hp, e⟩ := List.mem_map.mp hv
  obtain ⟨e1, e2⟩ := Prod.mk.inj e
  have h1 := (AMap.mem_iff_find listing once p.1 p.2).mp hp
  have h2 := (AMap.mem_iff_find listing once k ws).mp hw
  rw [e1, h2] at h1
  have e3 := Option.some.inj h1
  obtain ⟨g1, g2⟩ := foldl_setInsert p.2 [] List.nodup_nil
  rw [← e2, e3]
  rw [← e3] at *
  exact ⟨g1, fun v => by rw [g2]; simp⟩

/-- **C63, on the node.**  A text that is one request gives the names FDB lists for it, and for each its values, every one
once.  FDB's listing is a map: every name once. -/
theorem C63_local {Q : Type} (E : AxesEnv Q) (request : String) (level : Int) (some : request ≠ "") (q : Q)
    (listing : List (String × List String)) (parsed : E.parse request = .ok [q]) (listed : E.fdb q level = .ok listing)
    (once : (listing.map Prod.fst).Nodup) :
    ∃ a, gjAxes (localAxes E) request level = .ok a ∧ AxesOfListing listing a := by
  refine ⟨axesOf listing, ?_, axesOf_spec listing once⟩
  rw [gjAxes, if_neg some, localAxes, parsed, ok_bind]
  simp only
  rw [listed, ok_bind]

/-- **C63, refusals.**  An empty text is refused; so is one that is not exactly one request; errors of FDB are passed on;
nothing is undefined unless FDB is. -/
theorem C63_refused {Q : Type} (E : AxesEnv Q) (request : String) (level : Int) :
    gjAxes (localAxes E) "" level = throwExn .userError ∧
    (∀ qs, E.parse request = .ok qs → qs.length ≠ 1 → localAxes E request level = throwExn .assertFailed) ∧
    (∀ q e, E.parse request = .ok [q] → E.fdb q level = .error e → localAxes E request level = .error e) ∧
    (E.parse request ≠ undef → (∀ q, E.fdb q level ≠ undef) → gjAxes (localAxes E) request level ≠ undef) := by
  refine ⟨rfl, ?_, ?_, ?_⟩
  · intro qs h hl
    rw [localAxes, h, ok_bind]
    match qs, hl with
    | [], _ => rfl
    | [_], hl => exact absurd rfl hl
    | _ :: _ :: _, _ => rfl
  · intro q e h he
    rw [localAxes, h, ok_bind]
    simp only
    rw [he, error_bind]
  · intro hp hf
    rw [gjAxes]
    by_cases hr : request = ""
    · rw [if_pos hr]; simp [throwExn, undef]
    · rw [if_neg hr, localAxes]
      cases h : E.parse request with
      | error e => rw [error_bind]; rw [h] at hp; intro h'; exact hp (by cases h'; rfl)
      | ok qs =>
        rw [ok_bind]
        match qs with
        | [] => simp [throwExn, undef]
        | [q] =>
          simp only
          cases hq : E.fdb q level with
          | error e => rw [error_bind]; have := hf q; rw [hq] at this; intro h'; exact this (by cases h'; rfl)
          | ok l => rw [ok_bind]; simp [undef]
        | _ :: _ :: _ => simp [throwExn, undef]

/-! ## Python -/

theorem plain_cstr {s : String} (h : PlainText s) : cstr s.toList = s.toList :=
  cstr_id fun hc => (h _ hc).1 rfl

theorem plain_cString {s : String} (h : PlainText s) : cString s = s := by
  rw [cString, plain_cstr h, String.ofList_toList]

theorem plain_decode {s : String} (h : PlainText s) : pyDecode s = .ok s := by
  have hall : (cstr s.toList).all (fun c => c.toNat < 128) = true := by
    rw [plain_cstr h, List.all_eq_true]
    intro c hc
    exact decide_eq_true (h c hc).2
  rw [pyDecode, if_pos hall, plain_cString h]

theorem plain_decodes {l : List String} (h : ∀ v ∈ l, PlainText v) : l.mapM pyDecode = .ok l := by
  rw [mapM_ok pyDecode id l fun v hv => plain_decode (h v hv), List.map_id]

theorem pyAxisValues_plain {a : Axes} (once : a.keys.Nodup) (plain : PlainAxes a) {e : String × List String}
    (he : e ∈ a) : pyAxisValues a e.1 = .ok e.2 := by
  have hf : AMap.find a e.1 = some e.2 := (AMap.mem_iff_find a once e.1 e.2).mp he
  have hc : cString e.1 = e.1 := plain_cString (plain e he).1
  have hv : cAxesValues a e.1 (cAxesValuesSize a e.1) = .ok e.2 := by
    rw [cAxesValues, cAxesValuesSize, hc, hf]
    simp only
    rw [if_pos trivial]
  rw [pyAxisValues, hv, ok_bind]
  exact plain_decodes (plain e he).2

theorem zip_fst_snd {α β : Type} (l : List (α × β)) : (l.map Prod.fst).zip (l.map Prod.snd) = l := by
  induction l with
  | nil => rfl
  | cons p rest ih => rw [List.map_cons, List.map_cons, List.zip_cons_cons, ih]

/-- What Python makes of axes of plain text: the same axes. -/
theorem py_axes_plain {impl : String → Int → Res Axes} {dic : List (Str × Str)} {level : Int} {a : Axes}
    (ascii : ∀ c ∈ dicToRequest dic, c ≠ Char.ofNat 0 ∧ c.toNat < 128) (fits : -2 ^ 31 ≤ level ∧ level < 2 ^ 31)
    (answered : gjAxes impl (String.ofList (dicToRequest dic)) level = .ok a) (once : a.keys.Nodup) (plain : PlainAxes a) :
    pyAxes impl dic level = .ok a := by
  have hall : (dicToRequest dic).all (fun c => c.toNat < 128) = true := by
    rw [List.all_eq_true]; intro c hc; exact decide_eq_true (ascii c hc).2
  have hk : cAxesKeys a (cAxesKeysSize a) = .ok a.keys := by rw [cAxesKeys, cAxesKeysSize, if_pos rfl]
  have hv : a.keys.mapM (pyAxisValues a) = .ok (a.map Prod.snd) := by
    rw [AMap.keys, List.mapM_map]
    exact mapM_ok _ Prod.snd a fun e he => pyAxisValues_plain once plain he
  have hd : a.keys.mapM pyDecode = .ok a.keys := plain_decodes fun k hk => by
    obtain ⟨e, he, rfl⟩ := List.mem_map.mp hk
    exact (plain e he).1
  rw [pyAxes, if_pos hall, pyToInt, if_pos fits, ok_bind, cstr_id fun h => (ascii _ h).1 rfl, answered, ok_bind, hk,
    ok_bind, hv, ok_bind, hd, ok_bind, pyDict]
  have hz : a.keys.zip (a.map Prod.snd) = a := zip_fst_snd a
  rw [hz, AMap.rebuild a [] (by simpa [AMap.keys] using once)]
  rfl

theorem requestText_nonempty {dic : List (Str × Str)} (h : dic ≠ []) : String.ofList (requestText [] dic) ≠ "" := by
  intro e
  have e : requestText [] dic = [] := by
    have := congrArg String.toList e
    simpa using this
  rw [requestText, List.nil_append] at e
  match dic, h, e with
  | [p], _, e => simp [commas, pairText] at e
  | p :: q :: rest, _, e => simp [commas] at e

/-- **C63, Python.**  The library is asked with the text of the dictionary, and if its axes are plain text, they are what
`axes` returns. -/
theorem C63_python (impl : String → Int → Res Axes) (dic : List (Str × Str)) (level : Int) (a : Axes) (some : dic ≠ [])
    (ascii : ∀ p ∈ dic, ∀ c ∈ p.1 ++ p.2, c ≠ Char.ofNat 0 ∧ c.toNat < 128) (fits : -2 ^ 31 ≤ level ∧ level < 2 ^ 31)
    (answered : impl (String.ofList (requestText [] dic)) level = .ok a) (once : a.keys.Nodup) (plain : PlainAxes a) :
    pyAxes impl dic level = .ok a := by
  have ht : dicToRequest dic = requestText [] dic := by
    rw [dicToRequest, pyJoin_commas]; rfl
  refine py_axes_plain ?_ fits ?_ once plain
  · intro c hc
    rw [ht] at hc
    rcases mem_commas _ hc with rfl | ⟨p, hp, hc⟩
    · decide
    · rw [List.nil_append] at hp
      obtain ⟨q, hq, rfl⟩ := List.mem_map.mp hp
      rw [pairText] at hc
      rcases List.mem_append.mp hc with hc | hc
      · exact ascii q hq c (List.mem_append_left _ hc)
      · rcases List.mem_cons.mp hc with rfl | hc
        · decide
        · exact ascii q hq c (List.mem_append_right _ hc)
  · rw [ht, gjAxes, if_neg (requestText_nonempty some), answered]

/-! ## Rust -/

/-- **C63, Rust.**  The map has the axes of the library, whatever their text. -/
theorem C63_rust (impl : String → Int → Res Axes) (request : String) (level : Int) (some : request ≠ "") (a : Axes)
    (answered : impl request level = .ok a) (once : a.keys.Nodup) : rustAxes impl request level = .ok a := by
  rw [rustAxes, gjAxes, if_neg some, answered, ok_bind, AMap.rebuild a [] (by simpa [AMap.keys] using once)]
  rfl

/-! ## On the node and through a server -/

theorem localAxes_ok {Q : Type} {E : AxesEnv Q} {request : String} {level : Int} {a : Axes}
    (maps : ∀ q l, E.fdb q level = .ok l → (l.map Prod.fst).Nodup) (h : localAxes E request level = .ok a) :
    ∃ q listing, E.parse request = .ok [q] ∧ E.fdb q level = .ok listing ∧ a = axesOf listing ∧
      (listing.map Prod.fst).Nodup := by
  rw [localAxes] at h
  obtain ⟨qs, h1, h⟩ := res_bind_inv h
  match qs, h1, h with
  | [q], h1, h =>
    obtain ⟨l, h2, h⟩ := res_bind_inv h
    exact ⟨q, l, h1, h2, (Except.ok.inj h).symm, maps q l h2⟩

theorem axesOf_nodup (listing : List (String × List String)) (once : (listing.map Prod.fst).Nodup) :
    (axesOf listing).keys.Nodup ∧ ∀ x ∈ axesOf listing, x.2.Nodup := by
  refine ⟨(axesOf_spec listing once).1, ?_⟩
  rw [axesOf_eq listing once]
  intro x hx
  obtain ⟨p, -, rfl⟩ := List.mem_map.mp hx
  exact (foldl_setInsert p.2 [] List.nodup_nil).1

theorem axesOf_plain (listing : List (String × List String)) (once : (listing.map Prod.fst).Nodup)
    (plain : PlainAxes listing) : PlainAxes (axesOf listing) := by
  rw [axesOf_eq listing once]
  intro x hx
  obtain ⟨p, hp, rfl⟩ := List.mem_map.mp hx
  refine ⟨(plain p hp).1, fun v hv => (plain p hp).2 v ?_⟩
  have := ((foldl_setInsert p.2 [] List.nodup_nil).2 v).mp hv
  simpa using this

/-- Through a server whose engine asks FDB, a request gives what it gives on the server. -/
theorem remote_same {Q : Type} (E : AxesEnv Q) (server : Engine) (asks : server.axes = localAxes E) (ctx request : String)
    (level : Int) (some : request ≠ "") (maps : ∀ q l, E.fdb q level = .ok l → (l.map Prod.fst).Nodup) (a : Axes)
    (h : localAxes E request level = .ok a) : remoteAxes server ctx request level = .ok a := by
  rw [C41_remote_axes server ctx request level, asks, h]
  · rcases Nat.eq_zero_or_pos request.length with h0 | h0
    · exact absurd (String.length_eq_zero_iff.mp h0) some
    · exact h0
  · rw [asks]
    intro b hb
    obtain ⟨q, l, -, -, rfl, ho⟩ := localAxes_ok maps hb
    exact axesOf_nodup l ho

/-- **C63, end to end.**  A dictionary that FDB reads as one request, whose axes are plain text: Python returns the names
FDB lists and for each its values, every one once, and the same on the node and through a server; so does Rust, asked with
the text of the dictionary. -/
theorem C63_end_to_end {Q : Type} (E : AxesEnv Q) (server : Engine) (asks : server.axes = localAxes E) (ctx : String)
    (dic : List (Str × Str)) (level : Int) (some : dic ≠ [])
    (ascii : ∀ p ∈ dic, ∀ c ∈ p.1 ++ p.2, c ≠ Char.ofNat 0 ∧ c.toNat < 128) (fits : -2 ^ 31 ≤ level ∧ level < 2 ^ 31)
    (maps : ∀ q l, E.fdb q level = .ok l → (l.map Prod.fst).Nodup) (q : Q) (listing : List (String × List String))
    (parsed : E.parse (String.ofList (requestText [] dic)) = .ok [q]) (listed : E.fdb q level = .ok listing)
    (plain : PlainAxes listing) :
    ∃ a, AxesOfListing listing a ∧ pyAxes (localAxes E) dic level = .ok a ∧
      pyAxes (remoteAxes server ctx) dic level = .ok a ∧
      rustAxes (localAxes E) (String.ofList (requestText [] dic)) level = .ok a ∧
      rustAxes (remoteAxes server ctx) (String.ofList (requestText [] dic)) level = .ok a := by
  have once := maps q listing listed
  have hn := requestText_nonempty some
  have hl : localAxes E (String.ofList (requestText [] dic)) level = .ok (axesOf listing) := by
    rw [localAxes, parsed, ok_bind]
    simp only
    rw [listed, ok_bind]
  have hr := remote_same E server asks ctx _ level hn maps _ hl
  obtain ⟨h1, -⟩ := axesOf_nodup listing once
  have hp := axesOf_plain listing once plain
  exact ⟨axesOf listing, axesOf_spec listing once, C63_python _ dic level _ some ascii fits hl h1 hp,
    C63_python _ dic level _ some ascii fits hr h1 hp, C63_rust _ _ level hn _ hl h1, C63_rust _ _ level hn _ hr h1⟩

/-! ## An example -/

def c63Env : AxesEnv Nat where
  parse := fun s => if s = "class=od,type=fc" then .ok [7] else if s = "a/b" then .ok [1, 2] else throwExn .userError
  fdb := fun q l => if q = 7 ∧ l = 3 then .ok [("step", ["0", "6"]), ("param", ["t"])] else .ok []

def c63Server : Engine where
  extract := fun _ => throwExn .userError
  axes := localAxes c63Env
  scan := fun _ _ => throwExn .userError
  forwardExtract := fun _ => throwExn .userError
  forwardScan := fun _ => throwExn .userError

def c63Dic : List (Str × Str) := [("class".toList, "od".toList), ("type".toList, "fc".toList)]

theorem c63_maps (q : Nat) (l : List (String × List String)) (h : c63Env.fdb q 3 = .ok l) : (l.map Prod.fst).Nodup := by
  simp only [c63Env] at h
  split at h
  · rw [← Except.ok.inj h]; decide
  · rw [← Except.ok.inj h]; decide

/-- The hypotheses of `C63_end_to_end` hold for a listing of two axes, one with two values. -/
example : ∃ a, AxesOfListing [("step", ["0", "6"]), ("param", ["t"])] a ∧ pyAxes (localAxes c63Env) c63Dic 3 = .ok a ∧
    pyAxes (remoteAxes c63Server "ctx") c63Dic 3 = .ok a := by
  obtain ⟨a, h1, h2, h3, -⟩ := C63_end_to_end c63Env c63Server rfl "ctx" c63Dic 3 (by decide) (by decide +kernel)
    (by decide) c63_maps 7 [("step", ["0", "6"]), ("param", ["t"])] (by decide +kernel) (by decide +kernel) (by
      unfold PlainAxes PlainText; decide +kernel)
  exact ⟨a, h1, h2, h3⟩

example : ∃ a, gjAxes (localAxes c63Env) "class=od,type=fc" 3 = .ok a ∧
    AxesOfListing [("step", ["0", "6"]), ("param", ["t"])] a :=
  C63_local c63Env _ 3 (by decide) 7 _ (by decide +kernel) (by decide +kernel) (by decide)

example : localAxes c63Env "a/b" 3 = throwExn .assertFailed :=
  (C63_refused c63Env "a/b" 3).2.1 [1, 2] (by decide +kernel) (by decide)

/-! ## Disagreements -/

/-- **Disagreement.**  Python decodes ASCII only: an axis with another character makes the whole query fail, while Rust
returns it. -/
theorem C63_not_ascii : pyAxes (fun _ _ => .ok [("step", ["0"]), ("name", ["é"])]) c63Dic 3 = throwExn .badValue ∧
    rustAxes (fun _ _ => .ok [("step", ["0"]), ("name", ["é"])]) "class=od" 3 = .ok [("step", ["0"]), ("name", ["é"])] := by
  decide +kernel

/-- **Disagreement.**  Names are C strings: of two names that agree up to a NUL, Python returns only one, with the values
of the shorter. -/
theorem C63_nul_in_name :
    pyAxes (fun _ _ => .ok [("a", ["1"]), (String.ofList ['a', Char.ofNat 0, 'b'], ["2"])]) c63Dic 3 = .ok [("a", ["1"])] := by
  decide +kernel

/-- An empty dictionary is refused by the library. -/
theorem C63_empty_dictionary (impl : String → Int → Res Axes) : pyAxes impl [] 3 = throwExn .userError := rfl

end GJ
