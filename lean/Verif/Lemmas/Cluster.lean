import Verif.Model.Cluster
import Verif.Lemmas.EngineFiles
import Verif.Lemmas.Text
import Verif.Props.C22

/-!
# Serving forwarded extractions
-/

namespace GJ
open Spec

/-! ## Numbering -/

theorem toString_inj {n m : Nat} (h : toString n = toString m) : n = m :=
  toString_nat_inj n m (by rw [h])

theorem numItems_get : ∀ (is : List Item) (k j : Nat),
    (numItems k is)[j]? = (is[j]?).map fun i => (toString (k + j), i) := by
  intro is
  induction is with
  | nil => intro k j; simp [numItems]
  | cons i is ih =>
    intro k j
    cases j with
    | zero => rfl
    | succ j =>
      rw [numItems, List.getElem?_cons_succ, ih, List.getElem?_cons_succ]
      congr 1
      funext i
      rw [show k + 1 + j = k + (j + 1) by omega]

theorem numItems_length (is : List Item) (k : Nat) : (numItems k is).length = is.length := by
  induction is generalizing k with
  | nil => rfl
  | cons i is ih => rw [numItems, List.length_cons, List.length_cons, ih]

theorem numItems_key {is : List Item} {k : Nat} {x : String} (h : x ∈ (numItems k is).keys) :
    ∃ n, k ≤ n ∧ n < k + is.length ∧ x = toString n := by
  obtain ⟨p, hp, rfl⟩ := List.mem_map.mp h
  obtain ⟨j, hj⟩ := List.getElem?_of_mem hp
  rw [numItems_get] at hj
  cases hi : is[j]? with
  | none => rw [hi] at hj; cases hj
  | some i =>
    rw [hi] at hj
    cases hj
    have := (List.getElem?_eq_some_iff.mp hi).1
    exact ⟨k + j, by omega, by omega, rfl⟩

theorem numItems_nodup (is : List Item) (k : Nat) : (numItems k is).keys.Nodup := by
  induction is generalizing k with
  | nil => exact List.nodup_nil
  | cons i is ih =>
    show (toString k :: (numItems (k + 1) is).keys).Nodup
    rw [List.nodup_cons]
    refine ⟨?_, ih _⟩
    intro h
    obtain ⟨n, hn, -, he⟩ := numItems_key h
    have := toString_inj he
    omega

theorem numFiles_key {fm : FileMap} {k : Nat} {x : String} (h : x ∈ (numFiles k fm).1.keys) :
    ∃ n, k ≤ n ∧ x = toString n := by
  induction fm generalizing k with
  | nil => cases h
  | cons f fm ih =>
    rw [numFiles] at h
    simp only [AMap.keys, List.map_append, List.mem_append] at h
    rcases h with h | h
    · obtain ⟨n, hn, -, he⟩ := numItems_key h
      exact ⟨n, hn, he⟩
    · obtain ⟨n, hn, he⟩ := ih h
      exact ⟨n, by omega, he⟩

theorem numFiles_nodup (fm : FileMap) (k : Nat) : (numFiles k fm).1.keys.Nodup := by
  induction fm generalizing k with
  | nil => exact List.nodup_nil
  | cons f fm ih =>
    rw [numFiles]
    simp only [AMap.keys, List.map_append]
    rw [List.nodup_append]
    refine ⟨numItems_nodup _ _, ih _, ?_⟩
    intro a ha b hb hab
    subst hab
    obtain ⟨n, -, hn, he⟩ := numItems_key ha
    obtain ⟨n', hn', he'⟩ := numFiles_key hb
    rw [he] at he'
    have := toString_inj he'
    omega

theorem numFiles_get {fm : FileMap} {k : Nat} {j : Nat} {f : String × List Item} (h : fm[j]? = some f) :
    ∃ n, (numFiles k fm).2[j]? = some (f.1, (numItems n f.2).keys) ∧ ∀ p ∈ numItems n f.2, p ∈ (numFiles k fm).1 := by
  induction fm generalizing k j with
  | nil => simp at h
  | cons g fm ih =>
    rw [numFiles]
    simp only
    cases j with
    | zero =>
      simp only [List.getElem?_cons_zero, Option.some.injEq] at h
      subst h
      exact ⟨k, rfl, fun p hp => List.mem_append_left _ hp⟩
    | succ j =>
      rw [List.getElem?_cons_succ] at h
      obtain ⟨n, h1, h2⟩ := ih (k := k + g.2.length) h
      exact ⟨n, by rw [List.getElem?_cons_succ]; exact h1, fun p hp => List.mem_append_right _ (h2 p hp)⟩

theorem numFiles_length (fm : FileMap) (k : Nat) : (numFiles k fm).2.length = fm.length := by
  induction fm generalizing k with
  | nil => rfl
  | cons f fm ih => rw [numFiles]; simp only [List.length_cons, ih]

theorem numFiles_keys (fm : FileMap) (k : Nat) : (numFiles k fm).2.keys = fm.keys := by
  induction fm generalizing k with
  | nil => rfl
  | cons f fm ih =>
    rw [numFiles]
    simp only [AMap.keys, List.map_cons]
    congr 1
    exact ih _

/-- The pointers of a file lead to its items. -/
theorem numFiles_items {fm : FileMap} {j : Nat} {f : String × List Item} (h : fm[j]? = some f) :
    ∃ ks, (numFiles 0 fm).2[j]? = some (f.1, ks) ∧ ks.length = f.2.length ∧
      ∀ l : Nat, (∀ i, f.2[l]? = some i → ∃ k, ks[l]? = some k ∧ (numFiles 0 fm).1.find k = some i) ∧
        (∀ k, ks[l]? = some k → ∃ i, f.2[l]? = some i ∧ (numFiles 0 fm).1.find k = some i) := by
  obtain ⟨n, h1, h2⟩ := numFiles_get (k := 0) h
  refine ⟨_, h1, by simp [AMap.keys, numItems_length], ?_⟩
  have hfind : ∀ (l : Nat) i, f.2[l]? = some i → (numFiles 0 fm).1.find (toString (n + l)) = some i := by
    intro l i hi
    apply (AMap.mem_iff_find _ (numFiles_nodup fm 0) _ _).mp
    apply h2
    apply List.mem_of_getElem? (i := l)
    rw [numItems_get, hi]; rfl
  intro l
  constructor
  · intro i hi
    refine ⟨toString (n + l), ?_, hfind l i hi⟩
    rw [AMap.keys, List.getElem?_map, numItems_get, hi]; rfl
  · intro k hk
    rw [AMap.keys, List.getElem?_map, numItems_get] at hk
    cases hi : f.2[l]? with
    | none => rw [hi] at hk; cases hk
    | some i =>
      rw [hi] at hk
      simp only [Option.map_some, Option.some.injEq] at hk
      subst hk
      exact ⟨i, rfl, hfind l i hi⟩

/-! ## Sorting what is sorted -/

theorem isort_of_sorted {α : Type} {le : α → α → Bool} {l : List α} (h : l.Pairwise fun a b => le a b = true) :
    isort le l = l := by
  induction l with
  | nil => rfl
  | cons x xs ih =>
    rw [List.pairwise_cons] at h
    rw [isort, ih h.2]
    cases xs with
    | nil => rfl
    | cons y ys => rw [insertSorted, if_pos (h.1 y (List.mem_cons_self ..))]

theorem insertByOffset_last (x : Item) : ∀ (l : List Item), (∀ y ∈ l, y.uri.offset ≤ x.uri.offset) →
    insertByOffset x l = l ++ [x] := by
  intro l
  induction l with
  | nil => intro _; rfl
  | cons y l ih =>
    intro h
    rw [insertByOffset, if_neg (by have := h y (List.mem_cons_self ..); omega),
      ih (fun z hz => h z (List.mem_cons_of_mem _ hz))]
    rfl

theorem sortByOffset_of_sorted {l : List Item} (h : l.Pairwise fun a b => a.uri.offset ≤ b.uri.offset) :
    sortByOffset l = l := by
  have : ∀ (l acc : List Item), (acc ++ l).Pairwise (fun a b => a.uri.offset ≤ b.uri.offset) →
      l.foldl (fun acc x => insertByOffset x acc) acc = acc ++ l := by
    intro l
    induction l with
    | nil => intro acc _; rw [List.append_nil]; rfl
    | cons x l ih =>
      intro acc hp
      have hx : insertByOffset x acc = acc ++ [x] := insertByOffset_last x acc fun y hy =>
        (List.pairwise_append.mp hp).2.2 y hy x (List.mem_cons_self ..)
      rw [List.foldl_cons, hx, ih _ (by rw [List.append_assoc]; exact hp), List.append_assoc]
      rfl
  exact this l [] h

/-! ## The server -/

/-- A server that answers a forwarded request without errors has computed every item, and answers in the order of the
request. -/
theorem serverForward_spec {E : ExtEnv} {C : EngineConf} {P : Uri → ExRequest → WireResult → Prop}
    (hE : Produces E C false P) {sched : List Nat} {fm served : FileMap} (hn : fm.keys.Nodup)
    (hpath : ∀ f ∈ fm, ∀ i ∈ f.2, i.uri.path = f.1) (hscheme : ∀ f ∈ fm, ∀ i ∈ f.2, i.uri.scheme = "file")
    (hsort : ∀ f ∈ fm, f.2.Pairwise fun a b => a.uri.offset ≤ b.uri.offset)
    (h : serverForward E C sched fm = .ok (served, [])) :
    sameShape fm served ∧ ∀ (l : Nat) f g, fm[l]? = some f → served[l]? = some g →
      ∀ (j : Nat) i i', f.2[j]? = some i → g.2[j]? = some i' → ∃ r, i'.result = some r ∧ P i.uri i.request r := by
  rw [serverForward] at h
  simp only at h
  obtain ⟨⟨m', errs⟩, hsch, h⟩ := res_bind_inv h
  simp only at h
  obtain ⟨h1, h2⟩ := Prod.mk.inj (Except.ok.inj h)
  subst h2
  have hfind : ∀ e ∈ (numFiles 0 fm).2, ∃ f ∈ fm, f.1 = e.1 ∧ ∀ k ∈ e.2, ∃ i ∈ f.2, (numFiles 0 fm).1.find k = some i := by
    intro e he
    obtain ⟨l, hl⟩ := List.getElem?_of_mem he
    have hlt := (List.getElem?_eq_some_iff.mp hl).1
    rw [numFiles_length] at hlt
    obtain ⟨ks, hks, -, hall⟩ := numFiles_items (List.getElem?_eq_getElem hlt)
    rw [hl] at hks
    cases hks
    refine ⟨_, List.getElem_mem hlt, rfl, ?_⟩
    intro k hk
    obtain ⟨j, hj⟩ := List.getElem?_of_mem hk
    obtain ⟨i, hi, hf⟩ := (hall j).2 k hj
    exact ⟨i, List.mem_of_getElem? hi, hf⟩
  rw [scheduleTasks, if_neg (by simp)] at hsch
  obtain ⟨ts, hts, hsch⟩ := res_bind_inv hsch
  obtain ⟨s, hs, hsch⟩ := res_bind_inv hsch
  obtain ⟨e1, e2⟩ := Prod.mk.inj (Except.ok.inj hsch)
  obtain ⟨g1, g2, g3⟩ := localTasks_spec (by
      intro e he k hk
      obtain ⟨f, hf, hfe, hall⟩ := hfind e he
      obtain ⟨i, hi, hfi⟩ := hall k hk
      exact ⟨i, hfi, by rw [← hfe]; exact hpath f hf i hi⟩) (by
      intro e he k hk k' hk' it it' hit hit'
      obtain ⟨f, hf, hfe, hall⟩ := hfind e he
      obtain ⟨i, hi, hfi⟩ := hall k hk
      obtain ⟨i', hi', hfi'⟩ := hall k' hk'
      rw [hit] at hfi; rw [hit'] at hfi'
      cases hfi; cases hfi'
      rw [hscheme f hf it hi, hscheme f hf it' hi']) hts
  obtain ⟨-, hsame, hres⟩ := runTasks_spec hE g1 g2 hs e2
  rw [e1] at hsame hres
  have hres : ∀ e ∈ (numFiles 0 fm).2, ∀ k ∈ e.2, HasResult P m' k := by
    intro e he k hk
    have : k ∈ ts.flatMap FTask.covers := by rw [g3]; exact List.mem_flatMap.mpr ⟨e, he, hk⟩
    obtain ⟨T, hT, hkT⟩ := List.mem_flatMap.mp this
    exact hres T hT k hkT
  -- the reply of one file
  have hget : ∀ (l : Nat) f, fm[l]? = some f → ∃ g, served[l]? = some g ∧ g.1 = f.1 ∧ g.2.length = f.2.length ∧
      ∀ (j : Nat) i i', f.2[j]? = some i → g.2[j]? = some i' → ∃ r, i'.result = some r ∧ P i.uri i.request r := by
    intro l f hf
    obtain ⟨ks, hks, hlen, hall⟩ := numFiles_items hf
    have hmem := List.mem_of_getElem? hf
    have hko : ∀ (j : Nat) k, ks[j]? = some k → ∃ i, f.2[j]? = some i ∧ ∃ i', m'.find k = some i' ∧
        i'.request = i.request ∧ i'.uri = i.uri := by
      intro j k hk
      obtain ⟨i, hi, hfi⟩ := (hall j).2 k hk
      exact ⟨i, hi, hsame.find hfi⟩
    have hsorted : ks.Pairwise fun a b => offsetOf m' a ≤ offsetOf m' b := by
      rw [List.pairwise_iff_getElem]
      intro a b ha hb hab
      obtain ⟨ia, hia, ia', hfa, -, hua⟩ := hko a _ (List.getElem?_eq_getElem ha)
      obtain ⟨ib, hib, ib', hfb, -, hub⟩ := hko b _ (List.getElem?_eq_getElem hb)
      rw [offsetOf, offsetOf, hfa, hfb]
      simp only [Option.map_some, Option.getD_some, hua, hub]
      obtain ⟨la, ea⟩ := List.getElem?_eq_some_iff.mp hia
      obtain ⟨lb, eb⟩ := List.getElem?_eq_some_iff.mp hib
      rw [← ea, ← eb]
      exact List.pairwise_iff_getElem.mp (hsort f hmem) a b la lb hab
    have hsk : sortKeys m' ks = ks := isort_of_sorted (hsorted.imp (by simp))
    have hex : ∀ k ∈ ks, ∃ it, m'.find k = some it := by
      intro k hk
      obtain ⟨j, hj⟩ := List.getElem?_of_mem hk
      obtain ⟨i, -, i', h', -⟩ := hko j k hj
      exact ⟨i', h'⟩
    have hil : (itemsOf m' ks).length = ks.length := by
      rw [itemsOf]
      clear hall hko hsorted hsk hlen hks
      induction ks with
      | nil => rfl
      | cons k ks ih =>
        obtain ⟨it, hit⟩ := hex k (List.mem_cons_self ..)
        rw [List.filterMap_cons, hit]
        simp only [List.length_cons]
        rw [ih (fun k hk => hex k (List.mem_cons_of_mem _ hk))]
    refine ⟨(f.1, itemsOf m' ks), ?_, rfl, by simp only; rw [hil, hlen], ?_⟩
    · rw [← h1, List.getElem?_map, hks, Option.map_some, hsk]
    · intro j i i' hi hi'
      obtain ⟨k, hk, hfi⟩ := (hall j).1 i hi
      rw [itemsOf_get m' ks hex j k hk] at hi'
      obtain ⟨it, r, hf', hr, hP⟩ := hres _ (List.mem_of_getElem? hks) k (List.mem_of_getElem? hk)
      rw [hi'] at hf'
      cases hf'
      obtain ⟨i2, hf2, hq, hu⟩ := hsame.find hfi
      rw [hi'] at hf2
      cases hf2
      rw [hq, hu] at hP
      exact ⟨r, hr, hP⟩
  refine ⟨?_, ?_⟩
  · apply List.ext_getElem?
    intro l
    rw [List.getElem?_map, List.getElem?_map]
    cases hf : fm[l]? with
    | none =>
      have : served[l]? = none := by
        rw [List.getElem?_eq_none_iff, ← h1, List.length_map, numFiles_length]
        exact List.getElem?_eq_none_iff.mp hf
      rw [this]
    | some f =>
      obtain ⟨g, hg, e1, e2, -⟩ := hget l f hf
      rw [hg, Option.map_some, Option.map_some, e1, e2]
  · intro l f g hf hg
    obtain ⟨g', hg', -, -, hall⟩ := hget l f hf
    rw [hg] at hg'
    cases hg'
    exact hall

/-! ## Bounds of intervals are 64-bit words -/

/-- An interval as a peer receives it. -/
def Interval.wrap (i : Interval) : Interval := ⟨i.b % 2 ^ 64, i.e % 2 ^ 64⟩

def Item.wrap (i : Item) : Item := { i with request := { i.request with ranges := i.request.ranges.map Interval.wrap } }

theorem wordBytes_mod (w : Nat) : wordBytes (w % 2 ^ 64) = wordBytes w := by
  rw [wordBytes, wordBytes]
  apply List.map_congr_left
  intro i hi
  have hi := List.mem_range.mp hi
  have h1 : (2 : Nat) ^ 64 = 256 ^ i * (256 ^ (8 - i)) := by
    rw [← Nat.pow_add, show i + (8 - i) = 8 by omega]
  rw [h1, Nat.mod_mul_right_div_self]
  rw [show 8 - i = (7 - i) + 1 by omega, Nat.pow_succ, Nat.mul_comm]
  exact Nat.mod_mul_right_mod _ _ _

theorem encForwardItem_wrap (i : Item) : encForwardItem i.wrap = encForwardItem i := by
  rw [encForwardItem, encForwardItem, encRequest, encRequest, encRanges, encRanges]
  simp only [Item.wrap, List.length_map, List.flatMap_map, Interval.wrap, wordBytes_mod]

theorem wrap_fits (i : Item) : i.wrap.request.Fits := by
  intro x hx
  obtain ⟨y, -, rfl⟩ := List.mem_map.mp hx
  exact ⟨Nat.mod_lt _ (by decide), Nat.mod_lt _ (by decide)⟩

theorem ranges_wrap {q : ExRequest} (h : q.Fits) : q.ranges.map Interval.wrap = q.ranges := by
  have : ∀ x ∈ q.ranges, Interval.wrap x = id x := by
    intro x hx
    obtain ⟨h1, h2⟩ := h x hx
    obtain ⟨b, e⟩ := x
    simp only [Interval.wrap, id]
    rw [Nat.mod_eq_of_lt h1, Nat.mod_eq_of_lt h2]
  rw [List.map_congr_left this, List.map_id]

/-- The file map with all bounds taken to 64 bits: it has the same encoding. -/
def wrapFiles (fm : FileMap) : FileMap := fm.map fun f => (f.1, f.2.map Item.wrap)

theorem encForwardExtract_sorted {fm : FileMap} (h : ∀ f ∈ fm, f.2.Pairwise fun a b => a.uri.offset ≤ b.uri.offset) :
    encForwardExtract fm = (.ulong fm.length ::
      fm.flatMap fun f => .str f.1 :: .ulong f.2.length :: f.2.flatMap encForwardItem, fm) := by
  have : (fm.map fun f => (f.1, sortByOffset f.2)) = fm := by
    have h' : ∀ f ∈ fm, (fun f : String × List Item => (f.1, sortByOffset f.2)) f = id f := by
      intro f hf
      simp only [id, sortByOffset_of_sorted (h f hf)]
    rw [List.map_congr_left h', List.map_id]
  unfold encForwardExtract
  simp only [this]

theorem wrapFiles_sorted {fm : FileMap} (h : ∀ f ∈ fm, f.2.Pairwise fun a b => a.uri.offset ≤ b.uri.offset) :
    ∀ f ∈ wrapFiles fm, f.2.Pairwise fun a b => a.uri.offset ≤ b.uri.offset := by
  intro f hf
  obtain ⟨g, hg, rfl⟩ := List.mem_map.mp hf
  simp only [List.pairwise_map]
  exact h g hg

theorem encForwardExtract_wrap {fm : FileMap} (h : ∀ f ∈ fm, f.2.Pairwise fun a b => a.uri.offset ≤ b.uri.offset) :
    (encForwardExtract (wrapFiles fm)).1 = (encForwardExtract fm).1 := by
  rw [encForwardExtract_sorted h, encForwardExtract_sorted (wrapFiles_sorted h), wrapFiles]
  simp only [List.length_map, List.flatMap_map, encForwardItem_wrap]

/-! ## The connection -/

theorem remoteCall_ok_inv {α : Type} {E : Engine} {request : List Tok} {reply : Dec α} {ctx : String} {req : ServerReq}
    {tail : List Tok} (hd : dispatch request = .ok ((ctx, req), tail)) {a : α} (h : remoteCall E request reply = .ok a) :
    ∃ body, handle E req = .ok ([], body) ∧
      ((∃ b rest, body = .ok b ∧ reply b = .ok (a, rest)) ∨ ∃ x rest, body = .error (.exn x) ∧ reply [.exc "error"] = .ok (a, rest)) := by
  rw [remoteCall, serve, hd] at h
  simp only at h
  cases hh : handle E req with
  | error e =>
    rw [hh] at h
    cases e with
    | ub => cases h
    | exn x =>
      simp only at h
      rw [ok_bind] at h
      simp only at h
      rw [clientRead, decErrors_exc] at h
      cases h
  | ok p =>
    obtain ⟨errs, body⟩ := p
    rw [hh] at h
    simp only at h
    cases body with
    | error e =>
      cases e with
      | ub => cases h
      | exn x =>
        simp only at h
        rw [ok_bind] at h
        simp only at h
        rw [clientRead, decErrors_prefix] at h
        by_cases he : errs = []
        · subst he
          rw [if_pos rfl] at h
          obtain ⟨⟨a', rest⟩, hr, h⟩ := res_bind_inv h
          cases h
          exact ⟨_, rfl, Or.inr ⟨x, rest, rfl, hr⟩⟩
        · rw [if_neg he] at h; cases h
    | ok b =>
      simp only at h
      rw [ok_bind] at h
      simp only at h
      rw [clientRead, decErrors_prefix] at h
      by_cases he : errs = []
      · subst he
        rw [if_pos rfl] at h
        obtain ⟨⟨a', rest⟩, hr, h⟩ := res_bind_inv h
        cases h
        exact ⟨_, rfl, Or.inl ⟨b, rest, rfl, hr⟩⟩
      · rw [if_neg he] at h; cases h

theorem encReplyItems_no_exn : ∀ (is : List Item) (x : Exn), encReplyItems is ≠ .error (.exn x) := by
  intro is
  induction is with
  | nil => intro x h; cases h
  | cons i is ih =>
    intro x h
    rw [encReplyItems] at h
    cases hr : i.result with
    | none => rw [hr] at h; cases h
    | some r =>
      rw [hr] at h
      simp only at h
      cases hs : encReplyItems is with
      | ok tl => rw [hs] at h; cases h
      | error e =>
        rw [hs] at h
        cases h
        exact ih x hs

theorem encForwardReply_no_exn : ∀ (fm : FileMap) (x : Exn), encForwardReply fm ≠ .error (.exn x) := by
  intro fm
  induction fm with
  | nil => intro x h; cases h
  | cons f fm ih =>
    intro x h
    rw [encForwardReply] at h
    cases hb : encReplyItems f.2 with
    | error e =>
      rw [hb] at h
      cases h
      exact encReplyItems_no_exn _ x hb
    | ok b =>
      rw [hb, ok_bind] at h
      cases hs : encForwardReply fm with
      | ok tl => rw [hs] at h; cases h
      | error e =>
        rw [hs] at h
        cases h
        exact ih x hs

/-- A request without items is refused by the server's constructor. -/
theorem forward_nothing {E : Engine} {ctx : String} {fm back : FileMap} (hn : fm.keys.Nodup)
    (hempty : ∀ f ∈ fm, f.2 = []) : remoteForwardExtract E ctx fm ≠ .ok back := by
  intro h
  have hsort : ∀ f ∈ fm, f.2.Pairwise fun a b => a.uri.offset ≤ b.uri.offset := by
    intro f hf; rw [hempty f hf]; exact List.Pairwise.nil
  obtain ⟨h1, -, -⟩ := C21_forward_extract_request fm hn (by
    intro f hf i hi; rw [hempty f hf] at hi; cases hi) []
  rw [List.append_nil] at h1
  have hd : dispatch (encHeader .forwardExtract ctx ++ (encForwardExtract fm).1) = .error (.exn .assertFailed) := by
    rw [dispatch, Dec.bind_ok (C21_header .forwardExtract ctx _)]
    show (decForwardExtract >>= _) _ = _
    rw [Dec.bind_ok h1, encForwardExtract_sorted hsort]
    have hz : (List.map (fun f : String × List Item => f.2.length) (fm.map fun f => (f.1, f.2.map received))).sum = 0 := by
      rw [List.map_map]
      have : ∀ f ∈ fm, ((fun f : String × List Item => f.2.length) ∘ fun f => (f.1, f.2.map received)) f =
          (fun _ => 0) f := by
        intro f hf
        simp [hempty f hf]
      rw [List.map_congr_left this]
      clear this hempty h1 hsort hn h
      induction fm with
      | nil => rfl
      | cons f fm ih => rw [List.map_cons, List.sum_cons, ih]
    show (Dec.lift (cassert (decide (_ > 0))) >>= _) [] = _
    rw [hz]
    rfl
  rw [remoteForwardExtract, remoteCall, serve, hd] at h
  simp only at h
  rw [ok_bind] at h
  simp only at h
  rw [clientRead, decErrors_exc] at h
  cases h

/-- What comes back from a forwarded extraction, in terms of what the server delivers. -/
theorem forwarded_spec {E : Engine} {ctx : String} {C : EngineConf} {server : String × Int} {fm back : FileMap}
    {P : Uri → ExRequest → WireResult → Prop} (ha : Addressed C server fm)
    (hE : ∀ served, E.forwardExtract ((wrapFiles fm).map fun f => (f.1, f.2.map received)) = .ok (served, []) →
      sameShape ((wrapFiles fm).map fun f => (f.1, f.2.map received)) served ∧
      ∀ (l : Nat) f g, ((wrapFiles fm).map fun f => (f.1, f.2.map received))[l]? = some f → served[l]? = some g →
        ∀ (j : Nat) i i', f.2[j]? = some i → g.2[j]? = some i' → ∃ r, i'.result = some r ∧ P i.uri i.request r)
    (hfit : ∀ u q r, ExRequest.Fits q → P u q r → WireResult.Fits r)
    (h : remoteForwardExtract E ctx fm = .ok back) :
    ∀ f items, (f, items) ∈ fm → ∃ items', back.find f = some items' ∧ items'.length = items.length ∧
      ∀ (j : Nat) i i' r, items[j]? = some i → items'[j]? = some i' → i'.result = some r →
        P (received i.wrap).uri (received i.wrap).request r := by
  by_cases hne : ∃ f ∈ fm, f.2 ≠ []
  case neg =>
    exact absurd h (forward_nothing ha.files (by
      intro f hf
      by_cases he : f.2 = []
      · exact he
      · exact absurd ⟨f, hf, he⟩ hne))
  have hsent : (encForwardExtract fm).2 = fm := by rw [encForwardExtract_sorted ha.sorted]
  have hkw : (wrapFiles fm).keys = fm.keys := by simp [wrapFiles, AMap.keys, Function.comp_def]
  have hd := dispatch_forwardExtract ctx (wrapFiles fm) (wrapFiles fm)
    (by rw [encForwardExtract_sorted (wrapFiles_sorted ha.sorted)]) (by rw [hkw]; exact ha.files) (by
      intro f hf i hi
      obtain ⟨g, -, rfl⟩ := List.mem_map.mp hf
      obtain ⟨i', -, rfl⟩ := List.mem_map.mp hi
      exact wrap_fits i') (by
      obtain ⟨f, hf, hfn⟩ := hne
      exact ⟨_, List.mem_map.mpr ⟨f, hf, rfl⟩, by simpa using hfn⟩)
  rw [encForwardExtract_wrap ha.sorted] at hd
  rw [remoteForwardExtract] at h
  obtain ⟨body, hh, hb⟩ := remoteCall_ok_inv hd h
  rw [handle] at hh
  obtain ⟨⟨served, errs⟩, hser, hh⟩ := res_bind_inv hh
  simp only at hh
  obtain ⟨e1, e2⟩ := Prod.mk.inj (Except.ok.inj hh)
  subst e1
  subst e2
  obtain ⟨hshape, hres⟩ := hE served hser
  rcases hb with ⟨b, rest, hb, hrep⟩ | ⟨x, -, hx, -⟩
  case inr => exact absurd hx (encForwardReply_no_exn served x)
  have hshape' : sameShape fm served := by
    rw [sameShape] at hshape ⊢
    rw [← hshape, wrapFiles, List.map_map, List.map_map]
    apply List.map_congr_left
    intro f _
    simp
  have hat : ∀ (l : Nat) (f : String × List Item), fm[l]? = some f →
      ((wrapFiles fm).map fun f => (f.1, f.2.map received))[l]? = some (f.1, (f.2.map Item.wrap).map received) := by
    intro l f hf
    rw [List.getElem?_map, wrapFiles, List.getElem?_map, hf]; rfl
  have hboth : ∀ (l : Nat) g, served[l]? = some g → ∃ f, fm[l]? = some f ∧ f.1 = g.1 ∧ f.2.length = g.2.length := by
    intro l g hg
    have := congrArg (fun x => x[l]?) hshape'
    simp only [List.getElem?_map, hg, Option.map_some] at this
    cases hf : fm[l]? with
    | none => rw [hf] at this; cases this
    | some f =>
      rw [hf] at this
      simp only [Option.map_some, Option.some.injEq, Prod.mk.injEq] at this
      exact ⟨f, rfl, this.1, this.2⟩
  have hserved : Served served := by
    intro g hg i' hi'
    obtain ⟨l, hl⟩ := List.getElem?_of_mem hg
    obtain ⟨j, hj⟩ := List.getElem?_of_mem hi'
    obtain ⟨f, hf, -, hlen⟩ := hboth l g hl
    have hjl := (List.getElem?_eq_some_iff.mp hj).1
    have hi : f.2[j]? = some f.2[j] := List.getElem?_eq_getElem (by omega)
    obtain ⟨r, hr, hP⟩ := hres l _ g (hat l f hf) hl j (received (f.2[j]).wrap) i'
      (by simp only [List.getElem?_map, hi, Option.map_some]) hj
    exact ⟨r, hr, hfit _ _ r (show ExRequest.Fits (received f.2[j].wrap).request from wrap_fits f.2[j]) hP⟩
  obtain ⟨bytes, hbytes, hdec⟩ := C21_forward_extract_reply fm served ha.files hshape' hserved []
  rw [List.append_nil] at hdec
  rw [hb] at hbytes
  cases hbytes
  rw [hsent, hdec] at hrep
  obtain ⟨e1, -⟩ := Prod.mk.inj (Except.ok.inj hrep)
  intro f items hm
  obtain ⟨l, hl⟩ := List.getElem?_of_mem hm
  have hg : ∃ g, served[l]? = some g ∧ g.2.length = items.length := by
    have := congrArg (fun x => x[l]?) hshape'
    simp only [List.getElem?_map, hl, Option.map_some] at this
    cases hs : served[l]? with
    | none => rw [hs] at this; cases this
    | some g =>
      rw [hs] at this
      simp only [Option.map_some, Option.some.injEq, Prod.mk.injEq] at this
      exact ⟨g, rfl, this.2.symm⟩
  obtain ⟨g, hg, hgl⟩ := hg
  refine ⟨List.zipWith (fun i j => { i with result := j.result }) items g.2, ?_, by
    rw [List.length_zipWith, hgl, Nat.min_self], ?_⟩
  · rw [← e1]
    have hbk : AMap.keys (withResults fm served) = fm.keys := by
      have hl : fm.length = served.length := by
        have := congrArg List.length hshape'
        simpa using this
      rw [AMap.keys, withResults, AMap.keys]
      apply List.ext_getElem?
      intro n
      rw [List.getElem?_map, List.getElem?_map, List.getElem?_zipWith]
      cases h1 : fm[n]? with
      | none => rfl
      | some f =>
        have : n < served.length := by
          rw [← hl]; exact (List.getElem?_eq_some_iff.mp h1).1
        rw [List.getElem?_eq_getElem this]; rfl
    apply (AMap.mem_iff_find _ (by rw [hbk]; exact ha.files) _ _).mp
    apply List.mem_of_getElem? (i := l)
    rw [withResults, List.getElem?_zipWith, hl, hg]
  · intro j i i' r hi hi' hr
    rw [List.getElem?_zipWith, hi] at hi'
    cases hj : g.2[j]? with
    | none => rw [hj] at hi'; cases hi'
    | some y =>
      rw [hj] at hi'
      simp only [Option.some.injEq] at hi'
      subst hi'
      obtain ⟨r', hr', hP⟩ := hres l _ g (hat l (f, items) hl) hg j (received i.wrap) y
        (by simp only [List.getElem?_map, hi, Option.map_some]) hj
      simp only at hr
      rw [hr] at hr'
      cases hr'
      exact hP

end GJ
