import Verif.Lemmas.EngineSafe
import Verif.Lemmas.Cluster
import Verif.Props.C44
import Verif.Props.C53
import Verif.Props.C29

/-!
# C55: acceptable requests do not bring a node down
-/

namespace GJ

open Spec Dec

/-! ## Listings -/

/-- Where `listLoop` may put an item: its place is that of an entry with its text. -/
theorem listLoop_safe (ig : Bool) (S : Uri → Prop) (A : String → Nat → List Interval → Prop) :
    ∀ (L : List (FdbKey × Uri)) (m : ItemMap) (fm : KeyMap) (n : Nat),
    (∀ e ∈ L, S e.2) →
    (∀ e ∈ L, ∀ it, m.find (entryText ig e) = some it → ∀ f ∈ fm, entryText ig e ∈ f.2 → A f.1 e.2.offset it.request.ranges) →
    (∀ e ∈ L, ∀ e' ∈ L, entryText ig e' = entryText ig e → ∀ it, m.find (entryText ig e) = some it →
      A e.2.path e'.2.offset it.request.ranges) →
    Filled m → fm.keys.Nodup → (∀ f ∈ fm, f.2 ≠ []) →
    (∀ f ∈ fm, ∀ k ∈ f.2, ∃ it, m.find k = some it ∧ A f.1 it.uri.offset it.request.ranges ∧
      A it.uri.path it.uri.offset it.request.ranges ∧ S it.uri) →
    let x := listLoop ig L m fm n
    Filled x.1 ∧ x.2.1.keys.Nodup ∧ (∀ f ∈ x.2.1, f.2 ≠ []) ∧
      (∀ f ∈ x.2.1, ∀ k ∈ f.2, ∃ it, x.1.find k = some it ∧ A f.1 it.uri.offset it.request.ranges ∧
        A it.uri.path it.uri.offset it.request.ranges ∧ S it.uri) ∧
      x.1.keys = m.keys ∧ ∀ k, (x.1.find k).map (·.request) = (m.find k).map (·.request) := by
  intro L
  induction L with
  | nil =>
    intro m fm n hS hold hnew hf hn hne hfm
    exact ⟨hf, hn, hne, hfm, rfl, fun _ => rfl⟩
  | cons e L ih =>
    obtain ⟨key, uri⟩ := e
    intro m fm n hS hold hnew hf hn hne hfm
    have ht : String.ofList (fdbkeyToStr ig key) = entryText ig (key, uri) := rfl
    rw [listLoop]
    simp only [ht]
    cases hfind : m.find (entryText ig (key, uri)) with
    | none =>
      exact ih m fm n (fun e he => hS e (by simp [he]))
        (fun e he => hold e (by simp [he])) (fun e he e' he' => hnew e (by simp [he]) e' (by simp [he'])) hf hn hne hfm
    | some it =>
      simp only
      generalize hk : entryText ig (key, uri) = k at *
      have hkm : k ∈ m.keys := by rw [AMap.mem_keys_iff, hfind]; rfl
      have hreq : ∀ k', (AMap.find (m.set k { it with uri := uri }) k').map (·.request) = (m.find k').map (·.request) := by
        intro k'
        rw [AMap.find_set]
        by_cases h : k = k'
        · subst h; rw [if_pos rfl, hfind]; rfl
        · rw [if_neg h]
      have hback : ∀ k' it', AMap.find (m.set k { it with uri := uri }) k' = some it' →
          ∃ it0, m.find k' = some it0 ∧ it0.request = it'.request := by
        intro k' it' h
        have := hreq k'
        rw [h] at this
        cases hm : m.find k' with
        | none => rw [hm] at this; cases this
        | some it0 => rw [hm] at this; exact ⟨it0, rfl, (Option.some.inj this).symm⟩
      have := ih (m.set k { it with uri := uri }) (addFile fm uri.path k) (n + 1)
        (fun e he => hS e (by simp [he]))
        (fun e he it' h f hfm' hmem => by
          obtain ⟨it0, h0, hq⟩ := hback _ it' h
          rw [← hq]
          rcases pushAt_mem fm uri.path k f hfm' with h1 | ⟨h1, l, h2, h3⟩
          · exact hold e (by simp [he]) it0 h0 f h1 hmem
          · rw [h2] at hmem
            rw [h1]
            rcases List.mem_append.mp hmem with hmem | hmem
            · rcases h3 with h3 | h3
              · exact hold e (by simp [he]) it0 h0 _ h3 hmem
              · rw [h3] at hmem; cases hmem
            · rw [List.mem_singleton] at hmem
              exact hnew (key, uri) (by simp) e (by simp [he]) (by rw [hmem, hk]) it0 (by rw [hk, ← hmem]; exact h0))
        (fun e he e' he' ht it' h => by
          obtain ⟨it0, h0, hq⟩ := hback _ it' h
          rw [← hq]
          exact hnew e (by simp [he]) e' (by simp [he']) ht it0 h0)
        (by
          intro k' it' h
          rw [AMap.find_set] at h
          split at h
          · cases h; exact hf k it hfind
          · exact hf k' it' h)
        (pushAt_nodup fm uri.path k hn) (pushAt_nonempty fm uri.path k hne)
        (by
          refine pushAt_all (fun f' k' => ∃ it', AMap.find (m.set k { it with uri := uri }) k' = some it' ∧
            A f' it'.uri.offset it'.request.ranges ∧ A it'.uri.path it'.uri.offset it'.request.ranges ∧ S it'.uri)
            fm uri.path k ?_ ?_
          · intro f hfm' k' hk'
            rw [AMap.find_set]
            by_cases h : k = k'
            · subst h
              refine ⟨{ it with uri := uri }, by rw [if_pos rfl], ?_, ?_, hS (key, uri) (by simp)⟩
              · exact hold (key, uri) (by simp) it (by rw [hk]; exact hfind) f hfm' (by rw [hk]; exact hk')
              · exact hnew (key, uri) (by simp) (key, uri) (by simp) rfl it (by rw [hk]; exact hfind)
            · rw [if_neg h]
              exact hfm f hfm' k' hk'
          · refine ⟨{ it with uri := uri }, by rw [AMap.find_set, if_pos rfl], ?_, ?_, hS (key, uri) (by simp)⟩
            · exact hnew (key, uri) (by simp) (key, uri) (by simp) rfl it (by rw [hk]; exact hfind)
            · exact hnew (key, uri) (by simp) (key, uri) (by simp) rfl it (by rw [hk]; exact hfind))
      obtain ⟨a, b, c, d, e, f⟩ := this
      exact ⟨a, b, c, d, e.trans (by rw [AMap.keys_set, if_pos hkm]), fun k' => (f k').trans (hreq k')⟩

/-! ## The engine -/

/-- What a client may ask a node for: `A f o rs` says that intervals `rs` may be asked of the field at offset `o` of file
`f`.  An extraction is accepted if this holds of every field the store lists under the text of the request (of the places
of any two such fields, when the store lists several); a forwarded extraction if every file has items, and it holds of
every item. -/
def Acceptable (E : ExtEnv) (C : EngineConf) (A : String → Nat → List Interval → Prop) : ServerReq → Prop
  | .extract rs => ∀ u L, E.list u = .ok L → ∀ r ∈ canonAll C.ignoreYearMonth false rs, ∀ e ∈ L, ∀ e' ∈ L,
      entryText C.ignoreYearMonth e = r.request → entryText C.ignoreYearMonth e' = r.request →
      A e.2.path e'.2.offset r.ranges
  | .forwardExtract fm => (∀ f ∈ fm, f.2 ≠ []) ∧ ∀ f ∈ fm, ∀ i ∈ f.2, A f.1 i.uri.offset i.request.ranges
  | _ => True

/-- Fields that are not on this machine's disks can be extracted, by other servers or through the store, or there are none. -/
def NoStrayFdb (E : ExtEnv) (C : EngineConf) : Prop :=
  C.forward = true ∨ C.inefficient = true ∨ ∀ u L, E.list u = .ok L → ∀ e ∈ L, e.2.scheme ≠ "fdb"

/-- Results for all requests, none of them missing. -/
def ResultsFor (rs : List ExRequest) (results : ItemMap) : Prop :=
  (rs.map ExRequest.request).Nodup ∧ ∀ r ∈ rs, ∃ it x, results.find r.request = some it ∧ it.result = some x

theorem entriesOf_find {rs : List ExRequest} (hn : (rs.map ExRequest.request).Nodup) {k : String} {it : Item}
    (h : (entriesOf rs).find k = some it) : ∃ r ∈ rs, k = r.request ∧ it = newItem r := by
  have hk : (entriesOf rs).keys.Nodup := by rw [entriesOf_keys]; exact hn
  have := (AMap.mem_iff_find _ hk k it).mpr h
  rw [entriesOf, List.mem_map] at this
  obtain ⟨r, hr, he⟩ := this
  cases he
  exact ⟨r, hr, rfl, rfl⟩

theorem engineExtract_safe {E : ExtEnv} {C : EngineConf} {A : String → Nat → List Interval → Prop} (hE : Steady E A)
    (hfdb : NoStrayFdb E C) (sched : List Nat) {rs : List ExRequest} (hacc : Acceptable E C A (.extract rs)) :
    Safe (fun x => ResultsFor x.1 x.2.1) (engineExtract E C sched rs) := by
  unfold engineExtract
  rw [buildRequestMap_eq]
  split
  · rename_i hn
    rw [ok_bind]
    simp only
    refine Safe.bind (Safe.of_ne (hE.list _)) fun L hL => ?_
    have hacc' := hacc _ L hL
    have hentry := fun k it => entriesOf_find (k := k) (it := it) hn
    have hkeys : (entriesOf (canonAll C.ignoreYearMonth false rs)).keys =
      (canonAll C.ignoreYearMonth false rs).map ExRequest.request := entriesOf_keys _
    generalize canonAll C.ignoreYearMonth false rs = rs' at *
    have hl := listLoop_safe C.ignoreYearMonth (fun u => C.forward = true ∨ C.inefficient = true ∨ u.scheme ≠ "fdb") A L (entriesOf rs') [] 0
      (fun e he => hfdb.imp id fun h => h.imp id fun h => h _ L hL e he)
      (fun _ _ _ _ f hf => by cases hf)
      (fun e he e' he' ht it hit => by
        obtain ⟨r, hr, hk, rfl⟩ := hentry _ it hit
        exact hacc' r hr e he e' he' hk (ht.trans hk))
      (fun k it hit => by
        obtain ⟨r, hr, hk, rfl⟩ := hentry _ it hit
        simp [newItem])
      List.nodup_nil (fun f hf => by cases hf) (fun f hf => by cases hf)
    unfold fileMap
    generalize listLoop C.ignoreYearMonth L (entriesOf rs') [] 0 = x at *
    obtain ⟨m1, fm1, n1⟩ := x
    obtain ⟨h1, h2, h3, h4, h5, h6⟩ := hl
    simp only at h1 h2 h3 h4 h5 h6 ⊢
    split
    · exact Safe.throw _
    rw [ok_bind]
    simp only
    have hsch : Schedulable A C C.forward m1 fm1 := by
      refine ⟨h1, h2, h3, ?_, ?_⟩
      · intro f hf k hk
        obtain ⟨it, hit, a, b, -⟩ := h4 f hf k hk
        exact ⟨it, hit, a, fun _ => b⟩
      · by_cases h : C.forward = true
        · exact .inl h
        by_cases h' : C.inefficient = true
        · exact .inr (.inl h')
        refine .inr (.inr fun f hf k hk it hit => ?_)
        obtain ⟨it', hit', -, -, hs⟩ := h4 f hf k hk
        rw [hit] at hit'
        cases hit'
        exact (hs.resolve_left h).resolve_left h'
    refine Safe.bind (scheduleTasks_safe hE C C.forward hsch sched) fun x hx => ?_
    obtain ⟨m2, errs⟩ := x
    refine Safe.ok ⟨hn, ?_⟩
    simp only at hx ⊢
    have hmk : m2.keys = (entriesOf rs').keys := hx.1.keys.trans h5
    have hmn : m2.keys.Nodup := by rw [hmk, hkeys]; exact hn
    have hreq : ∀ k it, m2.find k = some it → it.request.request = k := by
      intro k it hit
      have ha := hx.1.rest k
      rw [hit] at ha
      cases hm1 : m1.find k with
      | none => rw [hm1] at ha; cases ha
      | some it1 =>
        rw [hm1] at ha
        have hb := h6 k
        rw [hm1] at hb
        cases hm0 : (entriesOf rs').find k with
        | none => rw [hm0] at hb; cases hb
        | some it0 =>
          rw [hm0] at hb
          obtain ⟨r, -, hk, rfl⟩ := hentry k it0 hm0
          have e1 := (Prod.mk.inj (Option.some.inj ha)).1
          have e2 : it1.request = (newItem r).request := Option.some.inj hb
          rw [e1, e2, hk]
          rfl
    rw [collectResults_eq m2 hmn (fun e he => hreq e.1 e.2 ((AMap.mem_iff_find m2 hmn e.1 e.2).mp he))]
    intro r hr
    have : r.request ∈ m2.keys := by rw [hmk, hkeys]; exact List.mem_map.mpr ⟨r, hr, rfl⟩
    rw [AMap.mem_keys_iff] at this
    cases hm : m2.find r.request with
    | none => rw [hm] at this; cases this
    | some it =>
      have hne := hx.2 _ _ hm
      cases hit : it.result with
      | none => exact absurd hit hne
      | some x => exact ⟨it, x, rfl, hit⟩
  · exact Safe.throw _

theorem encExtractReply_safe (out : List WireResult) : encExtractReply (out.map some) ≠ undef := by
  induction out with
  | nil => intro h; cases h
  | cons r out ih =>
    rw [List.map_cons, encExtractReply]
    intro h
    cases he : encExtractReply (out.map some) with
    | error e => rw [he, error_bind] at h; cases h; exact ih he
    | ok tl => rw [he, ok_bind] at h; cases h

theorem replyExtract_safe {rs : List ExRequest} {results : ItemMap} (h : ResultsFor rs results) :
    replyExtract rs results ≠ undef := by
  have : ∃ out : List WireResult, rs.map (fun r => (results.find r.request).bind (·.result)) = out.map some := by
    obtain ⟨-, h⟩ := h
    induction rs with
    | nil => exact ⟨[], rfl⟩
    | cons r rs ih =>
      obtain ⟨out, ho⟩ := ih fun r hr => h r (by simp [hr])
      obtain ⟨it, x, h1, h2⟩ := h r (by simp)
      refine ⟨x :: out, ?_⟩
      rw [List.map_cons, ho, h1, List.map_cons]
      simp [h2]
  obtain ⟨out, ho⟩ := this
  rw [replyExtract, orderedResults_ok rs results out h.1 ho, ok_bind]
  exact encExtractReply_safe out

/-! ## Forwarded extractions -/

theorem encReplyItems_safe {is : List Item} (h : ∀ i ∈ is, i.result ≠ none) : encReplyItems is ≠ undef := by
  induction is with
  | nil => intro h; cases h
  | cons i is ih =>
    rw [encReplyItems]
    cases hi : i.result with
    | none => exact absurd hi (h i (by simp))
    | some r =>
      simp only
      intro hu
      cases he : encReplyItems is with
      | error e => rw [he, error_bind] at hu; cases hu; exact ih (fun i hi => h i (by simp [hi])) he
      | ok tl => rw [he, ok_bind] at hu; cases hu

theorem encForwardReply_safe {fm : FileMap} (h : ∀ f ∈ fm, ∀ i ∈ f.2, i.result ≠ none) : encForwardReply fm ≠ undef := by
  induction fm with
  | nil => intro h; cases h
  | cons f fm ih =>
    rw [encForwardReply]
    refine (Safe.bind (T := fun _ => True) (Safe.of_ne (encReplyItems_safe (h f (by simp)))) fun _ _ => ?_).1
    exact Safe.bind (Safe.of_ne (ih fun g hg => h g (by simp [hg]))) fun _ _ => Safe.ok trivial

/-- What arrives in a forwarded extraction: files are not repeated, and items are file items with empty results. -/
def FreshFiles (fm : FileMap) : Prop :=
  fm.keys.Nodup ∧ ∀ f ∈ fm, ∀ i ∈ f.2, i.uri.scheme = "file" ∧ i.result ≠ none

theorem numFiles_found {fm : FileMap} {f : String × List String} (h : f ∈ (numFiles 0 fm).2) :
    ∃ items, (f.1, items) ∈ fm ∧ items.length = f.2.length ∧
      ∀ k ∈ f.2, ∃ it ∈ items, (numFiles 0 fm).1.find k = some it := by
  obtain ⟨j, hj⟩ := List.getElem?_of_mem h
  have hlen := (List.getElem?_eq_some_iff.mp hj).1
  rw [numFiles_length] at hlen
  obtain ⟨ks, h1, h2, h3⟩ := numFiles_items (j := j) (f := fm[j]) (List.getElem?_eq_getElem hlen)
  rw [hj] at h1
  cases h1
  refine ⟨fm[j].2, List.getElem_mem hlen, h2.symm, ?_⟩
  intro k hk
  obtain ⟨l, hl⟩ := List.getElem?_of_mem hk
  obtain ⟨i, hi, hf⟩ := (h3 l).2 k hl
  exact ⟨i, List.mem_of_getElem? hi, hf⟩

theorem numItems_mem {is : List Item} {k : Nat} {x : String × Item} (h : x ∈ numItems k is) : x.2 ∈ is := by
  induction is generalizing k with
  | nil => cases h
  | cons i is ih =>
    rcases List.mem_cons.mp h with rfl | h
    · exact List.mem_cons_self
    · exact List.mem_cons_of_mem _ (ih h)

theorem numFiles_mem {fm : FileMap} {k : Nat} {x : String × Item} (h : x ∈ (numFiles k fm).1) : ∃ f ∈ fm, x.2 ∈ f.2 := by
  induction fm generalizing k with
  | nil => cases h
  | cons f fm ih =>
    rw [numFiles] at h
    rcases List.mem_append.mp h with h | h
    · exact ⟨f, by simp, numItems_mem h⟩
    · obtain ⟨g, hg, hx⟩ := ih h
      exact ⟨g, by simp [hg], hx⟩

theorem serverForward_safe {E : ExtEnv} {C : EngineConf} {A : String → Nat → List Interval → Prop} (hE : Steady E A)
    (sched : List Nat) {fm : FileMap} (fresh : FreshFiles fm) (hacc : Acceptable E C A (.forwardExtract fm)) :
    Safe (fun x => ∀ f ∈ x.1, ∀ i ∈ f.2, i.result ≠ none) (serverForward E C sched fm) := by
  unfold serverForward
  have hsch : Schedulable A C false (numFiles 0 fm).1 (numFiles 0 fm).2 := by
    refine ⟨?_, by rw [numFiles_keys]; exact fresh.1, ?_, ?_, ?_⟩
    · intro k it hit
      have := (AMap.mem_iff_find _ (numFiles_nodup fm 0) k it).mpr hit
      obtain ⟨f, hf, hi⟩ := numFiles_mem this
      exact (fresh.2 f hf it hi).2
    · intro f hf
      obtain ⟨items, h1, h2, -⟩ := numFiles_found hf
      have := hacc.1 _ h1
      intro he
      rw [he] at h2
      exact this (List.length_eq_zero_iff.mp h2)
    · intro f hf k hk
      obtain ⟨items, h1, -, h3⟩ := numFiles_found hf
      obtain ⟨it, hi, hfind⟩ := h3 k hk
      refine ⟨it, hfind, hacc.2 _ h1 it hi, ?_⟩
      intro hs
      rw [(fresh.2 _ h1 it hi).1] at hs
      exact absurd hs (by decide)
    · refine .inr (.inr fun f hf k hk it hit => ?_)
      obtain ⟨items, h1, -, h3⟩ := numFiles_found hf
      obtain ⟨it', hi, hfind⟩ := h3 k hk
      rw [hit] at hfind
      cases hfind
      rw [(fresh.2 _ h1 it hi).1]
      decide
  generalize numFiles 0 fm = x at *
  obtain ⟨m, km⟩ := x
  simp only at hsch ⊢
  refine Safe.bind (scheduleTasks_safe hE C false hsch sched) fun y hy => ?_
  refine Safe.ok ?_
  intro f hf i hi
  obtain ⟨g, hg, rfl⟩ := List.mem_map.mp hf
  obtain ⟨k, -, hk⟩ := mem_itemsOf hi
  exact hy.2 k i hk

/-- A predicate holds of whatever a reader returns. -/
def Dec.Gives {α : Type} (d : Dec α) (P : α → Prop) : Prop := ∀ s a r, d s = .ok (a, r) → P a

theorem Dec.Gives.bind {α β : Type} {d : Dec α} {f : α → Dec β} {Q : α → Prop} {P : β → Prop} (hd : d.Gives Q)
    (hf : ∀ a, Q a → (f a).Gives P) : Dec.Gives (d >>= f) P := by
  intro s b r h
  cases hs : d s with
  | error e => rw [Dec.bind_error hs] at h; cases h
  | ok y =>
    obtain ⟨a, r'⟩ := y
    rw [Dec.bind_ok hs] at h
    exact hf a (hd s a r' hs) r' b r h

theorem Dec.Gives.any {α : Type} (d : Dec α) : d.Gives fun _ => True := fun _ _ _ _ => trivial

theorem Dec.Gives.pure {α : Type} {P : α → Prop} {a : α} (h : P a) : Dec.Gives (Pure.pure a : Dec α) P := by
  intro s b r hs
  cases hs
  exact h

theorem Dec.Gives.times {α : Type} {d : Dec α} {P : α → Prop} (hd : d.Gives P) (n : Nat) :
    (Dec.times n d).Gives fun l => l.length = n ∧ ∀ a ∈ l, P a := by
  induction n with
  | zero => exact Dec.Gives.pure ⟨rfl, fun a h => by cases h⟩
  | succ n ih =>
    rw [Dec.times]
    refine Dec.Gives.bind hd fun a ha => Dec.Gives.bind ih fun l hl => Dec.Gives.pure ⟨by simp [hl.1], ?_⟩
    intro b hb
    rcases List.mem_cons.mp hb with rfl | hb
    · exact ha
    · exact hl.2 b hb

theorem foldl_set_mem {V : Type} (P : V → Prop) : ∀ (es : List (String × V)) (m : AMap String V),
    (∀ e ∈ es, P e.2) → (∀ e ∈ m, P e.2) → m.keys.Nodup →
    (∀ e ∈ es.foldl (fun m e => AMap.set m e.1 e.2) m, P e.2) ∧
      (AMap.keys (es.foldl (fun m e => AMap.set m e.1 e.2) m)).Nodup := by
  intro es
  induction es with
  | nil => intro m _ hm hn; exact ⟨hm, hn⟩
  | cons e es ih =>
    intro m he hm hn
    refine ih _ (fun x hx => he x (by simp [hx])) ?_ (AMap.nodup_set _ _ _ hn)
    intro x hx
    have hn' := AMap.nodup_set m e.1 e.2 hn
    have := (AMap.mem_iff_find _ hn' x.1 x.2).mp hx
    rw [AMap.find_set] at this
    split at this
    · rw [← Option.some.inj this]; exact he e (by simp)
    · exact hm x ((AMap.mem_iff_find m hn x.1 x.2).mpr this)

theorem decForwardExtract_gives : decForwardExtract.Gives FreshFiles := by
  have hitem : decForwardItem.Gives fun i => i.uri.scheme = "file" ∧ i.result ≠ none :=
    Dec.Gives.bind (Dec.Gives.any _) fun _ _ => Dec.Gives.bind (Dec.Gives.any _) fun _ _ =>
      Dec.Gives.pure ⟨rfl, by simp⟩
  unfold decForwardExtract
  refine Dec.Gives.bind (Dec.Gives.any _) fun n _ => ?_
  refine Dec.Gives.bind (Dec.Gives.times (P := fun e => ∀ i ∈ e.2, i.uri.scheme = "file" ∧ i.result ≠ none) ?_ n)
    fun es hes => Dec.Gives.pure ?_
  · exact Dec.Gives.bind (Dec.Gives.any _) fun _ _ => Dec.Gives.bind (Dec.Gives.any _) fun k _ =>
      Dec.Gives.bind (Dec.Gives.times hitem k) fun is his => Dec.Gives.pure his.2
  · obtain ⟨h1, h2⟩ := foldl_set_mem (fun is : List Item => ∀ i ∈ is, i.uri.scheme = "file" ∧ i.result ≠ none) es []
      hes.2 (fun _ h => by cases h) List.nodup_nil
    exact ⟨h2, h1⟩

theorem dispatch_gives : dispatch.Gives fun x => ∀ fm, x.2 = .forwardExtract fm → FreshFiles fm := by
  unfold dispatch
  refine Dec.Gives.bind (Dec.Gives.any _) fun x _ => ?_
  obtain ⟨ctx, t⟩ := x
  match t with
  | 0 => exact Dec.Gives.bind (Dec.Gives.any _) fun _ _ => Dec.Gives.pure fun _ h => by cases h
  | 1 => exact Dec.Gives.bind (Dec.Gives.any _) fun _ _ => Dec.Gives.bind (Dec.Gives.any _) fun _ _ =>
      Dec.Gives.pure fun _ h => by cases h
  | 2 => exact Dec.Gives.bind (Dec.Gives.any _) fun _ _ => Dec.Gives.pure fun _ h => by cases h
  | 3 => exact Dec.Gives.bind decForwardExtract_gives fun _ hfm => Dec.Gives.bind (Dec.Gives.any _) fun _ _ =>
      Dec.Gives.pure fun _ h => by cases h; exact hfm
  | 4 => exact Dec.Gives.bind (Dec.Gives.any _) fun _ _ => Dec.Gives.pure fun _ h => by cases h
  | n + 5 => intro s a r h; cases h

/-! ## The node -/

/-- C55 (partial).  A node answers every request whose intervals the fields accept (`Acceptable`), whatever fails on the
way: nothing undefined happens, in any interleaving of the workers.  Missing: requests that are not acceptable
(`C55_past_the_end_crashes_node`, `C52_empty_file_is_undefined`), `fdb:` places without the option for them
(`C25_abandoned_request_fails`), and announced but missing ranges (`C44_short_ranges_undefined`). -/
theorem C55_node_answers_partial (E : ExtEnv) (C : EngineConf) (sched : List Nat)
    (axes : String → Int → Res (AMap String (List String))) (scan : List String → Bool → Res (Nat × List String))
    (forwardScan : AMap String (List Nat) → Res (Nat × List String)) (A : String → Nat → List Interval → Prop)
    (steady : Steady E A) (places : NoStrayFdb E C) (otherAxes : ∀ r l, axes r l ≠ undef)
    (otherScan : ∀ rs b, scan rs b ≠ undef) (otherForwardScan : ∀ sm, forwardScan sm ≠ undef)
    (input : List Tok) (complete : RangesComplete input)
    (acceptable : ∀ ctx req rest, dispatch input = .ok ((ctx, req), rest) → Acceptable E C A req) :
    ∃ calls out, serve (nodeEngine E C sched axes scan forwardScan) input = .ok (calls, out) ∧ calls.length ≤ 1 ∧
      out ≠ [] := by
  refine C44_always_answered_partial _ input ?_ complete
  intro ctx req rest hd
  have hacc := acceptable ctx req rest hd
  have hfresh := dispatch_gives input (ctx, req) rest hd
  have key : Safe (fun x : List String × Res (List Tok) => x.2 ≠ undef)
      (handle (nodeEngine E C sched axes scan forwardScan) req) := by
    cases req with
    | extract rs =>
      exact Safe.bind (engineExtract_safe steady places sched hacc) fun x hx => Safe.ok (replyExtract_safe hx)
    | axes r l => exact Safe.bind (Safe.of_ne (otherAxes r l)) fun _ _ => Safe.ok (by intro h; cases h)
    | scan rs b => exact Safe.bind (Safe.of_ne (otherScan rs b)) fun _ _ => Safe.ok (by intro h; cases h)
    | forwardExtract fm =>
      exact Safe.bind (serverForward_safe steady sched (hfresh fm rfl) hacc) fun x hx => Safe.ok (encForwardReply_safe hx)
    | forwardScan sm => exact Safe.bind (Safe.of_ne (otherForwardScan sm)) fun _ _ => Safe.ok (by intro h; cases h)
  exact ⟨key.1, fun errs h => key.2 _ h rfl⟩

/-! ## Calls in the same process -/

theorem collectLoop_safe : ∀ (rs : List ExRequest) (m : ItemMap), collectLoop rs m ≠ undef := by
  intro rs
  induction rs with
  | nil => intro m h; cases h
  | cons r rs ih =>
    intro m
    rw [collectLoop]
    cases m.find r.request with
    | none => intro h; cases h
    | some it =>
      simp only
      cases it.result with
      | none => intro h; cases h
      | some x =>
        exact (Safe.bind (T := fun _ => True) (Safe.of_ne (ih _)) fun _ _ => Safe.ok trivial).1

theorem localTail_safe {α : Type} {errs : List α} {n k : Nat} (rs : List ExRequest) (m : ItemMap) :
    Safe (fun _ => True) (if errs ≠ [] then (throwExn .seriousBug : Res (List WireResult)) else do
      cassert (decide (n = k))
      collectLoop rs m) := by
  split
  · exact Safe.throw _
  · exact Safe.bind (Safe.cassert _) fun _ _ => (Safe.of_ne (collectLoop_safe rs m)).weaken fun _ _ => trivial

theorem buildPathMap_inv (rs : List PathReq) : ∀ (done : List PathReq) (m : ItemMap), m.keys.Nodup →
    (∀ k it, m.find k = some it → ∃ r ∈ done, it.uri = ⟨r.scheme, r.host, r.port, r.path, r.offset⟩ ∧
      it.request = r.base ∧ it.result ≠ none) →
    let m' := rs.foldl (fun m r => AMap.insert m r.text
      { request := r.base, uri := ⟨r.scheme, r.host, r.port, r.path, r.offset⟩, result := some emptyResult }) m
    m'.keys.Nodup ∧ ∀ k it, m'.find k = some it →
      ∃ r ∈ done ++ rs, it.uri = ⟨r.scheme, r.host, r.port, r.path, r.offset⟩ ∧ it.request = r.base ∧ it.result ≠ none := by
  induction rs with
  | nil => intro done m hn h; simpa using ⟨hn, h⟩
  | cons r rs ih =>
    intro done m hn h
    have := ih (done ++ [r]) _ (AMap.nodup_insert m r.text
      { request := r.base, uri := ⟨r.scheme, r.host, r.port, r.path, r.offset⟩, result := some emptyResult } hn) (by
      intro k it hf
      rw [AMap.find_insert] at hf
      split at hf
      · cases hm : m.find r.text with
        | none =>
          rw [hm] at hf
          cases hf
          exact ⟨r, by simp, rfl, rfl, by simp⟩
        | some it0 =>
          rw [hm] at hf
          have e : it0 = it := Option.some.inj hf
          subst e
          obtain ⟨r', hr', hx⟩ := h r.text it0 hm
          exact ⟨r', by simp [hr'], hx⟩
      · obtain ⟨r', hr', hx⟩ := h k it hf
        exact ⟨r', by simp [hr'], hx⟩)
    simpa using this

/-- C55.  The same for the two calls of a program that uses the library directly: an extraction by request, and one by
place, of at least one field. -/
theorem C55_local_calls_defined (E : ExtEnv) (C : EngineConf) (sched : List Nat) (A : String → Nat → List Interval → Prop)
    (steady : Steady E A) :
    (∀ rs, NoStrayFdb E C → Acceptable E C A (.extract rs) → localExtract E C sched rs ≠ undef) ∧
    (∀ rs : List PathReq, rs ≠ [] → (∀ r ∈ rs, A r.path r.offset r.ranges) →
      ((∀ r, rs.head? = some r → r.host ≠ "" ∨ r.port ≠ 0) ∨ C.inefficient = true ∨ ∀ r ∈ rs, r.scheme ≠ "fdb") →
      localExtractPaths E C sched rs ≠ undef) := by
  constructor
  · intro rs places acc
    unfold localExtract
    exact (Safe.bind (engineExtract_safe steady places sched acc) fun x _ => localTail_safe _ _).1
  · intro rs hne acc places
    unfold localExtractPaths
    refine (Safe.bind (Q := fun _ => True) ?_ fun x _ => localTail_safe _ _).1
    unfold engineExtractPaths
    obtain ⟨hn, hinv⟩ := buildPathMap_inv rs [] [] List.nodup_nil (fun k it h => by cases h)
    rw [List.nil_append] at hinv
    change (AMap.keys (buildPathMap rs)).Nodup at hn
    change ∀ k it, AMap.find (buildPathMap rs) k = some it → _ at hinv
    have g := fileMapFromPaths_spec (buildPathMap rs) hn
    generalize buildPathMap rs = m at *
    have hsch : ∀ fwd, (fwd = true ∨ C.inefficient = true ∨ ∀ r ∈ rs, r.scheme ≠ "fdb") →
        Schedulable A C fwd m (fileMapFromPaths m) := by
      intro fwd places
      refine ⟨?_, g.files, g.nonempty, ?_, ?_⟩
      · intro k it hit
        obtain ⟨r, -, -, -, h⟩ := hinv k it hit
        exact h
      · intro f hf k hk
        obtain ⟨it, hit, hp⟩ := g.path f hf k hk
        obtain ⟨r, hr, hu, hq, -⟩ := hinv k it hit
        have hA : A it.uri.path it.uri.offset it.request.ranges := by
          rw [hu, hq]
          exact acc r hr
        exact ⟨it, hit, by rw [← hp]; exact hA, fun _ => hA⟩
      · refine places.imp id fun h => h.imp id fun h f hf k hk it hit => ?_
        obtain ⟨r, hr, hu, -, -⟩ := hinv k it hit
        rw [hu]
        exact h r hr
    cases rs with
    | nil => exact absurd rfl hne
    | cons r rs =>
      simp only
      exact Safe.bind (scheduleTasks_safe steady C _ (hsch _ (places.imp (fun h => by
        rcases h r rfl with h | h <;> simp [h]) id)) sched) fun _ _ => Safe.ok trivial

/-! ## Answers of other servers -/

theorem setResults_length (is : List Item) (rs : List WireResult) : (setResults is rs).length = is.length := by
  induction is generalizing rs with
  | nil => cases rs <;> rfl
  | cons i is ih =>
    cases rs with
    | nil => rfl
    | cons r rs => rw [setResults, List.length_cons, List.length_cons, ih]

theorem setResults_filled {is : List Item} (h : ∀ i ∈ is, i.result ≠ none) (rs : List WireResult) :
    ∀ i ∈ setResults is rs, i.result ≠ none := by
  induction is generalizing rs with
  | nil => cases rs <;> (intro i hi; cases hi)
  | cons i is ih =>
    cases rs with
    | nil => exact h
    | cons r rs =>
      intro x hx
      rw [setResults] at hx
      rcases List.mem_cons.mp hx with rfl | hx
      · simp
      · exact ih (fun i hi => h i (by simp [hi])) rs x hx

/-- Files keep their number of items, and no result is missing. -/
def Keeps (fm back : FileMap) : Prop :=
  (∀ f items, fm.find f = some items → ∃ items', back.find f = some items' ∧ items'.length = items.length) ∧
    ∀ f items', back.find f = some items' → ∀ i ∈ items', i.result ≠ none

theorem decForwardReplyLoop_keeps (n : Nat) : ∀ (fm : FileMap), (∀ f items, fm.find f = some items → ∀ i ∈ items, i.result ≠ none) →
    (decForwardReplyLoop n fm).Gives (Keeps fm) := by
  induction n with
  | zero => intro fm h; exact Dec.Gives.pure ⟨fun f items h => ⟨items, h, rfl⟩, h⟩
  | succ n ih =>
    intro fm h
    rw [decForwardReplyLoop]
    refine Dec.Gives.bind (Dec.Gives.any _) fun fname _ => Dec.Gives.bind (Dec.Gives.any _) fun k _ =>
      Dec.Gives.bind (Dec.Gives.any _) fun _ _ => Dec.Gives.bind (Dec.Gives.any _) fun rs _ => ?_
    have hset : ∀ f items', AMap.find (fm.set fname (setResults ((fm.find fname).getD []) rs)) f = some items' →
        ∀ i ∈ items', i.result ≠ none := by
      intro f items' hf
      rw [AMap.find_set] at hf
      split at hf
      · cases hf
        refine setResults_filled ?_ rs
        intro i hi
        cases hfm : fm.find fname with
        | none => rw [hfm] at hi; cases hi
        | some items => rw [hfm] at hi; exact h fname items hfm i hi
      · exact h f items' hf
    intro s back r hr
    obtain ⟨h1, h2⟩ := ih _ hset s back r hr
    refine ⟨?_, h2⟩
    intro f items hf
    by_cases e : fname = f
    · subst e
      obtain ⟨items', h3, h4⟩ := h1 fname (setResults items rs) (by rw [AMap.find_set, if_pos rfl, hf]; rfl)
      exact ⟨items', h3, by rw [h4, setResults_length]⟩
    · exact h1 f items (by rw [AMap.find_set, if_neg e]; exact hf)

/-- The answer of a server, to whatever it was asked, can be read without undefined behaviour. -/
theorem decForwardReplyLoop_defined (served : FileMap) (hs : Served served) :
    ∃ bytes, encForwardReply served = .ok bytes ∧ ∀ n fm, decForwardReplyLoop n fm bytes ≠ undef := by
  induction served with
  | nil =>
    refine ⟨[], rfl, ?_⟩
    intro n fm
    cases n with
    | zero => intro h; cases h
    | succ n => intro h; rw [decForwardReplyLoop] at h; cases h
  | cons g served ih =>
    obtain ⟨gname, gitems⟩ := g
    obtain ⟨rs, hrs, hfit⟩ := results_of_served gitems (hs _ List.mem_cons_self)
    obtain ⟨bytes, hb, hd⟩ := ih fun f hf => hs f (List.mem_cons_of_mem _ hf)
    have hrl : rs.length = gitems.length := by
      have := congrArg List.length hrs
      simp only [List.length_map] at this
      omega
    refine ⟨_, by rw [encForwardReply, encReplyItems_ok gitems rs hrs, ok_bind, hb, ok_bind], ?_⟩
    intro n fm
    cases n with
    | zero => intro h; cases h
    | succ n =>
      have ht := times_ok decResult encResult id rs (fun x hx rest => decResult_ok x (hfit x hx) rest) bytes
      rw [List.map_id, hrl] at ht
      rw [decForwardReplyLoop]
      simp only
      rw [Dec.bind_ok (show Dec.str _ = .ok (gname, _) from rfl),
        Dec.bind_ok (show Dec.ulong _ = .ok (gitems.length, _) from rfl)]
      by_cases hl : gitems.length = ((AMap.find fm gname).getD []).length
      · rw [Dec.bind_ok (lift_cassert (decide_eq_true hl) _), Dec.bind_ok ht]
        exact hd n _
      · rw [decide_eq_false hl]
        intro h; cases h

/-- What a call to another server may come to: it fails, or that server's answer is read. -/
def Answered (fm : FileMap) (r : Res FileMap) : Prop :=
  (∃ e, r = throwExn e) ∨ ∃ errs served bytes, Served served ∧ encForwardReply served = .ok bytes ∧
    r = clientRead (decForwardReply (encForwardExtract fm).2) (encErrors errs ++ bytes)

theorem answered_safe {fm : FileMap} {r : Res FileMap} (h : Answered fm r) (hn : fm.keys.Nodup)
    (hf : ∀ f ∈ fm, ∀ i ∈ f.2, i.result ≠ none) : Safe (Shaped fm) r := by
  rcases h with ⟨e, rfl⟩ | ⟨errs, served, bytes, hs, hb, rfl⟩
  · exact Safe.throw _
  obtain ⟨bytes', hb', hd⟩ := decForwardReplyLoop_defined served hs
  rw [hb] at hb'
  cases hb'
  rw [clientRead, decErrors_prefix]
  by_cases he : errs = []
  · rw [if_pos he]
    have hsorted : AMap.keys (encForwardExtract fm).2 = fm.keys := by
      simp [encForwardExtract, AMap.keys, List.map_map, Function.comp_def]
    have hsn : (AMap.keys (encForwardExtract fm).2).Nodup := by rw [hsorted]; exact hn
    have hfill : ∀ f items, (encForwardExtract fm).2.find f = some items → ∀ i ∈ items, i.result ≠ none := by
      intro f items hfi i hi
      have := (AMap.mem_iff_find _ hsn f items).mpr hfi
      obtain ⟨g, hg, hge⟩ := List.mem_map.mp this
      cases hge
      exact hf g hg i ((sortByOffset_perm g.2).mem_iff.mp hi)
    have hk := decForwardReplyLoop_keeps (encForwardExtract fm).2.length (encForwardExtract fm).2 hfill
    have hdef := hd (encForwardExtract fm).2.length (encForwardExtract fm).2
    rw [decForwardReply]
    cases hr : decForwardReplyLoop (encForwardExtract fm).2.length (encForwardExtract fm).2 bytes with
    | error e =>
      cases e with
      | ub => exact absurd hr hdef
      | exn e => exact Safe.throw e
    | ok y =>
      obtain ⟨back, rest⟩ := y
      refine Safe.ok ?_
      obtain ⟨h1, h2⟩ := hk bytes back rest hr
      intro f items hm
      have hfind : (encForwardExtract fm).2.find f = some (sortByOffset items) :=
        (AMap.mem_iff_find _ hsn f _).mp (List.mem_map.mpr ⟨(f, items), hm, rfl⟩)
      obtain ⟨items', h3, h4⟩ := h1 f _ hfind
      refine ⟨items', h3, ?_, h2 f items' h3⟩
      rw [h4, (sortByOffset_perm items).length_eq]
      exact Nat.le_refl _
  · rw [if_neg he]
    exact Safe.throw _

/-! ## A node with the machine's arithmetic -/

/-- Intervals that may be asked of a field: they run forward, and end inside the field if the metadata the node may have
of the field (`Known`) tells of a bitmap. -/
def Askable (Known : String → Nat → Info → Prop) (f : String) (o : Nat) (rs : List Interval) : Prop :=
  (∀ i ∈ rs, i.b ≤ i.e ∧ i.e < 2 ^ 64) ∧
  ∀ info, Known f o info → info.base.bitsPerValue ≠ 0 → info.base.offsetBeforeBitmap ≠ 0 →
    ∀ i ∈ rs, i.e ≤ info.base.numberOfDataPoints

/-- The surroundings of a node: calls fail or do what the program does.  Contents of files and messages, and when they
change, are left open; so are the answers of other servers, as long as they come from the same program. -/
structure MachineNode (mem : Nat) (R : Reader UInt64) (E : ExtEnv) (Known : String → Nat → Info → Prop) : Prop where
  list : ∀ u, E.list u ≠ undef
  infos : ∀ t f os, Safe (fun is => is.length = os.length ∧
    ∀ (j : Nat) o i, os[j]? = some o → is[j]? = some i → Known f o i) (E.infos t f os)
  jump : ∀ t f o i rs, (∃ e, E.jump t f o i rs = throwExn e) ∨ ∃ file, E.jump t f o i rs = machineExtract mem R file o i rs
  fetch : ∀ t u rs, (∃ e, E.fetch t u rs = throwExn e) ∨
    ∃ msg info, Known u.path u.offset info ∧ E.fetch t u rs = machineExtract mem R msg 0 info rs
  forward : ∀ t s fm, Answered fm (E.forward t s fm)
  blocks : ∀ f o i x, Known f o (.ccsds i x) → x.rsi * x.blockSize ≠ 0

theorem MachineNode.steady {mem : Nat} {R : Reader UInt64} {E : ExtEnv} {Known : String → Nat → Info → Prop}
    (h : MachineNode mem R E Known) (lib : AecContract R.lib) (memory : mem ≤ 2 ^ 60) :
    Steady E (Askable Known) where
  list := h.list
  infos t f os := (h.infos t f os).weaken fun is his => Nat.le_of_eq his.1.symm
  jump t t' f o i rs os is j hA hinfos ho hi := by
    have hk := ((h.infos t' f os).2 is hinfos).2 j o i ho hi
    rcases h.jump t f o i rs with ⟨e, he⟩ | ⟨file, he⟩
    · rw [he]; intro h; cases h
    · rw [he]
      exact (C54_forward_intervals_defined_partial mem R lib file o i rs memory
        (fun b x hx => h.blocks f o b x (hx ▸ hk)) hA.1 (hA.2 i hk)).1
  fetch t u rs hA := by
    rcases h.fetch t u rs with ⟨e, he⟩ | ⟨msg, info, hk, he⟩
    · rw [he]; intro h; cases h
    · rw [he]
      exact (C54_forward_intervals_defined_partial mem R lib msg 0 info rs memory
        (fun b x hx => h.blocks _ _ b x (hx ▸ hk)) hA.1 (hA.2 info hk)).1
  forward t s fm hn hf := answered_safe (h.forward t s fm) hn hf

/-- C55 (partial).  The same for a node that computes with 64-bit numbers on files of any content: every request is
answered, as long as its intervals run forward and, on fields with a bitmap, end inside the field. -/
theorem C55_machine_node_answers_partial (mem : Nat) (R : Reader UInt64) (E : ExtEnv) (Known : String → Nat → Info → Prop)
    (C : EngineConf) (sched : List Nat) (axes : String → Int → Res (AMap String (List String)))
    (scan : List String → Bool → Res (Nat × List String)) (forwardScan : AMap String (List Nat) → Res (Nat × List String))
    (node : MachineNode mem R E Known) (lib : AecContract R.lib) (memory : mem ≤ 2 ^ 60) (places : NoStrayFdb E C)
    (otherAxes : ∀ r l, axes r l ≠ undef) (otherScan : ∀ rs b, scan rs b ≠ undef)
    (otherForwardScan : ∀ sm, forwardScan sm ≠ undef) (input : List Tok) (complete : RangesComplete input)
    (acceptable : ∀ ctx req rest, dispatch input = .ok ((ctx, req), rest) → Acceptable E C (Askable Known) req) :
    ∃ calls out, serve (nodeEngine E C sched axes scan forwardScan) input = .ok (calls, out) ∧ calls.length ≤ 1 ∧
      out ≠ [] :=
  C55_node_answers_partial E C sched axes scan forwardScan _ (node.steady lib memory) places otherAxes otherScan
    otherForwardScan input complete acceptable

/-! ## What clients send -/

/-- A checkable form of `RangesComplete`. -/
def rangesComplete : List Tok → Bool
  | [] => true
  | .ulong n :: rest =>
    (match rest with | .blob bs :: _ => decide (16 * n ≤ bs.length) | _ => true) && rangesComplete rest
  | _ :: rest => rangesComplete rest

theorem rangesComplete_tail {x : Tok} {l : List Tok} (h : rangesComplete (x :: l) = true) : rangesComplete l = true := by
  unfold rangesComplete at h
  split at h
  · simp at *
  · rename_i he
    cases he
    rw [Bool.and_eq_true] at h
    exact h.2
  · rename_i he
    cases he
    exact h

theorem rangesComplete_sound {l : List Tok} (h : rangesComplete l = true) : RangesComplete l := by
  intro pre n bs post e
  induction pre generalizing l with
  | nil =>
    subst e
    rw [List.nil_append, rangesComplete, Bool.and_eq_true] at h
    exact of_decide_eq_true h.1
  | cons x pre ih =>
    subst e
    exact ih (rangesComplete_tail h) rfl

theorem rangesComplete_requests (rs : List ExRequest) : rangesComplete (rs.flatMap encRequest) = true := by
  induction rs with
  | nil => rfl
  | cons r rs ih =>
    rw [List.flatMap_cons, encRequest, encRanges]
    simp only [List.cons_append, List.nil_append, rangesComplete, ih, Bool.and_true]
    rw [decide_eq_true_iff, flatMap_words_length _ 16 r.ranges
      (fun r _ => by rw [List.length_append, wordBytes_length, wordBytes_length])]
    exact Nat.le_refl _

/-- What the client of this program sends for an extraction announces the ranges it holds. -/
theorem extract_request_complete (ctx : String) (rs : List ExRequest) :
    RangesComplete (encHeader .extract ctx ++ encExtractReq rs) := by
  refine rangesComplete_sound ?_
  have h := rangesComplete_requests rs
  show ((match rs.flatMap encRequest with | .blob bs :: _ => decide (16 * rs.length ≤ bs.length) | _ => true) &&
    rangesComplete (rs.flatMap encRequest)) = true
  rw [h, Bool.and_true]
  cases rs with
  | nil => rfl
  | cons r rs => rfl

/-! ## A node -/

def wordReader : Reader UInt64 :=
  ⟨fun _ => none, unaryLib, false, false, ⟨999, fun _ => 0, fun _ x => UInt64.ofNat x⟩,
    ⟨999, fun _ => 0, fun _ x => UInt64.ofNat x⟩⟩

/-- Ten points, six of them with a value of 8 bits. -/
def c55Info : Info :=
  .simple { sampleInfo with offsetBeforeBitmap := 1, offsetBeforeData := 3, offsetAfterData := 9, numberOfValues := 6 }

def c55File : List UInt8 := [9, 0xA5, 0xC0, 10, 11, 12, 13, 14, 15, 9]

def c55Env : ExtEnv where
  list _ := .ok [(c27Key "6", ⟨"file", "", 0, "/a", 0⟩)]
  infos _ _ os := .ok (os.map fun _ => c55Info)
  jump _ _ o i rs := machineExtract 1000 wordReader c55File o i rs
  fetch _ _ _ := throwExn .ioError
  forward _ _ _ := throwExn .ioError

def c55Conf : EngineConf := { c27Conf with ignoreGrid := true }

def c55Node : Engine :=
  nodeEngine c55Env c55Conf [] (fun _ _ => throwExn .ioError) (fun _ _ => throwExn .ioError) (fun _ => throwExn .ioError)

/-- What a client sends to ask the node's only field for some intervals. -/
def c55Ask (is : List Interval) : List Tok :=
  encHeader .extract "" ++ encExtractReq [⟨"step=6,date=20250101", is, ""⟩]

theorem c55_node : MachineNode 1000 wordReader c55Env (fun _ _ i => i = c55Info) where
  list u := by intro h; cases h
  infos t f os := by
    refine Safe.ok ⟨List.length_map .., ?_⟩
    intro j o i ho hi
    rw [List.getElem?_map, ho] at hi
    exact (Option.some.inj hi).symm
  jump t f o i rs := Or.inr ⟨c55File, rfl⟩
  fetch t u rs := Or.inl ⟨_, rfl⟩
  forward t s fm := Or.inl ⟨_, rfl⟩
  blocks f o i x h := by cases h

/-- C55 is false without the restriction on fields with a bitmap: one interval that ends one point behind such a field
makes the node build an iterator outside the bitmap.  Any client can send this. -/
theorem C55_past_the_end_crashes_node : serve c55Node (c55Ask [⟨8, 11⟩]) = undef := by decide +kernel

/-- Non-vacuity of C55: all hypotheses hold for this node and the intervals up to the end of the field, and the answer
has the values. -/
example : MachineNode 1000 wordReader c55Env (fun _ _ i => i = c55Info) ∧ AecContract wordReader.lib ∧
    NoStrayFdb c55Env c55Conf ∧ RangesComplete (c55Ask [⟨0, 3⟩, ⟨8, 10⟩]) ∧
    (∀ ctx req rest, dispatch (c55Ask [⟨0, 3⟩, ⟨8, 10⟩]) = .ok ((ctx, req), rest) →
      Acceptable c55Env c55Conf (Askable fun _ _ i => i = c55Info) req) ∧
    remoteExtract c55Node "" [⟨"step=6,date=20250101", [⟨0, 3⟩, ⟨8, 10⟩], ""⟩] =
      .ok [⟨[[10, 999, 11], [14, 15]], [[5], [3]]⟩] := by
  refine ⟨c55_node, unary_contract, .inr (.inr ?_), ?_, ?_, by decide +kernel⟩
  · intro u L h e he
    cases h
    rw [List.mem_singleton] at he
    subst he
    decide
  · exact extract_request_complete "" _
  · intro ctx req rest h
    have hd : dispatch (c55Ask [⟨0, 3⟩, ⟨8, 10⟩]) =
        .ok (("", .extract [⟨"step=6,date=20250101", [⟨0, 3⟩, ⟨8, 10⟩], ""⟩]), []) := by decide +kernel
    rw [hd] at h
    cases h
    intro u L hL r hr e he e' he' _ _
    cases hL
    have hr' : r.ranges = [⟨0, 3⟩, ⟨8, 10⟩] := by
      rw [canonAll, canonAll, List.mem_singleton] at hr
      rw [hr]
    rw [hr']
    refine ⟨by decide, ?_⟩
    intro info hk _ _
    subst hk
    decide

end GJ
