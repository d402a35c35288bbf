import Verif.Lemmas.Engine

namespace GJ

open Spec

/-! ## Adding to a list in a map -/

def pushAt {K V : Type} [DecidableEq K] (m : AMap K (List V)) (k : K) (v : V) : AMap K (List V) :=
  m.set k ((m.find k).getD [] ++ [v])

section
variable {K V : Type} [DecidableEq K]

theorem pushAt_cons (a : K) (l : List V) (m : AMap K (List V)) (k : K) (v : V) :
    pushAt ((a, l) :: m) k v = if a = k then (a, l ++ [v]) :: m else (a, l) :: pushAt m k v := by
  rw [pushAt, AMap.find, AMap.set]
  by_cases h : a = k
  · rw [if_pos h, if_pos h, if_pos h]; rfl
  · rw [if_neg h, if_neg h, if_neg h]; rfl

theorem pushAt_flat (m : AMap K (List V)) (k : K) (v : V) :
    ((pushAt m k v).flatMap Prod.snd).Perm (m.flatMap Prod.snd ++ [v]) := by
  induction m with
  | nil => exact List.Perm.refl _
  | cons p m ih =>
    obtain ⟨a, l⟩ := p
    rw [pushAt_cons]
    by_cases h : a = k
    · rw [if_pos h, List.flatMap_cons, List.flatMap_cons]
      simp only [List.append_assoc]
      exact (List.perm_append_comm).append_left l
    · rw [if_neg h, List.flatMap_cons, List.flatMap_cons, List.append_assoc]
      exact ih.append_left l

theorem pushAt_nodup (m : AMap K (List V)) (k : K) (v : V) (h : m.keys.Nodup) : (pushAt m k v).keys.Nodup :=
  AMap.nodup_set _ _ _ h

theorem pushAt_mem (m : AMap K (List V)) (k : K) (v : V) (e : K × List V) (h : e ∈ pushAt m k v) :
    e ∈ m ∨ (e.1 = k ∧ ∃ l, (e.2 = l ++ [v]) ∧ ((k, l) ∈ m ∨ l = [])) := by
  induction m with
  | nil =>
    rw [pushAt] at h
    have : e = (k, [v]) := by simpa [AMap.set, AMap.find] using h
    subst this
    exact Or.inr ⟨rfl, [], rfl, Or.inr rfl⟩
  | cons p m ih =>
    obtain ⟨a, l⟩ := p
    rw [pushAt_cons] at h
    by_cases ha : a = k
    · rw [if_pos ha] at h
      rcases List.mem_cons.mp h with rfl | h
      · exact Or.inr ⟨ha, l, rfl, Or.inl (by rw [ha]; exact List.mem_cons_self ..)⟩
      · exact Or.inl (List.mem_cons_of_mem _ h)
    · rw [if_neg ha] at h
      rcases List.mem_cons.mp h with rfl | h
      · exact Or.inl (List.mem_cons_self ..)
      · rcases ih h with h | ⟨h1, l', h2, h3⟩
        · exact Or.inl (List.mem_cons_of_mem _ h)
        · exact Or.inr ⟨h1, l', h2, h3.imp (List.mem_cons_of_mem _) id⟩

/-- Everything in the lists of a map belongs under its key. -/
theorem pushAt_all (Q : K → V → Prop) (m : AMap K (List V)) (k : K) (v : V)
    (h : ∀ e ∈ m, ∀ x ∈ e.2, Q e.1 x) (hv : Q k v) : ∀ e ∈ pushAt m k v, ∀ x ∈ e.2, Q e.1 x := by
  intro e he x hx
  rcases pushAt_mem m k v e he with h' | ⟨h1, l, h2, h3⟩
  · exact h e h' x hx
  · rw [h2] at hx
    rw [h1]
    rcases List.mem_append.mp hx with hx | hx
    · rcases h3 with h3 | h3
      · exact h _ h3 x hx
      · rw [h3] at hx; cases hx
    · rw [List.mem_singleton] at hx; subst hx; exact hv

theorem pushAt_nonempty (m : AMap K (List V)) (k : K) (v : V) (h : ∀ e ∈ m, e.2 ≠ []) :
    ∀ e ∈ pushAt m k v, e.2 ≠ [] := by
  intro e he
  rcases pushAt_mem m k v e he with h' | ⟨-, l, h2, -⟩
  · exact h e h'
  · rw [h2]; simp

end

/-! ## File maps -/

/-- `fm` groups exactly the items `done` by the file they are in. -/
structure Groups (m : ItemMap) (fm : KeyMap) (done : List String) : Prop where
  files : fm.keys.Nodup
  part : (fm.flatMap Prod.snd).Perm done
  nonempty : ∀ e ∈ fm, e.2 ≠ []
  path : ∀ e ∈ fm, ∀ k ∈ e.2, ∃ it, m.find k = some it ∧ it.uri.path = e.1

theorem Groups.nil (m : ItemMap) : Groups m [] [] :=
  ⟨List.nodup_nil, List.Perm.refl _, (fun _ h => by cases h), fun _ h => by cases h⟩

theorem Groups.mem_done {m : ItemMap} {fm : KeyMap} {done : List String} (g : Groups m fm done) {e : String × List String}
    (he : e ∈ fm) {k : String} (hk : k ∈ e.2) : k ∈ done :=
  g.part.mem_iff.mp (List.mem_flatMap.mpr ⟨e, he, hk⟩)

theorem Groups.add {m : ItemMap} {fm : KeyMap} {done : List String} (g : Groups m fm done) (m' : ItemMap) (k : String)
    (f : String) (it : Item) (hit : m'.find k = some it) (hf : it.uri.path = f)
    (hm : ∀ k' ∈ done, m'.find k' = m.find k') : Groups m' (addFile fm f k) (done ++ [k]) := by
  refine ⟨pushAt_nodup fm f k g.files, (pushAt_flat fm f k).trans (g.part.append_right _),
    pushAt_nonempty fm f k g.nonempty, ?_⟩
  apply pushAt_all (fun f' x => ∃ it, m'.find x = some it ∧ it.uri.path = f')
  · intro e he x hx
    rw [hm x (g.mem_done he hx)]
    exact g.path e he x hx
  · exact ⟨it, hit, hf⟩

/-- The text of a catalogue entry. -/
def entryText (ig : Bool) (e : FdbKey × Uri) : String := String.ofList (fdbkeyToStr ig e.1)

/-- The place of an item after the listing. -/
def placeItem (ig : Bool) (L : List (FdbKey × Uri)) (k : String) (it : Item) : Item :=
  match L.find? (fun e => decide (entryText ig e = k)) with
  | none => it
  | some e => { it with uri := e.2 }

theorem listLoop_spec (ig : Bool) (L : List (FdbKey × Uri)) (m : ItemMap) (fm : KeyMap) (n : Nat) (done : List String)
    (hd : (L.map (entryText ig)).Nodup) (hdone : ∀ e ∈ L, entryText ig e ∉ done)
    (g : Groups m fm done) :
    ∃ m' fm', listLoop ig L m fm n =
        (m', fm', n + (L.filter fun e => decide (entryText ig e ∈ m.keys)).length) ∧
      m'.keys = m.keys ∧ (∀ k, m'.find k = (m.find k).map (placeItem ig L k)) ∧
      Groups m' fm' (done ++ (L.filter fun e => decide (entryText ig e ∈ m.keys)).map (entryText ig)) := by
  induction L generalizing m fm n done with
  | nil =>
    refine ⟨m, fm, by rw [listLoop]; rfl, rfl, ?_, by simpa using g⟩
    intro k
    cases m.find k <;> rfl
  | cons e L ih =>
    obtain ⟨key, uri⟩ := e
    rw [List.map_cons, List.nodup_cons] at hd
    have ht : String.ofList (fdbkeyToStr ig key) = entryText ig (key, uri) := rfl
    rw [listLoop]
    simp only [ht]
    cases hf : m.find (entryText ig (key, uri)) with
    | none =>
      simp only []
      have hk : entryText ig (key, uri) ∉ m.keys := (AMap.find_eq_none_iff _ _).mp hf
      obtain ⟨m', fm', h1, h2, h3, h4⟩ := ih m fm n done hd.2 (fun e he => hdone e (List.mem_cons_of_mem _ he)) g
      refine ⟨m', fm', ?_, h2, ?_, ?_⟩
      · rw [h1, List.filter_cons, if_neg (by simpa using hk)]
      · intro k
        rw [h3 k]
        cases hfk : m.find k with
        | none => rfl
        | some it =>
          simp only [Option.map_some, placeItem]
          rw [List.find?_cons_of_neg]
          intro hc
          rw [decide_eq_true_iff] at hc
          rw [← hc, hf] at hfk
          cases hfk
      · rw [List.filter_cons, if_neg (by simpa using hk)]; exact h4
    | some it =>
      simp only []
      have hk : entryText ig (key, uri) ∈ m.keys := by rw [AMap.mem_keys_iff, hf]; rfl
      have hkeys : (m.set (entryText ig (key, uri)) { it with uri := uri }).keys = m.keys := by
        rw [AMap.keys_set, if_pos hk]
      have g' : Groups (m.set (entryText ig (key, uri)) { it with uri := uri })
          (addFile fm uri.path (entryText ig (key, uri))) (done ++ [entryText ig (key, uri)]) := by
        refine g.add _ _ _ { it with uri := uri } (by rw [AMap.find_set, if_pos rfl]) rfl ?_
        intro k' hk'
        rw [AMap.find_set, if_neg]
        intro e
        exact hdone (key, uri) (List.mem_cons_self ..) (by rw [e]; exact hk')
      obtain ⟨m', fm', h1, h2, h3, h4⟩ := ih _ _ (n + 1) _ hd.2 (by
        intro e he hm
        rcases List.mem_append.mp hm with hm | hm
        · exact hdone e (List.mem_cons_of_mem _ he) hm
        · rw [List.mem_singleton] at hm
          exact hd.1 (by rw [← hm]; exact List.mem_map.mpr ⟨e, he, rfl⟩)) g'
      refine ⟨m', fm', ?_, h2.trans hkeys, ?_, ?_⟩
      · rw [h1, List.filter_cons, if_pos (by simpa using hk), hkeys, List.length_cons]
        congr 2
        omega
      · intro k
        rw [h3 k, AMap.find_set]
        by_cases e : entryText ig (key, uri) = k
        · rw [if_pos e, ← e, hf]
          simp only [Option.map_some, placeItem]
          rw [List.find?_cons_of_pos (by simp)]
          rw [List.find?_eq_none.mpr]
          intro e' he' hc
          rw [decide_eq_true_iff] at hc
          exact hd.1 (by rw [← hc]; exact List.mem_map.mpr ⟨e', he', rfl⟩)
        · rw [if_neg e]
          cases m.find k with
          | none => rfl
          | some it' =>
            simp only [Option.map_some, placeItem]
            rw [List.find?_cons_of_neg (by simpa using e)]
      · rw [List.filter_cons, if_pos (by simpa using hk), List.map_cons]
        rw [hkeys, List.append_assoc] at h4
        exact h4

/-- A list of distinct keys, all in `m`, as many as `m` has: it has all the keys of `m`. -/
theorem all_keys_of_length {l ks : List String} (hn : l.Nodup) (hs : ∀ k ∈ l, k ∈ ks) (hl : l.length = ks.length) :
    l.Perm ks := by
  induction l generalizing ks with
  | nil =>
    cases ks with
    | nil => exact List.Perm.refl _
    | cons a as => simp at hl
  | cons a l ih =>
    rw [List.nodup_cons] at hn
    have ha := hs a (List.mem_cons_self ..)
    have hp := List.perm_cons_erase ha
    refine ((ih hn.2 ?_ ?_).cons a).trans hp.symm
    · intro k hk
      have : k ≠ a := by rintro rfl; exact hn.1 hk
      exact (List.mem_erase_of_ne this).mpr (hs k (List.mem_cons_of_mem _ hk))
    · have := hp.length_eq
      simp only [List.length_cons] at this hl
      omega

theorem nodup_filter_map {ig : Bool} {L : List (FdbKey × Uri)} (hd : (L.map (entryText ig)).Nodup)
    (f : FdbKey × Uri → Bool) : ((L.filter f).map (entryText ig)).Nodup :=
  hd.sublist (List.Sublist.map _ List.filter_sublist)

/-- The file map of a listing without repeated entries. -/
theorem fileMap_spec {C : EngineConf} {L : List (FdbKey × Uri)} {m m' : ItemMap} {fm : KeyMap}
    (hd : (L.map (entryText C.ignoreYearMonth)).Nodup) (h : fileMap C L m = .ok (m', fm)) :
    m'.keys = m.keys ∧ (∀ k, m'.find k = (m.find k).map (placeItem C.ignoreYearMonth L k)) ∧
    Groups m' fm ((L.filter fun e => decide (entryText C.ignoreYearMonth e ∈ m.keys)).map (entryText C.ignoreYearMonth)) ∧
    (C.allowMissing = false →
      ((L.filter fun e => decide (entryText C.ignoreYearMonth e ∈ m.keys)).map (entryText C.ignoreYearMonth)).Perm m.keys) := by
  obtain ⟨m1, fm1, h1, h2, h3, h4⟩ := listLoop_spec C.ignoreYearMonth L m [] 0 [] hd (fun _ _ h => by cases h) (Groups.nil m)
  rw [fileMap, h1] at h
  simp only [] at h
  split at h
  · cases h
  · rename_i hn
    cases h
    refine ⟨h2, h3, by simpa using h4, ?_⟩
    intro hmiss
    apply all_keys_of_length (nodup_filter_map hd _)
    · intro k hk
      obtain ⟨e, he, rfl⟩ := List.mem_map.mp hk
      rw [List.mem_filter, decide_eq_true_iff] at he
      exact he.2
    · have : ¬ (0 + (L.filter fun e => decide (entryText C.ignoreYearMonth e ∈ m.keys)).length ≠ m.length) :=
        fun hc => hn ⟨hc, hmiss⟩
      have hl : m.keys.length = m.length := by rw [AMap.keys, List.length_map]
      rw [List.length_map, hl]
      omega

theorem fileMapFromPaths_aux (m : ItemMap) (es : ItemMap) (fm : KeyMap) (done : List String)
    (hes : ∀ e ∈ es, m.find e.1 = some e.2) (g : Groups m fm done) :
    Groups m (es.foldl (fun fm e => addFile fm e.2.uri.path e.1) fm) (done ++ es.keys) := by
  induction es generalizing fm done with
  | nil => simpa [AMap.keys] using g
  | cons e es ih =>
    rw [List.foldl_cons]
    have := ih (addFile fm e.2.uri.path e.1) (done ++ [e.1]) (fun x hx => hes x (List.mem_cons_of_mem _ hx))
      (g.add m e.1 _ e.2 (hes e (List.mem_cons_self ..)) rfl (fun _ _ => rfl))
    simpa [AMap.keys] using this

theorem fileMapFromPaths_spec (m : ItemMap) (hn : m.keys.Nodup) : Groups m (fileMapFromPaths m) m.keys := by
  have := fileMapFromPaths_aux m m [] [] (fun e he => (AMap.mem_iff_find m hn e.1 e.2).mp he) (Groups.nil m)
  simpa [fileMapFromPaths] using this

/-! ## Servers -/

/-- The server a file is sent to. -/
def ServerOf (C : EngineConf) (m : ItemMap) (ks : List String) (server : String × Int) : Prop :=
  ∃ u, firstUri m ks = .ok u ∧ C.servers.find (u.host, u.port) = some server

theorem serverFiles_spec {C : EngineConf} {m : ItemMap} {fm : KeyMap} {acc sf : AMap (String × Int) (List String)}
    (Q : String × Int → String → Prop) (hQ : ∀ e ∈ fm, ∀ s, ServerOf C m e.2 s → Q s e.1)
    (hacc : acc.keys.Nodup) (haccQ : ∀ e ∈ acc, ∀ f ∈ e.2, Q e.1 f) (hne : ∀ e ∈ acc, e.2 ≠ [])
    (h : serverFiles C m fm acc = .ok sf) :
    sf.keys.Nodup ∧ (sf.flatMap Prod.snd).Perm (acc.flatMap Prod.snd ++ fm.keys) ∧
      (∀ e ∈ sf, ∀ f ∈ e.2, Q e.1 f) ∧ ∀ e ∈ sf, e.2 ≠ [] := by
  induction fm generalizing acc with
  | nil =>
    rw [serverFiles] at h
    cases h
    exact ⟨hacc, by simp [AMap.keys], haccQ, hne⟩
  | cons e fm ih =>
    obtain ⟨f, ks⟩ := e
    rw [serverFiles] at h
    obtain ⟨u, hu, h⟩ := res_bind_inv h
    obtain ⟨s, hs, h⟩ := res_bind_inv h
    have hso : ServerOf C m ks s := by
      refine ⟨u, hu, ?_⟩
      rw [serverFor] at hs
      cases hf : C.servers.find (u.host, u.port) with
      | none => rw [hf] at hs; cases hs
      | some s' => rw [hf] at hs; rw [Except.ok.inj hs]
    obtain ⟨h1, h2, h3, h4⟩ := ih (acc := pushAt acc s f) (fun e he => hQ e (List.mem_cons_of_mem _ he)) (pushAt_nodup acc s f hacc)
      (pushAt_all Q acc s f haccQ (hQ (f, ks) (List.mem_cons_self ..) s hso)) (pushAt_nonempty acc s f hne) h
    refine ⟨h1, ?_, h3, h4⟩
    refine h2.trans ?_
    refine ((pushAt_flat acc s f).append_right (AMap.keys fm)).trans ?_
    simp [AMap.keys]

theorem subMap_eq (fm : KeyMap) (files : List String) (hn : files.Nodup) :
    files.foldl (fun sub f => AMap.set sub f ((fm.find f).getD [])) ([] : KeyMap) =
      files.map fun f => (f, (fm.find f).getD []) := by
  have : files.foldl (fun sub f => AMap.set sub f ((fm.find f).getD [])) ([] : KeyMap) =
      (files.map fun f => (f, (fm.find f).getD [])).foldl (fun m e => AMap.set m e.1 e.2) [] := by
    rw [List.foldl_map]
  rw [this, AMap.rebuild]
  · rfl
  · simpa [AMap.keys, List.map_map, Function.comp_def] using hn

theorem nodup_of_flatMap {α β : Type} {l : List (α × List β)} (h : (l.flatMap Prod.snd).Nodup) : ∀ e ∈ l, e.2.Nodup := by
  induction l with
  | nil => intro e he; cases he
  | cons a l ih =>
    rw [List.flatMap_cons, List.nodup_append] at h
    intro e he
    rcases List.mem_cons.mp he with rfl | he
    · exact h.1
    · exact ih h.2.1 e he

/-- Splitting a file map by server. -/
theorem serverFileMap_spec {C : EngineConf} {m : ItemMap} {fm : KeyMap} {sm : AMap (String × Int) KeyMap}
    (hn : fm.keys.Nodup) (h : serverFileMap C m fm = .ok sm) :
    sm.keys.Nodup ∧ (sm.flatMap Prod.snd).Perm fm ∧ (∀ e ∈ sm, e.2 ≠ []) ∧ (∀ e ∈ sm, e.2.keys.Nodup) ∧
      ∀ e ∈ sm, ∀ f ∈ e.2, f ∈ fm ∧ ServerOf C m f.2 e.1 := by
  rw [serverFileMap] at h
  obtain ⟨sf, hsf, h⟩ := res_bind_inv h
  cases h
  obtain ⟨h1, h2, h3, h4⟩ := serverFiles_spec (acc := []) (fun s f => ∃ ks, (f, ks) ∈ fm ∧ ServerOf C m ks s)
    (fun e he s hs => ⟨e.2, he, hs⟩) List.nodup_nil (fun _ h => by cases h) (fun _ h => by cases h) hsf
  rw [List.flatMap_nil, List.nil_append] at h2
  have hnf : (sf.flatMap Prod.snd).Nodup := (h2.nodup_iff).mpr hn
  have hfiles : ∀ e ∈ sf, e.2.Nodup := fun e he =>
    nodup_of_flatMap hnf e he
  have hmap : (sf.map fun e => (e.1, e.2.foldl (fun sub f => AMap.set sub f ((fm.find f).getD [])) ([] : KeyMap))) =
      sf.map fun e => (e.1, e.2.map fun f => (f, (fm.find f).getD [])) := by
    apply List.map_congr_left
    intro e he
    rw [subMap_eq fm e.2 (hfiles e he)]
  have hval : ∀ f ks, (f, ks) ∈ fm → (fm.find f).getD [] = ks := by
    intro f ks hf
    rw [(AMap.mem_iff_find fm hn f ks).mp hf]
    rfl
  rw [hmap]
  refine ⟨?_, ?_, ?_, ?_, ?_⟩
  · rw [AMap.keys, List.map_map]
    exact h1
  · rw [List.flatMap_map]
    have e : (fun e : (String × Int) × List String => e.2.map fun f => (f, (fm.find f).getD [])) =
        fun e => (Prod.snd e).map fun f => (f, (fm.find f).getD []) := rfl
    have : (List.flatMap (fun a : (String × Int) × List String => List.map (fun f => (f, (fm.find f).getD [])) a.snd) sf)
        = (sf.flatMap Prod.snd).map fun f => (f, (fm.find f).getD []) := by
      rw [List.map_flatMap]
    refine (List.Perm.of_eq this).trans ((h2.map _).trans (List.Perm.of_eq ?_))
    rw [AMap.keys, List.map_map]
    conv => rhs; rw [← List.map_id fm]
    apply List.map_congr_left
    rintro ⟨f, ks⟩ hf
    simp only [Function.comp, id, hval f ks hf]
  · intro e he
    obtain ⟨e', he', rfl⟩ := List.mem_map.mp he
    simpa using h4 e' he'
  · intro e he
    obtain ⟨e', he', rfl⟩ := List.mem_map.mp he
    simpa [AMap.keys, List.map_map, Function.comp_def] using hfiles e' he'
  · intro e he f hf
    obtain ⟨e', he', rfl⟩ := List.mem_map.mp he
    obtain ⟨g, hg, rfl⟩ := List.mem_map.mp hf
    obtain ⟨ks, hks, hso⟩ := h3 e' he' g hg
    simp only [hval g ks hks]
    exact ⟨hks, hso⟩

/-! ## Scheduling -/

/-- Items of one file are in one place: same scheme, host and port. -/
def OnePlace (m : ItemMap) (fm : KeyMap) : Prop :=
  ∀ e ∈ fm, ∀ k ∈ e.2, ∀ k' ∈ e.2, ∀ it it', m.find k = some it → m.find k' = some it' →
    it.uri.scheme = it'.uri.scheme ∧ it.uri.host = it'.uri.host ∧ it.uri.port = it'.uri.port

/-- The items of one file have one scheme. -/
def OneScheme (m : ItemMap) (fm : KeyMap) : Prop :=
  ∀ e ∈ fm, ∀ k ∈ e.2, ∀ k' ∈ e.2, ∀ it it', m.find k = some it → m.find k' = some it' →
    it.uri.scheme = it'.uri.scheme

theorem firstUri_spec {m : ItemMap} {ks : List String} {u : Uri} (h : firstUri m ks = .ok u) :
    ∃ k it, k ∈ ks ∧ m.find k = some it ∧ it.uri = u := by
  cases ks with
  | nil => cases h
  | cons k ks =>
    rw [firstUri] at h
    cases hf : m.find k with
    | none => rw [hf] at h; cases h
    | some it => rw [hf] at h; exact ⟨k, it, List.mem_cons_self .., hf, Except.ok.inj h⟩

theorem localTasks_spec {C : EngineConf} {m : ItemMap} {fm : KeyMap} {q : Bool} {ts : List FTask}
    (hpath : ∀ e ∈ fm, ∀ k ∈ e.2, ∃ it, m.find k = some it ∧ it.uri.path = e.1)
    (ho : OneScheme m fm) (h : localTasks C m q fm = .ok ts) :
    (∀ T ∈ ts, T.pc = .fresh) ∧ (∀ T ∈ ts, T.Valid C false m) ∧
      ts.flatMap FTask.covers = fm.flatMap Prod.snd := by
  induction fm generalizing q ts with
  | nil => rw [localTasks] at h; cases h; exact ⟨(fun _ h => by cases h), (fun _ h => by cases h), rfl⟩
  | cons e fm ih =>
    obtain ⟨f, ks⟩ := e
    rw [localTasks] at h
    obtain ⟨u, hu, h⟩ := res_bind_inv h
    obtain ⟨k0, it0, hk0, hit0, hu0⟩ := firstUri_spec hu
    have hp := hpath (f, ks) (List.mem_cons_self ..)
    have hpl := ho (f, ks) (List.mem_cons_self ..)
    have ih := fun q ts h => ih (q := q) (ts := ts) (fun e he => hpath e (List.mem_cons_of_mem _ he))
      (fun e he => ho e (List.mem_cons_of_mem _ he)) h
    by_cases hs : u.scheme = "fdb"
    · rw [if_pos hs] at h
      by_cases hi : C.inefficient = true
      · rw [if_pos hi] at h
        obtain ⟨tl, htl, h⟩ := res_bind_inv h
        cases h
        obtain ⟨h1, h2, h3⟩ := ih true tl htl
        refine ⟨?_, ?_, by rw [List.flatMap_cons, List.flatMap_cons, h3]; rfl⟩
        · intro T hT
          rcases List.mem_cons.mp hT with rfl | hT
          · rfl
          · exact h1 T hT
        · intro T hT
          rcases List.mem_cons.mp hT with rfl | hT
          · intro k hk
            obtain ⟨it, hit, hpa⟩ := hp k hk
            exact ⟨it, hit, hpa, rfl⟩
          · exact h2 T hT
      · rw [if_neg hi] at h
        split at h <;> cases h
    · rw [if_neg hs] at h
      obtain ⟨tl, htl, h⟩ := res_bind_inv h
      cases h
      obtain ⟨h1, h2, h3⟩ := ih true tl htl
      refine ⟨?_, ?_, by rw [List.flatMap_cons, List.flatMap_cons, h3]; rfl⟩
      · intro T hT
        rcases List.mem_cons.mp hT with rfl | hT
        · rfl
        · exact h1 T hT
      · intro T hT
        rcases List.mem_cons.mp hT with rfl | hT
        · intro k hk
          obtain ⟨it, hit, hpa⟩ := hp k hk
          refine ⟨it, hit, hpa, ?_, rfl⟩
          rw [hpl k hk k0 hk0 it it0 hit hit0, hu0]
          exact hs
        · exact h2 T hT

/-- After scheduling without reported errors, every item of the file map has a result satisfying `P`. -/
theorem scheduleTasks_spec {E : ExtEnv} {C : EngineConf} {P : Uri → ExRequest → WireResult → Prop}
    {fwd : Bool} (hE : Produces E C fwd P) {m m' : ItemMap} {fm : KeyMap} {done : List String} {sched : List Nat}
    (g : Groups m fm done) (ho : OnePlace m fm) (h : scheduleTasks E C fwd m fm sched = .ok (m', [])) :
    done ≠ [] ∧ SameItems m m' ∧ ∀ k ∈ done, HasResult P m' k := by
  rw [scheduleTasks] at h
  cases fwd with
  | true =>
    rw [if_pos rfl] at h
    obtain ⟨sm, hsm, h⟩ := res_bind_inv h
    obtain ⟨s, hs, h⟩ := res_bind_inv h
    obtain ⟨e1, e2⟩ := Prod.mk.inj (Except.ok.inj h)
    obtain ⟨-, hperm, -, hsub, hserv⟩ := serverFileMap_spec g.files hsm
    obtain ⟨hne, hsame, hres⟩ := runTasks_spec hE (P := P) (by
        intro T hT
        obtain ⟨e, -, rfl⟩ := List.mem_map.mp hT
        rfl) (by
        intro T hT
        obtain ⟨e, he, rfl⟩ := List.mem_map.mp hT
        refine ⟨rfl, hsub e he, ?_⟩
        intro f hf k hk
        obtain ⟨hfm, u, hu, hsv⟩ := hserv e he f hf
        obtain ⟨k0, it0, hk0, hit0, hu0⟩ := firstUri_spec hu
        obtain ⟨it, hit, hpa⟩ := g.path f hfm k hk
        have := ho f hfm k hk k0 hk0 it it0 hit hit0
        refine ⟨it, hit, hpa, ?_⟩
        rw [this.2.1, this.2.2, hu0]
        exact hsv) hs e2
    subst e1
    have hall : ∀ k ∈ done, HasResult P s.items k := by
      intro k hk
      obtain ⟨f, hf, hkf⟩ := List.mem_flatMap.mp (g.part.mem_iff.mpr hk)
      obtain ⟨e, he, hfe⟩ := List.mem_flatMap.mp (hperm.mem_iff.mpr hf)
      exact hres _ (List.mem_map.mpr ⟨e, he, rfl⟩) k (List.mem_flatMap.mpr ⟨f, hfe, hkf⟩)
    refine ⟨?_, hsame, hall⟩
    rintro rfl
    have hnil := List.flatMap_eq_nil_iff.mp (List.perm_nil.mp g.part)
    cases hfm : fm with
    | nil =>
      rw [hfm] at hperm
      rw [hfm] at hsm
      have : sm = [] := by
        rw [serverFileMap, serverFiles] at hsm
        exact (Except.ok.inj hsm).symm
      rw [this] at hne
      exact hne rfl
    | cons e fm' =>
      have he : e ∈ fm := by rw [hfm]; exact List.mem_cons_self ..
      exact g.nonempty e he (hnil e he)
  | false =>
    rw [if_neg (by simp)] at h
    obtain ⟨ts, hts, h⟩ := res_bind_inv h
    obtain ⟨s, hs, h⟩ := res_bind_inv h
    obtain ⟨e1, e2⟩ := Prod.mk.inj (Except.ok.inj h)
    obtain ⟨h1, h2, h3⟩ := localTasks_spec g.path (fun e he k hk k' hk' it it' a b => (ho e he k hk k' hk' it it' a b).1) hts
    obtain ⟨hne, hsame, hres⟩ := runTasks_spec hE (P := P) h1 h2 hs e2
    subst e1
    refine ⟨?_, hsame, ?_⟩
    · rintro rfl
      have hnil := List.flatMap_eq_nil_iff.mp (List.perm_nil.mp g.part)
      cases hfm : fm with
      | nil =>
        rw [hfm, localTasks] at hts
        exact hne (Except.ok.inj hts).symm
      | cons e fm' =>
        have he : e ∈ fm := by rw [hfm]; exact List.mem_cons_self ..
        exact g.nonempty e he (hnil e he)
    · intro k hk
      have := g.part.mem_iff.mpr hk
      rw [← h3] at this
      obtain ⟨T, hT, hk⟩ := List.mem_flatMap.mp this
      exact hres T hT k hk

/-! ## Collecting -/

theorem collectResults_eq (m : ItemMap) (hn : m.keys.Nodup) (hk : ∀ e ∈ m, e.2.request.request = e.1) :
    collectResults m = m := by
  have : ∀ (es acc : ItemMap), (∀ e ∈ es, e.2.request.request = e.1) → 
      es.foldl (fun acc e => AMap.set acc e.2.request.request e.2) acc = es.foldl (fun acc e => AMap.set acc e.1 e.2) acc := by
    intro es
    induction es with
    | nil => intro acc _; rfl
    | cons e es ih =>
      intro acc h
      rw [List.foldl_cons, List.foldl_cons, h e (List.mem_cons_self ..), ih _ (fun x hx => h x (List.mem_cons_of_mem _ hx))]
  rw [collectResults, this m [] hk, AMap.rebuild]
  · rfl
  · simpa [AMap.keys] using hn

theorem collectLoop_spec {rs : List ExRequest} {m : ItemMap} {out : List WireResult}
    (hn : (rs.map ExRequest.request).Nodup) (h : collectLoop rs m = .ok out) :
    out.length = rs.length ∧ ∀ (i : Nat) r, rs[i]? = some r →
      ∃ it x, m.find r.request = some it ∧ it.result = some x ∧ out[i]? = some x := by
  induction rs generalizing m out with
  | nil => rw [collectLoop] at h; cases h; exact ⟨rfl, fun i r h => by simp at h⟩
  | cons r rs ih =>
    rw [List.map_cons, List.nodup_cons] at hn
    rw [collectLoop] at h
    cases hf : m.find r.request with
    | none => rw [hf] at h; cases h
    | some it =>
      simp only [hf] at h
      cases hr : it.result with
      | none => rw [hr] at h; cases h
      | some x =>
        simp only [hr] at h
        obtain ⟨tl, htl, h⟩ := res_bind_inv h
        cases h
        obtain ⟨h1, h2⟩ := ih hn.2 htl
        refine ⟨by simp [h1], ?_⟩
        intro i r' hi
        cases i with
        | zero =>
          simp only [List.getElem?_cons_zero, Option.some.injEq] at hi
          subst hi
          exact ⟨it, x, hf, hr, rfl⟩
        | succ i =>
          rw [List.getElem?_cons_succ] at hi
          obtain ⟨it', x', h3, h4, h5⟩ := h2 i r' hi
          refine ⟨it', x', ?_, h4, by rw [List.getElem?_cons_succ]; exact h5⟩
          rw [AMap.find_set, if_neg] at h3
          · exact h3
          · intro e
            exact hn.1 (by rw [e]; exact List.mem_map.mpr ⟨r', List.mem_of_getElem? hi, rfl⟩)

theorem collectLoop_ok {rs : List ExRequest} {m : ItemMap} (hn : (rs.map ExRequest.request).Nodup)
    (h : ∀ r ∈ rs, ∃ it x, m.find r.request = some it ∧ it.result = some x) : ∃ out, collectLoop rs m = .ok out := by
  induction rs generalizing m with
  | nil => exact ⟨[], rfl⟩
  | cons r rs ih =>
    rw [List.map_cons, List.nodup_cons] at hn
    obtain ⟨it, x, h1, h2⟩ := h r (List.mem_cons_self ..)
    obtain ⟨out, ho⟩ := ih (m := m.set r.request { it with result := none }) hn.2 (by
      intro r' hr'
      obtain ⟨it', x', h3, h4⟩ := h r' (List.mem_cons_of_mem _ hr')
      refine ⟨it', x', ?_, h4⟩
      rw [AMap.find_set, if_neg]
      · exact h3
      · intro e
        exact hn.1 (by rw [e]; exact List.mem_map.mpr ⟨r', hr', rfl⟩))
    refine ⟨x :: out, ?_⟩
    rw [collectLoop]
    simp only [h1, h2, ho]
    rfl

end GJ
