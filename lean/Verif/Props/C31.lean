import Verif.Lemmas.Text
import Verif.Props.C29

/-!
# C31: forwarding; C27, C30, C39 for requests by path
-/

namespace GJ

open Spec

/-- **C31.** Splitting the files of a call over servers: every server once, every file in exactly one server's share
with all its items, and every item of a file served by the server configured for the item's own endpoint. -/
theorem C31_files_go_to_their_server (E : ExtEnv) (C : EngineConf) (cat : List (FdbKey × Uri))
    (hcat : Catalogue C.ignoreYearMonth cat) (hl : ListsOnly E cat) (rs rs' : List ExRequest) (u : Union)
    (m0 m : ItemMap) (L : List (FdbKey × Uri)) (fm : KeyMap) (sm : AMap (String × Int) KeyMap)
    (h1 : buildRequestMap C.ignoreYearMonth rs = .ok (rs', u, m0)) (h2 : E.list u = .ok L)
    (h3 : fileMap C L m0 = .ok (m, fm)) (h4 : serverFileMap C m fm = .ok sm) :
    sm.keys.Nodup ∧ (sm.flatMap Prod.snd).Perm fm ∧ (∀ s ∈ sm, s.2 ≠ []) ∧
    ∀ s ∈ sm, ∀ f ∈ s.2, ∀ k ∈ f.2, ∃ it, m.find k = some it ∧ it.uri.path = f.1 ∧
      C.servers.find (it.uri.host, it.uri.port) = some s.1 := by
  rw [buildRequestMap_eq] at h1
  split at h1
  · rename_i hn
    cases h1
    obtain ⟨-, -, -, -, g, ho, -⟩ := planned_spec hcat hl (p := ⟨hn, h2, h3⟩)
    obtain ⟨a, b, c, -, d⟩ := serverFileMap_spec g.files h4
    refine ⟨a, b, c, ?_⟩
    intro s hs f hf k hk
    obtain ⟨hfm, u, hu, hsv⟩ := d s hs f hf
    obtain ⟨k0, it0, hk0, hit0, hu0⟩ := firstUri_spec hu
    obtain ⟨it, hit, hpa⟩ := g.path f hfm k hk
    have := ho f hfm k hk k0 hk0 it it0 hit hit0
    refine ⟨it, hit, hpa, ?_⟩
    rw [this.2.1, this.2.2, hu0]
    exact hsv
  · cases h1

theorem serverFiles_none {C : EngineConf} {m : ItemMap} {fm : KeyMap} {acc : AMap (String × Int) (List String)}
    (hpath : ∀ e ∈ fm, ∃ u, firstUri m e.2 = .ok u)
    (h : ∃ e ∈ fm, ∃ u, firstUri m e.2 = .ok u ∧ C.servers.find (u.host, u.port) = none) :
    serverFiles C m fm acc = throwExn .seriousBug := by
  induction fm generalizing acc with
  | nil => obtain ⟨e, he, -⟩ := h; cases he
  | cons e fm ih =>
    obtain ⟨f, ks⟩ := e
    obtain ⟨u, hu⟩ := hpath (f, ks) (List.mem_cons_self ..)
    rw [serverFiles, hu, ok_bind, serverFor]
    cases hs : C.servers.find (u.host, u.port) with
    | none => rfl
    | some s =>
      rw [ok_bind]
      apply ih (fun e he => hpath e (List.mem_cons_of_mem _ he))
      obtain ⟨e, he, u', hu', hn⟩ := h
      rcases List.mem_cons.mp he with rfl | he
      · rw [hu] at hu'
        cases hu'
        rw [hs] at hn
        cases hn
      · exact ⟨e, he, u', hu', hn⟩

/-- **C31.** With forwarding, a field at an endpoint without a configured server is an error: the call fails before
anything is sent. -/
theorem C31_unconfigured_endpoint_is_error (E : ExtEnv) (C : EngineConf) (cat : List (FdbKey × Uri))
    (hcat : Catalogue C.ignoreYearMonth cat) (hl : ListsOnly E cat) (rs rs' : List ExRequest) (u : Union)
    (m0 m : ItemMap) (L : List (FdbKey × Uri)) (fm : KeyMap) (sched : List Nat) (hf : C.forward = true)
    (h1 : buildRequestMap C.ignoreYearMonth rs = .ok (rs', u, m0)) (h2 : E.list u = .ok L)
    (h3 : fileMap C L m0 = .ok (m, fm)) (g : String × List String) (hg : g ∈ fm) (k : String) (hk : k ∈ g.2) (it : Item)
    (hit : m.find k = some it) (hn : C.servers.find (it.uri.host, it.uri.port) = none) :
    localExtract E C sched rs = throwExn .seriousBug := by
  have hb := h1
  rw [buildRequestMap_eq] at h1
  split at h1
  · rename_i hnd
    cases h1
    obtain ⟨-, -, -, -, gr, ho, -⟩ := planned_spec hcat hl (p := ⟨hnd, h2, h3⟩)
    have hfirst : ∀ e ∈ fm, ∃ u, firstUri m e.2 = .ok u ∧ ∃ k0 it0, k0 ∈ e.2 ∧ m.find k0 = some it0 ∧ it0.uri = u := by
      intro e he
      cases hks : e.2 with
      | nil => exact absurd hks (gr.nonempty e he)
      | cons k0 ks =>
        obtain ⟨it0, h, -⟩ := gr.path e he k0 (by rw [hks]; exact List.mem_cons_self ..)
        exact ⟨it0.uri, by rw [firstUri, h], k0, it0, List.mem_cons_self .., h, rfl⟩
    have hsf : serverFileMap C m fm = throwExn .seriousBug := by
      rw [serverFileMap, serverFiles_none]
      · rfl
      · intro e he
        obtain ⟨u, hu, -⟩ := hfirst e he
        exact ⟨u, hu⟩
      · obtain ⟨u, hu, k0, it0, hk0, hit0, hu0⟩ := hfirst g hg
        refine ⟨g, hg, u, hu, ?_⟩
        have := ho g hg k hk k0 hk0 it it0 hit hit0
        rw [← hu0, ← this.2.1, ← this.2.2]
        exact hn
    rw [localExtract, engineExtract, hb, ok_bind]
    simp only []
    rw [h2, ok_bind, h3, ok_bind]
    simp only []
    rw [scheduleTasks, hf, if_pos rfl, hsf]
    rfl
  · cases h1

/-! ## Requests by path -/

/-- Where a path request points. -/
def PathReq.uri (r : PathReq) : Uri := ⟨r.scheme, r.host, r.port, r.path, r.offset⟩

def pathItem (r : PathReq) : Item := { request := r.base, uri := r.uri, result := some emptyResult }

theorem insert_length (m : ItemMap) (k : String) (it : Item) :
    (m.insert k it).length = if k ∈ m.keys then m.length else m.length + 1 := by
  have h := congrArg List.length (AMap.keys_insert m k it)
  rw [AMap.keys, List.length_map] at h
  rw [h]
  split <;> simp [AMap.keys]

theorem insert_length_le (m : ItemMap) (k : String) (it : Item) : (m.insert k it).length ≤ m.length + 1 := by
  rw [insert_length]
  split <;> omega

theorem buildPath_length (rs : List PathReq) (acc : ItemMap) :
    (rs.foldl (fun m r => AMap.insert m r.text (pathItem r)) acc).length ≤ acc.length + rs.length := by
  induction rs generalizing acc with
  | nil => simp
  | cons r rs ih =>
    rw [List.foldl_cons]
    refine Nat.le_trans (ih _) ?_
    have := insert_length_le acc r.text (pathItem r)
    simp only [List.length_cons]
    omega

/-- When nothing is lost, the map has one item per request. -/
theorem buildPath_full (rs : List PathReq) (acc : ItemMap)
    (h : (rs.foldl (fun m r => AMap.insert m r.text (pathItem r)) acc).length = acc.length + rs.length) :
    (rs.foldl (fun m r => AMap.insert m r.text (pathItem r)) acc) = acc ++ rs.map (fun r => (r.text, pathItem r)) ∧
    (∀ r ∈ rs, r.text ∉ acc.keys) ∧ (rs.map PathReq.text).Nodup := by
  induction rs generalizing acc with
  | nil => exact ⟨by simp, (fun _ h => by cases h), List.nodup_nil⟩
  | cons r rs ih =>
    rw [List.foldl_cons] at h ⊢
    have hnot : r.text ∉ acc.keys := by
      intro hm
      have hl := buildPath_length rs (AMap.insert acc r.text (pathItem r))
      rw [h, insert_length, if_pos hm] at hl
      simp only [List.length_cons] at hl
      omega
    rw [AMap.insert_new acc r.text _ ((AMap.find_eq_none_iff _ _).mpr hnot)] at h ⊢
    obtain ⟨h1, h2, h3⟩ := ih (acc ++ [(r.text, pathItem r)]) (by
      rw [h, List.length_append, List.length_cons, List.length_singleton]; omega)
    refine ⟨by rw [h1]; simp, ?_, ?_⟩
    · intro x hx
      rcases List.mem_cons.mp hx with rfl | hx
      · exact hnot
      · intro hm
        apply h2 x hx
        simp only [AMap.keys, List.map_append, List.mem_append]
        exact Or.inl hm
    · rw [List.map_cons, List.nodup_cons]
      refine ⟨?_, h3⟩
      intro hm
      obtain ⟨x, hx, he⟩ := List.mem_map.mp hm
      apply h2 x hx
      rw [he]
      simp [AMap.keys]

theorem buildPathMap_eq (rs : List PathReq) :
    buildPathMap rs = rs.foldl (fun m r => AMap.insert m r.text (pathItem r)) [] := rfl

theorem buildPathMap_keys (rs : List PathReq) : (buildPathMap rs).keys.Nodup ∧
    ∀ k it, (buildPathMap rs).find k = some it → ∃ r ∈ rs, r.text = k ∧ it = pathItem r := by
  have : ∀ (rs : List PathReq) (acc : ItemMap) (P : String → Item → Prop), acc.keys.Nodup →
      (∀ k it, acc.find k = some it → P k it) → (∀ r ∈ rs, P r.text (pathItem r)) →
      (rs.foldl (fun m r => AMap.insert m r.text (pathItem r)) acc).keys.Nodup ∧
      ∀ k it, (rs.foldl (fun m r => AMap.insert m r.text (pathItem r)) acc).find k = some it → P k it := by
    intro rs
    induction rs with
    | nil => intro acc P h1 h2 _; exact ⟨h1, h2⟩
    | cons r rs ih =>
      intro acc P h1 h2 h3
      rw [List.foldl_cons]
      apply ih _ P (AMap.nodup_insert _ _ _ h1)
      · intro k it hk
        rw [AMap.find_insert] at hk
        split at hk
        · rename_i h
          subst h
          have := Option.some.inj hk
          cases hf : acc.find r.text with
          | none =>
            rw [hf, Option.getD_none] at this
            subst this
            exact h3 r (List.mem_cons_self ..)
          | some x =>
            rw [hf, Option.getD_some] at this
            subst this
            exact h2 _ _ hf
        · exact h2 k it hk
      · exact fun x hx => h3 x (List.mem_cons_of_mem _ hx)
  exact this rs [] (fun k it => ∃ r ∈ rs, r.text = k ∧ it = pathItem r) List.nodup_nil
    (fun _ _ h => by cases h) (fun r hr => ⟨r, hr, rfl, rfl⟩)

/-- What an error-free call by path delivers, for any property `P` of results. -/
theorem paths_deliver {E : ExtEnv} {C : EngineConf} {P : Uri → ExRequest → WireResult → Prop}
    {sched : List Nat} {rs : List PathReq}
    (hE : ∀ r rest, rs = r :: rest → Produces E C (!(decide (r.host = "") && decide (r.port = 0))) P)
    (hplace : ∀ a ∈ rs, ∀ b ∈ rs, a.path = b.path → a.scheme = b.scheme ∧ a.host = b.host ∧ a.port = b.port)
    {out : List WireResult} (h : localExtractPaths E C sched rs = .ok out) :
    out.length = rs.length ∧ (rs.map PathReq.text).Nodup ∧
      ∀ (i : Nat) r, rs[i]? = some r → ∃ x, out[i]? = some x ∧ P r.uri r.base x := by
  rw [localExtractPaths] at h
  obtain ⟨⟨results, errs⟩, h1, h2⟩ := res_bind_inv h
  simp only [] at h2
  split at h2
  · cases h2
  rename_i he
  have he : errs = [] := by simpa using he
  subst he
  obtain ⟨⟨⟩, h3, h4⟩ := res_bind_inv h2
  rw [engineExtractPaths.eq_def] at h1
  cases hrs : rs with
  | nil => rw [hrs] at h1; cases h1
  | cons r0 rest =>
  rw [hrs] at h1
  obtain ⟨⟨m', errs'⟩, h5, h6⟩ := res_bind_inv h1
  obtain ⟨e1, e2⟩ := Prod.mk.inj (Except.ok.inj h6)
  rw [← hrs] at h5 ⊢
  subst e1
  subst e2
  obtain ⟨hn, hmem⟩ := buildPathMap_keys rs
  have g := fileMapFromPaths_spec _ hn
  have ho : OnePlace (buildPathMap rs) (fileMapFromPaths (buildPathMap rs)) := by
    intro e he k hk k' hk' it it' hit hit'
    obtain ⟨a, ha, -, rfl⟩ := hmem k it hit
    obtain ⟨b, hb, -, rfl⟩ := hmem k' it' hit'
    obtain ⟨ia, h7, h8⟩ := g.path e he k hk
    obtain ⟨ib, h9, h10⟩ := g.path e he k' hk'
    rw [hit, Option.some.injEq] at h7
    rw [hit', Option.some.injEq] at h9
    subst h7
    subst h9
    exact hplace a ha b hb (h8.trans h10.symm)
  obtain ⟨-, hsame, hres⟩ := scheduleTasks_spec (hE r0 rest hrs) g ho h5
  have hkey : ∀ k it, (buildPathMap rs).find k = some it → it.request.request = k := by
    intro k it hit
    obtain ⟨r, -, hr, rfl⟩ := hmem k it hit
    exact hr
  obtain ⟨hn', hr'⟩ := same_requests hsame hkey hn
  rw [collectResults_eq m' hn' hr'] at h3 h4
  have hlen : m'.length = rs.length := by
    rw [cassert] at h3
    split at h3
    · rename_i hl
      rwa [decide_eq_true_iff] at hl
    · cases h3
  have hmlen : (buildPathMap rs).length = rs.length := by
    have := congrArg List.length hsame.keys
    rw [AMap.keys, AMap.keys, List.length_map, List.length_map] at this
    omega
  obtain ⟨hfull, -, hnd⟩ := buildPath_full rs [] (by rw [← buildPathMap_eq, hmlen]; simp)
  rw [← buildPathMap_eq, List.nil_append] at hfull
  have hnd' : ((rs.map PathReq.base).map ExRequest.request).Nodup := by
    rw [List.map_map]
    exact hnd
  obtain ⟨hlen', hout⟩ := collectLoop_spec hnd' h4
  refine ⟨by rw [hlen', List.length_map], hnd, ?_⟩
  intro i r hi
  obtain ⟨it, x, hit, hx, hox⟩ := hout i r.base (by rw [List.getElem?_map, hi]; rfl)
  refine ⟨x, hox, ?_⟩
  have hfind : (buildPathMap rs).find r.text = some (pathItem r) := by
    apply (AMap.mem_iff_find _ hn _ _).mp
    rw [hfull]
    exact List.mem_map.mpr ⟨r, List.mem_of_getElem? hi, rfl⟩
  obtain ⟨it', x', h7, h8, h9⟩ := hres r.text (by
    rw [AMap.mem_keys_iff, hfind]; rfl)
  have hit : AMap.find m' r.text = some it := hit
  rw [hit, Option.some.injEq] at h7
  subst h7
  rw [hx, Option.some.injEq] at h8
  subst h8
  obtain ⟨it'', h10, h11, h12⟩ := hsame.find hfind
  rw [hit, Option.some.injEq] at h10
  subst h10
  rw [h11, h12] at h9
  exact h9

/-- **C27.** By path: a successful call returns one result per request, in order, each holding the values at its own
place over its own ranges, provided requests for the same path agree on scheme, host and port.  For every schedule,
local or forwarded. -/
theorem C27_path_results_in_request_order (E : ExtEnv) (C : EngineConf) (info : String → Nat → Info)
    (content : Uri → List Interval → WireResult) (hE : Honest E C info content) (sched : List Nat)
    (rs : List PathReq) (hplace : ∀ a ∈ rs, ∀ b ∈ rs, a.path = b.path →
      a.scheme = b.scheme ∧ a.host = b.host ∧ a.port = b.port)
    (out : List WireResult) (h : localExtractPaths E C sched rs = .ok out) :
    out = rs.map fun r => content r.uri r.ranges := by
  obtain ⟨h1, -, h2⟩ := paths_deliver (P := fun u q r => r = content u q.ranges) (fun _ _ _ => produces_of_honest hE _) hplace h
  apply List.ext_getElem?
  intro i
  rw [List.getElem?_map]
  cases hr : rs[i]? with
  | none =>
    rw [List.getElem?_eq_none_iff] at hr
    rw [List.getElem?_eq_none (by omega)]
    rfl
  | some r =>
    obtain ⟨x, hx, hP⟩ := h2 i r hr
    rw [hx, hP]
    rfl

/-- **C30.** By path: the groups are exactly the paths of the requests, each with the requests for that path. -/
theorem C30_paths_grouped_by_file (rs : List PathReq) :
    let fm := fileMapFromPaths (buildPathMap rs)
    fm.keys.Nodup ∧ (∀ g ∈ fm, g.2 ≠ []) ∧ (fm.flatMap Prod.snd).Nodup ∧
    ((rs.map PathReq.text).Nodup → ∀ k f, (∃ ks, (f, ks) ∈ fm ∧ k ∈ ks) ↔ ∃ r ∈ rs, r.text = k ∧ r.path = f) := by
  obtain ⟨hn, hmem⟩ := buildPathMap_keys rs
  have g := fileMapFromPaths_spec _ hn
  refine ⟨g.files, g.nonempty, (g.part.nodup_iff).mpr hn, ?_⟩
  intro hnd k f
  constructor
  · rintro ⟨ks, hks, hk⟩
    obtain ⟨it, hit, hp⟩ := g.path _ hks k hk
    obtain ⟨r, hr, hre, rfl⟩ := hmem k it hit
    exact ⟨r, hr, hre, hp⟩
  · rintro ⟨r, hr, rfl, rfl⟩
    have hfind : (buildPathMap rs).find r.text = some (pathItem r) := by
      have hk : r.text ∈ (buildPathMap rs).keys := by
        have : ∀ (l : List PathReq) (acc : ItemMap), (∃ x ∈ l, x.text = r.text) ∨ r.text ∈ acc.keys →
            r.text ∈ (l.foldl (fun m r => AMap.insert m r.text (pathItem r)) acc).keys := by
          intro l
          induction l with
          | nil => rintro acc (⟨x, hx, -⟩ | h); cases hx; exact h
          | cons y l ih =>
            intro acc h
            rw [List.foldl_cons]
            apply ih
            rw [AMap.keys_insert]
            rcases h with ⟨x, hx, he⟩ | h
            · rcases List.mem_cons.mp hx with rfl | hx
              · right
                rw [← he]
                split
                · assumption
                · exact List.mem_append.mpr (Or.inr (List.mem_singleton.mpr rfl))
              · exact Or.inl ⟨x, hx, he⟩
            · right
              split
              · exact h
              · exact List.mem_append.mpr (Or.inl h)
        exact this rs [] (Or.inl ⟨r, hr, rfl⟩)
      rw [AMap.mem_keys_iff] at hk
      cases hf : (buildPathMap rs).find r.text with
      | none => rw [hf] at hk; cases hk
      | some it =>
        obtain ⟨r', hr', he, rfl⟩ := hmem _ _ hf
        have : r' = r := by
          obtain ⟨i, hi, rfl⟩ := List.getElem_of_mem hr'
          obtain ⟨j, hj, rfl⟩ := List.getElem_of_mem hr
          have : i = j := (List.getElem?_inj (by simpa using hi) hnd).mp (by
            rw [List.getElem?_map, List.getElem?_map, List.getElem?_eq_getElem hi, List.getElem?_eq_getElem hj,
              Option.map_some, Option.map_some, he])
          subst this
          rfl
        rw [this]
    have hdone : r.text ∈ (buildPathMap rs).keys := by rw [AMap.mem_keys_iff, hfind]; rfl
    obtain ⟨x, hx, hkx⟩ := List.mem_flatMap.mp (g.part.mem_iff.mpr hdone)
    obtain ⟨it, hit, hp⟩ := g.path x hx _ hkx
    rw [hfind, Option.some.injEq] at hit
    subst hit
    rw [show r.path = x.1 from hp]
    exact ⟨x.2, hx, hkx⟩

/-- **C39.** By path, locally: unless grid checks are off, a successful call extracted only from messages whose grid
hash the request named. -/
theorem C39_path_grid_hash_checked (E : ExtEnv) (C : EngineConf) (info : String → Nat → Info)
    (hinfo : ∀ t f offs is, E.infos t f offs = .ok is → is = offs.map (info f)) (sched : List Nat)
    (rs : List PathReq) (hplace : ∀ a ∈ rs, ∀ b ∈ rs, a.path = b.path →
      a.scheme = b.scheme ∧ a.host = b.host ∧ a.port = b.port)
    (hlocal : ∀ r ∈ rs, r.host = "" ∧ r.port = 0 ∧ r.scheme ≠ "fdb")
    (hg : C.ignoreGrid = false) (out : List WireResult) (h : localExtractPaths E C sched rs = .ok out) :
    ∀ r ∈ rs, r.gridHash ≠ "" ∧ r.gridHash = (info r.path r.offset).base.md5GridSection := by
  obtain ⟨h1, -, h2⟩ := paths_deliver (P := fun u q _ => u.scheme ≠ "fdb" →
      q.gridHash ≠ "" ∧ q.gridHash = (info u.path u.offset).base.md5GridSection) (by
    rintro r rest rfl
    obtain ⟨e1, e2, -⟩ := hlocal r (List.mem_cons_self ..)
    refine ⟨?_, fun _ t u q r hs _ hn => absurd hs hn, fun hc => by simp [e1, e2] at hc⟩
    intro _ t t' u q offs infos j i r hs hi ho hj hgr hjump _
    have := hinfo t u.path offs infos hi
    subst this
    rw [List.getElem?_map, ho, Option.map_some, Option.some.injEq] at hj
    subst hj
    exact gridCheck_ok hgr hg) hplace h
  intro r hr
  obtain ⟨i, hi⟩ := List.getElem?_of_mem hr
  obtain ⟨x, -, hP⟩ := h2 i r hi
  exact hP (hlocal r hr).2.2

/-- **C27.** By path: two requests with the same scheme, path and offset make the call fail (an assertion), also when
their ranges or hosts differ. -/
theorem C27_repeated_path_request_fails (E : ExtEnv) (C : EngineConf) (sched : List Nat) (rs : List PathReq)
    (hplace : ∀ a ∈ rs, ∀ b ∈ rs, a.path = b.path → a.scheme = b.scheme ∧ a.host = b.host ∧ a.port = b.port)
    (hdup : ¬ (rs.map PathReq.text).Nodup) (hfwd : ∀ r ∈ rs, r.host = "" ∧ r.port = 0) (out : List WireResult) :
    localExtractPaths E C sched rs ≠ .ok out := by
  intro h
  obtain ⟨-, h2, -⟩ := paths_deliver (P := fun _ _ _ => True) (by
    rintro r rest rfl
    obtain ⟨e1, e2⟩ := hfwd r (List.mem_cons_self ..)
    exact ⟨fun _ _ _ _ _ _ _ _ _ _ _ _ _ _ _ _ => trivial, fun _ _ _ _ _ _ _ => trivial,
      fun hc => by simp [e1, e2] at hc⟩) hplace h
  exact hdup h2

/-! ## Cases -/

/-! ### Request strings of path requests -/

theorem append_sep_inj {c : Char} {a b x y : List Char} (ha : c ∉ a) (hb : c ∉ b)
    (h : a ++ c :: x = b ++ c :: y) : a = b ∧ x = y := by
  induction a generalizing b with
  | nil =>
    cases b with
    | nil => cases h; exact ⟨rfl, rfl⟩
    | cons d b => cases h; exact absurd List.mem_cons_self hb
  | cons d a ih =>
    cases b with
    | nil => cases h; exact absurd List.mem_cons_self ha
    | cons e b =>
      injection h with h1 h2
      obtain ⟨r1, r2⟩ := ih (fun m => ha (List.mem_cons_of_mem _ m)) (fun m => hb (List.mem_cons_of_mem _ m)) h2
      exact ⟨by rw [h1, r1], r2⟩

theorem natToString_no_hash (n : Nat) : '#' ∉ (toString n).toList := fun h =>
  absurd (toString_nat_digits n '#' h) (by decide)

/-- C27.  Requests by path are told apart exactly by scheme, file and offset (a scheme has no colon). -/
theorem C27_path_requests_told_apart (a b : PathReq) (ha : ':' ∉ a.scheme.toList) (hb : ':' ∉ b.scheme.toList) :
    a.text = b.text ↔ a.scheme = b.scheme ∧ a.path = b.path ∧ a.offset = b.offset := by
  constructor
  · intro h
    have h := congrArg String.toList h
    simp only [PathReq.text, String.toList_append, List.append_assoc] at h
    obtain ⟨h1, h2⟩ := append_sep_inj ha hb (x := a.path.toList ++ ('#' :: (toString a.offset).toList))
      (y := b.path.toList ++ ('#' :: (toString b.offset).toList)) h
    have h3 := congrArg List.reverse h2
    rw [List.reverse_append, List.reverse_append, List.reverse_cons, List.reverse_cons, List.append_assoc,
      List.append_assoc] at h3
    obtain ⟨h4, h5⟩ := append_sep_inj (by rw [List.mem_reverse]; exact natToString_no_hash _)
      (by rw [List.mem_reverse]; exact natToString_no_hash _) h3
    refine ⟨String.toList_inj.mp h1, String.toList_inj.mp (List.reverse_inj.mp h5), ?_⟩
    exact toString_nat_inj _ _ (List.reverse_inj.mp h4)
  · rintro ⟨h1, h2, h3⟩
    rw [PathReq.text, PathReq.text, h1, h2, h3]

def c31Reqs : List PathReq :=
  [⟨"b", "file", 40, "", 0, [⟨0, 4⟩], "h"⟩, ⟨"a", "file", 7, "", 0, [⟨1, 2⟩], "h"⟩, ⟨"b", "file", 3, "", 0, [], "h"⟩]

/-- Non-vacuity of the theorems by path. -/
example : Honest (c27Env []) c27Conf c27Info c27Content ∧
    (∀ a ∈ c31Reqs, ∀ b ∈ c31Reqs, a.path = b.path → a.scheme = b.scheme ∧ a.host = b.host ∧ a.port = b.port) ∧
    (∀ r ∈ c31Reqs, r.host = "" ∧ r.port = 0 ∧ r.scheme ≠ "fdb") ∧ (c31Reqs.map PathReq.text).Nodup ∧
    localExtractPaths (c27Env []) c27Conf [0, 1, 0, 1] c31Reqs =
      .ok [⟨[[98, 40, 0]], []⟩, ⟨[[97, 7, 1]], []⟩, ⟨[[98, 3]], []⟩] := by
  refine ⟨c27_honest _ _, by decide +kernel, by decide +kernel, by decide +kernel, by decide +kernel⟩

/-- Two files at two endpoints, each with its own server. -/
def c31Conf : EngineConf := { c27Conf with forward := true, servers := [(("x", 1), ("gx", 9)), (("y", 2), ("gy", 9))] }

def c31Cat : List (FdbKey × Uri) :=
  [(c27Key "0", ⟨"fdb", "x", 1, "b", 40⟩), (c27Key "12", ⟨"fdb", "y", 2, "a", 7⟩), (c27Key "6", ⟨"fdb", "x", 1, "b", 3⟩)]

/-- Non-vacuity of C31 (and of C27 with forwarding): the call succeeds, and two servers are used. -/
example : Catalogue true c31Cat ∧ ListsOnly (c27Env c31Cat) c31Cat ∧
    localExtract (c27Env c31Cat) c31Conf [1, 0] c27Reqs =
      .ok [⟨[[98, 3, 0]], []⟩, ⟨[[97, 7, 1, 5]], []⟩, ⟨[[98, 40, 8]], []⟩] ∧
    (do let (_, _, m0) ← buildRequestMap true c27Reqs
        let (m, fm) ← fileMap c31Conf c31Cat m0
        serverFileMap c31Conf m fm) =
      .ok [(("gx", 9), [("b", ["date=20250101,step=0", "date=20250101,step=6"])]),
           (("gy", 9), [("a", ["date=20250101,step=12"])])] ∧
    localExtract (c27Env c31Cat) { c31Conf with servers := [(("x", 1), ("gx", 9))] } [1, 0] c27Reqs =
      throwExn .seriousBug := by
  refine ⟨catalogue_of (by decide +kernel) (by decide +kernel) (by decide +kernel), ?_, by decide +kernel⟩
  intro u L h
  have := Except.ok.inj h
  subst this
  exact ⟨fun e he => he, by decide +kernel⟩

/-! ## Where the code differs -/

/-- A store in which the same path names different data on different hosts; the values tell the server asked. -/
def c31Env (L : List (FdbKey × Uri)) : ExtEnv :=
  { c27Env L with
    forward := fun _ server fm => .ok (fm.map fun f => (f.1, f.2.map fun i =>
      { i with result := some ⟨[server.1.toList.map fun c => c.toNat.toUInt64], []⟩ })) }

/-- **Disagreement (C31).** Files are told apart by path only: when two endpoints have a file of the same name, both are
sent to the server of one of them, and a request gets data from the wrong endpoint.  Here step 6 is at endpoint `y`, but
is answered by `gx` (103, 120) instead of `gy` (103, 121). -/
theorem C31_same_path_on_two_hosts :
    localExtract (c31Env [(c27Key "0", ⟨"fdb", "x", 1, "b", 40⟩), (c27Key "6", ⟨"fdb", "y", 2, "b", 3⟩)]) c31Conf []
      [⟨"step=0,date=20250101", [], "h"⟩, ⟨"step=6,date=20250101", [], "h"⟩] =
      .ok [⟨[[103, 120]], []⟩, ⟨[[103, 120]], []⟩] := by
  decide +kernel

end GJ
