import Verif.Lemmas.EngineAnswers
import Verif.Props.C52

/-!
# C69: a well-formed request succeeds

C50 and C52 say what a call returns if it returns.  Here: it does return, whatever happened on the node before and
whatever else happens while it runs, if the fields asked for are there.
-/

namespace GJ
open Spec

/-! ## The engine -/

/-- A call for fields of the catalogue succeeds if the environment answers for them. -/
theorem ready_extract {E : ExtEnv} {C : EngineConf} {P : Uri → ExRequest → WireResult → Prop}
    {info : String → Nat → Info} {W : Uri → ExRequest → Prop} (hP : Produces E C C.forward P)
    (hE : Ready E C C.forward info W) {cat : List (FdbKey × Uri)} (hcat : Catalogue C.ignoreYearMonth cat)
    (hl : ListsOnly E cat) (hall : ListsAll C.ignoreYearMonth E cat)
    (hplaces : ∀ a ∈ cat, ∀ b ∈ cat, a.2.path = b.2.path → a.2.offset = b.2.offset → a = b) (sched : List Nat)
    {rs : List ExRequest} {ws : List WrittenRequest} (hw : Written rs ws) (hne : rs ≠ [])
    (hdiff : ws.Pairwise fun a b => ¬ (essential C.ignoreYearMonth a.pairs).Perm (essential C.ignoreYearMonth b.pairs))
    (hsame : ∀ a ∈ ws, ∀ b ∈ ws, ∀ k, k ∈ (essential C.ignoreYearMonth a.pairs).map Prod.fst →
      k ∈ (essential C.ignoreYearMonth b.pairs).map Prod.fst)
    (hfound : ∀ i (hi : i < rs.length) (hj : i < ws.length), ∃ e ∈ cat,
      SameField C.ignoreYearMonth ws[i].pairs e.1 ∧
        ∀ q : ExRequest, q.ranges = rs[i].ranges → q.gridHash = rs[i].gridHash → W e.2 q) :
    ∃ out, localExtract E C sched rs = .ok out := by
  have hnd : ((canonAll C.ignoreYearMonth false rs).map ExRequest.request).Nodup := by
    obtain ⟨r, hr⟩ := (C28_duplicates_rejected C.ignoreYearMonth rs ws hw).2.mpr hdiff
    rw [buildRequestMap_eq] at hr
    split at hr
    · assumption
    · cases hr
  obtain ⟨L, hL, hsel⟩ := hall (unionAll C.ignoreYearMonth false [] rs)
  obtain ⟨hLc, hLn⟩ := hl _ L hL
  have hd := texts_nodup hcat hLc hLn
  have hmatch : ∀ r ∈ canonAll C.ignoreYearMonth false rs, ∃ e ∈ L,
      entryText C.ignoreYearMonth e = r.request ∧ W e.2 r := by
    intro r hr
    obtain ⟨i, hi⟩ := List.getElem?_of_mem hr
    have hir : i < rs.length := by
      rw [← canonAll_length C.ignoreYearMonth false rs]; exact (List.getElem?_eq_some_iff.mp hi).1
    have hj : i < ws.length := by rw [written_length hw]; exact hir
    obtain ⟨r', hri, hrr, hrg, hiff⟩ := canon_at hw i hir hj hcat
    rw [hi, Option.some.injEq] at hri
    subst hri
    obtain ⟨e, he, hs, h1⟩ := hfound i hir hj
    exact ⟨e, hsel e he (union_selects hw hsame i hj e.1 hs), (hiff e he).mpr hs, h1 r hrr hrg⟩
  obtain ⟨m1, fm1, h1, h2, h3, h4⟩ := listLoop_spec C.ignoreYearMonth L
      (entriesOf (canonAll C.ignoreYearMonth false rs)) [] 0 [] hd (fun _ _ h => by cases h) (Groups.nil _)
  have hperm : ((L.filter fun e => decide (entryText C.ignoreYearMonth e ∈
      (entriesOf (canonAll C.ignoreYearMonth false rs)).keys)).map (entryText C.ignoreYearMonth)).Perm
      (entriesOf (canonAll C.ignoreYearMonth false rs)).keys := by
    rw [List.perm_ext_iff_of_nodup (nodup_filter_map hd _) (by rw [entriesOf_keys]; exact hnd)]
    intro k
    constructor
    · intro hk
      obtain ⟨e, he, rfl⟩ := List.mem_map.mp hk
      rw [List.mem_filter, decide_eq_true_iff] at he
      exact he.2
    · intro hk
      have hk' := hk
      rw [entriesOf_keys] at hk'
      obtain ⟨r, hr, rfl⟩ := List.mem_map.mp hk'
      obtain ⟨e, he, her, -⟩ := hmatch r hr
      refine List.mem_map.mpr ⟨e, List.mem_filter.mpr ⟨he, ?_⟩, her⟩
      rw [decide_eq_true_iff, her]
      exact hk
  have hfm : fileMap C L (entriesOf (canonAll C.ignoreYearMonth false rs)) = .ok (m1, fm1) := by
    rw [fileMap, h1]
    simp only []
    rw [if_neg]
    rintro ⟨hc, -⟩
    apply hc
    have := hperm.length_eq
    rw [List.length_map] at this
    rw [Nat.zero_add, this, AMap.keys, List.length_map]
  have p : Planned E C rs L m1 fm1 := ⟨hnd, hL, hfm⟩
  obtain ⟨-, -, hkeys, hfind, g, ho, -⟩ := planned_spec hcat hl p
  obtain ⟨hmn, hmr⟩ := planned_requests hcat hl p
  have hkey : ∀ k ∈ (L.filter fun e => decide (entryText C.ignoreYearMonth e ∈ m1.keys)).map (entryText C.ignoreYearMonth),
      ∃ r ∈ canonAll C.ignoreYearMonth false rs, r.request = k := by
    intro k hk
    obtain ⟨e, he, rfl⟩ := List.mem_map.mp hk
    rw [List.mem_filter, decide_eq_true_iff, hkeys] at he
    obtain ⟨r, hr, h⟩ := List.mem_map.mp he.2
    exact ⟨r, hr, h⟩
  have hin : ∀ r ∈ canonAll C.ignoreYearMonth false rs,
      r.request ∈ (L.filter fun e => decide (entryText C.ignoreYearMonth e ∈ m1.keys)).map (entryText C.ignoreYearMonth) := by
    intro r hr
    obtain ⟨e, he, her, -⟩ := hmatch r hr
    refine List.mem_map.mpr ⟨e, List.mem_filter.mpr ⟨he, ?_⟩, her⟩
    rw [decide_eq_true_iff, her, hkeys]
    exact List.mem_map.mpr ⟨r, hr, rfl⟩
  -- where the items are
  have hitem : ∀ k ∈ (L.filter fun e => decide (entryText C.ignoreYearMonth e ∈ m1.keys)).map (entryText C.ignoreYearMonth),
      ∀ it, m1.find k = some it → ∃ e ∈ L, entryText C.ignoreYearMonth e = k ∧ it.uri = e.2 ∧ W it.uri it.request := by
    intro k hk it hit
    obtain ⟨r, hr, rfl⟩ := hkey k hk
    obtain ⟨e, he, her, hW⟩ := hmatch r hr
    rw [hfind r hr, Option.some.injEq, placeItem_spec hd _ he her] at hit
    rw [← hit]
    exact ⟨e, he, her, rfl, hW⟩
  obtain ⟨m', hsch⟩ := readySchedule_ok (sched := sched) hP hE g
    (fun e he k hk k' hk' it it' a b => (ho e he k hk k' hk' it it' a b).1) (fun _ => ho) (by
      intro hnil
      obtain ⟨r, hr⟩ : ∃ r, r ∈ canonAll C.ignoreYearMonth false rs := by
        have : 0 < (canonAll C.ignoreYearMonth false rs).length := by
          rw [canonAll_length]; exact List.length_pos_iff.mpr hne
        exact ⟨_, List.getElem_mem this⟩
      have := hin r hr
      rw [hnil] at this
      cases this) (nodup_filter_map hd _) (by
      intro k hk it hit
      obtain ⟨e, -, -, -, hW⟩ := hitem k hk it hit
      exact hW) (by
      intro k hk k' hk' it it' hit hit' hpa hof
      obtain ⟨e, he, hke, hue, -⟩ := hitem k hk it hit
      obtain ⟨e', he', hke', hue', -⟩ := hitem k' hk' it' hit'
      rw [hue, hue'] at hpa hof
      rw [← hke, ← hke', hplaces e (hLc e he) e' (hLc e' he') hpa hof])
  obtain ⟨-, hsm, hres⟩ := scheduleTasks_spec hP g ho hsch
  obtain ⟨hn', hr'⟩ := same_requests hsm hmr hmn
  obtain ⟨out, hout⟩ := collectLoop_ok (m := m') hnd (by
    intro r hr
    obtain ⟨it, x, h1, h2, -⟩ := hres _ (hin r hr)
    exact ⟨it, x, h1, h2⟩)
  refine ⟨out, ?_⟩
  rw [localExtract, engineExtract, buildRequestMap_eq, if_pos hnd, ok_bind]
  simp only []
  rw [hL, ok_bind, hfm, ok_bind]
  simp only []
  rw [hsch, ok_bind]
  simp only [ok_bind]
  rw [if_neg (by simp), collectResults_eq m' hn' hr']
  have hlen : m'.length = (canonAll C.ignoreYearMonth false rs).length := by
    have := congrArg List.length (hsm.keys.trans hkeys)
    rw [AMap.keys, List.length_map, List.length_map] at this
    exact this
  rw [cassert, if_pos (by rw [decide_eq_true_iff]; exact hlen), ok_bind]
  exact hout

theorem buildPath_distinct (rs : List PathReq) : ∀ acc : ItemMap, (∀ r ∈ rs, r.text ∉ acc.keys) →
    (rs.map PathReq.text).Nodup →
    rs.foldl (fun m r => m.insert r.text (pathItem r)) acc = acc ++ rs.map fun r => (r.text, pathItem r) := by
  induction rs with
  | nil => intro acc _ _; rw [List.map_nil, List.append_nil]; rfl
  | cons r rs ih =>
    intro acc hacc hn
    rw [List.map_cons, List.nodup_cons] at hn
    have hnone : acc.find r.text = none := by
      cases hf : acc.find r.text with
      | none => rfl
      | some x => exact absurd ((AMap.mem_keys_iff _ _).mpr (by rw [hf]; rfl)) (hacc r (by simp))
    rw [List.foldl_cons, AMap.insert_new _ _ _ hnone, ih]
    · simp
    · intro r' hr'
      rw [AMap.keys, List.map_append, List.mem_append, not_or]
      refine ⟨hacc r' (by simp [hr']), ?_⟩
      simp only [List.map_cons, List.map_nil, List.mem_singleton]
      intro e
      exact hn.1 (by rw [← e]; exact List.mem_map.mpr ⟨r', hr', rfl⟩)
    · exact hn.2

/-- The same for requests by path. -/
theorem ready_paths {E : ExtEnv} {C : EngineConf} {P : Uri → ExRequest → WireResult → Prop}
    {info : String → Nat → Info} {W : Uri → ExRequest → Prop} (sched : List Nat) {rs : List PathReq} {fwd : Bool}
    (hP : Produces E C fwd P) (hE : Ready E C fwd info W) (hne : rs ≠ [])
    (hfwd : ∀ r rest, rs = r :: rest → (!(decide (r.host = "") && decide (r.port = 0))) = fwd)
    (hplace : ∀ a ∈ rs, ∀ b ∈ rs, a.path = b.path → a.scheme = b.scheme ∧ a.host = b.host ∧ a.port = b.port)
    (hdiff : (rs.map PathReq.text).Nodup) (hW : ∀ r ∈ rs, W r.uri r.base) :
    ∃ out, localExtractPaths E C sched rs = .ok out := by
  have hfull : buildPathMap rs = rs.map fun r => (r.text, pathItem r) := by
    rw [buildPathMap_eq, buildPath_distinct rs [] (by simp [AMap.keys]) hdiff, List.nil_append]
  obtain ⟨hn, hmem⟩ := buildPathMap_keys rs
  have g := fileMapFromPaths_spec _ hn
  have ho : OnePlace (buildPathMap rs) (fileMapFromPaths (buildPathMap rs)) := by
    intro e he k hk k' hk' it it' hit hit'
    obtain ⟨a, ha, -, rfl⟩ := hmem k it hit
    obtain ⟨b, hb, -, rfl⟩ := hmem k' it' hit'
    obtain ⟨ia, h7, h8⟩ := g.path e he k hk
    obtain ⟨ib, h9, h10⟩ := g.path e he k' hk'
    rw [hit, Option.some.injEq] at h7
    rw [hit', Option.some.injEq] at h9
    subst h7
    subst h9
    exact hplace a ha b hb (h8.trans h10.symm)
  have hlen : (buildPathMap rs).length = rs.length := by rw [hfull, List.length_map]
  obtain ⟨m', hsch⟩ := readySchedule_ok (sched := sched) hP hE g
    (fun e he k hk k' hk' it it' a b => (ho e he k hk k' hk' it it' a b).1) (fun _ => ho) (by
      intro h
      have := congrArg List.length h
      rw [AMap.keys, List.length_map, hlen] at this
      exact hne (List.eq_nil_of_length_eq_zero this)) hn (by
      intro k _ it hit
      obtain ⟨a, ha, -, rfl⟩ := hmem k it hit
      exact hW a ha) (by
      intro k _ k' _ it it' hit hit' hpa hof
      obtain ⟨a, ha, hka, rfl⟩ := hmem k it hit
      obtain ⟨b, hb, hkb, rfl⟩ := hmem k' it' hit'
      have hpa : a.path = b.path := hpa
      have hof : a.offset = b.offset := hof
      rw [← hka, ← hkb]
      simp only [PathReq.text]
      rw [hpa, hof, (hplace a ha b hb hpa).1])
  obtain ⟨-, hsame, hres⟩ := scheduleTasks_spec hP g ho hsch
  have hkey : ∀ k it, (buildPathMap rs).find k = some it → it.request.request = k := by
    intro k it hit
    obtain ⟨r, -, hr, rfl⟩ := hmem k it hit
    exact hr
  obtain ⟨hn', hr'⟩ := same_requests hsame hkey hn
  obtain ⟨out, hout⟩ := collectLoop_ok (rs := rs.map PathReq.base) (m := m') (by rw [List.map_map]; exact hdiff) (by
    intro q hq
    obtain ⟨r, hr, rfl⟩ := List.mem_map.mp hq
    have hk : r.text ∈ (buildPathMap rs).keys := by
      rw [hfull, AMap.keys, List.map_map]
      exact List.mem_map.mpr ⟨r, hr, rfl⟩
    obtain ⟨it, x, h1, h2, -⟩ := hres r.text hk
    exact ⟨it, x, h1, h2⟩)
  refine ⟨out, ?_⟩
  rw [localExtractPaths, engineExtractPaths.eq_def]
  cases hrs : rs with
  | nil => exact absurd hrs hne
  | cons r0 rest =>
    simp only
    rw [hfwd r0 rest hrs, ← hrs, hsch, ok_bind]
    simp only
    rw [ok_bind]
    simp only
    rw [if_neg (by simp), collectResults_eq m' hn' hr']
    have : m'.length = rs.length := by
      have := congrArg List.length hsame.keys
      rw [AMap.keys, AMap.keys, List.length_map, List.length_map] at this
      omega
    rw [cassert, if_pos (by rw [decide_eq_true_iff]; exact this), ok_bind]
    exact hout

/-! ## A node -/

/-- A node: what its engine uses, its configuration, its files and cache when the call starts, its store, and its
files when the call ends. -/
structure Node where
  env : ExtEnv
  conf : EngineConf
  reader : Reader UInt64
  offs : List UInt8 → Res (List Nat)
  names : String → Prop
  store : Store
  start : Svc UInt64
  later : Disk

/-- Some history led to the state in which the call starts: the node started with index files that agree with its data,
building metadata on demand; then lookups, scans, insertions, flushes, and growth of files. -/
def Node.Began (n : Node) : Prop :=
  ∃ d mode cap fs es, ToldApart mode n.names ∧ 0 < cap ∧ GoodIndex (diskWorld n.reader n.offs d) n.names mode fs ∧
    (∀ e ∈ es, SEv.Allowed n.names e) ∧ (Svc.start n.reader n.offs d mode true cap fs).run n.reader n.offs es = .ok n.start

/-- During the call anything of that kind goes on.  Every lookup of the call is answered in some continuation of the
history; every task reads the files as they are at some time during the call. -/
structure Node.Up (n : Node) : Prop where
  reader : SoundReader n.reader
  offs : ∀ file, n.offs file ≠ undef
  began : n.Began
  infos : ∀ t f os, n.names f → ∃ es s, (∀ e ∈ es, SEv.Allowed n.names e) ∧
    n.start.run n.reader n.offs es = .ok s ∧ s.disk.Before n.later ∧
    (⟨f, os, n.env.infos t f os⟩ : Answer) ∈ s.sys.answers.drop n.start.sys.answers.length
  jump : ∀ t f o i is, ∃ d : Disk, n.start.disk.Before d ∧ d.Before n.later ∧
    n.env.jump t f o i is = diskJump n.reader d f o i is
  fetch : ∀ t u is, n.env.fetch t u is = slowExtract n.reader n.store u is

/-- When the call starts the field is there, can be decoded, and has these values in these ranges.  For a field in a
file: the file has a name that the cache tells from others, and with grid checks on the header of the message states
the hash of the request.  For a field behind the store: fetching whole messages is enabled, the store states the length
and delivers the message in one read. -/
def Node.Gives (n : Node) (u : Uri) (is : List Interval) (hash : String) (r : WireResult) : Prop :=
  if u.scheme = "fdb" then
    n.conf.inefficient = true ∧ ∃ msg h answers, n.store.read u = .ok (msg, answers) ∧
      n.store.length u = some msg.length ∧ AtOnce msg answers ∧ GoodMessage n.reader msg h ∧
      messageExtract n.reader msg 0 is = .ok r
  else
    n.names u.path ∧ ∃ file h, n.start.disk u.path = some file ∧ n.reader.parse (file.drop u.offset) = some h ∧
      (n.conf.ignoreGrid = true ∨ (hash ≠ "" ∧ hash = h.md5GridSection)) ∧
      messageExtract n.reader file u.offset is = .ok r

theorem Disk.Before.refl (d : Disk) : d.Before d := fun _ _ h => ⟨[], by rw [List.append_nil]; exact h⟩

theorem Disk.Before.trans {a b c : Disk} (h1 : a.Before b) (h2 : b.Before c) : a.Before c := by
  intro f x h
  obtain ⟨m1, h1⟩ := h1 f x h
  obtain ⟨m2, h2⟩ := h2 f _ h1
  exact ⟨m1 ++ m2, by rw [h2, List.append_assoc]⟩

theorem Disk.Before.grown {R : Reader UInt64} (sound : SoundReader R) {offs : List UInt8 → Res (List Nat)} {d d' : Disk}
    (h : d.Before d') : Grown (diskWorld R offs d) (diskWorld R offs d') := by
  intro p o i hi
  simp only [diskWorld] at hi ⊢
  cases hd : d p with
  | none => rw [hd] at hi; cases hi
  | some file =>
    rw [hd] at hi
    obtain ⟨more, hm⟩ := h p file hd
    rw [hm]
    exact buildInfo_grown sound hi more

theorem Disk.append_before (d : Disk) (p : String) (b : List UInt8) : d.Before (d.append p b) := by
  intro f c h
  unfold Disk.append
  by_cases hf : f = p
  · rw [if_pos hf, h]; exact ⟨b, rfl⟩
  · rw [if_neg hf]; exact ⟨[], by rw [List.append_nil]; exact h⟩

/-- The answers a lookup can have had since `d` was the state of the files. -/
def Answer.Served (W : World) (a : Answer) : Prop :=
  a.offsets.Nodup → (∀ o ∈ a.offsets, ∃ i, W.data a.path o = .ok i) → ∃ is, a.result = .ok is

/-- A step of the cache keeps the setting and adds at most one answer, which is an answer if all messages can be read. -/
theorem Sys.step_serves {U : String → Prop} {s s' : Sys} (g : Good U s) (hl : s.c.lazy = true) {e : CEv}
    (h : s.step e = .ok s') :
    s'.c.lazy = true ∧ ∃ new, s'.answers = s.answers ++ new ∧ ∀ a ∈ new, a.Served s.W := by
  have none' : ∀ {x : List Answer}, x = s.answers → ∃ new, x = s.answers ++ new ∧ ∀ a ∈ new, a.Served s.W :=
    fun hx => ⟨[], by rw [hx, List.append_nil], fun a ha => by cases ha⟩
  have pl : ∀ p r, s.planned p r = .ok s' →
      s'.c.lazy = true ∧ ∃ new, s'.answers = s.answers ++ new ∧ ∀ a ∈ new, a.Served s.W := by
    intro p r hr
    cases r with
    | ok x => cases hr; exact ⟨hl, none' rfl⟩
    | error f => cases f with
      | ub => cases hr
      | exn e => cases hr; exact ⟨hl, none' rfl⟩
  cases e with
  | lookup p os =>
    obtain ⟨⟨found, c⟩, h1, h2⟩ := res_bind_inv h
    cases h2
    rw [getCached] at h1
    obtain ⟨x, -, h1⟩ := res_bind_inv h1
    cases h1
    exact ⟨hl, none' rfl⟩
  | answer k =>
    rw [Sys.step] at h
    split at h
    · cases h; exact ⟨hl, none' rfl⟩
    · rename_i l hk
      obtain ⟨hp, hf⟩ := g.lookups l (List.mem_of_getElem? hk)
      obtain ⟨es, he, hag⟩ := g.index l.path hp
      rw [Sys.finish] at h
      rcases resolve_ok g.defined.data s.c.lazy s.c.mode s.c.fs l.path l.offsets l.found es he hag hf with
        ⟨is, h1, h2⟩ | ⟨e, h1, h2⟩
      · rw [h1] at h
        simp only at h
        obtain ⟨c, h3, h4⟩ := res_bind_inv h
        cases h4
        rw [putCache] at h3
        obtain ⟨x, -, h3⟩ := res_bind_inv h3
        cases h3
        refine ⟨hl, [_], rfl, ?_⟩
        intro a ha _ _
        rw [List.mem_singleton] at ha
        subst ha
        exact ⟨is, rfl⟩
      · rw [h1] at h
        cases h
        refine ⟨hl, [_], rfl, ?_⟩
        intro a ha hn hr
        rw [List.mem_singleton] at ha
        subst ha
        exact absurd ⟨hn, fun o ho => Or.inr (Or.inr ⟨hl, hr o ho⟩)⟩ h2
  | scan p os => exact pl _ _ h
  | scanFile p m => exact pl _ _ h
  | commit k =>
    rw [Sys.step] at h
    split at h
    · cases h; exact ⟨hl, none' rfl⟩
    · rename_i p m hk
      obtain ⟨⟨n, c⟩, h1, h2⟩ := res_bind_inv h
      cases h2
      refine ⟨?_, none' rfl⟩
      cases m with
      | none => cases h1; exact hl
      | some x =>
        rw [Cache.scanCommit] at h1
        obtain ⟨fs, -, h1⟩ := res_bind_inv h1
        cases h1
        exact hl
  | insert p o =>
    rw [Sys.step] at h
    split at h
    · cases h
      refine ⟨?_, none' rfl⟩
      simp only [Cache.insert]
      split <;> exact hl
    · cases h; exact ⟨hl, none' rfl⟩
  | flush a =>
    obtain ⟨c, h1, h2⟩ := res_bind_inv h
    cases h2
    rw [Cache.flush] at h1
    obtain ⟨fs, -, h1⟩ := res_bind_inv h1
    cases h1
    exact ⟨hl, none' rfl⟩
  | clear => cases h; exact ⟨hl, none' rfl⟩
  | elsewhere a ws =>
    obtain ⟨fs, -, h2⟩ := res_bind_inv h
    cases h2
    exact ⟨hl, none' rfl⟩
  | grow W' => cases h; exact ⟨hl, none' rfl⟩

/-- A later state of a node: nothing was lost, and every lookup answered since then was served. -/
structure Since (R : Reader UInt64) (offs : List UInt8 → Res (List Nat)) (U : String → Prop) (s0 s : Svc UInt64) : Prop where
  good : SvcGood R offs U s
  lazy : s.sys.c.lazy = true
  disk : s0.disk.Before s.disk
  answers : ∃ new, s.sys.answers = s0.sys.answers ++ new ∧ ∀ a ∈ new, a.Served (diskWorld R offs s0.disk)

theorem Since.run {R : Reader UInt64} {offs : List UInt8 → Res (List Nat)} {U : String → Prop} (sound : SoundReader R)
    (hoffs : ∀ file, offs file ≠ undef) {s0 : Svc UInt64} (es : List SEv) :
    ∀ {s s' : Svc UInt64}, Since R offs U s0 s → (∀ e ∈ es, e.Allowed U) → s.run R offs es = .ok s' →
      Since R offs U s0 s' := by
  induction es with
  | nil => intro s s' g _ h; cases h; exact g
  | cons e es ih =>
    intro s s' g ha h
    rw [Svc.run] at h
    obtain ⟨s1, h1, h2⟩ := res_bind_inv h
    refine ih ?_ (fun e he => ha e (List.mem_cons_of_mem _ he)) h2
    obtain ⟨s1', hs, g1⟩ := g.good.step sound hoffs e (ha e List.mem_cons_self)
    rw [h1] at hs
    cases hs
    obtain ⟨new, hn, hsv⟩ := g.answers
    cases e with
    | cache e =>
      rw [Svc.step] at h1
      obtain ⟨y, hy, h1⟩ := res_bind_inv h1
      cases h1
      obtain ⟨hl, new', hn', hsv'⟩ := Sys.step_serves g.good.cache g.lazy hy
      refine ⟨g1, hl, g.disk, new ++ new', ?_, ?_⟩
      · show y.answers = _
        rw [hn', hn, List.append_assoc]
      · intro a haa
        rcases List.mem_append.mp haa with haa | haa
        · exact hsv a haa
        · intro hnd hr
          refine hsv' a haa hnd fun o ho => ?_
          obtain ⟨i, hi⟩ := hr o ho
          refine ⟨i, ?_⟩
          rw [g.good.world]
          exact (g.disk.grown sound (offs := offs)) _ _ _ hi
    | append p b =>
      cases h1
      exact ⟨g1, g.lazy, g.disk.trans (Disk.append_before _ _ _), new, hn, hsv⟩
    | jump k j is =>
      rw [Svc.step] at h1
      split at h1
      · split at h1 <;> (cases h1; exact ⟨g1, g.lazy, g.disk, new, hn, hsv⟩)
      · cases h1; exact ⟨g1, g.lazy, g.disk, new, hn, hsv⟩

theorem Node.Up.since {n : Node} (h : n.Up) : Since n.reader n.offs n.names n.start n.start := by
  obtain ⟨d, mode, cap, fs, es, h1, h2, h3, h4, h5⟩ := h.began
  have g : SvcGood n.reader n.offs n.names (Svc.start n.reader n.offs d mode true cap fs) :=
    SvcGood.start h.offs h1 h2 h3
  have := Since.run h.reader h.offs es
    (⟨g, rfl, Disk.Before.refl _, [], by rw [List.append_nil], fun a ha => by cases ha⟩ :
      Since n.reader n.offs n.names _ (Svc.start n.reader n.offs d mode true cap fs)) h4 h5
  exact ⟨this.good, this.lazy, Disk.Before.refl _, [], by rw [List.append_nil], fun a ha => by cases ha⟩

theorem Node.Up.lookup {n : Node} (h : n.Up) (t : Nat) (f : String) (os : List Nat) (hf : n.names f) :
    ∃ s, Since n.reader n.offs n.names n.start s ∧ s.disk.Before n.later ∧
      (⟨f, os, n.env.infos t f os⟩ : Answer) ∈ s.sys.answers ∧
      (⟨f, os, n.env.infos t f os⟩ : Answer).Served (diskWorld n.reader n.offs n.start.disk) := by
  obtain ⟨es, s, h1, h2, h3, h4⟩ := h.infos t f os hf
  have g := h.since.run h.reader h.offs es h1 h2
  refine ⟨s, g, h3, List.mem_of_mem_drop h4, ?_⟩
  obtain ⟨new, hn, hs⟩ := g.answers
  rw [hn, List.drop_left] at h4
  exact hs _ h4

theorem Node.Up.metadata {n : Node} (h : n.Up) {t : Nat} {f : String} {os : List Nat} {is : List Info} (hf : n.names f)
    (hi : n.env.infos t f os = .ok is) : extractInfos (diskWorld n.reader n.offs n.later) f os = .ok is := by
  obtain ⟨s, g, h3, h4, -⟩ := h.lookup t f os hf
  have := g.good.cache.answers _ h4 is hi
  rw [g.good.world] at this
  exact extractInfos_grow (h3.grown h.reader) this

theorem Node.Up.before {n : Node} (h : n.Up) : n.start.disk.Before n.later := by
  obtain ⟨d, h1, h2, -⟩ := h.jump 0 "" 0 (.unsupported ⟨0, 0, 0, 0, 0, 0, 0, 0, 0, 0, 0, 0, 0, "", ""⟩) []
  exact h1.trans h2

/-- What the engine needs of a node: metadata, for the messages of which `K` holds, and values are those of the files. -/
structure Node.Runs (n : Node) (K : String → Nat → Prop) : Prop where
  reader : SoundReader n.reader
  before : n.start.disk.Before n.later
  metadata : ∀ {t f os is}, n.names f → n.env.infos t f os = .ok is →
    extractInfos (diskWorld n.reader n.offs n.later) f os = .ok is
  served : ∀ t f os, n.names f → os.Nodup →
    (∀ o ∈ os, K f o ∧ ∃ i, (diskWorld n.reader n.offs n.start.disk).data f o = .ok i) → ∃ is, n.env.infos t f os = .ok is
  jump : ∀ t f o i is, ∃ d : Disk, n.start.disk.Before d ∧ d.Before n.later ∧
    n.env.jump t f o i is = diskJump n.reader d f o i is
  fetch : ∀ t u is, n.env.fetch t u is = slowExtract n.reader n.store u is

theorem Node.Up.runs {n : Node} (h : n.Up) : n.Runs fun _ _ => True where
  reader := h.reader
  before := h.before
  metadata hf hi := h.metadata hf hi
  served t f os hf hnd hr := by
    obtain ⟨s, g, -, -, hsv⟩ := h.lookup t f os hf
    exact hsv hnd fun o ho => (hr o ho).2
  jump := h.jump
  fetch := h.fetch

/-- The metadata of a place is among those `K` speaks of, if it is in a file. -/
def Node.Covers (K : String → Nat → Prop) (u : Uri) : Prop := u.scheme ≠ "fdb" → K u.path u.offset

/-- What a field in a file gives, in terms of its metadata. -/
theorem Node.Gives.file {n : Node} {K : String → Nat → Prop} (h : n.Runs K) {u : Uri} {is : List Interval} {hash : String} {r : WireResult}
    (hg : n.Gives u is hash r) (hs : u.scheme ≠ "fdb") :
    n.names u.path ∧ ∃ i, (diskWorld n.reader n.offs n.start.disk).data u.path u.offset = .ok i ∧
      infoAt n.reader n.offs n.later u.path u.offset = i ∧
      gridCheck n.conf.ignoreGrid hash i.base.md5GridSection = .ok () ∧
      ∀ d : Disk, n.start.disk.Before d → diskJump n.reader d u.path u.offset i is = .ok r := by
  unfold Node.Gives at hg
  rw [if_neg hs] at hg
  obtain ⟨hn, file, hd, hdisk, hparse, hgrid, hm⟩ := hg
  refine ⟨hn, ?_⟩
  have hm0 := hm
  unfold messageExtract at hm
  obtain ⟨i, hb, hj⟩ := res_bind_inv hm
  have hdata : (diskWorld n.reader n.offs n.start.disk).data u.path u.offset = .ok i := by
    simp only [diskWorld, hdisk]; exact hb
  refine ⟨i, hdata, ?_, ?_, ?_⟩
  · unfold infoAt
    rw [h.before.grown h.reader (offs := n.offs) _ _ _ hdata]; rfl
  · obtain ⟨hd', hp', hmd, -⟩ := C48_metadata_as_stated n.reader file u.offset i hb
    rw [hparse] at hp'
    cases hp'
    rw [hmd]
    rcases hgrid with hg | ⟨h1, h2⟩
    · rw [gridCheck, hg]; rfl
    · rw [gridCheck, ← h2]; simp [h1]
  · intro d hb4
    obtain ⟨more, hmore⟩ := hb4 _ _ hdisk
    unfold diskJump
    rw [hmore]
    exact jumperExtract_grown n.reader file more u.offset i is r hj

theorem Node.Gives.fetch {n : Node} {u : Uri} {is : List Interval} {hash : String} {r : WireResult}
    (hg : n.Gives u is hash r) (hs : u.scheme = "fdb") :
    n.conf.inefficient = true ∧ slowExtract n.reader n.store u is = .ok r := by
  unfold Node.Gives at hg
  rw [if_pos hs] at hg
  obtain ⟨h1, msg, hd, answers, h2, h3, h4, h5, h6⟩ := hg
  refine ⟨h1, ?_⟩
  rw [C46_fallback_equals_file_partial n.reader n.store u msg hd h5 hs h3 answers h2 h4 msg 0 ⟨[], [], by simp, rfl⟩]
  exact h6

/-- What a node delivers. -/
def Node.Right (n : Node) (u : Uri) (q : ExRequest) (r : WireResult) : Prop :=
  (q.Fits → WireResult.Fits r) ∧ ∀ r', n.Gives u q.ranges q.gridHash r' → r = r'

theorem slowExtract_fits {R : Reader UInt64} {S : Store} {u : Uri} {is : List Interval} {r : WireResult}
    (hi : ∀ i ∈ is, i.b < 2 ^ 64 ∧ i.e < 2 ^ 64) (h : slowExtract R S u is = .ok r) : WireResult.Fits r := by
  unfold slowExtract at h
  split at h
  · cases h
  split at h
  · cases h
  · obtain ⟨p, -, h⟩ := res_bind_inv h
    obtain ⟨b, -, h⟩ := res_bind_inv h
    exact messageExtract_fits hi h

theorem Node.Runs.produces {n : Node} {K : String → Nat → Prop} (h : n.Runs K) : Produces n.env n.conf false n.Right := by
  refine ⟨?_, ?_, fun hc => by cases hc⟩
  · intro _ t t' u q offs infos j i r hs hi ho hj hgr hjump
    obtain ⟨d, h1, h2, hjd⟩ := h.jump t' u.path u.offset i q.ranges
    rw [hjd] at hjump
    refine ⟨fun hf => ?_, fun r' hg => ?_⟩
    · unfold diskJump at hjump
      split at hjump
      · cases hjump
      · exact jumperExtract_fits hf hjump
    · obtain ⟨hn, i', hdata, -, -, hx⟩ := hg.file h hs
      have hm := h.metadata hn hi
      have hd := mapM_getElem hm ho hj
      rw [h.before.grown h.reader (offs := n.offs) _ _ _ hdata] at hd
      cases hd
      rw [hx d h1] at hjump
      cases hjump
      rfl
  · intro _ t u q r hs hf
    rw [h.fetch] at hf
    refine ⟨fun hq => slowExtract_fits hq hf, fun r' hg => ?_⟩
    rw [(hg.fetch hs).2] at hf
    cases hf
    rfl

theorem Node.Up.produces {n : Node} (h : n.Up) : Produces n.env n.conf false n.Right := h.runs.produces

/-- The environment of a node answers for the fields the node has. -/
theorem Node.Runs.ready {n : Node} {K : String → Nat → Prop} (h : n.Runs K) :
    Ready n.env n.conf false (infoAt n.reader n.offs n.later)
      (fun u q => (∃ r, n.Gives u q.ranges q.gridHash r) ∧ Node.Covers K u) where
  metadata _ t u q offs is hw hs hi := by
    obtain ⟨⟨r, hg⟩, -⟩ := hw
    obtain ⟨hn, -⟩ := hg.file h hs
    exact mapM_infoAt (h.metadata hn hi)
  infos _ t f offs hne hnd hall := by
    obtain ⟨o, ho⟩ := List.exists_mem_of_ne_nil _ hne
    obtain ⟨u, q, ⟨⟨r, hg⟩, -⟩, hs, hp, -⟩ := hall o ho
    obtain ⟨hn, -⟩ := hg.file h hs
    rw [hp] at hn
    refine h.served t f offs hn hnd fun o ho => ?_
    obtain ⟨u, q, ⟨⟨r, hg⟩, hk⟩, hs, hp, hof⟩ := hall o ho
    obtain ⟨-, i, hd, -⟩ := hg.file h hs
    have hk := hk hs
    rw [hp, hof] at hd hk
    exact ⟨hk, i, hd⟩
  grid _ u q hw hs := by
    obtain ⟨⟨r, hg⟩, -⟩ := hw
    obtain ⟨-, i, -, hi, hgr, -⟩ := hg.file h hs
    rw [hi]; exact hgr
  jump _ t u q hw hs := by
    obtain ⟨⟨r, hg⟩, -⟩ := hw
    obtain ⟨-, i, -, hi, -, hx⟩ := hg.file h hs
    obtain ⟨d, h1, h2, hjd⟩ := h.jump t u.path u.offset i q.ranges
    rw [hi, hjd]
    exact ⟨r, hx d h1⟩
  fetch _ t u q hw hs := by
    obtain ⟨⟨r, hg⟩, -⟩ := hw
    obtain ⟨h1, h2⟩ := hg.fetch hs
    exact ⟨h1, r, by rw [h.fetch]; exact h2⟩
  servers hc := by cases hc
  forward hc := by cases hc

theorem Node.Up.ready {n : Node} (h : n.Up) :
    Ready n.env n.conf false (infoAt n.reader n.offs n.later) (fun u q => ∃ r, n.Gives u q.ranges q.gridHash r) := by
  have : (fun (u : Uri) (q : ExRequest) => (∃ r, n.Gives u q.ranges q.gridHash r) ∧ Node.Covers (fun _ _ => True) u) =
      fun u q => ∃ r, n.Gives u q.ranges q.gridHash r := by
    funext u q
    exact propext ⟨fun h => h.1, fun h => ⟨h, fun _ => trivial⟩⟩
  rw [← this]
  exact h.runs.ready

/-- The call on a node that has all fields asked for, by catalogue. -/
theorem Node.Runs.extract {n : Node} {K : String → Nat → Prop} (h : n.Runs K) (here : n.conf.forward = false) {cat : List (FdbKey × Uri)}
    (hcat : Catalogue n.conf.ignoreYearMonth cat) (hl : ListsOnly n.env cat)
    (hall : ListsAll n.conf.ignoreYearMonth n.env cat)
    (hplaces : ∀ a ∈ cat, ∀ b ∈ cat, a.2.path = b.2.path → a.2.offset = b.2.offset → a = b) (sched : List Nat)
    {rs : List ExRequest} {ws : List WrittenRequest} (hw : Written rs ws) (hne : rs ≠ [])
    (hdiff : ws.Pairwise fun a b =>
      ¬ (essential n.conf.ignoreYearMonth a.pairs).Perm (essential n.conf.ignoreYearMonth b.pairs))
    (hsame : ∀ a ∈ ws, ∀ b ∈ ws, ∀ k, k ∈ (essential n.conf.ignoreYearMonth a.pairs).map Prod.fst →
      k ∈ (essential n.conf.ignoreYearMonth b.pairs).map Prod.fst)
    (hfound : ∀ i (hi : i < rs.length) (hj : i < ws.length), ∃ e ∈ cat,
      SameField n.conf.ignoreYearMonth ws[i].pairs e.1 ∧ Node.Covers K e.2 ∧
        ∃ r, n.Gives e.2 rs[i].ranges rs[i].gridHash r) :
    ∃ out, localExtract n.env n.conf sched rs = .ok out ∧ out.length = rs.length ∧
      ∀ i (hi : i < rs.length) (hj : i < ws.length), ∃ e ∈ cat, SameField n.conf.ignoreYearMonth ws[i].pairs e.1 ∧
        ∃ r, out[i]? = some r ∧ n.Gives e.2 rs[i].ranges rs[i].gridHash r := by
  have hP : Produces n.env n.conf n.conf.forward n.Right := by rw [here]; exact h.produces
  obtain ⟨out, ho⟩ := ready_extract hP (by rw [here]; exact h.ready) hcat hl hall hplaces sched hw hne hdiff hsame (by
    intro i hi hj
    obtain ⟨e, he, hs, hk, r, hg⟩ := hfound i hi hj
    exact ⟨e, he, hs, fun q h1 h2 => ⟨⟨r, by rw [h1, h2]; exact hg⟩, hk⟩⟩)
  obtain ⟨hlen, hx⟩ := extract_delivers hP hcat hl hw ho
  refine ⟨out, ho, hlen, fun i hi hj => ?_⟩
  obtain ⟨e, he, hs, -, r, hg⟩ := hfound i hi hj
  refine ⟨e, he, hs, r, ?_, hg⟩
  rcases hx i hi hj with ⟨e', he', hs', x, q, hxi, hq, hgh, hr⟩ | ⟨-, -, hno⟩
  · have hee := hcat.distinct e' he' e he (hs'.symm.trans hs)
    subst hee
    rw [hxi, hr.2 r (by rw [hq, hgh]; exact hg)]
  · exfalso
    obtain ⟨L, hL, hsel⟩ := hall (unionAll n.conf.ignoreYearMonth false [] rs)
    exact hno L hL e (hsel e he (union_selects hw hsame i hj e.1 hs)) hs

theorem Node.Up.extract {n : Node} (h : n.Up) (here : n.conf.forward = false) {cat : List (FdbKey × Uri)}
    (hcat : Catalogue n.conf.ignoreYearMonth cat) (hl : ListsOnly n.env cat)
    (hall : ListsAll n.conf.ignoreYearMonth n.env cat)
    (hplaces : ∀ a ∈ cat, ∀ b ∈ cat, a.2.path = b.2.path → a.2.offset = b.2.offset → a = b) (sched : List Nat)
    {rs : List ExRequest} {ws : List WrittenRequest} (hw : Written rs ws) (hne : rs ≠ [])
    (hdiff : ws.Pairwise fun a b =>
      ¬ (essential n.conf.ignoreYearMonth a.pairs).Perm (essential n.conf.ignoreYearMonth b.pairs))
    (hsame : ∀ a ∈ ws, ∀ b ∈ ws, ∀ k, k ∈ (essential n.conf.ignoreYearMonth a.pairs).map Prod.fst →
      k ∈ (essential n.conf.ignoreYearMonth b.pairs).map Prod.fst)
    (hfound : ∀ i (hi : i < rs.length) (hj : i < ws.length), ∃ e ∈ cat,
      SameField n.conf.ignoreYearMonth ws[i].pairs e.1 ∧ ∃ r, n.Gives e.2 rs[i].ranges rs[i].gridHash r) :
    ∃ out, localExtract n.env n.conf sched rs = .ok out ∧ out.length = rs.length ∧
      ∀ i (hi : i < rs.length) (hj : i < ws.length), ∃ e ∈ cat, SameField n.conf.ignoreYearMonth ws[i].pairs e.1 ∧
        ∃ r, out[i]? = some r ∧ n.Gives e.2 rs[i].ranges rs[i].gridHash r :=
  h.runs.extract here hcat hl hall hplaces sched hw hne hdiff hsame fun i hi hj => by
    obtain ⟨e, he, hs, hg⟩ := hfound i hi hj
    exact ⟨e, he, hs, fun _ => trivial, hg⟩

/-- C69.  A node with any history, on which anything goes on during the call, is asked for fields it has: the requests
are well formed, ask for different fields by the same keywords, and each names a field in the catalogue whose message can
be read, with its ranges in order, when the call starts.  Then the call returns, whatever the schedule of its tasks and
whatever else happens to the cache and the files meanwhile; there is one result per request, in order, and it is what
decoding the message gives.  Missing from the full property: file names the cache confuses (`ToldApart`), a node that
does not build metadata on demand (its index entries can be lost, see C16; otherwise see C87), delivery by the store in several reads (see
C46), fields that share a place. -/
theorem C69_request_succeeds_partial (n : Node) (up : n.Up) (here : n.conf.forward = false) (cat : List (FdbKey × Uri))
    (catalogue : Catalogue n.conf.ignoreYearMonth cat) (lists : ListsOnly n.env cat)
    (complete : ListsAll n.conf.ignoreYearMonth n.env cat)
    (places : ∀ a ∈ cat, ∀ b ∈ cat, a.2.path = b.2.path → a.2.offset = b.2.offset → a = b) (sched : List Nat)
    (rs : List ExRequest) (ws : List WrittenRequest) (written : Written rs ws) (nonempty : rs ≠ [])
    (different : ws.Pairwise fun a b =>
      ¬ (essential n.conf.ignoreYearMonth a.pairs).Perm (essential n.conf.ignoreYearMonth b.pairs))
    (sameKeywords : ∀ a ∈ ws, ∀ b ∈ ws, ∀ k, k ∈ (essential n.conf.ignoreYearMonth a.pairs).map Prod.fst →
      k ∈ (essential n.conf.ignoreYearMonth b.pairs).map Prod.fst)
    (found : ∀ i (hi : i < rs.length) (hj : i < ws.length), ∃ e ∈ cat,
      SameField n.conf.ignoreYearMonth ws[i].pairs e.1 ∧ ∃ r, n.Gives e.2 rs[i].ranges rs[i].gridHash r) :
    ∃ out, localExtract n.env n.conf sched rs = .ok out ∧ out.length = rs.length ∧
      ∀ i (hi : i < rs.length) (hj : i < ws.length), ∃ e ∈ cat, SameField n.conf.ignoreYearMonth ws[i].pairs e.1 ∧
        ∃ r, out[i]? = some r ∧ n.Gives e.2 rs[i].ranges rs[i].gridHash r :=
  up.extract here catalogue lists complete places sched written nonempty different sameKeywords found

/-- C69.  The same for a client of the node, over the protocol. -/
theorem C69_remote_request_succeeds_partial (n : Node) (up : n.Up) (here : n.conf.forward = false)
    (cat : List (FdbKey × Uri)) (catalogue : Catalogue n.conf.ignoreYearMonth cat) (lists : ListsOnly n.env cat)
    (complete : ListsAll n.conf.ignoreYearMonth n.env cat)
    (places : ∀ a ∈ cat, ∀ b ∈ cat, a.2.path = b.2.path → a.2.offset = b.2.offset → a = b) (sched : List Nat)
    (axes : String → Int → Res (AMap String (List String))) (scan : List String → Bool → Res (Nat × List String))
    (forwardScan : AMap String (List Nat) → Res (Nat × List String)) (ctx : String)
    (rs : List ExRequest) (ws : List WrittenRequest) (written : Written rs ws) (nonempty : rs ≠ [])
    (fit : ∀ q ∈ rs, q.Fits) (different : ws.Pairwise fun a b =>
      ¬ (essential n.conf.ignoreYearMonth a.pairs).Perm (essential n.conf.ignoreYearMonth b.pairs))
    (sameKeywords : ∀ a ∈ ws, ∀ b ∈ ws, ∀ k, k ∈ (essential n.conf.ignoreYearMonth a.pairs).map Prod.fst →
      k ∈ (essential n.conf.ignoreYearMonth b.pairs).map Prod.fst)
    (found : ∀ i (hi : i < rs.length) (hj : i < ws.length), ∃ e ∈ cat,
      SameField n.conf.ignoreYearMonth ws[i].pairs e.1 ∧ ∃ r, n.Gives e.2 rs[i].ranges rs[i].gridHash r) :
    ∃ out, remoteExtract (nodeEngine n.env n.conf sched axes scan forwardScan) ctx rs = .ok out ∧
      out.length = rs.length ∧
      ∀ i (hi : i < rs.length) (hj : i < ws.length), ∃ e ∈ cat, SameField n.conf.ignoreYearMonth ws[i].pairs e.1 ∧
        ∃ r, out[i]? = some r ∧ n.Gives e.2 rs[i].ranges rs[i].gridHash r := by
  obtain ⟨out, h1, h2⟩ := up.extract here catalogue lists complete places sched written nonempty different sameKeywords found
  refine ⟨out, ?_, h2⟩
  exact (client_iff_local (P := n.Right) (by rw [here]; exact up.produces) (fun u q r hq h => h.1 hq) catalogue lists sched axes scan
    forwardScan ctx rs ws written fit out).mpr h1

/-- C69.  The same for requests by path on this node: different places, one scheme per file. -/
theorem C69_path_request_succeeds_partial (n : Node) (up : n.Up) (sched : List Nat) (rs : List PathReq)
    (nonempty : rs ≠ []) (here : ∀ r ∈ rs, r.host = "" ∧ r.port = 0)
    (place : ∀ a ∈ rs, ∀ b ∈ rs, a.path = b.path → a.scheme = b.scheme) (different : (rs.map PathReq.text).Nodup)
    (found : ∀ r ∈ rs, ∃ x, n.Gives ⟨r.scheme, r.host, r.port, r.path, r.offset⟩ r.ranges r.gridHash x) :
    ∃ out, localExtractPaths n.env n.conf sched rs = .ok out ∧ out.length = rs.length ∧
      ∀ (i : Nat) r, rs[i]? = some r →
        ∃ x, out[i]? = some x ∧ n.Gives ⟨r.scheme, r.host, r.port, r.path, r.offset⟩ r.ranges r.gridHash x := by
  have hplace : ∀ a ∈ rs, ∀ b ∈ rs, a.path = b.path → a.scheme = b.scheme ∧ a.host = b.host ∧ a.port = b.port := by
    intro a ha b hb hp
    rw [(here a ha).1, (here a ha).2, (here b hb).1, (here b hb).2]
    exact ⟨place a ha b hb hp, rfl, rfl⟩
  have hfwd : ∀ r rest, rs = r :: rest → (!(decide (r.host = "") && decide (r.port = 0))) = false := by
    intro r rest hrs
    obtain ⟨h1, h2⟩ := here r (by rw [hrs]; exact List.mem_cons_self ..)
    rw [h1, h2]; rfl
  obtain ⟨out, ho⟩ := ready_paths sched up.produces up.ready nonempty hfwd hplace different found
  obtain ⟨hlen, -, hx⟩ := paths_deliver (P := n.Right)
    (fun r rest hrs => by rw [hfwd r rest hrs]; exact up.produces) hplace ho
  refine ⟨out, ho, hlen, fun i r hr => ?_⟩
  obtain ⟨x, hxi, hright⟩ := hx i r hr
  obtain ⟨y, hy⟩ := found r (List.mem_of_getElem? hr)
  exact ⟨x, hxi, by rw [hright.2 y hy]; exact hy⟩

/-! ## Several nodes -/

theorem numFiles_flat (fm : FileMap) (k : Nat) : (numFiles k fm).2.flatMap Prod.snd = (numFiles k fm).1.keys := by
  induction fm generalizing k with
  | nil => rfl
  | cons f fm ih =>
    rw [numFiles]
    simp only [List.flatMap_cons, AMap.keys, List.map_append]
    congr 1
    exact ih _

/-- A server completes a forwarded request for items its environment answers for. -/
theorem serverForward_ok {E : ExtEnv} {C : EngineConf} {P : Uri → ExRequest → WireResult → Prop}
    {info : String → Nat → Info} {W : Uri → ExRequest → Prop} (hP : Produces E C false P) (hE : Ready E C false info W)
    (sched : List Nat) {fm : FileMap} (hne : fm ≠ []) (hn : fm.keys.Nodup)
    (hpath : ∀ f ∈ fm, ∀ i ∈ f.2, i.uri.path = f.1) (hscheme : ∀ f ∈ fm, ∀ i ∈ f.2, i.uri.scheme = "file")
    (hall : ∀ f ∈ fm, f.2 ≠ [] ∧ (f.2.map fun i => i.uri.offset).Nodup ∧ ∀ i ∈ f.2, W i.uri i.request) :
    ∃ served, serverForward E C sched fm = .ok (served, []) := by
  -- every number stands for an item
  have hitem : ∀ e ∈ (numFiles 0 fm).2, ∃ f ∈ fm, f.1 = e.1 ∧ e.2.length = f.2.length ∧
      ∀ (l : Nat) k, e.2[l]? = some k → ∃ i, f.2[l]? = some i ∧ (numFiles 0 fm).1.find k = some i := by
    intro e he
    obtain ⟨j, hj⟩ := List.getElem?_of_mem he
    have hlt := (List.getElem?_eq_some_iff.mp hj).1
    rw [numFiles_length] at hlt
    obtain ⟨ks, hks, hlen, hk⟩ := numFiles_items (List.getElem?_eq_getElem hlt)
    rw [hj] at hks
    cases hks
    exact ⟨_, List.getElem_mem hlt, rfl, hlen, fun l k h => (hk l).2 k h⟩
  have hfind : ∀ e ∈ (numFiles 0 fm).2, ∀ k ∈ e.2, ∃ f ∈ fm, f.1 = e.1 ∧ ∃ i ∈ f.2, (numFiles 0 fm).1.find k = some i := by
    intro e he k hk
    obtain ⟨f, hf, h1, -, h2⟩ := hitem e he
    obtain ⟨l, hl⟩ := List.getElem?_of_mem hk
    obtain ⟨i, h3, h4⟩ := h2 l k hl
    exact ⟨f, hf, h1, i, List.mem_of_getElem? h3, h4⟩
  have g : Groups (numFiles 0 fm).1 (numFiles 0 fm).2 (numFiles 0 fm).1.keys := by
    refine ⟨by rw [numFiles_keys]; exact hn, by rw [numFiles_flat], ?_, ?_⟩
    · intro e he h0
      obtain ⟨f, hf, -, hlen, -⟩ := hitem e he
      rw [h0] at hlen
      exact (hall f hf).1 (List.eq_nil_of_length_eq_zero hlen.symm)
    · intro e he k hk
      obtain ⟨f, hf, h1, i, hi, h2⟩ := hfind e he k hk
      exact ⟨i, h2, by rw [← h1]; exact hpath f hf i hi⟩
  have hkey : ∀ k ∈ (numFiles 0 fm).1.keys, ∃ e ∈ (numFiles 0 fm).2, k ∈ e.2 := by
    intro k hk
    rw [← numFiles_flat] at hk
    exact List.mem_flatMap.mp hk
  obtain ⟨m', hm'⟩ := readySchedule_ok (sched := sched) hP hE g (by
      intro e he k hk k' hk' it it' hit hit'
      obtain ⟨f, hf, -, i, hi, h1⟩ := hfind e he k hk
      obtain ⟨f', hf', -, i', hi', h1'⟩ := hfind e he k' hk'
      rw [hit] at h1; rw [hit'] at h1'
      cases h1; cases h1'
      rw [hscheme f hf it hi, hscheme f' hf' it' hi']) (fun h => by cases h) (by
      intro h0
      cases hfm : fm with
      | nil => exact hne hfm
      | cons f fm' =>
        have he : ∃ e, e ∈ (numFiles 0 fm).2 := by
          cases hx : (numFiles 0 fm).2 with
          | nil => have := numFiles_length fm 0; rw [hx, hfm] at this; cases this
          | cons e es => exact ⟨e, List.mem_cons_self ..⟩
        obtain ⟨e, he⟩ := he
        obtain ⟨k, hk⟩ := List.exists_mem_of_ne_nil _ (g.nonempty e he)
        have := g.mem_done he hk
        rw [h0] at this
        cases this) (numFiles_nodup fm 0) (by
      intro k hk it hit
      obtain ⟨e, he, hke⟩ := hkey k hk
      obtain ⟨f, hf, -, i, hi, h1⟩ := hfind e he k hke
      rw [hit] at h1
      cases h1
      exact (hall f hf).2.2 it hi) (by
      intro k hk k' hk' it it' hit hit' hpa hof
      obtain ⟨e, he, hke⟩ := hkey k hk
      obtain ⟨e', he', hke'⟩ := hkey k' hk'
      -- the same file
      have hpe := g.path e he k hke
      have hpe' := g.path e' he' k' hke'
      rw [hit] at hpe
      rw [hit'] at hpe'
      obtain ⟨_, e1, e2⟩ := hpe
      obtain ⟨_, e3, e4⟩ := hpe'
      cases e1
      cases e3
      have hfile : e.1 = e'.1 := by rw [← e2, ← e4, hpa]
      have hee : e = e' := by
        obtain ⟨f1, k1⟩ := e
        obtain ⟨f2, k2⟩ := e'
        simp only at hfile
        subst hfile
        have a1 := (AMap.mem_iff_find _ g.files _ _).mp he
        have a2 := (AMap.mem_iff_find _ g.files _ _).mp he'
        rw [a1] at a2
        cases a2
        rfl
      subst hee
      obtain ⟨f, hf, -, -, h2⟩ := hitem e he
      obtain ⟨l, hl⟩ := List.getElem?_of_mem hke
      obtain ⟨l', hl'⟩ := List.getElem?_of_mem hke'
      obtain ⟨i, hi, h3⟩ := h2 l k hl
      obtain ⟨i', hi', h3'⟩ := h2 l' k' hl'
      rw [hit] at h3
      rw [hit'] at h3'
      cases h3
      cases h3'
      have hll : l = l' := by
        obtain ⟨b1, c1⟩ := List.getElem?_eq_some_iff.mp hi
        obtain ⟨b2, c2⟩ := List.getElem?_eq_some_iff.mp hi'
        have hnd := (hall f hf).2.1
        have := (List.getElem_inj (i := l) (j := l') (h₀ := by simpa using b1) (h₁ := by simpa using b2) hnd).mp (by
          simp only [List.getElem_map, c1, c2]; exact hof)
        exact this
      subst hll
      rw [hl] at hl'
      exact Option.some.inj hl')
  refine ⟨(numFiles 0 fm).2.map fun f => (f.1, itemsOf m' (sortKeys m' f.2)), ?_⟩
  rw [serverForward]
  simp only
  rw [hm', ok_bind]

/-- What is sent to a server goes over the protocol to a node that has what the server has, and that handles it by its own
engine, with any schedule.  Each request may meet another node (the same server at another time). -/
def RelaysVia (E : ExtEnv) (C : EngineConf) (peer : String × Int → Node) : Prop :=
  ∀ t server fm, Addressed C server fm → ∃ n : Node, ((∃ f ∈ fm, f.2 ≠ []) → n.Up) ∧
    (∀ u is hash r, (peer server).Gives u is hash r → n.Gives u is hash r) ∧
    ∃ ctx sched axes scan forwardScan, E.forward t server fm =
      remoteForwardExtract (nodeEngine n.env n.conf sched axes scan forwardScan) ctx fm

/-- The same with servers whose metadata are only known to be there for the messages of which `K` holds. -/
def RelaysOn (K : String × Int → String → Nat → Prop) (E : ExtEnv) (C : EngineConf) (peer : String × Int → Node) : Prop :=
  ∀ t server fm, Addressed C server fm → ∃ n : Node, ((∃ f ∈ fm, f.2 ≠ []) → n.Runs (K server)) ∧
    (∀ u is hash r, (peer server).Gives u is hash r → n.Gives u is hash r) ∧
    ∃ ctx sched axes scan forwardScan, E.forward t server fm =
      remoteForwardExtract (nodeEngine n.env n.conf sched axes scan forwardScan) ctx fm

/-- The server responsible for a field has its metadata. -/
def AtServer (K : String × Int → String → Nat → Prop) (C : EngineConf) (u : Uri) : Prop :=
  ∀ server, C.servers.find (u.host, u.port) = some server → K server u.path u.offset

theorem RelaysVia.on {E : ExtEnv} {C : EngineConf} {peer : String × Int → Node} (h : RelaysVia E C peer) :
    RelaysOn (fun _ _ _ => True) E C peer := by
  intro t server fm ha
  obtain ⟨n, h1, h2, h3⟩ := h t server fm ha
  exact ⟨n, fun hne => (h1 hne).runs, h2, h3⟩

/-- Requests for a server go to that server over the protocol; it handles them by its own engine, with any schedule. -/
def Relays (E : ExtEnv) (peer : String × Int → Node) : Prop :=
  ∀ t server fm, ∃ ctx sched axes scan forwardScan, E.forward t server fm =
    remoteForwardExtract (nodeEngine (peer server).env (peer server).conf sched axes scan forwardScan) ctx fm

/-- A server is known for the endpoint of the field, and gives these values for it.  (Servers take every field from a
file.) -/
def Answering (C : EngineConf) (peer : String × Int → Node) (u : Uri) (is : List Interval) (hash : String)
    (r : WireResult) : Prop :=
  ∃ server, C.servers.find (u.host, u.port) = some server ∧ (peer server).Gives { u with scheme := "file" } is hash r

/-- What comes back from the servers. -/
def Relayed (C : EngineConf) (peer : String × Int → Node) (u : Uri) (q : ExRequest) (r : WireResult) : Prop :=
  WireResult.Fits r ∧ (q.Fits → ∀ r', Answering C peer u q.ranges q.gridHash r' → r = r')

/-- What a server makes of the items sent to it. -/
theorem served_right {p : Node} {K : String → Nat → Prop} (hp : p.Runs K) {C : EngineConf} {server : String × Int} {fm : FileMap}
    (ha : Addressed C server fm) (sched : List Nat) (served : FileMap)
    (hser : serverForward p.env p.conf sched ((wrapFiles fm).map fun f => (f.1, f.2.map received)) = .ok (served, [])) :
    sameShape ((wrapFiles fm).map fun f => (f.1, f.2.map received)) served ∧
      ∀ (l : Nat) f g, ((wrapFiles fm).map fun f => (f.1, f.2.map received))[l]? = some f → served[l]? = some g →
        ∀ (j : Nat) i i', f.2[j]? = some i → g.2[j]? = some i' → ∃ r, i'.result = some r ∧ p.Right i.uri i.request r := by
  have hmem : ∀ g ∈ (wrapFiles fm).map (fun f => (f.1, f.2.map received)), ∀ i ∈ g.2,
      ∃ f0 ∈ fm, ∃ i0 ∈ f0.2, g.1 = f0.1 ∧ i = received i0.wrap := by
    intro g hg i hi
    obtain ⟨g1, hg1, rfl⟩ := List.mem_map.mp hg
    obtain ⟨f0, hf0, rfl⟩ := List.mem_map.mp hg1
    obtain ⟨i1, hi1, rfl⟩ := List.mem_map.mp hi
    obtain ⟨i0, hi0, rfl⟩ := List.mem_map.mp hi1
    exact ⟨f0, hf0, i0, hi0, rfl, rfl⟩
  exact serverForward_spec hp.produces (by
      simp only [wrapFiles, AMap.keys, List.map_map, Function.comp_def]
      exact ha.files) (by
      intro g hg i hi
      obtain ⟨f0, hf0, i0, hi0, e1, rfl⟩ := hmem g hg i hi
      rw [e1]
      exact (ha.place f0 hf0 i0 hi0).1) (by
      intro g hg i hi
      obtain ⟨f0, hf0, i0, hi0, e1, rfl⟩ := hmem g hg i hi
      rfl) (by
      intro g hg
      obtain ⟨g1, hg1, rfl⟩ := List.mem_map.mp hg
      obtain ⟨f0, hf0, rfl⟩ := List.mem_map.mp hg1
      simp only [List.pairwise_map]
      exact ha.sorted f0 hf0) hser

theorem Relays.via {E : ExtEnv} {C : EngineConf} {peer : String × Int → Node} (h : Relays E peer)
    (up : ∀ e ∈ C.servers, (peer e.2).Up) : RelaysVia E C peer := by
  intro t server fm ha
  refine ⟨peer server, fun hne => ?_, fun _ _ _ _ h => h, h t server fm⟩
  obtain ⟨f0, hf0, hi⟩ := hne
  obtain ⟨i0, hi0⟩ := List.exists_mem_of_ne_nil _ hi
  exact up _ (find_some_mem (ha.place f0 hf0 i0 hi0).2)

theorem relays_produces {K : String × Int → String → Nat → Prop} {E : ExtEnv} {C : EngineConf} {peer : String × Int → Node}
    (hE : RelaysOn K E C peer) :
    Produces E C true (Relayed C peer) := by
  refine ⟨fun hc => (by cases hc), fun hc => (by cases hc), ?_⟩
  intro _ t server fm back ha hf f items hm
  obtain ⟨n, hup, hgives, ctx, sched, axes, scan, fscan, hr⟩ := hE t server fm ha
  rw [hr] at hf
  by_cases hex : ∃ f0 ∈ fm, f0.2 ≠ []
  · have up := hup hex
    obtain ⟨items', h1, h2, h3⟩ := forwarded_spec (P := n.Right) ha
      (fun served hser => served_right up ha sched served hser) (fun u q r hq h => h.1 hq) hf f items hm
    refine ⟨items', h1, h2, ?_⟩
    intro j i i' r hi hi' hres
    obtain ⟨h4, h5⟩ := h3 j i i' r hi hi' hres
    refine ⟨h4 (wrap_fits i), ?_⟩
    rintro hq r' ⟨server', hs', hg⟩
    rw [(ha.place (f, items) hm i (List.mem_of_getElem? hi)).2] at hs'
    cases hs'
    refine h5 r' ?_
    show n.Gives { i.uri with scheme := "file" } (i.request.ranges.map Interval.wrap) i.request.gridHash r'
    rw [ranges_wrap hq]
    exact hgives _ _ _ _ hg
  · exact absurd hf (forward_nothing ha.files (by
      intro f0 hf0
      exact Classical.byContradiction fun hl => hex ⟨f0, hf0, hl⟩))

theorem zipWith_mem {α β γ : Type} {f : α → β → γ} {c : γ} : ∀ {as : List α} {bs : List β}, c ∈ List.zipWith f as bs →
    ∃ a ∈ as, ∃ b ∈ bs, c = f a b := by
  intro as
  induction as with
  | nil => intro bs h; simp at h
  | cons a as ih =>
    intro bs h
    cases bs with
    | nil => simp at h
    | cons b bs =>
      rw [List.zipWith_cons_cons] at h
      rcases List.mem_cons.mp h with rfl | h
      · exact ⟨a, List.mem_cons_self .., b, List.mem_cons_self .., rfl⟩
      · obtain ⟨x, hx, y, hy, e⟩ := ih h
        exact ⟨x, List.mem_cons_of_mem _ hx, y, List.mem_cons_of_mem _ hy, e⟩

/-- The environment of a node that forwards answers for the fields the servers have. -/
theorem relays_ready {K : String × Int → String → Nat → Prop} {E : ExtEnv} {C : EngineConf} {peer : String × Int → Node}
    (hE : RelaysOn K E C peer) (info : String → Nat → Info) :
    Ready E C true info (fun u q => q.Fits ∧ AtServer K C u ∧ ∃ r, Answering C peer u q.ranges q.gridHash r) where
  metadata hc := by cases hc
  infos hc := by cases hc
  grid hc := by cases hc
  jump hc := by cases hc
  fetch hc := by cases hc
  servers _ u q hw := by
    obtain ⟨-, -, r, server, h, -⟩ := hw
    exact ⟨server, h⟩
  forward _ t server fm ha hne hall := by
    obtain ⟨n, hup, hgives, ctx, sched, axes, scan, fscan, hr⟩ := hE t server fm ha
    obtain ⟨f0, hf0⟩ := List.exists_mem_of_ne_nil _ hne
    have up : n.Runs (K server) := hup ⟨f0, hf0, (hall f0 hf0).1⟩
    have hfits : ∀ f ∈ fm, ∀ i ∈ f.2, i.request.Fits := fun f hf i hi => ((hall f hf).2.2 i hi).1
    have hwrap : wrapFiles fm = fm := by
      have : ∀ f ∈ fm, (fun f : String × List Item => (f.1, f.2.map Item.wrap)) f = id f := by
        intro f hf
        obtain ⟨n, is⟩ := f
        simp only [id, Prod.mk.injEq, true_and]
        have : ∀ i ∈ is, Item.wrap i = id i := by
          intro i hi
          unfold Item.wrap
          rw [ranges_wrap (hfits _ hf i hi)]
          rfl
        rw [List.map_congr_left this, List.map_id]
      rw [wrapFiles, List.map_congr_left this, List.map_id]
    have hmem : ∀ g ∈ fm.map (fun f => (f.1, f.2.map received)), ∃ f0 ∈ fm, g = (f0.1, f0.2.map received) := by
      intro g hg
      obtain ⟨f, hf, rfl⟩ := List.mem_map.mp hg
      exact ⟨f, hf, rfl⟩
    obtain ⟨served, hser⟩ := serverForward_ok (fm := fm.map fun f => (f.1, f.2.map received)) up.produces up.ready sched
      (by simpa using hne) (by
        simp only [AMap.keys, List.map_map, Function.comp_def]
        exact ha.files) (by
        intro g hg i hi
        obtain ⟨f, hf, rfl⟩ := hmem g hg
        obtain ⟨i0, hi0, rfl⟩ := List.mem_map.mp hi
        exact (ha.place f hf i0 hi0).1) (by
        intro g hg i hi
        obtain ⟨f, hf, rfl⟩ := hmem g hg
        obtain ⟨i0, hi0, rfl⟩ := List.mem_map.mp hi
        rfl) (by
        intro g hg
        obtain ⟨f, hf, rfl⟩ := hmem g hg
        obtain ⟨h1, h2, h3⟩ := hall f hf
        refine ⟨by simpa using h1, by simpa only [List.map_map, Function.comp_def, received] using h2, ?_⟩
        intro i hi
        obtain ⟨i0, hi0, rfl⟩ := List.mem_map.mp hi
        obtain ⟨-, hat, r, server', hs', hg⟩ := h3 i0 hi0
        rw [(ha.place f hf i0 hi0).2] at hs'
        cases hs'
        exact ⟨⟨r, hgives _ _ _ _ hg⟩, fun _ => hat _ (ha.place f hf i0 hi0).2⟩)
    have hsr := served_right up ha sched served (by rw [hwrap]; exact hser)
    rw [hwrap] at hsr
    obtain ⟨hshape, hres⟩ := hsr
    have hshape' : sameShape fm served := by
      rw [sameShape] at hshape ⊢
      rw [← hshape, List.map_map]
      apply List.map_congr_left
      intro f _
      simp
    have hserved : Served served := by
      intro g hg i' hi'
      obtain ⟨l, hl⟩ := List.getElem?_of_mem hg
      obtain ⟨j, hj⟩ := List.getElem?_of_mem hi'
      have := congrArg (fun x => x[l]?) hshape'
      simp only [List.getElem?_map, hl, Option.map_some] at this
      cases hf : fm[l]? with
      | none => rw [hf] at this; cases this
      | some f =>
        rw [hf] at this
        simp only [Option.map_some, Option.some.injEq, Prod.mk.injEq] at this
        have hjlt := (List.getElem?_eq_some_iff.mp hj).1
        have hjf : j < f.2.length := by omega
        obtain ⟨r, h1, h2⟩ := hres l (f.1, f.2.map received) g (by rw [List.getElem?_map, hf]; rfl) hl j
          (received f.2[j]) i' (by simp [hjf]) hj
        exact ⟨r, h1, h2.1 (hfits f (List.mem_of_getElem? hf) f.2[j] (List.getElem_mem hjf) : f.2[j].request.Fits)⟩
    have hsent : (encForwardExtract fm).2 = fm := by rw [encForwardExtract_sorted ha.sorted]
    have hback := C41_forward_extract
      (nodeEngine n.env n.conf sched axes scan fscan) ctx fm fm served hsent.symm ha.files hfits
      ⟨f0, hf0, (hall f0 hf0).1⟩ [] hser hshape' hserved
    rw [if_pos rfl] at hback
    refine ⟨withResults fm served, by rw [hr]; exact hback, ?_⟩
    intro f items hm
    obtain ⟨items', h1, h2, -⟩ := forwarded_spec (P := n.Right) ha
      (fun served hser => served_right up ha sched served hser) (fun u q r hq h => h.1 hq) hback f items hm
    refine ⟨items', h1, by omega, ?_⟩
    intro i hi
    obtain ⟨a, -, b, hb, e⟩ := zipWith_mem (find_some_mem h1)
    cases e
    obtain ⟨x, -, y, hy, rfl⟩ := zipWith_mem hi
    obtain ⟨r, hr, -⟩ := hserved b hb y hy
    simp only [hr]
    intro hc
    cases hc

theorem relayed_extract_on (K : String × Int → String → Nat → Prop) (E : ExtEnv) (C : EngineConf) (forwards : C.forward = true)
    (peer : String × Int → Node) (wire : RelaysOn K E C peer)
    (cat : List (FdbKey × Uri)) (catalogue : Catalogue C.ignoreYearMonth cat) (lists : ListsOnly E cat)
    (complete : ListsAll C.ignoreYearMonth E cat)
    (places : ∀ a ∈ cat, ∀ b ∈ cat, a.2.path = b.2.path → a.2.offset = b.2.offset → a = b) (sched : List Nat)
    (rs : List ExRequest) (ws : List WrittenRequest) (written : Written rs ws) (nonempty : rs ≠ [])
    (fit : ∀ q ∈ rs, q.Fits) (different : ws.Pairwise fun a b =>
      ¬ (essential C.ignoreYearMonth a.pairs).Perm (essential C.ignoreYearMonth b.pairs))
    (sameKeywords : ∀ a ∈ ws, ∀ b ∈ ws, ∀ k, k ∈ (essential C.ignoreYearMonth a.pairs).map Prod.fst →
      k ∈ (essential C.ignoreYearMonth b.pairs).map Prod.fst)
    (found : ∀ i (hi : i < rs.length) (hj : i < ws.length), ∃ e ∈ cat,
      SameField C.ignoreYearMonth ws[i].pairs e.1 ∧ AtServer K C e.2 ∧
        ∃ r, Answering C peer e.2 rs[i].ranges rs[i].gridHash r) :
    ∃ out, localExtract E C sched rs = .ok out ∧ out.length = rs.length ∧
      (∀ i (hi : i < rs.length) (hj : i < ws.length), ∃ e ∈ cat, SameField C.ignoreYearMonth ws[i].pairs e.1 ∧
        ∃ r, out[i]? = some r ∧ Answering C peer e.2 rs[i].ranges rs[i].gridHash r) ∧
      ∀ axes scan forwardScan ctx, remoteExtract (nodeEngine E C sched axes scan forwardScan) ctx rs = .ok out := by
  have hP : Produces E C C.forward (Relayed C peer) := by rw [forwards]; exact relays_produces wire
  have hR := relays_ready wire (fun _ _ => .unsupported ⟨0, 0, 0, 0, 0, 0, 0, 0, 0, 0, 0, 0, 0, "", ""⟩)
  obtain ⟨out, ho⟩ := ready_extract hP (by rw [forwards]; exact hR) catalogue lists complete places sched written
    nonempty different sameKeywords (by
      intro i hi hj
      obtain ⟨e, he, hs, hat, r, hg⟩ := found i hi hj
      refine ⟨e, he, hs, fun q h1 h2 => ⟨?_, hat, r, by rw [h1, h2]; exact hg⟩⟩
      intro x hx
      rw [h1] at hx
      exact fit _ (List.getElem_mem hi) x hx)
  obtain ⟨hlen, hx⟩ := extract_delivers hP catalogue lists written ho
  refine ⟨out, ho, hlen, fun i hi hj => ?_, fun axes scan forwardScan ctx => ?_⟩
  · obtain ⟨e, he, hs, hat, r, hg⟩ := found i hi hj
    refine ⟨e, he, hs, r, ?_, hg⟩
    rcases hx i hi hj with ⟨e', he', hs', x, q, hxi, hq, hgh, hr⟩ | ⟨-, -, hno⟩
    · have hee := catalogue.distinct e' he' e he (hs'.symm.trans hs)
      subst hee
      rw [hxi, hr.2 (by intro y hy; rw [hq] at hy; exact fit _ (List.getElem_mem hi) y hy) r (by rw [hq, hgh]; exact hg)]
    · exfalso
      obtain ⟨L, hL, hsel⟩ := complete (unionAll C.ignoreYearMonth false [] rs)
      exact hno L hL e (hsel e he (union_selects written sameKeywords i hj e.1 hs)) hs
  · exact (client_iff_local hP (fun u q r _ h => h.1) catalogue lists sched axes scan forwardScan ctx rs ws written fit
      out).mpr ho

theorem relayed_extract (E : ExtEnv) (C : EngineConf) (forwards : C.forward = true)
    (peer : String × Int → Node) (wire : RelaysVia E C peer)
    (cat : List (FdbKey × Uri)) (catalogue : Catalogue C.ignoreYearMonth cat) (lists : ListsOnly E cat)
    (complete : ListsAll C.ignoreYearMonth E cat)
    (places : ∀ a ∈ cat, ∀ b ∈ cat, a.2.path = b.2.path → a.2.offset = b.2.offset → a = b) (sched : List Nat)
    (rs : List ExRequest) (ws : List WrittenRequest) (written : Written rs ws) (nonempty : rs ≠ [])
    (fit : ∀ q ∈ rs, q.Fits) (different : ws.Pairwise fun a b =>
      ¬ (essential C.ignoreYearMonth a.pairs).Perm (essential C.ignoreYearMonth b.pairs))
    (sameKeywords : ∀ a ∈ ws, ∀ b ∈ ws, ∀ k, k ∈ (essential C.ignoreYearMonth a.pairs).map Prod.fst →
      k ∈ (essential C.ignoreYearMonth b.pairs).map Prod.fst)
    (found : ∀ i (hi : i < rs.length) (hj : i < ws.length), ∃ e ∈ cat,
      SameField C.ignoreYearMonth ws[i].pairs e.1 ∧ ∃ r, Answering C peer e.2 rs[i].ranges rs[i].gridHash r) :
    ∃ out, localExtract E C sched rs = .ok out ∧ out.length = rs.length ∧
      (∀ i (hi : i < rs.length) (hj : i < ws.length), ∃ e ∈ cat, SameField C.ignoreYearMonth ws[i].pairs e.1 ∧
        ∃ r, out[i]? = some r ∧ Answering C peer e.2 rs[i].ranges rs[i].gridHash r) ∧
      ∀ axes scan forwardScan ctx, remoteExtract (nodeEngine E C sched axes scan forwardScan) ctx rs = .ok out :=
  relayed_extract_on _ E C forwards peer wire.on cat catalogue lists complete places sched rs ws written nonempty fit different
    sameKeywords fun i hi hj => by
      obtain ⟨e, he, hs, r, hg⟩ := found i hi hj
      exact ⟨e, he, hs, fun _ _ => trivial, r, hg⟩

theorem relayed_paths_on (K : String × Int → String → Nat → Prop) (E : ExtEnv) (C : EngineConf) (peer : String × Int → Node)
    (wire : RelaysOn K E C peer) (sched : List Nat) (rs : List PathReq)
    (nonempty : rs ≠ []) (remote : ∀ q ∈ rs, q.host ≠ "" ∨ q.port ≠ 0)
    (fit : ∀ q ∈ rs, ∀ i ∈ q.ranges, i.b < 2 ^ 64 ∧ i.e < 2 ^ 64)
    (place : ∀ a ∈ rs, ∀ b ∈ rs, a.path = b.path → a.scheme = b.scheme ∧ a.host = b.host ∧ a.port = b.port)
    (different : (rs.map PathReq.text).Nodup)
    (found : ∀ r ∈ rs, AtServer K C ⟨r.scheme, r.host, r.port, r.path, r.offset⟩ ∧ ∃ x, Answering C peer ⟨r.scheme, r.host, r.port, r.path, r.offset⟩ r.ranges r.gridHash x) :
    ∃ out, localExtractPaths E C sched rs = .ok out ∧ out.length = rs.length ∧
      ∀ (i : Nat) r, rs[i]? = some r → ∃ x, out[i]? = some x ∧
        Answering C peer ⟨r.scheme, r.host, r.port, r.path, r.offset⟩ r.ranges r.gridHash x := by
  have hfwd : ∀ r rest, rs = r :: rest → (!(decide (r.host = "") && decide (r.port = 0))) = true := by
    intro r rest hrs
    rcases remote r (by rw [hrs]; exact List.mem_cons_self ..) with h | h <;> simp [h]
  have hR := relays_ready wire (fun _ _ => .unsupported ⟨0, 0, 0, 0, 0, 0, 0, 0, 0, 0, 0, 0, 0, "", ""⟩)
  obtain ⟨out, ho⟩ := ready_paths sched (relays_produces wire) hR nonempty hfwd place different
    (fun r hr => ⟨fit r hr, found r hr⟩)
  obtain ⟨hlen, -, hx⟩ := paths_deliver (P := Relayed C peer)
    (fun r rest hrs => by rw [hfwd r rest hrs]; exact relays_produces wire) place ho
  refine ⟨out, ho, hlen, fun i r hr => ?_⟩
  obtain ⟨x, hxi, -, hright⟩ := hx i r hr
  have hrm := List.mem_of_getElem? hr
  obtain ⟨-, y, hy⟩ := found r hrm
  exact ⟨x, hxi, by rw [hright (fit r hrm) y hy]; exact hy⟩

theorem relayed_paths (E : ExtEnv) (C : EngineConf) (peer : String × Int → Node)
    (wire : RelaysVia E C peer) (sched : List Nat) (rs : List PathReq)
    (nonempty : rs ≠ []) (remote : ∀ q ∈ rs, q.host ≠ "" ∨ q.port ≠ 0)
    (fit : ∀ q ∈ rs, ∀ i ∈ q.ranges, i.b < 2 ^ 64 ∧ i.e < 2 ^ 64)
    (place : ∀ a ∈ rs, ∀ b ∈ rs, a.path = b.path → a.scheme = b.scheme ∧ a.host = b.host ∧ a.port = b.port)
    (different : (rs.map PathReq.text).Nodup)
    (found : ∀ r ∈ rs, ∃ x, Answering C peer ⟨r.scheme, r.host, r.port, r.path, r.offset⟩ r.ranges r.gridHash x) :
    ∃ out, localExtractPaths E C sched rs = .ok out ∧ out.length = rs.length ∧
      ∀ (i : Nat) r, rs[i]? = some r → ∃ x, out[i]? = some x ∧
        Answering C peer ⟨r.scheme, r.host, r.port, r.path, r.offset⟩ r.ranges r.gridHash x :=
  relayed_paths_on _ E C peer wire.on sched rs nonempty remote fit place different fun r hr => ⟨fun _ _ => trivial, found r hr⟩

/-- C69.  A node forwards to servers, each with its own files, cache and history, on all of which anything goes on during
the call.  If the server responsible for each field asked for is known and has the field, the call returns, whatever the
schedules on the node and on the servers, with one result per request, in order, as the server's message has it.  Missing:
as in `C69_request_succeeds_partial`, for each server. -/
theorem C69_forwarded_request_succeeds_partial (E : ExtEnv) (C : EngineConf) (forwards : C.forward = true)
    (peer : String × Int → Node) (wire : Relays E peer) (up : ∀ e ∈ C.servers, (peer e.2).Up)
    (cat : List (FdbKey × Uri)) (catalogue : Catalogue C.ignoreYearMonth cat) (lists : ListsOnly E cat)
    (complete : ListsAll C.ignoreYearMonth E cat)
    (places : ∀ a ∈ cat, ∀ b ∈ cat, a.2.path = b.2.path → a.2.offset = b.2.offset → a = b) (sched : List Nat)
    (rs : List ExRequest) (ws : List WrittenRequest) (written : Written rs ws) (nonempty : rs ≠ [])
    (fit : ∀ q ∈ rs, q.Fits) (different : ws.Pairwise fun a b =>
      ¬ (essential C.ignoreYearMonth a.pairs).Perm (essential C.ignoreYearMonth b.pairs))
    (sameKeywords : ∀ a ∈ ws, ∀ b ∈ ws, ∀ k, k ∈ (essential C.ignoreYearMonth a.pairs).map Prod.fst →
      k ∈ (essential C.ignoreYearMonth b.pairs).map Prod.fst)
    (found : ∀ i (hi : i < rs.length) (hj : i < ws.length), ∃ e ∈ cat,
      SameField C.ignoreYearMonth ws[i].pairs e.1 ∧ ∃ r, Answering C peer e.2 rs[i].ranges rs[i].gridHash r) :
    ∃ out, localExtract E C sched rs = .ok out ∧ out.length = rs.length ∧
      (∀ i (hi : i < rs.length) (hj : i < ws.length), ∃ e ∈ cat, SameField C.ignoreYearMonth ws[i].pairs e.1 ∧
        ∃ r, out[i]? = some r ∧ Answering C peer e.2 rs[i].ranges rs[i].gridHash r) ∧
      ∀ axes scan forwardScan ctx, remoteExtract (nodeEngine E C sched axes scan forwardScan) ctx rs = .ok out :=
  relayed_extract E C forwards peer (wire.via up) cat catalogue lists complete places sched rs ws written nonempty fit different
    sameKeywords found

/-- C69.  The same for requests by path with host and port. -/
theorem C69_forwarded_path_request_succeeds_partial (E : ExtEnv) (C : EngineConf) (peer : String × Int → Node)
    (wire : Relays E peer) (up : ∀ e ∈ C.servers, (peer e.2).Up) (sched : List Nat) (rs : List PathReq)
    (nonempty : rs ≠ []) (remote : ∀ q ∈ rs, q.host ≠ "" ∨ q.port ≠ 0)
    (fit : ∀ q ∈ rs, ∀ i ∈ q.ranges, i.b < 2 ^ 64 ∧ i.e < 2 ^ 64)
    (place : ∀ a ∈ rs, ∀ b ∈ rs, a.path = b.path → a.scheme = b.scheme ∧ a.host = b.host ∧ a.port = b.port)
    (different : (rs.map PathReq.text).Nodup)
    (found : ∀ r ∈ rs, ∃ x, Answering C peer ⟨r.scheme, r.host, r.port, r.path, r.offset⟩ r.ranges r.gridHash x) :
    ∃ out, localExtractPaths E C sched rs = .ok out ∧ out.length = rs.length ∧
      ∀ (i : Nat) r, rs[i]? = some r → ∃ x, out[i]? = some x ∧
        Answering C peer ⟨r.scheme, r.host, r.port, r.path, r.offset⟩ r.ranges r.gridHash x :=
  relayed_paths E C peer (wire.via up) sched rs nonempty remote fit place different found

/-! ## A case -/

/-- The answer to a lookup made at once, with nothing going on meanwhile. -/
def answerNow (R : Reader UInt64) (offs : List UInt8 → Res (List Nat)) (s : Svc UInt64) (f : String) (os : List Nat) :
    Res (List Info) :=
  match s.run R offs [.cache (.lookup f os), .cache (.answer s.sys.lookups.length)] with
  | .ok s' => match s'.sys.answers.getLast? with
    | some a => a.result
    | none => undef
  | .error e => .error e

theorem Sys.finish_answers {s s' : Sys} {k : Nat} {l : Lookup} (h : s.finish k l = .ok s') :
    ∃ r, s'.answers = s.answers ++ [⟨l.path, l.offsets, r⟩] := by
  rw [Sys.finish] at h
  split at h
  · obtain ⟨c, -, h⟩ := res_bind_inv h
    cases h
    exact ⟨_, rfl⟩
  · cases h
  · cases h
    exact ⟨_, rfl⟩

theorem answerNow_run {R : Reader UInt64} (sound : SoundReader R) {offs : List UInt8 → Res (List Nat)}
    (hoffs : ∀ file, offs file ≠ undef) {U : String → Prop} {s : Svc UInt64} (g : SvcGood R offs U s) (f : String)
    (hf : U f) (os : List Nat) :
    (∀ e ∈ [SEv.cache (.lookup f os), .cache (.answer s.sys.lookups.length)], SEv.Allowed U e) ∧
    ∃ s', s.run R offs [SEv.cache (.lookup f os), .cache (.answer s.sys.lookups.length)] = .ok s' ∧ s'.disk = s.disk ∧
      (⟨f, os, answerNow R offs s f os⟩ : Answer) ∈ s'.sys.answers.drop s.sys.answers.length := by
  have hal : ∀ e ∈ [SEv.cache (.lookup f os), .cache (.answer s.sys.lookups.length)], SEv.Allowed U e := by
    intro e he
    simp only [List.mem_cons, List.mem_nil_iff, or_false] at he
    rcases he with rfl | rfl
    · exact hf
    · trivial
  obtain ⟨s', hrun, -⟩ := g.run sound hoffs _ hal
  have hkeep := hrun
  rw [Svc.run] at hrun
  obtain ⟨s1, h1, hrun⟩ := res_bind_inv hrun
  rw [Svc.step] at h1
  obtain ⟨y, hy, h1⟩ := res_bind_inv h1
  cases h1
  rw [Sys.step] at hy
  obtain ⟨⟨found, c⟩, -, hy⟩ := res_bind_inv hy
  cases hy
  rw [Svc.run] at hrun
  obtain ⟨s2, h2, hrun⟩ := res_bind_inv hrun
  cases hrun
  rw [Svc.step] at h2
  obtain ⟨z, hz, h2⟩ := res_bind_inv h2
  cases h2
  rw [Sys.step] at hz
  simp only [List.getElem?_concat_length] at hz
  obtain ⟨r, hr⟩ := Sys.finish_answers hz
  simp only at hr
  have hnow : answerNow R offs s f os = r := by
    unfold answerNow
    rw [hkeep]
    simp only [hr, List.getLast?_concat]
  refine ⟨hal, _, hkeep, rfl, ?_⟩
  simp only [hr, List.drop_left, hnow]
  exact List.mem_singleton.mpr rfl

theorem answerNow_spec {R : Reader UInt64} (sound : SoundReader R) {offs : List UInt8 → Res (List Nat)}
    (hoffs : ∀ file, offs file ≠ undef) {U : String → Prop} {s : Svc UInt64} (g : SvcGood R offs U s) (f : String)
    (hf : U f) (os : List Nat) :
    ∃ es s', (∀ e ∈ es, SEv.Allowed U e) ∧ s.run R offs es = .ok s' ∧ s'.disk = s.disk ∧
      (⟨f, os, answerNow R offs s f os⟩ : Answer) ∈ s'.sys.answers.drop s.sys.answers.length := by
  obtain ⟨h, s', h'⟩ := answerNow_run sound hoffs g f hf os
  exact ⟨_, s', h, h'⟩

/-- A node on which a file grows during the call: half of the tasks find it grown. -/
def busyNode (C : EngineConf) (R : Reader UInt64) (offs : List UInt8 → Res (List Nat)) (U : String → Prop) (S : Store)
    (s : Svc UInt64) (list : Union → Res (List (FdbKey × Uri))) (f0 : String) (bytes : List UInt8) : Node where
  env :=
    { list := list
      infos := fun _ f os => answerNow R offs s f os
      jump := fun t f o i is => diskJump R (if t % 2 = 0 then s.disk else s.disk.append f0 bytes) f o i is
      fetch := fun _ u is => slowExtract R S u is
      forward := fun _ _ _ => throwExn .ioError }
  conf := C
  reader := R
  offs := offs
  names := U
  store := S
  start := s
  later := s.disk.append f0 bytes

theorem busyNode_up {C : EngineConf} {R : Reader UInt64} (sound : SoundReader R) {offs : List UInt8 → Res (List Nat)}
    (hoffs : ∀ file, offs file ≠ undef) {U : String → Prop} {S : Store} {d : Disk} {mode : CacheMode} {cap : Nat}
    {fs : FS} (apart : ToldApart mode U) (room : 0 < cap) (agree : GoodIndex (diskWorld R offs d) U mode fs)
    {es : List SEv} (allowed : ∀ e ∈ es, e.Allowed U) {s : Svc UInt64}
    (history : (Svc.start R offs d mode true cap fs).run R offs es = .ok s)
    (list : Union → Res (List (FdbKey × Uri))) (f0 : String) (bytes : List UInt8) :
    (busyNode C R offs U S s list f0 bytes).Up where
  reader := sound
  offs := hoffs
  began := ⟨d, mode, cap, fs, es, apart, room, agree, allowed, history⟩
  infos t f os hf := by
    obtain ⟨s', h1, g⟩ := (SvcGood.start (lazy := true) hoffs apart room agree).run sound hoffs es allowed
    rw [history] at h1
    cases h1
    obtain ⟨es', s', h1, h2, h3, h4⟩ := answerNow_spec sound hoffs g f hf os
    exact ⟨es', s', h1, h2, by rw [h3]; exact Disk.append_before _ _ _, h4⟩
  jump t f o i is := by
    refine ⟨if t % 2 = 0 then s.disk else s.disk.append f0 bytes, ?_, ?_, rfl⟩
    · split
      · exact Disk.Before.refl _
      · exact Disk.append_before _ _ _
    · split
      · exact Disk.append_before _ _ _
      · exact Disk.Before.refl _
  fetch t u is := rfl

theorem c50_run : c50Run = .ok c50State := by
  have : c50Run.toOption.isSome = true := by decide +kernel
  unfold c50State
  cases h : c50Run with
  | error e => rw [h] at this; cases this
  | ok s => rfl

theorem oneFile_apart : ToldApart .shadow oneFile := by
  refine C15_separated _ _ ?_ ?_
  · intro p q hp hq _; rw [hp, hq]
  · intro p hp c hc
    rw [hp] at hc
    have : (baseName "/fdb/a.data").toList.getLast? = some 'a' := by decide +kernel
    rw [this] at hc
    cases hc; decide

/-- The node of C50, with the file growing by another message during the call. -/
def c69Node : Node :=
  busyNode c50Conf toyReader (fun _ => .ok []) oneFile c50Store c50State (fun _ => .ok c50Cat) "/fdb/a.data"
    [0x47, 1, 9]

theorem c69_up : c69Node.Up :=
  busyNode_up toySound (fun _ h => by cases h) (d := toyDisk) (mode := .shadow) (cap := 16) (fs := []) (es := c50Steps)
    oneFile_apart (by decide) (by intro p _; exact ⟨[], Or.inl ⟨rfl, rfl⟩, fun x hx => by cases hx⟩) (by
      intro e he
      simp only [c50Steps, List.mem_cons, List.mem_nil_iff, or_false] at he
      rcases he with rfl | rfl | rfl | rfl | rfl <;> first | rfl | trivial) c50_run _ _ _

theorem c69_file {n : Node} {u : Uri} {is : List Interval} {hash : String} {r : WireResult} {file : List UInt8}
    {h : Header} (hs : u.scheme ≠ "fdb") (hn : n.names u.path) (hd : n.start.disk u.path = some file)
    (hp : n.reader.parse (file.drop u.offset) = some h) (hg : hash ≠ "" ∧ hash = h.md5GridSection)
    (hm : messageExtract n.reader file u.offset is = .ok r) : n.Gives u is hash r := by
  unfold Node.Gives
  rw [if_neg hs]
  exact ⟨hn, file, h, hd, hp, Or.inr hg, hm⟩

theorem c27_different : c27Written.Pairwise fun a b => ¬ (essential true a.pairs).Perm (essential true b.pairs) := by
  decide +kernel

theorem c27_sameKeywords : ∀ a ∈ c27Written, ∀ b ∈ c27Written, ∀ k, k ∈ (essential true a.pairs).map Prod.fst →
    k ∈ (essential true b.pairs).map Prod.fst := by
  have : ∀ a ∈ c27Written, ∀ b ∈ c27Written, ∀ k ∈ (essential true a.pairs).map Prod.fst,
      k ∈ (essential true b.pairs).map Prod.fst := by decide +kernel
  exact fun a ha b hb k hk => this a ha b hb k hk

theorem c69_at {p : (i : Nat) → i < c50Reqs.length → i < c27Written.length → FdbKey × Uri → Prop} {cat : List (FdbKey × Uri)}
    {a b c : Uri} (hc : cat = [(c27Key "0", a), (c27Key "12", b), (c27Key "6", c)])
    (h0 : p 0 (by decide) (by decide) (c27Key "6", c)) (h1 : p 1 (by decide) (by decide) (c27Key "12", b))
    (h2 : p 2 (by decide) (by decide) (c27Key "0", a)) :
    ∀ i (hi : i < c50Reqs.length) (hj : i < c27Written.length), ∃ e ∈ cat,
      SameField true c27Written[i].pairs e.1 ∧ p i hi hj e := by
  intro i hi hj
  subst hc
  match i, hi, hj with
  | 0, hi, hj => exact ⟨_, List.mem_cons_of_mem _ (List.mem_cons_of_mem _ (List.mem_cons_self ..)),
      (show SameField true (c27Pairs "6") (c27Key "6") by rw [SameField]; decide +kernel), h0⟩
  | 1, hi, hj => exact ⟨_, List.mem_cons_of_mem _ (List.mem_cons_self ..),
      (show SameField true (c27Pairs "12") (c27Key "12") by rw [SameField]; decide +kernel), h1⟩
  | 2, hi, hj => exact ⟨_, List.mem_cons_self ..,
      (show SameField true (c27Pairs "0") (c27Key "0") by rw [SameField]; decide +kernel), h2⟩

/-- Non-vacuity of C69: a node with a history, a file growing during the call, two fields in it and one behind the
store: every hypothesis of `C69_request_succeeds_partial` and `C69_remote_request_succeeds_partial` holds. -/
example : c69Node.Up ∧ c69Node.conf.forward = false ∧ Catalogue c69Node.conf.ignoreYearMonth c50Cat ∧
    ListsOnly c69Node.env c50Cat ∧ ListsAll c69Node.conf.ignoreYearMonth c69Node.env c50Cat ∧
    (∀ a ∈ c50Cat, ∀ b ∈ c50Cat, a.2.path = b.2.path → a.2.offset = b.2.offset → a = b) ∧ Written c50Reqs c27Written ∧
    (∀ i (hi : i < c50Reqs.length) (hj : i < c27Written.length), ∃ e ∈ c50Cat, SameField true c27Written[i].pairs e.1 ∧
      ∃ r, c69Node.Gives e.2 c50Reqs[i].ranges c50Reqs[i].gridHash r) ∧
    localExtract c69Node.env c69Node.conf [1, 0, 1, 0, 0, 1] c50Reqs =
      .ok [⟨[[10, 11, 12, 13]], [[15]]⟩, ⟨[[11], [12, 13]], [[1], [3]]⟩, ⟨[[7, 8]], [[3]]⟩] := by
  refine ⟨c69_up, rfl, catalogue_of (by decide +kernel) (by decide +kernel) (by decide +kernel), ?_,
    fun u => ⟨c50Cat, rfl, fun e he _ => he⟩, by decide +kernel, ⟨by decide +kernel, c27_written.2⟩, ?_, by decide +kernel⟩
  · intro u L h
    have := Except.ok.inj h
    subst this
    exact ⟨fun e he => he, by decide +kernel⟩
  · refine c69_at (p := fun i hi _ e => ∃ r, c69Node.Gives e.2 c50Reqs[i].ranges c50Reqs[i].gridHash r)
      (cat := c50Cat) rfl ?_ ?_ ?_
    · refine ⟨⟨[[10, 11, 12, 13]], [[15]]⟩, ?_⟩
      unfold Node.Gives
      rw [if_pos (by decide)]
      exact ⟨rfl, toyMessage, _, [some 100], rfl, rfl, ⟨100, [], rfl, by decide, fun a ha => by cases ha⟩, toyGood,
        by decide +kernel⟩
    · exact ⟨⟨[[11], [12, 13]], [[1], [3]]⟩, c69_file (file := toyMessage ++ [0x47, 2, 7, 8]) (h := (toyParse toyMessage).get (by decide))
        (by decide) rfl (by decide +kernel) (by decide +kernel) (by decide +kernel) (by decide +kernel)⟩
    · exact ⟨⟨[[7, 8]], [[3]]⟩, c69_file (file := toyMessage ++ [0x47, 2, 7, 8]) (h := (toyParse [0x47, 2, 7, 8]).get (by decide))
        (by decide) rfl (by decide +kernel) (by decide +kernel) (by decide +kernel) (by decide +kernel)⟩

/-- Non-vacuity for requests by path. -/
example : c69Node.Up ∧ (∀ r ∈ [(⟨"/fdb/a.data", "file", 6, "", 0, [⟨0, 1⟩], "g"⟩ : PathReq)],
      ∃ x, c69Node.Gives ⟨r.scheme, r.host, r.port, r.path, r.offset⟩ r.ranges r.gridHash x) ∧
    localExtractPaths c69Node.env c69Node.conf [] [⟨"/fdb/a.data", "file", 6, "", 0, [⟨0, 1⟩], "g"⟩] =
      .ok [⟨[[7]], [[1]]⟩] := by
  refine ⟨c69_up, ?_, by decide +kernel⟩
  intro r hr
  rw [List.mem_singleton] at hr
  subst hr
  exact ⟨⟨[[7]], [[1]]⟩, c69_file (file := toyMessage ++ [0x47, 2, 7, 8]) (h := (toyParse [0x47, 2, 7, 8]).get (by decide))
    (by decide) rfl (by decide +kernel) (by decide +kernel) (by decide +kernel) (by decide +kernel)⟩

/-- The servers of C52, with their files growing during the call. -/
def c69Peer (f : String) (msg : List UInt8) : Node :=
  busyNode c27Conf toyReader (fun _ => .ok []) (fun g => g = f) c50Store (c52Now f msg) (fun _ => throwExn .ioError) f
    [0x47, 1, 9]

theorem c69_peer_up {f : String} {msg : List UInt8} (hf : (baseName f).toList.getLast? = some 'a')
    (hr : (c52Run f msg).toOption.isSome = true) : (c69Peer f msg).Up := by
  have h := c52_sound hf hr
  exact busyNode_up toySound (fun _ h => by cases h) h.apart h.room h.agree h.allowed h.history _ _ _

def c69Peers (server : String × Int) : Node :=
  if server.1 = "gx" then c69Peer "/fdb/a.data" toyMessage else c69Peer "/fdb/b.data" [0x47, 4, 20, 21, 22, 23]

def c69Engine (server : String × Int) : Engine :=
  nodeEngine (c69Peers server).env (c69Peers server).conf [0, 0, 0] (fun _ _ => throwExn .ioError)
    (fun _ _ => throwExn .ioError) (fun _ => throwExn .ioError)

def c69Front : ExtEnv :=
  { c52Env with forward := fun _ server fm => remoteForwardExtract (c69Engine server) "ctx" fm }

/-- Non-vacuity for a node that forwards: every hypothesis of `C69_forwarded_request_succeeds_partial` holds, and so do
those for requests by path. -/
example : Relays c69Front c69Peers ∧ (∀ e ∈ c52Conf.servers, (c69Peers e.2).Up) ∧ Catalogue true c52Cat ∧
    ListsOnly c69Front c52Cat ∧ ListsAll true c69Front c52Cat ∧
    (∀ a ∈ c52Cat, ∀ b ∈ c52Cat, a.2.path = b.2.path → a.2.offset = b.2.offset → a = b) ∧
    (∀ i (hi : i < c50Reqs.length) (hj : i < c27Written.length), ∃ e ∈ c52Cat, SameField true c27Written[i].pairs e.1 ∧
      ∃ r, Answering c52Conf c69Peers e.2 c50Reqs[i].ranges c50Reqs[i].gridHash r) ∧
    localExtract c69Front c52Conf [1, 0] c50Reqs =
      .ok [⟨[[10, 11, 12, 13]], [[15]]⟩, ⟨[[21], [22, 23]], [[1], [3]]⟩, ⟨[[7, 8]], [[3]]⟩] ∧
    localExtractPaths c69Front c52Conf [] [⟨"/fdb/b.data", "fdb", 0, "y", 2, [⟨0, 2⟩], "g"⟩] = .ok [⟨[[20, 21]], [[3]]⟩] := by
  refine ⟨fun t server fm => ⟨"ctx", [0, 0, 0], _, _, _, rfl⟩, ?_,
    catalogue_of (by decide +kernel) (by decide +kernel) (by decide +kernel), ?_,
    fun u => ⟨c52Cat, rfl, fun e he _ => he⟩, by decide +kernel, ?_, by decide +kernel, by decide +kernel⟩
  · intro e he
    simp only [c52Conf, List.mem_cons, List.mem_nil_iff, or_false] at he
    rcases he with rfl | rfl
    · exact c69_peer_up (by decide +kernel) (by decide +kernel)
    · exact c69_peer_up (by decide +kernel) (by decide +kernel)
  · intro u L h
    have := Except.ok.inj h
    subst this
    exact ⟨fun e he => he, by decide +kernel⟩
  · refine c69_at (p := fun i hi _ e => ∃ r, Answering c52Conf c69Peers e.2 c50Reqs[i].ranges c50Reqs[i].gridHash r)
      (cat := c52Cat) rfl ?_ ?_ ?_
    · exact ⟨⟨[[10, 11, 12, 13]], [[15]]⟩, ("gx", 9), by decide +kernel,
        c69_file (file := toyMessage ++ [0x47, 2, 7, 8]) (h := (toyParse toyMessage).get (by decide))
        (show "file" ≠ "fdb" by decide) rfl (by decide +kernel) (by decide +kernel) (by decide +kernel) (by decide +kernel)⟩
    · exact ⟨⟨[[21], [22, 23]], [[1], [3]]⟩, ("gy", 9), by decide +kernel,
        c69_file (file := [0x47, 4, 20, 21, 22, 23] ++ [0x47, 2, 7, 8]) (h := (toyParse toyMessage).get (by decide))
        (show "file" ≠ "fdb" by decide) rfl (by decide +kernel) (by decide +kernel) (by decide +kernel) (by decide +kernel)⟩
    · exact ⟨⟨[[7, 8]], [[3]]⟩, ("gx", 9), by decide +kernel,
        c69_file (file := toyMessage ++ [0x47, 2, 7, 8]) (h := (toyParse [0x47, 2, 7, 8]).get (by decide))
        (show "file" ≠ "fdb" by decide) rfl (by decide +kernel) (by decide +kernel) (by decide +kernel) (by decide +kernel)⟩

end GJ
