import Verif.Lemmas.Codec
import Verif.Spec.Protocol

/-!
# C20, C21, C22: serialisation of metadata, protocol round trips, header validation
-/

namespace GJ

open Spec

/-! ## C20 -/

theorem lift_cassert {b : Bool} (h : b = true) (s : List Tok) :
    Dec.lift (cassert b) s = .ok ((), s) := by
  subst h; rfl

theorem decJumpInfo_ok (j : JumpInfo) (rest : List Tok) :
    decJumpInfo (encJumpInfo j ++ rest) = .ok (j, rest) := rfl

theorem decCcsdsExt_ok (x : CcsdsExt) (rest : List Tok) :
    decCcsdsExt (encCcsdsExt x ++ rest) = .ok (x, rest) := by
  have hv := vec_ok Dec.ulong (fun n => [Tok.ulong n]) id x.offsets (fun _ _ _ => rfl) rest
  rw [List.map_id] at hv
  rw [decCcsdsExt, encCcsdsExt]
  simp only [List.cons_append, List.nil_append]
  rw [Dec.bind_ok (show Dec.ulong _ = .ok (x.flags, _) from rfl),
    Dec.bind_ok (show Dec.ulong _ = .ok (x.blockSize, _) from rfl),
    Dec.bind_ok (show Dec.ulong _ = .ok (x.rsi, _) from rfl), Dec.bind_ok hv]
  rfl

/-- C20.  Metadata of every packing type is restored exactly, whatever follows it in the stream. -/
theorem C20_metadata_roundtrip (i : Info) (rest : List Tok) :
    reanimate (encInfo i ++ rest) = .ok (some i, rest) := by
  rw [reanimate, encInfo, List.cons_append, List.cons_append, List.append_assoc,
    Dec.bind_ok (show Dec.next _ = .ok (true, _) from rfl), if_pos rfl,
    Dec.bind_ok (show Dec.str _ = .ok (i.className, _) from rfl)]
  cases i with
  | simple b =>
    rw [Info.className, if_pos rfl, encInfoBody,
      Dec.bind_ok (Dec.bind_ok (decJumpInfo_ok b _) : _ = Except.ok (Info.simple b, _)),
      Dec.bind_ok (show Dec.skipEnd _ = .ok ((), rest) from rfl)]
    rfl
  | ccsds b x =>
    rw [Info.className, if_neg (by decide), if_pos rfl, encInfoBody, List.append_assoc,
      Dec.bind_ok ((Dec.bind_ok (decJumpInfo_ok b _)).trans (Dec.bind_ok (decCcsdsExt_ok x _)) :
        _ = Except.ok (Info.ccsds b x, _)),
      Dec.bind_ok (show Dec.skipEnd _ = .ok ((), rest) from rfl)]
    rfl
  | unsupported b =>
    rw [Info.className, if_neg (by decide), if_neg (by decide), if_pos rfl, encInfoBody,
      Dec.bind_ok (Dec.bind_ok (decJumpInfo_ok b _) : _ = Except.ok (Info.unsupported b, _)),
      Dec.bind_ok (show Dec.skipEnd _ = .ok ((), rest) from rfl)]
    rfl

/-- C20.  Extraction with metadata read back from a stream is extraction with the original metadata. -/
theorem C20_extraction_unchanged {V : Type} (A : Arith V) (rv : Info → ReadValues V)
    (file : List UInt8) (offset : Nat) (i i' : Info) (rest rest' : List Tok) (is : List Interval)
    (h : reanimate (encInfo i ++ rest) = .ok (some i', rest')) :
    extract A (rv i') file offset i'.base is = extract A (rv i) file offset i.base is ∧ rest' = rest := by
  rw [C20_metadata_roundtrip] at h
  cases h
  exact ⟨rfl, rfl⟩

/-! ## C21 -/

/-- C21.  Request header. -/
theorem C21_header (t : ReqType) (ctx : String) (rest : List Tok) :
    decHeader (encHeader t ctx ++ rest) = .ok ((ctx, t.code), rest) := rfl

theorem flatMap_single {α β : Type} (f : α → β) (l : List α) : (l.flatMap fun x => [f x]) = l.map f := by
  induction l with
  | nil => rfl
  | cons a l ih => rw [List.flatMap_cons, ih]; rfl

theorem times_str (es : List String) (rest : List Tok) :
    Dec.times es.length Dec.str (es.map Tok.str ++ rest) = .ok (es, rest) := by
  have := times_ok Dec.str (fun s => [Tok.str s]) id es (fun _ _ _ => rfl) rest
  rwa [List.map_id, flatMap_single] at this

/-- C21.  Error block, read without raising: tells whether there were errors. -/
theorem C21_errors (es : List String) (rest : List Tok) :
    decErrors false (encErrors es ++ rest) = .ok (decide (es ≠ []), rest) := by
  rw [decErrors, encErrors, List.cons_append, Dec.bind_ok (show Dec.ulong _ = .ok (es.length, _) from rfl)]
  cases es with
  | nil => rfl
  | cons e es =>
    rw [if_neg (by simp), Dec.bind_ok (times_str (e :: es) rest)]
    simp [Dec.pure_apply]

/-- C21.  Error block, read raising: an empty block is passed over, any other one throws. -/
theorem C21_errors_raise (es : List String) (rest : List Tok) :
    decErrors true (encErrors es ++ rest)
      = if es = [] then .ok (false, rest) else .error (.exn .remote) := by
  rw [decErrors, encErrors, List.cons_append, Dec.bind_ok (show Dec.ulong _ = .ok (es.length, _) from rfl)]
  cases es with
  | nil => rfl
  | cons e es =>
    rw [if_neg (by simp), Dec.bind_ok (times_str (e :: es) rest)]
    simp [Dec.fail]

/-- C21.  Extract request. -/
theorem C21_extract_request (rs : List ExRequest) (h : ∀ r ∈ rs, r.Fits) (rest : List Tok) :
    decExtractReq (encExtractReq rs ++ rest) = .ok (rs, rest) := by
  have := times_ok decRequest encRequest id rs (fun x hx rest => decRequest_ok x (h x hx) rest) rest
  rw [List.map_id] at this
  rw [decExtractReq, encExtractReq, List.cons_append,
    Dec.bind_ok (show Dec.ulong _ = .ok (rs.length, _) from rfl), this]

theorem encExtractReply_ok (rs : List WireResult) :
    encExtractReply (rs.map some) = .ok (rs.flatMap fun r => Tok.ulong 1 :: encResult r) := by
  induction rs with
  | nil => rfl
  | cons r rs ih => rw [List.map_cons, encExtractReply, ih, ok_bind, List.flatMap_cons, List.cons_append]

/-- C21.  Extract reply. -/
theorem C21_extract_reply (rs : List WireResult) (h : ∀ r ∈ rs, WireResult.Fits r) (rest : List Tok) :
    ∃ bytes, encExtractReply (rs.map some) = .ok bytes ∧
      decExtractReply rs.length (bytes ++ rest) = .ok (rs, rest) := by
  refine ⟨_, encExtractReply_ok rs, ?_⟩
  have := times_ok (do
      let nfields ← Dec.ulong
      Dec.lift (cassert (decide (nfields = 1)))
      decResult : Dec WireResult) (fun r => Tok.ulong 1 :: encResult r) id rs (by
    intro x hx rest
    rw [List.cons_append, Dec.bind_ok (show Dec.ulong _ = .ok (1, _) from rfl),
      Dec.bind_ok (show Dec.lift (cassert (decide (1 = 1))) _ = .ok ((), _) from rfl)]
    exact decResult_ok x (h x hx) rest) rest
  rwa [List.map_id] at this

/-- C21.  Scan request. -/
theorem C21_scan_request (reqs : List String) (byfiles : Bool) (rest : List Tok) :
    decScanReq (encScanReq reqs byfiles ++ rest) = .ok ((reqs, byfiles), rest) := by
  have := times_ok Dec.ext (fun s => [Tok.ext s]) id reqs (fun _ _ _ => rfl) rest
  rw [List.map_id, flatMap_single] at this
  rw [decScanReq, encScanReq, List.cons_append, Dec.bind_ok (show Dec.bool _ = .ok (byfiles, _) from rfl),
    List.cons_append, Dec.bind_ok (show Dec.ulong _ = .ok (reqs.length, _) from rfl), Dec.bind_ok this]
  rfl

/-- C21.  Scan reply. -/
theorem C21_scan_reply (n : Nat) (rest : List Tok) :
    decScanReply (encScanReply n ++ rest) = .ok (n, rest) := rfl

/-- C21.  Axes request. -/
theorem C21_axes_request (request : String) (level : Int) (rest : List Tok) :
    decAxesReq (encAxesReq request level ++ rest) = .ok ((request, level), rest) := rfl

/-- C21.  Axes reply: a map from axis names to sets of values. -/
theorem C21_axes_reply (axes : AMap String (List String)) (hk : axes.keys.Nodup)
    (hv : ∀ a ∈ axes, a.2.Nodup) (rest : List Tok) :
    decAxesReply (encAxesReply axes ++ rest) = .ok (axes, rest) := by
  have := times_ok (do
      let name ← Dec.str
      let nVals ← Dec.ulong
      let vals ← Dec.times nVals Dec.str
      pure (name, vals.foldl setInsert []) : Dec (String × List String))
    (fun a => Tok.str a.1 :: Tok.ulong a.2.length :: a.2.map Tok.str) id axes (by
      intro a ha rest
      rw [List.cons_append, Dec.bind_ok (show Dec.str _ = .ok (a.1, _) from rfl), List.cons_append,
        Dec.bind_ok (show Dec.ulong _ = .ok (a.2.length, _) from rfl), Dec.bind_ok (times_str a.2 rest),
        Dec.pure_apply, setInsert_rebuild _ _ (by simpa using hv a ha), List.nil_append]
      rfl) rest
  rw [List.map_id] at this
  rw [decAxesReply, encAxesReply, List.cons_append,
    Dec.bind_ok (show Dec.ulong _ = .ok (axes.length, _) from rfl), Dec.bind_ok this, Dec.pure_apply,
    AMap.rebuild _ _ (by simpa [AMap.keys] using hk), List.nil_append]

/-- C21.  Forwarded scan request. -/
theorem C21_forward_scan_request (sm : AMap String (List Nat)) (hk : sm.keys.Nodup) (rest : List Tok) :
    decForwardScan (encForwardScan sm ++ rest) = .ok (sm, rest) := by
  have := times_ok (do
      let fname ← Dec.str
      let offsets ← Dec.vec Dec.off
      pure (fname, offsets) : Dec (String × List Nat))
    (fun f => Tok.str f.1 :: encVec (fun o => [Tok.off o]) f.2) id sm (by
      intro f _ rest
      have hv := vec_ok Dec.off (fun n => [Tok.off n]) id f.2 (fun _ _ _ => rfl) rest
      rw [List.map_id] at hv
      rw [List.cons_append, Dec.bind_ok (show Dec.str _ = .ok (f.1, _) from rfl), Dec.bind_ok hv]
      rfl) rest
  rw [List.map_id] at this
  rw [decForwardScan, encForwardScan, List.cons_append,
    Dec.bind_ok (show Dec.ulong _ = .ok (sm.length, _) from rfl), Dec.bind_ok this, Dec.pure_apply,
    AMap.rebuild _ _ (by simpa [AMap.keys] using hk), List.nil_append]

/-- C21.  Forwarded extract request.  The sender sorts its items by offset (second component); the
server gets, file by file and in that order, the same messages with the same ranges and hashes. -/
theorem C21_forward_extract_request (fm : FileMap) (hk : fm.keys.Nodup)
    (hf : ∀ f ∈ fm, ∀ i ∈ f.2, i.request.Fits) (rest : List Tok) :
    decForwardExtract ((encForwardExtract fm).1 ++ rest)
        = .ok ((encForwardExtract fm).2.map (fun f => (f.1, f.2.map received)), rest) ∧
    (encForwardExtract fm).2.keys = fm.keys ∧
    ∀ (k : Nat) (f f' : String × List Item), fm[k]? = some f → (encForwardExtract fm).2[k]? = some f' →
      f'.2.Perm f.2 ∧ f'.2.Pairwise (fun a b => a.uri.offset ≤ b.uri.offset) := by
  refine ⟨?_, ?_, ?_⟩
  · let sorted : FileMap := fm.map fun f => (f.1, sortByOffset f.2)
    have hs : ∀ f ∈ sorted, ∀ i ∈ f.2, i.request.Fits := by
      intro f hf' i hi
      obtain ⟨g, hg, rfl⟩ := List.mem_map.mp hf'
      exact hf g hg i ((sortByOffset_perm g.2).mem_iff.mp hi)
    have hks : sorted.keys = fm.keys := by simp [sorted, AMap.keys, Function.comp_def]
    have := times_ok (do
        let fname ← Dec.str
        let nItems ← Dec.ulong
        let items ← Dec.times nItems decForwardItem
        pure (fname, items) : Dec (String × List Item))
      (fun f => Tok.str f.1 :: Tok.ulong f.2.length :: f.2.flatMap encForwardItem)
      (fun f => (f.1, f.2.map received)) sorted (by
        intro f hf' rest
        have hi := times_ok decForwardItem encForwardItem received f.2 (by
          intro i hi rest
          have hfit : ExRequest.Fits
              { request := "", ranges := i.request.ranges, gridHash := i.request.gridHash } := hs f hf' i hi
          rw [decForwardItem, encForwardItem, List.append_assoc,
            Dec.bind_ok (decRequest_ok _ hfit _),
            Dec.bind_ok (show Dec.uri _ = .ok (i.uri, rest) from rfl)]
          rfl) rest
        rw [List.cons_append, Dec.bind_ok (show Dec.str _ = .ok (f.1, _) from rfl), List.cons_append,
          Dec.bind_ok (show Dec.ulong _ = .ok (f.2.length, _) from rfl), Dec.bind_ok hi]
        rfl) rest
    show decForwardExtract ((Tok.ulong sorted.length :: _) ++ rest) = .ok (sorted.map _, rest)
    rw [decForwardExtract, List.cons_append,
      Dec.bind_ok (show Dec.ulong _ = .ok (sorted.length, _) from rfl), Dec.bind_ok this, Dec.pure_apply,
      AMap.rebuild _ _ (by
        have e : AMap.keys (sorted.map fun f => (f.1, f.2.map received)) = fm.keys := by
          rw [← hks]; simp [AMap.keys, Function.comp_def]
        rw [e]; simpa [AMap.keys] using hk), List.nil_append]
  · simp [encForwardExtract, AMap.keys, Function.comp_def]
  · intro k f f' h h'
    have e : (encForwardExtract fm).2[k]? = some (f.1, sortByOffset f.2) := by
      show (fm.map _)[k]? = _
      rw [List.getElem?_map, h]; rfl
    rw [e] at h'
    cases h'
    exact ⟨sortByOffset_perm _, sortByOffset_sorted _⟩

theorem encReplyItems_ok (is : List Item) (rs : List WireResult) (h : is.map (·.result) = rs.map some) :
    encReplyItems is = .ok (rs.flatMap encResult) := by
  induction is generalizing rs with
  | nil =>
    cases rs with
    | nil => rfl
    | cons r rs => simp at h
  | cons i is ih =>
    cases rs with
    | nil => simp at h
    | cons r rs =>
      simp only [List.map_cons, List.cons.injEq] at h
      rw [encReplyItems, h.1]
      show (do let tl ← encReplyItems is; _) = _
      rw [ih rs h.2, ok_bind, List.flatMap_cons]

theorem setResults_zip (mine served : List Item) (rs : List WireResult)
    (h : served.map (·.result) = rs.map some) (hl : mine.length = served.length) :
    setResults mine rs = List.zipWith (fun i j => { i with result := j.result }) mine served := by
  induction mine generalizing served rs with
  | nil => simp [setResults]
  | cons i is ih =>
    cases served with
    | nil => simp at hl
    | cons s served =>
      cases rs with
      | nil => simp at h
      | cons r rs =>
        simp only [List.map_cons, List.cons.injEq] at h
        rw [setResults, List.zipWith_cons_cons, h.1, ih served rs h.2 (by simpa using hl)]

/-- Every result is present and can be written. -/
def Served (fm : FileMap) : Prop :=
  ∀ f ∈ fm, ∀ i ∈ f.2, ∃ r, i.result = some r ∧ WireResult.Fits r

theorem results_of_served (is : List Item) (h : ∀ i ∈ is, ∃ r, i.result = some r ∧ WireResult.Fits r) :
    ∃ rs : List WireResult, is.map (·.result) = rs.map some ∧ ∀ r ∈ rs, WireResult.Fits r := by
  induction is with
  | nil => exact ⟨[], rfl, by simp⟩
  | cons i is ih =>
    obtain ⟨r, hr, hf⟩ := h i List.mem_cons_self
    obtain ⟨rs, h1, h2⟩ := ih (fun x hx => h x (List.mem_cons_of_mem _ hx))
    refine ⟨r :: rs, by simp [hr, h1], ?_⟩
    intro x hx
    rcases List.mem_cons.mp hx with rfl | hx
    · exact hf
    · exact h2 x hx

theorem forward_reply_loop (todo served done : FileMap) (hk : (done.keys ++ todo.keys).Nodup)
    (hs : sameShape todo served) (hr : Served served) (rest : List Tok) :
    ∃ bytes, encForwardReply served = .ok bytes ∧
      decForwardReplyLoop todo.length (done ++ todo) (bytes ++ rest)
        = .ok (done ++ withResults todo served, rest) := by
  induction todo generalizing served done with
  | nil =>
    cases served with
    | nil => exact ⟨[], rfl, rfl⟩
    | cons g served => simp [sameShape] at hs
  | cons f todo ih =>
    cases served with
    | nil => simp [sameShape] at hs
    | cons g served =>
      obtain ⟨fname, items⟩ := f
      obtain ⟨gname, gitems⟩ := g
      simp only [sameShape, List.map_cons, List.cons.injEq, Prod.mk.injEq] at hs
      obtain ⟨⟨rfl, hlen⟩, hs⟩ := hs
      obtain ⟨rs, hrs, hfit⟩ := results_of_served gitems (hr _ List.mem_cons_self)
      have hrl : rs.length = items.length := by
        have := congrArg List.length hrs
        simp only [List.length_map] at this
        omega
      have hnot : fname ∉ done.keys := by
        intro hm
        rw [List.nodup_append] at hk
        exact hk.2.2 _ hm _ (by simp [AMap.keys]) rfl
      obtain ⟨bytes, hb, hd⟩ := ih served (done ++ [(fname, setResults items rs)])
        (by simpa [AMap.keys] using hk) hs (fun f hf => hr f (List.mem_cons_of_mem _ hf))
      refine ⟨_, by rw [encForwardReply, encReplyItems_ok gitems rs hrs, ok_bind, hb, ok_bind], ?_⟩
      have ht := times_ok decResult encResult id rs (fun x hx rest => decResult_ok x (hfit x hx) rest)
        (bytes ++ rest)
      rw [List.map_id, hrl] at ht
      rw [List.length_cons, decForwardReplyLoop]
      simp only [List.cons_append, List.append_assoc]
      rw [Dec.bind_ok (show Dec.str _ = .ok (fname, _) from rfl),
        Dec.bind_ok (show Dec.ulong _ = .ok (gitems.length, _) from rfl),
        AMap.find_mid _ _ _ _ hnot, Option.getD_some, ← hlen,
        Dec.bind_ok (lift_cassert (decide_eq_true rfl) _),
        Dec.bind_ok ht, AMap.set_mid _ _ _ _ _ hnot]
      rw [List.append_assoc] at hd
      rw [List.cons_append, List.nil_append] at hd
      rw [hd, setResults_zip items gitems rs hrs hlen, List.append_assoc]
      rfl

/-- C21.  Forwarded extract reply: the sender's item `j` of each file receives the result the server
has in its item `j` of that file. -/
theorem C21_forward_extract_reply (mine served : FileMap) (hk : mine.keys.Nodup)
    (hs : sameShape mine served) (hr : Served served) (rest : List Tok) :
    ∃ bytes, encForwardReply served = .ok bytes ∧
      decForwardReply mine (bytes ++ rest) = .ok (withResults mine served, rest) :=
  forward_reply_loop mine served [] (by simpa [AMap.keys] using hk) hs hr rest

end GJ
