import Verif.Model.Server
import Verif.Props.C21

/-!
# C22: header validation.  C41: a remote call returns what the server computed, or throws
-/

namespace GJ

open Spec

/-! ## C22 -/

/-- The request type a request belongs to. -/
def ServerReq.kind : ServerReq → ReqType
  | .extract _ => .extract
  | .axes _ _ => .axes
  | .scan _ _ => .scan
  | .forwardExtract _ => .forwardExtract
  | .forwardScan _ => .forwardScan

/-- C22.  A wrong protocol version is rejected, whatever follows: the engine is not called and the
client is sent an exception. -/
theorem C22_wrong_version (E : Engine) (v : Nat) (rest : List Tok) (h : v ≠ 3) :
    serve E (.u16 v :: rest) = .ok ([], [.exc "error"]) := by
  have : dispatch (.u16 v :: rest) = .error (.exn .seriousBug) := by
    rw [dispatch]
    apply Dec.bind_error
    rw [decHeader, Dec.bind_ok (show Dec.u16 _ = .ok (v, rest) from rfl),
      if_pos (show v ≠ protocolVersion from h)]
    rfl
  rw [serve, this]

/-- C22.  An unknown request type is rejected in the same way. -/
theorem C22_unknown_type (E : Engine) (t : Nat) (ctx : String) (rest : List Tok) (h : 5 ≤ t) :
    serve E (.u16 3 :: .str ctx :: .u16 t :: rest) = .ok ([], [.exc "error"]) := by
  have : dispatch (.u16 3 :: .str ctx :: .u16 t :: rest) = .error (.exn .seriousBug) := by
    rw [dispatch, Dec.bind_ok (show decHeader _ = .ok ((ctx, t), rest) from rfl)]
    match t, h with
    | t + 5, _ => rfl
  rw [serve, this]

theorem mismatch_error {α : Type} (s : List Tok) : ∃ e, (Dec.mismatch s : Res (α × List Tok)) = .error (.exn e) := by
  unfold Dec.mismatch
  split
  · exact ⟨_, rfl⟩
  · exact ⟨_, rfl⟩

theorem u16_inv {s rest : List Tok} {n : Nat} (h : Dec.u16 s = .ok (n, rest)) : s = .u16 n :: rest := by
  unfold Dec.u16 at h
  split at h
  · cases h; rfl
  · obtain ⟨e, he⟩ := mismatch_error (α := Nat) s
    rw [he] at h; cases h

theorem str_inv {s rest : List Tok} {n : String} (h : Dec.str s = .ok (n, rest)) : s = .str n :: rest := by
  unfold Dec.str at h
  split at h
  · cases h; rfl
  · obtain ⟨e, he⟩ := mismatch_error (α := String) s
    rw [he] at h; cases h

theorem decHeader_inv {s rest : List Tok} {ctx : String} {t : Nat}
    (h : decHeader s = .ok ((ctx, t), rest)) : s = .u16 3 :: .str ctx :: .u16 t :: rest := by
  rw [decHeader] at h
  obtain ⟨v, s1, h1, h⟩ := dec_bind_inv h
  have e1 := u16_inv h1
  by_cases hv : v ≠ protocolVersion
  · rw [if_pos hv] at h; cases h
  · rw [if_neg hv] at h
    obtain ⟨c, s2, h2, h⟩ := dec_bind_inv h
    obtain ⟨t', s3, h3, h⟩ := dec_bind_inv h
    have e2 := str_inv h2
    have e3 := u16_inv h3
    cases h
    have hv' : v = 3 := by simpa [protocolVersion] using hv
    rw [e1, e2, e3, hv']

theorem dispatch_inv {s rest : List Tok} {ctx : String} {req : ServerReq}
    (h : dispatch s = .ok ((ctx, req), rest)) :
    ∃ body, s = .u16 3 :: .str ctx :: .u16 req.kind.code :: body := by
  rw [dispatch] at h
  obtain ⟨⟨c, t⟩, s1, h1, h⟩ := dec_bind_inv h
  have e := decHeader_inv h1
  match t, h, e with
  | 0, h, e =>
    obtain ⟨rs, s2, -, h⟩ := dec_bind_inv h
    cases h; exact ⟨_, e⟩
  | 1, h, e =>
    obtain ⟨rs, s2, -, h⟩ := dec_bind_inv h
    obtain ⟨_, s3, -, h⟩ := dec_bind_inv h
    cases h; exact ⟨_, e⟩
  | 2, h, e =>
    obtain ⟨rs, s2, -, h⟩ := dec_bind_inv h
    cases h; exact ⟨_, e⟩
  | 3, h, e =>
    obtain ⟨rs, s2, -, h⟩ := dec_bind_inv h
    obtain ⟨_, s3, -, h⟩ := dec_bind_inv h
    cases h; exact ⟨_, e⟩
  | 4, h, e =>
    obtain ⟨rs, s2, -, h⟩ := dec_bind_inv h
    cases h; exact ⟨_, e⟩
  | t + 5, h, _ => cases h

/-- C22.  The engine is called at most once per connection, and only for a client of protocol version
3 that names one of the five request types; it is then asked for a request of that type. -/
theorem C22_work_only_if_valid (E : Engine) (input out : List Tok) (calls : List ServerReq)
    (h : serve E input = .ok (calls, out)) (hc : calls ≠ []) :
    ∃ ctx req body, calls = [req] ∧ input = .u16 3 :: .str ctx :: .u16 req.kind.code :: body := by
  unfold serve at h
  split at h
  · cases h
  · cases h; exact absurd rfl hc
  · rename_i ctx req rest hd
    obtain ⟨body, hb⟩ := dispatch_inv hd
    refine ⟨ctx, req, body, ?_, hb⟩
    split at h
    · cases h
    · cases h; rfl
    · split at h
      · cases h
      · cases h; rfl
      · cases h; rfl

/-- The five type numbers are 0 to 4. -/
theorem C22_type_numbers (n : Nat) : (∃ t : ReqType, t.code = n) ↔ n < 5 := by
  constructor
  · rintro ⟨t, rfl⟩; cases t <;> decide
  · intro h
    match n, h with
    | 0, _ => exact ⟨.extract, rfl⟩
    | 1, _ => exact ⟨.axes, rfl⟩
    | 2, _ => exact ⟨.scan, rfl⟩
    | 3, _ => exact ⟨.forwardExtract, rfl⟩
    | 4, _ => exact ⟨.forwardScan, rfl⟩
    | n + 5, h => exact absurd h (by omega)

/-! ## C41 -/

/-- What the caller of a remote call sees, given what the engine returned. -/
def outcome {α : Type} (errs : List String) (value : Res α) : Res α :=
  if errs = [] then match value with
    | .ok a => .ok a
    | .error .ub => undef
    | .error (.exn _) => throwExn .remote
  else match value with
    | .error .ub => undef
    | _ => throwExn .remote

theorem decErrors_prefix (es : List String) (rest : List Tok) {α : Type} (reply : Dec α) :
    (do let _ ← decErrors true; reply : Dec α) (encErrors es ++ rest)
      = if es = [] then reply rest else .error (.exn .remote) := by
  by_cases h : es = []
  · rw [if_pos h, Dec.bind_ok (a := false) (s' := rest) (by rw [C21_errors_raise, if_pos h])]
  · rw [if_neg h, Dec.bind_error (e := .exn .remote) (by rw [C21_errors_raise, if_neg h])]

theorem decErrors_exc {α : Type} (w : String) (reply : Dec α) :
    (do let _ ← decErrors true; reply : Dec α) [.exc w] = .error (.exn .remote) := rfl

/-- Common part of the C41 theorems. -/
theorem remoteCall_spec {α : Type} (E : Engine) (request : List Tok) (reply : Dec α) (ctx : String)
    (req : ServerReq) (tail : List Tok) (hd : dispatch request = .ok ((ctx, req), tail))
    (errs : List String) (body : Res (List Tok)) (hh : handle E req = .ok (errs, body))
    (value : Res α)
    (hb : ∀ b, body = .ok b → ∃ a r, value = .ok a ∧ reply b = .ok (a, r))
    (he : ∀ e, body = .error e → value = .error e)
    (hx : reply [.exc "error"] = .error (.exn .remote) ∨ ∀ e, body ≠ .error (.exn e)) :
    remoteCall E request reply = outcome errs value := by
  rw [remoteCall, serve, hd]
  simp only
  rw [hh]
  simp only
  cases body with
  | ok b =>
    obtain ⟨a, r, hv, hr⟩ := hb b rfl
    simp only
    rw [ok_bind]
    simp only
    rw [clientRead, decErrors_prefix, hv, outcome]
    by_cases h : errs = []
    · rw [if_pos h, if_pos h, hr]; rfl
    · rw [if_neg h, if_neg h]; rfl
  | error e =>
    have hv := he e rfl
    cases e with
    | ub =>
      simp only [hv, outcome]
      split <;> rfl
    | exn x =>
      simp only
      rw [ok_bind]
      simp only
      rw [clientRead, decErrors_prefix, hv, outcome]
      rcases hx with hx | hx
      · by_cases h : errs = []
        · rw [if_pos h, if_pos h, hx]; rfl
        · rw [if_neg h, if_neg h]; rfl
      · exact absurd rfl (hx x)

theorem remoteCall_throws {α : Type} (E : Engine) (request : List Tok) (reply : Dec α) (ctx : String)
    (req : ServerReq) (tail : List Tok) (hd : dispatch request = .ok ((ctx, req), tail)) (x : Exn)
    (hh : handle E req = .error (.exn x)) : remoteCall E request reply = .error (.exn .remote) := by
  rw [remoteCall, serve, hd]
  simp only
  rw [hh]
  simp only
  rw [ok_bind]
  simp only
  rw [clientRead, decErrors_exc]; rfl

/-- C41.  Remote axes: the client sees the server's axes, or `RemoteException` if the server threw. -/
theorem C41_remote_axes (E : Engine) (ctx request : String) (level : Int) (hr : 0 < request.length)
    (hE : ∀ a, E.axes request level = .ok a → a.keys.Nodup ∧ ∀ x ∈ a, x.2.Nodup) :
    remoteAxes E ctx request level = match E.axes request level with
      | .ok a => .ok a
      | .error .ub => undef
      | .error (.exn _) => throwExn .remote := by
  have hd : dispatch (encHeader .axes ctx ++ encAxesReq request level)
      = .ok ((ctx, .axes request level), []) := by
    rw [dispatch, Dec.bind_ok (C21_header .axes ctx (encAxesReq request level))]
    have h2 := C21_axes_request request level []
    rw [List.append_nil] at h2
    show (decAxesReq >>= _) _ = _
    rw [Dec.bind_ok h2]
    show (Dec.lift (cassert (decide (request.length > 0))) >>= _) [] = _
    rw [Dec.bind_ok (lift_cassert (decide_eq_true hr) _)]
    rfl
  cases hax : E.axes request level with
  | error e =>
    cases e with
    | ub =>
      rw [remoteAxes, remoteCall, serve, hd]
      simp only [handle, hax]
      rfl
    | exn x =>
      exact remoteCall_throws E _ _ ctx _ _ hd x (by rw [handle, hax]; rfl)
  | ok a =>
    rw [remoteAxes, remoteCall_spec E _ decAxesReply ctx _ _ hd [] (.ok (encAxesReply a))
      (by rw [handle, hax]; rfl) (.ok a) (by
        intro b hb
        cases hb
        have := C21_axes_reply a (hE a hax).1 (hE a hax).2 []
        rw [List.append_nil] at this
        exact ⟨a, [], rfl, this⟩) (by intro e h; cases h) (Or.inr (by intro e h; cases h))]
    rfl

/-- C41.  Remote scan. -/
theorem C41_remote_scan (E : Engine) (ctx : String) (reqs : List String) (byfiles : Bool) :
    remoteScan E ctx reqs byfiles = match E.scan reqs byfiles with
      | .ok (n, errs) => if errs = [] then .ok n else throwExn .remote
      | .error .ub => undef
      | .error (.exn _) => throwExn .remote := by
  have hd : dispatch (encHeader .scan ctx ++ encScanReq reqs byfiles)
      = .ok ((ctx, .scan reqs byfiles), []) := by
    rw [dispatch, Dec.bind_ok (C21_header .scan ctx (encScanReq reqs byfiles))]
    have h2 := C21_scan_request reqs byfiles []
    rw [List.append_nil] at h2
    show (decScanReq >>= _) _ = _
    rw [Dec.bind_ok h2]
    rfl
  cases hax : E.scan reqs byfiles with
  | error e =>
    cases e with
    | ub =>
      rw [remoteScan, remoteCall, serve, hd]
      simp only [handle, hax]
      rfl
    | exn x => exact remoteCall_throws E _ _ ctx _ _ hd x (by rw [handle, hax]; rfl)
  | ok p =>
    obtain ⟨n, errs⟩ := p
    rw [remoteScan, remoteCall_spec E _ decScanReply ctx _ _ hd errs (.ok (encScanReply n))
      (by rw [handle, hax]; rfl) (.ok n) (by
        intro b hb; cases hb; exact ⟨n, [], rfl, rfl⟩) (by intro e h; cases h)
      (Or.inr (by intro e h; cases h)), outcome]

/-- C41.  Forwarded scan. -/
theorem C41_forward_scan (E : Engine) (ctx : String) (sm : AMap String (List Nat)) (hk : sm.keys.Nodup) :
    remoteForwardScan E ctx sm = match E.forwardScan sm with
      | .ok (n, errs) => if errs = [] then .ok n else throwExn .remote
      | .error .ub => undef
      | .error (.exn _) => throwExn .remote := by
  have hd : dispatch (encHeader .forwardScan ctx ++ encForwardScan sm)
      = .ok ((ctx, .forwardScan sm), []) := by
    rw [dispatch, Dec.bind_ok (C21_header .forwardScan ctx (encForwardScan sm))]
    have h2 := C21_forward_scan_request sm hk []
    rw [List.append_nil] at h2
    show (decForwardScan >>= _) _ = _
    rw [Dec.bind_ok h2]
    rfl
  cases hax : E.forwardScan sm with
  | error e =>
    cases e with
    | ub =>
      rw [remoteForwardScan, remoteCall, serve, hd]
      simp only [handle, hax]
      rfl
    | exn x => exact remoteCall_throws E _ _ ctx _ _ hd x (by rw [handle, hax]; rfl)
  | ok p =>
    obtain ⟨n, errs⟩ := p
    rw [remoteForwardScan, remoteCall_spec E _ decScanReply ctx _ _ hd errs (.ok (encScanReply n))
      (by rw [handle, hax]; rfl) (.ok n) (by
        intro b hb; cases hb; exact ⟨n, [], rfl, rfl⟩) (by intro e h; cases h)
      (Or.inr (by intro e h; cases h)), outcome]

theorem orderedResults_ok (rs : List ExRequest) (m : AMap String Item) (out : List WireResult)
    (hd : (rs.map (·.request)).Nodup)
    (h : rs.map (fun r => (m.find r.request).bind (·.result)) = out.map some) :
    orderedResults rs m = .ok (out.map some) := by
  induction rs generalizing m out with
  | nil => cases out with
    | nil => rfl
    | cons o out => simp at h
  | cons r rs ih =>
    cases out with
    | nil => simp at h
    | cons o out =>
      simp only [List.map_cons, List.cons.injEq] at h
      rw [List.map_cons, List.nodup_cons] at hd
      rw [orderedResults]
      cases hf : m.find r.request with
      | none => rw [hf] at h; simp at h
      | some it =>
        rw [hf] at h
        simp only
        rw [ih (m.set r.request { it with result := none }) out hd.2 (by
          rw [← h.2]
          apply List.map_congr_left
          intro x hx
          rw [AMap.find_set, if_neg]
          intro e
          exact hd.1 (e ▸ List.mem_map.mpr ⟨x, hx, rfl⟩)), ok_bind, List.map_cons]
        rw [show it.result = some o from h.1]

/-- C41.  Remote extract, when the engine answers: the requests keep their number and are distinct,
every one has a result in the result map.  The client gets exactly these results, in request order;
if the report holds errors it gets `RemoteException`. -/
theorem C41_remote_extract (E : Engine) (ctx : String) (reqs reqs' : List ExRequest)
    (hf : ∀ r ∈ reqs, r.Fits) (m : AMap String Item) (errs : List String)
    (hE : E.extract reqs = .ok (reqs', m, errs)) (hl : reqs'.length = reqs.length)
    (hd' : (reqs'.map (·.request)).Nodup) (out : List WireResult)
    (ho : reqs'.map (fun r => (m.find r.request).bind (·.result)) = out.map some)
    (hof : ∀ r ∈ out, WireResult.Fits r) :
    remoteExtract E ctx reqs = if errs = [] then .ok out else throwExn .remote := by
  have hd : dispatch (encHeader .extract ctx ++ encExtractReq reqs)
      = .ok ((ctx, .extract reqs), []) := by
    rw [dispatch, Dec.bind_ok (C21_header .extract ctx (encExtractReq reqs))]
    have h2 := C21_extract_request reqs hf []
    rw [List.append_nil] at h2
    show (decExtractReq >>= _) _ = _
    rw [Dec.bind_ok h2]
    rfl
  have hol : out.length = reqs.length := by
    have := congrArg List.length ho
    simp only [List.length_map] at this; omega
  obtain ⟨bytes, hb, hr⟩ := C21_extract_reply out hof []
  rw [List.append_nil] at hr
  have hrep : replyExtract reqs' m = .ok bytes := by
    rw [replyExtract, orderedResults_ok reqs' m out hd' ho, ok_bind, hb]
  rw [remoteExtract, remoteCall_spec E _ (decExtractReply reqs.length) ctx _ _ hd errs (.ok bytes)
    (by rw [handle, hE, ok_bind]; simp only; rw [hrep]) (.ok out) (by
      intro b hb'; cases hb'; exact ⟨out, [], rfl, by rw [← hol]; exact hr⟩) (by intro e h; cases h)
    (Or.inr (by intro e h; cases h)), outcome]

/-- C41.  Remote extract, when the engine throws. -/
theorem C41_remote_extract_throws (E : Engine) (ctx : String) (reqs : List ExRequest)
    (hf : ∀ r ∈ reqs, r.Fits) (x : Exn) (hE : E.extract reqs = throwExn x) :
    remoteExtract E ctx reqs = throwExn .remote := by
  have hd : dispatch (encHeader .extract ctx ++ encExtractReq reqs)
      = .ok ((ctx, .extract reqs), []) := by
    rw [dispatch, Dec.bind_ok (C21_header .extract ctx (encExtractReq reqs))]
    have h2 := C21_extract_request reqs hf []
    rw [List.append_nil] at h2
    show (decExtractReq >>= _) _ = _
    rw [Dec.bind_ok h2]
    rfl
  exact remoteCall_throws E _ _ ctx _ _ hd x (by rw [handle, hE]; rfl)

/-- A result missing from the map: the client gets `RemoteException`, not a shorter list. -/
theorem C41_missing_result (E : Engine) (ctx : String) (reqs reqs' : List ExRequest)
    (hf : ∀ r ∈ reqs, r.Fits) (m : AMap String Item) (errs : List String)
    (hE : E.extract reqs = .ok (reqs', m, errs)) (hne : reqs ≠ [])
    (hm : replyExtract reqs' m = throwExn .assertFailed) :
    remoteExtract E ctx reqs = throwExn .remote := by
  have hd : dispatch (encHeader .extract ctx ++ encExtractReq reqs)
      = .ok ((ctx, .extract reqs), []) := by
    rw [dispatch, Dec.bind_ok (C21_header .extract ctx (encExtractReq reqs))]
    have h2 := C21_extract_request reqs hf []
    rw [List.append_nil] at h2
    show (decExtractReq >>= _) _ = _
    rw [Dec.bind_ok h2]
    rfl
  rw [remoteExtract, remoteCall_spec E _ (decExtractReply reqs.length) ctx _ _ hd errs
    (throwExn .assertFailed) (by rw [handle, hE, ok_bind]; simp only; rw [hm])
    (throwExn .assertFailed) (by intro b h; cases h) (by intro e h; cases h; rfl) (Or.inl (by
      cases reqs with
      | nil => exact absurd rfl hne
      | cons r rs =>
        rw [decExtractReply, List.length_cons, Dec.times]
        apply Dec.bind_error
        apply Dec.bind_error
        rfl)), outcome]
  split <;> rfl

theorem dispatch_forwardExtract (ctx : String) (fm sent : FileMap) (hsent : sent = (encForwardExtract fm).2)
    (hk : fm.keys.Nodup) (hf : ∀ f ∈ fm, ∀ i ∈ f.2, i.request.Fits) (hne : ∃ f ∈ fm, f.2 ≠ []) :
    dispatch (encHeader .forwardExtract ctx ++ (encForwardExtract fm).1)
      = .ok ((ctx, .forwardExtract (sent.map fun f => (f.1, f.2.map received))), []) := by
  obtain ⟨h1, -, -⟩ := C21_forward_extract_request fm hk hf []
  rw [List.append_nil, ← hsent] at h1
  rw [dispatch, Dec.bind_ok (C21_header .forwardExtract ctx _)]
  show (decForwardExtract >>= _) _ = _
  rw [Dec.bind_ok h1]
  show (Dec.lift (cassert (decide ((List.map (fun f => f.2.length)
    (sent.map fun f => (f.1, f.2.map received))).sum > 0))) >>= _) [] = _
  rw [Dec.bind_ok (lift_cassert (decide_eq_true ?_) _)]
  · rfl
  · obtain ⟨f, hfm, hfn⟩ := hne
    obtain ⟨k, hk', hfk⟩ := List.getElem_of_mem hfm
    have hks : sent[k]? = some (f.1, sortByOffset f.2) := by
      rw [hsent]
      show (fm.map _)[k]? = _
      rw [List.getElem?_map, List.getElem?_eq_getElem hk', hfk]; rfl
    have hmem : (sortByOffset f.2).length ∈
        List.map (fun f => f.2.length) (sent.map fun f => (f.1, f.2.map received)) := by
      refine List.mem_map.mpr ⟨(f.1, (sortByOffset f.2).map received), ?_, by simp⟩
      exact List.mem_map.mpr ⟨_, List.mem_of_getElem? hks, rfl⟩
    have hpos : 0 < (sortByOffset f.2).length := by
      rw [(sortByOffset_perm f.2).length_eq]
      exact List.length_pos_iff.mpr hfn
    have : ∀ (l : List Nat) (a : Nat), a ∈ l → a ≤ l.sum := by
      intro l
      induction l with
      | nil => intro a h; cases h
      | cons b l ih =>
        intro a h
        rw [List.sum_cons]
        rcases List.mem_cons.mp h with rfl | h
        · omega
        · have := ih a h; omega
    exact Nat.lt_of_lt_of_le hpos (this _ _ hmem)

/-- C41.  Forwarded extract.  `sent` are the caller's items, sorted by offset within each file.  The
peer works on the same messages, ranges and hashes; item `j` of each file gets the result the peer
computed for item `j` of that file. -/
theorem C41_forward_extract (E : Engine) (ctx : String) (fm sent served : FileMap)
    (hsent : sent = (encForwardExtract fm).2) (hk : fm.keys.Nodup)
    (hf : ∀ f ∈ fm, ∀ i ∈ f.2, i.request.Fits) (hne : ∃ f ∈ fm, f.2 ≠ []) (errs : List String)
    (hE : E.forwardExtract (sent.map fun f => (f.1, f.2.map received)) = .ok (served, errs))
    (hs : sameShape sent served) (hr : Served served) :
    remoteForwardExtract E ctx fm = if errs = [] then .ok (withResults sent served) else throwExn .remote := by
  obtain ⟨h1, h2, h3⟩ := C21_forward_extract_request fm hk hf []
  rw [List.append_nil, ← hsent] at h1
  rw [← hsent] at h2
  have hd := dispatch_forwardExtract ctx fm sent hsent hk hf hne
  obtain ⟨bytes, hb, hrep⟩ := C21_forward_extract_reply sent served (by rw [h2]; exact hk) hs hr []
  rw [List.append_nil] at hrep
  rw [remoteForwardExtract, ← hsent, remoteCall_spec E _ (decForwardReply sent) ctx _ _ hd errs (.ok bytes)
    (by rw [handle, hE, ok_bind]; simp only; rw [hb]) (.ok (withResults sent served)) (by
      intro b hb'; cases hb'; exact ⟨_, [], rfl, hrep⟩) (by intro e h; cases h)
    (Or.inr (by intro e h; cases h)), outcome]

/-! ## Non-vacuity -/

/-- An engine that answers every extraction with one value per range. -/
def sampleEngine : Engine where
  extract rs := .ok (rs, rs.map (fun r => (r.request,
    { request := r, uri := ⟨"file", "", 0, "/d/a", 7⟩,
      result := some ⟨r.ranges.map (fun i => [UInt64.ofNat i.b]), r.ranges.map (fun _ => [1])⟩ })), [])
  axes _ _ := .ok [("step", ["0", "6"]), ("levtype", ["sfc"])]
  scan _ _ := .ok (3, [])
  forwardExtract fm := .ok (fm.map fun f => (f.1, f.2.map fun i =>
    { i with result := some ⟨i.request.ranges.map (fun r => [UInt64.ofNat r.b]), [[1]]⟩ }), [])
  forwardScan sm := .ok ((sm.map fun f => f.2.length).sum, [])

def sampleReqs : List ExRequest :=
  [⟨"class=od,step=0", [⟨0, 3⟩, ⟨7, 9⟩], "abc"⟩, ⟨"class=od,step=6", [], "abc"⟩]

def sampleFiles : FileMap :=
  [("/d/a", [⟨⟨"x", [⟨1, 4⟩], "h"⟩, ⟨"file", "", 0, "/d/a", 100⟩, some ⟨[], []⟩⟩,
             ⟨⟨"y", [⟨2, 5⟩], "h"⟩, ⟨"file", "", 0, "/d/a", 20⟩, some ⟨[], []⟩⟩]),
   ("/d/b", [⟨⟨"z", [⟨3, 6⟩], "h"⟩, ⟨"file", "", 0, "/d/b", 0⟩, some ⟨[], []⟩⟩])]

example : ∀ r ∈ sampleReqs, r.Fits := by
  intro r hr i hi
  simp only [sampleReqs, List.mem_cons, List.not_mem_nil, or_false] at hr
  rcases hr with rfl | rfl
  · simp only [List.mem_cons, List.not_mem_nil, or_false] at hi
    rcases hi with rfl | rfl <;> simp
  · cases hi

example : remoteExtract sampleEngine "{}" sampleReqs
    = .ok [⟨[[0], [7]], [[1], [1]]⟩, ⟨[], []⟩] := by decide +kernel
example : remoteAxes sampleEngine "{}" "class=od" 1
    = .ok [("step", ["0", "6"]), ("levtype", ["sfc"])] := by decide +kernel
example : remoteForwardScan sampleEngine "{}" [("/d/a", [0, 10]), ("/d/b", [5])] = .ok 3 := by
  decide +kernel
/-- The item at offset 20 comes first in the reply and is given its own value. -/
example : (match remoteForwardExtract sampleEngine "{}" sampleFiles with
    | .ok fm => fm.flatMap fun f => f.2.map fun i => (f.1, i.request.request, (i.result.getD ⟨[], []⟩).values)
    | .error _ => [])
    = [("/d/a", "y", [[2]]), ("/d/a", "x", [[1]]), ("/d/b", "z", [[3]])] := by
  decide +kernel
example : sameShape (encForwardExtract sampleFiles).2
    ((encForwardExtract sampleFiles).2.map fun f => (f.1, f.2.map fun i =>
      { i with result := some ⟨[[1]], [[1]]⟩ })) := by
  simp [sameShape, List.map_map]
example : sampleFiles.keys.Nodup := by decide

end GJ
