import Verif.Lemmas.Cut
import Verif.Props.C22

/-!
# C43: connections that break

`Broken t`: the stream ends there, or the peer sends an exception there.
-/

namespace GJ

open Dec

/-! ## The server -/

theorem serve_broken (E : Engine) (input : List Tok) (x : String × ServerReq)
    (whole : dispatch input = .ok (x, [])) (k : Nat) (hk : k < input.length) (t : List Tok) (ht : Broken t) :
    serve E (input.take k ++ t) = .ok ([], [.exc "error"]) := by
  obtain ⟨u, hu, -, hc⟩ := dispatch_local input x [] whole
  rw [List.append_nil] at hu
  have h := hc (input.take k) (input.drop k) (by rw [List.take_append_drop, ← hu])
    (by intro e; have := congrArg List.length e; rw [List.length_drop] at this; simp at this; omega) t ht.stuck
  rw [serve, h]

/-- C43.  If the connection breaks before the last item of a request has arrived, the server does nothing (the list of
engine calls is empty) and answers with an exception.  This holds for each of the five requests, for every place where the
connection breaks. -/
theorem C43_broken_request (E : Engine) (ctx : String) (t : List Tok) (broken : Broken t) (k : Nat) :
    (∀ reqs, (∀ r ∈ reqs, r.Fits) → let whole := encHeader .extract ctx ++ encExtractReq reqs
      k < whole.length → serve E (whole.take k ++ t) = .ok ([], [.exc "error"])) ∧
    (∀ request level, 0 < request.length → let whole := encHeader .axes ctx ++ encAxesReq request level
      k < whole.length → serve E (whole.take k ++ t) = .ok ([], [.exc "error"])) ∧
    (∀ reqs byfiles, let whole := encHeader .scan ctx ++ encScanReq reqs byfiles
      k < whole.length → serve E (whole.take k ++ t) = .ok ([], [.exc "error"])) ∧
    (∀ sm : AMap String (List Nat), sm.keys.Nodup → let whole := encHeader .forwardScan ctx ++ encForwardScan sm
      k < whole.length → serve E (whole.take k ++ t) = .ok ([], [.exc "error"])) ∧
    (∀ fm : FileMap, fm.keys.Nodup → (∀ f ∈ fm, ∀ i ∈ f.2, i.request.Fits) → (∃ f ∈ fm, f.2 ≠ []) →
      let whole := encHeader .forwardExtract ctx ++ (encForwardExtract fm).1
      k < whole.length → serve E (whole.take k ++ t) = .ok ([], [.exc "error"])) := by
  refine ⟨?_, ?_, ?_, ?_, ?_⟩
  · intro reqs hf whole hk
    refine serve_broken E whole (ctx, .extract reqs) ?_ k hk t broken
    have h2 := C21_extract_request reqs hf []
    rw [List.append_nil] at h2
    rw [dispatch, Dec.bind_ok (C21_header .extract ctx (encExtractReq reqs))]
    show (decExtractReq >>= _) _ = _
    rw [Dec.bind_ok h2]; rfl
  · intro request level hr whole hk
    refine serve_broken E whole (ctx, .axes request level) ?_ k hk t broken
    have h2 := C21_axes_request request level []
    rw [List.append_nil] at h2
    rw [dispatch, Dec.bind_ok (C21_header .axes ctx (encAxesReq request level))]
    show (decAxesReq >>= _) _ = _
    rw [Dec.bind_ok h2]
    show (Dec.lift (cassert (decide (request.length > 0))) >>= _) [] = _
    rw [Dec.bind_ok (lift_cassert (decide_eq_true hr) _)]; rfl
  · intro reqs byfiles whole hk
    refine serve_broken E whole (ctx, .scan reqs byfiles) ?_ k hk t broken
    have h2 := C21_scan_request reqs byfiles []
    rw [List.append_nil] at h2
    rw [dispatch, Dec.bind_ok (C21_header .scan ctx (encScanReq reqs byfiles))]
    show (decScanReq >>= _) _ = _
    rw [Dec.bind_ok h2]; rfl
  · intro sm hk' whole hk
    refine serve_broken E whole (ctx, .forwardScan sm) ?_ k hk t broken
    have h2 := C21_forward_scan_request sm hk' []
    rw [List.append_nil] at h2
    rw [dispatch, Dec.bind_ok (C21_header .forwardScan ctx (encForwardScan sm))]
    show (decForwardScan >>= _) _ = _
    rw [Dec.bind_ok h2]; rfl
  · intro fm hn hf hne whole hk
    exact serve_broken E whole _ (dispatch_forwardExtract ctx fm _ rfl hn hf hne) k hk t broken

/-! ## The client -/

/-- An answer that is read to its last item is refused when it breaks off anywhere. -/
def NeverShort {α : Type} (reply : Dec α) : Prop :=
  ∀ (out : List Tok) (a : α), ((do let _ ← decErrors true; reply) : Dec α) out = .ok (a, []) →
    clientRead reply out = .ok a ∧
    ∀ k, k < out.length → ∀ t, Broken t → clientRead reply (out.take k ++ t) = throwExn (brokenExn t)

theorem Dec.Local.neverShort {α : Type} {reply : Dec α} (h : Local reply) : NeverShort reply := by
  intro out a hr
  refine ⟨by rw [clientRead, hr]; rfl, ?_⟩
  intro k hk t ht
  obtain ⟨u, hu, -, hc⟩ := ((decErrors_local true).bind fun _ => h) out a [] hr
  rw [List.append_nil] at hu
  have h := hc (out.take k) (out.drop k) (by rw [List.take_append_drop, ← hu])
    (by intro e; have := congrArg List.length e; rw [List.length_drop] at this; simp at this; omega) t ht.stuck
  rw [clientRead, h]; rfl

/-- C43.  If the connection breaks before the last item of an answer has arrived, or the server sends an exception instead
of going on, the call throws: no call returns part of an answer, or an answer padded with something else.  This holds for
each of the answers, at every place. -/
theorem C43_broken_reply :
    (∀ n, NeverShort (decExtractReply n)) ∧ NeverShort decScanReply ∧ NeverShort decAxesReply ∧
      ∀ fm, NeverShort (decForwardReply fm) :=
  ⟨fun n => (decExtractReply_local n).neverShort, Local.ulong.neverShort, decAxesReply_local.neverShort,
    fun fm => (decForwardReplyLoop_local fm.length fm).neverShort⟩

/-- C43.  The whole way, for an extraction: the server has computed `results` without errors.  Read in full, the answer
gives these results; broken off after any number of items, the call throws. -/
theorem C43_extract_all_or_nothing (E : Engine) (ctx : String) (reqs reqs' : List ExRequest)
    (fits : ∀ r ∈ reqs, r.Fits) (m : AMap String Item) (computed : E.extract reqs = .ok (reqs', m, []))
    (length : reqs'.length = reqs.length) (distinct : (reqs'.map (·.request)).Nodup) (results : List WireResult)
    (found : reqs'.map (fun r => (m.find r.request).bind (·.result)) = results.map some)
    (resultsFit : ∀ r ∈ results, WireResult.Fits r) :
    ∃ out, serve E (encHeader .extract ctx ++ encExtractReq reqs) = .ok ([.extract reqs], out) ∧
      clientRead (decExtractReply reqs.length) out = .ok results ∧
      ∀ k, k < out.length → ∀ t, Broken t →
        clientRead (decExtractReply reqs.length) (out.take k ++ t) = throwExn (brokenExn t) := by
  have hd : dispatch (encHeader .extract ctx ++ encExtractReq reqs) = .ok ((ctx, .extract reqs), []) := by
    rw [dispatch, Dec.bind_ok (C21_header .extract ctx (encExtractReq reqs))]
    have h2 := C21_extract_request reqs fits []
    rw [List.append_nil] at h2
    show (decExtractReq >>= _) _ = _
    rw [Dec.bind_ok h2]; rfl
  obtain ⟨bytes, hb, hr⟩ := C21_extract_reply results resultsFit []
  rw [List.append_nil] at hr
  have hlen : results.length = reqs.length := by
    have := congrArg List.length found
    simp only [List.length_map] at this
    omega
  rw [hlen] at hr
  refine ⟨encErrors [] ++ bytes, ?_, ?_⟩
  · rw [serve, hd]
    simp only
    rw [handle, computed, ok_bind]
    simp only
    rw [replyExtract, orderedResults_ok reqs' m results distinct found, ok_bind, hb]
  · have hread : ((do let _ ← decErrors true; decExtractReply reqs.length) : Dec _) (encErrors [] ++ bytes)
        = .ok (results, []) := by rw [decErrors_prefix, if_pos rfl, hr]
    exact C43_broken_reply.1 reqs.length _ results hread

/-! ## Non-vacuity -/

example : Broken [] ∧ Broken [.exc "error"] ∧ ¬ Broken [.ulong 1] := ⟨trivial, trivial, fun h => h⟩

/-- Two requests: the answer has 19 items; cut after 12 of them the call throws. -/
example :
    let whole := encHeader .extract "{}" ++ encExtractReq sampleReqs
    (match serve sampleEngine whole with
      | .ok (_, out) => decide (out.length = 19) && decide ((clientRead (decExtractReply 2) out).map List.length = .ok 2) &&
          decide (clientRead (decExtractReply 2) (out.take 12) = throwExn .streamError) &&
          decide (clientRead (decExtractReply 2) (out.take 12 ++ [.exc "error"]) = throwExn .remote)
      | .error _ => false) = true ∧
    serve sampleEngine (whole.take 9) = .ok ([], [.exc "error"]) := by
  decide +kernel

end GJ
