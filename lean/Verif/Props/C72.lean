import Verif.Lemmas.Metrics
import Verif.Props.C51
import Verif.Props.C52
import Verif.Props.C63

/-!
# C72: what the metrics line of a connection says

Operators see of a request only the line the server writes for it.  The line must tell what was asked, how much, by whom
(context), and whether the client got its answer; and there must be exactly one.
-/

namespace GJ
open Spec

/-- An engine is that of some node: any FDB, any data, any configuration, any schedule of its workers. -/
def IsNode (M : MEngine) : Prop :=
  ∃ (Q : Type) (E : ExtEnv) (C : EngineConf) (sched : List Nat) (S : ScanEnv) (SC : ScanConf) (c : Cache)
    (scanSched : List ScanEv) (A : AxesEnv Q) (text : Q → String), M = nodeMEngine E C sched S SC c scanSched A text

theorem IsNode.tells {M : MEngine} (h : IsNode M) : M.Tells := by
  obtain ⟨Q, E, C, sched, S, SC, c, scanSched, A, text, rfl⟩ := h
  exact node_tells E C sched S SC c scanSched A text

/-! ## Recording changes nothing -/

theorem scheduleTasksM_snd (E : ExtEnv) (C : EngineConf) (fwd : Bool) (m : ItemMap) (fm : KeyMap) (sched : List Nat) :
    (scheduleTasksM E C fwd m fm sched).2 = scheduleTasks E C fwd m fm sched := by
  rw [scheduleTasksM, log_bind_snd]
  show (plannedTasks C fwd m fm >>= _) = _
  rw [scheduleTasks, plannedTasks]
  cases fwd with
  | true =>
    rw [if_pos rfl, if_pos rfl]
    cases serverFileMap C m fm with
    | error e => rfl
    | ok sm =>
      simp only [ok_bind, log_bind_snd]
      show (runTasks E C m _ sched >>= _) = _
      cases runTasks E C m _ sched <;> rfl
  | false =>
    show (localTasks C m false fm >>= _) = (localTasks C m false fm >>= _)
    cases localTasks C m false fm with
    | error e => rfl
    | ok ts =>
      simp only [ok_bind, log_bind_snd]
      show (runTasks E C m _ sched >>= _) = _
      cases runTasks E C m _ sched <;> rfl

theorem scanTasksM_snd (E : ScanEnv) (c : Cache) (kinds : List ScanKind) (sched : List ScanEv) :
    (scanTasksM E c kinds sched).2 = scanTasks E c kinds sched >>= fun x => .ok (x.1, x.2.1) := by
  rw [scanTasksM, log_bind_snd]
  show (scanTasks E c kinds sched >>= _) = _
  cases scanTasks E c kinds sched <;> rfl

theorem scheduleScanM_snd (E : ScanEnv) (c : Cache) (sm : ScanMap) (sched : List ScanEv) :
    (scheduleScanM E c sm sched).2 = scheduleScan E c sm sched >>= fun x => .ok (x.1, x.2.1) := by
  rw [scheduleScanM, log_bind_snd, scanTasksM_snd, scheduleScan]
  cases scanTasks E c _ sched <;> rfl

/-- C72.  The engine that records does the same work as the engine of the other properties. -/
theorem C72_engine {Q : Type} (E : ExtEnv) (C : EngineConf) (sched : List Nat) (S : ScanEnv) (SC : ScanConf) (c : Cache)
    (scanSched : List ScanEv) (A : AxesEnv Q) (text : Q → String) :
    (nodeMEngine E C sched S SC c scanSched A text).plain =
      nodeEngine E C sched (localAxes A) (fun rs b => engineScan S SC c rs b scanSched >>= fun x => .ok (x.1, x.2.1))
        (fun sm => serverForwardScan S c scanSched sm) := by
  rw [MEngine.plain, nodeEngine, Engine.mk.injEq]
  refine ⟨?_, ?_, ?_, ?_, ?_⟩
  · funext rs
    show (engineExtractM E C sched rs).2 = engineExtract E C sched rs
    rw [engineExtractM, engineExtract, log_bind_snd]
    show (buildRequestMap C.ignoreYearMonth rs >>= _) = _
    cases buildRequestMap C.ignoreYearMonth rs with
    | error e => rfl
    | ok x =>
      obtain ⟨rs', u, m⟩ := x
      simp only [ok_bind, log_bind_snd]
      show (E.list u >>= _) = _
      cases E.list u with
      | error e => rfl
      | ok listing =>
        simp only [ok_bind]
        show (fileMap C listing m >>= _) = _
        cases fileMap C listing m with
        | error e => rfl
        | ok y =>
          obtain ⟨m1, fm⟩ := y
          simp only [ok_bind]
          show ((scheduleTasksM E C C.forward m1 fm sched).2 >>= _) = _
          rw [scheduleTasksM_snd]
          cases scheduleTasks E C C.forward m1 fm sched with
          | error e => rfl
          | ok z => rfl
  · funext r l
    show (localAxesM A text r l).2 = localAxes A r l
    rw [localAxesM, localAxes, log_bind_snd]
    show (A.parse r >>= _) = _
    cases A.parse r with
    | error e => rfl
    | ok qs =>
      match qs with
      | [] => rfl
      | [q] =>
        simp only [ok_bind, log_bind_snd]
        show (A.fdb q l >>= _) = _
        cases A.fdb q l <;> rfl
      | _ :: _ :: _ => rfl
  · funext rs b
    show (engineScanM S SC c scanSched rs b).2 = _
    rw [engineScanM, engineScan, log_bind_snd]
    show (listUris S rs >>= _) = _
    cases listUris S rs with
    | error e => rfl
    | ok us =>
      simp only [ok_bind]
      by_cases h : us = []
      · rw [if_pos h, if_pos h]; rfl
      · rw [if_neg h, if_neg h]
        by_cases hf : SC.forwardScan = true
        · rw [if_pos hf, if_pos hf, forwarderScanM, forwarderScan, log_bind_snd]
          show (cassert _ >>= _) = _
          cases cassert (decide (0 < us.length)) with
          | error e => rfl
          | ok _ =>
            simp only [ok_bind, log_bind_snd]
            show (serverScans SC us [] >>= _) = _
            cases serverScans SC us [] with
            | error e => rfl
            | ok m => simp only [ok_bind]; exact scanTasksM_snd S c _ scanSched
        · rw [if_neg hf, if_neg hf]
          exact scheduleScanM_snd S c _ scanSched
  · funext fm
    show (serverForwardM E C sched fm).2 = serverForward E C sched fm
    rw [serverForwardM, serverForward]
    show (scheduleTasksM E C false _ _ sched >>= _ : Log _).2 = _
    rw [log_bind_snd, scheduleTasksM_snd]
    show _ = (scheduleTasks E C false (numFiles 0 fm).1 (numFiles 0 fm).2 sched >>= _)
    cases scheduleTasks E C false (numFiles 0 fm).1 (numFiles 0 fm).2 sched <;> rfl
  · funext sm
    show (scheduleScanM S c sm scanSched).2 = serverForwardScan S c scanSched sm
    rw [scheduleScanM_snd, serverForwardScan]

theorem connection_left {valid : String → Bool} {M : MEngine} (T : M.Tells) (id : Nat) (room : Option Nat)
    {input : List Tok} {cs : List ServerReq} {full : List Tok} (h : serve M.plain input = .ok (cs, full)) :
    ∃ c, Left M id room input cs full c ∧ connection valid M id room input = .ok ⟨c.calls, c.out,
      if valid c.context then some c.line else none, (c.values.find "gribjump_request_id").isSome⟩ := by
  obtain ⟨c, hc, hl⟩ := serveConn_left T id room h
  refine ⟨c, hl, ?_⟩
  rw [connection, hc]
  rfl

/-- C72 (except when the client's context is not JSON, see `C72_bad_context_no_line`).  Every connection ends with exactly one
line, wherever the client stops reading, and recording changes neither what the engine is asked nor what the client
reads. -/
theorem C72_one_line_partial (valid : String → Bool) (M : MEngine) (node : IsNode M) (id : Nat) (room : Option Nat)
    (input : List Tok) (cs : List ServerReq) (full : List Tok) (served : serve M.plain input = .ok (cs, full)) :
    ∃ r, connection valid M id room input = .ok r ∧ r.calls = cs ∧ r.out = takenBy room full ∧
      (r.line.isSome = true ↔ valid ((contextSent input).getD "{}") = true) := by
  obtain ⟨c, hl, hc⟩ := connection_left (valid := valid) node.tells id room served
  refine ⟨_, hc, hl.calls, hl.out, ?_⟩
  rw [← hl.context]
  simp only
  cases valid c.context <;> simp

/-- C72.  Undefined behaviour of the engine or of the encoding is not hidden. -/
theorem C72_undefined (valid : String → Bool) (M : MEngine) (id : Nat) (input : List Tok)
    (h : serve M.plain input = undef) : connection valid M id none input = undef := by
  have hres := receive_result id none input
  rw [connection, serveConn_eq]
  rw [serve] at h
  match hd : dispatch input with
  | .error .ub =>
    rw [hd] at hres
    have hx : receive id (Conn.start none input) = ((receive id (Conn.start none input)).1, .error .ub) := by
      rw [← show (receive id (Conn.start none input)).2 = .error .ub from hres]
    rw [met_bind_error hx]
    rfl
  | .error (.exn e) => rw [hd] at h; cases h
  | .ok ((ctx, req), rest) =>
    rw [hd] at h hres
    simp only at h
    have hx : receive id (Conn.start none input) = ((receive id (Conn.start none input)).1, .ok req) := by
      rw [← show (receive id (Conn.start none input)).2 = .ok req from hres]
    rw [met_bind_ok hx, finishRequest_eq, executeRequest_plain]
    have hun := receive_unseen id (Conn.start none input)
    generalize (receive id (Conn.start none input)).1 = c1 at hx hun
    have hsame := afterEngine_same M req c1
    have hroom : (afterEngine M req c1).room = none := by rw [hsame.2.2.1, hun.room]; rfl
    match hh : handle M.plain req with
    | .error .ub => rfl
    | .error (.exn e) => rw [hh] at h; cases h
    | .ok (errs, .ok b) => rw [hh] at h; cases h
    | .ok (errs, .error (.exn x)) => rw [hh] at h; cases h
    | .ok (errs, .error .ub) =>
      simp only
      generalize afterEngine M req c1 = c2 at hroom
      obtain ⟨context, values, requests, input', out, calls, room⟩ := c2
      cases (show room = none from hroom)
      rfl

theorem find_append (a b : AMap String MVal) (k : String) : AMap.find (a ++ b) k = (AMap.find a k).or (AMap.find b k) := by
  induction a with
  | nil => rfl
  | cons x xs ih =>
    obtain ⟨k', v⟩ := x
    rw [List.cons_append, AMap.find, AMap.find]
    by_cases e : k' = k
    · rw [if_pos e, if_pos e]; rfl
    · rw [if_neg e, if_neg e, ih]

theorem line_value (c : Conn) {k : String} (h1 : k ∉ ["process", "start_time", "end_time", "run_time"])
    (h2 : k ∉ ["mars_requests", "context"]) : c.line.find k = c.values.find k := by
  have hx : ∀ (l : AMap String MVal), k ∉ l.keys → l.find k = none := fun l h => (AMap.find_eq_none_iff l k).mpr h
  rw [Conn.line, find_append, find_append,
    hx [("process", _), ("start_time", _), ("end_time", _), ("run_time", _)] h1, hx [("mars_requests", _), ("context", _)] h2]
  cases AMap.find c.values k <;> rfl

/-- What the line of a connection shows. -/
theorem line_find (c : Conn) (h : Within connNames (Conn.start none []) c) :
    c.line.keys.Nodup ∧ (∀ k ∈ connNames, c.line.find k = c.values.find k) ∧
      c.line.find "context" = some (.json c.context) := by
  obtain ⟨hn, hk⟩ := h
  have hn := hn (by decide)
  have hk : ∀ k ∈ c.values.keys, k ∈ connNames := fun k h => (hk k h).elim (fun h => by cases h) id
  have hkeys : c.line.keys = ["process", "start_time", "end_time", "run_time"] ++ c.values.keys ++
      ["mars_requests", "context"] := by
    rw [Conn.line, AMap.keys, List.map_append, List.map_append]; rfl
  have apart : ∀ k ∈ connNames, k ∉ ["process", "start_time", "end_time", "run_time"] ∧
      k ∉ ["mars_requests", "context"] := by decide
  refine ⟨?_, ?_, ?_⟩
  · rw [hkeys]
    rw [List.nodup_append, List.nodup_append]
    refine ⟨⟨by decide, hn, ?_⟩, by decide, ?_⟩
    · intro a ha b hb e
      subst e
      exact (apart a (hk a hb)).1 ha
    · intro a ha b hb e
      subst e
      rcases List.mem_append.mp ha with ha | ha
      · have no : ∀ a ∈ ["process", "start_time", "end_time", "run_time"], a ∉ ["mars_requests", "context"] := by decide
        exact no a ha hb
      · exact (apart a (hk a ha)).2 hb
  · intro k hkc
    exact line_value c (apart k hkc).1 (apart k hkc).2
  · have h1 : c.values.find "context" = none := (AMap.find_eq_none_iff _ _).mpr fun h =>
      (apart _ (hk _ h)).2 (by decide)
    rw [Conn.line, find_append, find_append, h1]
    rfl

/-- Everything there is to say about the line, from which the properties below are read off. -/
theorem line_left {valid : String → Bool} {M : MEngine} (T : M.Tells) {id : Nat} {room : Option Nat}
    {input : List Tok} {cs : List ServerReq} {full : List Tok} (served : serve M.plain input = .ok (cs, full)) {r : ConnEnd}
    (h : connection valid M id room input = .ok r) {L : AMap String MVal} (hl : r.line = some L) :
    ∃ c, Left M id room input cs full c ∧ L.keys.Nodup ∧ (∀ k ∈ connNames, L.find k = c.values.find k) ∧
      L.find "context" = some (.json c.context) := by
  obtain ⟨c, left, hc⟩ := connection_left (valid := valid) T id room served
  rw [hc] at h
  cases h
  simp only at hl
  have hL : L = c.line := by
    split at hl
    · exact (Option.some.inj hl).symm
    · cases hl
  subst hL
  exact ⟨c, left, line_find c left.within⟩

/-- C72.  No name occurs twice in a line. -/
theorem C72_names_once (valid : String → Bool) (M : MEngine) (node : IsNode M) (id : Nat) (room : Option Nat)
    (input : List Tok) (cs : List ServerReq) (full : List Tok) (served : serve M.plain input = .ok (cs, full))
    (r : ConnEnd) (h : connection valid M id room input = .ok r) (L : AMap String MVal) (hl : r.line = some L) :
    (L.map Prod.fst).Nodup := by
  obtain ⟨c, -, hn, -⟩ := line_left node.tells served h hl
  exact hn

/-- C72.  The line tells the kind of the request the client sent, and has no kind if it sent none of the five. -/
theorem C72_action (valid : String → Bool) (M : MEngine) (node : IsNode M) (id : Nat) (room : Option Nat)
    (input : List Tok) (cs : List ServerReq) (full : List Tok) (served : serve M.plain input = .ok (cs, full))
    (r : ConnEnd) (h : connection valid M id room input = .ok r) (L : AMap String MVal) (hl : r.line = some L) :
    L.find "action" = ((typeSent input).bind actionName).map .text := by
  obtain ⟨c, left, -, hk, -⟩ := line_left node.tells served h hl
  rw [hk _ (by decide), left.begun _ (Or.inr rfl)]
  cases (typeSent input).bind actionName <;> rfl

/-- C72.  The line carries the context the client sent. -/
theorem C72_context (valid : String → Bool) (M : MEngine) (node : IsNode M) (id : Nat) (room : Option Nat)
    (input : List Tok) (cs : List ServerReq) (full : List Tok) (served : serve M.plain input = .ok (cs, full))
    (r : ConnEnd) (h : connection valid M id room input = .ok r) (L : AMap String MVal) (hl : r.line = some L) :
    L.find "context" = some (.json ((contextSent input).getD "{}")) := by
  obtain ⟨c, left, -, -, hc⟩ := line_left node.tells served h hl
  rw [hc, left.context]

/-- C72.  The line tells how much was asked for. -/
theorem C72_size (valid : String → Bool) (M : MEngine) (node : IsNode M) (id : Nat) (room : Option Nat)
    (input : List Tok) (cs : List ServerReq) (full : List Tok) (served : serve M.plain input = .ok (cs, full))
    (r : ConnEnd) (h : connection valid M id room input = .ok r) (L : AMap String MVal) (hl : r.line = some L)
    (req : ServerReq) (asked : req ∈ cs) (name : String) (n : Nat) (size : sizeAsked req = some (name, n)) :
    L.find name = some (.num n) := by
  obtain ⟨c, left, -, hk, -⟩ := line_left node.tells served h hl
  have hn : name ∈ connNames := by
    cases req <;> (first | (cases size; done) | (cases size; decide))
  rw [hk _ hn]
  exact left.size req asked name n size

/-- C72.  The line says `error` exactly if the client was sent an exception or went away before the end of the reply. -/
theorem C72_error (valid : String → Bool) (M : MEngine) (node : IsNode M) (id : Nat) (room : Option Nat)
    (input : List Tok) (cs : List ServerReq) (full : List Tok) (served : serve M.plain input = .ok (cs, full))
    (r : ConnEnd) (h : connection valid M id room input = .ok r) (L : AMap String MVal) (hl : r.line = some L) :
    L.find "error" ≠ none ↔ SentException full ∨ LeftEarly room full := by
  obtain ⟨c, left, -, hk, -⟩ := line_left node.tells served h hl
  rw [hk _ (by decide), ← left.error]
  cases AMap.find c.values "error" <;> simp

/-- C72.  When the engine returned, the line tells its first failure and how many tasks failed: the same as the error block
of the reply. -/
theorem C72_failed_tasks (valid : String → Bool) (M : MEngine) (node : IsNode M) (id : Nat) (room : Option Nat)
    (input : List Tok) (req : ServerReq) (errs : List String) (b full : List Tok)
    (answered : handle M.plain req = .ok (errs, .ok b)) (served : serve M.plain input = .ok ([req], full))
    (r : ConnEnd) (h : connection valid M id room input = .ok r) (L : AMap String MVal) (hl : r.line = some L) :
    full = encErrors errs ++ b ∧ L.find "first_error" = errs.head?.map .text ∧
      (errs ≠ [] → L.find "count_failed_tasks" = some (.num errs.length)) := by
  obtain ⟨c, left, -, hk, -⟩ := line_left node.tells served h hl
  have hx : (executeRequest M req).2 = .ok (errs, .ok b) := by rw [executeRequest_plain, answered]
  refine ⟨?_, ?_, fun hne => ?_⟩
  · rw [serve] at served
    match hd : dispatch input with
    | .error .ub => rw [hd] at served; cases served
    | .error (.exn e) => rw [hd] at served; cases served
    | .ok ((ctx, req'), rest) =>
      rw [hd] at served
      simp only at served
      match hh : handle M.plain req' with
      | .error .ub => rw [hh] at served; cases served
      | .error (.exn e) =>
        rw [hh] at served
        have e := (Prod.mk.inj (Except.ok.inj served)).1
        cases e
        rw [hh] at answered; cases answered
      | .ok (errs', body) =>
        rw [hh] at served
        match body with
        | .error .ub => cases served
        | .error (.exn e) =>
          have e := (Prod.mk.inj (Except.ok.inj served)).1
          cases e
          rw [hh] at answered; cases answered
        | .ok b' =>
          have e := (Prod.mk.inj (Except.ok.inj served)).1
          cases e
          rw [hh] at answered
          cases answered
          exact (Prod.mk.inj (Except.ok.inj served)).2.symm
  · rw [hk _ (by decide), left.engine _ (by decide)]
    exact node.tells.first req errs _ hx
  · rw [hk _ (by decide), left.engine _ (by decide)]
    exact node.tells.failed req errs _ hx hne

/-- C72.  A client that stays to the end succeeds exactly if the line has neither `error` nor `first_error`; the reply it
reads must be decodable, as C21 shows for every reply. -/
theorem C72_client_outcome {α : Type} (valid : String → Bool) (M : MEngine) (node : IsNode M) (id : Nat)
    (request : List Tok) (reply : Dec α) (ctx : String) (req : ServerReq) (tail : List Tok)
    (understood : dispatch request = .ok ((ctx, req), tail))
    (decodable : ∀ errs b, handle M.plain req = .ok (errs, .ok b) → ∃ a rest, reply b = .ok (a, rest))
    (waits : reply [.exc "error"] = .error (.exn .remote) ∨ ∀ errs x, handle M.plain req ≠ .ok (errs, throwExn x))
    (r : ConnEnd) (h : connection valid M id none request = .ok r) (L : AMap String MVal) (hl : r.line = some L) :
    (∃ a, remoteCall M.plain request reply = .ok a) ↔ L.find "error" = none ∧ L.find "first_error" = none := by
  match hh : handle M.plain req with
  | .error .ub =>
    have hs : serve M.plain request = undef := by rw [serve, understood]; simp only; rw [hh]
    rw [C72_undefined valid M id request hs] at h; cases h
  | .ok (errs, .error .ub) =>
    have hs : serve M.plain request = undef := by rw [serve, understood]; simp only; rw [hh]
    rw [C72_undefined valid M id request hs] at h; cases h
  | .error (.exn x) =>
    have hs : serve M.plain request = .ok ([req], [.exc "error"]) := by rw [serve, understood]; simp only; rw [hh]
    have he := (C72_error valid M node id none request _ _ hs r h L hl).mpr
      (Or.inl ⟨_, List.mem_singleton.mpr rfl⟩)
    rw [remoteCall_throws M.plain request reply ctx req tail understood x hh]
    exact ⟨fun ⟨a, ha⟩ => (by cases ha), fun hn => absurd hn.1 he⟩
  | .ok (errs, .error (.exn x)) =>
    have hs : serve M.plain request = .ok ([req], encErrors errs ++ [.exc "error"]) := by
      rw [serve, understood]; simp only; rw [hh]
    have he := (C72_error valid M node id none request _ _ hs r h L hl).mpr
      (Or.inl ⟨_, List.mem_append_right _ (List.mem_singleton.mpr rfl)⟩)
    rw [remoteCall_spec M.plain request reply ctx req tail understood errs (throwExn x) hh (throwExn x)
      (fun b hb => (by cases hb)) (fun e he => (by cases he; rfl)) (Or.inl (waits.resolve_right fun hw => hw errs x hh)), outcome]
    refine ⟨fun ⟨a, ha⟩ => ?_, fun hn => absurd hn.1 he⟩
    by_cases hn : errs = []
    · rw [if_pos hn] at ha; cases ha
    · rw [if_neg hn] at ha; cases ha
  | .ok (errs, .ok b) =>
    obtain ⟨a, rest, ha⟩ := decodable errs b hh
    have hs : serve M.plain request = .ok ([req], encErrors errs ++ b) := by
      rw [serve, understood]; simp only; rw [hh]
    have he := C72_error valid M node id none request _ _ hs r h L hl
    have hf := (C72_failed_tasks valid M node id none request req errs b _ hh hs r h L hl).2.1
    have hno : L.find "error" = none := by
      cases hx : L.find "error" with
      | none => rfl
      | some v =>
        rw [hx] at he
        rcases he.mp (by simp) with ⟨w, hw⟩ | ⟨k, hk, -⟩
        · exact absurd hw (((plain_errors errs).append (plain_handle hh)) w)
        · cases hk
    rw [remoteCall_spec M.plain request reply ctx req tail understood errs (.ok b) hh (.ok a)
      (fun b' hb => (by cases hb; exact ⟨a, rest, rfl, ha⟩)) (fun e he => (by cases he)) (Or.inr fun e he => (by cases he)), outcome, hno, hf]
    cases errs with
    | nil => exact ⟨fun _ => ⟨rfl, rfl⟩, fun _ => ⟨a, rfl⟩⟩
    | cons e es => exact ⟨fun ⟨a, ha⟩ => (by cases ha), fun hn => (by cases hn.2)⟩

/-- C72.  The same for a client that asks for a scan. -/
theorem C72_scan_outcome (valid : String → Bool) (M : MEngine) (node : IsNode M) (id : Nat) (ctx : String)
    (reqs : List String) (byfiles : Bool) (r : ConnEnd)
    (h : connection valid M id none (encHeader .scan ctx ++ encScanReq reqs byfiles) = .ok r) (L : AMap String MVal)
    (hl : r.line = some L) :
    (∃ n, remoteScan M.plain ctx reqs byfiles = .ok n) ↔ L.find "error" = none ∧ L.find "first_error" = none := by
  have hd : dispatch (encHeader .scan ctx ++ encScanReq reqs byfiles) = .ok ((ctx, .scan reqs byfiles), []) := by
    rw [dispatch, Dec.bind_ok (C21_header .scan ctx (encScanReq reqs byfiles))]
    have h2 := C21_scan_request reqs byfiles []
    rw [List.append_nil] at h2
    show (decScanReq >>= _) _ = _
    rw [Dec.bind_ok h2]
    rfl
  refine C72_client_outcome valid M node id _ decScanReply ctx _ _ hd (fun errs b hh => ?_) (Or.inl rfl) r h L hl
  rw [handle] at hh
  obtain ⟨⟨n, e⟩, -, hh⟩ := res_bind_inv hh
  cases hh
  exact ⟨n, [], rfl⟩

/-- C72.  The same for a client that asks for a forwarded scan. -/
theorem C72_forward_scan_outcome (valid : String → Bool) (M : MEngine) (node : IsNode M) (id : Nat) (ctx : String)
    (sm : AMap String (List Nat)) (once : sm.keys.Nodup) (r : ConnEnd)
    (h : connection valid M id none (encHeader .forwardScan ctx ++ encForwardScan sm) = .ok r) (L : AMap String MVal)
    (hl : r.line = some L) :
    (∃ n, remoteForwardScan M.plain ctx sm = .ok n) ↔ L.find "error" = none ∧ L.find "first_error" = none := by
  have hd : dispatch (encHeader .forwardScan ctx ++ encForwardScan sm) = .ok ((ctx, .forwardScan sm), []) := by
    rw [dispatch, Dec.bind_ok (C21_header .forwardScan ctx (encForwardScan sm))]
    have h2 := C21_forward_scan_request sm once []
    rw [List.append_nil] at h2
    show (decForwardScan >>= _) _ = _
    rw [Dec.bind_ok h2]
    rfl
  refine C72_client_outcome valid M node id _ decScanReply ctx _ _ hd (fun errs b hh => ?_) (Or.inl rfl) r h L hl
  rw [handle] at hh
  obtain ⟨⟨n, e⟩, -, hh⟩ := res_bind_inv hh
  cases hh
  exact ⟨n, [], rfl⟩

/-- C72.  The same for a client that asks for axes, whatever the FDB lists. -/
theorem C72_axes_outcome {Q : Type} (valid : String → Bool) (E : ExtEnv) (C : EngineConf) (sched : List Nat) (S : ScanEnv)
    (SC : ScanConf) (c : Cache) (scanSched : List ScanEv) (A : AxesEnv Q) (text : Q → String) (id : Nat)
    (ctx request : String) (level : Int) (written : request ≠ "")
    (names : ∀ q l, A.fdb q level = .ok l → (l.map Prod.fst).Nodup) (r : ConnEnd)
    (h : connection valid (nodeMEngine E C sched S SC c scanSched A text) id none
      (encHeader .axes ctx ++ encAxesReq request level) = .ok r) (L : AMap String MVal) (hl : r.line = some L) :
    (∃ a, remoteAxes (nodeMEngine E C sched S SC c scanSched A text).plain ctx request level = .ok a) ↔
      L.find "error" = none ∧ L.find "first_error" = none := by
  have hlen : 0 < request.length := by
    rcases Nat.eq_zero_or_pos request.length with hz | hp
    · exact absurd (String.ext (List.eq_nil_of_length_eq_zero hz)) written
    · exact hp
  have hd : dispatch (encHeader .axes ctx ++ encAxesReq request level) = .ok ((ctx, .axes request level), []) := by
    rw [dispatch, Dec.bind_ok (C21_header .axes ctx (encAxesReq request level))]
    have h2 := C21_axes_request request level []
    rw [List.append_nil] at h2
    show (decAxesReq >>= _) _ = _
    rw [Dec.bind_ok h2]
    show (Dec.lift (cassert (decide (request.length > 0))) >>= _) _ = _
    rw [cassert_of (decide_eq_true hlen)]
    rfl
  refine C72_client_outcome valid _ ⟨Q, E, C, sched, S, SC, c, scanSched, A, text, rfl⟩ id _ decAxesReply ctx _ _ hd
    (fun errs b hh => ?_) (Or.inl rfl) r h L hl
  rw [C72_engine, handle] at hh
  obtain ⟨a, ha, hh⟩ := res_bind_inv hh
  cases hh
  have ha : localAxes A request level = .ok a := ha
  rw [localAxes] at ha
  obtain ⟨qs, -, ha⟩ := res_bind_inv ha
  match qs, ha with
  | [], ha => cases ha
  | _ :: _ :: _, ha => cases ha
  | [q], ha =>
    obtain ⟨l, hl, ha⟩ := res_bind_inv ha
    cases ha
    obtain ⟨h1, h2⟩ := axesOf_nodup l (names q l hl)
    have h3 := C21_axes_reply (axesOf l) h1 h2 []
    rw [List.append_nil] at h3
    exact ⟨_, _, h3⟩

theorem collectLoop_mem : ∀ {rs : List ExRequest} {m : ItemMap} {outs : List WireResult}, collectLoop rs m = .ok outs →
    outs.length = rs.length ∧ ∀ w ∈ outs, ∃ k i, m.find k = some i ∧ i.result = some w := by
  intro rs
  induction rs with
  | nil => intro m outs h; cases h; exact ⟨rfl, fun w hw => (by cases hw)⟩
  | cons r rs ih =>
    intro m outs h
    rw [collectLoop] at h
    cases hf : m.find r.request with
    | none => rw [hf] at h; cases h
    | some it =>
      rw [hf] at h
      simp only at h
      cases hr : it.result with
      | none => rw [hr] at h; cases h
      | some x =>
        rw [hr] at h
        simp only at h
        obtain ⟨tl, htl, h⟩ := res_bind_inv h
        cases h
        obtain ⟨h1, h2⟩ := ih htl
        refine ⟨by simp [h1], fun w hw => ?_⟩
        rcases List.mem_cons.mp hw with rfl | hw
        · exact ⟨_, it, hf, hr⟩
        · obtain ⟨k, i, hk, hi⟩ := h2 w hw
          rw [AMap.find_set] at hk
          by_cases e : r.request = k
          · rw [if_pos e] at hk; cases hk; cases hi
          · rw [if_neg e] at hk; exact ⟨k, i, hk, hi⟩

theorem engineExtract_length {E : ExtEnv} {C : EngineConf} {sched : List Nat} {rs rs' : List ExRequest} {m : ItemMap}
    {errs : List String} (h : engineExtract E C sched rs = .ok (rs', m, errs)) : rs'.length = rs.length := by
  rw [engineExtract] at h
  obtain ⟨⟨rs1, u, m1⟩, hb, h⟩ := res_bind_inv h
  simp only at h
  obtain ⟨listing, -, h⟩ := res_bind_inv h
  obtain ⟨⟨m2, fm⟩, -, h⟩ := res_bind_inv h
  simp only at h
  obtain ⟨⟨m3, es⟩, -, h⟩ := res_bind_inv h
  have e : rs1 = rs' := (Prod.mk.inj (Except.ok.inj h)).1
  subst e
  rw [buildRequestMap_eq] at hb
  split at hb
  · rw [← (Prod.mk.inj (Except.ok.inj hb)).1]; exact canonAll_length _ _ _
  · cases hb

/-- C72.  The same for a client that asks for values of fields, if ranges and results have lengths that 64 bits can hold. -/
theorem C72_extract_outcome {Q : Type} (valid : String → Bool) (E : ExtEnv) (C : EngineConf) (sched : List Nat)
    (S : ScanEnv) (SC : ScanConf) (c : Cache) (scanSched : List ScanEv) (A : AxesEnv Q) (text : Q → String) (id : Nat)
    (ctx : String) (rs : List ExRequest) (fit : ∀ q ∈ rs, q.Fits)
    (results : ∀ rs' m errs, engineExtract E C sched rs = .ok (rs', m, errs) → ∀ k i w, m.find k = some i →
      i.result = some w → WireResult.Fits w) (r : ConnEnd)
    (h : connection valid (nodeMEngine E C sched S SC c scanSched A text) id none
      (encHeader .extract ctx ++ encExtractReq rs) = .ok r) (L : AMap String MVal) (hl : r.line = some L) :
    (∃ out, remoteExtract (nodeMEngine E C sched S SC c scanSched A text).plain ctx rs = .ok out) ↔
      L.find "error" = none ∧ L.find "first_error" = none := by
  have hd := dispatch_extract ctx rs fit
  refine C72_client_outcome valid _ ⟨Q, E, C, sched, S, SC, c, scanSched, A, text, rfl⟩ id _ (decExtractReply rs.length) ctx
    _ _ hd (fun errs b hh => ?_) ?_ r h L hl
  · rw [C72_engine, handle] at hh
    obtain ⟨⟨rs', m, es⟩, heng, hh⟩ := res_bind_inv hh
    simp only at hh
    obtain ⟨e1, hb⟩ := Prod.mk.inj (Except.ok.inj hh)
    have heng : engineExtract E C sched rs = .ok (rs', m, es) := heng
    rw [replyExtract] at hb
    obtain ⟨os, hos, hb⟩ := res_bind_inv hb
    obtain ⟨outs, h1, h2⟩ := collect_of_ordered hos hb
    obtain ⟨hlen, hmem⟩ := collectLoop_mem h2
    obtain ⟨bytes, h3, h4⟩ := C21_extract_reply outs (fun w hw => by
      obtain ⟨k, i, hk, hi⟩ := hmem w hw
      exact results rs' m es heng k i w hk hi) []
    rw [h1, h3] at hb
    cases hb
    rw [List.append_nil, hlen, engineExtract_length heng] at h4
    exact ⟨_, _, h4⟩
  · cases rs with
    | cons q rs => exact Or.inl rfl
    | nil =>
      refine Or.inr fun errs x hh => ?_
      rw [C72_engine, handle] at hh
      obtain ⟨⟨rs', m, es⟩, heng, hh⟩ := res_bind_inv hh
      have hz := engineExtract_length (show engineExtract E C sched [] = .ok (rs', m, es) from heng)
      cases List.eq_nil_of_length_eq_zero hz
      cases (Prod.mk.inj (Except.ok.inj hh)).2

/-! ## Scans -/

/-- C72 (only where the fields are scanned by the node itself, see `C72_forwarded_scan_uncounted`).  A node that does not
forward records how many fields a scan added: the number in its reply. -/
theorem C72_scanned_partial {Q : Type} (valid : String → Bool) (E : ExtEnv) (C : EngineConf) (sched : List Nat)
    (S : ScanEnv) (SC : ScanConf) (c : Cache) (scanSched : List ScanEv) (A : AxesEnv Q) (text : Q → String) (id : Nat)
    (room : Option Nat) (ctx : String) (reqs : List String) (byfiles : Bool) (keeps : SC.forwardScan = false) (n : Nat)
    (errs : List String) (c' : Cache) (scanned : engineScan S SC c reqs byfiles scanSched = .ok (n, errs, c')) (r : ConnEnd)
    (h : connection valid (nodeMEngine E C sched S SC c scanSched A text) id room
      (encHeader .scan ctx ++ encScanReq reqs byfiles) = .ok r) (L : AMap String MVal) (hl : r.line = some L) :
    L.find "count_scanned_fields" = some (.num n) := by
  have hd : dispatch (encHeader .scan ctx ++ encScanReq reqs byfiles) = .ok ((ctx, .scan reqs byfiles), []) := by
    rw [dispatch, Dec.bind_ok (C21_header .scan ctx (encScanReq reqs byfiles))]
    have h2 := C21_scan_request reqs byfiles []
    rw [List.append_nil] at h2
    show (decScanReq >>= _) _ = _
    rw [Dec.bind_ok h2]
    rfl
  have hs : (engineScanM S SC c scanSched reqs byfiles).2 = .ok (n, errs) := by
    have e := congrArg (fun E => E.scan reqs byfiles) (C72_engine E C sched S SC c scanSched A text)
    refine Eq.trans e ?_
    show (engineScan S SC c reqs byfiles scanSched >>= _) = _
    rw [scanned]; rfl
  have hh : handle (nodeMEngine E C sched S SC c scanSched A text).plain (.scan reqs byfiles) =
      .ok (errs, .ok (encScanReply n)) := by
    rw [handle]
    show ((engineScanM S SC c scanSched reqs byfiles).2 >>= _) = _
    rw [hs]; rfl
  have served : serve (nodeMEngine E C sched S SC c scanSched A text).plain (encHeader .scan ctx ++ encScanReq reqs byfiles) =
      .ok ([.scan reqs byfiles], encErrors errs ++ encScanReply n) := by rw [serve, hd]; simp only; rw [hh]
  obtain ⟨x, left, -, hk, -⟩ := line_left (node_tells E C sched S SC c scanSched A text) served h hl
  rw [hk _ (by decide), left.engine _ (by decide)]
  show lastSet _ ((engineScanM S SC c scanSched reqs byfiles >>= fun (n, errs) =>
    (Pure.pure (errs, .ok (encScanReply n)) : Log (List String × Res (List Tok)))) : Log _).1 = _
  have tail : ∀ (l : Log (Nat × List String)) {x : Nat × List String}, l.2 = .ok x →
      ((l >>= fun (n, errs) => (Pure.pure (errs, .ok (encScanReply n)) : Log (List String × Res (List Tok)))) : Log _).1 = l.1 := by
    intro l x hx
    obtain ⟨ws, res⟩ := l
    cases (show res = .ok x from hx)
    exact List.append_nil ws
  rw [tail _ hs]
  revert hs
  rw [engineScanM, log_bind]
  cases listUris S reqs with
  | error e => intro hs; cases hs
  | ok us =>
    show (if us = [] then _ else _ : Log _).2 = _ → lastSet _ ([] ++ (if us = [] then _ else _ : Log _).1) = _
    rw [List.nil_append]
    by_cases hu : us = []
    · rw [if_pos hu]; intro hs; cases hs; rfl
    · rw [if_neg hu, if_neg (by rw [keeps]; decide)]
      generalize (if byfiles = true then _ else _ : ScanMap) = sm
      rw [scheduleScanM, log_bind]
      generalize scanTasksM S c _ scanSched = l
      obtain ⟨ws, res⟩ := l
      cases res with
      | error e => intro hs; cases hs
      | ok x =>
        intro hs
        have e : x = (n, errs) := Except.ok.inj hs
        subst e
        show lastSet _ (ws ++ [.set "count_scanned_fields" (.num n)]) = _
        rw [lastSet_append]; rfl

/-! ## Requests to the FDB -/

/-- The requests among what was recorded. -/
def requestsOf (ws : List MWrite) : List MReq := ws.filterMap fun
  | .request r => some r
  | .set _ _ => none

theorem record_requests (ws : List MWrite) (c : Conn) :
    (ws.foldl Conn.record c).requests = c.requests ++ requestsOf ws := by
  induction ws generalizing c with
  | nil => exact (List.append_nil _).symm
  | cons w ws ih =>
    rw [List.foldl_cons, ih]
    cases w with
    | set n v => rfl
    | request r =>
      show c.requests ++ [r] ++ requestsOf ws = c.requests ++ (r :: requestsOf ws)
      rw [List.append_assoc]; rfl

theorem write_requests (ts : List Tok) (c : Conn) : (Met.write ts c).1.requests = c.requests := by
  by_cases h : LeftEarly c.room ts
  · obtain ⟨k, hr, hk⟩ := h
    rw [write_cut hr hk]
  · rw [write_fits h]

theorem served_requests {M : MEngine} {id : Nat} {room : Option Nat} {input : List Tok} {c : Conn}
    (h : serveConn M id (Conn.start room input) = .ok c) :
    c.requests = match dispatch input with
      | .ok ((_, req), _) => requestsOf (executeRequest M req).1
      | .error _ => [] := by
  have h0 : (receive id (Conn.start room input)).1.requests = [] :=
    receive_moves (P := fun a b => b.requests = a.requests) (fun _ => rfl) (fun _ _ _ h k => k.trans h)
      (fun _ _ _ => rfl) (fun _ _ _ _ => rfl) id _
  have hr := receive_result id room input
  have hfail : ∀ c, (failConn c).requests = c.requests := fun c => write_requests _ _
  rw [serveConn_eq, met_bind] at h
  generalize receive id (Conn.start room input) = y at h h0 hr
  match y, h, h0, hr with
  | (c1, .error .ub), h, h0, hr => cases h
  | (c1, .error (.exn e)), h, h0, hr =>
    have e := Except.ok.inj h
    rw [← e, hfail]
    match hd : dispatch input with
    | .error f => exact h0
    | .ok ((ctx, req), rest) => rw [hd] at hr; cases hr
  | (c1, .ok req), h, h0, hr =>
    match hd : dispatch input with
    | .error f => rw [hd] at hr; cases hr
    | .ok ((ctx, req'), rest) =>
      rw [hd] at hr
      have e : req = req' := Except.ok.inj hr
      subst e
      simp only at h ⊢
      have hfin : (finishRequest M req c1).1.requests = requestsOf (executeRequest M req).1 := by
        have ha : (afterEngine M req c1).requests = requestsOf (executeRequest M req).1 := by
          rw [afterEngine, record_requests]
          show c1.requests ++ _ = _
          rw [show c1.requests = [] from h0]; rfl
        rw [finishRequest_eq]
        split
        · rw [← ha]
          exact replyPart_moves (P := fun a b => b.requests = a.requests) (fun _ => rfl) (fun _ _ _ h k => k.trans h)
            (fun _ _ _ => rfl) (fun _ _ _ _ => rfl) _ _ _
        · exact ha
      generalize finishRequest M req c1 = z at h hfin
      match z, h, hfin with
      | (c2, .error .ub), h, hfin => cases h
      | (c2, .error (.exn e)), h, hfin =>
        have e := Except.ok.inj h
        rw [← e, hfail]; exact hfin
      | (c2, .ok ()), h, hfin =>
        have e := Except.ok.inj h
        rw [← e]; exact hfin

theorem requests_wait (n : Nat) (errs : List String) : requestsOf (waitWrites n errs) = [] := by
  cases errs <;> rfl

theorem requests_append (a b : List MWrite) : requestsOf (a ++ b) = requestsOf a ++ requestsOf b :=
  List.filterMap_append

theorem requests_bind {α β : Type} {l : Log α} {f : α → Log β} (h : ∀ a, l.2 = .ok a → requestsOf (f a).1 = []) :
    requestsOf (l >>= f).1 = requestsOf l.1 := by
  obtain ⟨ws, r⟩ := l
  cases r with
  | error e => rfl
  | ok a =>
    show requestsOf (ws ++ (f a).1) = _
    rw [requests_append, h a rfl, List.append_nil]

theorem requests_schedule (E : ExtEnv) (C : EngineConf) (fwd : Bool) (m : ItemMap) (fm : KeyMap) (sched : List Nat) :
    requestsOf (scheduleTasksM E C fwd m fm sched).1 = [] := by
  refine (requests_bind fun ts _ => requests_bind fun s _ => ?_).trans rfl
  exact (requests_bind fun _ _ => rfl).trans (requests_wait _ _)

theorem requests_scanTasks (E : ScanEnv) (c : Cache) (kinds : List ScanKind) (sched : List ScanEv) :
    requestsOf (scanTasksM E c kinds sched).1 = [] :=
  (requests_bind fun _ _ => (requests_bind fun _ _ => rfl).trans (requests_wait _ _)).trans rfl

theorem requests_lift {α β : Type} {r : Res α} {f : α → Log β} {a : α} (h : r = .ok a) :
    requestsOf (Log.lift r >>= f).1 = requestsOf (f a).1 := by
  subst h; rfl

theorem requests_error {α β : Type} {r : Res α} {f : α → Log β} {e : Fault} (h : r = .error e) :
    requestsOf (Log.lift r >>= f).1 = [] := by
  subst h; rfl

theorem requests_none {α β : Type} {l : Log α} {f : α → Log β} (h : requestsOf l.1 = [])
    (hf : ∀ a, requestsOf (f a).1 = []) : requestsOf (l >>= f).1 = [] := (requests_bind fun a _ => hf a).trans h

theorem requests_scheduleScan (E : ScanEnv) (c : Cache) (sm : ScanMap) (sched : List ScanEv) :
    requestsOf (scheduleScanM E c sm sched).1 = [] :=
  requests_none (requests_scanTasks _ _ _ _) fun _ => rfl

theorem requests_scan (E : ScanEnv) (C : ScanConf) (c : Cache) (sched : List ScanEv) (rs : List String) (b : Bool) :
    requestsOf (engineScanM E C c sched rs b).1 = [] := by
  refine requests_none rfl fun us => ?_
  by_cases hu : us = []
  · rw [if_pos hu]; rfl
  · rw [if_neg hu]
    by_cases hf : C.forwardScan = true
    · rw [if_pos hf]
      exact requests_none rfl fun _ => requests_none rfl fun _ => requests_scanTasks _ _ _ _
    · rw [if_neg hf]; exact requests_scheduleScan _ _ _ _

/-- C72.  The line lists the requests made to the FDB: for an extraction the union of what was asked for, recorded before it
is listed, so that it is there even if listing fails; for axes the request as parsed; nothing if the request was
refused, and nothing for scans and for what other servers forward. -/
theorem C72_requests {Q : Type} (valid : String → Bool) (E : ExtEnv) (C : EngineConf) (sched : List Nat)
    (S : ScanEnv) (SC : ScanConf) (c : Cache) (scanSched : List ScanEv) (A : AxesEnv Q) (text : Q → String) (id : Nat)
    (room : Option Nat) (input : List Tok) (r : ConnEnd)
    (h : connection valid (nodeMEngine E C sched S SC c scanSched A text) id room input = .ok r) (L : AMap String MVal)
    (hl : r.line = some L) (cs : List ServerReq) (full : List Tok)
    (served : serve (nodeMEngine E C sched S SC c scanSched A text).plain input = .ok (cs, full)) :
    (cs = [] → L.find "mars_requests" = some (.requests [])) ∧
    (∀ rs, .extract rs ∈ cs → ∀ rs' u m, buildRequestMap C.ignoreYearMonth rs = .ok (rs', u, m) →
      L.find "mars_requests" = some (.requests [.union u])) ∧
    (∀ rs, .extract rs ∈ cs → ∀ e, buildRequestMap C.ignoreYearMonth rs = .error e →
      L.find "mars_requests" = some (.requests [])) ∧
    (∀ a l, .axes a l ∈ cs → ∀ q, A.parse a = .ok [q] → L.find "mars_requests" = some (.requests [.text (text q)])) ∧
    (∀ a l, .axes a l ∈ cs → (∀ q, A.parse a ≠ .ok [q]) → L.find "mars_requests" = some (.requests [])) ∧
    (∀ rs b, .scan rs b ∈ cs → L.find "mars_requests" = some (.requests [])) ∧
    (∀ fm, .forwardExtract fm ∈ cs → L.find "mars_requests" = some (.requests [])) ∧
    (∀ sm, .forwardScan sm ∈ cs → L.find "mars_requests" = some (.requests [])) := by
  obtain ⟨x, hx, left⟩ := serveConn_left (node_tells E C sched S SC c scanSched A text) id room served
  have hreq := served_requests hx
  rw [connection, hx] at h
  have h := Except.ok.inj h
  subst h
  simp only at hl
  have hL : L.find "mars_requests" = some (.requests x.requests) := by
    split at hl
    · have h1 : x.values.find "mars_requests" = none := (AMap.find_eq_none_iff _ _).mpr fun h => by
        rcases left.within.2 _ h with h | h
        · cases h
        · revert h; decide
      rw [← Option.some.inj hl, Conn.line, find_append, find_append, h1]
      rfl
    · cases hl
  rw [hL, hreq]
  rw [serve] at served
  match hd : dispatch input with
  | .error .ub => rw [hd] at served; cases served
  | .error (.exn e) =>
    rw [hd] at served
    have hcs : cs = [] := (Prod.mk.inj (Except.ok.inj served)).1.symm
    subst hcs
    exact ⟨fun _ => rfl, fun _ h => (by cases h), fun _ h => (by cases h), fun _ _ h => (by cases h),
      fun _ _ h => (by cases h), fun _ _ h => (by cases h), fun _ h => (by cases h), fun _ h => (by cases h)⟩
  | .ok ((ctx, req), rest) =>
    rw [hd] at served
    have hcs : cs = [req] := by
      simp only at served
      revert served
      split
      · intro served; cases served
      · intro served; exact (Prod.mk.inj (Except.ok.inj served)).1.symm
      · split
        · intro served; cases served
        · intro served; exact (Prod.mk.inj (Except.ok.inj served)).1.symm
        · intro served; exact (Prod.mk.inj (Except.ok.inj served)).1.symm
    subst hcs
    simp only
    refine ⟨fun h => (by cases h), fun rs hm rs' u m hb => ?_, fun rs hm e hb => ?_, fun a l hm q hq => ?_,
      fun a l hm hq => ?_, fun rs b hm => ?_, fun fm hm => ?_, fun sm hm => ?_⟩ <;> cases List.mem_singleton.mp hm
    all_goals refine congrArg (fun l => some (MVal.requests l)) ((requests_bind fun _ _ => rfl).trans ?_)
    · refine (requests_lift hb).trans ?_
      refine (requests_bind fun _ _ => ?_).trans rfl
      exact requests_none rfl fun _ => requests_none rfl fun _ => requests_none rfl fun _ =>
        requests_none (requests_schedule _ _ _ _ _ _) fun _ => rfl
    · exact requests_error hb
    · refine (requests_lift hq).trans ?_
      exact (requests_bind fun _ _ => requests_none rfl fun _ => rfl).trans rfl
    · refine (requests_bind fun qs hqs => ?_).trans rfl
      match qs, hqs with
      | [], _ => rfl
      | [q], hqs => exact absurd hqs (hq q)
      | _ :: _ :: _, _ => rfl
    · exact requests_scan _ _ _ _ _ _
    · exact requests_none (requests_schedule _ _ _ _ _ _) fun _ => rfl
    · exact requests_scheduleScan _ _ _ _

/-! ## Request numbers -/

theorem finishRequest_spares {M : MEngine} (T : M.Tells) {k : String} (h1 : k ∉ engineNames)
    (h2 : k ∉ ["elapsed_receive", "elapsed_execute", "elapsed_reply"]) (req : ServerReq) (c : Conn) :
    (finishRequest M req c).1.values.find k = c.values.find k := by
  have ha : (afterEngine M req c).values.find k = c.values.find k := by
    rw [afterEngine_values _ _ _ (fun e => h2 (by rw [e]; decide)), lastSet_none fun v hv => h1 (T.names req k v hv)]
    rfl
  rw [finishRequest_eq]
  match (executeRequest M req).2 with
  | .error e => exact ha
  | .ok x =>
    refine Eq.trans ?_ ha
    exact replyPart_moves (P := Spares k) (fun _ => rfl) (Spares.trans k) (fun _ _ _ => rfl)
      (fun n hn v => spares_set fun e => h2 (e ▸ List.mem_cons_of_mem _ hn)) x.1 x.2 (afterEngine M req c)

/-- A connection uses a number, and shows it, exactly if the client asked for one of the five kinds of request. -/
theorem connection_number {valid : String → Bool} {M : MEngine} (T : M.Tells) {id : Nat} {room : Option Nat}
    {input : List Tok} {r : ConnEnd} (h : connection valid M id room input = .ok r) :
    r.numbered = ((typeSent input).bind actionName).isSome ∧ ∀ L, r.line = some L →
      L.find "gribjump_request_id" = ((typeSent input).bind actionName).map fun _ => .num id := by
  have hv : ∀ c, serveConn M id (Conn.start room input) = .ok c →
      c.values.find "gribjump_request_id" = ((typeSent input).bind actionName).map fun _ => .num id := by
    intro c hc
    have h0 : (receive id (Conn.start room input)).1.values.find "gribjump_request_id" =
        ((typeSent input).bind actionName).map fun _ => .num id := by
      rw [receive_begin id _ _ (Or.inl rfl)]
      show (match (typeSent input).bind actionName with | none => _ | some a => _) = _
      cases (typeSent input).bind actionName <;> rfl
    rw [serveConn_eq, met_bind] at hc
    generalize receive id (Conn.start room input) = y at hc h0
    have hfail : ∀ c, (failConn c).values.find "gribjump_request_id" = c.values.find "gribjump_request_id" := by
      intro c
      rw [(failConn_same c).1, AMap.find_set, if_neg (by decide)]
    match y, hc, h0 with
    | (c1, .error .ub), hc, h0 => cases hc
    | (c1, .error (.exn e)), hc, h0 =>
      have e := Except.ok.inj hc
      rw [← e, hfail]; exact h0
    | (c1, .ok req), hc, h0 =>
      have hf := finishRequest_spares T (k := "gribjump_request_id") (by decide) (by decide) req c1
      simp only at hc
      generalize finishRequest M req c1 = z at hc hf
      match z, hc, hf with
      | (c2, .error .ub), hc, hf => cases hc
      | (c2, .error (.exn e)), hc, hf =>
        have e := Except.ok.inj hc
        rw [← e, hfail]; exact hf.trans h0
      | (c2, .ok ()), hc, hf =>
        have e := Except.ok.inj hc
        rw [← e]; exact hf.trans h0
  rw [connection] at h
  obtain ⟨c, hc, h⟩ := res_bind_inv h
  have hv := hv c hc
  cases h
  refine ⟨?_, fun L hl => ?_⟩
  · show (c.values.find "gribjump_request_id").isSome = _
    rw [hv]
    cases (typeSent input).bind actionName <;> rfl
  · simp only at hl
    split at hl
    · rw [← Option.some.inj hl, line_value c (by decide) (by decide), hv]
    · cases hl

/-- C72.  The lines a server writes are told apart by their numbers, as long as it has not served 2^64 requests: over any
sequence of connections, to any nodes, cut off anywhere. -/
theorem C72_numbers_distinct (valid : String → Bool) (n : Nat) (vs : List Visit) (nodes : ∀ v ∈ vs, IsNode v.engine)
    (few : n + vs.length ≤ 2 ^ 64) (rs : List ConnEnd) (h : connections valid n vs = .ok rs) :
    (rs.filterMap fun r => r.line.bind (·.find "gribjump_request_id")).Nodup := by
  suffices hs : (rs.filterMap fun r => r.line.bind (·.find "gribjump_request_id")).Nodup ∧
      ∀ v ∈ rs.filterMap fun r => r.line.bind (·.find "gribjump_request_id"), ∃ k, v = .num k ∧ n ≤ k from hs.1
  generalize hN : 2 ^ 64 = N at few
  induction vs generalizing n rs with
  | nil => cases h; exact ⟨List.nodup_nil, fun v hv => (by cases hv)⟩
  | cons v vs ih =>
    rw [connections, hN] at h
    obtain ⟨r, hr, h⟩ := res_bind_inv h
    obtain ⟨tl, htl, h⟩ := res_bind_inv h
    cases h
    obtain ⟨hn, hline⟩ := connection_number (nodes v List.mem_cons_self).tells hr
    rw [List.length_cons] at few
    have nodes' : ∀ x ∈ vs, IsNode x.engine := fun x hx => nodes x (List.mem_cons_of_mem _ hx)
    rw [List.filterMap_cons]
    cases hb : r.line.bind (·.find "gribjump_request_id") with
    | none =>
      simp only
      by_cases hnum : r.numbered = true
      · rw [if_pos hnum] at htl
        by_cases hlt : n + 1 < N
        · rw [Nat.mod_eq_of_lt hlt] at htl
          obtain ⟨h1, h2⟩ := ih (n + 1) nodes' tl htl (by omega)
          exact ⟨h1, fun v hv => by obtain ⟨k, e, hk⟩ := h2 v hv; exact ⟨k, e, by omega⟩⟩
        · cases vs with
          | nil => cases htl; exact ⟨List.nodup_nil, fun v hv => (by cases hv)⟩
          | cons => rw [List.length_cons] at few; omega
      · rw [if_neg hnum] at htl
        exact ih n nodes' tl htl (by omega)
    | some value =>
      simp only
      obtain ⟨L, hL, hf⟩ := Option.bind_eq_some_iff.mp hb
      rw [hline L hL] at hf
      obtain ⟨a, ha, hval⟩ := Option.map_eq_some_iff.mp hf
      rw [if_pos (by rw [hn, ha]; rfl)] at htl
      subst hval
      by_cases hlt : n + 1 < N
      · rw [Nat.mod_eq_of_lt hlt] at htl
        obtain ⟨h1, h2⟩ := ih (n + 1) nodes' tl htl (by omega)
        refine ⟨List.nodup_cons.mpr ⟨fun hm => ?_, h1⟩, fun v hv => ?_⟩
        · obtain ⟨k, e, hk⟩ := h2 _ hm
          cases e
          omega
        · rcases List.mem_cons.mp hv with rfl | hv
          · exact ⟨n, rfl, Nat.le_refl n⟩
          · obtain ⟨k, e, hk⟩ := h2 v hv; exact ⟨k, e, by omega⟩
      · cases vs with
        | nil =>
          cases htl
          refine ⟨by simp, fun v hv => ?_⟩
          cases List.mem_singleton.mp hv
          exact ⟨n, rfl, Nat.le_refl n⟩
        | cons => rw [List.length_cons] at few; omega

/-! ## Concrete cases -/

/-- A node with three fields to extract, three messages to scan and one axis. -/
def c72Node (forward : Bool) : MEngine :=
  nodeMEngine (c27Env c27Cat) c27Conf [0, 0, 0] c51Env { c51Conf with forwardScan := forward } c51Cache []
    ⟨fun r => if r = "q" then .ok ["q"] else .ok [], fun _ _ => .ok [("step", ["0", "6", "0"])]⟩ id

theorem c72_node (forward : Bool) : IsNode (c72Node forward) := ⟨_, _, _, _, _, _, _, _, _, _, rfl⟩

/-- Texts that look like a JSON object. -/
def c72Json (s : String) : Bool := s.toList.head? == some '{'

def c72Good : List ExRequest := c27Reqs

/-- No field has this grid. -/
def c72Bad : List ExRequest := c27Reqs.map fun r => { r with gridHash := "other" }

def c72Extract (rs : List ExRequest) : List Tok := encHeader .extract "{\"user\":1}" ++ encExtractReq rs

def c72Scan (ctx : String) : List Tok := encHeader .scan ctx ++ encScanReq ["q"] false

/-- What some names stand for in the line of a connection; how many calls, how many items of reply. -/
def c72Seen (r : Res ConnEnd) (names : List String) : Option (Nat × Nat × Option (List (Option MVal))) :=
  match r with
  | .ok e => some (e.calls.length, e.out.length, e.line.map fun l => names.map l.find)
  | .error _ => none

def c72Names : List String :=
  ["action", "gribjump_request_id", "count_extraction_requests", "count_failed_tasks", "first_error", "error", "context"]

/-- An extraction that succeeds. -/
example : c72Seen (connection c72Json (c72Node false) 5 none (c72Extract c72Good)) c72Names = some (1, 28, some
    [some (.text "extract"), some (.num 5), some (.num 3), some (.num 0), none, none, some (.json "{\"user\":1}")]) := by
  decide +kernel

/-- The requests that line lists: one union; one for axes; none for a scan. -/
def c72Listed (input : List Tok) : Option (List (Option Nat)) :=
  (connection c72Json (c72Node false) 5 none input).toOption.bind fun e => e.line.map fun l =>
    match l.find "mars_requests" with
    | some (.requests rs) => rs.map fun r => match r with
      | .union u => some u.length
      | .text _ => none
    | _ => []

example : c72Listed (c72Extract c72Good) = some [some 2] ∧ c72Listed (encHeader .axes "{" ++ encAxesReq "q" 1) = some [none] ∧
    c72Listed (encHeader .axes "{" ++ encAxesReq "r" 1) = some [] ∧ c72Listed (c72Scan "{") = some [] := by
  decide +kernel

/-- The client goes away after three items. -/
example : c72Seen (connection c72Json (c72Node false) 5 (some 3) (c72Extract c72Good)) c72Names = some (1, 3, some
    [some (.text "extract"), some (.num 5), some (.num 3), some (.num 0), none, some (.text "error"),
      some (.json "{\"user\":1}")]) := by
  decide +kernel

/-- An extraction whose tasks fail. -/
example : c72Seen (connection c72Json (c72Node false) 5 none (c72Extract c72Bad)) c72Names = some (1, 30, some
    [some (.text "extract"), some (.num 5), some (.num 3), some (.num 2), some (.text "error"), none,
      some (.json "{\"user\":1}")]) := by
  decide +kernel

/-- A request of no known kind; a request cut off in its context. -/
example : c72Seen (connection c72Json (c72Node false) 5 none [.u16 3, .str "{", .u16 7]) c72Names =
      some (0, 1, some [none, none, none, none, none, some (.text "error"), some (.json "{")]) ∧
    c72Seen (connection c72Json (c72Node false) 5 none [.u16 3]) c72Names =
      some (0, 1, some [none, none, none, none, none, some (.text "error"), some (.json "{}")]) :=
  ⟨by decide +kernel, by decide +kernel⟩

/-- Non-vacuity of the theorems above: the hypotheses hold of these connections. -/
def c72Served (r : Res (List ServerReq × List Tok)) : Option (List ServerReq × Nat) :=
  match r with
  | .ok (cs, full) => some (cs, full.length)
  | .error _ => none

def c72Handled (r : Res (List String × Res (List Tok))) : Option (List String × Option Nat) :=
  match r with
  | .ok (errs, .ok b) => some (errs, some b.length)
  | .ok (errs, .error _) => some (errs, none)
  | .error _ => none

example : c72Served (serve (c72Node false).plain (c72Extract c72Bad)) = some ([.extract c72Bad], 30) ∧
    c72Handled (handle (c72Node false).plain (.extract c72Bad)) = some (["error", "error"], some 27) ∧
    sizeAsked (.extract c72Bad) = some ("count_extraction_requests", 3) := by
  decide +kernel

/-- A scan, an axes query and a forwarded scan, answered. -/
example : c72Seen (connection c72Json (c72Node false) 6 none (c72Scan "{}")) ["action", "count_scanned_fields", "error"] =
      some (1, 2, some [some (.text "scan"), some (.num 2), none]) ∧
    c72Seen (connection c72Json (c72Node false) 7 none (encHeader .axes "{}" ++ encAxesReq "q" 1)) ["action", "error"] =
      some (1, 6, some [some (.text "axes"), none]) ∧
    c72Seen (connection c72Json (c72Node false) 8 none (encHeader .forwardScan "{}" ++ encForwardScan [("/fdb/a", [204])]))
      ["action", "count_received_offsets", "count_scanned_fields"] =
      some (1, 2, some [some (.text "forwarded-scan"), some (.num 1), some (.num 1)]) :=
  ⟨by decide +kernel, by decide +kernel, by decide +kernel⟩

/-- Four connections; the second is refused and takes no number, the third is cut off. -/
def c72Visits : List Visit :=
  [⟨c72Node false, none, c72Scan "{}"⟩, ⟨c72Node false, none, [.u16 2]⟩, ⟨c72Node true, some 1, c72Scan "{}"⟩,
    ⟨c72Node false, none, c72Extract c72Good⟩]

def c72Ids (r : Res (List ConnEnd)) : Option (List MVal) :=
  match r with
  | .ok rs => some (rs.filterMap fun r => r.line.bind (·.find "gribjump_request_id"))
  | .error _ => none

example : c72Ids (connections c72Json 41 c72Visits) = some [.num 41, .num 42, .num 43] := by decide +kernel

/-- The bound is needed: after 2^64 requests the numbers start again. -/
example : c72Ids (connections c72Json (2 ^ 64 - 1) c72Visits) = some [.num 18446744073709551615, .num 0, .num 1] := by
  decide +kernel

/-! ## Where the code falls short -/

/-- C72 fails: a client whose context is not JSON is served, and the server writes no line for it. -/
theorem C72_bad_context_no_line (valid : String → Bool) (notJson : valid "user=me" = false) :
    ∃ r, connection valid (c72Node false) 5 none (c72Scan "user=me") = .ok r ∧ r.calls = [.scan ["q"] false] ∧
      r.out = encErrors [] ++ encScanReply 2 ∧ r.line = none := by
  have hs : serve (c72Node false).plain (c72Scan "user=me") = .ok ([.scan ["q"] false], encErrors [] ++ encScanReply 2) := by
    decide +kernel
  obtain ⟨r, h1, h2, h3, h4⟩ := C72_one_line_partial valid _ (c72_node false) 5 none _ _ _ hs
  refine ⟨r, h1, h2, h3, ?_⟩
  cases hl : r.line with
  | none => rfl
  | some L =>
    rw [hl] at h4
    have := h4.mp rfl
    rw [show (contextSent (c72Scan "user=me")).getD "{}" = "user=me" from rfl, notJson] at this
    cases this

/-- C72 fails: a node that forwards a scan tells the client how many fields were added, but does not record it. -/
theorem C72_forwarded_scan_uncounted :
    serve (c72Node true).plain (c72Scan "{}") = .ok ([.scan ["q"] false], encErrors [] ++ encScanReply 3) ∧
    c72Seen (connection (fun _ => true) (c72Node true) 5 none (c72Scan "{}")) ["action", "error", "count_scanned_fields"] =
      some (1, 2, some [some (.text "scan"), none, none]) := by
  decide +kernel

end GJ
