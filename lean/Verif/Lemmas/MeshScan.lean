import Verif.Lemmas.MeshRun
import Verif.Props.C22

/-!
# Scans that processes forward to each other
-/

namespace GJ
open Spec

/-! ## The answer -/

/-- What the one who asked makes of the answer to a request that the other side could read. -/
theorem forwardScan_answer {E : Engine} {ctx : String} {files sm : ScanMap} {n : Nat} {errs : List String}
    (hd : dispatch (encHeader .forwardScan ctx ++ encForwardScan files) = .ok ((ctx, .forwardScan sm), []))
    (hE : E.forwardScan sm = .ok (n, errs)) :
    remoteForwardScan E ctx files = if errs = [] then .ok n else throwExn .remote := by
  rw [remoteForwardScan, remoteCall_spec E _ decScanReply ctx _ _ hd errs (.ok (encScanReply n))
    (by rw [handle, hE]; rfl) (.ok n) (by
      intro b hb; cases hb; exact ⟨n, [], rfl, rfl⟩) (by intro e h; cases h)
    (Or.inr (by intro e h; cases h)), outcome]

/-- The answer is what the scan returned there. -/
theorem answering_scan {X : Mesh} {s : MeshSys} {a g b h : Nat} {files sm : ScanMap}
    (hd : dispatch (encHeader .forwardScan (X.net.ctx a g) ++ encForwardScan files) = .ok ((X.net.ctx a g, .forwardScan sm), [])) :
    remoteForwardScan (Mesh.answering s b h) (X.net.ctx a g) files =
      if ((s b).srv.x.t.grp h).errors = [] then .ok ((s b).jobs h).count else throwExn .remote :=
  forwardScan_answer hd rfl

/-! ## What the tasks of scans have done -/

/-- In the history, the reply to task `j` of scan `g` of process `a` came while a worker executed the task: the scan it is
about had returned `n` then. -/
def Mesh.Heard (X : Mesh) (st : MeshSys) (es : List NetEv) (a g j n : Nat) : Prop :=
  ∃ b h es1 es2 Y, X.link a g j = some (b, h) ∧ es = es1 ++ es2 ∧ X.run st es1 = .ok Y ∧ Executing (Y a) g j ∧
    ((Y b).srv.x.t.grp h).phase = .returned ∧ (Y b).scanOutcome h = .ok n

/-- The scans of all processes are in order. -/
def MeshScans (X : Mesh) (st : MeshSys) (es : List NetEv) (s : MeshSys) (a : Nat) : Prop :=
  ScansInv (fun g j n _ _ => X.Heard st es a g j n) (X.alone a).scan (X.alone a).site.reader (X.alone a).site.offs
    (fun y => ∃ Y, Y a = y ∧ X.Passed st es Y Y ∧ X.Passed st es Y s)
    (fun y z => ∃ Y Z, Y a = y ∧ Z a = z ∧ X.Passed st es Y Z) (s a)

theorem heard_more {X : Mesh} {st : MeshSys} {es : List NetEv} {e : NetEv} {a g j n : Nat} (h : X.Heard st es a g j n) :
    X.Heard st (es ++ [e]) a g j n := by
  obtain ⟨b, h, es1, es2, Y, h1, rfl, h3⟩ := h
  exact ⟨b, h, es1, es2 ++ [e], Y, h1, by rw [List.append_assoc], h3⟩

theorem passed_more {X : Mesh} {st : MeshSys} {es : List NetEv} {e : NetEv} {Y Z : MeshSys} (h : X.Passed st es Y Z) :
    X.Passed st (es ++ [e]) Y Z := by
  obtain ⟨es1, es2, es3, rfl, p1, p2⟩ := h
  exact ⟨es1, es2, es3 ++ [e], by rw [List.append_assoc], p1, p2⟩

theorem passed_later {X : Mesh} {st s s' Y : MeshSys} {es : List NetEv} {e : NetEv} (hr : X.run st es = .ok s)
    (hs : X.step s e = .ok s') (h : X.Passed st es Y s) : X.Passed st (es ++ [e]) Y s' := by
  obtain ⟨es1, es2, es3, he, p1, p2⟩ := h
  have h3 : X.run Y (es2 ++ es3) = .ok s := by
    rw [he, List.append_assoc, mesh_append, p1, ok_bind] at hr; exact hr
  exact ⟨es1, es2 ++ es3 ++ [e], [], by rw [he]; simp, p1, mesh_snoc h3 hs⟩

/-- The scans of the process that makes a step, whatever is remembered of the past. -/
theorem scans_step {X : Mesh} {U : Nat → String → Prop} {asked : Nat → Nat → Asked} {written : Nat → Nat → List ExRequest}
    (sound : X.Sound U asked written) {st s : MeshSys} (began : X.Began U st) (mi : MeshInv X U st s) {e : NetEv} {c : Nat}
    {M : MixSite} {e' : SrvEv} {y : Mix} (hact : X.act s e = (c, some (M, e'))) (hy : (s c).step M e' = .ok y)
    {F F' : Nat → Nat → Nat → Prop} {P P' : Mix → Prop} {Q Q' : Mix → Mix → Prop}
    (inv : ScansInv (fun g j n _ _ => F g j n) (X.alone c).scan (X.alone c).site.reader (X.alone c).site.offs P Q (s c))
    (hF : ∀ g j n, F g j n → F' g j n) (hP : ∀ z, P z → P' z) (hQ : ∀ x z, Q x z → Q' x z)
    (heard : ∀ g j n b h, X.link c g j = some (b, h) → Executing (s c) g j → ((s b).srv.x.t.grp h).phase = .returned →
      (s b).scanOutcome h = .ok n → F' g j n)
    (now : P' (s c)) (pair : ∀ z, P z → Q' z z ∧ Q' z y) :
    ScansInv (fun g j n _ _ => F' g j n) (X.alone c).scan (X.alone c).site.reader (X.alone c).site.offs P' Q' y := by
  obtain ⟨fw, n, hM⟩ := mesh_act_site hact
  obtain ⟨E, hE⟩ := mi.calls c
  have good := mi.good sound began c
  have kinds := mi.kinds c
  have hstep : ScanStep M e' (s c) y := by
    rw [hM] at hy ⊢
    exact scan_step (M := ⟨(X.net.site c).told fw, X.scans c, n⟩) (U := U c) (sound.net.reader c) (sound.net.offs c) good
      inv.len hy
  have hask : ∀ (w g j : Nat) (server : String × Int) (files : ScanMap) (n : Nat), e' = .queue (.work w) → M.scan g = true →
      (s c).srv.x.t.workers[w]? = some (.running g j) → ((s c).jobs g).tasks[j]? = some (.forward server files, .fresh) →
      M.forward g ((s c).jobs g).time server files = .ok n → F' g j n := by
    intro w g j server files m he hg hw hT hf
    have hg : X.scan c g = true := by rw [hM] at hg; exact hg
    rcases mesh_act_inv hact with ⟨rfl, -⟩ | ⟨w', g', j', he', hline, hcase⟩
    · cases hf
    · rw [he] at he'
      cases he'
      obtain ⟨hw', -⟩ := line_inv hline
      rw [hw] at hw'
      cases hw'
      rcases hcase with ⟨-, hrep⟩ | ⟨-, rfl⟩
      · rw [Mesh.reply, if_pos hg] at hrep
        cases hl : X.link c g j with
        | none => rw [hl] at hrep; cases hrep; cases hf
        | some q =>
          obtain ⟨b, h⟩ := q
          rw [hl] at hrep
          simp only [] at hrep
          split at hrep
          · rename_i hret
            cases hrep
            obtain ⟨ks, server', files', sm, h1, h2, h3, h4, h5⟩ := sound.sent _ _ _ _ _ hl
            have hk : some (ScanKind.forward server files) = ks[j]? := by
              have := kinds g
              rw [show (X.alone c).scans g = some ks from h1] at this
              rw [show ks = ((s c).jobs g).tasks.map Prod.fst from this.symm, List.getElem?_map, hT]; rfl
            rw [h2] at hk
            cases hk
            have hf : remoteForwardScan (Mesh.answering s b h) (X.net.ctx c g) files = .ok m := hf
            rw [answering_scan h4] at hf
            refine heard g j m b h hl ⟨w, hw⟩ hret ?_
            rw [Mix.scanOutcome]
            split at hf
            · rename_i he
              rw [if_neg (fun h => h he)]; exact hf
            · cases hf
          · cases hrep
      · cases hf
  have hinv : ScansInv (fun g j n _ _ => F g j n) M.scan M.site.reader M.site.offs P Q (s c) := by
    rw [hM]; exact inv
  have key : ScansInv (fun g j n _ _ => F' g j n) M.scan M.site.reader M.site.offs P' Q' y := by
    refine ScansInv.step (U := U c) (e := e') (s := s c) ?_ ?_ hE.t ?_ hinv (fun g j n _ _ h => hF g j n h) hask hP hQ now pair hstep
    · rw [hM]; exact sound.within c
    · rw [hM]; exact kinds
    · rw [hM]; exact good
  rw [hM] at key
  exact key

theorem MeshScans.step {X : Mesh} {U : Nat → String → Prop} {asked : Nat → Nat → Asked} {written : Nat → Nat → List ExRequest}
    (sound : X.Sound U asked written) {st : MeshSys} (began : X.Began U st) {es : List NetEv} {e : NetEv} {s s' : MeshSys}
    (allowed : ∀ e ∈ es, NetEv.Allowed U e) (hr : X.run st es = .ok s) (hs : X.step s e = .ok s')
    (inv : ∀ a, MeshScans X st es s a) (c : Nat) : MeshScans X st (es ++ [e]) s' c := by
  have hP : ∀ y, (∃ Y : MeshSys, Y c = y ∧ X.Passed st es Y Y ∧ X.Passed st es Y s) →
      ∃ Y : MeshSys, Y c = y ∧ X.Passed st (es ++ [e]) Y Y ∧ X.Passed st (es ++ [e]) Y s' := by
    rintro y ⟨Y, h1, h2, h3⟩
    exact ⟨Y, h1, passed_more h2, passed_later hr hs h3⟩
  have hQ : ∀ y z, (∃ Y Z : MeshSys, Y c = y ∧ Z c = z ∧ X.Passed st es Y Z) →
      ∃ Y Z : MeshSys, Y c = y ∧ Z c = z ∧ X.Passed st (es ++ [e]) Y Z := by
    rintro y z ⟨Y, Z, h1, h2, h3⟩
    exact ⟨Y, Z, h1, h2, passed_more h3⟩
  have still : s' c = s c → MeshScans X st (es ++ [e]) s' c := by
    intro hc
    rw [MeshScans, hc]
    exact (inv c).more (fun g j n _ _ h => heard_more h) hP hQ
  rcases mesh_step_inv hs with h | ⟨a, M, e', y, hact, hy, h⟩
  · exact still (by rw [h])
  by_cases hc : c = a
  case neg => exact still (by rw [h]; exact if_neg hc)
  subst hc
  have hs'c : s' c = y := by rw [h]; exact if_pos rfl
  rw [MeshScans, hs'c]
  refine scans_step sound began (mesh_ran sound began allowed hr) hact hy (inv c) (fun g j n h => heard_more h) hP hQ ?_ ?_ ?_
  · intro g j n b h hl hx hret hout
    exact ⟨b, h, es, [e], s, hl, rfl, hr, hx, hret, hout⟩
  · exact ⟨s, rfl, ⟨es, [], [e], by simp, hr, rfl⟩, passed_later hr hs ⟨es, [], [], by simp, hr, rfl⟩⟩
  · rintro z ⟨Y, h1, h2, h3⟩
    exact ⟨⟨Y, Y, h1, h1, passed_more h2⟩, ⟨Y, s', h1, hs'c, passed_later hr hs h3⟩⟩

theorem mesh_scans {X : Mesh} {U : Nat → String → Prop} {asked : Nat → Nat → Asked} {written : Nat → Nat → List ExRequest}
    (sound : X.Sound U asked written) {st : MeshSys} (began : X.Began U st) {es : List NetEv} {s : MeshSys}
    (allowed : ∀ e ∈ es, NetEv.Allowed U e) (h : X.run st es = .ok s) : ∀ a, MeshScans X st es s a := by
  refine mesh_induct (X := X) (st := st) (fun es s => (∀ e ∈ es, NetEv.Allowed U e) → ∀ a, MeshScans X st es s a)
    ?_ ?_ es s h allowed
  · intro _ a
    obtain ⟨d, mode, lazy, cap, fs, -, -, -, rfl⟩ := began
    exact start_scans (X.alone a) _ _ _ _ _ _ _ _ _ _
  · intro es s e s' hr ih hs ha
    exact MeshScans.step sound began (fun e he => ha e (List.mem_append_left _ he)) hr hs
      (ih fun e he => ha e (List.mem_append_left _ he))

/-! ## A scan that has returned -/

/-- What a scan returned, task by task, whatever is remembered of the past. -/
theorem scans_counts {X : Mesh} {U : Nat → String → Prop} {st s : MeshSys} (mi : MeshInv X U st s) {a g : Nat}
    {kinds : List ScanKind} (scan : X.scans a g = some kinds) (returned : ((s a).srv.x.t.grp g).phase = .returned) {c : Nat}
    (got : (s a).scanOutcome g = .ok c) {F : Nat → Nat → Nat → String × Int → ScanMap → Prop} {P : Mix → Prop}
    {Q : Mix → Mix → Prop}
    (inv : ScansInv F (X.alone a).scan (X.alone a).site.reader (X.alone a).site.offs P Q (s a)) :
    ∃ ns : List Nat, ns.length = kinds.length ∧ c = ns.sum ∧
      ∀ (j : Nat) (k : ScanKind) (m : Nat), kinds[j]? = some k → ns[j]? = some m →
        DoneBy F (X.net.site a).reader (X.net.site a).offs Q g j m k := by
  have hg : (X.alone a).scan g = true := by show (X.scans a g).isSome = true; rw [scan]; rfl
  obtain ⟨E, xinv⟩ := mi.calls a
  have hk : ((s a).jobs g).tasks.map Prod.fst = kinds := by
    have := mi.kinds a g
    rw [show (X.alone a).scans g = some kinds from scan] at this
    exact this
  rw [Mix.scanOutcome] at got
  split at got
  · cases got
  · rename_i clean
    have clean : ((s a).srv.x.t.grp g).errors = [] := Classical.not_not.mp clean
    refine ⟨((s a).jobs g).tasks.map fun T => T.2.added, ?_, ?_, ?_⟩
    · rw [List.length_map, ← hk, List.length_map]
    · rw [← Except.ok.inj got]; exact inv.count g
    · intro j k m hj hm
      rw [← hk, List.getElem?_map] at hj
      rw [List.getElem?_map] at hm
      obtain ⟨T, hT, rfl⟩ := Option.map_eq_some_iff.mp hj
      rw [hT] at hm
      have hm : T.2.added = m := Option.some.inj hm
      obtain ⟨b, hb⟩ := scan_all_done xinv hg returned clean hT
      rw [hb] at hm
      have hm : b = m := hm
      subst hm
      refine inv.done g j b T.1 ?_
      rw [hT, ← hb]

/-- What a scan returned, task by task. -/
theorem mesh_counts {X : Mesh} {U : Nat → String → Prop} {asked : Nat → Nat → Asked} {written : Nat → Nat → List ExRequest}
    (sound : X.Sound U asked written) {st : MeshSys} (began : X.Began U st) {es : List NetEv} {s : MeshSys}
    (allowed : ∀ e ∈ es, NetEv.Allowed U e) (h : X.run st es = .ok s) {a g : Nat} {kinds : List ScanKind}
    (scan : X.scans a g = some kinds) (returned : ((s a).srv.x.t.grp g).phase = .returned) {c : Nat}
    (got : (s a).scanOutcome g = .ok c) :
    ∃ ns : List Nat, ns.length = kinds.length ∧ c = ns.sum ∧
      ∀ (j : Nat) (k : ScanKind) (m : Nat), kinds[j]? = some k → ns[j]? = some m →
        DoneBy (fun g j n _ _ => X.Heard st es a g j n) (X.net.site a).reader (X.net.site a).offs
          (fun y z => ∃ Y Z : MeshSys, Y a = y ∧ Z a = z ∧ X.Passed st es Y Z) g j m k :=
  scans_counts (mesh_ran sound began allowed h) scan returned got (mesh_scans sound began allowed h a)

end GJ
