import Verif.Lemmas.Shared
import Verif.Spec.SharedScans

/-!
# Scans of processes that share files
-/

namespace GJ
open Spec

/-- In the history, the reply to task `j` of scan `g` of process `a` came while a worker executed the task: the scan it is
about had returned `n` then. -/
def Shared.Heard (X : Shared) (st : SharedSys) (es : List SharedEv) (a g j n : Nat) : Prop :=
  ∃ b h es1 es2 Y, X.mesh.link a g j = some (b, h) ∧ es = es1 ++ es2 ∧ X.run st es1 = .ok Y ∧ Executing (Y.procs a) g j ∧
    ((Y.procs b).srv.x.t.grp h).phase = .returned ∧ (Y.procs b).scanOutcome h = .ok n

/-- The scans of all processes are in order. -/
def SharedScans (X : Shared) (st : SharedSys) (es : List SharedEv) (s : SharedSys) (a : Nat) : Prop :=
  ScansInv (fun g j n _ _ => X.Heard st es a g j n) (X.mesh.alone a).scan (X.mesh.alone a).site.reader
    (X.mesh.alone a).site.offs (fun y => ∃ Y, Y.procs a = y ∧ X.Passed st es Y Y ∧ X.Passed st es Y s)
    (fun y z => ∃ Y Z, Y.procs a = y ∧ Z.procs a = z ∧ X.Passed st es Y Z) (s.procs a)

theorem shared_heard_more {X : Shared} {st : SharedSys} {es : List SharedEv} {e : SharedEv} {a g j n : Nat}
    (h : X.Heard st es a g j n) : X.Heard st (es ++ [e]) a g j n := by
  obtain ⟨b, h, es1, es2, Y, h1, rfl, h3⟩ := h
  exact ⟨b, h, es1, es2 ++ [e], Y, h1, by rw [List.append_assoc], h3⟩

theorem shared_passed_more {X : Shared} {st : SharedSys} {es : List SharedEv} {e : SharedEv} {Y Z : SharedSys}
    (h : X.Passed st es Y Z) : X.Passed st (es ++ [e]) Y Z := by
  obtain ⟨es1, es2, es3, rfl, p1, p2⟩ := h
  exact ⟨es1, es2, es3 ++ [e], by rw [List.append_assoc], p1, p2⟩

theorem shared_passed_later {X : Shared} {st s s' Y : SharedSys} {es : List SharedEv} {e : SharedEv} (hr : X.run st es = .ok s)
    (hs : X.step s e = .ok s') (h : X.Passed st es Y s) : X.Passed st (es ++ [e]) Y s' := by
  obtain ⟨es1, es2, es3, he, p1, p2⟩ := h
  have h3 : X.run Y (es2 ++ es3) = .ok s := by
    rw [he, List.append_assoc, shared_append, p1, ok_bind] at hr; exact hr
  exact ⟨es1, es2 ++ es3 ++ [e], [], by rw [he]; simp, p1, shared_snoc h3 hs⟩

/-- New files are nothing to what has been done. -/
theorem scans_over {F : Nat → Nat → Nat → String × Int → ScanMap → Prop} {sc : Nat → Bool} {R : Reader UInt64}
    {offs : List UInt8 → Res (List Nat)} {P : Mix → Prop} {Q : Mix → Mix → Prop} {s : Mix} (inv : ScansInv F sc R offs P Q s)
    (R' : Reader UInt64) (offs' : List UInt8 → Res (List Nat)) (d : Disk) (fs : FS) :
    ScansInv F sc R offs P Q (s.over R' offs' d fs) where
  len := inv.len
  once := inv.once
  owner := inv.owner
  held := inv.held
  done := inv.done
  count := inv.count

theorem SharedScans.step {X : Shared} {U : Nat → String → Prop} (fits : X.Fits U) {asked : Nat → Nat → Asked}
    {written : Nat → Nat → List ExRequest} (sound : X.mesh.Sound U asked written) {st : SharedSys} (began : X.Began U st)
    {es : List SharedEv} {e : SharedEv} {s s' : SharedSys} (allowed : ∀ e ∈ es, SharedEv.Allowed U e)
    (hr : X.run st es = .ok s) (hs : X.step s e = .ok s') (inv : ∀ a, SharedScans X st es s a) (c : Nat) :
    SharedScans X st (es ++ [e]) s' c := by
  have hP : ∀ y, (∃ Y : SharedSys, Y.procs c = y ∧ X.Passed st es Y Y ∧ X.Passed st es Y s) →
      ∃ Y : SharedSys, Y.procs c = y ∧ X.Passed st (es ++ [e]) Y Y ∧ X.Passed st (es ++ [e]) Y s' := by
    rintro y ⟨Y, h1, h2, h3⟩
    exact ⟨Y, h1, shared_passed_more h2, shared_passed_later hr hs h3⟩
  have hQ : ∀ y z, (∃ Y Z : SharedSys, Y.procs c = y ∧ Z.procs c = z ∧ X.Passed st es Y Z) →
      ∃ Y Z : SharedSys, Y.procs c = y ∧ Z.procs c = z ∧ X.Passed st (es ++ [e]) Y Z := by
    rintro y z ⟨Y, Z, h1, h2, h3⟩
    exact ⟨Y, Z, h1, h2, shared_passed_more h3⟩
  have older := (inv c).more (fun g j n _ _ h => shared_heard_more (e := e) h) hP hQ
  rcases shared_step_inv hs with hp | ⟨f, t, rfl, -, ht, hp⟩
  · rw [SharedScans, hp]; exact older
  have own : c ∉ X.mates f.site → s'.procs c = t c := fun h => by rw [hp]; exact if_neg h
  have stepped : t c = s.procs c ∨ ∃ M e' y, X.mesh.act s.procs f = (c, some (M, e')) ∧
      (s.procs c).step M e' = .ok y ∧ t c = y ∧ c = f.site := by
    rcases mesh_step_inv ht with h | ⟨a, M, e', y, hact, hy, h⟩
    · exact .inl (by rw [h])
    · by_cases hc : c = a
      · subst hc
        exact .inr ⟨M, e', y, hact, hy, (by rw [h]; exact if_pos rfl), act_site hact⟩
      · exact .inl (by rw [h]; exact if_neg hc)
  rcases stepped with hc | ⟨M, e', y, hact, hy, hc, hsite⟩
  · have : s'.procs c = s.procs c ∨ s'.procs c = (s.procs c).over (X.mesh.net.site c).reader (X.mesh.net.site c).offs
        (t f.site).srv.svc.disk (t f.site).srv.svc.sys.c.fs := by
      rw [hp, Shared.share]
      split
      · exact .inr (by rw [hc])
      · exact .inl hc
    rw [SharedScans]
    rcases this with h | h
    · rw [h]; exact older
    · rw [h]; exact scans_over older _ _ _ _
  · have hsc : s'.procs c = y := by
      rw [own (by rw [hsite]; exact fits.apart _), hc]
    rw [SharedScans, hsc]
    obtain ⟨-, fs, hf, hrun⟩ := shared_ran fits sound began allowed hr
    have hb := (shared_began began).1
    refine scans_step sound hb (mesh_ran sound hb hf hrun) hact hy (inv c) (fun g j n h => shared_heard_more h) hP hQ ?_ ?_ ?_
    · intro g j n b h hl hx hret hout
      exact ⟨b, h, es, [.net f], s, hl, rfl, hr, hx, hret, hout⟩
    · exact ⟨s, rfl, ⟨es, [], [.net f], by simp, hr, rfl⟩, shared_passed_later hr hs ⟨es, [], [], by simp, hr, rfl⟩⟩
    · rintro z ⟨Y, h1, h2, h3⟩
      exact ⟨⟨Y, Y, h1, h1, shared_passed_more h2⟩, ⟨Y, s', h1, hsc, shared_passed_later hr hs h3⟩⟩

theorem shared_scans {X : Shared} {U : Nat → String → Prop} (fits : X.Fits U) {asked : Nat → Nat → Asked}
    {written : Nat → Nat → List ExRequest} (sound : X.mesh.Sound U asked written) {st : SharedSys} (began : X.Began U st)
    {es : List SharedEv} {s : SharedSys} (allowed : ∀ e ∈ es, SharedEv.Allowed U e) (h : X.run st es = .ok s) :
    ∀ a, SharedScans X st es s a := by
  refine shared_induct (X := X) (st := st) (fun es s => (∀ e ∈ es, SharedEv.Allowed U e) → ∀ a, SharedScans X st es s a)
    ?_ ?_ es s h allowed
  · intro _ a
    obtain ⟨d, mode, lazy, cap, fs, -, -, -, -, rfl⟩ := began
    exact start_scans (X.mesh.alone a) _ _ _ _ _ _ _ _ _ _
  · intro es s e s' hr ih hs ha
    exact SharedScans.step fits sound began (fun e he => ha e (List.mem_append_left _ he)) hr hs
      (ih fun e he => ha e (List.mem_append_left _ he))

end GJ
