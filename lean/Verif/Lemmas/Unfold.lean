import Verif.Lemmas.Shared
import Verif.Lemmas.MeshLive

/-!
# Infinite histories of processes that share files, as histories of processes that hear of each other's writes
-/

namespace GJ
open Spec

/-! ## Sequences of runs, as one sequence of steps -/

/-- The run under way, and the steps of it that are left. -/
def unrolled (L : Nat → List NetEv) : Nat → Nat × List NetEv
  | 0 => (0, L 0)
  | n + 1 => match (unrolled L n).2 with
    | _ :: e :: es => ((unrolled L n).1, e :: es)
    | _ => ((unrolled L n).1 + 1, L ((unrolled L n).1 + 1))

/-- Runs follow each other, and none is empty: their steps follow each other. -/
theorem unroll {X : Mesh} {S : Nat → MeshSys} {L : Nat → List NetEv} (hne : ∀ k, L k ≠ [])
    (hrun : ∀ k, X.run (S k) (L k) = .ok (S (k + 1))) :
    ∃ (ev : Nat → NetEv) (st : Nat → MeshSys) (pos : Nat → Nat),
      (∀ n, X.step (st n) (ev n) = .ok (st (n + 1))) ∧ pos 0 = 0 ∧ (∀ k, pos k < pos (k + 1)) ∧
      (∀ k, st (pos k) = S k ∧ some (ev (pos k)) = (L k).head?) ∧
      ∀ n, ∃ k L1 L2, pos k ≤ n ∧ n < pos (k + 1) ∧ L k = L1 ++ ev n :: L2 ∧ (L1 = [] → n = pos k) ∧
        X.run (S k) L1 = .ok (st n) := by
  -- positions and steps
  let pos : Nat → Nat := fun k => Nat.rec 0 (fun i p => p + (L i).length) k
  have pos0 : pos 0 = 0 := rfl
  have posS : ∀ k, pos (k + 1) = pos k + (L k).length := fun _ => rfl
  have plus : ∀ k, 0 < (L k).length := fun k => List.length_pos_iff.mpr (hne k)
  have at_ : ∀ k i, i < (L k).length → unrolled L (pos k + i) = (k, (L k).drop i) := by
    intro k
    induction k with
    | zero =>
      intro i
      induction i with
      | zero => intro _; rfl
      | succ i ih =>
        intro hi
        have h := ih (by omega)
        show unrolled L (pos 0 + i + 1) = _
        rw [unrolled.eq_2, h]
        rw [List.drop_eq_getElem_cons (show i < (L 0).length by omega), List.drop_eq_getElem_cons hi]
    | succ k ihk =>
      intro i
      induction i with
      | zero =>
        intro _
        have hl := plus k
        have h := ihk ((L k).length - 1) (by omega)
        have hp : pos (k + 1) + 0 = pos k + ((L k).length - 1) + 1 := by rw [posS]; omega
        rw [hp, unrolled.eq_2, h]
        rw [List.drop_eq_getElem_cons (show (L k).length - 1 < (L k).length by omega),
          show (L k).length - 1 + 1 = (L k).length from by omega, List.drop_length]
        rfl
      | succ i ih =>
        intro hi
        have h := ih (by omega)
        show unrolled L (pos (k + 1) + i + 1) = _
        rw [unrolled.eq_2, h]
        rw [List.drop_eq_getElem_cons (show i < (L (k + 1)).length by omega), List.drop_eq_getElem_cons hi]
  have find : ∀ n, ∃ k i, i < (L k).length ∧ n = pos k + i := by
    intro n
    induction n with
    | zero => exact ⟨0, 0, plus 0, rfl⟩
    | succ n ih =>
      obtain ⟨k, i, hi, rfl⟩ := ih
      by_cases h : i + 1 < (L k).length
      · exact ⟨k, i + 1, h, rfl⟩
      · exact ⟨k + 1, 0, plus (k + 1), by rw [posS]; omega⟩
  let ev : Nat → NetEv := fun n => (unrolled L n).2.head?.getD (.lost 0 0)
  let after : Nat → List NetEv → MeshSys := fun k es => match X.run (S k) es with | .ok s => s | .error _ => S k
  let st : Nat → MeshSys := fun n =>
    after (unrolled L n).1 ((L (unrolled L n).1).take ((L (unrolled L n).1).length - (unrolled L n).2.length))
  have ev_at : ∀ k i (hi : i < (L k).length), ev (pos k + i) = (L k)[i] := by
    intro k i hi
    show (unrolled L (pos k + i)).2.head?.getD _ = _
    rw [at_ k i hi, List.drop_eq_getElem_cons hi]
    rfl
  have split_ : ∀ k i, i ≤ (L k).length → ∃ s, X.run (S k) ((L k).take i) = .ok s := by
    intro k i _
    have h := hrun k
    rw [← List.take_append_drop i (L k), mesh_append] at h
    obtain ⟨s, h1, -⟩ := res_bind_inv h
    exact ⟨s, h1⟩
  have st_at : ∀ k i, i < (L k).length → X.run (S k) ((L k).take i) = .ok (st (pos k + i)) := by
    intro k i hi
    obtain ⟨s, hs⟩ := split_ k i (by omega)
    rw [hs]
    show _ = Except.ok (after (unrolled L (pos k + i)).1 _)
    rw [at_ k i hi]
    simp only [List.length_drop]
    rw [show (L k).length - ((L k).length - i) = i from by omega]
    show _ = Except.ok (match X.run (S k) ((L k).take i) with | .ok s => s | .error _ => S k)
    rw [hs]
  have st_pos : ∀ k, st (pos k) = S k := by
    intro k
    have h := st_at k 0 (plus k)
    exact (Except.ok.inj h).symm
  have step1 : ∀ k i (hi : i < (L k).length) s s', X.run (S k) ((L k).take i) = .ok s →
      X.run (S k) ((L k).take (i + 1)) = .ok s' → X.step s (L k)[i] = .ok s' := by
    intro k i hi s s' h1 h2
    rw [List.take_succ_eq_append_getElem hi, mesh_append, h1, ok_bind, Mesh.run] at h2
    obtain ⟨u, h3, h4⟩ := res_bind_inv h2
    cases h4
    exact h3
  refine ⟨ev, st, pos, ?_, pos0, fun k => by rw [posS]; have := plus k; omega, ?_, ?_⟩
  · intro n
    obtain ⟨k, i, hi, rfl⟩ := find n
    rw [ev_at k i hi]
    by_cases h : i + 1 < (L k).length
    · exact step1 k i hi _ _ (st_at k i hi) (st_at k (i + 1) h)
    · refine step1 k i hi _ _ (st_at k i hi) ?_
      have hl : i + 1 = (L k).length := by omega
      rw [hl, List.take_length, hrun k, show pos k + i + 1 = pos (k + 1) from by rw [posS]; omega]
      exact congrArg Except.ok (st_pos (k + 1)).symm
  · intro k
    refine ⟨st_pos k, ?_⟩
    have h := ev_at k 0 (plus k)
    have h : ev (pos k) = _ := h
    rw [h, List.head?_eq_getElem?, List.getElem?_eq_getElem (plus k)]
  · intro n
    obtain ⟨k, i, hi, rfl⟩ := find n
    refine ⟨k, (L k).take i, (L k).drop (i + 1), Nat.le_add_right _ _, by rw [posS]; omega, ?_, ?_, st_at k i hi⟩
    · rw [ev_at k i hi, ← List.drop_eq_getElem_cons hi, List.take_append_drop]
    · intro h
      have := congrArg List.length h
      rw [List.length_take, List.length_nil] at this
      omega

/-! ## One step, and what others see of it -/

/-- What one step is, as steps of processes that hear of each other's writes: a step of the process, then one at each of those
who have its files.  No process is ever in a state but that before or that after. -/
structure Unfolds (X : Shared) (U : Nat → String → Prop) (s s' : SharedSys) (e : SharedEv) (L : List NetEv) : Prop where
  some : L ≠ []
  allowed : ∀ x ∈ L, NetEv.Allowed U x
  run : X.mesh.run s.procs L = .ok s'.procs
  first : ∀ f, e = .net f → f.outside = true ∨ s.life f.site = .up → L.head? = Option.some f
  lost : ∀ L1 a w L2, L = L1 ++ .lost a w :: L2 → L1 = [] ∧ e = .net (.lost a w)
  between : ∀ L1 L2 t, L = L1 ++ L2 → X.mesh.run s.procs L1 = .ok t → ∀ b, t b = s.procs b ∨ t b = s'.procs b

theorem still_step {X : Mesh} {U : Nat → String → Prop} {s : MeshSys}
    (good : SvcGood (X.net.site 0).reader (X.net.site 0).offs (U 0) (s 0).srv.svc)
    (len : (s 0).scanners.length = (s 0).srv.svc.sys.scans.length) :
    ∃ o : OEv, o.Allowed (U 0) ∧ X.step s (.on 0 (.other o)) = .ok s := by
  obtain ⟨o, ho⟩ := seen_same good (s' := (s 0).srv.svc) rfl (ap := false) (ws := []) (fun x hx => by cases hx) rfl
  refine ⟨o, ho.1, ?_⟩
  have h := mix_over (X := X) (t := s 0) ho len rfl rfl rfl rfl
  have hs : (s 0).over (X.net.site 0).reader (X.net.site 0).offs (s 0).srv.svc.disk (s 0).srv.svc.sys.c.fs = s 0 := by
    rw [Mix.over, over_same rfl good.world]
  rw [hs] at h
  show ((s 0).step (X.alone 0) (.other o) >>= _) = _
  rw [h, ok_bind]
  refine congrArg Except.ok (funext fun b => ?_)
  show (if b = 0 then s 0 else s b) = s b
  split
  · rename_i h; rw [h]
  · rfl

theorem shared_unfolds {X : Shared} {U : Nat → String → Prop} (fits : X.Fits U) {asked : Nat → Nat → Asked}
    {written : Nat → Nat → List ExRequest} (sound : X.mesh.Sound U asked written) {s s' : SharedSys} {e : SharedEv}
    (good : ∀ a, SvcGood (X.mesh.net.site a).reader (X.mesh.net.site a).offs (U a) (s.procs a).srv.svc)
    (kinds : ∀ a, (s.procs a).Kinds (X.mesh.alone a))
    (len : ∀ a, (s.procs a).scanners.length = (s.procs a).srv.svc.sys.scans.length)
    (alike : X.Alike s.procs) (ha : SharedEv.Allowed U e) (h : X.step s e = .ok s') : ∃ L, Unfolds X U s s' e L := by
  have still : s'.procs = s.procs → (∀ f, e = .net f → ¬ (f.outside = true ∨ s.life f.site = .up)) → ∃ L, Unfolds X U s s' e L := by
    intro hp hno
    obtain ⟨o, ho, hs⟩ := still_step (X := X.mesh) (good 0) (len 0)
    refine ⟨[.on 0 (.other o)], by simp, ?_, ?_, fun f he hl => absurd hl (hno f he), ?_, ?_⟩
    · intro x hx
      rw [List.mem_singleton.mp hx]; exact ho
    · rw [Mesh.run, hs, ok_bind, hp]; rfl
    · intro L1 a w L2 hL
      cases L1 with
      | nil => cases hL
      | cons x L1 =>
        have := (List.cons.inj hL).2
        cases L1 <;> cases this
    · intro L1 L2 t hL ht b
      cases L1 with
      | nil => cases ht; exact .inl rfl
      | cons x L1 =>
        obtain ⟨rfl, hL⟩ := List.cons.inj hL
        have : L1 = [] := by
          cases L1 with
          | nil => rfl
          | cons _ _ => cases hL
        subst this
        rw [Mesh.run, hs, ok_bind] at ht
        cases ht
        exact .inl rfl
  cases e with
  | boot a =>
    refine still ?_ (fun f he => by cases he)
    rw [← Except.ok.inj h]; split <;> rfl
  | kill a =>
    refine still ?_ (fun f he => by cases he)
    rw [← Except.ok.inj h]; split <;> rfl
  | net f =>
    rw [Shared.step] at h
    split at h
    case isFalse hno =>
      refine still (by rw [← Except.ok.inj h]) ?_
      intro f' he
      cases he
      exact hno
    case isTrue hl =>
    obtain ⟨t, ht, h2⟩ := res_bind_inv h
    have ha : NetEv.Allowed U f := ha
    obtain ⟨hother, hmode, o, ho⟩ := mesh_step_seen sound good kinds ha ht
    obtain rfl := Except.ok.inj h2
    have part : ∀ M : List Nat, (∀ b ∈ M, b ∈ X.mates f.site) → M.Nodup →
        X.mesh.run t (M.map fun b => .on b (.other o)) = .ok (fun b => if b ∈ M then
          (t b).over (X.mesh.net.site b).reader (X.mesh.net.site b).offs (t f.site).srv.svc.disk (t f.site).srv.svc.sys.c.fs
          else t b) := by
      intro M hM hn
      refine share_run (X := X.mesh) (U := U) (s0 := (s.procs f.site).srv.svc) (s1 := (t f.site).srv.svc) M t hn ?_
      intro b hb
      have hb := hM b hb
      have hba : b ≠ f.site := fun k => fits.apart f.site (k ▸ hb)
      have hsame := alike _ _ hb
      rw [fits.reader _ _ hb, fits.offs _ _ hb, fits.names _ _ hb, hother b hba]
      refine ⟨ho, len b, hsame.1, ?_, hsame.2.1, hsame.2.2⟩
      rw [(good b).world, (good f.site).world, fits.reader _ _ hb, fits.offs _ _ hb, hsame.1]
    refine ⟨f :: (X.mates f.site).map fun b => .on b (.other o), by simp, ?_, ?_, ?_, ?_, ?_⟩
    · intro x hx
      rcases List.mem_cons.mp hx with rfl | hx
      · exact ha
      · obtain ⟨b, hb, rfl⟩ := List.mem_map.mp hx
        show o.Allowed (U b)
        rw [fits.names _ _ hb]; exact ho.1
    · rw [Mesh.run, ht, ok_bind]
      exact part _ (fun _ h => h) (fits.once _)
    · intro f' he _
      cases he
      rfl
    · intro L1 a w L2 hL
      cases L1 with
      | nil => exact ⟨rfl, by rw [(List.cons.inj hL).1]⟩
      | cons x L1 =>
        have hL := (List.cons.inj hL).2
        have : NetEv.lost a w ∈ (X.mates f.site).map fun b => NetEv.on b (.other o) := by
          rw [hL]; exact List.mem_append_right _ List.mem_cons_self
        obtain ⟨b, -, hb⟩ := List.mem_map.mp this
        cases hb
    · intro L1 L2 u hL hu b
      cases L1 with
      | nil => cases hu; exact .inl rfl
      | cons x L1 =>
        obtain ⟨rfl, hL'⟩ := List.cons.inj hL
        obtain ⟨M1, M2, hM, rfl, -⟩ := List.map_eq_append_iff.mp hL'
        have hn := fits.once f.site
        rw [hM] at hn
        rw [Mesh.run, ht, ok_bind, part M1 (fun b hb => by rw [hM]; exact List.mem_append_left _ hb)
          (List.nodup_append.mp hn).1] at hu
        rw [← Except.ok.inj hu]
        simp only
        by_cases hb : b ∈ M1
        · right
          rw [if_pos hb]
          show _ = X.share t f.site b
          rw [Shared.share, if_pos (by rw [hM]; exact List.mem_append_left _ hb)]
        · rw [if_neg hb]
          by_cases hbs : b = f.site
          · right
            subst hbs
            show _ = X.share t f.site f.site
            rw [Shared.share, if_neg (fits.apart _)]
          · left
            exact hother b hbs

/-! ## Histories -/

/-- An infinite history of processes that share files, are started and killed. -/
structure SharedExecution (X : Shared) (U : Nat → String → Prop) (ev : Nat → SharedEv) (st : Nat → SharedSys) : Prop where
  began : X.Began U (st 0)
  step : ∀ k, X.step (st k) (ev k) = .ok (st (k + 1))
  allowed : ∀ k, SharedEv.Allowed U (ev k)

theorem SharedExecution.run {X : Shared} {U : Nat → String → Prop} {ev : Nat → SharedEv} {st : Nat → SharedSys}
    (h : SharedExecution X U ev st) (k : Nat) : X.run (st 0) ((List.range k).map ev) = .ok (st k) := by
  induction k with
  | zero => rfl
  | succ k ih =>
    rw [List.range_succ, List.map_append]
    exact shared_snoc ih (h.step k)

/-- A history of processes that share files is one of processes that hear of each other's writes. -/
theorem SharedExecution.unfold {X : Shared} {U : Nat → String → Prop} (fits : X.Fits U) {asked : Nat → Nat → Asked}
    {written : Nat → Nat → List ExRequest} (sound : X.mesh.Sound U asked written) {ev : Nat → SharedEv} {st : Nat → SharedSys}
    (h : SharedExecution X U ev st) :
    ∃ (mev : Nat → NetEv) (mst : Nat → MeshSys) (pos : Nat → Nat),
      MeshExecution X.mesh U mev mst ∧ pos 0 = 0 ∧ (∀ k, pos k < pos (k + 1)) ∧ (∀ k, mst (pos k) = (st k).procs) ∧
      (∀ k f, ev k = .net f → f.outside = true ∨ (st k).life f.site = .up → mev (pos k) = f) ∧
      ∀ n, ∃ k, pos k ≤ n ∧ n < pos (k + 1) ∧ (∀ b, mst n b = (st k).procs b ∨ mst n b = (st (k + 1)).procs b) ∧
        ∀ a w, mev n = .lost a w → n = pos k ∧ ev k = .net (.lost a w) := by
  have allowed : ∀ k, ∀ e ∈ (List.range k).map ev, SharedEv.Allowed U e := by
    intro k e he
    obtain ⟨i, -, rfl⟩ := List.mem_map.mp he
    exact h.allowed i
  have hb := (shared_began h.began).1
  have each : ∀ k, ∃ L, Unfolds X U (st k) (st (k + 1)) (ev k) L := by
    intro k
    obtain ⟨alike, fs, hf, hr⟩ := shared_ran fits sound h.began (allowed k) (h.run k)
    have inv := mesh_ran sound hb hf hr
    exact shared_unfolds fits sound (fun a => inv.good sound hb a) inv.kinds (fun a => (mesh_scans sound hb hf hr a).len) alike
      (h.allowed k) (h.step k)
  let L : Nat → List NetEv := fun k => Classical.choose (each k)
  have hL : ∀ k, Unfolds X U (st k) (st (k + 1)) (ev k) (L k) := fun k => Classical.choose_spec (each k)
  obtain ⟨mev, mst, pos, h1, h2, h3, h4, h5⟩ := unroll (X := X.mesh) (S := fun k => (st k).procs) (L := L) (fun k => (hL k).some)
    (fun k => (hL k).run)
  refine ⟨mev, mst, pos, ⟨?_, h1, ?_⟩, h2, h3, fun k => (h4 k).1, ?_, ?_⟩
  · have := (h4 0).1
    rw [h2] at this
    rw [this]; exact hb
  · intro n
    obtain ⟨k, L1, L2, -, -, hk, -, -⟩ := h5 n
    exact (hL k).allowed _ (by rw [hk]; exact List.mem_append_right _ List.mem_cons_self)
  · intro k f he hl
    have h6 := (h4 k).2
    rw [(hL k).first f he hl] at h6
    exact Option.some.inj h6
  · intro n
    obtain ⟨k, L1, L2, k1, k2, k3, k4, k5⟩ := h5 n
    refine ⟨k, k1, k2, (hL k).between L1 _ _ k3 k5, ?_⟩
    intro a w he
    rw [he] at k3
    obtain ⟨e1, e2⟩ := (hL k).lost L1 a w L2 k3
    exact ⟨k4 e1, e2⟩

end GJ
