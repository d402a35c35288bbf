import Verif.Lemmas.Unfold
import Verif.Props.C81
import Verif.Props.C82

/-!
# C86: servers that are killed do not keep others from ending their work

The processes of C82: some have the same data and index files, any may be killed at any moment, and another be started over the
files it leaves.
-/

namespace GJ
open Spec

/-- All processes are to be started, and build metadata on demand; those with the same files begin with the same. -/
def Shared.LazyBegan (X : Shared) (U : Nat → String → Prop) (st : SharedSys) : Prop :=
  ∃ d mode cap fs, (∀ a, ToldApart (mode a) (U a)) ∧ (∀ a, 0 < cap a) ∧
    (∀ a, GoodIndex (diskWorld (X.mesh.net.site a).reader (X.mesh.net.site a).offs (d a)) (U a) (mode a) (fs a)) ∧
    (∀ a b, b ∈ X.mates a → d b = d a ∧ mode b = mode a ∧ fs b = fs a) ∧ st = X.start d mode (fun _ => true) cap fs

/-- The processes, at all moments. -/
def procsOf (st : Nat → SharedSys) : Nat → MeshSys := fun k => (st k).procs

/-- The processes of a set `P` forward to each other only.  Each of them is started some time, and not killed after that;
whoever works there keeps working, and such a process that is asked by others always gets to its requests.  Other processes may be
killed at any moment, be started late or never, or hang. -/
structure SharedGoes (X : Shared) (P : Nat → Prop) (ev : Nat → SharedEv) (st : Nat → SharedSys) : Prop where
  within : ∀ a g t b i, P a → X.mesh.aim a g t = Option.some (b, i) → P b
  alive : ∀ a, P a → ∃ k, ∀ m, k ≤ m → (st m).life a = .up
  workers : ∀ a w, P a → w < X.mesh.net.threads a → ∀ k, (∃ m, k ≤ m ∧ ev m = .net (.on a (.queue (.pop w)))) ∧
    (∃ m, k ≤ m ∧ ev m = .net (.on a (.queue (.start w)))) ∧ (∃ m, k ≤ m ∧ ev m = .net (.on a (.queue (.work w))))
  threads : ∀ a g, P a → (X.mesh.tasks a g).2 ≠ [] → ∀ k, (∃ m, k ≤ m ∧ ev m = .net (.on a (.queue (.add g)))) ∧
    (∃ m, k ≤ m ∧ ev m = .net (.on a (.queue (.push g)))) ∧ (∃ m, k ≤ m ∧ ev m = .net (.on a (.queue (.wait g)))) ∧
    (∃ m, k ≤ m ∧ ev m = .net (.on a (.queue (.ret g))))
  some : ∀ a g, P a → (X.mesh.tasks a g).2 ≠ [] → 0 < X.mesh.net.threads a
  room : ∃ rank : Nat → Nat, ∀ b j, P b → X.mesh.sender b j ≠ none →
    MeshSpare X.mesh (procsOf st) b ∨ ∀ g t c i, X.mesh.aim b g t = Option.some (c, i) → rank c < rank b

/-- From moment `k` on, no connection of group `g` of process `a` breaks. -/
def SharedKept (X : Shared) (ev : Nat → SharedEv) (st : Nat → SharedSys) (k a g : Nat) : Prop :=
  ∀ m w j, k ≤ m → X.mesh.line (st m).procs a w = some (g, j) → ev m ≠ .net (.lost a w)

section
variable {X : Shared} {U : Nat → String → Prop} {asked : Nat → Nat → Asked} {written : Nat → Nat → List ExRequest}

theorem lazy_procs {st : SharedSys} (h : X.LazyBegan U st) : X.mesh.LazyBegan U st.procs := by
  obtain ⟨d, mode, cap, fs, h1, h2, h3, -, rfl⟩ := h
  exact ⟨d, mode, cap, fs, h1, h2, h3, rfl⟩

theorem rises {pos : Nat → Nat} (h0 : pos 0 = 0) (h : ∀ k, pos k < pos (k + 1)) :
    (∀ k, k ≤ pos k) ∧ ∀ i j, i ≤ j → pos i ≤ pos j := by
  refine ⟨fun k => ?_, fun i j hij => ?_⟩
  · induction k with
    | zero => omega
    | succ k ih => have := h k; omega
  · obtain ⟨d, rfl⟩ := Nat.exists_eq_add_of_le hij
    clear hij
    induction d with
    | zero => exact Nat.le_refl _
    | succ d ih => exact Nat.le_trans ih (Nat.le_of_lt (h (i + d)))

/-- The hypotheses, for the history of processes that hear of each other's writes. -/
structure Unfolded (X : Shared) (st : Nat → SharedSys) (ev : Nat → SharedEv) (mev : Nat → NetEv) (mst : Nat → MeshSys)
    (pos : Nat → Nat) : Prop where
  zero : pos 0 = 0
  next : ∀ k, pos k < pos (k + 1)
  same : ∀ k, mst (pos k) = (st k).procs
  does : ∀ k f, ev k = .net f → f.outside = true ∨ (st k).life f.site = .up → mev (pos k) = f
  between : ∀ n, ∃ k, pos k ≤ n ∧ n < pos (k + 1) ∧ (∀ b, mst n b = (st k).procs b ∨ mst n b = (st (k + 1)).procs b) ∧
    ∀ a w, mev n = .lost a w → n = pos k ∧ ev k = .net (.lost a w)

variable {ev : Nat → SharedEv} {st : Nat → SharedSys} {mev : Nat → NetEv} {mst : Nat → MeshSys} {pos : Nat → Nat}

theorem Unfolded.often (h : Unfolded X st ev mev mst pos) {a : Nat} {q : XEv} (alive : ∃ k, ∀ m, k ≤ m → (st m).life a = .up)
    (hf : ∀ k, ∃ m, k ≤ m ∧ ev m = .net (.on a (.queue q))) (k : Nat) : ∃ m, k ≤ m ∧ mev m = .on a (.queue q) := by
  obtain ⟨k0, hk0⟩ := alive
  obtain ⟨m, hm, em⟩ := hf (max k k0)
  have hr := (rises h.zero h.next).1 m
  exact ⟨pos m, by omega, h.does m _ em (.inr (hk0 m (by omega)))⟩

/-- A process is, at any later moment of the history, as it is at some later moment of this one. -/
theorem Unfolded.late (h : Unfolded X st ev mev mst pos) {k n : Nat} (hn : pos k ≤ n) (b : Nat) :
    ∃ j, k ≤ j ∧ mst n b = (st j).procs b := by
  obtain ⟨k', h1, h2, h3, -⟩ := h.between n
  have hk : k ≤ k' := by
    apply Classical.byContradiction
    intro hlt
    have := (rises h.zero h.next).2 (k' + 1) k (by omega)
    omega
  rcases h3 b with e | e
  · exact ⟨k', hk, e⟩
  · exact ⟨k' + 1, by omega, e⟩

theorem Unfolded.goes (h : Unfolded X st ev mev mst pos) {P : Nat → Prop} (goes : SharedGoes X P ev st) :
    MeshGoes X.mesh P mev mst where
  within := goes.within
  workers a ha w hw k :=
    ⟨h.often (goes.alive a ha) (fun k => (goes.workers a w ha hw k).1) k,
      h.often (goes.alive a ha) (fun k => (goes.workers a w ha hw k).2.1) k,
      h.often (goes.alive a ha) (fun k => (goes.workers a w ha hw k).2.2) k⟩
  threads a g ha hg k :=
    ⟨h.often (goes.alive a ha) (fun k => (goes.threads a g ha hg k).1) k,
      h.often (goes.alive a ha) (fun k => (goes.threads a g ha hg k).2.1) k,
      h.often (goes.alive a ha) (fun k => (goes.threads a g ha hg k).2.2.1) k,
      h.often (goes.alive a ha) (fun k => (goes.threads a g ha hg k).2.2.2) k⟩
  some := goes.some
  room := by
    obtain ⟨rank, room⟩ := goes.room
    refine ⟨rank, fun b j pb hj => ?_⟩
    rcases room b j pb hj with hs | hs
    · refine .inl fun n => ?_
      obtain ⟨j, -, hj⟩ := h.late (k := 0) (n := n) (by rw [h.zero]; exact Nat.zero_le _) b
      obtain ⟨w, hw, hn⟩ := hs j
      exact ⟨w, hw, by rw [hj]; exact hn⟩
    · exact .inr hs

theorem Unfolded.reads (h : Unfolded X st ev mev mst pos) {k a g : Nat} (hr : X.mesh.Reads (procsOf st) k a g) :
    X.mesh.Reads mst (pos k) a g := by
  intro ks path os hk hm
  obtain ⟨r1, r2⟩ := hr ks path os hk hm
  refine ⟨by rw [h.same]; exact r1, fun ho i => ?_⟩
  obtain ⟨j, hj, e⟩ := h.late (k := k) (n := pos k + i) (Nat.le_add_right _ _) a
  have := r2 ho (j - k)
  rw [show k + (j - k) = j from by omega] at this
  rw [e]; exact this

theorem Unfolded.can (h : Unfolded X st ev mev mst pos) {S : Nat → Store} {P : Nat → Prop}
    (others : MeshCan X.mesh U asked S P (procsOf st)) : MeshCan X.mesh U asked S P mst where
  scans b j a g t pb hs := by
    obtain ⟨m, h1, h2⟩ := others.scans b j a g t pb hs
    exact ⟨pos m, by rw [h.same]; exact h1, h.reads h2⟩
  calls b j a g t pb hs := by
    obtain ⟨m, h1, h2⟩ := others.calls b j a g t pb hs
    exact ⟨pos m, by rw [h.same]; exact h1, by rw [h.same]; exact h2⟩

theorem Unfolded.kept (h : Unfolded X st ev mev mst pos) {k a g : Nat} (hk : SharedKept X ev st k a g) :
    MeshKept X.mesh mev mst (pos k) a g := by
  intro n w j hn hl he
  obtain ⟨k', h1, h2, -, h4⟩ := h.between n
  obtain ⟨rfl, hev⟩ := h4 a w he
  have hkk : k ≤ k' := by
    apply Classical.byContradiction
    intro hlt
    have := (rises h.zero h.next).2 (k' + 1) k (by omega)
    omega
  rw [h.same] at hl
  exact hk k' w j hkk hl hev

theorem SharedExecution.unfolded (fits : X.Fits U) (sound : X.mesh.Sound U asked written) (h : SharedExecution X U ev st) :
    ∃ mev mst pos, MeshExecution X.mesh U mev mst ∧ Unfolded X st ev mev mst pos := by
  obtain ⟨mev, mst, pos, h1, h2, h3, h4, h5, h6⟩ := h.unfold fits sound
  exact ⟨mev, mst, pos, h1, h2, h3, h4, h5, h6⟩

end

/-! ## Scans -/

/-- C86 (partial).  In an infinite history in which processes share files, are killed and are replaced, let the processes of a
set `P` forward to each other only, run from some moment on, and keep working.  Then a client's scan at one of them that has not
failed at a moment, whose files can be read from then on, and no connection of which is refused or breaks from then on, returns
a number.  What anyone forwards to processes of `P` can be done; all else may fail.
Missing: as for C81; calls at processes that forward to one that is killed. -/
theorem C86_scan_returns_partial (X : Shared) (U : Nat → String → Prop) (fits : X.Fits U) (asked : Nat → Nat → Asked)
    (written : Nat → Nat → List ExRequest) (sound : X.mesh.Sound U asked written) (parcels : X.mesh.Parcels) (S : Nat → Store)
    (exact_ : ∀ a, (X.mesh.net.site a).Exact (S a)) (ev : Nat → SharedEv) (st : Nat → SharedSys)
    (h : SharedExecution X U ev st) (onDemand : X.LazyBegan U (st 0)) (P : Nat → Prop) (goes : SharedGoes X P ev st)
    (others : MeshCan X.mesh U asked S P (procsOf st)) (a g k : Nat) (inside : P a) (kinds : List ScanKind)
    (scan : X.mesh.scans a g = some kinds) (nonempty : kinds ≠ []) (client : X.mesh.source a g = none)
    (clean : (((st k).procs a).srv.x.t.grp g).errors = []) (files : X.mesh.Reads (procsOf st) k a g)
    (unbroken : SharedKept X ev st k a g)
    (accepted : ∀ (j : Nat) server files, kinds[j]? = some (.forward server files) → X.mesh.link a g j ≠ none) :
    ∃ m c, (((st m).procs a).srv.x.t.grp g).phase = .returned ∧ ((st m).procs a).scanOutcome g = .ok c := by
  obtain ⟨mev, mst, pos, hm, hu⟩ := h.unfolded fits sound
  have start : mst 0 = (st 0).procs := by rw [← hu.same 0, hu.zero]
  obtain ⟨n, c, h1, h2⟩ := C81_scan_returns_partial X.mesh U asked written sound parcels S exact_ mev mst hm
    (by rw [start]; exact lazy_procs onDemand) P (hu.goes goes) (hu.can others) a g (pos k) inside kinds scan nonempty client
    (by rw [hu.same]; exact clean) (hu.reads files) (hu.kept unbroken) accepted
  obtain ⟨j, -, e⟩ := hu.late (k := 0) (n := n) (by rw [hu.zero]; exact Nat.zero_le _) a
  rw [e] at h1 h2
  exact ⟨j, c, h1, h2⟩

/-! ## Extractions -/

/-- C86 (partial).  In such a history: a client's call at a process of `P` for fields that are there at a moment when it has not
begun returns, with one right result per request, in order, if no connection of it is refused or breaks.
Missing: as for C77 and C81; calls at processes that forward to one that is killed. -/
theorem C86_fields_return_partial (X : Shared) (U : Nat → String → Prop) (fits : X.Fits U) (asked : Nat → Nat → Asked)
    (written : Nat → Nat → List ExRequest) (sound : X.mesh.Sound U asked written) (parcels : X.mesh.Parcels) (S : Nat → Store)
    (exact_ : ∀ a, (X.mesh.net.site a).Exact (S a)) (ev : Nat → SharedEv) (st : Nat → SharedSys)
    (h : SharedExecution X U ev st) (onDemand : X.LazyBegan U (st 0)) (P : Nat → Prop) (goes : SharedGoes X P ev st)
    (others : MeshCan X.mesh U asked S P (procsOf st)) (a g k0 : Nat) (inside : P a)
    (extraction : X.mesh.scans a g = none) (client : X.mesh.net.origin a g = none) (tasks : (X.mesh.net.jobs a g).2 ≠ [])
    (unbegun : ((st k0).procs).Unbegun a g) (unbroken : SharedKept X ev st k0 a g) (accepted : X.mesh.net.Accepted a g)
    (cat : List (FdbKey × Uri)) (rs : List ExRequest) (ws : List WrittenRequest) (request : asked a g = .fields rs)
    (can : X.mesh.net.CanServe U S (fun a => ((st k0).procs a).srv) a g cat rs ws) :
    ∃ k, (((st k).procs a).srv.x.t.grp g).phase = .returned ∧
      ∃ out, Net.outcome written (fun a => ((st k).procs a).srv) a g = .ok out ∧
        X.mesh.net.Serves U S (fun a => ((st k0).procs a).srv) a cat rs ws out := by
  obtain ⟨mev, mst, pos, hm, hu⟩ := h.unfolded fits sound
  have start : mst 0 = (st 0).procs := by rw [← hu.same 0, hu.zero]
  obtain ⟨n, h1, out, h2, h3⟩ := C81_fields_return_partial X.mesh U asked written sound parcels S exact_ mev mst hm
    (by rw [start]; exact lazy_procs onDemand) P (hu.goes goes) (hu.can others) a g (pos k0) inside extraction client tasks
    (by rw [hu.same]; exact unbegun) (hu.kept unbroken) accepted cat rs ws request (by rw [hu.same]; exact can)
  obtain ⟨j, -, e⟩ := hu.late (k := 0) (n := n) (by rw [hu.zero]; exact Nat.zero_le _) a
  rw [hu.same] at h3
  have h2' : callEnd (written a g) ((mst n a).srv.x.job g).items ((mst n a).srv.x.t.grp g).errors = .ok out := h2
  rw [e] at h1 h2'
  exact ⟨j, h1, out, h2', h3⟩

/-- C86 (partial).  The same for requests by path.  Missing: as above. -/
theorem C86_paths_return_partial (X : Shared) (U : Nat → String → Prop) (fits : X.Fits U) (asked : Nat → Nat → Asked)
    (written : Nat → Nat → List ExRequest) (sound : X.mesh.Sound U asked written) (parcels : X.mesh.Parcels) (S : Nat → Store)
    (exact_ : ∀ a, (X.mesh.net.site a).Exact (S a)) (ev : Nat → SharedEv) (st : Nat → SharedSys)
    (h : SharedExecution X U ev st) (onDemand : X.LazyBegan U (st 0)) (P : Nat → Prop) (goes : SharedGoes X P ev st)
    (others : MeshCan X.mesh U asked S P (procsOf st)) (a g k0 : Nat) (inside : P a)
    (extraction : X.mesh.scans a g = none) (client : X.mesh.net.origin a g = none) (tasks : (X.mesh.net.jobs a g).2 ≠ [])
    (unbegun : ((st k0).procs).Unbegun a g) (unbroken : SharedKept X ev st k0 a g) (accepted : X.mesh.net.Accepted a g)
    (forward : Bool) (rs : List PathReq) (request : asked a g = .paths rs)
    (can : X.mesh.net.CanServePaths U S (fun a => ((st k0).procs a).srv) a forward rs) :
    ∃ k, (((st k).procs a).srv.x.t.grp g).phase = .returned ∧
      ∃ out, Net.outcome written (fun a => ((st k).procs a).srv) a g = .ok out ∧
        X.mesh.net.ServesPaths U S (fun a => ((st k0).procs a).srv) a forward rs out := by
  obtain ⟨mev, mst, pos, hm, hu⟩ := h.unfolded fits sound
  have start : mst 0 = (st 0).procs := by rw [← hu.same 0, hu.zero]
  obtain ⟨n, h1, out, h2, h3⟩ := C81_paths_return_partial X.mesh U asked written sound parcels S exact_ mev mst hm
    (by rw [start]; exact lazy_procs onDemand) P (hu.goes goes) (hu.can others) a g (pos k0) inside extraction client tasks
    (by rw [hu.same]; exact unbegun) (hu.kept unbroken) accepted forward rs request (by rw [hu.same]; exact can)
  obtain ⟨j, -, e⟩ := hu.late (k := 0) (n := n) (by rw [hu.zero]; exact Nat.zero_le _) a
  rw [hu.same] at h3
  have h2' : callEnd (written a g) ((mst n a).srv.x.job g).items ((mst n a).srv.x.t.grp g).errors = .ok out := h2
  rw [e] at h1 h2'
  exact ⟨j, h1, out, h2', h3⟩

/-! ## Histories go on -/

/-- Connections that the processes see break do break. -/
theorem shared_heard_lost {X : Shared} {U : Nat → String → Prop} (fits : X.Fits U) {asked : Nat → Nat → Asked}
    {written : Nat → Nat → List ExRequest} (sound : X.mesh.Sound U asked written) {st : SharedSys} (began : X.Began U st)
    {es : List SharedEv} {s : SharedSys} (allowed : ∀ e ∈ es, SharedEv.Allowed U e) (h : X.run st es = .ok s) :
    ∃ fs, (∀ e ∈ fs, NetEv.Allowed U e) ∧ X.mesh.run st.procs fs = .ok s.procs ∧
      ∀ b w, .lost b w ∈ fs → .net (.lost b w) ∈ es := by
  obtain ⟨hb, hal, -⟩ := shared_began began
  refine (shared_induct (X := X) (st := st) (fun es s => (∀ e ∈ es, SharedEv.Allowed U e) →
    X.Alike s.procs ∧ ∃ fs, (∀ e ∈ fs, NetEv.Allowed U e) ∧ X.mesh.run st.procs fs = .ok s.procs ∧
      ∀ b w, .lost b w ∈ fs → .net (.lost b w) ∈ es) ?_ ?_ es s h allowed).2
  · intro _
    exact ⟨hal, [], (fun _ h => by cases h), rfl, (fun _ _ h => by cases h)⟩
  · intro es s e s' _ ih hs ha
    obtain ⟨alike, fs, hf, hr, hl⟩ := ih fun e he => ha e (List.mem_append_left _ he)
    rcases shared_step_inv hs with hp | ⟨f, t, rfl, -, ht, hp⟩
    · rw [hp]; exact ⟨alike, fs, hf, hr, fun b w h => List.mem_append_left _ (hl b w h)⟩
    · have inv := mesh_ran sound hb hf hr
      have haf : NetEv.Allowed U f := ha (.net f) (by simp)
      obtain ⟨k1, o, k2, k3⟩ := shared_net_step fits sound (fun a => inv.good sound hb a) inv.kinds
        (fun a => (mesh_scans sound hb hf hr a).len) alike haf ht
      rw [hp]
      refine ⟨k1, fs ++ (f :: (X.mates f.site).map fun b => .on b (.other o)), ?_, ?_, ?_⟩
      · intro x hx
        rcases List.mem_append.mp hx with hx | hx
        · exact hf x hx
        rcases List.mem_cons.mp hx with rfl | hx
        · exact haf
        obtain ⟨b, hbm, rfl⟩ := List.mem_map.mp hx
        exact k2 b hbm
      · rw [mesh_append, hr, ok_bind]; exact k3
      · intro b w hx
        rcases List.mem_append.mp hx with hx | hx
        · exact List.mem_append_left _ (hl b w hx)
        rcases List.mem_cons.mp hx with rfl | hx
        · exact List.mem_append_right _ (List.mem_singleton.mpr rfl)
        obtain ⟨c, -, hc⟩ := List.mem_map.mp hx
        cases hc

/-- C86 (partial).  If all extractions that clients ask for can be met when the processes start, nothing is undefined, whoever is
killed or started at whatever moment: every schedule can be carried on by any step, as long as no connection breaks.
Missing: extractions that cannot be met, connections that break (for these: C82_defined_partial). -/
theorem C86_goes_on_partial (X : Shared) (U : Nat → String → Prop) (fits : X.Fits U) (asked : Nat → Nat → Asked)
    (written : Nat → Nat → List ExRequest) (sound : X.mesh.Sound U asked written) (S : Nat → Store)
    (exact_ : ∀ a, (X.mesh.net.site a).Exact (S a)) (st : SharedSys) (onDemand : X.LazyBegan U st) (es : List SharedEv)
    (e : SharedEv) (allowed : ∀ x ∈ es ++ [e], SharedEv.Allowed U x) (unbroken : ∀ b w, .net (.lost b w) ∉ es ++ [e])
    (s : SharedSys) (run : X.run st es = .ok s)
    (all : ∀ a g, X.mesh.net.origin a g = none → (X.mesh.net.jobs a g).2 ≠ [] →
      X.mesh.net.Accepted a g ∧ X.mesh.net.Can U S (fun a => (st.procs a).srv) a g (asked a g)) : ∃ s', X.step s e = .ok s' := by
  have began : X.Began U st := by
    obtain ⟨d, mode, cap, fs, h⟩ := onDemand
    exact ⟨d, mode, fun _ => true, cap, fs, h⟩
  cases e with
  | boot a => exact ⟨_, rfl⟩
  | kill a => exact ⟨_, rfl⟩
  | net f =>
    obtain ⟨fs, hf, hr, hl⟩ := shared_heard_lost fits sound began (fun x hx => allowed x (List.mem_append_left _ hx)) run
    have haf : NetEv.Allowed U f := allowed (.net f) (List.mem_append_right _ (List.mem_singleton.mpr rfl))
    obtain ⟨t, ht⟩ := C81_goes_on_partial X.mesh U asked written sound S exact_ st.procs (lazy_procs onDemand) fs f (by
        intro x hx
        rcases List.mem_append.mp hx with hx | hx
        · exact hf x hx
        · rw [List.mem_singleton.mp hx]; exact haf) (by
        intro b w hx
        rcases List.mem_append.mp hx with hx | hx
        · exact unbroken b w (List.mem_append_left _ (hl b w hx))
        · rw [List.mem_singleton] at hx
          exact unbroken b w (by rw [hx]; exact List.mem_append_right _ (List.mem_singleton.mpr rfl))) s.procs hr all
    rw [Shared.step]
    split
    · exact ⟨_, by rw [ht, ok_bind]⟩
    · exact ⟨s, rfl⟩

/-! ## Cases -/

/-- The states of an infinite schedule. -/
def sharedStates (X : Shared) (s : SharedSys) (ev : Nat → SharedEv) : Nat → SharedSys
  | 0 => s
  | k + 1 => match X.step (sharedStates X s ev k) (ev k) with
    | .ok s => s
    | .error _ => sharedStates X s ev k

theorem sharedStates_run {X : Shared} {s : SharedSys} {ev : Nat → SharedEv}
    (h : ∀ k s', X.run s ((List.range k).map ev) = .ok s' → ∃ s'', X.step s' (ev k) = .ok s'') (k : Nat) :
    X.run s ((List.range k).map ev) = .ok (sharedStates X s ev k) ∧
      X.step (sharedStates X s ev k) (ev k) = .ok (sharedStates X s ev (k + 1)) := by
  induction k with
  | zero =>
    obtain ⟨s', h1⟩ := h 0 s rfl
    exact ⟨rfl, by rw [sharedStates.eq_2]; simp only [sharedStates.eq_1]; rw [h1]⟩
  | succ k ih =>
    have hr : X.run s ((List.range (k + 1)).map ev) = .ok (sharedStates X s ev (k + 1)) := by
      rw [List.range_succ, List.map_append]
      exact shared_snoc ih.1 ih.2
    obtain ⟨s', h1⟩ := h (k + 1) _ hr
    exact ⟨hr, by rw [sharedStates.eq_2 X s ev (k + 1), h1]⟩

/-- The processes of C82, with the tasks of C76. -/
def c86Shared : Shared where
  mesh := ⟨{ c76Net with threads := fun a => if a = 0 then 2 else if a < 4 then 1 else 0 }, c82Scans, c80Link, c80Source⟩
  mates := c82Shared.mates

def c86Start : SharedSys := c86Shared.start c82Disk (fun _ => .shadow) (fun _ => true) (fun _ => 4) (fun _ => [])

/-- Process 3 is killed in the middle of a scan, process 1 started in its place; then C80, for ever. -/
def c86Ev (k : Nat) : SharedEv := c82Before[k]?.getD (.net (c80Ev (k - 21)))

def c86States : Nat → SharedSys := sharedStates c86Shared c86Start c86Ev

theorem c86_sound : c86Shared.mesh.Sound c76Names c76Asked c76Written where
  net := ⟨c76_sound.reader, c76_sound.offs, c76_sound.back, c76_sound.sent, c76_sound.client, c76_sound.within⟩
  apart := c82_sound.apart
  back := c82_sound.back
  sent := c82_sound.sent
  within := c82_sound.within

theorem c86_fits : c86Shared.Fits c76Names where
  apart := c82_fits.apart
  once := c82_fits.once
  symm := c82_fits.symm
  trans := c82_fits.trans
  reader a b h := by rcases c82_mate h with ⟨rfl, rfl⟩ | ⟨rfl, rfl⟩ <;> rfl
  offs a b h := by rcases c82_mate h with ⟨rfl, rfl⟩ | ⟨rfl, rfl⟩ <;> rfl
  names a b h := rfl

theorem c86_parcels : c86Shared.mesh.Parcels := by
  intro a g ks server files hk hm
  have hk : c82Scans a g = some ks := hk
  unfold c82Scans at hk
  split at hk
  all_goals first | (cases hk; done) | skip
  all_goals
    cases hk
    simp only [List.mem_cons, List.mem_nil_iff, or_false, ScanKind.forward.injEq, reduceCtorEq] at hm
  rcases hm with ⟨-, rfl⟩ | ⟨-, rfl⟩ <;> decide

theorem c86_began : c86Shared.LazyBegan c76Names c86Start :=
  ⟨c82Disk, fun _ => .shadow, fun _ => 4, fun _ => [], c76_apart, fun _ => Nat.succ_pos 3, fun a => c76_agree _ a,
    (fun a b h => by rcases c82_mate h with ⟨rfl, rfl⟩ | ⟨rfl, rfl⟩ <;> exact ⟨rfl, rfl, rfl⟩), rfl⟩

theorem c86_exact (a : Nat) : (c86Shared.mesh.net.site a).Exact c50Store := c77_exact a

/-- What the processes that are not 3 have is what they have in C76. -/
theorem c86_svc (a : Nat) (h : a ≠ 3) : (c86Start.procs a).srv.svc = (c76Start a).svc := by
  show (Srv.start _ _ _ (c76Disk (if a = 3 then 1 else a)) _ _ _ _).svc = _
  rw [if_neg h]
  rfl

theorem c86_offers {a : Nat} {forward : Bool} {u : Uri} {is : List Interval} {hash : String} {r : WireResult} (ha : a ≠ 3)
    (h : c76Net.Offers c76Names (fun _ => c50Store) c76Start a forward u is hash r) :
    c86Shared.mesh.net.Offers c76Names (fun _ => c50Store) (fun a => (c86Start.procs a).srv) a forward u is hash r := by
  have hp : c86Shared.mesh.net.peer c76Names (fun _ => c50Store) (fun a => (c86Start.procs a).srv) =
      c76Net.peer c76Names (fun _ => c50Store) c76Start := by
    funext server
    have hne : c76Net.host server ≠ 3 := by
      show (if server.1 = "gx" then 1 else 2) ≠ 3
      split <;> omega
    show (c76Net.site (c76Net.host server)).node _ _ (c86Start.procs (c76Net.host server)).srv.svc
      (c86Start.procs (c76Net.host server)).srv.svc.disk _ = _
    rw [c86_svc _ hne]
    rfl
  unfold Net.Offers at h ⊢
  rw [hp]
  split
  · rename_i hf
    rw [if_pos hf] at h
    exact h
  · rename_i hf
    rw [if_neg hf] at h
    have : ((c86Start.procs a).srv.node (c86Shared.mesh.net.site a) (c76Names a) c50Store 0) =
        ((c76Start a).node (c76Net.site a) (c76Names a) c50Store 0) := by
      unfold Srv.node
      rw [c86_svc a ha]
      rfl
    rw [this]
    exact h

theorem c86_serve {a g : Nat} (ha : a ≠ 3) {cat : List (FdbKey × Uri)} {rs : List ExRequest} {ws : List WrittenRequest}
    (h : c76Net.CanServe c76Names (fun _ => c50Store) c76Start a g cat rs ws) :
    c86Shared.mesh.net.CanServe c76Names (fun _ => c50Store) (fun a => (c86Start.procs a).srv) a g cat rs ws :=
  ⟨h.catalogue, h.lists, h.complete, h.places, h.written, h.nonempty, h.fit, h.different, h.sameKeywords, fun i hi hj => by
    obtain ⟨e, h1, h2, r, h3⟩ := h.found i hi hj
    exact ⟨e, h1, h2, r, c86_offers ha h3⟩⟩

theorem c86_serve_paths {a : Nat} (ha : a ≠ 3) {forward : Bool} {rs : List PathReq}
    (h : c76Net.CanServePaths c76Names (fun _ => c50Store) c76Start a forward rs) :
    c86Shared.mesh.net.CanServePaths c76Names (fun _ => c50Store) (fun a => (c86Start.procs a).srv) a forward rs :=
  ⟨h.nonempty, h.remote, h.here, h.place, h.different, fun q hq => by
    obtain ⟨r, h1⟩ := h.found q hq
    exact ⟨r, c86_offers ha h1⟩⟩

theorem c86_can (a g : Nat) (client : c76Net.origin a g = none) (tasks : (c76Net.jobs a g).2 ≠ []) :
    c86Shared.mesh.net.Can c76Names (fun _ => c50Store) (fun a => (c86Start.procs a).srv) a g (c76Asked a g) := by
  have ha : a ≠ 3 := by
    rcases c77_clients a g client tasks with h | h | h | h <;> (cases h; decide)
  have h := c77_can a g client tasks
  generalize c76Asked a g = q at h ⊢
  cases h with
  | fields cat rs ws h => exact .fields cat rs ws (c86_serve ha h)
  | paths forward rs h => exact .paths forward rs (c86_serve_paths ha h)

theorem c86_allowed (k : Nat) : SharedEv.Allowed c76Names (c86Ev k) := by
  unfold c86Ev
  cases he : c82Before[k]? with
  | none => exact c80_allowed _
  | some e =>
    have := c82_history 0 e (List.mem_append_left _ (List.mem_of_getElem? he))
    exact this

theorem c86_unbroken (k a w : Nat) : c86Ev k ≠ .net (.lost a w) := by
  have h : ∀ e ∈ c82Before, e ≠ .net (.lost a w) := by
    intro e he
    simp only [c82Before, List.mem_cons, List.mem_nil_iff, or_false] at he
    repeat' (rcases he with rfl | he <;> first | (intro h; cases h; done) | skip)
    all_goals (subst he; intro h; cases h)
  unfold c86Ev
  cases he : c82Before[k]? with
  | none =>
    intro h1
    exact c81_unbroken (k - 21) a w (SharedEv.net.inj h1)
  | some e => exact h e (List.mem_of_getElem? he)

theorem c86_execution : SharedExecution c86Shared c76Names c86Ev c86States := by
  refine ⟨?_, fun k => (sharedStates_run ?_ k).2, c86_allowed⟩
  · obtain ⟨d, mode, cap, fs, h⟩ := c86_began
    exact ⟨d, mode, fun _ => true, cap, fs, h⟩
  intro k s' hr
  have hs : (List.range k).map c86Ev ++ [c86Ev k] = (List.range (k + 1)).map c86Ev := by
    rw [List.range_succ, List.map_append]; rfl
  refine C86_goes_on_partial _ c76Names c86_fits c76Asked c76Written c86_sound (fun _ => c50Store) c86_exact c86Start c86_began
    ((List.range k).map c86Ev) (c86Ev k) ?_ ?_ s' hr
    fun a g client tasks => ⟨c77_accepted a g client tasks, c86_can a g client tasks⟩
  · intro x hx
    rw [hs] at hx
    obtain ⟨i, -, rfl⟩ := List.mem_map.mp hx
    exact c86_allowed i
  · intro b w hx
    rw [hs] at hx
    obtain ⟨i, -, hi⟩ := List.mem_map.mp hx
    exact c86_unbroken i b w hi

theorem c86_turn (i : Nat) (hi : i < 59) (k : Nat) :
    ∃ m, k ≤ m ∧ c86Ev m = .net (c80Turns[i]?.getD (.on 0 (.other .clear))) := by
  refine ⟨59 * (k + 1) + i + 21, by omega, ?_⟩
  rw [c86Ev, List.getElem?_eq_none (show c82Before.length ≤ _ from by show 21 ≤ _; omega), Option.getD_none,
    show 59 * (k + 1) + i + 21 - 21 = 59 * (k + 1) + i from by omega, c80Ev, Nat.mul_add_mod, Nat.mod_eq_of_lt hi]

theorem c86_alive (a : Nat) (ha : a < 3) : ∀ m, 21 ≤ m → (c86States m).life a = .up := by
  intro m hm
  obtain ⟨d, rfl⟩ := Nat.exists_eq_add_of_le hm
  clear hm
  induction d with
  | zero =>
    match a, ha with
    | 0, _ => show (c86States 21).life 0 = .up; decide +kernel
    | 1, _ => show (c86States 21).life 1 = .up; decide +kernel
    | 2, _ => show (c86States 21).life 2 = .up; decide +kernel
  | succ d ih =>
    have hs := c86_execution.step (21 + d)
    rw [c86Ev, List.getElem?_eq_none (show c82Before.length ≤ _ from by show 21 ≤ _; omega), Option.getD_none, Shared.step] at hs
    show (c86States (21 + d + 1)).life a = .up
    split at hs
    · obtain ⟨t, -, h2⟩ := res_bind_inv hs
      rw [← Except.ok.inj h2]; exact ih
    · rw [← Except.ok.inj hs]; exact ih

theorem c86_goes : SharedGoes c86Shared (fun a => a < 3) c86Ev c86States where
  within a g t b i _ h := by
    have h : (if c86Shared.mesh.scan a g then c80Link a g t else c76Target a g t) = some (b, i) := h
    split at h
    · unfold c80Link at h
      split at h <;> first | (cases h; done) | (cases h; decide)
    · unfold c76Target at h
      split at h <;> first | (cases h; done) | (cases h; decide)
  alive a ha := ⟨21, c86_alive a ha⟩
  workers a w ha hw k := by
    match a, w, ha, hw with
    | 0, 0, _, _ => exact ⟨c86_turn 18 (by decide) k, c86_turn 19 (by decide) k, c86_turn 51 (by decide) k⟩
    | 0, 1, _, _ => exact ⟨c86_turn 20 (by decide) k, c86_turn 21 (by decide) k, c86_turn 52 (by decide) k⟩
    | 1, 0, _, _ => exact ⟨c86_turn 31 (by decide) k, c86_turn 32 (by decide) k, c86_turn 33 (by decide) k⟩
    | 2, 0, _, _ => exact ⟨c86_turn 44 (by decide) k, c86_turn 45 (by decide) k, c86_turn 46 (by decide) k⟩
    | 0, w + 2, _, hw => exact absurd (show w + 2 < 2 from hw) (by omega)
    | 1, w + 1, _, hw => exact absurd (show w + 1 < 1 from hw) (by omega)
    | 2, w + 1, _, hw => exact absurd (show w + 1 < 1 from hw) (by omega)
    | a + 3, _, ha, _ => exact absurd ha (by omega)
  threads b g hb hne k := by
    match b, g, hb, hne with
    | 0, 5, _, _ => exact ⟨c86_turn 0 (by decide) k, c86_turn 1 (by decide) k, c86_turn 2 (by decide) k, c86_turn 55 (by decide) k⟩
    | 1, 5, _, _ => exact ⟨c86_turn 3 (by decide) k, c86_turn 4 (by decide) k, c86_turn 5 (by decide) k, c86_turn 56 (by decide) k⟩
    | 2, 5, _, _ => exact ⟨c86_turn 9 (by decide) k, c86_turn 10 (by decide) k, c86_turn 11 (by decide) k, c86_turn 58 (by decide) k⟩
    | 0, 0, _, _ => exact ⟨c86_turn 12 (by decide) k, c86_turn 13 (by decide) k, c86_turn 16 (by decide) k, c86_turn 53 (by decide) k⟩
    | 0, 1, _, _ => exact ⟨c86_turn 14 (by decide) k, c86_turn 15 (by decide) k, c86_turn 17 (by decide) k, c86_turn 54 (by decide) k⟩
    | 1, 0, _, _ => exact ⟨c86_turn 22 (by decide) k, c86_turn 23 (by decide) k, c86_turn 24 (by decide) k, c86_turn 35 (by decide) k⟩
    | 1, 1, _, _ => exact ⟨c86_turn 25 (by decide) k, c86_turn 26 (by decide) k, c86_turn 27 (by decide) k, c86_turn 36 (by decide) k⟩
    | 1, 2, _, _ => exact ⟨c86_turn 28 (by decide) k, c86_turn 29 (by decide) k, c86_turn 30 (by decide) k, c86_turn 37 (by decide) k⟩
    | 2, 0, _, _ => exact ⟨c86_turn 38 (by decide) k, c86_turn 39 (by decide) k, c86_turn 40 (by decide) k, c86_turn 49 (by decide) k⟩
    | 2, 1, _, _ => exact ⟨c86_turn 41 (by decide) k, c86_turn 42 (by decide) k, c86_turn 43 (by decide) k, c86_turn 50 (by decide) k⟩
    | 0, 2, _, hne => exact absurd rfl hne
    | 0, 3, _, hne => exact absurd rfl hne
    | 0, 4, _, hne => exact absurd rfl hne
    | 0, g + 6, _, hne => exact absurd rfl hne
    | 1, 3, _, hne => exact absurd rfl hne
    | 1, 4, _, hne => exact absurd rfl hne
    | 1, g + 6, _, hne => exact absurd rfl hne
    | 2, 2, _, hne => exact absurd rfl hne
    | 2, 3, _, hne => exact absurd rfl hne
    | 2, 4, _, hne => exact absurd rfl hne
    | 2, g + 6, _, hne => exact absurd rfl hne
    | a + 3, _, hb, _ => exact absurd hb (by omega)
  some b g hb _ := by
    match b, hb with
    | 0, _ => exact Nat.succ_pos 1
    | 1, _ => exact Nat.succ_pos 0
    | 2, _ => exact Nat.succ_pos 0
    | b + 3, hb => exact absurd hb (by omega)
  room := by
    refine ⟨fun _ => 0, fun b j _ hb => .inr fun g t c i ht => ?_⟩
    exfalso
    have ht : (if c86Shared.mesh.scan b g then c80Link b g t else c76Target b g t) = some (c, i) := ht
    match b, hb, ht with
    | 0, hb, _ =>
      refine hb ?_
      show (if c86Shared.mesh.scan 0 j then c80Source 0 j else c76Origin 0 j) = none
      split <;> rfl
    | b + 1, _, ht =>
      split at ht
      · cases ht
      · cases ht

theorem c86_reads (a g : Nat) : c86Shared.mesh.Reads (procsOf c86States) 0 a g := by
  have a0 : ∀ b, (b = 1 ∨ b = 3) → ∀ os, (os = [0, 6] ∨ os = [0] ∨ os = [6]) →
      Readable toyReader c74Site.offs (c86Start.procs b).srv.svc "/fdb/a.data" os ∧ os ≠ [] := by
    intro b hb os h
    have ok : ∀ o ∈ [0, 6], ((diskWorld toyReader c74Site.offs c74Disk).data "/fdb/a.data" o).toOption.isSome = true := by
      decide +kernel
    have hd : (c86Start.procs b).srv.svc.disk = c74Disk := by rcases hb with rfl | rfl <;> rfl
    have get : ∀ o ∈ [0, 6], ∃ i, (diskWorld toyReader c74Site.offs (c86Start.procs b).srv.svc.disk).data "/fdb/a.data" o = .ok i := by
      intro o ho
      rw [hd]
      cases hd : (diskWorld toyReader c74Site.offs c74Disk).data "/fdb/a.data" o with
      | error e => have := ok o ho; rw [hd] at this; cases this
      | ok i => exact ⟨i, rfl⟩
    rcases h with rfl | rfl | rfl
    · exact ⟨⟨[0, 6], rfl, get⟩, by simp⟩
    · exact ⟨⟨[0], rfl, fun o ho => get o (by simp at ho; simp [ho])⟩, by simp⟩
    · exact ⟨⟨[6], rfl, fun o ho => get o (by simp at ho; simp [ho])⟩, by simp⟩
  have b0 : Readable toyReader c74Site.offs (c86Start.procs 2).srv.svc "/fdb/b.data" [0] := by
    have ok : ((diskWorld toyReader c74Site.offs (c86Start.procs 2).srv.svc.disk).data "/fdb/b.data" 0).toOption.isSome = true := by
      decide +kernel
    refine ⟨[0], rfl, fun o ho => ?_⟩
    rw [List.mem_singleton] at ho
    subst ho
    cases hd : (diskWorld toyReader c74Site.offs (c86Start.procs 2).srv.svc.disk).data "/fdb/b.data" 0 with
    | error e => rw [hd] at ok; cases ok
    | ok i => exact ⟨i, rfl⟩
  intro ks path os hk hm
  have hk : c82Scans a g = some ks := hk
  unfold c82Scans at hk
  split at hk
  all_goals first | (cases hk; done) | skip
  all_goals
    cases hk
    simp only [List.mem_cons, List.mem_nil_iff, or_false, ScanKind.file.injEq, reduceCtorEq] at hm
  · obtain ⟨rfl, rfl⟩ := hm
    exact ⟨(a0 1 (.inl rfl) _ (.inl rfl)).1, fun h => absurd h (by simp)⟩
  · obtain ⟨rfl, rfl⟩ := hm
    exact ⟨b0, fun h => absurd h (by simp)⟩
  · obtain ⟨rfl, rfl⟩ := hm
    exact ⟨(a0 3 (.inr rfl) _ (.inr (.inr rfl))).1, fun h => absurd h (by simp)⟩
  · obtain ⟨rfl, rfl⟩ := hm
    exact ⟨(a0 3 (.inr rfl) _ (.inr (.inl rfl))).1, fun h => absurd h (by simp)⟩

theorem c86_unbegun (a g : Nat) : ((c86States 0).procs).Unbegun a g := fun j h => by cases h

theorem c86_others : MeshCan c86Shared.mesh c76Names c76Asked (fun _ => c50Store) (fun a => a < 3) (procsOf c86States) where
  scans b j a g t _ _ := ⟨0, rfl, c86_reads b j⟩
  calls b j a g t _ h := by
    have hc := c76_sound.sender h
    obtain ⟨_, _, _, hJ, -⟩ := c76_sound.sent _ _ _ _ _ ((c76_sound.back _ _ _ _ _).mpr h)
    exact ⟨0, c86_unbegun a g, c86_can a g hc (by intro e; rw [e] at hJ; cases hJ)⟩

theorem c86_kept (a g : Nat) : SharedKept c86Shared c86Ev c86States 0 a g := fun m w _ _ _ => c86_unbroken m a w

/-- Non-vacuity: process 3 is killed in the middle of a scan, and never comes back; process 1, which has its files, is started
after that.  By the theorems the scan at process 0 that is forwarded to processes 1 and 2 returns a number, and the extractions
at process 0 return the fields. -/
example : (∃ m c, (((c86States m).procs 0).srv.x.t.grp 5).phase = .returned ∧ ((c86States m).procs 0).scanOutcome 5 = .ok c) ∧
    (∃ k, (((c86States k).procs 0).srv.x.t.grp 0).phase = .returned ∧ ∃ out,
      Net.outcome c76Written (fun a => ((c86States k).procs a).srv) 0 0 = .ok out ∧
      c86Shared.mesh.net.Serves c76Names (fun _ => c50Store) (fun a => ((c86States 0).procs a).srv) 0 c52Cat c50Reqs c27Written
        out) ∧
    (∃ k, (((c86States k).procs 0).srv.x.t.grp 1).phase = .returned ∧ ∃ out,
      Net.outcome c76Written (fun a => ((c86States k).procs a).srv) 0 1 = .ok out ∧
      c86Shared.mesh.net.ServesPaths c76Names (fun _ => c50Store) (fun a => ((c86States 0).procs a).srv) 0 true
        [⟨"/fdb/b.data", "fdb", 0, "y", 2, [⟨0, 2⟩], "g"⟩] out) := by
  have t0 : (c76Net.jobs 0 0).2 ≠ [] := fun e => by
    have h0 : (c76Net.jobs 0 0).2.length = 2 := by decide +kernel
    rw [e] at h0; cases h0
  have t1 : (c76Net.jobs 0 1).2 ≠ [] := fun e => by
    have h0 : (c76Net.jobs 0 1).2.length = 1 := by decide +kernel
    rw [e] at h0; cases h0
  refine ⟨?_, ?_, ?_⟩
  · refine C86_scan_returns_partial c86Shared c76Names c86_fits c76Asked c76Written c86_sound c86_parcels (fun _ => c50Store)
      c86_exact c86Ev c86States c86_execution c86_began _ c86_goes c86_others 0 5 0 (by decide) _ rfl (by simp) rfl rfl
      (c86_reads 0 5) (c86_kept 0 5) ?_
    intro j server files hj
    match j, hj with
    | 0, _ => intro h; cases h
    | 1, _ => intro h; cases h
    | j + 2, hj => cases hj
  · exact C86_fields_return_partial c86Shared c76Names c86_fits c76Asked c76Written c86_sound c86_parcels (fun _ => c50Store)
      c86_exact c86Ev c86States c86_execution c86_began _ c86_goes c86_others 0 0 0 (by decide) rfl rfl t0 (c86_unbegun 0 0)
      (c86_kept 0 0) (c77_accepted 0 0 rfl t0) _ _ _ rfl (c86_serve (by decide) c77_front)
  · exact C86_paths_return_partial c86Shared c76Names c86_fits c76Asked c76Written c86_sound c86_parcels (fun _ => c50Store)
      c86_exact c86Ev c86States c86_execution c86_began _ c86_goes c86_others 0 1 0 (by decide) rfl rfl t1 (c86_unbegun 0 1)
      (c86_kept 0 1) (c77_accepted 0 1 rfl t1) _ _ rfl (c86_serve_paths (by decide) c77_frontPaths)

/-- Process 3 is dead, in the middle of its scan. -/
example : (c86States 21).life 3 = .dead ∧ ((c86States 21).procs 3).srv.x.t.workers = [WPc.running 6 0] := by
  exact ⟨by decide +kernel, by decide +kernel⟩

end GJ
