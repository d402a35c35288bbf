import Verif.Model.Metrics
import Verif.Lemmas.Engine
import Verif.Props.C22
import Verif.Spec.Metrics

namespace GJ
open Spec

theorem met_bind {α β : Type} (x : Met α) (f : α → Met β) (c : Conn) :
    (x >>= f) c = match x c with
      | (c', .ok a) => f a c'
      | (c', .error e) => (c', .error e) := rfl

theorem met_bind_ok {α β : Type} {x : Met α} {f : α → Met β} {c c' : Conn} {a : α} (h : x c = (c', .ok a)) :
    (x >>= f) c = f a c' := by
  rw [met_bind, h]

theorem met_bind_error {α β : Type} {x : Met α} {f : α → Met β} {c c' : Conn} {e : Fault} (h : x c = (c', .error e)) :
    (x >>= f) c = (c', .error e) := by
  rw [met_bind, h]

/-- The state changes in a certain way only, whether or not the step throws. -/
def Met.Moves (P : Conn → Conn → Prop) {α : Type} (x : Met α) : Prop := ∀ c, P c (x c).1

section
variable {P : Conn → Conn → Prop} {α β : Type}

theorem Met.Moves.bind (tr : ∀ a b c, P a b → P b c → P a c) {x : Met α} {f : α → Met β} (hx : x.Moves P)
    (hf : ∀ a, (f a).Moves P) : (x >>= f).Moves P := by
  intro c
  rw [met_bind]
  have h := hx c
  generalize x c = y at h
  match y, h with
  | (c', .ok a), h => exact tr _ _ _ h (hf a c')
  | (c', .error e), h => exact h

theorem Met.Moves.lift (re : ∀ c, P c c) (r : Res α) : (Met.lift r).Moves P := fun c => re c

theorem Met.Moves.pure (re : ∀ c, P c c) (a : α) : (Pure.pure a : Met α).Moves P := fun c => re c

theorem Met.Moves.read (h : ∀ (c : Conn) i, P c { c with input := i }) (re : ∀ c, P c c) (d : Dec α) :
    (Met.read d).Moves P := by
  intro c
  rw [Met.read.eq_def]
  generalize d c.input = y
  match y with
  | .ok (a, rest) => exact h c rest
  | .error e => exact re c

end

/-- Nothing reached the client or the engine. -/
structure Unseen (c c' : Conn) : Prop where
  out : c'.out = c.out
  calls : c'.calls = c.calls
  requests : c'.requests = c.requests
  room : c'.room = c.room

theorem Unseen.refl (c : Conn) : Unseen c c := ⟨rfl, rfl, rfl, rfl⟩

theorem Unseen.trans (a b c : Conn) (h : Unseen a b) (k : Unseen b c) : Unseen a c :=
  ⟨k.1.trans h.1, k.2.trans h.2, k.3.trans h.3, k.4.trans h.4⟩

/-- A value is left as it was. -/
def Spares (k : String) (c c' : Conn) : Prop := c'.values.find k = c.values.find k

theorem Spares.trans (k : String) (a b c : Conn) (h : Spares k a b) (h' : Spares k b c) : Spares k a c :=
  Eq.trans h' h

theorem spares_set {k n : String} {v : MVal} (h : n ≠ k) : (Met.set n v).Moves (Spares k) := by
  intro c
  show AMap.find (AMap.set c.values n v) k = _
  rw [AMap.find_set, if_neg h]

theorem spares_read {k : String} {α : Type} (d : Dec α) : (Met.read d).Moves (Spares k) :=
  Met.Moves.read (P := Spares k) (fun _ _ => rfl) (fun _ => rfl) d

theorem spares_lift {k : String} {α : Type} (r : Res α) : (Met.lift r).Moves (Spares k) :=
  Met.Moves.lift (P := Spares k) (fun _ => rfl) r

theorem spares_pure {k : String} {α : Type} (a : α) : (Pure.pure a : Met α).Moves (Spares k) :=
  Met.Moves.pure (P := Spares k) (fun _ => rfl) a

theorem spares_bind {k : String} {α β : Type} {x : Met α} {f : α → Met β} (hx : x.Moves (Spares k))
    (hf : ∀ a, (f a).Moves (Spares k)) : (x >>= f).Moves (Spares k) := Met.Moves.bind (Spares.trans k) hx hf

/-- Values are added under certain names only, and no name twice. -/
def Within (names : List String) (c c' : Conn) : Prop :=
  (c.values.keys.Nodup → c'.values.keys.Nodup) ∧ ∀ k ∈ c'.values.keys, k ∈ c.values.keys ∨ k ∈ names

theorem Within.refl (names : List String) (c : Conn) : Within names c c := ⟨id, fun _ h => Or.inl h⟩

theorem Within.trans (names : List String) (a b c : Conn) (h : Within names a b) (h' : Within names b c) :
    Within names a c :=
  ⟨fun x => h'.1 (h.1 x), fun k hk => (h'.2 k hk).elim (fun y => h.2 k y) Or.inr⟩

theorem within_same {names : List String} {c c' : Conn} (h : c'.values = c.values) : Within names c c' := by
  unfold Within
  rw [h]
  exact ⟨id, fun _ h => Or.inl h⟩

theorem within_values_set {names : List String} {c c' : Conn} {n : String} {v : MVal} (h : n ∈ names)
    (e : c'.values = c.values.set n v) : Within names c c' := by
  unfold Within
  rw [e]
  refine ⟨AMap.nodup_set _ _ _, fun k hk => ?_⟩
  rw [AMap.keys_set] at hk
  split at hk
  · exact Or.inl hk
  · rcases List.mem_append.mp hk with hk | hk
    · exact Or.inl hk
    · rw [List.mem_singleton.mp hk]; exact Or.inr h

theorem within_set {names : List String} {n : String} {v : MVal} (h : n ∈ names) :
    (Met.set n v).Moves (Within names) := fun _ => within_values_set h rfl

theorem within_read {names : List String} {α : Type} (d : Dec α) : (Met.read d).Moves (Within names) :=
  Met.Moves.read (fun _ _ => within_same rfl) (Within.refl names) d

theorem within_bind {names : List String} {α β : Type} {x : Met α} {f : α → Met β} (hx : x.Moves (Within names))
    (hf : ∀ a, (f a).Moves (Within names)) : (x >>= f).Moves (Within names) := Met.Moves.bind (Within.trans names) hx hf

/-! ## Receiving -/

/-- The request of a connection, as received. -/
def receive (id : Nat) : Met ServerReq := readHeader >>= fun t => constructRequest id t

/-- What follows. -/
def finishRequest (E : MEngine) (req : ServerReq) : Met Unit := do
  Met.set "elapsed_receive" .clock
  Met.asked req
  let (errs, body) ← Met.engine (executeRequest E req)
  Met.set "elapsed_execute" .clock
  Met.write (encErrors errs)
  let b ← Met.lift body
  Met.write b
  Met.set "elapsed_reply" .clock

theorem met_assoc {α β γ : Type} (x : Met α) (f : α → Met β) (g : β → Met γ) :
    (x >>= f) >>= g = x >>= fun a => f a >>= g := by
  funext c
  rw [met_bind, met_bind, met_bind]
  generalize x c = y
  match y with
  | (c', .ok a) => rfl
  | (c', .error e) => rfl

theorem serve_split (E : MEngine) (id : Nat) :
    (do let t ← readHeader; processRequest E id t : Met Unit) = receive id >>= fun r => finishRequest E r := by
  rw [receive, met_assoc]
  rfl

/-- A step of the connection reads as a decoder does. -/
def Mirrors {α β : Type} (R : α → β → Prop) (x : Met α) (d : Dec β) : Prop :=
  ∀ c, match d c.input with
    | .ok (b, rest) => ∃ a, (x c).2 = .ok a ∧ R a b ∧ (x c).1.input = rest
    | .error e => (x c).2 = .error e

theorem Mirrors.bind {α β γ δ : Type} {R : α → β → Prop} {S : γ → δ → Prop} {x : Met α} {d : Dec β} {f : α → Met γ}
    {g : β → Dec δ} (hx : Mirrors R x d) (hf : ∀ a b, R a b → Mirrors S (f a) (g b)) :
    Mirrors S (x >>= f) (d >>= g) := by
  intro c
  have h := hx c
  match hd : d c.input with
  | .error e =>
    rw [hd] at h
    rw [Dec.bind_error hd]
    have : x c = ((x c).1, .error e) := by rw [← show (x c).2 = .error e from h]
    rw [met_bind_error this]
  | .ok (b, rest) =>
    rw [hd] at h
    obtain ⟨a, ha, hr, hi⟩ := h
    rw [Dec.bind_ok hd]
    have : x c = ((x c).1, .ok a) := by rw [← ha]
    rw [met_bind_ok this, ← hi]
    exact hf a b hr (x c).1

theorem mirrors_read {α : Type} (d : Dec α) : Mirrors (fun a b => a = b) (Met.read d) d := by
  intro c
  match hd : d c.input with
  | .error e => simp only [Met.read, hd]
  | .ok (b, rest) => exact ⟨b, by rw [Met.read.eq_def, hd], rfl, by rw [Met.read.eq_def, hd]⟩

theorem mirrors_lift {α : Type} (r : Res α) : Mirrors (fun a b => a = b) (Met.lift r) (Dec.lift r) := by
  intro c
  cases r with
  | ok a => exact ⟨a, rfl, rfl, rfl⟩
  | error e => rfl

theorem mirrors_fail {α β : Type} (R : α → β → Prop) (e : Exn) :
    Mirrors R (Met.lift (throwExn e)) (Dec.fail e) := fun _ => rfl

theorem mirrors_pure {α β : Type} {R : α → β → Prop} {a : α} {b : β} (h : R a b) :
    Mirrors R (pure a : Met α) (pure b : Dec β) := fun _ => ⟨a, rfl, h, rfl⟩

/-- A step that only records something. -/
theorem mirrors_skip {α β : Type} {R : α → β → Prop} {x : Met Unit} {y : Unit → Met α} {d : Dec β}
    (hx : ∀ c, (x c).2 = .ok () ∧ (x c).1.input = c.input) (hy : Mirrors R (y ()) d) : Mirrors R (x >>= y) d := by
  intro c
  obtain ⟨h1, h2⟩ := hx c
  have : x c = ((x c).1, .ok ()) := by rw [← h1]
  have hz := hy (x c).1
  rw [h2] at hz
  rw [met_bind_ok this]
  exact hz

theorem set_skip (n : String) (v : MVal) (c : Conn) : (Met.set n v c).2 = .ok () ∧ (Met.set n v c).1.input = c.input :=
  ⟨rfl, rfl⟩

theorem begin_skip (id : Nat) (a : String) (c : Conn) :
    (beginRequest id a c).2 = .ok () ∧ (beginRequest id a c).1.input = c.input := ⟨rfl, rfl⟩

theorem mirrors_header : Mirrors (fun t (p : String × Nat) => t = p.2) readHeader decHeader := by
  rw [readHeader, decHeader]
  refine (mirrors_read Dec.u16).bind ?_
  rintro v _ rfl
  by_cases hv : v ≠ protocolVersion
  · rw [if_pos hv, if_pos hv]
    exact mirrors_fail _ _
  · rw [if_neg hv, if_neg hv]
    refine (mirrors_read Dec.str).bind ?_
    rintro ctx _ rfl
    refine mirrors_skip (fun c => ⟨rfl, rfl⟩) ?_
    intro c
    have h := mirrors_read Dec.u16 c
    match hd : Dec.u16 c.input with
    | .error e =>
      rw [hd] at h
      rw [Dec.bind_error hd]
      exact h
    | .ok (t, rest) =>
      rw [hd] at h
      rw [Dec.bind_ok hd]
      obtain ⟨a, ha, hr, hi⟩ := h
      exact ⟨a, ha, hr, hi⟩

/-- The server understands what `dispatch` says. -/
theorem mirrors_receive (id : Nat) : Mirrors (fun r (p : String × ServerReq) => r = p.2) (receive id) dispatch := by
  rw [receive, dispatch]
  refine mirrors_header.bind ?_
  rintro t ⟨ctx, t'⟩ h
  cases (show t = t' from h)
  match t with
  | 0 =>
    refine mirrors_skip (begin_skip id _) ((mirrors_read decExtractReq).bind ?_)
    rintro rs _ rfl
    exact mirrors_skip (set_skip _ _) (mirrors_pure rfl)
  | 1 =>
    refine mirrors_skip (begin_skip id _) ((mirrors_read decAxesReq).bind ?_)
    rintro ⟨r, l⟩ _ rfl
    refine (mirrors_lift _).bind ?_
    rintro _ _ rfl
    exact mirrors_pure rfl
  | 2 =>
    refine mirrors_skip (begin_skip id _) ((mirrors_read decScanReq).bind ?_)
    rintro ⟨rs, b⟩ _ rfl
    exact mirrors_skip (set_skip _ _) (mirrors_pure rfl)
  | 3 =>
    refine mirrors_skip (begin_skip id _) ((mirrors_read decForwardExtract).bind ?_)
    rintro fm _ rfl
    refine mirrors_skip (set_skip _ _) ((mirrors_lift _).bind ?_)
    rintro _ _ rfl
    exact mirrors_pure rfl
  | 4 =>
    refine mirrors_skip (begin_skip id _) ((mirrors_read decForwardScan).bind ?_)
    rintro sm _ rfl
    exact mirrors_skip (set_skip _ _) (mirrors_pure rfl)
  | t + 5 => exact mirrors_fail _ _

theorem readHeader_context (c : Conn) :
    (readHeader c).1 = { c with context := (contextSent c.input).getD c.context, input := (readHeader c).1.input } ∧
      (∀ t, (readHeader c).2 = .ok t → typeSent c.input = some t) ∧
      (∀ t, typeSent c.input = some t → (readHeader c).2 = .ok t) := by
  obtain ⟨context, values, requests, input, out, calls, room⟩ := c
  rw [readHeader]
  match hv : Dec.u16 input with
  | .error e =>
    have hn : ∀ v rest, input ≠ .u16 v :: rest := fun v rest h => by rw [h] at hv; cases hv
    have h1 : contextSent input = none := by
      rw [contextSent.eq_def]; split
      · exact absurd rfl (hn _ _)
      · rfl
    have h2 : typeSent input = none := by
      rw [typeSent.eq_def]; split
      · exact absurd rfl (hn _ _)
      · rfl
    rw [met_bind_error (c' := ⟨context, values, requests, input, out, calls, room⟩) (e := e)
      (by rw [Met.read.eq_def]; simp only [hv])]
    simp only [h1, h2]
    exact ⟨rfl, fun t h => (by cases h), fun t h => (by cases h)⟩
  | .ok (v, s1) =>
    have e1 := u16_inv hv
    subst e1
    rw [met_bind_ok (c' := ⟨context, values, requests, s1, out, calls, room⟩) (a := v) rfl]
    by_cases h3 : v ≠ protocolVersion
    · rw [if_pos h3]
      have h1 : contextSent (.u16 v :: s1) = none := by
        rw [contextSent.eq_def]; split
        · rename_i h; cases h; exact absurd rfl h3
        · rfl
      have h2 : typeSent (.u16 v :: s1) = none := by
        rw [typeSent.eq_def]; split
        · rename_i h; cases h; exact absurd rfl h3
        · rfl
      rw [h1, h2]
      exact ⟨rfl, fun t h => (by cases h), fun t h => (by cases h)⟩
    · rw [if_neg h3]
      have hv3 : v = 3 := by simpa [protocolVersion] using h3
      subst hv3
      match hs : Dec.str s1 with
      | .error e =>
        have hn : ∀ x rest, s1 ≠ .str x :: rest := fun v rest h => by rw [h] at hs; cases hs
        have h1 : contextSent (.u16 3 :: s1) = none := by
          rw [contextSent.eq_def]; split
          · rename_i h; cases h; exact absurd rfl (hn _ _)
          · rfl
        have h2 : typeSent (.u16 3 :: s1) = none := by
          rw [typeSent.eq_def]; split
          · rename_i h; cases h; exact absurd rfl (hn _ _)
          · rfl
        rw [met_bind_error (c' := ⟨context, values, requests, s1, out, calls, room⟩) (e := e)
          (by rw [Met.read.eq_def]; simp only [hs])]
        simp only [h1, h2]
        exact ⟨rfl, fun t h => (by cases h), fun t h => (by cases h)⟩
      | .ok (ctx, s2) =>
        have e2 := str_inv hs
        subst e2
        rw [met_bind_ok (c' := ⟨context, values, requests, s2, out, calls, room⟩) (a := ctx) rfl,
          met_bind_ok (c' := ⟨ctx, values, requests, s2, out, calls, room⟩) (a := ()) rfl]
        match ht : Dec.u16 s2 with
        | .error e =>
          have hn : ∀ x rest, s2 ≠ .u16 x :: rest := fun v rest h => by rw [h] at ht; cases ht
          have h2 : typeSent (.u16 3 :: .str ctx :: s2) = none := by
            rw [typeSent.eq_def]; split
            · rename_i h; cases h; exact absurd rfl (hn _ _)
            · rfl
          rw [Met.read.eq_def]
          simp only [ht, h2]
          exact ⟨rfl, fun t h => (by cases h), fun t h => (by cases h)⟩
        | .ok (t, s3) =>
          have e3 := u16_inv ht
          subst e3
          exact ⟨rfl, fun t h => (by cases h; rfl), fun t h => (by cases h; rfl)⟩

def receiveNames : List String :=
  ["gribjump_request_id", "action", "count_extraction_requests", "count_scan_requests", "count_received_offsets"]

/-- What is said of every step of `constructRequest` holds of it. -/
theorem construct_moves {P : Conn → Conn → Prop} (re : ∀ c, P c c) (tr : ∀ a b c, P a b → P b c → P a c)
    (hi : ∀ (c : Conn) i, P c { c with input := i })
    (hs : ∀ n ∈ receiveNames, ∀ v, (Met.set n v).Moves P) (id t : Nat) : (constructRequest id t).Moves P := by
  have hb : ∀ a, (beginRequest id a).Moves P := fun a =>
    Met.Moves.bind tr (hs _ (by decide) _) fun _ => hs _ (by decide) _
  match t with
  | 0 =>
    exact .bind tr (hb _) fun _ => .bind tr (.read hi re _) fun _ => .bind tr (hs _ (by decide) _) fun _ => .pure re _
  | 1 =>
    exact .bind tr (hb _) fun _ => .bind tr (.read hi re _) fun _ => .bind tr (.lift re _) fun _ => .pure re _
  | 2 =>
    exact .bind tr (hb _) fun _ => .bind tr (.read hi re _) fun _ => .bind tr (hs _ (by decide) _) fun _ => .pure re _
  | 3 =>
    exact .bind tr (hb _) fun _ => .bind tr (.read hi re _) fun _ => .bind tr (hs _ (by decide) _) fun _ =>
      .bind tr (.lift re _) fun _ => .pure re _
  | 4 =>
    exact .bind tr (hb _) fun _ => .bind tr (.read hi re _) fun _ => .bind tr (hs _ (by decide) _) fun _ => .pure re _
  | t + 5 => exact .lift re _

theorem receive_moves {P : Conn → Conn → Prop} (re : ∀ c, P c c) (tr : ∀ a b c, P a b → P b c → P a c)
    (hi : ∀ (c : Conn) x i, P c { c with context := x, input := i })
    (hs : ∀ n ∈ receiveNames, ∀ v, (Met.set n v).Moves P) (id : Nat) : (receive id).Moves P := by
  refine .bind tr (fun c => ?_) fun t => construct_moves re tr (fun c i => hi c c.context i) hs id t
  rw [(readHeader_context c).1]
  exact hi c _ _

theorem receive_unseen (id : Nat) (c : Conn) : Unseen c (receive id c).1 :=
  receive_moves Unseen.refl Unseen.trans (fun _ _ _ => ⟨rfl, rfl, rfl, rfl⟩)
    (fun _ _ _ _ => ⟨rfl, rfl, rfl, rfl⟩) id c

theorem receive_spares {k : String} (hk : k ∉ receiveNames) (id : Nat) (c : Conn) : Spares k c (receive id c).1 :=
  receive_moves (P := Spares k) (fun _ => rfl) (Spares.trans k) (fun _ _ _ => rfl)
    (fun _ hn _ => spares_set (fun e => hk (e ▸ hn))) id c

theorem receive_within (id : Nat) (c : Conn) : Within receiveNames c (receive id c).1 :=
  receive_moves (P := Within receiveNames) (Within.refl _) (Within.trans _) (fun _ _ _ => within_same rfl)
    (fun _ hn _ => within_set hn) id c

theorem receive_context (id : Nat) (c : Conn) :
    (receive id c).1.context = (contextSent c.input).getD c.context := by
  have h := readHeader_context c
  have hc : ∀ t, (constructRequest id t).Moves fun a b => b.context = a.context := fun t =>
    construct_moves (P := fun a b => b.context = a.context) (fun _ => rfl) (fun _ _ _ h h' => h'.trans h)
      (fun _ _ => rfl) (fun _ _ _ _ => rfl) id t
  rw [receive, met_bind]
  generalize readHeader c = y at h
  match y, h with
  | (c', .ok t), h => exact (hc t c').trans (congrArg Conn.context h.1)
  | (c', .error e), h => exact congrArg Conn.context h.1

/-- The part of a constructor after its first lines leaves number and action alone. -/
theorem construct_begin (id t : Nat) (c : Conn) (k : String) (hk : k = "gribjump_request_id" ∨ k = "action") :
    (constructRequest id t c).1.values.find k = match actionName t with
      | none => c.values.find k
      | some a => (beginRequest id a c).1.values.find k := by
  have hs : ∀ n ∈ ["count_extraction_requests", "count_scan_requests", "count_received_offsets"], ∀ v,
      (Met.set n v).Moves (Spares k) := fun n hn v => spares_set (by
    rcases hk with rfl | rfl <;> (intro e; subst e; revert hn; decide))
  have go : ∀ (a : String) (y : Unit → Met ServerReq), (y ()).Moves (Spares k) →
      ((beginRequest id a >>= y) c).1.values.find k = (beginRequest id a c).1.values.find k := by
    intro a y hy
    rw [met_bind_ok (c' := (beginRequest id a c).1) (a := ()) rfl]
    exact hy _
  match t with
  | 0 => exact go _ _ (spares_bind (spares_read _) fun _ => spares_bind (hs _ (by decide) _) fun _ => spares_pure _)
  | 1 => exact go _ _ (spares_bind (spares_read _) fun _ => spares_bind (spares_lift _) fun _ => spares_pure _)
  | 2 => exact go _ _ (spares_bind (spares_read _) fun _ => spares_bind (hs _ (by decide) _) fun _ => spares_pure _)
  | 3 =>
    exact go _ _ (spares_bind (spares_read _) fun _ => spares_bind (hs _ (by decide) _) fun _ =>
      spares_bind (spares_lift _) fun _ => spares_pure _)
  | 4 => exact go _ _ (spares_bind (spares_read _) fun _ => spares_bind (hs _ (by decide) _) fun _ => spares_pure _)
  | t + 5 => rfl

theorem receive_begin (id : Nat) (c : Conn) (k : String) (hk : k = "gribjump_request_id" ∨ k = "action") :
    (receive id c).1.values.find k = match (typeSent c.input).bind actionName with
      | none => c.values.find k
      | some a => if k = "action" then some (.text a) else some (.num id) := by
  have h := readHeader_context c
  rw [receive, met_bind]
  generalize readHeader c = y at h
  match y, h with
  | (c', .ok t), h =>
    obtain ⟨h1, h2, -⟩ := h
    have hv : c'.values = c.values := by rw [show c' = _ from h1]
    rw [h2 t rfl, Option.bind_some]
    show (constructRequest id t c').1.values.find k = _
    rw [construct_begin id t c' k hk]
    cases ha : actionName t with
    | none => exact congrArg (AMap.find · k) hv
    | some a =>
      show AMap.find (AMap.set (AMap.set c'.values "gribjump_request_id" (.num id)) "action" (.text a)) k = _
      rcases hk with rfl | rfl
      · rw [AMap.find_set, if_neg (by decide), AMap.find_set, if_pos rfl]
        exact (if_neg (by decide)).symm
      · rw [AMap.find_set, if_pos rfl]
        exact (if_pos rfl).symm
  | (c', .error e), h =>
    obtain ⟨h1, h2, h3⟩ := h
    have hn : typeSent c.input = none := by
      cases ht : typeSent c.input with
      | none => rfl
      | some t => have := h3 t ht; cases this
    rw [hn]
    show c'.values.find k = _
    rw [show c'.values = c.values from by rw [show c' = _ from h1]]
    rfl

theorem met_bind_inv {α β : Type} {x : Met α} {f : α → Met β} {c c' : Conn} {b : β}
    (h : (x >>= f) c = (c', .ok b)) : ∃ c1 a, x c = (c1, .ok a) ∧ f a c1 = (c', .ok b) := by
  rw [met_bind] at h
  generalize x c = y at h
  match y, h with
  | (c1, .ok a), h => exact ⟨c1, a, rfl, h⟩
  | (c1, .error e), h => cases h

theorem receive_size {id : Nat} {c c' : Conn} {req : ServerReq} (h : receive id c = (c', .ok req)) {n : String}
    {v : Nat} (hs : sizeAsked req = some (n, v)) : c'.values.find n = some (.num v) := by
  rw [receive] at h
  obtain ⟨c1, t, -, h⟩ := met_bind_inv h
  match t, h with
  | 0, h =>
    obtain ⟨c2, _, -, h⟩ := met_bind_inv h
    obtain ⟨c3, rs, -, h⟩ := met_bind_inv h
    obtain ⟨c4, _, h4, h⟩ := met_bind_inv h
    cases h; cases hs; cases h4
    exact (AMap.find_set _ _ _ _).trans (if_pos rfl)
  | 1, h =>
    obtain ⟨c2, _, -, h⟩ := met_bind_inv h
    obtain ⟨c3, ⟨r, l⟩, -, h⟩ := met_bind_inv h
    obtain ⟨c4, _, -, h⟩ := met_bind_inv h
    cases h; cases hs
  | 2, h =>
    obtain ⟨c2, _, -, h⟩ := met_bind_inv h
    obtain ⟨c3, ⟨rs, b⟩, -, h⟩ := met_bind_inv h
    obtain ⟨c4, _, h4, h⟩ := met_bind_inv h
    cases h; cases hs; cases h4
    exact (AMap.find_set _ _ _ _).trans (if_pos rfl)
  | 3, h =>
    obtain ⟨c2, _, -, h⟩ := met_bind_inv h
    obtain ⟨c3, fm, -, h⟩ := met_bind_inv h
    obtain ⟨c4, _, h4, h⟩ := met_bind_inv h
    obtain ⟨c5, _, h5, h⟩ := met_bind_inv h
    cases h; cases hs; cases h4
    have e : c' = _ := (Prod.mk.inj h5).1.symm
    subst e
    exact (AMap.find_set _ _ _ _).trans (if_pos rfl)
  | 4, h =>
    obtain ⟨c2, _, -, h⟩ := met_bind_inv h
    obtain ⟨c3, sm, -, h⟩ := met_bind_inv h
    obtain ⟨c4, _, h4, h⟩ := met_bind_inv h
    cases h; cases hs; cases h4
    exact (AMap.find_set _ _ _ _).trans (if_pos rfl)
  | t + 5, h => cases h

/-! ## The engine -/

/-- The value a list of records leaves under a name. -/
def lastSet (n : String) : List MWrite → Option MVal
  | [] => none
  | .set m v :: ws => (lastSet n ws).or (if m = n then some v else none)
  | .request _ :: ws => lastSet n ws

theorem lastSet_append (n : String) (a b : List MWrite) : lastSet n (a ++ b) = (lastSet n b).or (lastSet n a) := by
  induction a with
  | nil => rw [List.nil_append, lastSet]; cases lastSet n b <;> rfl
  | cons w ws ih =>
    cases w with
    | set m v =>
      rw [List.cons_append, lastSet, ih, lastSet]
      cases lastSet n b <;> rfl
    | request r => rw [List.cons_append, lastSet, ih, lastSet]

theorem lastSet_none {n : String} {ws : List MWrite} (h : ∀ v, .set n v ∉ ws) : lastSet n ws = none := by
  induction ws with
  | nil => rfl
  | cons w ws ih =>
    have hi := ih fun v hv => h v (List.mem_cons_of_mem _ hv)
    cases w with
    | set m v =>
      rw [lastSet, hi, if_neg]
      · rfl
      · intro e; subst e; exact h v List.mem_cons_self
    | request r => rw [lastSet, hi]

theorem record_values (ws : List MWrite) (c : Conn) (n : String) :
    (ws.foldl Conn.record c).values.find n = (lastSet n ws).or (c.values.find n) := by
  induction ws generalizing c with
  | nil => rfl
  | cons w ws ih =>
    rw [List.foldl_cons, ih]
    cases w with
    | set m v =>
      rw [lastSet]
      cases lastSet n ws with
      | some x => rfl
      | none =>
        show AMap.find (AMap.set c.values m v) n = _
        rw [AMap.find_set]
        by_cases h : m = n
        · rw [if_pos h, if_pos h]; rfl
        · rw [if_neg h, if_neg h]; rfl
    | request r => rfl

theorem record_unseen (ws : List MWrite) (c : Conn) :
    (ws.foldl Conn.record c).out = c.out ∧ (ws.foldl Conn.record c).calls = c.calls ∧
      (ws.foldl Conn.record c).room = c.room ∧ (ws.foldl Conn.record c).context = c.context := by
  induction ws generalizing c with
  | nil => exact ⟨rfl, rfl, rfl, rfl⟩
  | cons w ws ih =>
    rw [List.foldl_cons]
    obtain ⟨h1, h2, h3, h4⟩ := ih (c.record w)
    rw [h1, h2, h3, h4]
    cases w <;> exact ⟨rfl, rfl, rfl, rfl⟩

theorem record_within {names : List String} (ws : List MWrite) (h : ∀ n v, .set n v ∈ ws → n ∈ names) (c : Conn) :
    Within names c (ws.foldl Conn.record c) := by
  induction ws generalizing c with
  | nil => exact Within.refl _ _
  | cons w ws ih =>
    rw [List.foldl_cons]
    refine Within.trans _ _ _ _ ?_ (ih (fun n v hv => h n v (List.mem_cons_of_mem _ hv)) _)
    cases w with
    | set m v => exact within_values_set (h m v List.mem_cons_self) rfl
    | request r => exact within_same rfl

/-- The names the engine uses. -/
def engineNames : List String :=
  ["count_tasks", "count_failed_tasks", "count_cancelled_tasks", "first_error", "elapsed_build_filemap", "elapsed_tasks",
    "elapsed_collect_results", "count_scanned_fields"]

/-- What an engine records: under its own names only, and when it returns, what became of its tasks. -/
structure MEngine.Tells (E : MEngine) : Prop where
  names : ∀ req n v, .set n v ∈ (executeRequest E req).1 → n ∈ engineNames
  first : ∀ req errs body, (executeRequest E req).2 = .ok (errs, body) →
    lastSet "first_error" (executeRequest E req).1 = errs.head?.map .text
  failed : ∀ req errs body, (executeRequest E req).2 = .ok (errs, body) → errs ≠ [] →
    lastSet "count_failed_tasks" (executeRequest E req).1 = some (.num errs.length)

theorem log_bind {α β : Type} (l : Log α) (f : α → Log β) :
    l >>= f = match l.2 with
      | .ok a => (l.1 ++ (f a).1, (f a).2)
      | .error e => (l.1, .error e) := rfl

theorem log_bind_snd {α β : Type} (l : Log α) (f : α → Log β) : (l >>= f).2 = l.2 >>= fun a => (f a).2 := by
  rw [log_bind]
  cases l.2 <;> rfl

theorem executeRequest_plain (E : MEngine) (req : ServerReq) : (executeRequest E req).2 = handle E.plain req := by
  cases req <;> (rw [executeRequest, handle, log_bind_snd]; rfl)

/-! ## Replying -/

theorem write_fits {ts : List Tok} {c : Conn} (h : ¬ LeftEarly c.room ts) :
    Met.write ts c = ({ c with out := c.out ++ ts, room := c.room.map (· - ts.length) }, .ok ()) := by
  obtain ⟨context, values, requests, input, out, calls, room⟩ := c
  cases room with
  | none => rfl
  | some k =>
    have hk : ts.length ≤ k := Nat.le_of_not_lt fun hk => h ⟨k, rfl, hk⟩
    rw [Met.write]
    exact if_pos hk

theorem write_cut {ts : List Tok} {c : Conn} {k : Nat} (hr : c.room = some k) (hk : k < ts.length) :
    Met.write ts c = ({ c with out := c.out ++ ts.take k, room := some 0 }, throwExn .ioError) := by
  obtain ⟨context, values, requests, input, out, calls, room⟩ := c
  cases (show room = some k from hr)
  rw [Met.write]
  exact if_neg (Nat.not_le_of_lt hk)

theorem write_out (ts : List Tok) (c : Conn) : (Met.write ts c).1.out = c.out ++ takenBy c.room ts := by
  by_cases h : LeftEarly c.room ts
  · obtain ⟨k, hr, hk⟩ := h
    rw [write_cut hr hk, hr]; rfl
  · rw [write_fits h]
    cases hr : c.room with
    | none => rfl
    | some k =>
      have hk : ts.length ≤ k := Nat.le_of_not_lt fun hk => h ⟨k, hr, hk⟩
      show c.out ++ ts = c.out ++ ts.take k
      rw [List.take_of_length_le hk]

/-- The part after the engine. -/
def replyPart (errs : List String) (body : Res (List Tok)) : Met Unit := do
  Met.set "elapsed_execute" .clock
  Met.write (encErrors errs)
  let b ← Met.lift body
  Met.write b
  Met.set "elapsed_reply" .clock

/-- The state when the engine returns. -/
def afterEngine (E : MEngine) (req : ServerReq) (c : Conn) : Conn :=
  (executeRequest E req).1.foldl Conn.record
    { c with values := c.values.set "elapsed_receive" .clock, calls := c.calls ++ [req] }

theorem finishRequest_eq (E : MEngine) (req : ServerReq) (c : Conn) :
    finishRequest E req c = match (executeRequest E req).2 with
      | .ok x => replyPart x.1 x.2 (afterEngine E req c)
      | .error e => (afterEngine E req c, .error e) := by
  rw [finishRequest,
    met_bind_ok (c' := { c with values := c.values.set "elapsed_receive" .clock }) (a := ()) rfl,
    met_bind_ok (c' := { c with values := c.values.set "elapsed_receive" .clock, calls := c.calls ++ [req] })
      (a := ()) rfl]
  match hr : (executeRequest E req).2 with
  | .ok (errs, body) =>
    rw [met_bind_ok (c' := afterEngine E req c) (a := (errs, body)) (by rw [Met.engine, hr]; rfl)]
    rfl
  | .error e => rw [met_bind_error (c' := afterEngine E req c) (e := e) (by rw [Met.engine, hr]; rfl)]

theorem replyPart_moves {P : Conn → Conn → Prop} (re : ∀ c, P c c) (tr : ∀ a b c, P a b → P b c → P a c)
    (hw : ∀ (c : Conn) o r, P c { c with out := o, room := r })
    (hs : ∀ n ∈ ["elapsed_execute", "elapsed_reply"], ∀ v, (Met.set n v).Moves P) (errs : List String)
    (body : Res (List Tok)) : (replyPart errs body).Moves P := by
  have hw' : ∀ ts, (Met.write ts).Moves P := by
    intro ts c
    by_cases h : LeftEarly c.room ts
    · obtain ⟨k, hr, hk⟩ := h
      rw [write_cut hr hk]; exact hw c _ _
    · rw [write_fits h]; exact hw c _ _
  exact .bind tr (hs _ (by decide) _) fun _ => .bind tr (hw' _) fun _ => .bind tr (.lift re _) fun _ =>
    .bind tr (hw' _) fun _ => hs _ (by decide) _

/-- What `replyPart` does when the reply is there. -/
theorem replyPart_ok {errs : List String} {b : List Tok} {c : Conn} (h0 : c.out = []) :
    (¬ LeftEarly c.room (encErrors errs ++ b) → (replyPart errs (.ok b) c).2 = .ok () ∧
      (replyPart errs (.ok b) c).1.out = encErrors errs ++ b) ∧
    (LeftEarly c.room (encErrors errs ++ b) → (∃ e, (replyPart errs (.ok b) c).2 = .error (.exn e)) ∧
      (replyPart errs (.ok b) c).1.room = some 0 ∧
      (replyPart errs (.ok b) c).1.out = takenBy c.room (encErrors errs ++ b)) := by
  obtain ⟨context, values, requests, input, out, calls, room⟩ := c
  cases (show out = [] from h0)
  rw [replyPart, met_bind_ok (c' := ⟨context, values.set "elapsed_execute" .clock, requests, input, [], calls, room⟩)
    (a := ()) rfl]
  generalize values.set "elapsed_execute" .clock = values
  generalize encErrors errs = a
  constructor
  · intro h
    have h1 : ¬ LeftEarly room a := fun ⟨k, hr, hk⟩ => h ⟨k, hr, by rw [List.length_append]; omega⟩
    rw [met_bind_ok (write_fits (c := ⟨context, values, requests, input, [], calls, room⟩) h1),
      met_bind_ok (x := Met.lift (.ok b)) rfl,
      met_bind_ok (write_fits (ts := b)
        (c := ⟨context, values, requests, input, [] ++ a, calls, room.map (· - a.length)⟩) (by
        rintro ⟨k, hr, hk⟩
        cases room with
        | none => cases hr
        | some m =>
          have e : m - a.length = k := Option.some.inj hr
          exact h ⟨m, rfl, by rw [List.length_append]; omega⟩))]
    exact ⟨rfl, rfl⟩
  · rintro ⟨k, hr, hk⟩
    cases (show room = some k from hr)
    by_cases h1 : k < a.length
    · rw [met_bind_error (write_cut (c := ⟨context, values, requests, input, [], calls, some k⟩) rfl h1)]
      refine ⟨⟨_, rfl⟩, rfl, ?_⟩
      show [] ++ a.take k = (a ++ b).take k
      rw [List.take_append_of_le_length (Nat.le_of_lt h1)]; rfl
    · have h2 : ¬ LeftEarly (some k) a := fun ⟨m, hm, hk⟩ => h1 (by cases hm; exact hk)
      rw [List.length_append] at hk
      rw [met_bind_ok (write_fits (c := ⟨context, values, requests, input, [], calls, some k⟩) h2),
        met_bind_ok (x := Met.lift (.ok b)) rfl,
        met_bind_error (write_cut (ts := b) (k := k - a.length)
          (c := ⟨context, values, requests, input, [] ++ a, calls, (some k).map (· - a.length)⟩) rfl (by omega))]
      refine ⟨⟨_, rfl⟩, rfl, ?_⟩
      show [] ++ a ++ b.take (k - a.length) = (a ++ b).take k
      rw [List.take_append, List.take_of_length_le (Nat.le_of_not_lt h1)]; rfl

/-- The same when preparing the reply throws. -/
theorem replyPart_error {errs : List String} {x : Exn} {c : Conn} (h0 : c.out = []) :
    (∃ e, (replyPart errs (throwExn x) c).2 = .error (.exn e)) ∧
      (replyPart errs (throwExn x) c).1.out ++ takenBy (replyPart errs (throwExn x) c).1.room [.exc "error"] =
        takenBy c.room (encErrors errs ++ [.exc "error"]) := by
  obtain ⟨context, values, requests, input, out, calls, room⟩ := c
  cases (show out = [] from h0)
  rw [replyPart, met_bind_ok (c' := ⟨context, values.set "elapsed_execute" .clock, requests, input, [], calls, room⟩)
    (a := ()) rfl]
  generalize values.set "elapsed_execute" .clock = values
  generalize encErrors errs = a
  by_cases h : LeftEarly room a
  · obtain ⟨k, hr, hk⟩ := h
    cases (show room = some k from hr)
    rw [met_bind_error (write_cut (c := ⟨context, values, requests, input, [], calls, some k⟩) rfl hk)]
    refine ⟨⟨_, rfl⟩, ?_⟩
    show [] ++ a.take k ++ List.take 0 [Tok.exc "error"] = List.take k (a ++ [Tok.exc "error"])
    rw [List.take_append_of_le_length (Nat.le_of_lt hk), List.take_zero, List.append_nil]; rfl
  · rw [met_bind_ok (write_fits (c := ⟨context, values, requests, input, [], calls, room⟩) h),
      met_bind_error (x := Met.lift (throwExn x)) rfl]
    refine ⟨⟨_, rfl⟩, ?_⟩
    cases room with
    | none => rfl
    | some k =>
      have hk : a.length ≤ k := Nat.le_of_not_lt fun hk => h ⟨k, rfl, hk⟩
      show [] ++ a ++ List.take (k - a.length) [Tok.exc "error"] = List.take k (a ++ [Tok.exc "error"])
      rw [List.take_append, List.take_of_length_le hk]; rfl

/-! ## No reply contains an exception -/

def PlainToks (l : List Tok) : Prop := ∀ w, Tok.exc w ∉ l

theorem PlainToks.append {a b : List Tok} (ha : PlainToks a) (hb : PlainToks b) : PlainToks (a ++ b) := fun w h =>
  (List.mem_append.mp h).elim (ha w) (hb w)

theorem PlainToks.cons {t : Tok} {l : List Tok} (ht : ∀ w, t ≠ .exc w) (hl : PlainToks l) : PlainToks (t :: l) :=
  fun w h => (List.mem_cons.mp h).elim (fun e => ht w e.symm) (hl w)

theorem PlainToks.nil : PlainToks [] := fun _ h => by cases h

theorem PlainToks.flatMap {α : Type} {l : List α} {f : α → List Tok} (h : ∀ a ∈ l, PlainToks (f a)) :
    PlainToks (l.flatMap f) := fun w hw => by
  obtain ⟨a, ha, hw⟩ := List.mem_flatMap.mp hw
  exact h a ha w hw

theorem PlainToks.map {α : Type} {l : List α} {f : α → Tok} (h : ∀ a w, f a ≠ .exc w) : PlainToks (l.map f) :=
  fun w hw => by
    obtain ⟨a, -, e⟩ := List.mem_map.mp hw
    exact h a w e

theorem plain_errors (es : List String) : PlainToks (encErrors es) :=
  .cons (fun _ h => by cases h) (.map fun _ _ h => by cases h)

theorem plain_words (ws : List Nat) : PlainToks (encWords ws) :=
  .cons (fun _ h => by cases h) (.cons (fun _ h => by cases h) .nil)

theorem plain_result (r : WireResult) : PlainToks (encResult r) :=
  ((plain_words _).append (plain_words _)).append ((plain_words _).append (plain_words _))

theorem plain_axes (a : AMap String (List String)) : PlainToks (encAxesReply a) :=
  .cons (fun _ h => by cases h) (.flatMap fun _ _ => .cons (fun _ h => by cases h) (.cons (fun _ h => by cases h)
    (.map fun _ _ h => by cases h)))

theorem plain_extract : ∀ {l : List (Option WireResult)} {b : List Tok}, encExtractReply l = .ok b → PlainToks b
  | [], b, h => by cases h; exact .nil
  | none :: _, b, h => by cases h
  | some r :: rest, b, h => by
    rw [encExtractReply] at h
    obtain ⟨tl, ht, h⟩ := res_bind_inv h
    cases h
    exact .cons (fun _ h => by cases h) ((plain_result r).append (plain_extract ht))

theorem plain_items : ∀ {l : List Item} {b : List Tok}, encReplyItems l = .ok b → PlainToks b
  | [], b, h => by cases h; exact .nil
  | i :: rest, b, h => by
    rw [encReplyItems] at h
    cases hi : i.result with
    | none => rw [hi] at h; cases h
    | some r =>
      rw [hi] at h
      obtain ⟨tl, ht, h⟩ := res_bind_inv h
      cases h
      exact (plain_result r).append (plain_items ht)

theorem plain_forward : ∀ {l : FileMap} {b : List Tok}, encForwardReply l = .ok b → PlainToks b
  | [], b, h => by cases h; exact .nil
  | f :: rest, b, h => by
    rw [encForwardReply] at h
    obtain ⟨body, hb, h⟩ := res_bind_inv h
    obtain ⟨tl, ht, h⟩ := res_bind_inv h
    cases h
    exact .cons (fun _ h => by cases h) (.cons (fun _ h => by cases h) ((plain_items hb).append (plain_forward ht)))

theorem plain_handle {E : Engine} {req : ServerReq} {errs : List String} {b : List Tok}
    (h : handle E req = .ok (errs, .ok b)) : PlainToks b := by
  cases req with
  | extract rs =>
    rw [handle] at h
    obtain ⟨⟨rs', m, e⟩, -, h⟩ := res_bind_inv h
    have h' := (Prod.mk.inj (Except.ok.inj h)).2
    rw [replyExtract] at h'
    obtain ⟨o, -, h'⟩ := res_bind_inv h'
    exact plain_extract h'
  | axes r l =>
    rw [handle] at h
    obtain ⟨a, -, h⟩ := res_bind_inv h
    cases h
    exact plain_axes a
  | scan rs b =>
    rw [handle] at h
    obtain ⟨⟨n, e⟩, -, h⟩ := res_bind_inv h
    cases h
    exact .cons (fun _ h => by cases h) .nil
  | forwardExtract fm =>
    rw [handle] at h
    obtain ⟨⟨fm', e⟩, -, h⟩ := res_bind_inv h
    exact plain_forward (Prod.mk.inj (Except.ok.inj h)).2
  | forwardScan sm =>
    rw [handle] at h
    obtain ⟨⟨n, e⟩, -, h⟩ := res_bind_inv h
    cases h
    exact .cons (fun _ h => by cases h) .nil

/-! ## The whole connection -/

def connNames : List String :=
  receiveNames ++ engineNames ++ ["elapsed_receive", "elapsed_execute", "elapsed_reply", "error"]

/-- What a connection leaves behind, given what the engine was asked and what a patient client would have read. -/
structure Left (E : MEngine) (id : Nat) (room : Option Nat) (input : List Tok) (cs : List ServerReq)
    (full : List Tok) (c : Conn) : Prop where
  calls : c.calls = cs
  out : c.out = takenBy room full
  context : c.context = (contextSent input).getD "{}"
  within : Within connNames (Conn.start room input) c
  error : (c.values.find "error").isSome = true ↔ SentException full ∨ LeftEarly room full
  begun : ∀ k, k = "gribjump_request_id" ∨ k = "action" → c.values.find k =
    match (typeSent input).bind actionName with
      | none => none
      | some a => if k = "action" then some (.text a) else some (.num id)
  size : ∀ req ∈ cs, ∀ n v, sizeAsked req = some (n, v) → c.values.find n = some (.num v)
  engine : ∀ k ∈ engineNames, c.values.find k = match cs with
    | [req] => lastSet k (executeRequest E req).1
    | _ => none

/-- The end of a connection that failed. -/
def failConn (c : Conn) : Conn := (Met.write [.exc "error"] (Met.set "error" (.text "error") c).1).1

theorem write_same (ts : List Tok) (c : Conn) : (Met.write ts c).1.values = c.values ∧
    (Met.write ts c).1.calls = c.calls ∧ (Met.write ts c).1.context = c.context := by
  by_cases h : LeftEarly c.room ts
  · obtain ⟨k, hr, hk⟩ := h
    rw [write_cut hr hk]; exact ⟨rfl, rfl, rfl⟩
  · rw [write_fits h]; exact ⟨rfl, rfl, rfl⟩

theorem failConn_same (c : Conn) : (failConn c).values = c.values.set "error" (.text "error") ∧
    (failConn c).calls = c.calls ∧ (failConn c).context = c.context ∧
    (failConn c).out = c.out ++ takenBy c.room [.exc "error"] := by
  rw [failConn]
  refine ⟨?_, ?_, ?_, ?_⟩
  · rw [(write_same _ _).1]; rfl
  · rw [(write_same _ _).2.1]; rfl
  · rw [(write_same _ _).2.2]; rfl
  · rw [write_out]; rfl

theorem serveConn_eq (E : MEngine) (id : Nat) (c : Conn) :
    serveConn E id c = match (receive id >>= fun r => finishRequest E r) c with
      | (c', .ok ()) => .ok c'
      | (_, .error .ub) => undef
      | (c', .error (.exn _)) => .ok (failConn c') := by
  rw [serveConn, serve_split]
  rfl

theorem receive_result (id : Nat) (room : Option Nat) (input : List Tok) :
    (receive id (Conn.start room input)).2 = dispatch input >>= fun x => .ok x.1.2 := by
  have h := mirrors_receive id (Conn.start room input)
  rw [show (Conn.start room input).input = input from rfl] at h
  match hd : dispatch input with
  | .error e => rw [hd] at h; exact h
  | .ok (x, rest) =>
    rw [hd] at h
    obtain ⟨a, ha, hr, -⟩ := h
    rw [ha, hr]; rfl

/-- Between receiving and the end, nothing is recorded but clock readings and what the engine records. -/
theorem afterEngine_values {E : MEngine} (req : ServerReq) (c : Conn) (k : String) (hk : k ≠ "elapsed_receive") :
    (afterEngine E req c).values.find k = (lastSet k (executeRequest E req).1).or (c.values.find k) := by
  rw [afterEngine, record_values]
  congr 1
  show AMap.find (AMap.set c.values "elapsed_receive" .clock) k = _
  rw [AMap.find_set, if_neg (fun e => hk e.symm)]

theorem afterEngine_same (E : MEngine) (req : ServerReq) (c : Conn) : (afterEngine E req c).out = c.out ∧
    (afterEngine E req c).calls = c.calls ++ [req] ∧ (afterEngine E req c).room = c.room ∧
    (afterEngine E req c).context = c.context := record_unseen _ _

theorem within_mono {a b : List String} (h : ∀ x ∈ a, x ∈ b) {c c' : Conn} (w : Within a c c') : Within b c c' :=
  ⟨w.1, fun k hk => (w.2 k hk).imp id (h k)⟩

theorem afterEngine_within {E : MEngine} (T : E.Tells) (req : ServerReq) (c : Conn) :
    Within connNames c (afterEngine E req c) := by
  refine Within.trans _ _ { c with values := c.values.set "elapsed_receive" .clock, calls := c.calls ++ [req] } _
    (within_values_set (n := "elapsed_receive") (by decide) rfl) ?_
  refine within_mono (a := engineNames) (by decide) (record_within _ (fun n v h => T.names req n v h) _)

/-- Everything that is said of the state after the engine returned remains true to the end of a connection. -/
structure Ends (c c' : Conn) : Prop where
  calls : c'.calls = c.calls
  context : c'.context = c.context
  within : Within connNames c c'
  spares : ∀ k, k ∉ ["elapsed_execute", "elapsed_reply", "error"] → c'.values.find k = c.values.find k

theorem Ends.refl (c : Conn) : Ends c c := ⟨rfl, rfl, Within.refl _ _, fun _ _ => rfl⟩

theorem Ends.trans (a b c : Conn) (h : Ends a b) (k : Ends b c) : Ends a c :=
  ⟨k.1.trans h.1, k.2.trans h.2, Within.trans _ _ _ _ h.3 k.3, fun n hn => (k.4 n hn).trans (h.4 n hn)⟩

theorem Ends.set {n : String} (hn : n ∈ ["elapsed_execute", "elapsed_reply", "error"]) (v : MVal) :
    (Met.set n v).Moves Ends := fun c =>
  ⟨rfl, rfl, within_values_set (n := n) (by revert n; decide) rfl, fun k hk => by
    show AMap.find (AMap.set c.values n v) k = _
    rw [AMap.find_set, if_neg]
    intro e; subst e; exact hk hn⟩

theorem ends_reply (errs : List String) (body : Res (List Tok)) (c : Conn) : Ends c (replyPart errs body c).1 :=
  replyPart_moves Ends.refl Ends.trans (fun _ _ _ => ⟨rfl, rfl, within_same rfl, fun _ _ => rfl⟩)
    (fun n hn v => Ends.set (by revert n; decide) v) errs body c

theorem ends_fail (c : Conn) : Ends c (failConn c) := by
  have h := failConn_same c
  refine ⟨h.2.1, h.2.2.1, within_values_set (n := "error") (by decide) h.1, fun k hk => ?_⟩
  rw [h.1, AMap.find_set, if_neg]
  intro e; subst e; exact hk (by decide)

theorem fail_error (c : Conn) : ((failConn c).values.find "error").isSome = true := by
  rw [(failConn_same c).1, AMap.find_set, if_pos rfl]; rfl

/-- From the state after the engine to the whole. -/
theorem left_of_ends {E : MEngine} (T : E.Tells) {id : Nat} {room : Option Nat} {input : List Tok} {req : ServerReq}
    {c1 c : Conn} {full : List Tok} (hr : receive id (Conn.start room input) = (c1, .ok req))
    (he : Ends (afterEngine E req c1) c) (ho : c.out = takenBy room full)
    (herr : (c.values.find "error").isSome = true ↔ SentException full ∨ LeftEarly room full) :
    Left E id room input [req] full c := by
  have hun := receive_unseen id (Conn.start room input)
  have hw := receive_within id (Conn.start room input)
  have hcx := receive_context id (Conn.start room input)
  have hb := receive_begin id (Conn.start room input)
  have hsp := fun k hk => receive_spares (k := k) hk id (Conn.start room input)
  rw [hr] at hun hw hcx hb hsp
  have hsame := afterEngine_same E req c1
  have names : ∀ k, k ∉ engineNames → lastSet k (executeRequest E req).1 = none := fun k hk =>
    lastSet_none fun v hv => hk (T.names req k v hv)
  have untouched : ∀ k, k ∉ engineNames → k ∉ ["elapsed_receive", "elapsed_execute", "elapsed_reply", "error"] →
      c.values.find k = c1.values.find k := by
    intro k h1 h2
    rw [he.spares k (fun h => h2 (List.mem_cons_of_mem _ h)), afterEngine_values req c1 k (fun e => h2 (by
      rw [e]; decide)), names k h1]
    rfl
  refine ⟨?_, ho, ?_, ?_, herr, ?_, ?_, ?_⟩
  · rw [he.calls, hsame.2.1, hun.calls]; rfl
  · rw [he.context, hsame.2.2.2, hcx]; rfl
  · exact Within.trans _ _ _ _ (within_mono (by decide) hw)
      (Within.trans _ _ _ _ (afterEngine_within T req c1) he.within)
  · intro k hk
    rw [untouched k (by rcases hk with rfl | rfl <;> decide) (by rcases hk with rfl | rfl <;> decide)]
    exact hb k hk
  · intro r hr' n v hs
    cases List.mem_singleton.mp hr'
    have hn : n ∈ receiveNames := by
      cases req <;> (first | (cases hs; done) | (cases hs; decide))
    have hd : ∀ m ∈ receiveNames, m ∉ engineNames ∧
      m ∉ ["elapsed_receive", "elapsed_execute", "elapsed_reply", "error"] := by decide
    rw [untouched n (hd n hn).1 (hd n hn).2]
    exact receive_size hr hs
  · intro k hk
    have hd : ∀ m ∈ engineNames, m ≠ "elapsed_receive" ∧ m ∉ ["elapsed_execute", "elapsed_reply", "error"] ∧
      m ∉ receiveNames := by decide
    obtain ⟨h1, h2, h3⟩ := hd k hk
    rw [he.spares k h2, afterEngine_values req c1 k h1, hsp k h3]
    show Option.or _ none = _
    rw [Option.or_none]

theorem leftEarly_iff {room : Option Nat} {full : List Tok} : ¬ LeftEarly room full → takenBy room full = full := by
  intro h
  cases room with
  | none => rfl
  | some k => exact List.take_of_length_le (Nat.le_of_not_lt fun hk => h ⟨k, rfl, hk⟩)

/-- The connection, when the engine and the encoding of its reply are defined. -/
theorem serveConn_left {E : MEngine} (T : E.Tells) (id : Nat) (room : Option Nat) {input : List Tok}
    {cs : List ServerReq} {full : List Tok} (h : serve E.plain input = .ok (cs, full)) :
    ∃ c, serveConn E id (Conn.start room input) = .ok c ∧ Left E id room input cs full c := by
  rw [serveConn_eq]
  have hres := receive_result id room input
  rw [serve] at h
  match hd : dispatch input with
  | .error .ub => rw [hd] at h; cases h
  | .error (.exn e) =>
    rw [hd] at h hres
    cases h
    have hx : receive id (Conn.start room input) = ((receive id (Conn.start room input)).1, .error (.exn e)) := by
      rw [← show (receive id (Conn.start room input)).2 = .error (.exn e) from hres]
    rw [met_bind_error hx]
    have hun := receive_unseen id (Conn.start room input)
    have hw := receive_within id (Conn.start room input)
    have hcx := receive_context id (Conn.start room input)
    have hb := receive_begin id (Conn.start room input)
    have hsp := fun k hk => receive_spares (k := k) hk id (Conn.start room input)
    generalize (receive id (Conn.start room input)).1 = c1 at hun hw hcx hb hsp
    have hf := failConn_same c1
    have he := ends_fail c1
    refine ⟨failConn c1, rfl, ?_, ?_, ?_, ?_, ?_, ?_, ?_, ?_⟩
    · rw [hf.2.1, hun.calls]; rfl
    · rw [hf.2.2.2, hun.out, hun.room]; rfl
    · rw [hf.2.2.1, hcx]; rfl
    · exact Within.trans _ _ _ _ (within_mono (by decide) hw) he.within
    · exact ⟨fun _ => Or.inl ⟨_, List.mem_singleton.mpr rfl⟩, fun _ => fail_error c1⟩
    · intro k hk
      rw [he.spares k (by rcases hk with rfl | rfl <;> decide)]
      exact hb k hk
    · intro r hr; cases hr
    · intro k hk
      have hd : ∀ m ∈ engineNames, m ∉ ["elapsed_execute", "elapsed_reply", "error"] ∧ m ∉ receiveNames := by decide
      rw [he.spares k (hd k hk).1]
      exact hsp k (hd k hk).2
  | .ok ((ctx, req), rest) =>
    rw [hd] at h hres
    simp only at h
    have hx : receive id (Conn.start room input) = ((receive id (Conn.start room input)).1, .ok req) := by
      rw [← show (receive id (Conn.start room input)).2 = .ok req from hres]
    rw [met_bind_ok hx, finishRequest_eq, executeRequest_plain]
    have hun := receive_unseen id (Conn.start room input)
    generalize (receive id (Conn.start room input)).1 = c1 at hx hun
    have hsame := afterEngine_same E req c1
    have h0 : (afterEngine E req c1).out = [] := by rw [hsame.1, hun.out]; rfl
    have hroom : (afterEngine E req c1).room = room := by rw [hsame.2.2.1, hun.room]; rfl
    match hh : handle E.plain req with
    | .error .ub => rw [hh] at h; cases h
    | .error (.exn e) =>
      rw [hh] at h
      cases h
      have hf := failConn_same (afterEngine E req c1)
      refine ⟨failConn (afterEngine E req c1), rfl, left_of_ends T hx (ends_fail _) ?_
        ⟨fun _ => Or.inl ⟨_, List.mem_singleton.mpr rfl⟩, fun _ => fail_error _⟩⟩
      rw [hf.2.2.2, h0, hroom]; rfl
    | .ok (errs, .error .ub) => rw [hh] at h; cases h
    | .ok (errs, .error (.exn x)) =>
      rw [hh] at h
      cases h
      obtain ⟨⟨e, h1⟩, h2⟩ := replyPart_error (errs := errs) (x := x) h0
      have hp : replyPart errs (throwExn x) (afterEngine E req c1) =
          ((replyPart errs (throwExn x) (afterEngine E req c1)).1, .error (.exn e)) := by rw [← h1]
      have hends := ends_reply errs (throwExn x) (afterEngine E req c1)
      simp only
      generalize (replyPart errs (throwExn x) (afterEngine E req c1)).1 = c2 at hp h2 hends
      rw [hp]
      refine ⟨failConn c2, rfl, left_of_ends T hx (Ends.trans _ _ _ hends (ends_fail c2)) ?_
        ⟨fun _ => Or.inl ⟨_, List.mem_append_right _ (List.mem_singleton.mpr rfl)⟩, fun _ => fail_error _⟩⟩
      rw [(failConn_same c2).2.2.2, h2, hroom]
    | .ok (errs, .ok b) =>
      rw [hh] at h
      cases h
      have hpl : PlainToks (encErrors errs ++ b) := (plain_errors errs).append (plain_handle hh)
      obtain ⟨ha, hb⟩ := replyPart_ok (errs := errs) (b := b) h0
      rw [hroom] at ha hb
      have hends := ends_reply errs (.ok b) (afterEngine E req c1)
      have hnone : (afterEngine E req c1).values.find "error" = none := by
        rw [afterEngine_values req c1 "error" (by decide), lastSet_none (fun v hv => by
          have := T.names req _ v hv
          revert this; decide)]
        have := receive_spares (k := "error") (by decide) id (Conn.start room input)
        rw [hx] at this
        exact this
      simp only
      by_cases hl : LeftEarly room (encErrors errs ++ b)
      · obtain ⟨⟨e, h1⟩, h2, h3⟩ := hb hl
        have hp : replyPart errs (.ok b) (afterEngine E req c1) =
            ((replyPart errs (.ok b) (afterEngine E req c1)).1, .error (.exn e)) := by rw [← h1]
        generalize (replyPart errs (.ok b) (afterEngine E req c1)).1 = c2 at hp h2 h3 hends
        rw [hp]
        refine ⟨failConn c2, rfl, left_of_ends T hx (Ends.trans _ _ _ hends (ends_fail c2)) ?_
          ⟨fun _ => Or.inr hl, fun _ => fail_error _⟩⟩
        rw [(failConn_same c2).2.2.2, h2, h3]
        exact List.append_nil _
      · obtain ⟨h1, h3⟩ := ha hl
        have hp : replyPart errs (.ok b) (afterEngine E req c1) =
            ((replyPart errs (.ok b) (afterEngine E req c1)).1, .ok ()) := by rw [← h1]
        have herr : ((replyPart errs (.ok b) (afterEngine E req c1)).1).values.find "error" = none := by
          refine Eq.trans ?_ hnone
          exact replyPart_moves (P := Spares "error") (fun _ => rfl) (Spares.trans _) (fun _ _ _ => rfl)
            (fun n hn v => spares_set (by intro e; subst e; revert hn; decide)) errs (.ok b) _
        generalize (replyPart errs (.ok b) (afterEngine E req c1)).1 = c2 at hp h3 hends herr
        rw [hp]
        refine ⟨c2, rfl, left_of_ends T hx hends (by rw [h3, leftEarly_iff hl]) ?_⟩
        rw [herr]
        exact ⟨fun h => (by cases h), fun h => h.elim (fun ⟨w, hw⟩ => absurd hw (hpl w)) (fun h => absurd h hl)⟩

/-! ## The engine of a node -/

/-- Names, and what is recorded about errors, of an engine function that reports its tasks. -/
structure TellsLog {α : Type} (errs : α → List String) (l : Log α) : Prop where
  names : ∀ n v, .set n v ∈ l.1 → n ∈ engineNames
  first : ∀ a, l.2 = .ok a → lastSet "first_error" l.1 = (errs a).head?.map .text
  failed : ∀ a, l.2 = .ok a → errs a ≠ [] → lastSet "count_failed_tasks" l.1 = some (.num (errs a).length)

theorem wait_names (n : Nat) (errs : List String) : ∀ k v, .set k v ∈ waitWrites n errs → k ∈ engineNames := by
  intro k v h
  cases errs with
  | nil =>
    simp only [waitWrites, List.append_nil, List.mem_cons, List.not_mem_nil, or_false, MWrite.set.injEq] at h
    rcases h with ⟨rfl, -⟩ | ⟨rfl, -⟩ | ⟨rfl, -⟩ <;> decide
  | cons e es =>
    simp only [waitWrites, List.cons_append, List.nil_append, List.mem_cons, List.not_mem_nil, or_false,
      MWrite.set.injEq] at h
    rcases h with ⟨rfl, -⟩ | ⟨rfl, -⟩ | ⟨rfl, -⟩ | ⟨rfl, -⟩ <;> decide

theorem wait_first (n : Nat) (errs : List String) :
    lastSet "first_error" (waitWrites n errs) = errs.head?.map .text := by
  cases errs <;> rfl

theorem wait_failed (n : Nat) (errs : List String) :
    lastSet "count_failed_tasks" (waitWrites n errs) = some (.num errs.length) := by
  cases errs <;> rfl

/-- What is recorded before and after does not concern errors. -/
def Harmless (ws : List MWrite) : Prop :=
  ∀ n v, .set n v ∈ ws → n ∈ engineNames ∧ n ≠ "first_error" ∧ n ≠ "count_failed_tasks"

theorem Harmless.spares {ws : List MWrite} (h : Harmless ws) :
    lastSet "first_error" ws = none ∧ lastSet "count_failed_tasks" ws = none :=
  ⟨lastSet_none fun v hv => (h _ v hv).2.1 rfl, lastSet_none fun v hv => (h _ v hv).2.2 rfl⟩

theorem harmless_nil : Harmless [] := fun _ _ h => by cases h

theorem TellsLog.before {α β : Type} {errs : β → List String} {l : Log α} {f : α → Log β} (hl : Harmless l.1)
    (hf : ∀ a, l.2 = .ok a → TellsLog errs (f a)) : TellsLog errs (l >>= f) := by
  rw [log_bind]
  cases hr : l.2 with
  | error e => exact ⟨fun n v h => (hl n v h).1, fun a h => (by cases h), fun a h => (by cases h)⟩
  | ok a =>
    have T := hf a hr
    refine ⟨fun n v h => (List.mem_append.mp h).elim (fun h => (hl n v h).1) (T.names n v), fun b h => ?_, fun b h hb => ?_⟩
    · show lastSet _ (l.1 ++ (f a).1) = _
      rw [lastSet_append, hl.spares.1, Option.or_none]
      exact T.first b h
    · show lastSet _ (l.1 ++ (f a).1) = _
      rw [lastSet_append, hl.spares.2, Option.or_none]
      exact T.failed b h hb

theorem TellsLog.after {α β : Type} {errs : α → List String} {errs' : β → List String} {l : Log α} {f : α → Log β}
    (hl : TellsLog errs l) (hh : ∀ a, Harmless (f a).1) (he : ∀ a b, (f a).2 = .ok b → errs' b = errs a) :
    TellsLog errs' (l >>= f) := by
  rw [log_bind]
  cases hr : l.2 with
  | error e => exact ⟨hl.names, fun a h => (by cases h), fun a h => (by cases h)⟩
  | ok a =>
    refine ⟨fun n v h => (List.mem_append.mp h).elim (hl.names n v) (fun h => (hh a n v h).1), fun b h => ?_,
      fun b h hb => ?_⟩
    · show lastSet _ (l.1 ++ (f a).1) = _
      rw [lastSet_append, (hh a).spares.1, Option.none_or, he a b h]
      exact hl.first a hr
    · show lastSet _ (l.1 ++ (f a).1) = _
      rw [he a b h] at hb ⊢
      rw [lastSet_append, (hh a).spares.2, Option.none_or]
      exact hl.failed a hr hb

/-- A wait that returned, and its report. -/
theorem TellsLog.wait {α : Type} {errs : α → List String} (n : Nat) (a : α) :
    TellsLog errs (Log.tell (waitWrites n (errs a)) >>= fun _ => Log.lift (.ok a)) := by
  refine ⟨fun k v h => wait_names n (errs a) k v ?_, fun b h => ?_, fun b h hb => ?_⟩
  · have h' : MWrite.set k v ∈ waitWrites n (errs a) ++ [] := h
    rwa [List.append_nil] at h'
  · cases (Except.ok.inj h)
    show lastSet _ (waitWrites n (errs a) ++ []) = _
    rw [List.append_nil, wait_first]
  · cases (Except.ok.inj h)
    show lastSet _ (waitWrites n (errs a) ++ []) = _
    rw [List.append_nil, wait_failed]

theorem TellsLog.quiet {α : Type} {errs : α → List String} {l : Log α} (h : Harmless l.1)
    (he : ∀ a, l.2 = .ok a → errs a = []) : TellsLog errs l :=
  ⟨fun n v hv => (h n v hv).1, fun a ha => by rw [h.spares.1, he a ha]; rfl, fun a ha hn => absurd (he a ha) hn⟩

theorem tells_schedule (E : ExtEnv) (C : EngineConf) (fwd : Bool) (m : ItemMap) (fm : KeyMap) (sched : List Nat) :
    TellsLog (fun x : ItemMap × List String => x.2) (scheduleTasksM E C fwd m fm sched) :=
  .before harmless_nil fun ts _ => .before harmless_nil fun s _ =>
    TellsLog.wait (errs := fun x : ItemMap × List String => x.2) ts.length (s.items, s.errors)

theorem harmless_of {ws : List MWrite} (ns : List String)
    (hn : ∀ n ∈ ns, n ∈ engineNames ∧ n ≠ "first_error" ∧ n ≠ "count_failed_tasks")
    (h : ∀ n v, .set n v ∈ ws → n ∈ ns) : Harmless ws := fun n v hv => hn n (h n v hv)

theorem harmless_request (r : MReq) : Harmless [.request r] := fun n v h => by
  have := List.mem_singleton.mp h
  cases this

theorem harmless_one {n : String} (v : MVal) (hn : n ∈ engineNames ∧ n ≠ "first_error" ∧ n ≠ "count_failed_tasks") :
    Harmless [.set n v] := fun k w h => by
  have := List.mem_singleton.mp h
  cases this
  exact hn

theorem Harmless.append {a b : List MWrite} (ha : Harmless a) (hb : Harmless b) : Harmless (a ++ b) := fun n v h =>
  (List.mem_append.mp h).elim (ha n v) (hb n v)

theorem tells_extract (E : ExtEnv) (C : EngineConf) (sched : List Nat) (rs : List ExRequest) :
    TellsLog (fun x : List ExRequest × ItemMap × List String => x.2.2) (engineExtractM E C sched rs) := by
  refine .before harmless_nil fun ⟨rs', u, m⟩ _ => .before (harmless_request _) fun _ _ => .before harmless_nil
    fun listing _ => .before harmless_nil fun ⟨m, fm⟩ _ => .before (harmless_one _ (by decide)) fun _ _ =>
    .after (tells_schedule E C C.forward m fm sched) (fun ⟨m', errs⟩ => ?_) fun ⟨m', errs⟩ b h => ?_
  · exact Harmless.append (a := [.set "elapsed_tasks" .clock, .set "elapsed_collect_results" .clock]) (b := [])
      (Harmless.append (a := [_]) (harmless_one _ (by decide)) (harmless_one _ (by decide))) harmless_nil
  · cases (Except.ok.inj h)
    rfl

theorem tells_forward (E : ExtEnv) (C : EngineConf) (sched : List Nat) (fm : FileMap) :
    TellsLog (fun x : FileMap × List String => x.2) (serverForwardM E C sched fm) := by
  rw [serverForwardM]
  exact .after (tells_schedule E C false _ _ sched) (fun _ => harmless_nil) fun ⟨m', errs⟩ b h => (by
    cases (Except.ok.inj h); rfl)

theorem tells_scanTasks (E : ScanEnv) (c : Cache) (kinds : List ScanKind) (sched : List ScanEv) :
    TellsLog (fun x : Nat × List String => x.2) (scanTasksM E c kinds sched) :=
  .before harmless_nil fun ⟨n, errs, _⟩ _ =>
    TellsLog.wait (errs := fun x : Nat × List String => x.2) kinds.length (n, errs)

theorem tells_scheduleScan (E : ScanEnv) (c : Cache) (sm : ScanMap) (sched : List ScanEv) :
    TellsLog (fun x : Nat × List String => x.2) (scheduleScanM E c sm sched) :=
  .after (tells_scanTasks E c _ sched)
    (fun ⟨n, errs⟩ => Harmless.append (a := [_]) (b := []) (harmless_one _ (by decide)) harmless_nil)
    fun ⟨n, errs⟩ b h => (by cases (Except.ok.inj h); rfl)

theorem tells_scan (E : ScanEnv) (C : ScanConf) (c : Cache) (sched : List ScanEv) (rs : List String) (byfiles : Bool) :
    TellsLog (fun x : Nat × List String => x.2) (engineScanM E C c sched rs byfiles) := by
  refine .before harmless_nil fun us _ => ?_
  by_cases h : us = []
  · rw [if_pos h]
    refine .quiet (Harmless.append (a := [_]) (b := []) (harmless_one _ (by decide)) harmless_nil) fun a ha => ?_
    cases (Except.ok.inj ha)
    rfl
  · rw [if_neg h]
    by_cases hf : C.forwardScan = true
    · rw [if_pos hf]
      exact .before harmless_nil fun _ _ => .before harmless_nil fun m _ => tells_scanTasks E c _ sched
    · rw [if_neg hf]
      exact tells_scheduleScan E c _ sched

theorem tells_axes {Q : Type} (E : AxesEnv Q) (text : Q → String) (r : String) (l : Int) :
    TellsLog (fun _ : Axes => []) (localAxesM E text r l) := by
  refine .before harmless_nil fun qs _ => ?_
  match qs with
  | [] => exact .quiet harmless_nil fun _ _ => rfl
  | [q] =>
    exact .before (harmless_request _) fun _ _ => .before harmless_nil fun _ _ => .quiet harmless_nil fun _ _ => rfl
  | _ :: _ :: _ => exact .quiet harmless_nil fun _ _ => rfl

theorem node_tells {Q : Type} (E : ExtEnv) (C : EngineConf) (sched : List Nat) (S : ScanEnv) (SC : ScanConf) (c : Cache)
    (scanSched : List ScanEv) (A : AxesEnv Q) (text : Q → String) :
    (nodeMEngine E C sched S SC c scanSched A text).Tells := by
  have key : ∀ req, TellsLog (fun x : List String × Res (List Tok) => x.1)
      (executeRequest (nodeMEngine E C sched S SC c scanSched A text) req) := by
    intro req
    cases req with
    | extract rs =>
      exact .after (tells_extract E C sched rs) (fun _ => harmless_nil) fun ⟨_, _, _⟩ b h => (by
        cases (Except.ok.inj h); rfl)
    | axes r l =>
      exact .after (tells_axes A text r l) (fun _ => harmless_nil) fun _ b h => (by cases (Except.ok.inj h); rfl)
    | scan rs b =>
      exact .after (tells_scan S SC c scanSched rs b) (fun _ => harmless_nil) fun ⟨_, _⟩ b h => (by
        cases (Except.ok.inj h); rfl)
    | forwardExtract fm =>
      exact .after (tells_forward E C sched fm) (fun _ => harmless_nil) fun ⟨_, _⟩ b h => (by
        cases (Except.ok.inj h); rfl)
    | forwardScan sm =>
      exact .after (tells_scheduleScan S c sm scanSched) (fun _ => harmless_nil) fun ⟨_, _⟩ b h => (by
        cases (Except.ok.inj h); rfl)
  exact ⟨fun req => (key req).names, fun req errs body h => (key req).first _ h,
    fun req errs body h => (key req).failed _ h⟩

end GJ
