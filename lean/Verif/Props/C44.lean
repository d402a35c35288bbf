import Verif.Props.C43

/-!
# C44: whatever arrives on the server's socket is answered
-/

namespace GJ

open Dec

/-- Wherever a number is followed by raw bytes, there are sixteen bytes for each of that many ranges. -/
def RangesComplete (input : List Tok) : Prop :=
  ∀ pre n bs post, input = pre ++ .ulong n :: .blob bs :: post → 16 * n ≤ bs.length

theorem RangesComplete.suffix {s u r : List Tok} (h : RangesComplete s) (e : s = u ++ r) : RangesComplete r := by
  intro pre n bs post hr
  exact h (u ++ pre) n bs post (by rw [e, hr, List.append_assoc])

/-- The reader does not run into undefined behaviour on such streams. -/
def Dec.Defined {α : Type} (d : Dec α) : Prop := ∀ s, RangesComplete s → d s ≠ undef

theorem Dec.Defined.pure {α : Type} (a : α) : Defined (Pure.pure a : Dec α) := fun _ _ h => (by cases h)

theorem Dec.Defined.fail {α : Type} (e : Exn) : Defined (Dec.fail e : Dec α) := fun _ _ h => (by cases h)

theorem Dec.Defined.assert (b : Bool) : Defined (Dec.lift (cassert b)) := by
  intro s _ h
  cases b <;> cases h

theorem Dec.Defined.bind {α β : Type} {d : Dec α} {f : α → Dec β} (hd : Defined d) (hl : Local d)
    (hf : ∀ a, Defined (f a)) : Defined (d >>= f) := by
  intro s hs h
  cases hds : d s with
  | error e =>
    rw [Dec.bind_error hds] at h
    cases h
    exact hd s hs hds
  | ok y =>
    obtain ⟨a, r⟩ := y
    rw [Dec.bind_ok hds] at h
    obtain ⟨u, hu, -⟩ := hl s a r hds
    exact hf a r (hs.suffix hu) h

theorem Dec.Defined.ite {α : Type} {c : Prop} [Decidable c] {d e : Dec α} (hd : Defined d) (he : Defined e) :
    Defined (if c then d else e) := by
  split
  · exact hd
  · exact he

theorem Dec.Defined.of_mismatch {α : Type} {d : Dec α}
    (h : ∀ s, (∃ a r, d s = .ok (a, r)) ∨ d s = mismatch s) : Defined d := by
  intro s _ hu
  rcases h s with ⟨a, r, h⟩ | h
  · rw [h] at hu; cases hu
  · rw [h] at hu
    unfold mismatch at hu
    split at hu <;> cases hu

theorem Dec.Defined.u16 : Defined Dec.u16 := .of_mismatch fun s => by
  unfold Dec.u16; split
  · exact .inl ⟨_, _, rfl⟩
  · exact .inr rfl

theorem Dec.Defined.bool : Defined Dec.bool := .of_mismatch fun s => by
  unfold Dec.bool; split
  · exact .inl ⟨_, _, rfl⟩
  · exact .inr rfl

theorem Dec.Defined.i32 : Defined Dec.i32 := .of_mismatch fun s => by
  unfold Dec.i32; split
  · exact .inl ⟨_, _, rfl⟩
  · exact .inr rfl

theorem Dec.Defined.ulong : Defined Dec.ulong := .of_mismatch fun s => by
  unfold Dec.ulong; split
  · exact .inl ⟨_, _, rfl⟩
  · exact .inr rfl

theorem Dec.Defined.off : Defined Dec.off := .of_mismatch fun s => by
  unfold Dec.off; split
  · exact .inl ⟨_, _, rfl⟩
  · exact .inr rfl

theorem Dec.Defined.str : Defined Dec.str := .of_mismatch fun s => by
  unfold Dec.str; split
  · exact .inl ⟨_, _, rfl⟩
  · exact .inr rfl

theorem Dec.Defined.blob : Defined Dec.blob := .of_mismatch fun s => by
  unfold Dec.blob; split
  · exact .inl ⟨_, _, rfl⟩
  · exact .inr rfl

theorem Dec.Defined.uri : Defined Dec.uri := .of_mismatch fun s => by
  unfold Dec.uri; split
  · exact .inl ⟨_, _, rfl⟩
  · exact .inr rfl

theorem Dec.Defined.ext : Defined Dec.ext := .of_mismatch fun s => by
  unfold Dec.ext; split
  · exact .inl ⟨_, _, rfl⟩
  · exact .inr rfl

theorem Dec.Defined.times {α : Type} {d : Dec α} (hd : Defined d) (hl : Local d) (n : Nat) : Defined (Dec.times n d) := by
  induction n with
  | zero => exact .pure []
  | succ n ih =>
    rw [Dec.times]
    exact hd.bind hl fun _ => ih.bind (hl.times n) fun _ => .pure _

theorem decRanges_defined : Defined decRanges := by
  intro s hs h
  rw [decRanges] at h
  cases s with
  | nil => cases h
  | cons x s =>
    cases x with
    | ulong n =>
      rw [Dec.bind_ok (show Dec.ulong _ = .ok (n, s) from rfl)] at h
      cases s with
      | nil => cases h
      | cons y s =>
        cases y with
        | blob bs =>
          rw [Dec.bind_ok (show Dec.blob _ = .ok (bs, s) from rfl),
            if_neg (Nat.not_lt.mpr (hs [] n bs s rfl))] at h
          cases h
        | _ => cases h
    | _ => cases h

theorem decRequest_defined : Defined decRequest :=
  Defined.str.bind Local.str fun _ => Defined.str.bind Local.str fun _ =>
    decRanges_defined.bind decRanges_local fun _ => .pure _

theorem decForwardItem_defined : Defined decForwardItem :=
  decRequest_defined.bind decRequest_local fun _ => Defined.uri.bind Local.uri fun _ => .pure _

theorem decHeader_defined : Defined decHeader :=
  Defined.u16.bind Local.u16 fun _ => .ite (.fail _) (Defined.str.bind Local.str fun _ =>
    Defined.u16.bind Local.u16 fun _ => .pure _)

theorem dispatch_defined : Defined dispatch := by
  rw [dispatch]
  refine decHeader_defined.bind decHeader_local fun x => ?_
  obtain ⟨ctx, t⟩ := x
  match t with
  | 0 =>
    exact Defined.bind (Defined.ulong.bind Local.ulong fun n => decRequest_defined.times decRequest_local n)
      decExtractReq_local fun _ => .pure _
  | 1 =>
    exact Defined.bind (Defined.str.bind Local.str fun _ => Defined.i32.bind Local.i32 fun _ => .pure _)
      decAxesReq_local fun _ => (Defined.assert _).bind (Local.lift _) fun _ => .pure _
  | 2 =>
    exact Defined.bind (Defined.bool.bind Local.bool fun _ => Defined.ulong.bind Local.ulong fun n =>
      (Defined.ext.times Local.ext n).bind (Local.ext.times n) fun _ => .pure _) decScanReq_local fun _ => .pure _
  | 3 =>
    refine Defined.bind ?_ decForwardExtract_local fun _ => (Defined.assert _).bind (Local.lift _) fun _ => .pure _
    have loc : ∀ n, Local (Dec.times n (do
        let fname ← Dec.str
        let nItems ← Dec.ulong
        let items ← Dec.times nItems decForwardItem
        pure (fname, items) : Dec (String × List Item))) := fun n =>
      Local.times (Local.str.bind fun _ => Local.ulong.bind fun k => (decForwardItem_local.times k).bind fun _ =>
        Local.pure _) n
    exact Defined.ulong.bind Local.ulong fun n => Defined.bind (Defined.times (Defined.str.bind Local.str fun _ =>
      Defined.ulong.bind Local.ulong fun k => (decForwardItem_defined.times decForwardItem_local k).bind
        (decForwardItem_local.times k) fun _ => .pure _)
      (Local.str.bind fun _ => Local.ulong.bind fun k => (decForwardItem_local.times k).bind fun _ => Local.pure _) n)
      (loc n) fun _ => .pure _
  | 4 =>
    refine Defined.bind ?_ decForwardScan_local fun _ => .pure _
    have vecDef : Defined (Dec.vec Dec.off) := Defined.ulong.bind Local.ulong fun n => Defined.off.times Local.off n
    exact Defined.ulong.bind Local.ulong fun n => Defined.bind (Defined.times (Defined.str.bind Local.str fun _ =>
      vecDef.bind Local.off.vec fun _ => .pure _)
      (Local.str.bind fun _ => Local.off.vec.bind fun _ => Local.pure _) n)
      (Local.times (Local.str.bind fun _ => Local.off.vec.bind fun _ => Local.pure _) n) fun _ => .pure _
  | n + 5 => exact .fail _

/-- The engine's work on a request and the encoding of its answer are free of undefined behaviour. -/
def EngineDefined (E : Engine) (req : ServerReq) : Prop :=
  handle E req ≠ undef ∧ ∀ errs, handle E req ≠ .ok (errs, undef)

/-- C44 (partial).  Whatever a client sends, as long as the ranges of an extraction are as many as announced: the server
asks the engine for at most one thing, and sends an answer.
Missing: messages that announce more ranges than they hold (`C44_short_ranges_undefined`). -/
theorem C44_always_answered_partial (E : Engine) (input : List Tok)
    (engine : ∀ ctx req rest, dispatch input = .ok ((ctx, req), rest) → EngineDefined E req)
    (complete : RangesComplete input) :
    ∃ calls out, serve E input = .ok (calls, out) ∧ calls.length ≤ 1 ∧ out ≠ [] := by
  have hd := dispatch_defined input complete
  unfold serve
  split
  · rename_i h; exact absurd h hd
  · exact ⟨_, _, rfl, Nat.zero_le _, List.cons_ne_nil _ _⟩
  · rename_i ctx req rest h
    obtain ⟨h1, h2⟩ := engine ctx req rest h
    split
    · rename_i h; exact absurd h h1
    · exact ⟨_, _, rfl, Nat.le_refl _, List.cons_ne_nil _ _⟩
    · rename_i errs body h
      split
      · exact absurd h (h2 errs)
      · exact ⟨_, _, rfl, Nat.le_refl _, List.cons_ne_nil _ _⟩
      · exact ⟨_, _, rfl, Nat.le_refl _, List.cons_ne_nil _ _⟩

/-- C44 is false of the model: a request that announces more ranges than it holds makes the server read memory that was
not received (`decodeRanges` does not compare the two sizes).  This rests on the two simplifications stated at `decRanges`:
in the real program a count too large to allocate is refused with an exception. -/
theorem C44_short_ranges_undefined (E : Engine) (ctx request hash : String) (n : Nat) (bs : List Nat)
    (short : bs.length < 16 * n) (rest : List Tok) :
    serve E (.u16 3 :: .str ctx :: .u16 0 :: .ulong 1 :: .str request :: .str hash :: .ulong n :: .blob bs :: rest)
      = undef := by
  have : dispatch (.u16 3 :: .str ctx :: .u16 0 :: .ulong 1 :: .str request :: .str hash :: .ulong n :: .blob bs :: rest)
      = undef := by
    rw [dispatch, Dec.bind_ok (show decHeader _ = .ok ((ctx, 0), _) from rfl)]
    show (decExtractReq >>= _) _ = _
    apply Dec.bind_error
    rw [decExtractReq, Dec.bind_ok (show Dec.ulong _ = .ok (1, _) from rfl), Dec.times]
    apply Dec.bind_error
    rw [decRequest, Dec.bind_ok (show Dec.str _ = .ok (request, _) from rfl),
      Dec.bind_ok (show Dec.str _ = .ok (hash, _) from rfl)]
    apply Dec.bind_error
    rw [decRanges, Dec.bind_ok (show Dec.ulong _ = .ok (n, _) from rfl),
      Dec.bind_ok (show Dec.blob _ = .ok (bs, _) from rfl), if_pos short]
    rfl
  rw [serve, this]

/-- Requests written by the client have complete ranges. -/
theorem encRanges_complete (rs : List Interval) : RangesComplete (encRanges rs) := by
  intro pre n bs post h
  rw [encRanges] at h
  have hl : pre.length = 0 := by
    have := congrArg List.length h
    simp only [List.length_cons, List.length_nil, List.length_append] at this
    omega
  rw [List.length_eq_zero_iff] at hl
  subst hl
  cases h
  rw [flatMap_words_length _ 16 rs (fun r _ => by rw [List.length_append, wordBytes_length, wordBytes_length])]
  exact Nat.le_refl _

/-- Non-vacuity: the sample engine is defined on the sample requests. -/
example : EngineDefined sampleEngine (.extract sampleReqs) ∧ EngineDefined sampleEngine (.axes "class=od" 1) := by
  have h : ∃ toks, handle sampleEngine (.extract sampleReqs) = .ok ([], .ok toks) := ⟨_, rfl⟩
  obtain ⟨toks, h⟩ := h
  refine ⟨⟨fun e => ?_, fun errs e => ?_⟩, ⟨fun e => ?_, fun errs e => ?_⟩⟩
  · rw [h] at e; cases e
  · rw [h] at e; cases e
  · cases e
  · cases e

/-- Non-vacuity: garbage meets the hypothesis and is answered by an exception. -/
example : RangesComplete [.u16 3, .str "{}", .objEnd, .ulong 7] ∧
    serve sampleEngine [.u16 3, .str "{}", .objEnd, .ulong 7] = .ok ([], [.exc "error"]) := by
  refine ⟨?_, by decide +kernel⟩
  intro pre n bs post h
  have hm : Tok.blob bs ∈ [.u16 3, .str "{}", .objEnd, .ulong 7] := by
    rw [h]; exact List.mem_append_right _ (List.mem_cons_of_mem _ List.mem_cons_self)
  simp at hm

end GJ
