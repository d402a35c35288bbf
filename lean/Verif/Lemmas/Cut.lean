import Verif.Lemmas.Codec
import Verif.Model.Server

/-!
# Readers on streams that break off

`Dec.Local d`: what the reader `d` reads does not depend on what follows, and when the stream ends, an exception of the
peer comes, or an object starts, before `d` has read everything it needs, `d` throws.
-/

namespace GJ

/-- A stream that has ended, or continues with an exception of the peer. -/
def Broken : List Tok → Prop
  | [] => True
  | .exc _ :: _ => True
  | _ => False

/-- What reading from a broken stream throws. -/
def brokenExn : List Tok → Exn
  | .exc _ :: _ => .remote
  | _ => .streamError

/-- A stream with nothing to read next: broken, or an object starts where an item is expected. -/
def Stuck : List Tok → Prop
  | [] => True
  | .exc _ :: _ => True
  | .objStart :: _ => True
  | _ => False

theorem Broken.stuck {t : List Tok} (h : Broken t) : Stuck t := by
  match t, h with
  | [], _ => trivial
  | .exc _ :: _, _ => trivial

theorem mismatch_broken {α : Type} {t : List Tok} (h : Stuck t) :
    (Dec.mismatch t : Res (α × List Tok)) = throwExn (brokenExn t) := by
  match t, h with
  | [], _ => rfl
  | .exc _ :: _, _ => rfl
  | .objStart :: _, _ => rfl

def Dec.Local {α : Type} (d : Dec α) : Prop :=
  ∀ s a r, d s = .ok (a, r) → ∃ u, s = u ++ r ∧ (∀ x, d (u ++ x) = .ok (a, x)) ∧
    ∀ p q, u = p ++ q → q ≠ [] → ∀ t, Stuck t → d (p ++ t) = throwExn (brokenExn t)

namespace Dec

theorem Local.pure {α : Type} (a : α) : Local (Pure.pure a : Dec α) := by
  intro s b r h
  cases h
  refine ⟨[], rfl, fun _ => rfl, ?_⟩
  intro p q hu hq
  exact absurd (List.append_eq_nil_iff.mp hu.symm).2 hq

theorem Local.fail {α : Type} (e : Exn) : Local (Dec.fail e : Dec α) := by
  intro s a r h; cases h

theorem Local.ub {α : Type} : Local (Dec.ub : Dec α) := by
  intro s a r h; cases h

theorem Local.lift {α : Type} (x : Res α) : Local (Dec.lift x) := by
  cases x with
  | error e => intro s a r h; cases h
  | ok a => exact Local.pure a

theorem Local.bind {α β : Type} {d : Dec α} {f : α → Dec β} (hd : Local d) (hf : ∀ a, Local (f a)) :
    Local (d >>= f) := by
  intro s b r h
  obtain ⟨a, s1, h1, h2⟩ := dec_bind_inv h
  obtain ⟨u1, e1, g1, c1⟩ := hd s a s1 h1
  obtain ⟨u2, e2, g2, c2⟩ := hf a s1 b r h2
  refine ⟨u1 ++ u2, by rw [e1, e2, List.append_assoc], ?_, ?_⟩
  · intro x
    rw [List.append_assoc, Dec.bind_ok (g1 _), g2]
  · intro p q hu hq t ht
    rcases List.append_eq_append_iff.mp hu with ⟨v, hv1, hv2⟩ | ⟨v, hv1, hv2⟩
    · -- the cut is in the second part
      subst hv1
      rw [List.append_assoc, Dec.bind_ok (g1 _)]
      exact c2 v q hv2 hq t ht
    · by_cases hn : v = []
      · subst hn
        rw [List.append_nil] at hv1
        rw [List.nil_append] at hv2
        subst hv1
        rw [Dec.bind_ok (g1 _)]
        have := c2 [] q hv2.symm hq t ht
        exact this
      · exact Dec.bind_error (c1 p v hv1 hn t ht)

theorem Local.ite {α : Type} {c : Prop} [Decidable c] {d e : Dec α} (hd : Local d) (he : Local e) :
    Local (if c then d else e) := by
  split
  · exact hd
  · exact he

/-- A reader of one item. -/
theorem Local.item {α : Type} (d : Dec α) (ok : Tok → Option α)
    (h1 : ∀ t a r, ok t = some a → d (t :: r) = .ok (a, r))
    (h2 : ∀ t r, ok t = none → d (t :: r) = mismatch (t :: r)) (h3 : d [] = mismatch [])
    (h4 : ∀ w, ok (.exc w) = none) (h5 : ok .objStart = none) : Local d := by
  intro s a r h
  cases s with
  | nil => rw [h3] at h; cases h
  | cons x s =>
    cases hx : ok x with
    | none =>
      rw [h2 x s hx] at h
      unfold mismatch at h
      split at h <;> cases h
    | some b =>
      rw [h1 x b s hx] at h
      cases h
      refine ⟨[x], rfl, fun y => h1 x _ y hx, ?_⟩
      intro p q hu hq t ht
      have hp : p = [] := by
        cases p with
        | nil => rfl
        | cons y p =>
          have := List.cons.inj hu
          exact absurd (List.append_eq_nil_iff.mp this.2.symm).2 hq
      subst hp
      rw [List.nil_append]
      match t, ht with
      | [], _ => exact h3
      | .exc w :: t, _ => rw [h2 _ _ (h4 w)]; rfl
      | .objStart :: t, _ => rw [h2 _ _ h5]; rfl

theorem Local.u8 : Local Dec.u8 :=
  Local.item _ (fun | .u8 n => some n | _ => none) (by intro t a r h; cases t <;> cases h; rfl)
    (by intro t r h; cases t <;> first | rfl | cases h) rfl (fun _ => rfl) rfl

theorem Local.u16 : Local Dec.u16 :=
  Local.item _ (fun | .u16 n => some n | _ => none) (by intro t a r h; cases t <;> cases h; rfl)
    (by intro t r h; cases t <;> first | rfl | cases h) rfl (fun _ => rfl) rfl

theorem Local.bool : Local Dec.bool :=
  Local.item _ (fun | .bool n => some n | _ => none) (by intro t a r h; cases t <;> cases h; rfl)
    (by intro t r h; cases t <;> first | rfl | cases h) rfl (fun _ => rfl) rfl

theorem Local.i32 : Local Dec.i32 :=
  Local.item _ (fun | .i32 n => some n | _ => none) (by intro t a r h; cases t <;> cases h; rfl)
    (by intro t r h; cases t <;> first | rfl | cases h) rfl (fun _ => rfl) rfl

theorem Local.long : Local Dec.long :=
  Local.item _ (fun | .long n => some n | _ => none) (by intro t a r h; cases t <;> cases h; rfl)
    (by intro t r h; cases t <;> first | rfl | cases h) rfl (fun _ => rfl) rfl

theorem Local.ulong : Local Dec.ulong :=
  Local.item _ (fun | .ulong n => some n | _ => none) (by intro t a r h; cases t <;> cases h; rfl)
    (by intro t r h; cases t <;> first | rfl | cases h) rfl (fun _ => rfl) rfl

theorem Local.off : Local Dec.off :=
  Local.item _ (fun | .off n => some n | _ => none) (by intro t a r h; cases t <;> cases h; rfl)
    (by intro t r h; cases t <;> first | rfl | cases h) rfl (fun _ => rfl) rfl

theorem Local.dbl : Local Dec.dbl :=
  Local.item _ (fun | .dbl n => some n | _ => none) (by intro t a r h; cases t <;> cases h; rfl)
    (by intro t r h; cases t <;> first | rfl | cases h) rfl (fun _ => rfl) rfl

theorem Local.str : Local Dec.str :=
  Local.item _ (fun | .str n => some n | _ => none) (by intro t a r h; cases t <;> cases h; rfl)
    (by intro t r h; cases t <;> first | rfl | cases h) rfl (fun _ => rfl) rfl

theorem Local.blob : Local Dec.blob :=
  Local.item _ (fun | .blob n => some n | _ => none) (by intro t a r h; cases t <;> cases h; rfl)
    (by intro t r h; cases t <;> first | rfl | cases h) rfl (fun _ => rfl) rfl

theorem Local.uri : Local Dec.uri :=
  Local.item _ (fun | .uri n => some n | _ => none) (by intro t a r h; cases t <;> cases h; rfl)
    (by intro t r h; cases t <;> first | rfl | cases h) rfl (fun _ => rfl) rfl

theorem Local.ext : Local Dec.ext :=
  Local.item _ (fun | .ext n => some n | _ => none) (by intro t a r h; cases t <;> cases h; rfl)
    (by intro t r h; cases t <;> first | rfl | cases h) rfl (fun _ => rfl) rfl

theorem Local.skipEnd : Local Dec.skipEnd :=
  Local.item _ (fun | .objEnd => some () | _ => none) (by intro t a r h; cases t <;> cases h; rfl)
    (by intro t r h; cases t <;> first | rfl | cases h) rfl (fun _ => rfl) rfl

theorem Local.times {α : Type} {d : Dec α} (hd : Local d) (n : Nat) : Local (Dec.times n d) := by
  induction n with
  | zero => exact Local.pure []
  | succ n ih =>
    rw [Dec.times]
    exact hd.bind fun _ => ih.bind fun _ => Local.pure _

theorem Local.vec {α : Type} {d : Dec α} (hd : Local d) : Local (Dec.vec d) :=
  Local.ulong.bind fun n => hd.times n

end Dec

open Dec

theorem decWords_local : Local decWords :=
  Local.ulong.bind fun _ => Local.blob.bind fun _ => Local.ite Local.ub (Local.pure _)

theorem decWords2_local : Local decWords2 :=
  decWords_local.bind fun _ => decWords_local.bind fun _ => Local.lift _

theorem decResult_local : Local decResult :=
  decWords2_local.bind fun _ => decWords2_local.bind fun _ => Local.pure _

theorem decRanges_local : Local decRanges :=
  Local.ulong.bind fun _ => Local.blob.bind fun _ => Local.ite Local.ub (Local.pure _)

theorem decRequest_local : Local decRequest :=
  Local.str.bind fun _ => Local.str.bind fun _ => decRanges_local.bind fun _ => Local.pure _

theorem decHeader_local : Local decHeader :=
  Local.u16.bind fun _ => Local.ite (Local.fail _) (Local.str.bind fun _ => Local.u16.bind fun _ => Local.pure _)

theorem decErrors_local (raise : Bool) : Local (decErrors raise) :=
  Local.ulong.bind fun n => Local.ite (Local.pure _) ((Local.str.times n).bind fun _ => Local.ite (Local.fail _) (Local.pure _))

theorem decExtractReq_local : Local decExtractReq :=
  Local.ulong.bind fun n => decRequest_local.times n

theorem decExtractReply_local (n : Nat) : Local (decExtractReply n) :=
  Local.times (Local.ulong.bind fun _ => (Local.lift _).bind fun _ => decResult_local) n

theorem decScanReq_local : Local decScanReq :=
  Local.bool.bind fun _ => Local.ulong.bind fun n => (Local.ext.times n).bind fun _ => Local.pure _

theorem decAxesReq_local : Local decAxesReq :=
  Local.str.bind fun _ => Local.i32.bind fun _ => Local.pure _

theorem decAxesReply_local : Local decAxesReply :=
  Local.ulong.bind fun n => (Local.times (Local.str.bind fun _ => Local.ulong.bind fun k =>
    (Local.str.times k).bind fun _ => Local.pure _) n).bind fun _ => Local.pure _

theorem decForwardScan_local : Local decForwardScan :=
  Local.ulong.bind fun n => (Local.times (Local.str.bind fun _ => Local.off.vec.bind fun _ => Local.pure _) n).bind
    fun _ => Local.pure _

theorem decForwardItem_local : Local decForwardItem :=
  decRequest_local.bind fun _ => Local.uri.bind fun _ => Local.pure _

theorem decForwardExtract_local : Local decForwardExtract :=
  Local.ulong.bind fun n => (Local.times (Local.str.bind fun _ => Local.ulong.bind fun k =>
    (decForwardItem_local.times k).bind fun _ => Local.pure _) n).bind fun _ => Local.pure _

theorem decForwardReplyLoop_local (n : Nat) : ∀ fm, Local (decForwardReplyLoop n fm) := by
  induction n with
  | zero => intro fm; exact Local.pure fm
  | succ n ih =>
    intro fm
    rw [decForwardReplyLoop]
    exact Local.str.bind fun _ => Local.ulong.bind fun k => (Local.lift _).bind fun _ =>
      (decResult_local.times k).bind fun _ => ih _

theorem decJumpInfo_local : Local decJumpInfo :=
  Local.u8.bind fun _ => Local.dbl.bind fun _ => Local.long.bind fun _ => Local.long.bind fun _ =>
    Local.ulong.bind fun _ => Local.ulong.bind fun _ => Local.off.bind fun _ => Local.off.bind fun _ =>
    Local.off.bind fun _ => Local.ulong.bind fun _ => Local.ulong.bind fun _ => Local.off.bind fun _ =>
    Local.long.bind fun _ => Local.str.bind fun _ => Local.str.bind fun _ => Local.pure _

theorem decCcsdsExt_local : Local decCcsdsExt :=
  Local.ulong.bind fun _ => Local.ulong.bind fun _ => Local.ulong.bind fun _ => Local.ulong.vec.bind fun _ => Local.pure _

theorem dispatch_local : Local dispatch := by
  rw [dispatch]
  refine decHeader_local.bind fun x => ?_
  obtain ⟨ctx, t⟩ := x
  match t with
  | 0 => exact decExtractReq_local.bind fun _ => Local.pure _
  | 1 => exact decAxesReq_local.bind fun _ => (Local.lift _).bind fun _ => Local.pure _
  | 2 => exact decScanReq_local.bind fun _ => Local.pure _
  | 3 => exact decForwardExtract_local.bind fun _ => (Local.lift _).bind fun _ => Local.pure _
  | 4 => exact decForwardScan_local.bind fun _ => Local.pure _
  | n + 5 => exact Local.fail _

end GJ
