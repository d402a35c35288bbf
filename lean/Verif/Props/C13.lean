import Verif.Lemmas.Fits

/-!
# C13: the shape of results, for every packing
-/

namespace GJ
open Spec

theorem mapM_map_eq {α β γ : Type} {f : α → Res β} {g : β → γ} {k : α → γ} :
    ∀ {l : List α} {out : List β}, l.mapM f = .ok out → (∀ a ∈ l, ∀ b, f a = .ok b → g b = k a) →
      out.map g = l.map k := by
  intro l
  induction l with
  | nil =>
    intro out h _
    rw [List.mapM_nil] at h
    cases h; rfl
  | cons a l ih =>
    intro out h hk
    rw [List.mapM_cons] at h
    obtain ⟨x, hx, h⟩ := res_bind_inv h
    obtain ⟨xs, hxs, h⟩ := res_bind_inv h
    cases h
    rw [List.map_cons, List.map_cons, hk a (List.mem_cons_self ..) x hx,
      ih hxs fun a ha => hk a (List.mem_cons_of_mem _ ha)]

theorem decodeRanges_shape {V : Type} {dec : Block → Res (List V)} {is : List Interval} {out : List (List V)}
    (wf : ∀ i ∈ is, i.b ≤ i.e ∧ i.e < 2 ^ 64) (h : decodeRanges dec (toRanges is) = .ok out) :
    out.map List.length = is.map fun i => i.e - i.b := by
  rw [decodeRanges] at h
  obtain ⟨m, -, h⟩ := res_bind_inv h
  have h1 : out.map List.length = (toRanges is).map Block.size := by
    refine mapM_map_eq h fun r _ v hv => ?_
    rw [sliceUser] at hv
    split at hv
    · cases hv
    · split at hv
      · rename_i hc
        cases hv
        rw [List.length_take, List.length_drop]
        omega
      · cases hv
  have hr : toRanges is = is.map fun j => ⟨j.b, j.e - j.b⟩ := by
    simp only [toRanges]
    apply List.map_congr_left
    intro j hj
    rw [wsub_eq j.e j.b (wf j hj).1 (wf j hj).2]
  rw [h1, hr, List.map_map]
  rfl

theorem jumperExtract_shape {V : Type} {R : Reader V} {file : List UInt8} {offset : Nat} {info : Info}
    {is : List Interval} {r : ExResult V} (wf : ∀ i ∈ is, i.b ≤ i.e ∧ i.e < 2 ^ 64)
    (h : jumperExtract R file offset info is = .ok r) :
    r.values.map List.length = is.map (fun i => i.e - i.b) ∧
    r.mask.map List.length = is.map fun i => (i.e - i.b + 63) / 64 := by
  rw [jumperExtract] at h
  split at h
  · refine C13_result_shape _ _ (fun js out wf h => ?_) _ _ _ _ wf _ h
    cases info with
    | simple b => rw [simpleReadValues] at h; exact decodeRanges_shape wf h
    | ccsds b x => cases h
    | unsupported b => cases h
  · split at h
    · refine C13_result_shape _ _ (fun js out wf h => ?_) _ _ _ _ wf _ h
      cases info with
      | simple b => cases h
      | ccsds b x =>
        rw [ccsdsReadValues] at h
        obtain ⟨⟨⟩, -, h⟩ := res_bind_inv h
        exact decodeRanges_shape wf h
      | unsupported b => cases h
    · cases h

/-- C13 for a message in a file, whatever its packing, whatever libaec does and whatever the file holds: an extraction
that returns gives, per interval asked for, one array with one value per point and one mask with one bit per point. -/
theorem C13_message_shape {V : Type} (R : Reader V) (file : List UInt8) (offset : Nat) (is : List Interval)
    (wf : ∀ i ∈ is, i.b ≤ i.e ∧ i.e < 2 ^ 64) (r : ExResult V) (h : messageExtract R file offset is = .ok r) :
    r.values.map List.length = is.map (fun i => i.e - i.b) ∧
    r.mask.map List.length = is.map fun i => (i.e - i.b + 63) / 64 := by
  rw [messageExtract] at h
  obtain ⟨info, -, h⟩ := res_bind_inv h
  exact jumperExtract_shape wf h

end GJ
