import Verif.Lemmas.Direct

/-!
# Extraction from a file that has grown

What could be read from a file can be read, unchanged, from a longer file that starts with it.
-/

namespace GJ

/-- The second succeeds whenever the first does, with the same result. -/
def Res.le {α : Type} (x y : Res α) : Prop := ∀ a, x = .ok a → y = .ok a

theorem Res.le.refl {α : Type} (x : Res α) : Res.le x x := fun _ h => h

theorem Res.le.error {α : Type} (e : Fault) (y : Res α) : Res.le (.error e) y := fun _ h => by cases h

theorem Res.le.bind {α β : Type} {x y : Res α} {f g : α → Res β} (h : Res.le x y) (hf : ∀ a, Res.le (f a) (g a)) :
    Res.le (x >>= f) (y >>= g) := by
  intro b hb
  obtain ⟨a, ha, hb⟩ := res_bind_inv hb
  rw [h a ha, ok_bind]
  exact hf a b hb

theorem Res.le.map {α β : Type} {x y : Res α} (f : α → β) (h : Res.le x y) : Res.le (x.map f) (y.map f) := by
  intro b hb
  cases x with
  | error e => cases hb
  | ok a => rw [h a rfl]; exact hb

theorem take_drop_grown (file more : List UInt8) (a n : Nat) (h : ((file.drop a).take n).length = n) :
    ((file ++ more).drop a).take n = (file.drop a).take n := by
  rw [List.length_take, List.length_drop] at h
  by_cases h0 : n = 0
  · subst h0; simp
  · rw [List.drop_append_of_le_length (by omega), List.take_append_of_le_length (by rw [List.length_drop]; omega)]

theorem fileRead_grown (file more : List UInt8) (sec b : Block) :
    Res.le (fileRead file sec b) (fileRead (file ++ more) sec b) := by
  intro x h
  unfold fileRead at h ⊢
  split at h
  · cases h
  · rename_i hs
    rw [if_neg hs]
    simp only at h ⊢
    split at h
    · rename_i hl
      rw [take_drop_grown file more _ _ hl, if_pos hl]
      exact h
    · cases h

theorem readBitmap_grown (file more : List UInt8) (o : Nat) (info : JumpInfo) :
    Res.le (readBitmap file o info) (readBitmap (file ++ more) o info) := by
  intro x h
  unfold readBitmap at h ⊢
  simp only at h ⊢
  split
  · rename_i h0; rw [if_pos h0] at h; exact h
  · rename_i h0
    rw [if_neg h0] at h
    split
    · rename_i h1; rw [if_pos h1] at h; exact h
    · rename_i h1
      rw [if_neg h1] at h
      split at h
      · cases h
      · rename_i hl
        have hl' := Decidable.not_not.mp hl
        rw [take_drop_grown file more _ _ hl', if_neg hl]
        exact h

theorem decodeBuckets_le {α : Type} {f g : Block → Res (List α)} (h : ∀ b, Res.le (f b) (g b)) (bs : List Bucket) :
    ∀ m, Res.le (decodeBuckets f bs m) (decodeBuckets g bs m) := by
  induction bs with
  | nil => intro m; exact Res.le.refl _
  | cons b bs ih =>
    intro m
    unfold decodeBuckets
    exact Res.le.bind (h _) fun _ => ih _

theorem decodeRanges_le {α : Type} {f g : Block → Res (List α)} (h : ∀ b, Res.le (f b) (g b)) (rs : List Block) :
    Res.le (decodeRanges f rs) (decodeRanges g rs) :=
  Res.le.bind (decodeBuckets_le h _ _) fun _ => Res.le.refl _

theorem aecDecodeBlock_le (L : AecLib) (P : AecParams) (sz : Nat) (offs : List Nat)
    {f g : Block → Res (List UInt8)} (h : ∀ b, Res.le (f b) (g b)) (eof : Nat) (r : Block) :
    Res.le (aecDecodeBlock L P sz offs f eof r) (aecDecodeBlock L P sz offs g eof r) := by
  unfold aecDecodeBlock
  refine Res.le.bind (Res.le.refl _) fun _ => Res.le.bind (Res.le.refl _) fun _ => ?_
  simp only
  split
  · exact Res.le.refl _
  · refine Res.le.bind (Res.le.refl _) fun _ => Res.le.bind (Res.le.refl _) fun _ => ?_
    split
    · exact Res.le.refl _
    · refine Res.le.bind (Res.le.refl _) fun _ => ?_
      split <;> split <;> first | exact Res.le.refl _ | exact Res.le.bind (h _) fun _ => Res.le.refl _

theorem extract_le {V : Type} (A : Arith V) {rv rv' : ReadValues V} (file more : List UInt8) (o : Nat) (info : JumpInfo)
    (h : ∀ is, Res.le (rv is) (rv' is)) (is : List Interval) :
    Res.le (extract A rv file o info is) (extract A rv' (file ++ more) o info is) := by
  unfold extract
  refine Res.le.bind (Res.le.refl _) fun _ => Res.le.bind (Res.le.refl _) fun _ =>
    Res.le.bind (Res.le.refl _) fun _ => ?_
  split
  · exact Res.le.refl _
  · split
    · unfold extractNoMask
      exact Res.le.bind (h _) fun _ => Res.le.refl _
    · unfold extractMasked
      refine Res.le.bind (readBitmap_grown _ _ _ _) fun bm => Res.le.bind (Res.le.refl _) fun p => ?_
      exact Res.le.bind (h _) fun _ => Res.le.refl _

/-- What metadata extracted from a file, it extracts from the longer file. -/
theorem jumperExtract_grown {V : Type} (R : Reader V) (file more : List UInt8) (o : Nat) (info : Info)
    (is : List Interval) : Res.le (jumperExtract R file o info is) (jumperExtract R (file ++ more) o info is) := by
  unfold jumperExtract
  split
  · refine extract_le R.simple file more o info.base (fun js => ?_) is
    cases info with
    | simple b =>
      simp only [simpleReadValues]
      refine decodeRanges_le (fun r => ?_) _
      unfold decodeSimple
      exact Res.le.bind (fileRead_grown file more _ _) fun _ => Res.le.refl _
    | ccsds b x => exact Res.le.refl _
    | unsupported b => exact Res.le.refl _
  · split
    · refine extract_le R.ccsds file more o info.base (fun js => ?_) is
      cases info with
      | ccsds b x =>
        simp only [ccsdsReadValues]
        refine Res.le.bind (Res.le.refl _) fun _ => decodeRanges_le (fun r => ?_) _
        unfold decodeCcsds
        split
        · exact Res.le.refl _
        · simp only
          split
          · exact Res.le.map _ (aecDecodeBlock_le _ _ _ _ (fileRead_grown file more _) _ _)
          · exact Res.le.refl _
      | simple b => exact Res.le.refl _
      | unsupported b => exact Res.le.refl _
    · exact Res.le.refl _

end GJ
