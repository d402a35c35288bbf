import Verif.Model.Machine
import Verif.Lemmas.Fits
import Verif.Lemmas.Engine
import Verif.Props.C07
import Verif.Props.C06

/-! Lemmas about extraction in 64-bit arithmetic. -/

namespace GJ

/-- `a` does what `b` does or throws; it throws only if `b` does not succeed or `P` fails. -/
def Follows {α : Type} (P : Prop) (a b : Res α) : Prop :=
  a = b ∨ ((∃ e, a = .error (.exn e)) ∧ (P → ∀ v, b ≠ .ok v))

section
variable {α β : Type} {P : Prop}

theorem Follows.refl (a : Res α) : Follows P a a := Or.inl rfl

theorem Follows.throw {e : Exn} {b : Res α} (h : P → ∀ v, b ≠ .ok v) : Follows P (throwExn e) b :=
  Or.inr ⟨⟨e, rfl⟩, h⟩

theorem Follows.bind {a b : Res α} {f g : α → Res β} (h : Follows P a b)
    (hf : ∀ x, b = .ok x → Follows P (f x) (g x)) : Follows P (a >>= f) (b >>= g) := by
  rcases h with rfl | ⟨⟨e, rfl⟩, hb⟩
  · cases hx : a with
    | error e => exact Or.inl rfl
    | ok x => exact hf x hx
  · refine Or.inr ⟨⟨e, rfl⟩, fun hP v hv => ?_⟩
    cases hx : b with
    | error e => rw [hx] at hv; cases hv
    | ok x => exact hb hP x hx

theorem Follows.alloc {mem n : Nat} {a b : Res α} (h : Follows P a b) (hn : P → n > mem → ∀ v, b ≠ .ok v) :
    Follows P (alloc mem n >>= fun _ => a) b := by
  unfold GJ.alloc
  split
  · rename_i hc
    exact Follows.throw (fun hP => hn hP hc)
  · exact h

theorem Follows.mapM {f g : α → Res β} : ∀ {l : List α}, (∀ x ∈ l, Follows P (f x) (g x)) →
    Follows P (l.mapM f) (l.mapM g) := by
  intro l
  induction l with
  | nil => intro _; exact Follows.refl _
  | cons a rest ih =>
    intro h
    rw [List.mapM_cons, List.mapM_cons]
    refine Follows.bind (h a (by simp)) fun x _ => ?_
    refine Follows.bind (ih fun b hb => h b (by simp [hb])) fun y _ => ?_
    exact Follows.refl _

end

theorem wadd_eq {x y : Nat} (h : x + y < 2 ^ 64) : wadd x y = x + y := by
  unfold wadd; exact Nat.mod_eq_of_lt h

theorem wmul_eq {x y : Nat} (h : x * y < 2 ^ 64) : wmul x y = x * y := by
  unfold wmul; exact Nat.mod_eq_of_lt h

/-! ## Buckets -/

theorem stop64_eq {b : Block} (h : b.stop < 2 ^ 64) : b.stop64 = b.stop := by
  unfold Block.stop64; exact wadd_eq h

theorem step64_eq (m : Merge) {s : Nat} {b : Bucket} (hs : s < 2 ^ 64) (hb : b.block.stop < 2 ^ 64) :
    m.step64 s b = m.step s b := by
  have h1 : b.block.off ≤ b.block.stop := by simp [Block.stop]
  simp only [Merge.step64, Merge.step, stop64_eq hb]
  rw [wsub_eq _ _ (by omega) (by omega)]

theorem mergePrev64_eq (a : Nat) {s : Nat} (hs : s < 2 ^ 64) : ∀ (l : List Bucket) (m : Merge),
    (∀ b ∈ l, b.block.stop < 2 ^ 64) → mergePrev64 a s l m = mergePrev a s l m := by
  intro l
  induction l with
  | nil => intro m _; rfl
  | cons b rest ih =>
    intro m h
    have hb := h b (by simp)
    rw [mergePrev64, mergePrev, stop64_eq hb, step64_eq m hs hb, ih _ fun c hc => h c (by simp [hc])]

theorem mergeNext64_eq {s : Nat} (hs : s < 2 ^ 64) : ∀ (l : List Bucket) (m : Merge),
    (∀ b ∈ l, b.block.stop < 2 ^ 64) → mergeNext64 s l m = mergeNext s l m := by
  intro l
  induction l with
  | nil => intro m _; rfl
  | cons b rest ih =>
    intro m h
    have hb := h b (by simp)
    rw [mergeNext64, mergeNext, step64_eq m hs hb, ih _ fun c hc => h c (by simp [hc])]

theorem lowerBound_congr {α : Type} (p q : α → Bool) (l : List α) (h : ∀ x ∈ l, p x = q x) :
    ∀ (len first : Nat), lowerBound p l first len = lowerBound q l first len := by
  intro len
  induction len using Nat.strongRecOn with
  | ind len ih =>
    intro first
    rw [lowerBound, lowerBound]
    split
    · rfl
    · simp only
      cases hx : l[first + len / 2]? with
      | none => rfl
      | some x =>
        simp only
        rw [h x (List.mem_of_getElem? hx), ih _ (by omega), ih _ (by omega)]

theorem lowerBound64_eq {bs : List Bucket} {r : Block} (hb : ∀ b ∈ bs, b.block.stop < 2 ^ 64) :
    lowerBound (fun b : Bucket => decide (b.block.stop64 < r.off)) bs 0 bs.length =
      lowerBound (fun b : Bucket => decide (b.block.stop < r.off)) bs 0 bs.length :=
  lowerBound_congr _ _ _ (fun b h => congrArg (fun x => decide (x < r.off)) (stop64_eq (hb b h))) _ _

theorem insertBlock64_eq {bs : List Bucket} {r : Block} (hb : ∀ b ∈ bs, b.block.stop < 2 ^ 64)
    (hr : r.stop < 2 ^ 64) : insertBlock64 bs r = insertBlock bs r := by
  unfold insertBlock64 insertBlock
  rw [lowerBound64_eq hb, stop64_eq hr]
  generalize lowerBound (fun b : Bucket => decide (b.block.stop < r.off)) bs 0 bs.length = it
  have h1 := mergePrev64_eq r.off hr (bs.take it).reverse { block := r, subs := [r] }
    (fun b h => hb b (List.mem_of_mem_take (List.mem_reverse.mp h)))
  simp only [h1]
  have h2 := mergeNext64_eq hr (bs.drop it) (mergePrev r.off r.stop (bs.take it).reverse { block := r, subs := [r] }).2
    (fun b h => hb b (List.mem_of_mem_drop h))
  simp only [h2]

theorem foldl_congr_inv {α β : Type} (f g : β → α → β) (Q : List α → β → Prop)
    (step : ∀ done b a, Q done b → Q (done ++ [a]) (g b a)) (ok : α → Prop)
    (eq : ∀ done b a, Q done b → (∀ x ∈ done, ok x) → ok a → f b a = g b a) :
    ∀ (l done : List α) (b : β), Q done b → (∀ x ∈ done ++ l, ok x) → l.foldl f b = l.foldl g b := by
  intro l
  induction l with
  | nil => intro done b _ _; rfl
  | cons a rest ih =>
    intro done b hq hd
    have h1 := eq done b a hq (fun x hx => hd x (by simp [hx])) (hd a (by simp))
    rw [List.foldl_cons, List.foldl_cons, h1]
    exact ih (done ++ [a]) _ (step _ _ _ hq) (by simpa using hd)

theorem bucketsOf64_eq {rs : List Block} (N : Nat) (hN : N < 2 ^ 64) (h : ∀ r ∈ rs, r.stop ≤ N) :
    bucketsOf64 rs = bucketsOf rs := by
  unfold bucketsOf64
  have := foldl_congr_inv insertBlock64 insertBlock (fun done bs => bs = bucketsOf done)
    (by intro done b a hb; subst hb; unfold bucketsOf; rw [List.foldl_append]; rfl)
    (fun r => r.stop ≤ N)
    (by
      intro done b a hb hd ha
      subst hb
      exact insertBlock64_eq (fun b hb => Nat.lt_of_le_of_lt (bucketsOf_bound done N hd b hb) hN)
        (Nat.lt_of_le_of_lt ha hN))
    rs [] [] rfl (by simpa using h)
  rw [this]
  rfl

theorem decodeBuckets_follows {α : Type} {P : Prop} {d64 dec : Block → Res (List α)} :
    ∀ (bs : List Bucket) (acc : List (Block × Block × List α)),
      (∀ b ∈ bs, Follows P (d64 b.block) (dec b.block)) →
      Follows P (decodeBuckets d64 bs acc) (decodeBuckets dec bs acc) := by
  intro bs
  induction bs with
  | nil => intro acc _; exact Follows.refl _
  | cons b rest ih =>
    intro acc h
    rw [decodeBuckets, decodeBuckets]
    exact Follows.bind (h b (by simp)) fun d _ => ih _ fun c hc => h c (by simp [hc])

theorem decodeRanges64_follows {α : Type} {P : Prop} {mem N : Nat} {d64 dec : Block → Res (List α)}
    {rs : List Block} (hN : N < 2 ^ 64) (hr : ∀ r ∈ rs, r.stop ≤ N) (hmem : P → 8 * N ≤ mem)
    (hd : ∀ b : Block, b.stop ≤ N → Follows P (d64 b) (dec b)) :
    Follows P (decodeRanges64 mem d64 rs) (decodeRanges dec rs) := by
  rw [decodeRanges64, decodeRanges, bucketsOf64_eq N hN hr]
  refine Follows.bind (decodeBuckets_follows _ _ fun b hb => hd _ (bucketsOf_bound rs N hr b hb)) fun m _ => ?_
  refine Follows.mapM fun r h => ?_
  have hs : r.size ≤ N := by have := hr r h; simp only [Block.stop] at this; omega
  unfold sliceUser64
  cases hv : sliceUser m r with
  | error f => exact Or.inl rfl
  | ok v =>
    rw [ok_bind]
    refine Follows.alloc (Follows.refl _) fun hP hc => ?_
    have := hmem hP
    omega

/-! ## Reading -/

theorem dataSection64_eq {offset : Nat} {info : JumpInfo} (h1 : info.offsetBeforeData ≤ info.offsetAfterData)
    (h2 : offset + info.offsetAfterData < 2 ^ 63) : dataSection64 offset info = dataSection offset info := by
  unfold dataSection64 dataSection
  rw [wsub_eq _ _ h1 (by omega), wadd_eq (by omega)]

theorem fileRead64_follows {P : Prop} {mem : Nat} {file : List UInt8} {sec r : Block}
    (hsec : sec.off + sec.size < 2 ^ 63) (hmem : P → sec.size ≤ mem) :
    Follows P (fileRead64 mem file sec r) (fileRead file sec r) := by
  unfold fileRead64
  refine Follows.alloc ?_ ?_
  · rw [if_neg (by omega)]
    split
    · refine Follows.throw fun _ v hv => ?_
      rw [fileRead, if_pos (by omega)] at hv
      cases hv
    · exact Follows.refl _
  · intro hP hc v hv
    have := hmem hP
    rw [fileRead, if_pos (by omega)] at hv
    cases hv

theorem fileRead64_defined (mem : Nat) (file : List UInt8) (sec r : Block) : fileRead64 mem file sec r ≠ undef := by
  unfold fileRead64 alloc
  split
  · intro h; cases h
  · rw [ok_bind]
    split
    · intro h; cases h
    · split
      · intro h; cases h
      · unfold fileRead
        split
        · intro h; cases h
        · simp only
          split <;> (intro h; cases h)

/-! ## Simple packing -/

theorem unpackSimple64_follows {V : Type} {P : Prop} {mem : Nat} (scale : Nat → V) (ref : V) (bpv n : Nat)
    (enc : List UInt8) (bitp : Nat) (hmem : P → 8 * n ≤ mem) :
    Follows P (unpackSimple64 mem scale ref bpv n enc bitp) (unpackSimple scale ref bpv n enc bitp) := by
  rw [unpackSimple64]
  split
  · rename_i h; rw [unpackSimple, if_pos h]; exact Follows.refl _
  split
  · rename_i h1 h2; rw [unpackSimple, if_neg h1, if_pos h2]; exact Follows.refl _
  exact Follows.alloc (Follows.refl _) fun hP hc => by have := hmem hP; omega

theorem decodeSimple64_follows {V : Type} {P : Prop} {mem N : Nat} (scale : Nat → V) (ref : V) (bpv : Nat)
    {file : List UInt8} {sec : Block} (hN : N < 2 ^ 58) (hsec : sec.off + sec.size < 2 ^ 63)
    (hmem : P → 8 * N ≤ mem ∧ sec.size ≤ mem) (b : Block) (hb : b.stop ≤ N) :
    Follows P (decodeSimple64 mem scale ref bpv (fileRead64 mem file sec) b)
      (decodeSimple scale ref bpv (fileRead file sec) b) := by
  obtain ⟨off, size⟩ := b
  simp only [Block.stop] at hb
  by_cases hw : bpv > 64
  · right
    constructor
    · simp only [decodeSimple64]
      generalize wmul off bpv / 8 = s
      generalize wsub (wadd (wmul (wadd off size) bpv) 7 / 8) s = e
      cases hr : fileRead64 mem file sec ⟨s, e⟩ with
      | error f =>
        cases f with
        | exn x => exact ⟨x, rfl⟩
        | ub => exact absurd hr (fileRead64_defined _ _ _ _)
      | ok enc => rw [ok_bind, unpackSimple64, if_pos hw]; exact ⟨_, rfl⟩
    · intro _ v hv
      simp only [decodeSimple] at hv
      cases hr : fileRead file sec ⟨off * bpv / 8, ((off + size) * bpv + 7) / 8 - off * bpv / 8⟩ with
      | error f => rw [hr] at hv; cases hv
      | ok enc => rw [hr, ok_bind, unpackSimple, if_pos hw] at hv; cases hv
  · have h1 : (off + size) * bpv ≤ N * 64 := Nat.mul_le_mul hb (by omega)
    have h2 : off * bpv ≤ (off + size) * bpv := Nat.mul_le_mul_right _ (by omega)
    have e1 : wmul off bpv = off * bpv := wmul_eq (by omega)
    have e2 : wadd off size = off + size := wadd_eq (by omega)
    have e3 : wmul (off + size) bpv = (off + size) * bpv := wmul_eq (by omega)
    have e4 : wadd ((off + size) * bpv) 7 = (off + size) * bpv + 7 := wadd_eq (by omega)
    simp only [decodeSimple64, decodeSimple, e1, e2, e3, e4]
    rw [wsub_eq _ _ (by omega) (by omega)]
    refine Follows.bind (fileRead64_follows hsec fun hP => (hmem hP).2) fun enc _ => ?_
    exact unpackSimple64_follows _ _ _ _ _ _ fun hP => by have := (hmem hP).1; omega

/-! ## CCSDS packing -/

theorem aecDecodeBlock64_follows {P : Prop} {mem N : Nat} (L : AecLib) (Q : AecParams) (sz : Nat) (offsets : List Nat)
    {file : List UInt8} {sec : Block} (hN : N < 2 ^ 58) (hsz : sz ≤ 4) (hsec : sec.off + sec.size < 2 ^ 63)
    (hoff : ∀ o ∈ offsets, o < 2 ^ 64)
    (hmem : P → 8 * N ≤ mem ∧ sec.size ≤ mem) (b : Block) (hb : b.stop ≤ N) :
    Follows P (aecDecodeBlock64 mem L Q sz offsets (fileRead64 mem file sec) sec.size b)
      (aecDecodeBlock L Q sz offsets (fileRead file sec) sec.size b) := by
  obtain ⟨off, size⟩ := b
  simp only [Block.stop] at hb
  have h1 : (off + size) * sz ≤ N * 4 := Nat.mul_le_mul hb hsz
  have h2 : (off + size) * sz = off * sz + size * sz := Nat.add_mul _ _ _
  have e1 : wmul off sz = off * sz := wmul_eq (by omega)
  have e2 : wmul size sz = size * sz := wmul_eq (by omega)
  have e3 : wadd (off * sz) (size * sz) = off * sz + size * sz := wadd_eq (by omega)
  unfold aecDecodeBlock64 aecDecodeBlock
  refine Follows.bind (Follows.refl _) fun _ _ => ?_
  refine Follows.bind (Follows.refl _) fun _ _ => ?_
  simp only [e1, e2, e3]
  refine Follows.alloc ?_ fun hP hc => by have := (hmem hP).1; omega
  split
  · exact Follows.refl _
  rename_i hz
  refine Follows.bind (Follows.refl _) fun _ _ => ?_
  refine Follows.bind (Follows.refl _) fun _ _ => ?_
  generalize Q.rsi * Q.blockSize * sampleBytes Q.bitsPerSample = rsi at *
  have hle : rsi * (off * sz / rsi) ≤ off * sz := Nat.mul_div_le _ _
  cases hst : offsets[off * sz / rsi]? with
  | none => exact Follows.refl _
  | some startBits =>
    have hs := hoff _ (List.mem_of_getElem? hst)
    rw [wsub_eq (off * sz) _ hle (by omega)]
    simp only
    have hend : (if (off * sz + size * sz) / rsi + 1 = offsets.length then sec.size
        else (offsets[(off * sz + size * sz) / rsi + 1]?.getD 0 + 7) / 8) < 2 ^ 63 := by
      split
      · omega
      · cases hx : offsets[(off * sz + size * sz) / rsi + 1]? with
        | none => simp
        | some o => have := hoff _ (List.mem_of_getElem? hx); simp only [Option.getD_some]; omega
    generalize (if (off * sz + size * sz) / rsi + 1 = offsets.length then sec.size
      else (offsets[(off * sz + size * sz) / rsi + 1]?.getD 0 + 7) / 8) = endByte at *
    refine Follows.bind (Follows.refl _) fun _ _ => ?_
    split
    · rename_i hlt
      right
      constructor
      · have hbig : startBits / 8 + wsub endByte (startBits / 8) > sec.size := by
          unfold wsub; omega
        generalize wsub endByte (startBits / 8) = k at *
        have hx : ∃ e, fileRead64 mem file sec ⟨startBits / 8, k⟩ = .error (.exn e) := by
          unfold fileRead64 alloc
          split
          · exact ⟨_, rfl⟩
          · rw [ok_bind]
            split
            · exact ⟨_, rfl⟩
            · split
              · exact ⟨_, rfl⟩
              · rw [fileRead, if_pos hbig]; exact ⟨_, rfl⟩
        obtain ⟨e, hx⟩ := hx
        rw [hx, error_bind]
        exact ⟨e, rfl⟩
      · intro _ v hv; cases hv
    · rename_i hge
      rw [wsub_eq endByte _ (by omega) (by omega)]
      exact Follows.bind (fileRead64_follows hsec fun hP => (hmem hP).2) fun enc _ => Follows.refl _

theorem sampleBytes_le {n : Nat} (h : sampleBytes n = 1 ∨ sampleBytes n = 2 ∨ sampleBytes n = 4) :
    sampleBytes n ≤ 4 := by omega

theorem decodeCcsds64_follows {V : Type} {P : Prop} {mem N : Nat} (L : AecLib) (be : Bool) (Q : AecParams)
    (offsets : List Nat) (scale : Nat → V) {file : List UInt8} {sec : Block} (hN : N < 2 ^ 58)
    (hsec : sec.off + sec.size < 2 ^ 63) (hoff : ∀ o ∈ offsets, o < 2 ^ 64)
    (hmem : P → 8 * N ≤ mem ∧ sec.size ≤ mem) (b : Block) (hb : b.stop ≤ N) :
    Follows P (decodeCcsds64 mem L be Q offsets scale (fileRead64 mem file sec) sec.size b)
      (decodeCcsds L be Q offsets scale (fileRead file sec) sec.size b) := by
  unfold decodeCcsds64 decodeCcsds
  split
  · exact Follows.refl _
  simp only
  split
  · rename_i hsz
    have hm : ∀ a : Res (List Nat), a.map (List.map scale) = a >>= fun xs => .ok (xs.map scale) := by
      intro a; cases a <;> rfl
    rw [hm]
    refine Follows.bind (aecDecodeBlock64_follows L _ _ offsets hN (by omega) hsec hoff hmem b hb) fun xs _ => ?_
    refine Follows.alloc (Follows.refl _) fun hP hc => ?_
    have := (hmem hP).1
    simp only [Block.stop] at hb
    omega
  · exact Follows.refl _

/-! ## The jumper -/

theorem readBitmap_length {file : List UInt8} {offset : Nat} {info : JumpInfo} {bm : List Bool}
    (h : readBitmap file offset info = .ok bm) : bm.length = info.numberOfDataPoints := by
  simp only [readBitmap] at h
  split at h
  · cases h; simp only [List.length_nil]; omega
  split at h
  · cases h; simp
  split at h
  · cases h
  · cases h; simp

theorem extract_follows {V : Type} {P : Prop} (A : Arith V) {rv64 rv : ReadValues V} {file : List UInt8}
    {offset : Nat} {info : JumpInfo} {is : List Interval} {N : Nat}
    (hr : ∀ js : List Interval, (∀ j ∈ js, j.b ≤ j.e ∧ j.e ≤ N) → Follows P (rv64 js) (rv js))
    (hi : info.offsetBeforeBitmap = 0 → ∀ i ∈ is, i.b ≤ i.e ∧ i.e ≤ N)
    (hb : info.offsetBeforeBitmap ≠ 0 → info.numberOfDataPoints ≤ N) :
    Follows P (extract A rv64 file offset info is) (extract A rv file offset info is) := by
  unfold extract
  refine Follows.bind (Follows.refl _) fun okI hok => ?_
  refine Follows.bind (Follows.refl _) fun _ hI => ?_
  refine Follows.bind (Follows.refl _) fun _ _ => ?_
  split
  · exact Follows.refl _
  split
  · rename_i h0
    exact Follows.bind (hr is (hi h0)) fun _ _ => Follows.refl _
  · rename_i h0
    unfold extractMasked
    refine Follows.bind (Follows.refl _) fun bm hbm => ?_
    have hlen := readBitmap_length hbm
    have hbN := hb h0
    refine Follows.bind (Follows.refl _) fun p hp => ?_
    obtain ⟨js, bms⟩ := p
    refine Follows.bind (hr js ?_) fun _ _ => Follows.refl _
    have ho : ordered is = true := by
      unfold checkIntervals at hok
      obtain ⟨_, _, hk⟩ := res_bind_inv hok
      cases hk
      unfold cassert at hI
      split at hI
      · assumption
      · cases hI
    have hne : is ≠ [] := by
      rintro rfl
      unfold calculateMaskedIntervals at hp
      rw [if_pos rfl] at hp
      cases hp
    have hin : ∀ i ∈ is, i.b ≤ i.e ∧ i.e ≤ bm.length := by
      unfold calculateMaskedIntervals at hp
      rw [if_neg hne] at hp
      obtain ⟨xs, hxs, _⟩ := res_bind_inv hp
      intro i him
      have hmem : ∀ (l : List Interval) (xs : List Ext), l.mapM (fun i => mkExt bm false i.b i.e) = .ok xs →
          ∀ i ∈ l, i.b ≤ i.e ∧ i.e ≤ bm.length := by
        intro l
        induction l with
        | nil => intro _ _ i hi; cases hi
        | cons a rest ih =>
          intro xs h i hi
          rw [List.mapM_cons] at h
          obtain ⟨x, hx, h⟩ := res_bind_inv h
          obtain ⟨ys, hys, _⟩ := res_bind_inv h
          rcases List.mem_cons.mp hi with rfl | hi
          · unfold mkExt at hx
            split at hx
            · assumption
            · cases hx
          · exact ih ys hys i hi
      exact hmem is xs hxs i him
    rw [maskedIntervals_spec bm is hne (ordered_chain _ _ ho hin)] at hp
    cases hp
    intro j hj
    obtain ⟨i, him, rfl⟩ := List.mem_map.mp hj
    have h1 := count_take_add bm true i.b i.e (hin i him).1
    have h2 := List.count_le_length (a := true) (l := bm.take i.e)
    rw [List.length_take] at h2
    simp only
    omega

theorem toRanges_stop {N : Nat} {js : List Interval} (hN : N < 2 ^ 64) (h : ∀ j ∈ js, j.b ≤ j.e ∧ j.e ≤ N) :
    ∀ r ∈ toRanges js, r.stop ≤ N := by
  intro r hr
  obtain ⟨j, hj, rfl⟩ := List.mem_map.mp hr
  have := h j hj
  show j.b + wsub j.e j.b ≤ N
  rw [wsub_eq _ _ this.1 (by omega)]
  omega

/-- Extraction on the machine follows extraction in natural numbers. -/
theorem machineExtract_follows {V : Type} {P : Prop} {mem N : Nat} {R : Reader V} {file : List UInt8} {offset : Nat}
    {info : Info} {is : List Interval} (hN : N < 2 ^ 58)
    (hs1 : info.base.offsetBeforeData ≤ info.base.offsetAfterData)
    (hs2 : offset + info.base.offsetAfterData < 2 ^ 63)
    (hoff : ∀ i x, info = .ccsds i x → ∀ o ∈ x.offsets, o < 2 ^ 64)
    (hi : info.base.offsetBeforeBitmap = 0 → ∀ i ∈ is, i.b ≤ i.e ∧ i.e ≤ N)
    (hb : info.base.offsetBeforeBitmap ≠ 0 → info.base.numberOfDataPoints ≤ N)
    (hmem : P → 8 * N ≤ mem ∧ info.base.offsetAfterData - info.base.offsetBeforeData ≤ mem) :
    Follows P (machineExtract mem R file offset info is) (jumperExtract R file offset info is) := by
  have hsec : (dataSection offset info.base).off + (dataSection offset info.base).size < 2 ^ 63 := by
    show offset + info.base.offsetBeforeData + (info.base.offsetAfterData - info.base.offsetBeforeData) < 2 ^ 63
    omega
  have hmem' : P → 8 * N ≤ mem ∧ (dataSection offset info.base).size ≤ mem := hmem
  unfold machineExtract jumperExtract
  split
  · refine extract_follows (N := N) R.simple ?_ hi hb
    intro js hjs
    cases info with
    | simple b =>
      have e : dataSection64 offset b = dataSection offset b := dataSection64_eq hs1 hs2
      unfold simpleReadValues64 simpleReadValues
      simp only [e]
      exact decodeRanges64_follows (by omega) (toRanges_stop (by omega) hjs) (fun hP => (hmem hP).1)
        (decodeSimple64_follows _ _ _ hN hsec hmem')
    | ccsds b x => exact Follows.refl _
    | unsupported b => exact Follows.refl _
  split
  · refine extract_follows (N := N) R.ccsds ?_ hi hb
    intro js hjs
    cases info with
    | ccsds b x =>
      have e : dataSection64 offset b = dataSection offset b := dataSection64_eq hs1 hs2
      unfold ccsdsReadValues64 ccsdsReadValues
      simp only [e]
      refine Follows.bind (Follows.refl _) fun _ _ => ?_
      exact decodeRanges64_follows (by omega) (toRanges_stop (by omega) hjs) (fun hP => (hmem hP).1)
        (decodeCcsds64_follows _ _ _ _ _ hN hsec (hoff b x rfl) hmem')
    | simple b => exact Follows.refl _
    | unsupported b => exact Follows.refl _
  · exact Follows.refl _

end GJ
