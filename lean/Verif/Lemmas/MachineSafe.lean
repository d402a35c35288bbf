import Verif.Lemmas.Machine

/-! Extraction in 64-bit arithmetic is defined for all forward intervals. -/

namespace GJ

/-- Not undefined, and a success satisfies `Q`. -/
def Safe {α : Type} (Q : α → Prop) (a : Res α) : Prop := a ≠ undef ∧ ∀ v, a = .ok v → Q v

section
variable {α β : Type} {Q : α → Prop} {T : β → Prop}

theorem Safe.ok {v : α} (h : Q v) : Safe Q (.ok v) := ⟨(by intro h; cases h), (by rintro _ ⟨⟩; exact h)⟩

theorem Safe.throw (e : Exn) : Safe Q (throwExn e : Res α) := ⟨(by intro h; cases h), (by intro v h; cases h)⟩

theorem Safe.bind {a : Res α} {f : α → Res β} (h : Safe Q a) (hf : ∀ x, Q x → Safe T (f x)) : Safe T (a >>= f) := by
  cases ha : a with
  | error e =>
    rw [error_bind]
    refine ⟨?_, by intro v h; cases h⟩
    intro hu
    cases hu
    exact h.1 ha
  | ok x => exact hf x (h.2 x ha)

theorem Safe.weaken {Q' : α → Prop} {a : Res α} (h : Safe Q a) (hq : ∀ v, Q v → Q' v) : Safe Q' a :=
  ⟨h.1, fun v hv => hq v (h.2 v hv)⟩

theorem Safe.and {Q' : α → Prop} {a : Res α} (h : Safe Q a) (h' : ∀ v, a = .ok v → Q' v) : Safe (fun v => Q v ∧ Q' v) a :=
  ⟨h.1, fun v hv => ⟨h.2 v hv, h' v hv⟩⟩

theorem Safe.map {a : Res α} {f : α → β} (h : Safe Q a) (hf : ∀ x, Q x → T (f x)) : Safe T (a.map f) := by
  cases ha : a with
  | error e =>
    refine ⟨?_, by intro v h; cases h⟩
    intro hu
    cases hu
    exact h.1 ha
  | ok x => exact Safe.ok (hf x (h.2 x ha))

/-- One result for each element, each as it should be. -/
theorem Safe.mapM {f : α → Res β} (S : α → β → Prop) : ∀ {l : List α}, (∀ x ∈ l, Safe (S x) (f x)) →
    Safe (fun out => out.length = l.length ∧ ∀ (j : Nat) x y, l[j]? = some x → out[j]? = some y → S x y) (l.mapM f) := by
  intro l
  induction l with
  | nil => intro _; exact Safe.ok ⟨rfl, by intro j x y h; simp at h⟩
  | cons a rest ih =>
    intro h
    rw [List.mapM_cons]
    refine Safe.bind (h a (by simp)) fun y hy => ?_
    refine Safe.bind (ih fun b hb => h b (by simp [hb])) fun ys hys => ?_
    refine Safe.ok ⟨by simp [hys.1], ?_⟩
    intro j x z hx hz
    cases j with
    | zero =>
      simp only [List.getElem?_cons_zero, Option.some.injEq] at hx hz
      subst hx; subst hz; exact hy
    | succ j =>
      simp only [List.getElem?_cons_succ] at hx hz
      exact hys.2 j x z hx hz

end

theorem Safe.cassert (c : Bool) : Safe (fun _ : Unit => c = true) (cassert c) := by
  unfold GJ.cassert
  split
  · rename_i h; exact Safe.ok h
  · exact Safe.throw _

theorem Safe.alloc (mem n : Nat) : Safe (fun _ : Unit => n ≤ mem) (alloc mem n) := by
  unfold GJ.alloc
  split
  · exact Safe.throw _
  · exact Safe.ok (by omega)

theorem Safe.validateBits (sz bps : Nat) : Safe (fun _ : Unit => validateBits sz bps = .ok ()) (validateBits sz bps) := by
  refine ⟨?_, fun v h => h⟩
  unfold GJ.validateBits
  repeat' split
  all_goals (intro h; cases h)

/-- A read gives the bytes asked for, and they fit in memory. -/
theorem fileRead64_safe (mem : Nat) (file : List UInt8) (sec r : Block) :
    Safe (fun bytes => bytes.length = r.size ∧ r.size ≤ mem) (fileRead64 mem file sec r) := by
  unfold fileRead64
  refine Safe.bind (Safe.alloc _ _) fun _ hm => ?_
  split
  · exact Safe.throw _
  split
  · exact Safe.throw _
  unfold fileRead
  split
  · exact Safe.throw _
  simp only
  split
  · rename_i h; exact Safe.ok ⟨h, hm⟩
  · exact Safe.throw _

/-- Unpacking needs as many bits as the values have. -/
theorem unpackSimple64_safe {V : Type} {mem : Nat} (scale : Nat → V) (ref : V) (bpv n : Nat) (enc : List UInt8) (bitp : Nat)
    (h8 : bitp < 8) (h : bpv ≤ 64 → n ≠ 0 → bpv ≠ 0 → 8 * n ≤ mem → bitp + n * bpv ≤ 8 * enc.length) :
    Safe (fun v => v.length = n) (unpackSimple64 mem scale ref bpv n enc bitp) := by
  unfold unpackSimple64
  split
  · exact Safe.throw _
  split
  · rename_i hz; exact Safe.ok (by simp [hz])
  rename_i hw hz
  refine Safe.bind (Safe.alloc _ _) fun _ hm => ?_
  unfold unpackSimple
  rw [if_neg hw, if_neg hz]
  split
  · exact Safe.ok (by simp)
  · rename_i hb
    have hlen := h (by omega) hz hb hm
    unfold decodeArray
    split
    · rename_i h8'
      have e8 : 8 * (n * (bpv / 8)) = n * bpv := by
        rw [Nat.mul_comm 8, Nat.mul_assoc]; congr 1; omega
      rw [decodeWhole_ok _ (bpv / 8) (by omega) (by omega) n 0 (by omega)]
      exact Safe.ok (by simp)
    · have e1 : 8 * (bitp / 8) + 8 - (8 - bitp % 8) = bitp := by omega
      rw [decodeBits_ok _ bpv (by omega) n _ _ (by omega) (by omega) (by rw [e1]; exact hlen)]
      exact Safe.ok (by simp)

/-- The bytes read hold all the bits, or the read failed. -/
theorem bits_enough {mem B n bpv : Nat} (hmem : mem ≤ 2 ^ 60) (hB : B < 2 ^ 64) (hw : bpv ≤ 64) (hn : 8 * n ≤ mem)
    (hr : wsub (wadd ((B + n * bpv) % 2 ^ 64) 7 / 8) (B / 8) ≤ mem) :
    B % 8 + n * bpv ≤ 8 * wsub (wadd ((B + n * bpv) % 2 ^ 64) 7 / 8) (B / 8) := by
  have hnb : n * bpv ≤ n * 64 := Nat.mul_le_mul_left _ hw
  generalize n * bpv = k at *
  unfold wsub wadd at *
  omega

theorem wmul_lt (x y : Nat) : wmul x y < 2 ^ 64 := by
  unfold wmul; exact Nat.mod_lt _ (by decide)

theorem wmul_wadd (x y z : Nat) : wmul (wadd x y) z = (wmul x z + y * z) % 2 ^ 64 := by
  unfold wmul wadd
  generalize 2 ^ 64 = M
  rw [Nat.mod_mul_mod, Nat.mod_add_mod, Nat.add_mul]

theorem decodeSimple64_safe {V : Type} {mem : Nat} (scale : Nat → V) (ref : V) (bpv : Nat) (file : List UInt8) (sec : Block)
    (hmem : mem ≤ 2 ^ 60) (b : Block) :
    Safe (fun v => v.length = b.size) (decodeSimple64 mem scale ref bpv (fileRead64 mem file sec) b) := by
  unfold decodeSimple64
  simp only
  refine Safe.bind (fileRead64_safe _ _ _ _) fun enc henc => ?_
  refine unpackSimple64_safe _ _ _ _ _ _ (Nat.mod_lt _ (by omega)) fun hw _ _ hn => ?_
  obtain ⟨h1, h2⟩ := henc
  simp only [wmul_wadd] at h1 h2
  have h := bits_enough hmem (wmul_lt b.off bpv) hw hn h2
  rw [← h1] at h
  exact h

theorem aecDecodeRange_safe {L : AecLib} (C : AecContract L) (Q : AecParams) (enc : List UInt8) (offs : List Nat)
    (pos n sz : Nat) (hpos : 0 < sz) (hl : libBytes Q = sz) :
    Safe (fun v => v.length = n) (aecDecodeRange L Q enc offs pos (n * sz)) := by
  unfold aecDecodeRange
  simp only
  split
  · exact Safe.throw _
  · split
    · exact Safe.throw _
    · rename_i hx
      refine Safe.ok ?_
      have hlen := (aecSeq_size C _ hx).1
      rw [List.length_drop, hlen, hl, Nat.mul_div_cancel _ hpos, Nat.add_sub_cancel_left]

theorem aecDecodeBlock64_safe {mem : Nat} {L : AecLib} (C : AecContract L) (Q : AecParams) (be : Bool)
    (offsets : List Nat) (file : List UInt8) (sec : Block) (eof : Nat) (hmem : mem ≤ 2 ^ 60) (b : Block)
    (hrsi : Q.rsi * Q.blockSize ≠ 0)
    (hsz : sampleBytes Q.bitsPerSample = 1 ∨ sampleBytes Q.bitsPerSample = 2 ∨ sampleBytes Q.bitsPerSample = 4) :
    Safe (fun v => v.length = b.size)
      (aecDecodeBlock64 mem L { Q with flags := modifyFlags be Q.flags } (sampleBytes Q.bitsPerSample) offsets
        (fileRead64 mem file sec) eof b) := by
  unfold aecDecodeBlock64
  refine Safe.bind (Safe.validateBits _ _) fun _ hv => ?_
  refine Safe.bind (Safe.cassert _) fun _ _ => ?_
  simp only
  refine Safe.bind (Safe.alloc _ _) fun _ hm => ?_
  have hpos : 0 < sampleBytes Q.bitsPerSample := by omega
  have hn : wmul b.size (sampleBytes Q.bitsPerSample) = b.size * sampleBytes Q.bitsPerSample :=
    wmul_eq (Nat.lt_of_le_of_lt (Nat.le_trans hm hmem) (by decide))
  have hl := (validate_ok (P := Q) (be := be) ⟨hsz, hv⟩).2
  rw [if_neg (Nat.mul_ne_zero hrsi (by omega)), hn]
  generalize wmul b.off (sampleBytes Q.bitsPerSample) = ob
  generalize wadd ob (b.size * sampleBytes Q.bitsPerSample) = eb
  generalize Q.rsi * Q.blockSize * sampleBytes Q.bitsPerSample = rb
  refine Safe.bind (Safe.cassert _) fun _ h1 => ?_
  refine Safe.bind (Safe.cassert _) fun _ h2 => ?_
  have h1 := of_decide_eq_true h1
  have h2 := of_decide_eq_true h2
  generalize wsub ob (rb * (ob / rb)) = pos
  cases hs : offsets[ob / rb]? with
  | none =>
    rw [List.getElem?_eq_none_iff] at hs
    omega
  | some sb =>
    simp only
    generalize (if eb / rb + 1 = offsets.length then eof else (offsets[eb / rb + 1]?.getD 0 + 7) / 8) = endByte
    generalize wsub endByte (sb / 8) = k
    refine Safe.bind (Safe.cassert _) fun _ _ => ?_
    refine Safe.bind (fileRead64_safe _ _ _ _) fun enc _ => ?_
    exact aecDecodeRange_safe C _ _ _ _ _ _ hpos hl

theorem decodeCcsds64_safe {V : Type} {mem : Nat} {L : AecLib} (C : AecContract L) (be : Bool) (Q : AecParams)
    (offsets : List Nat) (scale : Nat → V) (file : List UInt8) (sec : Block) (eof : Nat) (hmem : mem ≤ 2 ^ 60)
    (hrsi : Q.rsi * Q.blockSize ≠ 0) (b : Block) :
    Safe (fun v => v.length = b.size)
      (decodeCcsds64 mem L be Q offsets scale (fileRead64 mem file sec) eof b) := by
  unfold decodeCcsds64
  split
  · rename_i h; exact Safe.ok (by simp [h])
  simp only
  split
  · rename_i hsz
    refine Safe.bind (aecDecodeBlock64_safe C Q be offsets file sec eof hmem b hrsi hsz) fun xs hxs => ?_
    exact Safe.bind (Safe.alloc _ _) fun _ _ => Safe.ok (by simp [hxs])
  · exact Safe.throw _

/-! ## Lists of ranges -/

theorem decodeRanges64_safe {α : Type} {mem N : Nat} {dec : Block → Res (List α)} {rs : List Block} (hN : N < 2 ^ 64)
    (hr : ∀ r ∈ rs, r.stop ≤ N) (hd : ∀ b : Block, Safe (fun v => v.length = b.size) (dec b)) :
    Safe (fun out => out.length = rs.length ∧
      ∀ (j : Nat) r v, rs[j]? = some r → out[j]? = some v → v.length = r.size) (decodeRanges64 mem dec rs) := by
  unfold decodeRanges64
  rw [bucketsOf64_eq N hN hr]
  cases hm : decodeBuckets dec (bucketsOf rs) [] with
  | error f =>
    obtain ⟨b, _, hb⟩ := decodeBuckets_error dec _ _ _ hm
    rw [error_bind]
    refine ⟨?_, by intro v h; cases h⟩
    intro hu
    cases hu
    exact (hd b.block).1 hb
  | ok m =>
    rw [ok_bind]
    refine Safe.mapM (fun (r : Block) (v : List α) => v.length = r.size) fun r hrm => ?_
    have inv := bucketsOf_inv rs
    obtain ⟨h1, _, h3, _⟩ := decodeBuckets_mem dec _ _ _ hm
    obtain ⟨b, hb, hrb⟩ := List.mem_flatMap.mp (inv.perm.mem_iff.mpr hrm)
    obtain ⟨e, he, her⟩ := h3 b hb r hrb
    have hsome : (m.find? fun e => e.1 == r).isSome := by
      rw [List.find?_isSome]; exact ⟨e, he, by simp [her]⟩
    obtain ⟨⟨k, bk, d⟩, hf⟩ := Option.isSome_iff_exists.mp hsome
    have hk : k = r := by simpa using List.find?_some hf
    subst hk
    rcases h1 _ (List.mem_of_find?_eq_some hf) with h | ⟨c, hc, hkc, hbk, hdc⟩
    · simp at h
    · simp only at hkc hbk hdc
      subst hbk
      have hl := (hd c.block).2 d hdc
      obtain ⟨i1, i2⟩ := inv.inside c hc k hkc
      simp only [Block.stop] at i2
      unfold sliceUser64 sliceUser
      rw [hf]
      simp only
      rw [if_pos (by omega), ok_bind]
      refine Safe.bind (Safe.alloc _ _) fun _ _ => Safe.ok ?_
      rw [List.length_take, List.length_drop]
      omega

/-! ## The jumper -/

/-- Values for every interval, as many as it has points. -/
def Lengths {V : Type} (is : List Interval) (out : List (List V)) : Prop :=
  out.length = is.length ∧ ∀ (j : Nat) i v, is[j]? = some i → out[j]? = some v → v.length = i.e - i.b

theorem mkVector_safe {α : Type} (n : Nat) (x : α) : Safe (fun v => v.length = n) (mkVector n x) := by
  unfold mkVector
  split
  · exact Safe.throw _
  · exact Safe.ok (by simp)

theorem readBitmap_safe (file : List UInt8) (offset : Nat) (info : JumpInfo) :
    Safe (fun bm => bm.length = info.numberOfDataPoints) (readBitmap file offset info) := by
  refine ⟨?_, fun v hv => readBitmap_length hv⟩
  unfold readBitmap
  simp only
  repeat' split
  all_goals (intro h; cases h)

theorem checkIntervals_safe (is : List Interval) :
    Safe (fun b => b = ordered is ∧ is ≠ []) (checkIntervals is) := by
  unfold checkIntervals
  refine Safe.bind (Safe.cassert _) fun _ h => Safe.ok ⟨rfl, ?_⟩
  have := of_decide_eq_true h
  intro he
  rw [he] at this
  simp at this

theorem extract_safe {V : Type} (A : Arith V) {rv : ReadValues V} {file : List UInt8}
    {offset : Nat} {info : JumpInfo} {is : List Interval}
    (hr : ∀ js : List Interval, (∀ j ∈ js, j.b ≤ j.e ∧ j.e < 2 ^ 64) → Safe (Lengths js) (rv js))
    (hi : ∀ i ∈ is, i.b ≤ i.e ∧ i.e < 2 ^ 64)
    (hb : info.bitsPerValue ≠ 0 → info.offsetBeforeBitmap ≠ 0 → ∀ i ∈ is, i.e ≤ info.numberOfDataPoints) :
    Safe (fun r => Lengths is r.values) (extract A rv file offset info is) := by
  have hw : ∀ (j : Nat) i, is[j]? = some i → wsub i.e i.b = i.e - i.b := by
    intro j i hj
    have := hi i (List.mem_of_getElem? hj)
    exact wsub_eq _ _ this.1 this.2
  have hmask : Safe (fun _ : List (List Nat) => True)
      (is.mapM fun i => do let bm ← mkVector (wsub i.e i.b) true; .ok (toBitset bm)) := by
    refine (Safe.mapM (fun _ _ => True) fun i _ => ?_).weaken fun _ _ => trivial
    exact Safe.bind (mkVector_safe _ _) fun _ _ => Safe.ok trivial
  unfold extract
  refine Safe.bind (checkIntervals_safe is) fun okI hok => ?_
  refine Safe.bind (Safe.cassert _) fun _ hI => ?_
  refine Safe.bind (Safe.cassert _) fun _ _ => ?_
  split
  · unfold extractConstant
    refine Safe.bind (Safe.mapM (fun (i : Interval) (v : List V) => v.length = wsub i.e i.b) fun i _ => mkVector_safe _ _)
      fun vs hvs => ?_
    refine Safe.bind hmask fun _ _ => Safe.ok ⟨hvs.1, ?_⟩
    intro j i v hj hv
    rw [hvs.2 j i v hj hv, hw j i hj]
  rename_i hbpv
  split
  · unfold extractNoMask
    refine Safe.bind (hr is hi) fun vs hvs => ?_
    exact Safe.bind hmask fun _ _ => Safe.ok hvs
  · rename_i h0
    unfold extractMasked
    refine Safe.bind (readBitmap_safe _ _ _) fun bm hbm => ?_
    have hin : ∀ i ∈ is, i.b ≤ i.e ∧ i.e ≤ bm.length := by
      intro i him
      have := hb hbpv h0 i him
      exact ⟨(hi i him).1, by omega⟩
    rw [maskedIntervals_spec bm is hok.2 (ordered_chain _ _ (by rw [← hok.1]; exact hI) hin), ok_bind]
    simp only
    have hcnt : ∀ i ∈ is, (bm.take i.b).count true ≤ (bm.take i.e).count true ∧
        (bm.take i.e).count true ≤ i.e ∧
        (bm.take i.e).count true - (bm.take i.b).count true = ((bm.drop i.b).take (i.e - i.b)).count true := by
      intro i him
      have h1 := count_take_add bm true i.b i.e (hin i him).1
      have h2 := List.count_le_length (a := true) (l := bm.take i.e)
      rw [List.length_take] at h2
      omega
    refine Safe.bind (hr _ ?_) fun vs hvs => ?_
    · intro j hj
      obtain ⟨i, him, rfl⟩ := List.mem_map.mp hj
      have h1 := hcnt i him
      have h2 := hi i him
      exact ⟨h1.1, by simp only; omega⟩
    · have hlen : vs.length = is.length := by have := hvs.1; simpa using this
      rw [placeAll_ok]
      · rw [ok_bind]
        refine Safe.ok ⟨by simp [hlen], ?_⟩
        intro j i v hj hv
        simp only [List.getElem?_map, List.zip, List.getElem?_zipWith, hj, Option.map_some] at hv
        cases hvj : vs[j]? with
        | none => rw [hvj] at hv; cases hv
        | some w =>
          rw [hvj] at hv
          cases hv
          have him := List.mem_of_getElem? hj
          have hwl := hvs.2 j ⟨(bm.take i.b).count true, (bm.take i.e).count true⟩ w (by simp [hj]) hvj
          simp only at hwl
          have h3 := hcnt i him
          simp only
          rw [spread_length _ _ _ (by omega), List.length_take, List.length_drop]
          have := hin i him
          omega
      · simp [hlen]
      · intro p hp
        obtain ⟨j, hj⟩ := List.getElem?_of_mem hp
        simp only [List.zip, List.getElem?_zipWith, List.getElem?_map] at hj
        cases hij : is[j]? with
        | none => rw [hij] at hj; cases hj
        | some i =>
          cases hvj : vs[j]? with
          | none => rw [hij, hvj] at hj; cases hj
          | some w =>
            rw [hij, hvj] at hj
            cases hj
            have hwl := hvs.2 j ⟨(bm.take i.b).count true, (bm.take i.e).count true⟩ w (by simp [hij]) hvj
            have h3 := hcnt i (List.mem_of_getElem? hij)
            simp only at hwl ⊢
            omega

theorem toRanges_lengths {V : Type} {js : List Interval} (h : ∀ j ∈ js, j.b ≤ j.e ∧ j.e < 2 ^ 64)
    {out : List (List V)} (ho : out.length = (toRanges js).length ∧
      ∀ (j : Nat) r v, (toRanges js)[j]? = some r → out[j]? = some v → v.length = r.size) : Lengths js out := by
  refine ⟨by simpa [toRanges] using ho.1, ?_⟩
  intro j i v hj hv
  have h1 := ho.2 j ⟨i.b, wsub i.e i.b⟩ v (by simp [toRanges, hj]) hv
  have h2 := h i (List.mem_of_getElem? hj)
  rw [h1]
  exact wsub_eq _ _ h2.1 h2.2

/-- Extraction on the machine is defined and returns as many values as were asked for. -/
theorem machineExtract_safe {V : Type} {mem : Nat} {R : Reader V} (C : AecContract R.lib) {file : List UInt8} {offset : Nat}
    {info : Info} {is : List Interval} (hmem : mem ≤ 2 ^ 60)
    (hrsi : ∀ i x, info = .ccsds i x → x.rsi * x.blockSize ≠ 0)
    (hi : ∀ i ∈ is, i.b ≤ i.e ∧ i.e < 2 ^ 64)
    (hb : info.base.bitsPerValue ≠ 0 → info.base.offsetBeforeBitmap ≠ 0 → ∀ i ∈ is, i.e ≤ info.base.numberOfDataPoints) :
    Safe (fun r => Lengths is r.values) (machineExtract mem R file offset info is) := by
  have hst : ∀ js : List Interval, (∀ j ∈ js, j.b ≤ j.e ∧ j.e < 2 ^ 64) → ∀ r ∈ toRanges js, r.stop ≤ 2 ^ 64 - 1 :=
    fun js hjs => toRanges_stop (by decide) fun j hj => ⟨(hjs j hj).1, by have := (hjs j hj).2; omega⟩
  unfold machineExtract
  split
  · refine extract_safe R.simple ?_ hi hb
    intro js hjs
    cases info with
    | simple b =>
      unfold simpleReadValues64
      exact (decodeRanges64_safe (by decide) (hst js hjs) (decodeSimple64_safe _ _ _ _ _ hmem)).weaken
        fun _ h => toRanges_lengths hjs h
    | ccsds b x => exact Safe.throw _
    | unsupported b => exact Safe.throw _
  split
  · refine extract_safe R.ccsds ?_ hi hb
    intro js hjs
    cases info with
    | ccsds b x =>
      unfold ccsdsReadValues64
      refine Safe.bind (Safe.cassert _) fun _ _ => ?_
      exact (decodeRanges64_safe (by decide) (hst js hjs)
        (decodeCcsds64_safe C _ _ _ _ _ _ _ hmem (hrsi b x rfl))).weaken fun _ h => toRanges_lengths hjs h
    | simple b => exact Safe.throw _
    | unsupported b => exact Safe.throw _
  · exact Safe.throw _

end GJ
