import Verif.Lemmas.Aec
import Verif.Props.C01

/-!
# C06: partial decoding of CCSDS-packed fields
-/

namespace GJ
open Spec

/-- Widths that pass the checks of the decompressor, with the sample size gribjump and libaec both use. -/
theorem validate_ok {P : AecParams} {be : Bool}
    (h : (sampleBytes P.bitsPerSample = 1 ∨ sampleBytes P.bitsPerSample = 2 ∨ sampleBytes P.bitsPerSample = 4) ∧
      validateBits (sampleBytes P.bitsPerSample) P.bitsPerSample = .ok ()) :
    0 < sampleBytes P.bitsPerSample ∧
      libBytes { P with flags := modifyFlags be P.flags } = sampleBytes P.bitsPerSample := by
  have hf : (modifyFlags be P.flags).testBit 1 = false := by
    unfold modifyFlags
    cases be <;> simp [Nat.testBit_xor, Nat.testBit_and, Nat.testBit_or] <;>
      rw [show (2 : Nat).testBit 1 = true from by decide, show (4 : Nat).testBit 1 = false from by decide] <;> simp
  refine ⟨by omega, ?_⟩
  unfold libBytes
  rw [hf]
  have h1 := h.1
  unfold sampleBytes at h1 ⊢
  simp only [Bool.false_eq_true, if_false] at h1 ⊢
  repeat' split
  all_goals (try split at h1) <;> omega

/-- Whole-field decoding, read off the model. -/
theorem decodeCcsdsAll_inv {V : Type} {L : AecLib} {be : Bool} {P : AecParams} {scale : Nat → V} {N : Nat}
    {sec : List UInt8} {field : List V} (h : decodeCcsdsAll L be P scale N sec = .ok field) :
    ((sampleBytes P.bitsPerSample = 1 ∨ sampleBytes P.bitsPerSample = 2 ∨ sampleBytes P.bitsPerSample = 4) ∧
      validateBits (sampleBytes P.bitsPerSample) P.bitsPerSample = .ok ()) ∧
    ∃ xs e, aecSeq L { P with flags := modifyFlags be P.flags } (bitsOf sec) 0 N = some (xs, e) ∧
      field = xs.map scale := by
  unfold decodeCcsdsAll at h
  simp only at h
  split at h
  · rename_i hsz
    cases hv : validateBits (sampleBytes P.bitsPerSample) P.bitsPerSample with
    | error f => rw [hv, error_bind] at h; cases h
    | ok u =>
      rw [hv, ok_bind] at h
      refine ⟨⟨hsz, rfl⟩, ?_⟩
      split at h
      · cases h
      · rename_i xs e hx
        cases h
        exact ⟨xs, e, hx, rfl⟩
  · cases h

/-- Offsets recorded at index time, read off the model. -/
theorem ccsdsDecodeOffsets_inv {L : AecLib} {be tail : Bool} {P : AecParams} {N : Nat}
    {sec : List UInt8} {offsets : List Nat} (h : ccsdsDecodeOffsets L be tail P N sec = .ok offsets) :
    offsets = aecOffsets L { P with flags := modifyFlags be P.flags } tail (bitsOf sec) 0 N := by
  unfold ccsdsDecodeOffsets at h
  simp only at h
  split at h
  · cases hv : validateBits (sampleBytes P.bitsPerSample) P.bitsPerSample with
    | error f => rw [hv, error_bind] at h; cases h
    | ok u =>
      rw [hv, ok_bind] at h
      split at h
      · cases h
      · cases h; rfl
  · cases h

theorem mul_div_mul_right' (a b c : Nat) (h : 0 < c) : a * c / (b * c) = a / b :=
  Nat.mul_div_mul_right a b h

/-- The window holds the bits that the decoder uses. -/
theorem window_bits (sec : List UInt8) (q endByte w : Nat) (h : q + w ≤ 8 * endByte) (hs : endByte ≤ sec.length) :
    ((bitsOf (slice sec (q / 8) (endByte - q / 8))).drop (q % 8)).take w = ((bitsOf sec).drop q).take w ∧
    w ≤ ((bitsOf (slice sec (q / 8) (endByte - q / 8))).drop (q % 8)).length := by
  constructor
  · rw [bitsOf_slice]
    unfold slice
    rw [List.drop_take, List.take_take, List.drop_drop]
    congr 1
    · omega
    · congr 1
      omega
  · rw [List.length_drop, bitsOf_length, slice_length _ _ _ (by omega)]
    omega

/-- C06.  Take a data section that decodes as a whole to `field`, and the block offsets recorded when it was
indexed.  Then decoding any non-empty range inside the field from the recorded offsets and an accessor for the
section gives the slice of `field`.  Missing from the full property: when the offset behind the last block is not
recorded (`tail = false`), a range that ends at the end of a field made of full blocks, for which it is
false, see `C06_last_block_rejected`. -/
theorem C06_ccsds_range_is_slice_partial {V : Type} (L : AecLib) (C : AecContract L) (be tail : Bool)
    (P : AecParams) (scale : Nat → V) (N : Nat) (sec : List UInt8) (field : List V) (offsets : List Nat)
    (whole : decodeCcsdsAll L be P scale N sec = .ok field)
    (index : ccsdsDecodeOffsets L be tail P N sec = .ok offsets)
    (read : Block → Res (List UInt8))
    (hread : ∀ b, b.off + b.size ≤ sec.length → read b = .ok (slice sec b.off b.size))
    (o n : Nat) (inside : o + n ≤ N)
    (edge : tail = true ∨ o + n < N ∨ N % (P.rsi * P.blockSize) ≠ 0) :
    decodeCcsds L be P offsets scale read sec.length ⟨o, n⟩ = .ok (slice field o n) := by
  obtain ⟨hval, xs, e, hx, rfl⟩ := decodeCcsdsAll_inv whole
  obtain ⟨hb, hlib⟩ := validate_ok (be := be) hval
  have hoff := ccsdsDecodeOffsets_inv index
  unfold decodeCcsds
  simp only
  by_cases hn : n = 0
  · subst hn
    rw [if_pos rfl]
    simp [slice]
  · rw [if_neg hn, if_pos hval.1]
    generalize hQ : ({ P with flags := modifyFlags be P.flags } : AecParams) = Q at hx hlib hoff ⊢
    have hSP : Q.perRsi = P.rsi * P.blockSize := by rw [← hQ]; rfl
    have hr : Q.rsi * Q.blockSize = Q.perRsi := rfl
    have hbps : Q.bitsPerSample = P.bitsPerSample := by rw [← hQ]
    have hS0 : Q.perRsi ≠ 0 := (aecSeq_step (by omega) hx).1
    rw [← hSP] at edge
    have hS : 0 < Q.perRsi := Nat.pos_of_ne_zero hS0
    generalize hb' : sampleBytes P.bitsPerSample = b at hval hb hlib
    obtain ⟨hxl, -, hel⟩ := aecSeq_size C _ hx
    have hel := hel (Nat.zero_le _)
    rw [bitsOf_length] at hel
    obtain ⟨hlen, hoffs⟩ := aecOffsets_spec C tail hS N hx
    rw [← hoff] at hlen hoffs
    -- index arithmetic
    have d1 : Q.perRsi * (o / Q.perRsi) + o % Q.perRsi = o := Nat.div_add_mod o _
    have dlt : o % Q.perRsi < Q.perRsi := Nat.mod_lt _ hS
    have hst : o * b / (Q.perRsi * b) = o / Q.perRsi := mul_div_mul_right' _ _ _ hb
    have hen : (o * b + n * b) / (Q.perRsi * b) = (o + n) / Q.perRsi := by
      rw [← Nat.add_mul]; exact mul_div_mul_right' _ _ _ hb
    have hendlen : (o + n) / Q.perRsi + 1 ≤ offsets.length := by
      rw [hlen, rsiCount]
      split
      · have := Nat.div_le_div_right (c := Q.perRsi) inside
        omega
      · rename_i ht
        rcases edge with h | h | h
        · exact absurd h ht
        · have := Nat.div_le_div_right (c := Q.perRsi) (show o + n ≤ N - 1 by omega)
          omega
        · have h1 := Nat.div_le_div_right (c := Q.perRsi) inside
          have h2 : N / Q.perRsi = (N - 1) / Q.perRsi := by
            have e1 := Nat.div_add_mod N Q.perRsi
            have hm : N % Q.perRsi < Q.perRsi := Nat.mod_lt _ hS
            symm
            apply Nat.div_eq_of_lt_le
            · rw [Nat.mul_comm]; omega
            · rw [Nat.add_mul, Nat.one_mul, Nat.mul_comm]; omega
          omega
    have hstart : o / Q.perRsi < offsets.length := by
      have := Nat.div_le_div_right (c := Q.perRsi) (show o ≤ o + n by omega)
      omega
    obtain ⟨q, hq⟩ : ∃ q, offsets[o / Q.perRsi]? = some q := ⟨_, List.getElem?_eq_getElem hstart⟩
    obtain ⟨hiN, hqseq⟩ := hoffs _ _ hq
    -- decoding from the start of the range's first block
    have hx' : aecSeq L Q (bitsOf sec) 0 (o / Q.perRsi * Q.perRsi + (N - o / Q.perRsi * Q.perRsi)) = some (xs, e) := by
      rw [show o / Q.perRsi * Q.perRsi + (N - o / Q.perRsi * Q.perRsi) = N from by omega]; exact hx
    obtain ⟨mid, hm1, hm2⟩ := aecSeq_split C _ _ hx'
    rw [hm1] at hqseq
    have hqm : mid = q := (Prod.mk.inj (Option.some.inj hqseq)).2
    subst hqm
    have hcomm : o / Q.perRsi * Q.perRsi = Q.perRsi * (o / Q.perRsi) := Nat.mul_comm _ _
    obtain ⟨e', he', hpre⟩ := aecSeq_prefix C _ hm2 (o % Q.perRsi + n) (by omega)
    obtain ⟨-, hqe, -⟩ := aecSeq_size C _ hpre
    -- the end of the window
    let endByte := if (o + n) / Q.perRsi + 1 = offsets.length then sec.length
      else (offsets[(o + n) / Q.perRsi + 1]?.getD 0 + 7) / 8
    have hwin : e' ≤ 8 * endByte ∧ endByte ≤ sec.length := by
      simp only [endByte]
      split
      · exact ⟨by omega, Nat.le_refl _⟩
      · rename_i hne
        obtain ⟨q2, hq2⟩ : ∃ q2, offsets[(o + n) / Q.perRsi + 1]? = some q2 :=
          ⟨_, List.getElem?_eq_getElem (by omega)⟩
        rw [hq2]
        obtain ⟨hjN, hjseq⟩ := hoffs _ _ hq2
        have hle : o / Q.perRsi ≤ (o + n) / Q.perRsi := Nat.div_le_div_right (by omega)
        obtain ⟨d, hd⟩ : ∃ d, (o + n) / Q.perRsi + 1 = o / Q.perRsi + d :=
          ⟨(o + n) / Q.perRsi + 1 - o / Q.perRsi, by omega⟩
        rw [hd, Nat.add_mul] at hjseq
        obtain ⟨mid2, hs1, hs2⟩ := aecSeq_split C _ _ hjseq
        rw [hm1] at hs1
        have hmm : mid2 = mid := (Prod.mk.inj (Option.some.inj hs1)).2.symm
        rw [hmm] at hs2
        have hbig : o % Q.perRsi + n ≤ d * Q.perRsi := by
          have := Nat.div_add_mod (o + n) Q.perRsi
          have hmo : (o + n) % Q.perRsi < Q.perRsi := Nat.mod_lt _ hS
          have h2 := congrArg (Q.perRsi * ·) hd
          simp only [Nat.mul_add, Nat.mul_one] at h2
          rw [Nat.mul_comm d]
          omega
        obtain ⟨e2, he2, hp2⟩ := aecSeq_prefix C _ hs2 _ hbig
        rw [hpre] at hp2
        have hee : e2 = e' := (Prod.mk.inj (Option.some.inj hp2)).2.symm
        have hq2len : q2 ≤ 8 * sec.length := by
          rw [← bitsOf_length]; exact (aecSeq_size C _ hjseq).2.2 (Nat.zero_le _)
        simp only [Option.getD_some]
        omega
    obtain ⟨hbits, hbitlen⟩ := window_bits sec mid endByte (e' - mid) (by omega) hwin.2
    have hdec := aecSeq_window C _ hpre (p' := mid % 8) (Nat.mod_mod _ _) hbitlen hbits
    -- run the program
    unfold aecDecodeBlock
    rw [hbps, hb', hval.2, ok_bind]
    have hne : (!offsets.isEmpty) = true := by
      cases offsets with
      | nil => cases hq
      | cons => rfl
    rw [cassert_of hne, ok_bind, hr, if_neg (by
      intro h0
      rcases Nat.mul_eq_zero.mp h0 with h | h <;> omega)]
    rw [hst, hen]
    simp only
    rw [cassert_of (decide_eq_true (by
      have := Nat.div_le_div_right (c := Q.perRsi) (show o ≤ o + n by omega)
      omega)), ok_bind, cassert_of (decide_eq_true hendlen), ok_bind, hq]
    simp only
    have hne2 : (!(List.map (fun x => x - mid >>> 3 <<< 3) (offsets.drop (o / Q.perRsi))).isEmpty) = true := by
      rw [List.isEmpty_map]
      cases hd : offsets.drop (o / Q.perRsi) with
      | nil =>
        have := congrArg List.length hd
        rw [List.length_drop, List.length_nil] at this
        omega
      | cons => rfl
    rw [cassert_of hne2, ok_bind]
    have hsb : ¬ endByte < mid / 8 := by omega
    rw [if_neg hsb, hread _ (by simp only; omega), ok_bind]
    unfold aecDecodeRange
    rw [hlib]
    have hpos : o * b - Q.perRsi * b * (o / Q.perRsi) = o % Q.perRsi * b := by
      rw [Nat.mul_right_comm, ← Nat.sub_mul]
      congr 1
      omega
    have hz : o % Q.perRsi * b / (Q.perRsi * b) = 0 := by
      rw [mul_div_mul_right' _ _ _ hb, Nat.div_eq_of_lt dlt]
    simp only
    rw [hpos, hz, Nat.zero_mul, Nat.sub_zero, Nat.mul_div_cancel _ hb, Nat.mul_div_cancel _ hb]
    have hfirst : (List.map (fun x => x - mid >>> 3 <<< 3) (offsets.drop (o / Q.perRsi)))[0]? = some (mid % 8) := by
      rw [List.getElem?_map, List.getElem?_drop, Nat.add_zero, hq, Option.map_some, Nat.shiftRight_eq_div_pow,
        Nat.shiftLeft_eq]
      congr 1
      omega
    rw [hfirst]
    simp only
    rw [hdec]
    simp only [Except.map]
    congr 1
    rw [List.drop_take, List.drop_drop, Nat.add_sub_cancel_left, slice, ← List.map_drop, ← List.map_take]
    congr 3
    omega

/-- C06 is false when the offset behind the last block is not recorded: if the field consists of full blocks, a
range that reaches the end of the field fails an assertion. -/
theorem C06_last_block_rejected {V : Type} (L : AecLib) (C : AecContract L) (be : Bool)
    (P : AecParams) (scale : Nat → V) (N : Nat) (sec : List UInt8) (field : List V) (offsets : List Nat)
    (whole : decodeCcsdsAll L be P scale N sec = .ok field)
    (index : ccsdsDecodeOffsets L be false P N sec = .ok offsets)
    (read : Block → Res (List UInt8)) (eof o n : Nat) (hn : 0 < n) (last : o + n = N)
    (full : N % (P.rsi * P.blockSize) = 0) :
    decodeCcsds L be P offsets scale read eof ⟨o, n⟩ = .error (.exn .assertFailed) := by
  obtain ⟨hval, xs, e, hx, rfl⟩ := decodeCcsdsAll_inv whole
  obtain ⟨hb, hlib⟩ := validate_ok (be := be) hval
  have hoff := ccsdsDecodeOffsets_inv index
  unfold decodeCcsds
  simp only
  rw [if_neg (by omega), if_pos hval.1]
  generalize hQ : ({ P with flags := modifyFlags be P.flags } : AecParams) = Q at hx hlib hoff ⊢
  have hSP : Q.perRsi = P.rsi * P.blockSize := by rw [← hQ]; rfl
  have hr : Q.rsi * Q.blockSize = Q.perRsi := rfl
  have hbps : Q.bitsPerSample = P.bitsPerSample := by rw [← hQ]
  have hS0 : Q.perRsi ≠ 0 := (aecSeq_step (by omega) hx).1
  rw [← hSP] at full
  have hS : 0 < Q.perRsi := Nat.pos_of_ne_zero hS0
  generalize hb' : sampleBytes P.bitsPerSample = b at hval hb hlib
  obtain ⟨hlen, hoffs⟩ := aecOffsets_spec C false hS N hx
  rw [← hoff] at hlen hoffs
  have hst : o * b / (Q.perRsi * b) = o / Q.perRsi := mul_div_mul_right' _ _ _ hb
  have hen : (o * b + n * b) / (Q.perRsi * b) = (o + n) / Q.perRsi := by
    rw [← Nat.add_mul]; exact mul_div_mul_right' _ _ _ hb
  have hne : (!offsets.isEmpty) = true := by
    cases offsets with
    | nil => rw [rsiCount] at hlen; simp at hlen
    | cons => rfl
  have hover : ¬ (o + n) / Q.perRsi + 1 ≤ offsets.length := by
    rw [hlen, rsiCount, if_neg (by decide), last]
    have e1 := Nat.div_add_mod N Q.perRsi
    have : (N - 1) / Q.perRsi < N / Q.perRsi := by
      rw [Nat.div_lt_iff_lt_mul hS, Nat.mul_comm]
      omega
    omega
  unfold aecDecodeBlock
  rw [hbps, hb', hval.2, ok_bind, cassert_of hne, ok_bind, hr, if_neg (by
    intro h0
    rcases Nat.mul_eq_zero.mp h0 with h | h <;> omega)]
  rw [hst, hen]
  simp only
  rw [cassert_of (decide_eq_true (by
    have := Nat.div_le_div_right (c := Q.perRsi) (show o ≤ o + n by omega)
    omega)), ok_bind]
  have hd : decide ((o + n) / Q.perRsi + 1 ≤ offsets.length) = false := decide_eq_false hover
  rw [hd]
  rfl

/-- C06, no wrong answer: whatever offsets are recorded, a decode of a range inside the field that returns at
all returns the slice. -/
theorem C06_never_a_wrong_slice {V : Type} (L : AecLib) (C : AecContract L) (be tail : Bool)
    (P : AecParams) (scale : Nat → V) (N : Nat) (sec : List UInt8) (field : List V) (offsets : List Nat)
    (whole : decodeCcsdsAll L be P scale N sec = .ok field)
    (index : ccsdsDecodeOffsets L be tail P N sec = .ok offsets)
    (read : Block → Res (List UInt8))
    (hread : ∀ b, b.off + b.size ≤ sec.length → read b = .ok (slice sec b.off b.size))
    (o n : Nat) (inside : o + n ≤ N) (v : List V)
    (h : decodeCcsds L be P offsets scale read sec.length ⟨o, n⟩ = .ok v) : v = slice field o n := by
  by_cases edge : tail = true ∨ o + n < N ∨ N % (P.rsi * P.blockSize) ≠ 0
  · rw [C06_ccsds_range_is_slice_partial L C be tail P scale N sec field offsets whole index read hread o n inside
      edge] at h
    cases h
    rfl
  · by_cases hn : n = 0
    · subst hn
      unfold decodeCcsds at h
      rw [if_pos rfl] at h
      cases h
      simp [slice]
    · have ht : tail = false := by cases tail <;> simp_all
      subst ht
      rw [C06_last_block_rejected L C be P scale N sec field offsets whole index read sec.length o n (by omega)
        (by omega) (Classical.byContradiction fun hc => edge (Or.inr (Or.inr hc)))] at h
      cases h

/-- C06.  Every width from 1 to 32 bits is accepted: the whole field is what libaec decodes. -/
theorem C06_widths_accepted {V : Type} (L : AecLib) (be : Bool) (P : AecParams) (scale : Nat → V) (N : Nat)
    (sec : List UInt8) (width : 1 ≤ P.bitsPerSample ∧ P.bitsPerSample ≤ 32) (xs : List Nat) (e : Nat)
    (decoded : aecSeq L { P with flags := modifyFlags be P.flags } (Spec.bitsOf sec) 0 N = some (xs, e)) :
    decodeCcsdsAll L be P scale N sec = .ok (xs.map scale) := by
  have hw : ∀ w : Fin 33, 1 ≤ w.val → (sampleBytes w = 1 ∨ sampleBytes w = 2 ∨ sampleBytes w = 4) ∧
      validateBits (sampleBytes w) w = .ok () := by decide
  obtain ⟨h1, h2⟩ := hw ⟨P.bitsPerSample, by omega⟩ width.1
  simp only at h1 h2
  simp only [decodeCcsdsAll]
  rw [if_pos h1, h2, ok_bind, decoded]

/-- C06, widths: more than 32 bits per value is an error for every range that is not empty. -/
theorem C06_wide_samples_rejected {V : Type} (L : AecLib) (be : Bool) (P : AecParams) (scale : Nat → V)
    (offsets : List Nat) (read : Block → Res (List UInt8)) (eof : Nat) (r : Block) (hr : r.size ≠ 0)
    (wide : 32 < P.bitsPerSample) :
    decodeCcsds L be P offsets scale read eof r = .error (.exn .seriousBug) := by
  unfold decodeCcsds
  rw [if_neg hr]
  simp only
  rw [if_neg]
  unfold sampleBytes
  simp only
  split <;> omega

/-- C06, empty data section: the index records no offsets, and reading any interval of such a message fails an
assertion, also when its bitmap marks every point as missing and no stored value is needed. -/
theorem C06_empty_section_rejected {V : Type} (L : AecLib) (be tail : Bool) (A : Arith V) (file : List UInt8)
    (offset : Nat) (info : JumpInfo) (flags blockSize rsi : Nat) (offsets : List Nat)
    (empty : info.offsetAfterData = info.offsetBeforeData)
    (index : ccsdsInfoOffsets L be tail file offset info flags blockSize rsi = .ok offsets) (is : List Interval) :
    ccsdsReadValues L be A file offset (.ccsds info ⟨flags, blockSize, rsi, offsets⟩) is =
      .error (.exn .assertFailed) := by
  unfold ccsdsInfoOffsets at index
  rw [if_pos (Or.inr empty)] at index
  cases index
  rfl

/-! ## A concrete entropy code -/

/-- Unary code: `x` zeros, then a one.  Returns the value and the bits used. -/
def unaryOne : List Bool → Option (Nat × Nat)
  | [] => none
  | true :: _ => some (0, 1)
  | false :: bs => (unaryOne bs).map fun r => (r.1 + 1, r.2 + 1)

/-- `k` unary values. -/
def unarySeq : List Bool → Nat → Option (List Nat × Nat)
  | _, 0 => some ([], 0)
  | bs, k + 1 =>
    match unaryOne bs with
    | none => none
    | some (x, c) =>
      match unarySeq (bs.drop c) k with
      | none => none
      | some (xs, c') => some (x :: xs, c + c')

/-- A codec whose blocks are not byte aligned. -/
def unaryLib : AecLib := fun _ _ bits k => unarySeq bits k

theorem unaryOne_window : ∀ (bs : List Bool) {x c : Nat}, unaryOne bs = some (x, c) → c ≤ bs.length ∧
    ∀ bs', c ≤ bs'.length → bs'.take c = bs.take c → unaryOne bs' = some (x, c) := by
  intro bs
  induction bs with
  | nil => intro x c h; cases h
  | cons b rest ih =>
    intro x c h
    cases b with
    | true =>
      cases h
      refine ⟨by simp, fun bs' hl ht => ?_⟩
      cases bs' with
      | nil => simp at hl
      | cons b' r' =>
        simp only [List.take_succ_cons, List.take_zero, List.cons.injEq, and_true] at ht
        subst ht
        rfl
    | false =>
      rw [unaryOne] at h
      cases hr : unaryOne rest with
      | none => rw [hr] at h; cases h
      | some r =>
        obtain ⟨x', c'⟩ := r
        rw [hr] at h
        cases h
        obtain ⟨h1, h2⟩ := ih hr
        refine ⟨by simp only [List.length_cons]; omega, fun bs' hl ht => ?_⟩
        cases bs' with
        | nil => simp at hl
        | cons b' r' =>
          simp only [List.take_succ_cons, List.cons.injEq] at ht
          obtain ⟨rfl, ht⟩ := ht
          rw [unaryOne, h2 r' (by simpa using hl) ht]
          rfl

/-- The concrete codec meets the contract. -/
theorem unary_contract : AecContract unaryLib := by
  have one : ∀ (k : Nat) (bs : List Bool) (xs : List Nat) (c : Nat), unarySeq bs k = some (xs, c) →
      (xs.length = k ∧ c ≤ bs.length) ∧
      (∀ bs', c ≤ bs'.length → bs'.take c = bs.take c → unarySeq bs' k = some (xs, c)) ∧
      (∀ k', k' ≤ k → ∃ c', c' ≤ c ∧ unarySeq bs k' = some (xs.take k', c')) := by
    intro k
    induction k with
    | zero =>
      intro bs xs c h
      cases h
      refine ⟨⟨rfl, Nat.zero_le _⟩, fun bs' _ _ => rfl, fun k' hk => ?_⟩
      have : k' = 0 := by omega
      subst this
      exact ⟨0, Nat.le_refl _, rfl⟩
    | succ k ih =>
      intro bs xs c h
      rw [unarySeq] at h
      cases h1 : unaryOne bs with
      | none => rw [h1] at h; cases h
      | some r =>
        obtain ⟨x, c1⟩ := r
        rw [h1] at h
        simp only at h
        cases h2 : unarySeq (bs.drop c1) k with
        | none => rw [h2] at h; cases h
        | some r =>
          obtain ⟨ys, c2⟩ := r
          rw [h2] at h
          cases h
          obtain ⟨a1, a2⟩ := unaryOne_window bs h1
          obtain ⟨⟨b1, b2⟩, b3, b4⟩ := ih _ _ _ h2
          rw [List.length_drop] at b2
          refine ⟨⟨by simp [b1], by omega⟩, ?_, ?_⟩
          · intro bs' hl ht
            have e1 : bs'.take c1 = bs.take c1 := by
              have := congrArg (List.take c1) ht
              rwa [List.take_take, List.take_take, Nat.min_eq_left (by omega)] at this
            have e2 : (bs'.drop c1).take c2 = (bs.drop c1).take c2 := by
              have := congrArg (List.drop c1) ht
              rwa [List.drop_take, List.drop_take, Nat.add_sub_cancel_left] at this
            rw [unarySeq, a2 bs' (by omega) e1]
            simp only
            rw [b3 (bs'.drop c1) (by rw [List.length_drop]; omega) e2]
          · intro k' hk
            cases k' with
            | zero => exact ⟨0, Nat.zero_le _, rfl⟩
            | succ k' =>
              obtain ⟨c', hc', hs⟩ := b4 k' (by omega)
              refine ⟨c1 + c', by omega, ?_⟩
              rw [unarySeq, h1]
              simp only
              rw [hs]
              rfl
  exact ⟨fun h => (one _ _ _ _ h).1, fun h => (one _ _ _ _ h).2.1, fun h => (one _ _ _ _ h).2.2⟩

/-- Stream parameters of the examples: two blocks of one sample per RSI, 8 bits per sample. -/
def unaryParams : AecParams := ⟨0, 8, 1, 2⟩

/-- Non-vacuity of C06: five samples 2,0,3,1,4 in two bytes; the RSIs start at bits 0, 4 and 10. -/
example : decodeCcsdsAll unaryLib false unaryParams id 5 [0x31, 0x42] = .ok [2, 0, 3, 1, 4] ∧
    ccsdsDecodeOffsets unaryLib false false unaryParams 5 [0x31, 0x42] = .ok [0, 4, 10] ∧
    5 % (2 * 1) ≠ 0 ∧
    decodeCcsds unaryLib false unaryParams [0, 4, 10] id (memRead [0x31, 0x42]) 2 ⟨3, 2⟩ = .ok [1, 4] := by
  decide +kernel

/-- Non-vacuity of `C06_last_block_rejected`: four of these samples; the last one cannot be read unless the
trailing offset is recorded. -/
example : decodeCcsdsAll unaryLib false unaryParams id 4 [0x31, 0x40] = .ok [2, 0, 3, 1] ∧
    ccsdsDecodeOffsets unaryLib false false unaryParams 4 [0x31, 0x40] = .ok [0, 4] ∧
    decodeCcsds unaryLib false unaryParams [0, 4] id (memRead [0x31, 0x40]) 2 ⟨3, 1⟩ = throwExn .assertFailed ∧
    ccsdsDecodeOffsets unaryLib false true unaryParams 4 [0x31, 0x40] = .ok [0, 4, 10] ∧
    decodeCcsds unaryLib false unaryParams [0, 4, 10] id (memRead [0x31, 0x40]) 2 ⟨3, 1⟩ = .ok [1] := by
  decide +kernel

end GJ
