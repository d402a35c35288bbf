import Verif.Spec.Bits
import Verif.Model.Simple

/-! Lemmas about bit strings and the bit reader. -/

namespace GJ
open Spec

/-- Value of a byte string continued from an accumulator. -/
def bytesFrom (acc : Nat) (bs : List UInt8) : Nat := bs.foldl (fun a b => a * 256 + b.toNat) acc

def bitsFrom (acc : Nat) (bits : List Bool) : Nat := bits.foldl (fun a b => 2 * a + b.toNat) acc

theorem bitsFrom_append (acc : Nat) (a b : List Bool) :
    bitsFrom acc (a ++ b) = bitsFrom (bitsFrom acc a) b := List.foldl_append

theorem bitsFrom_eq (bits : List Bool) : ∀ acc,
    bitsFrom acc bits = acc * 2 ^ bits.length + bitsFrom 0 bits := by
  induction bits with
  | nil => intro acc; simp [bitsFrom]
  | cons b rest ih =>
    intro acc
    have h1 : ∀ a, bitsFrom a (b :: rest) = bitsFrom (2 * a + b.toNat) rest := fun _ => rfl
    rw [h1, h1, ih, ih (2 * 0 + b.toNat), List.length_cons, Nat.pow_succ, Nat.add_mul, Nat.mul_comm 2 acc,
      Nat.mul_assoc, Nat.mul_comm 2 (2 ^ _), Nat.mul_zero, Nat.zero_add]
    omega

theorem bitsFrom_lt (bits : List Bool) : bitsFrom 0 bits < 2 ^ bits.length := by
  induction bits with
  | nil => simp [bitsFrom]
  | cons b rest ih =>
    have h1 : bitsFrom 0 (b :: rest) = bitsFrom (2 * 0 + b.toNat) rest := rfl
    rw [h1, bitsFrom_eq, List.length_cons, Nat.pow_succ]
    cases b <;> simp <;> omega

theorem bitsValue_eq (bits : List Bool) : bitsValue bits = bitsFrom 0 bits := rfl

theorem bitsFrom_byte (acc : Nat) (b : UInt8) : bitsFrom acc (byteBits b) = acc * 256 + b.toNat := by
  have h0 : bitsFrom 0 (byteBits b) = b.toNat := by
    have h : ∀ n : Fin 256, bitsFrom 0 ([7, 6, 5, 4, 3, 2, 1, 0].map fun k => n.val.testBit k) = n.val := by
      decide +kernel
    exact h ⟨b.toNat, b.toNat_lt⟩
  rw [bitsFrom_eq, h0]
  have : (byteBits b).length = 8 := rfl
  rw [this]

theorem byteBits_length (b : UInt8) : (byteBits b).length = 8 := rfl

theorem bitsOf_length (bs : List UInt8) : (bitsOf bs).length = 8 * bs.length := by
  induction bs with
  | nil => rfl
  | cons b rest ih =>
    have : bitsOf (b :: rest) = byteBits b ++ bitsOf rest := rfl
    rw [this, List.length_append, ih, byteBits_length, List.length_cons]; omega

theorem bitsFrom_bitsOf (bs : List UInt8) : ∀ acc, bitsFrom acc (bitsOf bs) = bytesFrom acc bs := by
  induction bs with
  | nil => intro acc; rfl
  | cons b rest ih =>
    intro acc
    have : bitsOf (b :: rest) = byteBits b ++ bitsOf rest := rfl
    rw [this, bitsFrom_append, bitsFrom_byte, ih]; rfl

theorem bitsOf_append (a b : List UInt8) : bitsOf (a ++ b) = bitsOf a ++ bitsOf b := by
  simp [bitsOf]

theorem bitsOf_take (bs : List UInt8) (n : Nat) : bitsOf (bs.take n) = (bitsOf bs).take (8 * n) := by
  by_cases h : n ≤ bs.length
  · have e : bitsOf bs = bitsOf (bs.take n) ++ bitsOf (bs.drop n) := by
      rw [← bitsOf_append, List.take_append_drop]
    rw [e, List.take_left']
    rw [bitsOf_length, List.length_take]; omega
  · rw [List.take_of_length_le (by omega), List.take_of_length_le]
    rw [bitsOf_length]; omega

theorem bitsOf_drop (bs : List UInt8) (n : Nat) : bitsOf (bs.drop n) = (bitsOf bs).drop (8 * n) := by
  by_cases h : n ≤ bs.length
  · have e : bitsOf bs = bitsOf (bs.take n) ++ bitsOf (bs.drop n) := by
      rw [← bitsOf_append, List.take_append_drop]
    rw [e, List.drop_left']
    rw [bitsOf_length, List.length_take]; omega
  · rw [List.drop_of_length_le (by omega), List.drop_of_length_le]
    · rfl
    · rw [bitsOf_length]; omega

theorem bytesFrom_append (acc : Nat) (a b : List UInt8) :
    bytesFrom acc (a ++ b) = bytesFrom (bytesFrom acc a) b := List.foldl_append

theorem bytesFrom_eq (bs : List UInt8) (acc : Nat) :
    bytesFrom acc bs = acc * 2 ^ (8 * bs.length) + bytesFrom 0 bs := by
  rw [← bitsFrom_bitsOf, ← bitsFrom_bitsOf, bitsFrom_eq, bitsOf_length]

/-- Only the low 64 bits of the accumulator matter modulo `2 ^ 64`. -/
theorem bytesFrom_mod (bs : List UInt8) (acc : Nat) :
    bytesFrom (acc % 2 ^ 64) bs % 2 ^ 64 = bytesFrom acc bs % 2 ^ 64 := by
  rw [bytesFrom_eq bs (acc % 2 ^ 64), bytesFrom_eq bs acc, Nat.add_mod, Nat.mul_mod, Nat.mod_mod,
    ← Nat.mul_mod, ← Nat.add_mod]

/-- The middle part of a bit string is recovered by shifting and masking. -/
theorem bitsFrom_middle (a b c : List Bool) :
    bitsFrom 0 (a ++ b ++ c) / 2 ^ c.length % 2 ^ b.length = bitsFrom 0 b := by
  rw [bitsFrom_append, bitsFrom_eq c, Nat.mul_comm, Nat.mul_add_div (Nat.two_pow_pos _),
    Nat.div_eq_of_lt (bitsFrom_lt c), Nat.add_zero, bitsFrom_append, bitsFrom_eq b,
    Nat.add_mod, Nat.mul_mod_left, Nat.zero_add, Nat.mod_mod, Nat.mod_eq_of_lt (bitsFrom_lt b)]

theorem slice_split {α : Type} (l : List α) (a b c : Nat) (h1 : a ≤ b) (h2 : b ≤ c)
    (_h3 : c ≤ l.length) :
    slice l a (c - a) = slice l a (b - a) ++ slice l b (c - b) := by
  simp only [slice]
  have e : c - a = (b - a) + (c - b) := by omega
  rw [e, List.take_add, List.drop_drop]
  have : a + (b - a) = b := by omega
  rw [this]

theorem slice_length {α : Type} (l : List α) (o n : Nat) (h : o + n ≤ l.length) :
    (slice l o n).length = n := by
  simp only [slice, List.length_take, List.length_drop]; omega

theorem slice_cons {α : Type} (l : List α) (o n : Nat) (x : α) (h : l[o]? = some x) :
    slice l o (n + 1) = x :: slice l (o + 1) n := by
  obtain ⟨h1, h2⟩ := List.getElem?_eq_some_iff.mp h
  simp only [slice]
  rw [List.drop_eq_getElem_cons h1, List.take_succ_cons, h2]

theorem bitsOf_slice (bs : List UInt8) (o n : Nat) :
    bitsOf (slice bs o n) = slice (bitsOf bs) (8 * o) (8 * n) := by
  simp only [slice]; rw [bitsOf_take, bitsOf_drop]

/-- Result of the inner loop, when the buffer is long enough. -/
theorem readLoop_ok (p : List UInt8) : ∀ (n useful pi lv : Nat), 0 < n → 0 < useful → useful ≤ 8 →
    (8 * pi + 8 - useful + n + 7) / 8 ≤ p.length →
    readLoop p n useful pi lv =
      .ok (bytesFrom lv (slice p pi ((8 * pi + 8 - useful + n + 7) / 8 - pi)) % 2 ^ 64,
        (8 * pi + 8 - useful + n + 7) / 8,
        ((8 * pi + 8 - useful + n : Nat) : Int) - 8 * ((8 * pi + 8 - useful + n + 7) / 8 : Nat)) := by
  intro n
  induction n using Nat.strongRecOn with
  | ind n ih =>
    intro useful pi lv hn hu hu8 hq
    have hpi : pi < p.length := by omega
    rw [readLoop, if_pos (by omega)]
    have hget : p[pi]? = some p[pi] := List.getElem?_eq_getElem hpi
    split
    · rename_i h; rw [hget] at h; cases h
    · rename_i b h
      rw [hget] at h
      cases h
      by_cases hc : useful < n
      · have e := ih (n - useful) (by omega) 8 (pi + 1) ((lv * 256 + (p[pi]).toNat) % 2 ^ 64)
          (by omega) (by omega) (by omega) (by
            have : 8 * (pi + 1) + 8 - 8 + (n - useful) = 8 * pi + 8 - useful + n := by omega
            rw [this]; exact hq)
        have hcast : ((n : Int) - (useful : Int)) = ((n - useful : Nat) : Int) := by omega
        rw [hcast, e]
        have hpos : 8 * (pi + 1) + 8 - 8 + (n - useful) = 8 * pi + 8 - useful + n := by omega
        rw [hpos, bytesFrom_mod]
        have hk : (8 * pi + 8 - useful + n + 7) / 8 - pi =
            ((8 * pi + 8 - useful + n + 7) / 8 - (pi + 1)) + 1 := by omega
        rw [hk, slice_cons p pi _ _ hget]
        rfl
      · rw [readLoop, if_neg (by omega)]
        have hq1 : (8 * pi + 8 - useful + n + 7) / 8 = pi + 1 := by omega
        rw [hq1]
        have : pi + 1 - pi = 0 + 1 := by omega
        rw [this, slice_cons p pi 0 _ hget]
        have h0 : slice p (pi + 1) 0 = [] := by simp [slice]
        rw [h0]
        have hr : (n : Int) - (useful : Int) = ((8 * pi + 8 - useful + n : Nat) : Int) - 8 * ((pi + 1 : Nat) : Int) := by
          omega
        rw [hr]
        rfl

/-- Too short a buffer is read out of bounds. -/
theorem readLoop_ub (p : List UInt8) : ∀ (n useful pi lv : Nat), 0 < n → 0 < useful → useful ≤ 8 →
    p.length < (8 * pi + 8 - useful + n + 7) / 8 →
    readLoop p n useful pi lv = undef := by
  intro n
  induction n using Nat.strongRecOn with
  | ind n ih =>
    intro useful pi lv hn hu hu8 hq
    rw [readLoop, if_pos (by omega)]
    split
    · rfl
    · rename_i b h
      have hpi := (List.getElem?_eq_some_iff.mp h).1
      by_cases hc : useful < n
      · have hcast : ((n : Int) - (useful : Int)) = ((n - useful : Nat) : Int) := by omega
        rw [hcast]
        exact ih (n - useful) (by omega) 8 (pi + 1) _ (by omega) (by omega) (by omega) (by
            have : 8 * (pi + 1) + 8 - 8 + (n - useful) = 8 * pi + 8 - useful + n := by omega
            rw [this]; exact hq)
      · omega

/-- Bits left over in the last byte read for a value that ends at bit `stop`. -/
def excessAt (stop : Nat) : Nat := 8 * ((stop + 7) / 8) - stop

theorem mod_div_mod (x e w k : Nat) (h : e ≤ k) :
    x % 2 ^ k / 2 ^ e % 2 ^ w = (x / 2 ^ e % 2 ^ w) % 2 ^ (k - e) := by
  have hk : 2 ^ k = 2 ^ e * 2 ^ (k - e) := by rw [← Nat.pow_add]; congr 1; omega
  rw [hk, Nat.mod_mul_right_div_self]
  rw [Nat.mod_mod_eq_min, Nat.mod_mod_eq_min, Nat.min_comm]
where
  Nat.mod_mod_eq_min {a b c : Nat} : a % 2 ^ b % 2 ^ c = a % 2 ^ min b c := by
    rcases Nat.le_total b c with h | h
    · rw [Nat.min_eq_left h, Nat.mod_eq_of_lt (a := a % 2 ^ b)]
      exact Nat.lt_of_lt_of_le (Nat.mod_lt _ (Nat.two_pow_pos _)) (Nat.pow_le_pow_right (by omega) h)
    · rw [Nat.min_eq_right h, Nat.mod_mod_of_dvd _ (Nat.pow_dvd_pow 2 h)]

/-- One value: the integer read at bit `start`, exact law with 64-bit truncation. -/
theorem readLoop_value (p : List UInt8) (bpv useful pi : Nat) (hb : 0 < bpv) (hu : 0 < useful) (hu8 : useful ≤ 8)
    (hq : 8 * pi + 8 - useful + bpv ≤ 8 * p.length) :
    ∃ lv, readLoop p bpv useful pi 0 = .ok (lv, (8 * pi + 8 - useful + bpv + 7) / 8,
        -((excessAt (8 * pi + 8 - useful + bpv) : Nat) : Int)) ∧
      lv / 2 ^ excessAt (8 * pi + 8 - useful + bpv) % 2 ^ bpv =
        bitsValue (slice (bitsOf p) (8 * pi + 8 - useful) bpv) %
          2 ^ (64 - excessAt (8 * pi + 8 - useful + bpv)) := by
  generalize hs : 8 * pi + 8 - useful = start at *
  have hex : excessAt (start + bpv) < 8 := by simp only [excessAt]; omega
  refine ⟨bytesFrom 0 (slice p pi ((start + bpv + 7) / 8 - pi)) % 2 ^ 64, ?_, ?_⟩
  · rw [readLoop_ok p bpv useful pi 0 hb hu hu8 (by rw [hs]; omega), hs]
    congr 3
    simp only [excessAt]; omega
  · rw [mod_div_mod _ _ _ _ (by omega)]
    congr 1
    rw [bitsValue_eq, ← bitsFrom_bitsOf, bitsOf_slice]
    have hq2 : (start + bpv + 7) / 8 ≤ p.length := by omega
    have h8 : 8 * ((start + bpv + 7) / 8 - pi) = 8 * ((start + bpv + 7) / 8) - 8 * pi := by omega
    rw [h8, slice_split _ (8 * pi) start _ (by omega) (by omega) (by rw [bitsOf_length]; omega),
      slice_split _ start (start + bpv) _ (by omega) (by omega) (by rw [bitsOf_length]; omega),
      ← List.append_assoc]
    have hc : (slice (bitsOf p) (start + bpv) (8 * ((start + bpv + 7) / 8) - (start + bpv))).length =
        excessAt (start + bpv) := by
      rw [slice_length]
      · rfl
      · rw [bitsOf_length]; omega
    have hm : (slice (bitsOf p) start (start + bpv - start)).length = bpv := by
      rw [slice_length]
      · omega
      · rw [bitsOf_length]; omega
    have := bitsFrom_middle (slice (bitsOf p) (8 * pi) (start - 8 * pi))
      (slice (bitsOf p) start (start + bpv - start))
      (slice (bitsOf p) (start + bpv) (8 * ((start + bpv + 7) / 8) - (start + bpv)))
    rw [hc, hm] at this
    rw [this]
    congr 2
    omega

/-- All values of the general branch: each is the packed integer modulo `2 ^ (64 - excess)`. -/
theorem decodeBits_ok (p : List UInt8) (bpv : Nat) (hb : 0 < bpv) : ∀ (n pi useful : Nat),
    0 < useful → useful ≤ 8 → 8 * pi + 8 - useful + n * bpv ≤ 8 * p.length →
    decodeBits p bpv n pi useful = .ok ((List.range n).map fun i =>
      bitsValue (slice (bitsOf p) (8 * pi + 8 - useful + i * bpv) bpv) %
        2 ^ (64 - excessAt (8 * pi + 8 - useful + (i + 1) * bpv))) := by
  intro n
  induction n with
  | zero => intro pi useful _ _ _; rfl
  | succ n ih =>
    intro pi useful hu hu8 hlen
    have hlen' : 8 * pi + 8 - useful + (n * bpv + bpv) ≤ 8 * p.length := by
      rw [← Nat.succ_mul]; exact hlen
    obtain ⟨lv, e1, e2⟩ := readLoop_value p bpv useful pi hb hu hu8 (by omega)
    rw [decodeBits, e1]
    generalize hs : 8 * pi + 8 - useful = start at *
    have hex : excessAt (start + bpv) < 8 := by simp only [excessAt]; omega
    rw [ok_bind]
    simp only [Int.neg_neg, Int.toNat_natCast]
    have key : ∀ (pi' useful' : Nat), 0 < useful' → useful' ≤ 8 → 8 * pi' + 8 - useful' = start + bpv →
        decodeBits p bpv n pi' useful' = .ok ((List.range n).map fun i =>
          bitsValue (slice (bitsOf p) (start + (i + 1) * bpv) bpv) %
            2 ^ (64 - excessAt (start + (i + 1 + 1) * bpv))) := by
      intro pi' useful' h1 h2 h3
      rw [ih pi' useful' h1 h2 (by omega), h3]
      congr 1
      apply List.map_congr_left
      intro i _
      have ea : start + bpv + i * bpv = start + (i + 1) * bpv := by rw [Nat.add_mul]; omega
      have eb : start + bpv + (i + 1) * bpv = start + (i + 1 + 1) * bpv := by
        rw [Nat.add_mul (i + 1)]; omega
      rw [ea, eb]
    have fin : ∀ rest, rest = .ok ((List.range n).map fun i =>
          bitsValue (slice (bitsOf p) (start + (i + 1) * bpv) bpv) %
            2 ^ (64 - excessAt (start + (i + 1 + 1) * bpv))) →
        (do
          let v ← rest
          Except.ok (lv / 2 ^ excessAt (start + bpv) % 2 ^ bpv :: v) : Res (List Nat)) =
        .ok ((List.range (n + 1)).map fun i =>
          bitsValue (slice (bitsOf p) (start + i * bpv) bpv) %
            2 ^ (64 - excessAt (start + (i + 1) * bpv))) := by
      intro rest hr
      rw [hr, ok_bind, List.range_succ_eq_map, List.map_cons, List.map_map, e2]
      simp only [Nat.zero_mul, Nat.add_zero, Nat.zero_add, Nat.one_mul]
      rfl
    by_cases hz : excessAt (start + bpv) > 0
    · rw [if_pos hz]
      exact fin _ (key ((start + bpv + 7) / 8 - 1) (excessAt (start + bpv)) hz (by omega)
        (by simp only [excessAt] at hz ⊢; omega))
    · rw [if_neg hz]
      exact fin _ (key ((start + bpv + 7) / 8) 8 (by omega) (by omega)
        (by simp only [excessAt] at hz ⊢; omega))

theorem readWhole_ok (p : List UInt8) : ∀ (k o lv : Nat), o + k ≤ p.length →
    readWhole p k o lv = .ok (bytesFrom lv (slice p o k) % 2 ^ 64, o + k) ∨ k = 0 := by
  intro k
  induction k with
  | zero => intro o lv _; right; rfl
  | succ k ih =>
    intro o lv h
    left
    have hget : p[o]? = some p[o] := List.getElem?_eq_getElem (by omega)
    rw [readWhole, hget, slice_cons p o k _ hget]
    simp only
    rcases ih (o + 1) ((lv * 256 + (p[o]).toNat) % 2 ^ 64) (by omega) with h | rfl
    · rw [h, bytesFrom_mod]
      have : o + 1 + k = o + (k + 1) := by omega
      rw [this]; rfl
    · simp [readWhole, slice, bytesFrom]

/-- All values of the whole-byte branch are the packed integers. -/
theorem decodeWhole_ok (p : List UInt8) (l : Nat) (hl : 0 < l) (hl8 : l ≤ 8) : ∀ (n o : Nat),
    o + n * l ≤ p.length →
    decodeWhole p l n o = .ok ((List.range n).map fun i =>
      bitsValue (slice (bitsOf p) (8 * o + i * (8 * l)) (8 * l))) := by
  intro n
  induction n with
  | zero => intro o _; rfl
  | succ n ih =>
    intro o h
    have h' : o + (n * l + l) ≤ p.length := by rw [← Nat.succ_mul]; exact h
    have e1 : 1 + (l - 1) = l := by omega
    have h1 : readWhole p l o 0 = .ok (bytesFrom 0 (slice p o l) % 2 ^ 64, o + l) := by
      rcases readWhole_ok p l o 0 (by omega) with h | h
      · exact h
      · omega
    rw [decodeWhole, e1, h1]
    simp only [bind, Except.bind]
    rw [ih (o + l) (by omega)]
    simp only
    rw [List.range_succ_eq_map, List.map_cons, List.map_map]
    have hlt : bytesFrom 0 (slice p o l) < 2 ^ 64 := by
      rw [← bitsFrom_bitsOf]
      refine Nat.lt_of_lt_of_le (bitsFrom_lt _) (Nat.pow_le_pow_right (by omega) ?_)
      rw [bitsOf_length, slice_length _ _ _ (by omega)]; omega
    rw [Nat.mod_eq_of_lt hlt, ← bitsFrom_bitsOf, bitsOf_slice]
    simp only [Nat.zero_mul, Nat.add_zero]
    congr 2
    apply List.map_congr_left
    intro i _
    simp only [Function.comp]
    have : 8 * (o + l) + i * (8 * l) = 8 * o + (i + 1) * (8 * l) := by rw [Nat.add_mul i 1]; omega
    rw [this]

theorem excessAt_add_mul (a b : Nat) : excessAt (8 * a + b) = excessAt b := by
  simp only [excessAt]; omega

theorem slice_slice {α : Type} (l : List α) (a n b m : Nat) (h : b + m ≤ n) :
    slice (slice l a n) b m = slice l (a + b) m := by
  simp only [slice, List.drop_take, List.take_take, List.drop_drop]
  congr 1
  omega

/-- What the bit reader returns for the `i`-th value of width `w`: the packed integer truncated by
the 64-bit accumulator.  Whole-byte widths are exact. -/
def readerInt (bytes : List UInt8) (w i : Nat) : Nat :=
  if w % 8 = 0 then packedInt bytes w i
  else packedInt bytes w i % 2 ^ (64 - excessAt ((i + 1) * w))

theorem memRead_ok (sec : List UInt8) (b : Block) (h : b.off + b.size ≤ sec.length) :
    memRead sec b = .ok (slice sec b.off b.size) := by
  simp only [memRead, slice]
  rw [if_neg (by omega)]

/-- An accessor that returns only bytes of `sec`. -/
def SoundRead (sec : List UInt8) (read : Block → Res (List UInt8)) : Prop :=
  ∀ b v, read b = .ok v → b.off + b.size ≤ sec.length ∧ v = slice sec b.off b.size

theorem memRead_sound (sec : List UInt8) : SoundRead sec (memRead sec) := by
  intro b v h
  simp only [memRead] at h
  split at h
  · cases h
  · cases h; exact ⟨by omega, rfl⟩

theorem slice_length_le {α : Type} (l : List α) (o n : Nat) :
    (slice l o n).length = min n (l.length - o) := by
  simp only [slice, List.length_take, List.length_drop]

/-- The data section, padded to its declared size when the file is shorter (the padding is never
returned by a read). -/
def padSection (file : List UInt8) (sec : Block) : List UInt8 :=
  slice file sec.off sec.size ++
    List.replicate (sec.size - (slice file sec.off sec.size).length) 0

theorem padSection_length (file : List UInt8) (sec : Block) :
    (padSection file sec).length = sec.size := by
  simp only [padSection, List.length_append, List.length_replicate, slice_length_le]; omega

theorem padSection_full (file : List UInt8) (sec : Block) (hs : sec.off + sec.size ≤ file.length) :
    padSection file sec = slice file sec.off sec.size := by
  simp only [padSection, slice_length _ _ _ hs, Nat.sub_self, List.replicate_zero, List.append_nil]

theorem fileRead_sound (file : List UInt8) (sec : Block) :
    SoundRead (padSection file sec) (fileRead file sec) := by
  intro b v h
  simp only [fileRead] at h
  split at h
  · cases h
  · split at h
    · rename_i h1 h2
      cases h
      rw [padSection_length]
      refine ⟨by omega, ?_⟩
      have hl : (slice file (sec.off + b.off) b.size).length = b.size := h2
      by_cases hz : b.size = 0
      · simp [hz, slice]
      · rw [slice_length_le] at hl
        have hs := slice_slice file sec.off sec.size b.off b.size (by omega)
        have hlen : b.off + b.size ≤ (slice file sec.off sec.size).length := by
          rw [slice_length_le]; omega
        have : slice (padSection file sec) b.off b.size = slice (slice file sec.off sec.size) b.off b.size := by
          simp only [padSection]
          generalize slice file sec.off sec.size = body at *
          simp only [slice]
          rw [List.drop_append_of_le_length (by omega), List.take_append_of_le_length]
          rw [List.length_drop]; omega
        rw [this, hs]; rfl
    · cases h

theorem fileRead_ok (file : List UInt8) (sec : Block) (hs : sec.off + sec.size ≤ file.length)
    (b : Block) (h : b.off + b.size ≤ sec.size) :
    fileRead file sec b = .ok (slice (slice file sec.off sec.size) b.off b.size) := by
  rw [slice_slice _ _ _ _ _ h]
  simp only [fileRead]
  rw [if_neg (by omega), if_pos]
  · rfl
  · exact slice_length _ _ _ (by omega)

/-- A block decoded through an accessor over `sec`. -/
theorem decodeSimple_law {V : Type} (scale : Nat → V) (ref : V) (bpv : Nat)
    (hb : 0 < bpv) (hb64 : bpv ≤ 64) (sec : List UInt8) (read : Block → Res (List UInt8))
    (r : Block)
    (hread : read ⟨r.off * bpv / 8, ((r.off + r.size) * bpv + 7) / 8 - r.off * bpv / 8⟩ =
      .ok (slice sec (r.off * bpv / 8) (((r.off + r.size) * bpv + 7) / 8 - r.off * bpv / 8)))
    (h : (r.off + r.size) * bpv ≤ 8 * sec.length) :
    decodeSimple scale ref bpv read r =
      .ok ((List.range r.size).map fun i => scale (readerInt sec bpv (r.off + i))) := by
  obtain ⟨off, size⟩ := r
  simp only at h hread
  have hmono : off * bpv ≤ (off + size) * bpv := Nat.mul_le_mul_right _ (by omega)
  simp only [decodeSimple]
  rw [hread, ok_bind]
  simp only [unpackSimple]
  rw [if_neg (by omega)]
  by_cases hz : size = 0
  · rw [if_pos hz, hz]; rfl
  rw [if_neg hz, if_neg (by omega)]
  have hsplit : (off + size) * bpv = off * bpv + size * bpv := Nat.add_mul _ _ _
  have hlen : (slice sec (off * bpv / 8) (((off + size) * bpv + 7) / 8 - off * bpv / 8)).length =
      ((off + size) * bpv + 7) / 8 - off * bpv / 8 := slice_length _ _ _ (by omega)
  have hpos : ∀ i, (off + i) * bpv = 8 * (off * bpv / 8) + (off * bpv % 8 + i * bpv) := by
    intro i; rw [Nat.add_mul]; omega
  have hin : ∀ i, i < size → off * bpv % 8 + i * bpv + bpv ≤
      8 * (((off + size) * bpv + 7) / 8 - off * bpv / 8) := by
    intro i hi
    have : (i + 1) * bpv ≤ size * bpv := Nat.mul_le_mul_right _ (by omega)
    rw [Nat.add_mul i 1] at this
    omega
  simp only [decodeArray]
  by_cases h8 : bpv % 8 = 0
  · rw [if_pos h8, decodeWhole_ok _ (bpv / 8) (by omega) (by omega) size 0 (by
      rw [hlen]
      have : 8 * (size * (bpv / 8)) = size * bpv := by
        rw [Nat.mul_comm 8, Nat.mul_assoc]; congr 1; omega
      omega)]
    simp only [Except.map, List.map_map]
    congr 1
    apply List.map_congr_left
    intro i hi
    have hi' := List.mem_range.mp hi
    simp only [Function.comp, readerInt, if_pos h8, packedInt]
    have e8 : 8 * (bpv / 8) = bpv := by omega
    have hs0 : off * bpv % 8 = 0 := by
      have := Nat.mul_mod off bpv 8
      rw [h8] at this; simpa using this
    have hin' := hin i hi'
    rw [e8, bitsOf_slice, slice_slice _ _ _ _ _ (by omega), hpos i]
    congr 3
    omega
  · rw [if_neg h8, decodeBits_ok _ bpv hb size _ _ (by omega) (by omega) (by rw [hlen]; omega)]
    simp only [Except.map, List.map_map]
    congr 1
    apply List.map_congr_left
    intro i hi
    have hi' := List.mem_range.mp hi
    have hin' := hin i hi'
    simp only [Function.comp, readerInt, if_neg h8, packedInt]
    have e1 : 8 * (off * bpv % 8 / 8) + 8 - (8 - off * bpv % 8 % 8) = off * bpv % 8 := by omega
    have e2 : (off + i + 1) * bpv = 8 * (off * bpv / 8) + (off * bpv % 8 + (i + 1) * bpv) := hpos (i + 1)
    rw [e1, bitsOf_slice, slice_slice _ _ _ _ _ (by omega), hpos i, e2, excessAt_add_mul]

/-- All values a section can hold. -/
def simpleField {V : Type} (scale : Nat → V) (bpv : Nat) (sec : List UInt8) : List V :=
  (List.range (8 * sec.length / bpv)).map fun i => scale (readerInt sec bpv i)

theorem simpleField_slice {V : Type} (scale : Nat → V) (bpv : Nat) (sec : List UInt8) (o n : Nat)
    (h : o + n ≤ 8 * sec.length / bpv) :
    slice (simpleField scale bpv sec) o n =
      (List.range n).map fun i => scale (readerInt sec bpv (o + i)) := by
  apply List.ext_getElem
  · rw [slice_length]
    · simp
    · simpa [simpleField] using h
  · intro i h1 h2
    simp [slice, simpleField]

/-- A successful block decode is a slice of the section's values, and the block lay inside. -/
theorem decodeSimple_sound {V : Type} (scale : Nat → V) (ref : V) (bpv : Nat)
    (hb : 0 < bpv) (sec : List UInt8) (read : Block → Res (List UInt8)) (hread : SoundRead sec read)
    (r : Block) (v : List V) (h : decodeSimple scale ref bpv read r = .ok v) :
    r.off + r.size ≤ (simpleField scale bpv sec).length ∧
      v = slice (simpleField scale bpv sec) r.off r.size := by
  have hmono : r.off * bpv ≤ (r.off + r.size) * bpv := Nat.mul_le_mul_right _ (by omega)
  have h' := h
  simp only [decodeSimple] at h'
  cases hr : read ⟨r.off * bpv / 8, ((r.off + r.size) * bpv + 7) / 8 - r.off * bpv / 8⟩ with
  | error f => rw [hr] at h'; cases h'
  | ok enc =>
    rw [hr, ok_bind] at h'
    have h64 : bpv ≤ 64 := by
      by_cases hc : bpv > 64
      · rw [unpackSimple, if_pos hc] at h'; cases h'
      · omega
    obtain ⟨hin, henc⟩ := hread _ _ hr
    simp only at hin henc
    have hin2 : (r.off + r.size) * bpv ≤ 8 * sec.length := by omega
    have hN : r.off + r.size ≤ 8 * sec.length / bpv := (Nat.le_div_iff_mul_le hb).mpr hin2
    rw [decodeSimple_law scale ref bpv hb h64 sec read r (by rw [hr, henc]) hin2] at h
    cases h
    exact ⟨by simpa [simpleField] using hN, (simpleField_slice scale bpv sec _ _ hN).symm⟩

/-- Widths for which the 64-bit accumulator never loses a bit. -/
def exactWidth (w : Nat) : Prop := w ≤ 58 ∨ w = 60 ∨ w = 64

theorem packedInt_lt (bytes : List UInt8) (w i : Nat) : packedInt bytes w i < 2 ^ w := by
  simp only [packedInt, bitsValue_eq]
  refine Nat.lt_of_lt_of_le (bitsFrom_lt _) (Nat.pow_le_pow_right (by omega) ?_)
  simp only [slice, List.length_take]; omega

theorem readerInt_exact (bytes : List UInt8) (w i : Nat) (hw : exactWidth w) :
    readerInt bytes w i = packedInt bytes w i := by
  simp only [readerInt]
  split
  · rfl
  · rename_i h8
    apply Nat.mod_eq_of_lt
    refine Nat.lt_of_lt_of_le (packedInt_lt _ _ _) (Nat.pow_le_pow_right (by omega) ?_)
    have hlt : excessAt ((i + 1) * w) < 8 := by simp only [excessAt]; omega
    rcases hw with hw | rfl | rfl
    · by_cases h58 : w = 58
      · subst h58
        simp only [excessAt] at *; omega
      · omega
    · simp only [excessAt] at *; omega
    · omega

end GJ
