import Verif.Model.Range
import Verif.Spec.Field

/-! Lemmas about the bucket merge. -/

namespace GJ

/-- On a list split into a prefix satisfying `p` and a suffix not satisfying it, the binary search
returns the length of the prefix. -/
theorem lowerBound_append {α : Type} (p : α → Bool) (pre post : List α)
    (hpre : ∀ x ∈ pre, p x = true) (hpost : ∀ x ∈ post, p x = false) :
    ∀ (len first : Nat), first ≤ pre.length → pre.length ≤ first + len →
      first + len ≤ pre.length + post.length →
      lowerBound p (pre ++ post) first len = pre.length := by
  intro len
  induction len using Nat.strongRecOn with
  | ind len ih =>
    intro first h1 h2 h3
    rw [lowerBound]
    split
    · omega
    · rename_i hlen
      have hlt : first + len / 2 < (pre ++ post).length := by
        rw [List.length_append]; omega
      simp only [List.getElem?_eq_getElem hlt]
      by_cases hc : first + len / 2 < pre.length
      · have hp : p (pre ++ post)[first + len / 2] = true := by
          rw [List.getElem_append_left hc]; exact hpre _ (List.getElem_mem _)
        rw [if_pos hp]
        exact ih _ (by omega) _ (by omega) (by omega) (by omega)
      · have hp : p (pre ++ post)[first + len / 2] = false := by
          rw [List.getElem_append_right (by omega)]; exact hpost _ (List.getElem_mem _)
        rw [hp]
        simp only [Bool.false_eq_true, if_false]
        exact ih _ (by omega) _ (by omega) (by omega) (by omega)

/-- Buckets in increasing order, separated by a gap. -/
def Separated (bs : List Bucket) : Prop :=
  bs.Pairwise fun a b => a.block.stop < b.block.off

/-- Every sub-range lies inside its bucket. -/
def SubsInside (b : Bucket) : Prop :=
  ∀ s ∈ b.subs, b.block.off ≤ s.off ∧ s.stop ≤ b.block.stop

/-- Split point of a separated list for an insertion at `x`. -/
theorem separated_split (bs : List Bucket) (hs : Separated bs) (x : Nat) :
    ∃ pre post, bs = pre ++ post ∧ (∀ b ∈ pre, b.block.stop < x) ∧ (∀ b ∈ post, x ≤ b.block.stop) := by
  induction bs with
  | nil => exact ⟨[], [], rfl, by simp, by simp⟩
  | cons b rest ih =>
    have hs' := List.pairwise_cons.mp hs
    by_cases h : b.block.stop < x
    · obtain ⟨pre, post, e, h1, h2⟩ := ih hs'.2
      refine ⟨b :: pre, post, by rw [e]; rfl, ?_, h2⟩
      intro c hc
      rcases List.mem_cons.mp hc with rfl | hc
      · exact h
      · exact h1 c hc
    · refine ⟨[], b :: rest, rfl, by simp, ?_⟩
      intro c hc
      rcases List.mem_cons.mp hc with rfl | hc
      · omega
      · have := hs'.1 c hc
        simp only [Block.stop] at *
        omega

/-- The backward loop stops at once when the nearest bucket ends before the new range. -/
theorem mergePrev_noop (a e : Nat) (l : List Bucket) (m : Merge)
    (h : ∀ b ∈ l, b.block.stop < a) : mergePrev a e l m = (l, m) := by
  cases l with
  | nil => rfl
  | cons b rest => rw [mergePrev, if_pos (h b (by simp))]

/-- What the forward loop establishes. -/
theorem mergeNext_spec (e : Nat) :
    ∀ (l : List Bucket) (m : Merge), Separated l →
      m.block.off ≤ e → e ≤ m.block.stop →
      (∀ b ∈ l, m.block.off ≤ b.block.stop) →
      (∀ b ∈ l, m.block.stop ≤ max b.block.stop e) →
      (m.block.stop = e ∨ ∀ b ∈ l, m.block.stop < b.block.off) →
      (∀ s ∈ m.subs, m.block.off ≤ s.off ∧ s.stop ≤ m.block.stop) →
      (∀ b ∈ l, SubsInside b) →
      ∃ taken, l = taken ++ (mergeNext e l m).1 ∧
        (mergeNext e l m).2.subs = m.subs ++ taken.flatMap Bucket.subs ∧
        (∀ b ∈ (mergeNext e l m).1, (mergeNext e l m).2.block.stop < b.block.off) ∧
        (∀ s ∈ (mergeNext e l m).2.subs, (mergeNext e l m).2.block.off ≤ s.off ∧
            s.stop ≤ (mergeNext e l m).2.block.stop) ∧
        (∀ p, Spec.covers (mergeNext e l m).2.block.off (mergeNext e l m).2.block.size p ↔
            Spec.covers m.block.off m.block.size p ∨
              ∃ b ∈ taken, Spec.covers b.block.off b.block.size p) ∧
        ((mergeNext e l m).2.block.off = m.block.off ∨
          ∃ b ∈ taken, (mergeNext e l m).2.block.off = b.block.off) := by
  intro l
  induction l with
  | nil =>
    intro m _ _ _ _ _ _ h6 _
    refine ⟨[], by simp [mergeNext], by simp [mergeNext], by simp [mergeNext], ?_, ?_, ?_⟩
    · simpa [mergeNext] using h6
    · simp [mergeNext]
    · simp [mergeNext]
  | cons b rest ih =>
    intro m hs h1 h2 h3 h4 h5 h6 h7
    have hs' := List.pairwise_cons.mp hs
    rw [mergeNext]
    by_cases hb : b.block.off > e
    · rw [if_pos hb]
      refine ⟨[], by simp, by simp, ?_, by simpa using h6, by simp, by simp⟩
      have hst : m.block.stop < b.block.off := by
        rcases h5 with h5 | h5
        · omega
        · exact h5 b (by simp)
      intro c hc
      rcases List.mem_cons.mp hc with rfl | hc
      · exact hst
      · have := hs'.1 c hc
        simp only [Block.stop] at *
        omega
    · rw [if_neg hb]
      have hb3 := h3 b (by simp)
      have hb4 := h4 b (by simp)
      have hb7 := h7 b (by simp)
      have hoff : (m.step e b).block.off = min m.block.off b.block.off := rfl
      have hstop : (m.step e b).block.stop = max b.block.stop e := by
        simp only [Merge.step, Block.stop] at *; omega
      obtain ⟨taken, e1, e2, e3, e4, e5, e6⟩ := ih (m.step e b) hs'.2
        (by rw [hoff]; omega) (by rw [hstop]; omega)
        (by
          intro c hc
          have := hs'.1 c hc
          rw [hoff]; simp only [Block.stop] at *; omega)
        (by
          intro c hc
          have := hs'.1 c hc
          rw [hstop]; simp only [Block.stop] at *; omega)
        (by
          rw [hstop]
          by_cases hc : b.block.stop ≤ e
          · left; omega
          · right; intro c hc; have := hs'.1 c hc; omega)
        (by
          intro s hs
          rw [hoff, hstop]
          simp only [Merge.step, List.mem_append] at hs
          rcases hs with hs | hs
          · have := h6 s hs; omega
          · have := hb7 s hs; omega)
        (fun c hc => h7 c (by simp [hc]))
      refine ⟨b :: taken, by rw [List.cons_append, ← e1], ?_, e3, e4, ?_, ?_⟩
      · rw [e2]; simp [Merge.step]
      · intro p
        rw [e5 p]
        have hcov : Spec.covers (m.step e b).block.off (m.step e b).block.size p ↔
            Spec.covers m.block.off m.block.size p ∨ Spec.covers b.block.off b.block.size p := by
          clear e6 e5 e4 e3 e2 e1 ih
          simp only [Spec.covers]
          have hs1 : (m.step e b).block.off + (m.step e b).block.size = max b.block.stop e := hstop
          simp only [Block.stop] at *
          omega
        rw [hcov]
        simp only [List.mem_cons, exists_eq_or_imp, or_assoc]
      · rcases e6 with e6 | ⟨c, hc, e6⟩
        · rw [hoff] at e6
          by_cases hm : m.block.off ≤ b.block.off
          · left; omega
          · right; exact ⟨b, by simp, by omega⟩
        · right; exact ⟨c, by simp [hc], e6⟩

/-- The invariant of the bucket list, together with the ranges inserted so far. -/
structure BucketInv (rs : List Block) (bs : List Bucket) : Prop where
  sep : Separated bs
  inside : ∀ b ∈ bs, SubsInside b
  nonempty : ∀ b ∈ bs, b.subs ≠ []
  perm : (bs.flatMap Bucket.subs).Perm rs
  cover : ∀ p, (∃ b ∈ bs, Spec.covers b.block.off b.block.size p) ↔
    ∃ r ∈ rs, Spec.covers r.off r.size p

theorem insertBlock_inv {rs : List Block} {bs : List Bucket} (h : BucketInv rs bs) (r : Block) :
    BucketInv (rs ++ [r]) (insertBlock bs r) := by
  obtain ⟨pre, post, rfl, hpre, hpost⟩ := separated_split bs h.sep r.off
  have hit : lowerBound (fun b : Bucket => decide (b.block.stop < r.off)) (pre ++ post) 0
      (pre ++ post).length = pre.length := by
    apply lowerBound_append
    · intro x hx; simpa using hpre x hx
    · intro x hx; simpa using hpost x hx
    · omega
    · rw [List.length_append]; omega
    · rw [List.length_append]; omega
  have hsep := List.pairwise_append.mp h.sep
  have hins : insertBlock (pre ++ post) r =
      pre ++ { block := (mergeNext r.stop post ⟨r, [r]⟩).2.block,
               subs := (mergeNext r.stop post ⟨r, [r]⟩).2.subs } ::
        (mergeNext r.stop post ⟨r, [r]⟩).1 := by
    simp only [insertBlock, hit, List.take_left', List.drop_left']
    rw [mergePrev_noop]
    · simp
    · intro b hb; exact hpre b (by simpa using hb)
  rw [hins]
  obtain ⟨taken, e1, e2, e3, e4, e5, e6⟩ := mergeNext_spec r.stop post ⟨r, [r]⟩ hsep.2.1
    (by simp [Block.stop]) (by simp)
    (by intro b hb; exact hpost b hb)
    (by intro b hb; simp only; omega)
    (by simp)
    (by intro s hs; simp only [List.mem_singleton] at hs; subst hs; simp)
    (fun b hb => h.inside b (by simp [hb]))
  generalize hn : mergeNext r.stop post ⟨r, [r]⟩ = n at *
  obtain ⟨rest, m⟩ := n
  simp only at *
  subst e1
  have hsepPost := List.pairwise_append.mp hsep.2.1
  refine ⟨?_, ?_, ?_, ?_, ?_⟩
  · refine List.pairwise_append.mpr ⟨hsep.1, ?_, ?_⟩
    · exact List.pairwise_cons.mpr ⟨e3, hsepPost.2.1⟩
    · intro a ha b hb
      rcases List.mem_cons.mp hb with rfl | hb
      · simp only
        rcases e6 with e6 | ⟨c, hc, e6⟩
        · rw [e6]; exact hpre a ha
        · rw [e6]; exact hsep.2.2 a ha c (by simp [hc])
      · exact hsep.2.2 a ha b (by simp [hb])
  · intro b hb
    simp only [List.mem_append, List.mem_cons] at hb
    rcases hb with hb | rfl | hb
    · exact h.inside b (by simp [hb])
    · exact e4
    · exact h.inside b (by simp [hb])
  · intro b hb
    simp only [List.mem_append, List.mem_cons] at hb
    rcases hb with hb | rfl | hb
    · exact h.nonempty b (by simp [hb])
    · simp [e2]
    · exact h.nonempty b (by simp [hb])
  · have hp := h.perm
    simp only [List.flatMap_append, List.flatMap_cons] at hp ⊢
    rw [e2]
    simp only [List.singleton_append]
    have h1 : (pre.flatMap Bucket.subs ++ ([r] ++ taken.flatMap Bucket.subs) ++
        rest.flatMap Bucket.subs).Perm
        ((pre.flatMap Bucket.subs ++ (taken.flatMap Bucket.subs ++ rest.flatMap Bucket.subs)) ++ [r]) := by
      simp only [List.append_assoc]
      refine List.Perm.append_left _ ?_
      rw [← List.append_assoc (taken.flatMap _)]
      exact List.perm_append_comm
    have h2 := h1.trans (List.Perm.append_right [r] hp)
    simpa only [List.append_assoc, List.singleton_append] using h2
  · intro p
    have hc := h.cover p
    have e5p := e5 p
    constructor
    · rintro ⟨b, hb, hbp⟩
      simp only [List.mem_append, List.mem_cons] at hb
      have old : (∃ r ∈ rs, Spec.covers r.off r.size p) →
          ∃ q ∈ rs ++ [r], Spec.covers q.off q.size p := by
        rintro ⟨q, hq, hqp⟩; exact ⟨q, by simp [hq], hqp⟩
      rcases hb with hb | rfl | hb
      · exact old (hc.mp ⟨b, by simp [hb], hbp⟩)
      · rcases e5p.mp hbp with h1 | ⟨c, hcm, hcp⟩
        · exact ⟨r, by simp, h1⟩
        · exact old (hc.mp ⟨c, by simp [hcm], hcp⟩)
      · exact old (hc.mp ⟨b, by simp [hb], hbp⟩)
    · rintro ⟨q, hq, hqp⟩
      simp only [List.mem_append, List.mem_singleton] at hq
      rcases hq with hq | rfl
      · obtain ⟨b, hb, hbp⟩ := hc.mpr ⟨q, hq, hqp⟩
        simp only [List.mem_append] at hb
        rcases hb with hb | hb | hb
        · exact ⟨b, by simp [hb], hbp⟩
        · exact ⟨⟨m.block, m.subs⟩, by simp, e5p.mpr (Or.inr ⟨b, hb, hbp⟩)⟩
        · exact ⟨b, by simp [hb], hbp⟩
      · exact ⟨⟨m.block, m.subs⟩, by simp, e5p.mpr (Or.inl hqp)⟩

theorem bucketsOf_inv (rs : List Block) : BucketInv rs (bucketsOf rs) := by
  have gen : ∀ (l done : List Block) (bs : List Bucket), BucketInv done bs →
      BucketInv (done ++ l) (l.foldl insertBlock bs) := by
    intro l
    induction l with
    | nil => intro done bs h; simpa using h
    | cons r rest ih =>
      intro done bs h
      have := ih (done ++ [r]) (insertBlock bs r) (insertBlock_inv h r)
      simpa using this
  have h0 : BucketInv [] [] := ⟨List.Pairwise.nil, by simp, by simp, by simp, by simp⟩
  simpa [bucketsOf] using gen rs [] [] h0

/-- A bucket ends where one of its sub-ranges ends, so it stays within any common bound. -/
theorem bucketsOf_bound (rs : List Block) (n : Nat) (h : ∀ r ∈ rs, r.stop ≤ n) :
    ∀ b ∈ bucketsOf rs, b.block.stop ≤ n := by
  have inv := bucketsOf_inv rs
  intro b hb
  by_cases hz : b.block.size = 0
  · obtain ⟨s, hs⟩ := List.exists_mem_of_ne_nil _ (inv.nonempty b hb)
    have hi := inv.inside b hb s hs
    have := h s (inv.perm.mem_iff.mp (List.mem_flatMap.mpr ⟨b, hb, hs⟩))
    simp only [Block.stop] at *
    omega
  · have hc : Spec.covers b.block.off b.block.size (b.block.stop - 1) := by
      simp only [Spec.covers, Block.stop]; omega
    obtain ⟨r, hr, hrc⟩ := (inv.cover _).mp ⟨b, hb, hc⟩
    have := h r hr
    simp only [Spec.covers, Block.stop] at *
    omega

/-- Every entry of the map was put there by a bucket that holds the key. -/
theorem decodeBuckets_mem {α : Type} (dec : Block → Res (List α)) :
    ∀ (bs : List Bucket) (acc m : List (Block × Block × List α)),
      decodeBuckets dec bs acc = .ok m →
      (∀ e ∈ m, e ∈ acc ∨ ∃ b ∈ bs, e.1 ∈ b.subs ∧ e.2.1 = b.block ∧ dec b.block = .ok e.2.2) ∧
      (∀ e ∈ acc, e ∈ m) ∧
      (∀ b ∈ bs, ∀ s ∈ b.subs, ∃ e ∈ m, e.1 = s) ∧
      (∀ b ∈ bs, ∃ d, dec b.block = .ok d) := by
  intro bs
  induction bs with
  | nil =>
    intro acc m h
    simp only [decodeBuckets, Except.ok.injEq] at h
    subst h
    exact ⟨fun e he => Or.inl he, fun e he => he, by simp, by simp⟩
  | cons b rest ih =>
    intro acc m h
    rw [decodeBuckets] at h
    cases hd : dec b.block with
    | error f => rw [hd] at h; cases h
    | ok d =>
      rw [hd] at h
      obtain ⟨h1, h2, h3, h4⟩ := ih _ m h
      refine ⟨?_, ?_, ?_, ?_⟩
      · intro e he
        rcases h1 e he with h | ⟨c, hc, h⟩
        · simp only [List.mem_append, List.mem_reverse, List.mem_map] at h
          rcases h with ⟨s, hs, rfl⟩ | h
          · exact Or.inr ⟨b, by simp, hs, rfl, hd⟩
          · exact Or.inl h
        · exact Or.inr ⟨c, by simp [hc], h⟩
      · intro e he; exact h2 e (by simp [he])
      · intro c hc s hs
        rcases List.mem_cons.mp hc with rfl | hc
        · exact ⟨(s, c.block, d), h2 _ (by simp [hs]), rfl⟩
        · exact h3 c hc s hs
      · intro c hc
        rcases List.mem_cons.mp hc with rfl | hc
        · exact ⟨d, hd⟩
        · exact h4 c hc

theorem decodeBuckets_ok {α : Type} (dec : Block → Res (List α)) :
    ∀ (bs : List Bucket) (acc : List (Block × Block × List α)),
      (∀ b ∈ bs, ∃ d, dec b.block = .ok d) → ∃ m, decodeBuckets dec bs acc = .ok m := by
  intro bs
  induction bs with
  | nil => intro acc _; exact ⟨acc, rfl⟩
  | cons b rest ih =>
    intro acc h
    obtain ⟨d, hd⟩ := h b (by simp)
    rw [decodeBuckets, hd]
    exact ih _ (fun c hc => h c (by simp [hc]))

theorem decodeBuckets_error {α : Type} (dec : Block → Res (List α)) :
    ∀ (bs : List Bucket) (acc : List (Block × Block × List α)) (f : Fault),
      decodeBuckets dec bs acc = .error f → ∃ b ∈ bs, dec b.block = .error f := by
  intro bs
  induction bs with
  | nil => intro acc f h; cases h
  | cons b rest ih =>
    intro acc f h
    rw [decodeBuckets] at h
    cases hd : dec b.block with
    | error g => rw [hd] at h; cases h; exact ⟨b, by simp, hd⟩
    | ok d =>
      rw [hd] at h
      obtain ⟨c, hc, h⟩ := ih _ f h
      exact ⟨c, by simp [hc], h⟩

theorem mapM_ok {α β : Type} (f : α → Res β) (g : α → β) :
    ∀ l : List α, (∀ a ∈ l, f a = .ok (g a)) → l.mapM f = .ok (l.map g) := by
  intro l
  induction l with
  | nil => intro _; rfl
  | cons a rest ih =>
    intro h
    rw [List.mapM_cons, h a (by simp), ih (fun b hb => h b (by simp [hb]))]
    rfl

/-- If every bucket was decoded to the slice of `field` it covers, each user range is sliced
correctly out of its bucket. -/
theorem decodeRanges_slices {α : Type} (field : List α) (dec : Block → Res (List α))
    (rs : List Block) (m : List (Block × Block × List α))
    (hm : decodeBuckets dec (bucketsOf rs) [] = .ok m)
    (good : ∀ b ∈ bucketsOf rs, b.block.stop ≤ field.length ∧
      dec b.block = .ok (Spec.slice field b.block.off b.block.size)) :
    ∀ r ∈ rs, sliceUser m r = .ok (Spec.slice field r.off r.size) ∧ r.stop ≤ field.length := by
  have inv := bucketsOf_inv rs
  obtain ⟨h1, _, h3, _⟩ := decodeBuckets_mem dec _ _ _ hm
  intro r hr
  have hr' : r ∈ (bucketsOf rs).flatMap Bucket.subs := inv.perm.mem_iff.mpr hr
  obtain ⟨b, hb, hrb⟩ := List.mem_flatMap.mp hr'
  obtain ⟨e, he, her⟩ := h3 b hb r hrb
  have hsome : (m.find? fun e => e.1 == r).isSome := by
    rw [List.find?_isSome]; exact ⟨e, he, by simp [her]⟩
  obtain ⟨⟨k, bk, d⟩, hf⟩ := Option.isSome_iff_exists.mp hsome
  have hk : k = r := by simpa using List.find?_some hf
  subst hk
  rcases h1 _ (List.mem_of_find?_eq_some hf) with h | ⟨c, hc, hkc, hbk, hdc⟩
  · simp at h
  · simp only at hkc hbk hdc
    subst hbk
    obtain ⟨hlen, hd⟩ := good c hc
    rw [hd] at hdc
    cases hdc
    obtain ⟨i1, i2⟩ := inv.inside c hc k hkc
    have hl : (Spec.slice field c.block.off c.block.size).length = c.block.size := by
      simp only [Spec.slice, List.length_take, List.length_drop]
      simp only [Block.stop] at *
      omega
    refine ⟨?_, by omega⟩
    rw [sliceUser, hf]
    simp only [hl]
    rw [if_pos (by simp only [Block.stop] at *; omega)]
    congr 1
    simp only [Spec.slice, List.drop_take, List.take_take, List.drop_drop]
    have h1 : min k.size (c.block.size - (k.off - c.block.off)) = k.size := by
      simp only [Block.stop] at *; omega
    have h2 : c.block.off + (k.off - c.block.off) = k.off := by omega
    rw [h1, h2]

end GJ
