import Verif.Model.Service
import Verif.Props.C15
import Verif.Props.C48

/-!
# C49: extraction through the cache gives what extraction straight from the file gives
-/

namespace GJ
open Spec

/-- Steps concern files in use; data files change by appending only. -/
def SEv.Allowed (U : String → Prop) : SEv → Prop
  | .cache (.lookup p _) => U p
  | .cache (.scan p _) => U p
  | .cache (.scanFile p _) => U p
  | .cache (.insert p _) => U p
  | .cache (.elsewhere _ ws) => ∀ x ∈ ws, U x.1
  | .cache (.grow _) => False
  | _ => True

section
variable {V : Type} {R : Reader V} {offs : List UInt8 → Res (List Nat)}

/-- A message that could be read is there, and is still there after the file grew. -/
theorem message_stays (sound : SoundReader R) {file : List UInt8} {o : Nat} {i : Info}
    (h : buildInfo R file o = .ok i) (more : List UInt8) :
    ∃ msg h, GoodMessage R msg h ∧ HasMessage file o msg ∧ HasMessage (file ++ more) o msg := by
  cases hp : R.parse (file.drop o) with
  | none => unfold buildInfo at h; rw [hp] at h; cases h
  | some hd =>
    obtain ⟨msg, rest, hne, hb, good⟩ := sound _ _ hp
    have ho : o ≤ file.length := by
      apply Nat.le_of_not_lt
      intro hlt
      rw [List.drop_eq_nil_of_le (by omega)] at hb
      exact hne (List.append_eq_nil_iff.mp hb.symm).1
    refine ⟨msg, hd, good, ⟨file.take o, rest, by rw [← hb, List.take_append_drop], by rw [List.length_take]; omega⟩,
      ⟨file.take o, rest ++ more, ?_, by rw [List.length_take]; omega⟩⟩
    rw [← List.append_assoc msg, ← hb, ← List.append_assoc, List.take_append_drop]

theorem buildInfo_grown (sound : SoundReader R) {file : List UInt8} {o : Nat} {i : Info}
    (h : buildInfo R file o = .ok i) (more : List UInt8) : buildInfo R (file ++ more) o = .ok i := by
  obtain ⟨msg, hd, good, h1, h2⟩ := message_stays sound h more
  rw [← h]
  exact (C46_place_does_not_matter R msg hd good _ _ o o h2 h1).1

theorem messageExtract_grown (sound : SoundReader R) {file : List UInt8} {o : Nat} {is : List Interval}
    {r : ExResult V} (h : messageExtract R file o is = .ok r) (more : List UInt8) :
    messageExtract R (file ++ more) o is = .ok r := by
  unfold messageExtract at h
  obtain ⟨i, hb, -⟩ := res_bind_inv h
  obtain ⟨msg, hd, good, h1, h2⟩ := message_stays sound hb more
  rw [C46_same_results R msg hd good _ _ o o h2 h1 is]
  exact h

theorem diskWorld_defined (hoffs : ∀ file, offs file ≠ undef) (d : Disk) : (diskWorld R offs d).Defined where
  data p o := by
    simp only [diskWorld]
    split
    · intro h; cases h
    · exact buildInfo_defined R _ o
  offsets p := by
    simp only [diskWorld]
    split
    · intro h; cases h
    · exact hoffs _

theorem diskWorld_grown (sound : SoundReader R) (d : Disk) (path : String) (bytes : List UInt8) :
    Grown (diskWorld R offs d) (diskWorld R offs (d.append path bytes)) := by
  intro p o i h
  simp only [diskWorld, Disk.append] at h ⊢
  cases hd : d p with
  | none => rw [hd] at h; cases h
  | some file =>
    rw [hd] at h
    by_cases hp : p = path
    · rw [if_pos hp]
      exact buildInfo_grown sound h bytes
    · rw [if_neg hp]
      exact h

/-- Between steps: the cache is right about the files as they are, and every extraction done is right. -/
structure SvcGood (R : Reader V) (offs : List UInt8 → Res (List Nat)) (U : String → Prop) (s : Svc V) : Prop where
  cache : Good U s.sys
  world : s.sys.W = diskWorld R offs s.disk
  picks : ∀ p ∈ s.picks, p.result = messageExtract R p.file p.offset p.ranges ∧
    ∃ more, s.disk p.path = some (p.file ++ more)

theorem mapM_getElem {α β : Type} {f : α → Res β} : ∀ {l : List α} {bs : List β} {j : Nat} {a : α} {b : β},
    l.mapM f = .ok bs → l[j]? = some a → bs[j]? = some b → f a = .ok b := by
  intro l
  induction l with
  | nil => intro bs j a b _ h; simp at h
  | cons x xs ih =>
    intro bs j a b h ha hb
    rw [mapM_res_cons] at h
    obtain ⟨y, hy, h⟩ := res_bind_inv h
    obtain ⟨ys, hys, h⟩ := res_bind_inv h
    cases h
    cases j with
    | zero =>
      simp only [List.getElem?_cons_zero, Option.some.injEq] at ha hb
      rw [← ha, ← hb]; exact hy
    | succ j => exact ih hys (by simpa using ha) (by simpa using hb)

theorem mapM_length {α β : Type} {f : α → Res β} : ∀ {l : List α} {bs : List β}, l.mapM f = .ok bs →
    bs.length = l.length := by
  intro l
  induction l with
  | nil => intro bs h; rw [List.mapM_nil] at h; cases h; rfl
  | cons x xs ih =>
    intro bs h
    rw [mapM_res_cons] at h
    obtain ⟨y, -, h⟩ := res_bind_inv h
    obtain ⟨ys, hys, h⟩ := res_bind_inv h
    cases h
    simp [ih hys]

/-- Metadata that is right makes the jump what direct extraction is. -/
theorem jump_direct (d : Disk) {path : String} {file : List UInt8} {os : List Nat} {infos : List Info}
    (hd : d path = some file) (h : extractInfos (diskWorld R offs d) path os = .ok infos) {j : Nat} {o : Nat} {i : Info}
    (ho : os[j]? = some o) (hi : infos[j]? = some i) (is : List Interval) :
    diskJump R d path o i is = messageExtract R file o is := by
  have hb : buildInfo R file o = .ok i := by
    have := mapM_getElem h ho hi
    simpa only [diskWorld, hd] using this
  unfold diskJump messageExtract
  rw [hd, hb, ok_bind]

theorem SvcGood.step (sound : SoundReader R) (hoffs : ∀ file, offs file ≠ undef) {U : String → Prop} {s : Svc V}
    (g : SvcGood R offs U s) (e : SEv) (ha : e.Allowed U) : ∃ s', s.step R offs e = .ok s' ∧ SvcGood R offs U s' := by
  cases e with
  | cache e =>
    have hal : Allowed U s.sys.W e ∧ e.world s.sys.W = s.sys.W := by
      cases e <;> first | exact ⟨ha, rfl⟩ | exact ⟨trivial, rfl⟩ | exact absurd ha id
    obtain ⟨y, h1, h2⟩ := g.cache.step e hal.1
    refine ⟨{ s with sys := y }, by rw [Svc.step, h1, ok_bind], h2, ?_, g.picks⟩
    rw [← g.world, ← hal.2]
    exact Sys.step_world h1
  | append path bytes =>
    obtain ⟨y, h1, h2⟩ := g.cache.step (.grow (diskWorld R offs (s.disk.append path bytes)))
      ⟨by rw [g.world]; exact diskWorld_grown sound s.disk path bytes, diskWorld_defined hoffs _⟩
    rw [Sys.step] at h1
    cases h1
    refine ⟨_, rfl, h2, rfl, ?_⟩
    intro p hp
    obtain ⟨h3, more, h4⟩ := g.picks p hp
    refine ⟨h3, ?_⟩
    simp only [Disk.append]
    by_cases hpp : p.path = path
    · rw [if_pos hpp, h4]
      exact ⟨more ++ bytes, by rw [Option.getD_some, List.append_assoc]⟩
    · rw [if_neg hpp]
      exact ⟨more, h4⟩
  | jump k j is =>
    rw [Svc.step]
    split
    · rename_i path os infos hk
      split
      · rename_i o i file ho hi hd
        refine ⟨_, rfl, g.cache, g.world, ?_⟩
        intro p hp
        rcases List.mem_append.mp hp with hp | hp
        · exact g.picks p hp
        · rw [List.mem_singleton] at hp
          subst hp
          refine ⟨?_, [], by rw [List.append_nil]; exact hd⟩
          have := g.cache.answers _ (List.mem_of_getElem? hk) infos rfl
          rw [g.world] at this
          exact jump_direct s.disk hd this ho hi is
      · exact ⟨s, rfl, g⟩
    · exact ⟨s, rfl, g⟩

theorem SvcGood.run (sound : SoundReader R) (hoffs : ∀ file, offs file ≠ undef) {U : String → Prop} (es : List SEv) :
    ∀ {s : Svc V}, SvcGood R offs U s → (∀ e ∈ es, e.Allowed U) →
      ∃ s', s.run R offs es = .ok s' ∧ SvcGood R offs U s' := by
  induction es with
  | nil => intro s g _; exact ⟨s, rfl, g⟩
  | cons e es ih =>
    intro s g ha
    obtain ⟨s1, h1, h2⟩ := g.step sound hoffs e (ha e List.mem_cons_self)
    rw [Svc.run, h1, ok_bind]
    exact ih h2 fun e' he' => ha e' (List.mem_cons_of_mem _ he')

theorem SvcGood.start (hoffs : ∀ file, offs file ≠ undef) {U : String → Prop} {d : Disk} {mode : CacheMode} {lazy : Bool}
    {cap : Nat} {fs : FS} (hU : ToldApart mode U) (hcap : 0 < cap) (hi : GoodIndex (diskWorld R offs d) U mode fs) :
    SvcGood R offs U (Svc.start R offs d mode lazy cap fs) :=
  ⟨Good.start (diskWorld_defined hoffs d) hU hcap hi, rfl, by intro p hp; cases hp⟩

end

/-- C49.  Threads look up metadata, scan, insert, flush, clear the cache and extract, and files grow, in any
interleaving.  Starting from index files that agree with the data, nothing undefined happens in the cache, and every
extraction with metadata from the cache has the outcome that extraction straight from the file, reading the header of
the message anew, has at that time; values once extracted are those the file gives ever after.  Missing from the full
property: file names the cache confuses (`ToldApart`, see C15). -/
theorem C49_cached_equals_direct_partial {V : Type} (R : Reader V) (sound : SoundReader R)
    (offs : List UInt8 → Res (List Nat)) (hoffs : ∀ file, offs file ≠ undef) (U : String → Prop) (d : Disk)
    (mode : CacheMode) (lazy : Bool) (cap : Nat) (fs : FS) (apart : ToldApart mode U) (room : 0 < cap)
    (agree : GoodIndex (diskWorld R offs d) U mode fs) (es : List SEv) (allowed : ∀ e ∈ es, e.Allowed U) :
    ∃ s, (Svc.start R offs d mode lazy cap fs).run R offs es = .ok s ∧
      ∀ p ∈ s.picks, p.result = messageExtract R p.file p.offset p.ranges ∧
        ∃ now, s.disk p.path = some now ∧ p.file <+: now ∧
          ∀ r, p.result = .ok r → messageExtract R now p.offset p.ranges = .ok r := by
  obtain ⟨s, h1, h2⟩ := (SvcGood.start (lazy := lazy) hoffs apart room agree).run sound hoffs es allowed
  refine ⟨s, h1, fun p hp => ?_⟩
  obtain ⟨h3, more, h4⟩ := h2.picks p hp
  refine ⟨h3, _, h4, List.prefix_append _ _, fun r hr => ?_⟩
  rw [h3] at hr
  exact messageExtract_grown sound hr more

/-- C49.  After any such history, a lookup of messages that are indexed, or that can be read from the file when
metadata is built on demand, answers; with the metadata it gives, extraction has the outcome extraction straight from
the file has. -/
theorem C49_cached_extraction_answers_partial {V : Type} (R : Reader V) (sound : SoundReader R)
    (offs : List UInt8 → Res (List Nat)) (hoffs : ∀ file, offs file ≠ undef) (U : String → Prop) (d : Disk)
    (mode : CacheMode) (lazy : Bool) (cap : Nat) (fs : FS) (apart : ToldApart mode U) (room : 0 < cap)
    (agree : GoodIndex (diskWorld R offs d) U mode fs) (es : List SEv) (allowed : ∀ e ∈ es, e.Allowed U) :
    ∃ s, (Svc.start R offs d mode lazy cap fs).run R offs es = .ok s ∧
      ∀ path file offsets, U path → s.disk path = some file → offsets.Nodup →
        (∀ o ∈ offsets, (∃ i, s.sys.c.indexed path o = some i) ∨
          (s.sys.c.lazy = true ∧ ∃ i, buildInfo R file o = .ok i)) →
        ∃ infos c', s.sys.c.get s.sys.W path offsets = .ok (infos, c') ∧ infos.length = offsets.length ∧
          ∀ (j : Nat) o i, offsets[j]? = some o → infos[j]? = some i → ∀ is,
            diskJump R s.disk path o i is = messageExtract R file o is := by
  obtain ⟨s, h1, h2⟩ := (SvcGood.start (lazy := lazy) hoffs apart room agree).run sound hoffs es allowed
  refine ⟨s, h1, ?_⟩
  intro path file offsets hp hd hn hav
  obtain ⟨infos, c', hg, hm⟩ := lookup_answers U s.sys h2.cache path hp offsets hn (by
    intro o ho
    rcases hav o ho with h | ⟨hl, i, hb⟩
    · exact Or.inl h
    · refine Or.inr ⟨hl, i, ?_⟩
      rw [h2.world]
      simp only [diskWorld, hd]
      exact hb)
  refine ⟨infos, c', hg, ?_, ?_⟩
  · exact mapM_length hm
  · intro j o i ho hi is
    rw [h2.world] at hm
    exact jump_direct s.disk hd hm ho hi is

/-! ## The hypotheses are met -/

theorem toySound : SoundReader toyReader := by
  intro bytes h hp
  match bytes, hp with
  | [], hp => simp [toyReader, toyParse] at hp
  | [_], hp => simp [toyReader, toyParse] at hp
  | a :: b :: rest, hp =>
    by_cases ha : a = 0x47
    · subst ha
      simp only [toyReader, toyParse] at hp
      split at hp
      · rename_i hn
        have hl : (rest.take b.toNat).length = b.toNat := by rw [List.length_take]; omega
        refine ⟨0x47 :: b :: rest.take b.toNat, rest.drop b.toNat, by simp, ?_, ?_⟩
        · simp
        · cases hp
          refine ⟨fun post => ?_, ?_, fun hb => by simp at hb⟩
          · simp only [toyReader, toyParse, List.cons_append]
            rw [if_pos (by rw [List.length_append, hl]; omega)]
          · simp only [List.length_cons, hl]; omega
      · cases hp
    · simp [toyReader, toyParse, ha] at hp

def toyDisk : Disk := fun f => if f = "/fdb/a.data" then some toyMessage else none

def toySteps : List SEv :=
  [.cache (.lookup "/fdb/a.data" [0]), .append "/fdb/a.data" [0x47, 2, 7, 8], .cache (.answer 0), .jump 0 0 [⟨1, 3⟩],
   .cache (.scan "/fdb/a.data" [6]), .cache (.commit 0), .cache .clear, .cache (.lookup "/fdb/a.data" [6, 0]),
   .cache (.answer 0), .jump 1 0 [⟨0, 2⟩], .jump 1 1 [⟨0, 1⟩, ⟨3, 4⟩]]

/-- Non-vacuity of C49: the toy reader is sound, the file names are told apart, the steps are allowed, and three
extractions happen, one of them from a message appended in the meantime. -/
example : SoundReader toyReader ∧ ToldApart .shadow oneFile ∧
    GoodIndex (diskWorld toyReader (fun _ => .ok []) toyDisk) oneFile .shadow [] ∧
    (∀ e ∈ toySteps, e.Allowed oneFile) ∧
    ((Svc.start toyReader (fun _ => .ok []) toyDisk .shadow true 16 []).run toyReader (fun _ => .ok [])
      toySteps).map (fun s => s.picks.map fun p => (p.offset, p.result)) =
      .ok [(0, .ok ⟨[[11, 12]], [[3]]⟩), (6, .ok ⟨[[7, 8]], [[3]]⟩), (0, .ok ⟨[[10], [13]], [[1], [1]]⟩)] := by
  refine ⟨toySound, C15_separated _ _ ?_ ?_, ?_, ?_, ?_⟩
  · intro p q hp hq _; rw [hp, hq]
  · intro p hp c hc
    rw [hp] at hc
    have : (baseName "/fdb/a.data").toList.getLast? = some 'a' := by decide +kernel
    rw [this] at hc
    cases hc; decide
  · intro p _; exact ⟨[], Or.inl ⟨rfl, rfl⟩, fun x hx => by cases hx⟩
  · intro e he
    simp only [toySteps, List.mem_cons, List.mem_nil_iff, or_false] at he
    rcases he with rfl | rfl | rfl | rfl | rfl | rfl | rfl | rfl | rfl | rfl | rfl <;> first | rfl | trivial
  · decide +kernel

end GJ
