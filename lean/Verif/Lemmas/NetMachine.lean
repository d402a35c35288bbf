import Verif.Props.C76
import Verif.Props.C53

/-!
# Processes with the machine's arithmetic

Lemmas on processes that compute with `machineExtract`: results can be sent, and are those of natural numbers for fields and
intervals of ordinary size.
-/

namespace GJ
open Spec

theorem decodeRanges64_fits {V : Type} {mem : Nat} {dec : Block → Res (List V)} {is : List Interval} {out : List (List V)}
    (h : decodeRanges64 mem dec (toRanges is) = .ok out) : ∀ v ∈ out, v.length < 2 ^ 64 := by
  intro v hv
  rw [decodeRanges64] at h
  obtain ⟨m, -, h⟩ := res_bind_inv h
  obtain ⟨r, hr, h⟩ := mapM_mem h v hv
  have hs : r.size < 2 ^ 64 := by
    obtain ⟨i, -, rfl⟩ := List.mem_map.mp hr
    exact Nat.mod_lt _ (by decide)
  rw [sliceUser64] at h
  obtain ⟨v', h, h'⟩ := res_bind_inv h
  obtain ⟨⟨⟩, -, h'⟩ := res_bind_inv h'
  cases h'
  rw [sliceUser] at h
  split at h
  · cases h
  · split at h
    · cases h
      rw [List.length_take]
      omega
    · cases h

/-- Whatever the file holds and whatever the metadata says. -/
theorem machineExtract_fits {V : Type} {mem : Nat} {R : Reader V} {file : List UInt8} {offset : Nat} {info : Info}
    {is : List Interval} {r : ExResult V} (hi : ∀ i ∈ is, i.b < 2 ^ 64 ∧ i.e < 2 ^ 64)
    (h : machineExtract mem R file offset info is = .ok r) : ResultFits r := by
  rw [machineExtract] at h
  split at h
  · refine extract_fits (fun js out h => ?_) hi h
    cases info with
    | simple b => rw [simpleReadValues64] at h; exact decodeRanges64_fits h
    | ccsds b x => cases h
    | unsupported b => cases h
  · split at h
    · refine extract_fits (fun js out h => ?_) hi h
      cases info with
      | simple b => cases h
      | ccsds b x =>
        rw [ccsdsReadValues64] at h
        obtain ⟨⟨⟩, -, h⟩ := res_bind_inv h
        exact decodeRanges64_fits h
      | unsupported b => cases h
    · cases h

theorem machine_sends {p : Site} {mem : Nat} (h : p.jump = machineExtract mem p.reader) : p.Sends := by
  intro file o i is r hi hj
  rw [h] at hj
  exact machineExtract_fits hi hj

/-- Metadata of a message at a place: the data section runs forward and ends below `2^63`, compression offsets are 64-bit,
and a field with a bitmap has at most `limit` points. -/
def Ordinary (limit o : Nat) (i : Info) : Prop :=
  i.base.offsetBeforeData ≤ i.base.offsetAfterData ∧ o + i.base.offsetAfterData < 2 ^ 63 ∧
    (∀ j x, i = .ccsds j x → ∀ o ∈ x.offsets, o < 2 ^ 64) ∧
    (i.base.offsetBeforeBitmap ≠ 0 → i.base.numberOfDataPoints ≤ limit)

theorem HoldsAt.machine {p : Site} {mem limit : Nat} (machine : p.jump = machineExtract mem p.reader) (small : limit < 2 ^ 58)
    {d : Disk} {u : Uri} {q : ExRequest} {r : WireResult} (h : HoldsAt p d u q r)
    (ordinary : ∀ file i, d u.path = some file → buildInfo p.reader file u.offset = .ok i → Ordinary limit u.offset i)
    (intervals : ∀ i ∈ q.ranges, i.b ≤ i.e ∧ i.e ≤ limit) :
    ∃ file h, d u.path = some file ∧ p.reader.parse (file.drop u.offset) = some h ∧
      messageExtract p.reader file u.offset q.ranges = .ok r ∧
      (p.conf.ignoreGrid = false → q.gridHash ≠ "" ∧ q.gridHash = h.md5GridSection) := by
  obtain ⟨file, hh, i, h1, h2, h3, ⟨before, more, h4, h5⟩, h6⟩ := h
  refine ⟨file, hh, h1, h2, ?_, h6⟩
  obtain ⟨o1, o2, o3, o4⟩ := ordinary file i h1 h3
  unfold messageExtract
  rw [h3, ok_bind, h4]
  rw [machine] at h5
  exact jumperExtract_grown p.reader before more u.offset i q.ranges r
    ((C53_machine_agrees_partial mem limit p.reader before u.offset i q.ranges small o1 o2 o3 (fun _ => intervals) o4).1 r h5)

end GJ
