import Verif.Model.Direct
import Verif.Lemmas.Codec
import Verif.Lemmas.Engine
import Verif.Props.C07

/-!
# Results fit the wire format
-/

namespace GJ
open Spec

theorem mapM_mem {α β : Type} {f : α → Res β} : ∀ {l : List α} {out : List β}, l.mapM f = .ok out →
    ∀ b ∈ out, ∃ a ∈ l, f a = .ok b := by
  intro l
  induction l with
  | nil =>
    intro out h b hb
    rw [List.mapM_nil] at h
    cases h; cases hb
  | cons a l ih =>
    intro out h b hb
    rw [List.mapM_cons] at h
    obtain ⟨x, hx, h⟩ := res_bind_inv h
    obtain ⟨xs, hxs, h⟩ := res_bind_inv h
    cases h
    rcases List.mem_cons.mp hb with rfl | hb
    · exact ⟨a, List.mem_cons_self .., hx⟩
    · obtain ⟨a', ha', h'⟩ := ih hxs b hb
      exact ⟨a', List.mem_cons_of_mem _ ha', h'⟩

theorem toBitset_fits (bm : List Bool) (h : bm.length < 2 ^ 64) :
    (toBitset bm).length < 2 ^ 64 ∧ ∀ w ∈ toBitset bm, w < 2 ^ 64 := by
  obtain ⟨h1, h2⟩ := C10_mask_words bm
  refine ⟨by rw [h1]; omega, ?_⟩
  intro w hw
  obtain ⟨j, hj⟩ := List.getElem?_of_mem hw
  exact (h2 j w hj).1

theorem mkVector_fits {α : Type} {n : Nat} {x : α} {v : List α} (h : mkVector n x = .ok v) : v.length < 2 ^ 64 := by
  rw [mkVector] at h
  split at h
  · cases h
  · cases h
    rw [List.length_replicate]
    omega

theorem decodeRanges_fits {V : Type} {dec : Block → Res (List V)} {is : List Interval} {out : List (List V)}
    (h : decodeRanges dec (toRanges is) = .ok out) : ∀ v ∈ out, v.length < 2 ^ 64 := by
  intro v hv
  rw [decodeRanges] at h
  obtain ⟨m, -, h⟩ := res_bind_inv h
  obtain ⟨r, hr, h⟩ := mapM_mem h v hv
  have hs : r.size < 2 ^ 64 := by
    obtain ⟨i, -, rfl⟩ := List.mem_map.mp hr
    exact Nat.mod_lt _ (by decide)
  rw [sliceUser] at h
  split at h
  · cases h
  · split at h
    · cases h
      rw [List.length_take]
      omega
    · cases h

theorem mkExt_fits {bm : List Bool} {g : Bool} {b e : Nat} {x : Ext} (h : mkExt bm g b e = .ok x) (he : e < 2 ^ 64) :
    x.bitmap.length < 2 ^ 64 := by
  rw [mkExt] at h
  split at h
  · cases h
    simp only [List.length_take]
    omega
  · cases h

theorem mkGaps_fits {bm : List Bool} : ∀ {is : List Interval} {pos : Nat} {gs : List Ext}, mkGaps bm pos is = .ok gs →
    (∀ i ∈ is, i.b < 2 ^ 64) → ∀ g ∈ gs, g.bitmap.length < 2 ^ 64 := by
  intro is
  induction is with
  | nil => intro pos gs h _ g hg; rw [mkGaps] at h; cases h; cases hg
  | cons i is ih =>
    intro pos gs h hb g hg
    rw [mkGaps] at h
    obtain ⟨x, hx, h⟩ := res_bind_inv h
    obtain ⟨xs, hxs, h⟩ := res_bind_inv h
    cases h
    rcases List.mem_cons.mp hg with rfl | hg
    · exact mkExt_fits hx (hb i (List.mem_cons_self ..))
    · exact ih hxs (fun i hi => hb i (List.mem_cons_of_mem _ hi)) g hg

theorem mem_mergeExt (xs gs : List Ext) : ∀ x, x ∈ mergeExt xs gs → x ∈ xs ∨ x ∈ gs := by
  fun_induction mergeExt xs gs with
  | case1 gs => intro x hx; exact Or.inr hx
  | case2 i is => intro x hx; exact Or.inl hx
  | case3 i is g gs h ih =>
    intro x hx
    rcases List.mem_cons.mp hx with rfl | hx
    · exact Or.inr (List.mem_cons_self ..)
    · exact (ih x hx).imp id (List.mem_cons_of_mem _)
  | case4 i is g gs h ih =>
    intro x hx
    rcases List.mem_cons.mp hx with rfl | hx
    · exact Or.inl (List.mem_cons_self ..)
    · exact (ih x hx).imp (List.mem_cons_of_mem _) id

theorem maskedOut_mem : ∀ (xs : List Ext) (cum : Nat), ∀ p ∈ maskedOut cum xs, ∃ x ∈ xs, p.2 = x.bitmap := by
  intro xs
  induction xs with
  | nil => intro cum p hp; cases hp
  | cons x xs ih =>
    intro cum p hp
    rw [maskedOut] at hp
    split at hp
    · obtain ⟨y, hy, h⟩ := ih _ p hp
      exact ⟨y, List.mem_cons_of_mem _ hy, h⟩
    · rcases List.mem_cons.mp hp with rfl | hp
      · exact ⟨x, List.mem_cons_self .., rfl⟩
      · obtain ⟨y, hy, h⟩ := ih _ p hp
        exact ⟨y, List.mem_cons_of_mem _ hy, h⟩

theorem maskedIntervals_fits {is js : List Interval} {bm : List Bool} {bms : List (List Bool)}
    (h : calculateMaskedIntervals is bm = .ok (js, bms)) (hi : ∀ i ∈ is, i.b < 2 ^ 64 ∧ i.e < 2 ^ 64) :
    ∀ b ∈ bms, b.length < 2 ^ 64 := by
  rw [calculateMaskedIntervals] at h
  split at h
  · cases h
  · obtain ⟨xs, hxs, h⟩ := res_bind_inv h
    obtain ⟨gs, hgs, h⟩ := res_bind_inv h
    simp only at h
    obtain ⟨-, h2⟩ := Prod.mk.inj (Except.ok.inj h)
    intro b hb
    rw [← h2] at hb
    obtain ⟨p, hp, rfl⟩ := List.mem_map.mp hb
    obtain ⟨x, hx, hpx⟩ := maskedOut_mem _ _ p hp
    rw [hpx]
    rcases mem_mergeExt _ _ x hx with hx | hx
    · obtain ⟨i, him, hm⟩ := mapM_mem hxs x hx
      exact mkExt_fits hm (hi i him).2
    · exact mkGaps_fits hgs (fun i him => (hi i him).1) x hx

theorem placeValues_length {V : Type} {nan : V} : ∀ {bm : List Bool} {vs out : List V},
    placeValues nan bm vs = .ok out → out.length = bm.length := by
  intro bm
  induction bm with
  | nil => intro vs out h; rw [placeValues] at h; cases h; rfl
  | cons b bm ih =>
    intro vs out h
    cases b with
    | false =>
      rw [placeValues] at h
      obtain ⟨r, hr, h⟩ := res_bind_inv h
      cases h
      rw [List.length_cons, List.length_cons, ih hr]
    | true =>
      cases vs with
      | nil => rw [placeValues] at h; cases h
      | cons v vs =>
        rw [placeValues] at h
        obtain ⟨r, hr, h⟩ := res_bind_inv h
        cases h
        rw [List.length_cons, List.length_cons, ih hr]

theorem placeAll_lengths {V : Type} {nan : V} : ∀ {bms : List (List Bool)} {vss out : List (List V)},
    placeAll nan bms vss = .ok out → out.map List.length = bms.map List.length := by
  intro bms
  induction bms with
  | nil => intro vss out h; rw [placeAll] at h; cases h; rfl
  | cons b bms ih =>
    intro vss out h
    cases vss with
    | nil => rw [placeAll] at h; cases h
    | cons v vss =>
      rw [placeAll] at h
      obtain ⟨r, hr, h⟩ := res_bind_inv h
      obtain ⟨rs, hrs, h⟩ := res_bind_inv h
      cases h
      rw [List.map_cons, List.map_cons, placeValues_length hr, ih hrs]

/-- Every vector of a result has fewer than 2^64 elements, and every word of the mask is a 64-bit word. -/
def ResultFits {V : Type} (r : ExResult V) : Prop :=
  (∀ v ∈ r.values, v.length < 2 ^ 64) ∧ (∀ m ∈ r.mask, m.length < 2 ^ 64 ∧ ∀ w ∈ m, w < 2 ^ 64)

theorem extract_fits {V : Type} {A : Arith V} {rv : ReadValues V} {file : List UInt8} {offset : Nat} {info : JumpInfo}
    {is : List Interval} {r : ExResult V} (hrv : ∀ js out, rv js = .ok out → ∀ v ∈ out, v.length < 2 ^ 64)
    (hi : ∀ i ∈ is, i.b < 2 ^ 64 ∧ i.e < 2 ^ 64) (h : extract A rv file offset info is = .ok r) : ResultFits r := by
  have hmask : ∀ {m : List (List Nat)}, (is.mapM fun i => do
      let bm ← mkVector (wsub i.e i.b) true
      .ok (toBitset bm) : Res (List (List Nat))) = .ok m → ∀ x ∈ m, x.length < 2 ^ 64 ∧ ∀ w ∈ x, w < 2 ^ 64 := by
    intro m hm x hx
    obtain ⟨i, -, hb⟩ := mapM_mem hm x hx
    obtain ⟨bm, hbm, hb⟩ := res_bind_inv hb
    cases hb
    exact toBitset_fits bm (mkVector_fits hbm)
  rw [extract] at h
  obtain ⟨ok, -, h⟩ := res_bind_inv h
  obtain ⟨⟨⟩, -, h⟩ := res_bind_inv h
  obtain ⟨⟨⟩, -, h⟩ := res_bind_inv h
  split at h
  · rw [extractConstant] at h
    obtain ⟨vs, hvs, h⟩ := res_bind_inv h
    obtain ⟨m, hm, h⟩ := res_bind_inv h
    cases h
    refine ⟨fun v hv => ?_, hmask hm⟩
    obtain ⟨i, -, hb⟩ := mapM_mem hvs v hv
    exact mkVector_fits hb
  · split at h
    · rw [extractNoMask] at h
      obtain ⟨vs, hvs, h⟩ := res_bind_inv h
      obtain ⟨m, hm, h⟩ := res_bind_inv h
      cases h
      exact ⟨hrv is vs hvs, hmask hm⟩
    · rw [extractMasked] at h
      obtain ⟨bm, -, h⟩ := res_bind_inv h
      obtain ⟨⟨js, bms⟩, hms, h⟩ := res_bind_inv h
      obtain ⟨dec, -, h⟩ := res_bind_inv h
      obtain ⟨vs, hvs, h⟩ := res_bind_inv h
      cases h
      have hb := maskedIntervals_fits hms hi
      refine ⟨fun v hv => ?_, fun m hm => ?_⟩
      · have : v.length ∈ bms.map List.length := by
          rw [← placeAll_lengths hvs]
          exact List.mem_map.mpr ⟨v, hv, rfl⟩
        obtain ⟨b, hbm, hl⟩ := List.mem_map.mp this
        rw [← hl]
        exact hb b hbm
      · obtain ⟨b, hbm, rfl⟩ := List.mem_map.mp hm
        exact toBitset_fits b (hb b hbm)

/-- Whatever the file holds and whatever the metadata says. -/
theorem jumperExtract_fits {V : Type} {R : Reader V} {file : List UInt8} {offset : Nat} {info : Info}
    {is : List Interval} {r : ExResult V} (hi : ∀ i ∈ is, i.b < 2 ^ 64 ∧ i.e < 2 ^ 64)
    (h : jumperExtract R file offset info is = .ok r) : ResultFits r := by
  rw [jumperExtract] at h
  split at h
  · refine extract_fits (fun js out h => ?_) hi h
    cases info with
    | simple b => rw [simpleReadValues] at h; exact decodeRanges_fits h
    | ccsds b x => cases h
    | unsupported b => cases h
  · split at h
    · refine extract_fits (fun js out h => ?_) hi h
      cases info with
      | simple b => cases h
      | ccsds b x =>
        rw [ccsdsReadValues] at h
        obtain ⟨⟨⟩, -, h⟩ := res_bind_inv h
        exact decodeRanges_fits h
      | unsupported b => cases h
    · cases h

theorem messageExtract_fits {V : Type} {R : Reader V} {file : List UInt8} {offset : Nat} {is : List Interval}
    {r : ExResult V} (hi : ∀ i ∈ is, i.b < 2 ^ 64 ∧ i.e < 2 ^ 64)
    (h : messageExtract R file offset is = .ok r) : ResultFits r := by
  rw [messageExtract] at h
  obtain ⟨info, -, h⟩ := res_bind_inv h
  exact jumperExtract_fits hi h

end GJ
