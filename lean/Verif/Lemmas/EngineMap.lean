import Verif.Model.Engine
import Verif.Lemmas.Canon
import Verif.Lemmas.Codec

namespace GJ

open Spec

/-! ## Building the request map -/

/-- The requests with their canonical strings. -/
def canonAll (ig : Bool) : Bool → List ExRequest → List ExRequest
  | _, [] => []
  | drop, r :: rest =>
    let drop := drop || (ig && mentionsYearMonthDate r.request.toList)
    { r with request := String.ofList (canonString drop r.request.toList) } :: canonAll ig drop rest

/-- The union request. -/
def unionAll (ig : Bool) : Bool → Union → List ExRequest → Union
  | _, u, [] => u
  | drop, u, r :: rest =>
    let drop := drop || (ig && mentionsYearMonthDate r.request.toList)
    unionAll ig drop (addUnion u (keptPairs drop r.request.toList)) rest

theorem canonAll_length (ig drop : Bool) (rs : List ExRequest) : (canonAll ig drop rs).length = rs.length := by
  induction rs generalizing drop with
  | nil => rfl
  | cons r rs ih => simp only [canonAll, List.length_cons, ih]

theorem canonAll_get (ig drop : Bool) (rs : List ExRequest) (i : Nat) (h : i < rs.length) :
    ∃ d, (d = true → (drop = true ∨ ig = true)) ∧
      (canonAll ig drop rs)[i]? = some { rs[i] with
        request := String.ofList (canonString (d || (ig && mentionsYearMonthDate rs[i].request.toList))
          rs[i].request.toList) } := by
  induction rs generalizing drop i with
  | nil => cases h
  | cons r rs ih =>
    cases i with
    | zero => exact ⟨drop, Or.inl, rfl⟩
    | succ i =>
      obtain ⟨d, hd, e⟩ := ih (drop || (ig && mentionsYearMonthDate r.request.toList)) i (by simpa using h)
      refine ⟨d, ?_, ?_⟩
      · intro h1
        rcases hd h1 with h2 | h2
        · rw [Bool.or_eq_true, Bool.and_eq_true] at h2
          rcases h2 with h2 | h2
          · exact Or.inl h2
          · exact Or.inr h2.1
        · exact Or.inr h2
      · simp only [canonAll, List.getElem?_cons_succ, List.getElem_cons_succ]
        exact e

theorem AMap.insert_new {K V : Type} [DecidableEq K] (m : AMap K V) (x : K) (y : V) (h : m.find x = none) :
    m.insert x y = m ++ [(x, y)] := by
  induction m with
  | nil => rfl
  | cons p m ih =>
    obtain ⟨k, v⟩ := p
    rw [AMap.find] at h
    by_cases hk : k = x
    · rw [if_pos hk] at h; cases h
    · rw [if_neg hk] at h
      rw [AMap.insert, if_neg hk, ih h]
      rfl

/-- The entries of the request map. -/
def entriesOf (rs : List ExRequest) : ItemMap := rs.map fun r => (r.request, newItem r)

theorem entriesOf_keys (rs : List ExRequest) : (entriesOf rs).keys = rs.map ExRequest.request := by
  rw [AMap.keys, entriesOf, List.map_map]; rfl

theorem buildLoop_eq (ig drop : Bool) (u : Union) (m : ItemMap) (rs : List ExRequest) (hm : m.keys.Nodup) :
    buildLoop ig drop u m rs =
      if (m.keys ++ (canonAll ig drop rs).map ExRequest.request).Nodup then
        .ok (canonAll ig drop rs, unionAll ig drop u rs, m ++ entriesOf (canonAll ig drop rs))
      else throwExn .seriousBug := by
  induction rs generalizing drop u m with
  | nil =>
    rw [buildLoop, if_pos (by simpa [canonAll] using hm)]
    simp [canonAll, unionAll, entriesOf]
  | cons r rs ih =>
    rw [buildLoop]
    simp only [canonAll, unionAll, List.map_cons]
    generalize hdr : (drop || (ig && mentionsYearMonthDate r.request.toList)) = d
    cases hf : m.find (String.ofList (canonString d r.request.toList)) with
    | some it =>
      simp only []
      rw [if_neg]
      intro hn
      rw [List.nodup_append] at hn
      have : String.ofList (canonString d r.request.toList) ∈ m.keys := by rw [AMap.mem_keys_iff, hf]; rfl
      exact hn.2.2 _ this _ (List.mem_cons_self ..) rfl
    | none =>
      simp only []
      have hn : String.ofList (canonString d r.request.toList) ∉ m.keys := (AMap.find_eq_none_iff _ _).mp hf
      rw [ih d _ _ (AMap.nodup_insert _ _ _ hm), AMap.insert_new _ _ _ hf]
      have hk : (AMap.keys (m ++ [(String.ofList (canonString d r.request.toList),
          newItem { r with request := String.ofList (canonString d r.request.toList) })]) ++
          (canonAll ig d rs).map ExRequest.request) =
          m.keys ++ (String.ofList (canonString d r.request.toList) :: (canonAll ig d rs).map ExRequest.request) := by
        simp [AMap.keys]
      rw [hk]
      split
      · rw [ok_bind]
        simp [entriesOf]
      · rfl

theorem buildRequestMap_eq (ig : Bool) (rs : List ExRequest) :
    buildRequestMap ig rs =
      if ((canonAll ig false rs).map ExRequest.request).Nodup then
        .ok (canonAll ig false rs, unionAll ig false [] rs, entriesOf (canonAll ig false rs))
      else throwExn .seriousBug := by
  rw [buildRequestMap, buildLoop_eq ig false [] [] rs List.nodup_nil]
  simp [AMap.keys]

end GJ
