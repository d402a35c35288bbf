import Verif.Model.Basic

/-!
# `std::map` and `std::unordered_map`

An association list, in iteration order.  Only the operations the code uses are modelled.  New keys
are added at the end; where the code relies on the sorted iteration order of `std::map`, the model
says so.
-/

namespace GJ

abbrev AMap (K V : Type) := List (K × V)

namespace AMap

variable {K V : Type} [DecidableEq K]

/-- `find`. -/
def find : AMap K V → K → Option V
  | [], _ => none
  | (k, v) :: rest, x => if k = x then some v else find rest x

/-- `operator[](x) = y`: overwrites or adds. -/
def set : AMap K V → K → V → AMap K V
  | [], x, y => [(x, y)]
  | (k, v) :: rest, x, y => if k = x then (k, y) :: rest else (k, v) :: set rest x y

/-- `insert({x, y})`, `emplace(x, y)`: does nothing when the key is present. -/
def insert : AMap K V → K → V → AMap K V
  | [], x, y => [(x, y)]
  | (k, v) :: rest, x, y => if k = x then (k, v) :: rest else (k, v) :: insert rest x y

/-- `erase(x)`. -/
def erase : AMap K V → K → AMap K V
  | [], _ => []
  | (k, v) :: rest, x => if k = x then rest else (k, v) :: erase rest x

/-- Keys in iteration order. -/
def keys (m : AMap K V) : List K := m.map Prod.fst

theorem find_set (m : AMap K V) (x z : K) (y : V) :
    (m.set x y).find z = if x = z then some y else m.find z := by
  induction m with
  | nil => rfl
  | cons p rest ih =>
    obtain ⟨k, v⟩ := p
    simp only [set, find]
    by_cases h : k = x
    · subst h
      rw [if_pos rfl, find]
      split <;> rfl
    · rw [if_neg h, find, ih]
      by_cases hk : k = z
      · subst hk; rw [if_pos rfl, if_neg (fun h' => h h'.symm), if_pos rfl]
      · rw [if_neg hk, if_neg hk]

theorem find_insert (m : AMap K V) (x z : K) (y : V) :
    (m.insert x y).find z = if x = z then some ((m.find x).getD y) else m.find z := by
  induction m with
  | nil => rfl
  | cons p rest ih =>
    obtain ⟨k, v⟩ := p
    simp only [insert, find]
    by_cases h : k = x
    · subst h
      rw [if_pos rfl, find, if_pos rfl]
      split <;> rfl
    · rw [if_neg h, find, ih, if_neg h]
      by_cases hk : k = z
      · subst hk; rw [if_pos rfl, if_neg (fun h' => h h'.symm), if_pos rfl]
      · rw [if_neg hk, if_neg hk]

theorem mem_keys_iff (m : AMap K V) (x : K) : x ∈ m.keys ↔ (m.find x).isSome = true := by
  induction m with
  | nil => simp [keys, find]
  | cons p rest ih =>
    obtain ⟨k, v⟩ := p
    simp only [keys, List.map_cons, List.mem_cons, find] at ih ⊢
    by_cases h : k = x
    · simp [h]
    · rw [if_neg h, ← ih]
      constructor
      · rintro (h' | h')
        · exact absurd h'.symm h
        · exact h'
      · exact Or.inr

theorem find_eq_none_iff (m : AMap K V) (x : K) : m.find x = none ↔ x ∉ m.keys := by
  rw [mem_keys_iff]; cases m.find x <;> simp

theorem keys_set (m : AMap K V) (x : K) (y : V) :
    (m.set x y).keys = if x ∈ m.keys then m.keys else m.keys ++ [x] := by
  induction m with
  | nil => simp [set, keys]
  | cons p rest ih =>
    obtain ⟨k, v⟩ := p
    simp only [set, keys, List.map_cons, List.mem_cons] at ih ⊢
    by_cases h : k = x
    · simp [h]
    · have h' : ¬ x = k := fun e => h e.symm
      rw [if_neg h, List.map_cons, ih]
      by_cases hx : x ∈ List.map Prod.fst rest
      · simp [hx]
      · simp [hx, h']

theorem keys_insert (m : AMap K V) (x : K) (y : V) :
    (m.insert x y).keys = if x ∈ m.keys then m.keys else m.keys ++ [x] := by
  induction m with
  | nil => simp [insert, keys]
  | cons p rest ih =>
    obtain ⟨k, v⟩ := p
    simp only [insert, keys, List.map_cons, List.mem_cons] at ih ⊢
    by_cases h : k = x
    · simp [h]
    · have h' : ¬ x = k := fun e => h e.symm
      rw [if_neg h, List.map_cons, ih]
      by_cases hx : x ∈ List.map Prod.fst rest
      · simp [hx]
      · simp [hx, h']

theorem nodup_set (m : AMap K V) (x : K) (y : V) (h : m.keys.Nodup) : (m.set x y).keys.Nodup := by
  rw [keys_set]
  split
  · exact h
  · rename_i hx
    rw [List.nodup_append]
    refine ⟨h, by simp, ?_⟩
    intro a ha b hb
    rw [List.mem_singleton] at hb
    subst hb
    rintro rfl
    exact hx ha

theorem nodup_insert (m : AMap K V) (x : K) (y : V) (h : m.keys.Nodup) : (m.insert x y).keys.Nodup := by
  have e : (m.insert x y).keys = (m.set x y).keys := by rw [keys_insert, keys_set]
  rw [e]; exact nodup_set m x y h

theorem find_erase (m : AMap K V) (x z : K) (h : m.keys.Nodup) :
    (m.erase x).find z = if x = z then none else m.find z := by
  induction m with
  | nil => simp [erase, find]
  | cons p rest ih =>
    obtain ⟨k, v⟩ := p
    simp only [keys, List.map_cons, List.nodup_cons] at h
    simp only [erase, find]
    by_cases hk : k = x
    · subst hk
      rw [if_pos rfl]
      by_cases hz : k = z
      · subst hz; rw [if_pos rfl]; exact (find_eq_none_iff _ _).mpr h.1
      · rw [if_neg hz, if_neg hz]
    · rw [if_neg hk, find, ih h.2]
      by_cases hz : k = z
      · subst hz; rw [if_pos rfl, if_neg (fun e => hk e.symm), if_pos rfl]
      · rw [if_neg hz, if_neg hz]

theorem keys_erase (m : AMap K V) (x : K) : (m.erase x).keys = m.keys.erase x := by
  induction m with
  | nil => rfl
  | cons p rest ih =>
    obtain ⟨k, v⟩ := p
    simp only [erase, keys, List.map_cons] at ih ⊢
    by_cases hk : k = x
    · subst hk; simp
    · rw [if_neg hk, List.erase_cons_tail (by simpa using hk), List.map_cons, ih]

theorem nodup_erase (m : AMap K V) (x : K) (h : m.keys.Nodup) : (m.erase x).keys.Nodup := by
  rw [keys_erase]; exact h.erase x

theorem mem_iff_find (m : AMap K V) (h : m.keys.Nodup) (k : K) (v : V) :
    (k, v) ∈ m ↔ m.find k = some v := by
  induction m with
  | nil => simp [find]
  | cons p rest ih =>
    obtain ⟨a, b⟩ := p
    simp only [keys, List.map_cons, List.nodup_cons] at h
    simp only [List.mem_cons, Prod.mk.injEq, find]
    by_cases ha : a = k
    · subst ha
      rw [if_pos rfl]
      constructor
      · rintro (⟨-, rfl⟩ | hm)
        · rfl
        · exact absurd (List.mem_map.mpr ⟨_, hm, rfl⟩) h.1
      · intro e; cases e; exact Or.inl ⟨rfl, rfl⟩
    · rw [if_neg ha, ← ih h.2]
      constructor
      · rintro (⟨e, -⟩ | hm)
        · exact absurd e.symm ha
        · exact hm
      · exact Or.inr

end AMap

end GJ
