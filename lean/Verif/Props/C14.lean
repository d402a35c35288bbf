import Verif.Model.LRU
import Verif.Spec.LRU

/-!
# C14: the in-memory cache is a bounded LRU map
-/

namespace GJ
open Spec

variable {K V : Type} [DecidableEq K]

/-- One user operation on the model. -/
def LRU.step (c : LRU K V) : CacheOp K V → Res (CacheObs V × LRU K V)
  | .put k v => do
    let c' ← c.put k v
    .ok (.done, c')
  | .get k =>
    match c.get k with
    | .ok (v, c') => .ok (.value (some v), c')
    | .error (.exn .badValue) => .ok (.value none, c)
    | .error f => .error f
  | .has k => .ok (.found (c.exists? k), c)
  | .clear => .ok (.done, c.clear)

/-- A sequence of operations, with the observation of each. -/
def LRU.run : LRU K V → List (CacheOp K V) → Res (List (CacheObs V) × LRU K V)
  | c, [] => .ok ([], c)
  | c, op :: ops => do
    let (o, c1) ← c.step op
    let (os, c2) ← c1.run ops
    .ok (o :: os, c2)

theorem recency_append (cap : Nat) (l : List K) (a b : List (CacheOp K V)) :
    recency cap l (a ++ b) = recency cap (recency cap l a) b := by
  induction a generalizing l with
  | nil => rfl
  | cons op a ih =>
    cases op with
    | put k v => simp only [List.cons_append, recency, ih]
    | get k => simp only [List.cons_append, recency]; split <;> exact ih _
    | has k => simp only [List.cons_append, recency, ih]
    | clear => simp only [List.cons_append, recency, ih]

theorem lastPut_append (k : K) (v : Option V) (a b : List (CacheOp K V)) :
    lastPut k v (a ++ b) = lastPut k (lastPut k v a) b := by
  induction a generalizing v with
  | nil => rfl
  | cons op a ih => cases op <;> simp only [List.cons_append, lastPut, ih]

theorem filter_ne_notMem (l : List K) (k : K) (h : k ∉ l) : l.filter (· ≠ k) = l := by
  apply List.filter_eq_self.mpr
  intro a ha
  simp only [ne_eq, decide_not, Bool.not_eq_eq_eq_not, Bool.not_true, decide_eq_false_iff_not]
  rintro rfl
  exact h ha

theorem take_filter_ne (l : List K) (k : K) (n : Nat) (h : k ∉ l.take (n + 1)) :
    (l.filter (· ≠ k)).take n = l.take n := by
  induction l generalizing n with
  | nil => simp
  | cons a rest ih =>
    have ha : a ≠ k := by rintro rfl; simp at h
    rw [List.filter_cons_of_pos (by simpa using ha)]
    cases n with
    | zero => rfl
    | succ n =>
      rw [List.take_succ_cons, List.take_succ_cons, ih n]
      intro hc
      exact h (by rw [List.take_succ_cons]; exact List.mem_cons_of_mem _ hc)

theorem take_filter_ne_mem (l : List K) (k : K) (n : Nat) (hn : l.Nodup) (h : k ∈ l.take (n + 1)) :
    (l.filter (· ≠ k)).take n = (l.take (n + 1)).filter (· ≠ k) := by
  induction l generalizing n with
  | nil => simp at h
  | cons a rest ih =>
    obtain ⟨h1, h2⟩ := List.nodup_cons.mp hn
    by_cases ha : a = k
    · subst ha
      rw [List.filter_cons_of_neg (by simp), List.take_succ_cons, List.filter_cons_of_neg (by simp),
        filter_ne_notMem rest a h1, filter_ne_notMem]
      exact fun hc => h1 (List.mem_of_mem_take hc)
    · rw [List.filter_cons_of_pos (by simpa using ha), List.take_succ_cons,
        List.filter_cons_of_pos (by simpa using ha)]
      rw [List.take_succ_cons, List.mem_cons] at h
      rcases h with h | h
      · exact absurd h.symm ha
      · cases n with
        | zero => simp at h
        | succ n => rw [List.take_succ_cons, ih n h2 h]

/-- State after a history. -/
structure LRUInv (cap : Nat) (h : List (CacheOp K V)) (c : LRU K V) : Prop where
  cap_eq : c.cap = cap
  nodup : (recency cap [] h).Nodup
  list_eq : c.list = (recency cap [] h).take cap
  keysNodup : c.map.keys.Nodup
  keys : ∀ k, k ∈ c.map.keys ↔ k ∈ c.list
  vals : ∀ k, k ∈ c.list → c.map.find k = lastPut k none h

theorem lru_touch_nodup (l : List K) (k : K) (h : l.Nodup) : (k :: l.filter (· ≠ k)).Nodup :=
  List.nodup_cons.mpr ⟨by simp, h.filter _⟩

theorem lru_step (cap : Nat) (hcap : 0 < cap) (h : List (CacheOp K V)) (c : LRU K V)
    (inv : LRUInv cap h c) (op : CacheOp K V) :
    ∃ c', c.step op = .ok (cacheObs cap h op, c') ∧ LRUInv cap (h ++ [op]) c' := by
  obtain ⟨n, rfl⟩ : ∃ n, cap = n + 1 := ⟨cap - 1, by omega⟩
  have hlast : ∀ k op, lastPut k none (h ++ [op]) = lastPut k (lastPut k none h) [op] :=
    fun k op => lastPut_append k none h [op]
  cases op with
  | put k v =>
    have hrec : recency (n + 1) [] (h ++ [CacheOp.put k v]) =
        k :: (recency (n + 1) [] h).filter (· ≠ k) := by rw [recency_append]; rfl
    simp only [LRU.step, LRU.put, cacheObs]
    cases hf : c.map.find k with
    | some v0 =>
      have hk : k ∈ c.list := (inv.keys k).mp ((AMap.mem_keys_iff _ _).mpr (by rw [hf]; rfl))
      have hkt : k ∈ (recency (n + 1) [] h).take (n + 1) := by rw [← inv.list_eq]; exact hk
      simp only [ok_bind]
      refine ⟨_, rfl, ?_⟩
      constructor
      · exact inv.cap_eq
      · rw [hrec]; exact lru_touch_nodup _ _ inv.nodup
      · rw [hrec, List.take_succ_cons, take_filter_ne_mem _ _ _ inv.nodup hkt, ← inv.list_eq]; rfl
      · exact AMap.nodup_set _ _ _ inv.keysNodup
      · intro x
        simp only [AMap.keys_set]
        rw [if_pos ((inv.keys k).mpr hk), inv.keys]
        simp only [LRU.touch, List.mem_cons, List.mem_filter, decide_eq_true_eq]
        by_cases hx : x = k
        · subst hx; simp [hk]
        · simp [hx]
      · intro x hx
        simp only [AMap.find_set, hlast, lastPut]
        by_cases hxk : k = x
        · simp [hxk]
        · simp only [LRU.touch, List.mem_cons, List.mem_filter] at hx
          rcases hx with hx | hx
          · exact absurd hx.symm hxk
          · rw [if_neg hxk, if_neg hxk, inv.vals x hx.1]
    | none =>
      have hk : k ∉ c.list := fun hc => by
        have := (AMap.mem_keys_iff _ _).mp ((inv.keys k).mpr hc)
        rw [hf] at this; cases this
      have hkt : k ∉ (recency (n + 1) [] h).take (n + 1) := by rw [← inv.list_eq]; exact hk
      have htake : (k :: (recency (n + 1) [] h).filter (· ≠ k)).take (n + 1) =
          k :: (recency (n + 1) [] h).take n := by
        rw [List.take_succ_cons, take_filter_ne _ _ _ hkt]
      by_cases hfull : c.list.length = c.cap
      · have hne : c.list ≠ [] := by
          intro hc; rw [hc, inv.cap_eq] at hfull; simp at hfull
        simp only
        rw [if_pos hfull, List.getLast?_eq_some_getLast hne]
        simp only [ok_bind]
        refine ⟨_, rfl, ?_⟩
        have hdrop : c.list.dropLast = (recency (n + 1) [] h).take n := by
          rw [List.dropLast_eq_take, hfull, inv.cap_eq, inv.list_eq, List.take_take]
          congr 1; omega
        have hnodup : c.list.Nodup := by rw [inv.list_eq]; exact inv.nodup.sublist (List.take_sublist _ _)
        have hsplit : c.list = c.list.dropLast ++ [c.list.getLast hne] := (List.dropLast_concat_getLast hne).symm
        have hlastnot : c.list.getLast hne ∉ c.list.dropLast := by
          intro hc
          rw [hsplit] at hnodup
          have := (List.nodup_append.mp hnodup).2.2 _ hc
            (c.list.getLast hne) (by simp)
          exact this rfl
        have hmem : ∀ x, x ∈ c.list.dropLast ↔ x ∈ c.list ∧ x ≠ c.list.getLast hne := by
          intro x
          constructor
          · intro hx
            exact ⟨List.dropLast_subset _ hx, fun e => hlastnot (e ▸ hx)⟩
          · rintro ⟨hx, hne'⟩
            rw [hsplit, List.mem_append, List.mem_singleton] at hx
            rcases hx with hx | hx
            · exact hx
            · exact absurd hx hne'
        have hkl : k ≠ c.list.getLast hne := fun e => hk (e ▸ List.getLast_mem hne)
        constructor
        · exact inv.cap_eq
        · rw [hrec]; exact lru_touch_nodup _ _ inv.nodup
        · rw [hrec, htake, hdrop]
        · exact AMap.nodup_set _ _ _ (AMap.nodup_erase _ _ inv.keysNodup)
        · intro x
          simp only [AMap.mem_keys_iff, AMap.find_set, AMap.find_erase _ _ _ inv.keysNodup,
            List.mem_cons, hmem]
          by_cases hxk : k = x
          · simp [hxk]
          · rw [if_neg hxk]
            have hxk' : ¬ x = k := fun e => hxk e.symm
            by_cases hxl : c.list.getLast hne = x
            · simp [hxl, hxk']
            · rw [if_neg hxl, ← AMap.mem_keys_iff, inv.keys]
              have : x ≠ c.list.getLast hne := fun e => hxl e.symm
              simp [hxk', this]
        · intro x hx
          simp only [AMap.find_set, AMap.find_erase _ _ _ inv.keysNodup, hlast, lastPut]
          rw [List.mem_cons, hmem] at hx
          by_cases hxk : k = x
          · simp [hxk]
          · rcases hx with hx | hx
            · exact absurd hx.symm hxk
            · rw [if_neg hxk, if_neg hxk, if_neg (fun e => hx.2 e.symm), inv.vals x hx.1]
      · simp only
        rw [if_neg hfull, ok_bind]
        refine ⟨_, rfl, ?_⟩
        have hlen : (recency (n + 1) [] h).length ≤ n := by
          have h1 : c.list.length = min (n + 1) (recency (n + 1) [] h).length := by
            rw [inv.list_eq, List.length_take]
          rw [inv.cap_eq] at hfull
          omega
        have hall : c.list = recency (n + 1) [] h := by
          rw [inv.list_eq, List.take_of_length_le (by omega)]
        constructor
        · exact inv.cap_eq
        · rw [hrec]; exact lru_touch_nodup _ _ inv.nodup
        · rw [hrec, htake, List.take_of_length_le hlen, hall]
        · exact AMap.nodup_set _ _ _ inv.keysNodup
        · intro x
          simp only [AMap.mem_keys_iff, AMap.find_set, List.mem_cons]
          by_cases hxk : k = x
          · simp [hxk]
          · have hxk' : ¬ x = k := fun e => hxk e.symm
            rw [if_neg hxk, ← AMap.mem_keys_iff, inv.keys]
            simp [hxk']
        · intro x hx
          simp only [AMap.find_set, hlast, lastPut]
          by_cases hxk : k = x
          · simp [hxk]
          · rcases List.mem_cons.mp hx with hx | hx
            · exact absurd hx.symm hxk
            · rw [if_neg hxk, if_neg hxk, inv.vals x hx]
  | get k =>
    have hrec : recency (n + 1) [] (h ++ [CacheOp.get k]) =
        if k ∈ (recency (n + 1) [] h).take (n + 1) then k :: (recency (n + 1) [] h).filter (· ≠ k)
        else recency (n + 1) [] h := by
      rw [recency_append]; simp only [recency]
    simp only [LRU.step, LRU.get, cacheObs]
    cases hf : c.map.find k with
    | some v0 =>
      have hk : k ∈ c.list := (inv.keys k).mp ((AMap.mem_keys_iff _ _).mpr (by rw [hf]; rfl))
      have hkt : k ∈ (recency (n + 1) [] h).take (n + 1) := by rw [← inv.list_eq]; exact hk
      rw [if_pos hkt] at hrec
      rw [if_pos hkt, ← inv.vals k hk, hf]
      refine ⟨_, rfl, ?_⟩
      have hmem : ∀ x, x ∈ LRU.touch c.list k ↔ x ∈ c.list := by
        intro x
        simp only [LRU.touch, List.mem_cons, List.mem_filter, decide_eq_true_eq]
        by_cases hx : x = k
        · subst hx; simp [hk]
        · simp [hx]
      constructor
      · exact inv.cap_eq
      · rw [hrec]; exact lru_touch_nodup _ _ inv.nodup
      · rw [hrec, List.take_succ_cons, take_filter_ne_mem _ _ _ inv.nodup hkt, ← inv.list_eq]; rfl
      · exact inv.keysNodup
      · intro x; rw [inv.keys]; exact (hmem x).symm
      · intro x hx
        rw [hlast]; exact inv.vals x ((hmem x).mp hx)
    | none =>
      have hk : k ∉ c.list := fun hc => by
        have := (AMap.mem_keys_iff _ _).mp ((inv.keys k).mpr hc)
        rw [hf] at this; cases this
      have hkt : k ∉ (recency (n + 1) [] h).take (n + 1) := by rw [← inv.list_eq]; exact hk
      rw [if_neg hkt] at hrec
      rw [if_neg hkt]
      refine ⟨c, rfl, ?_⟩
      exact ⟨inv.cap_eq, by rw [hrec]; exact inv.nodup, by rw [hrec]; exact inv.list_eq,
        inv.keysNodup, inv.keys, fun x hx => by rw [hlast]; exact inv.vals x hx⟩
  | has k =>
    have hrec : recency (n + 1) [] (h ++ [CacheOp.has k]) = recency (n + 1) [] h := by
      rw [recency_append]; rfl
    refine ⟨c, ?_, ?_⟩
    · simp only [LRU.step, cacheObs, LRU.exists?]
      congr 3
      rw [← inv.list_eq, Bool.eq_iff_iff, ← AMap.mem_keys_iff, inv.keys]
      simp
    · exact ⟨inv.cap_eq, by rw [hrec]; exact inv.nodup, by rw [hrec]; exact inv.list_eq,
        inv.keysNodup, inv.keys, fun x hx => by rw [hlast]; exact inv.vals x hx⟩
  | clear =>
    have hrec : recency (n + 1) [] (h ++ [CacheOp.clear]) = ([] : List K) := by
      rw [recency_append]; rfl
    refine ⟨c.clear, rfl, ?_⟩
    exact ⟨inv.cap_eq, by rw [hrec]; exact .nil, by rw [hrec]; rfl, .nil,
      by simp [LRU.clear, AMap.keys], by simp [LRU.clear]⟩

/-- The observations the specification expects of a sequence of operations after a history. -/
def expectedObs (cap : Nat) : List (CacheOp K V) → List (CacheOp K V) → List (CacheObs V)
  | _, [] => []
  | h, op :: ops => cacheObs cap h op :: expectedObs cap (h ++ [op]) ops

/-- C14.  For every capacity of at least one and every sequence of operations on a new cache, every
observation is the one the specification gives for the history so far: a lookup returns the value
last stored for the key if the key is among the `cap` most recently used ones, and reports absence
otherwise.  The cache then holds exactly the `cap` most recently used distinct keys. -/
theorem C14_lru (cap : Nat) (hcap : 0 < cap) (ops : List (CacheOp K V)) :
    ∃ c, (LRU.empty cap).run ops = .ok (expectedObs cap [] ops, c) ∧
      c.list = (recency cap [] ops).take cap ∧
      (recency cap [] ops).Nodup ∧ c.list.length ≤ cap ∧
      ∀ k, c.exists? k = true ↔ k ∈ (recency cap [] ops).take cap := by
  have gen : ∀ (ops h : List (CacheOp K V)) (c : LRU K V), LRUInv cap h c →
      ∃ c', c.run ops = .ok (expectedObs cap h ops, c') ∧ LRUInv cap (h ++ ops) c' := by
    intro ops
    induction ops with
    | nil => intro h c inv; exact ⟨c, rfl, by simpa using inv⟩
    | cons op ops ih =>
      intro h c inv
      obtain ⟨c1, e1, i1⟩ := lru_step cap hcap h c inv op
      obtain ⟨c2, e2, i2⟩ := ih (h ++ [op]) c1 i1
      refine ⟨c2, ?_, by simpa using i2⟩
      rw [LRU.run, e1, ok_bind]
      simp only
      rw [e2, ok_bind]
      rfl
  obtain ⟨c, e, i⟩ := gen ops [] (LRU.empty cap)
    ⟨rfl, .nil, by simp [LRU.empty, recency], .nil, by simp [LRU.empty, AMap.keys], by simp [LRU.empty]⟩
  rw [List.nil_append] at i
  refine ⟨c, e, i.list_eq, i.nodup, by rw [i.list_eq, List.length_take]; omega, fun k => ?_⟩
  rw [LRU.exists?, ← AMap.mem_keys_iff, i.keys, i.list_eq]

/-- Capacity zero (possible through the configuration) makes the first store undefined. -/
theorem C14_capacity_zero_undefined (k : K) (v : V) :
    (LRU.empty 0 : LRU K V).put k v = .error .ub := rfl

/-- Non-vacuity of C14: capacity 2; looking up `1` saves it, so `2` is evicted. -/
example : (expectedObs 2 [] [.put 1 10, .put 2 20, .get 1, .put 3 30, .get 2, .get 1, .has 3] :
    List (CacheObs Nat)) =
    [.done, .done, .value (some 10), .done, .value none, .value (some 10), .found true] := by
  decide

end GJ
