import Verif.Model.Protocol

namespace GJ

theorem dec_bind_inv {α β : Type} {d : Dec α} {f : α → Dec β} {s rest : List Tok} {b : β}
    (h : (d >>= f) s = .ok (b, rest)) : ∃ a s', d s = .ok (a, s') ∧ f a s' = .ok (b, rest) := by
  cases hd : d s with
  | error e => rw [Dec.bind_error hd] at h; cases h
  | ok p => exact ⟨p.1, p.2, rfl, by rw [Dec.bind_ok (show d s = .ok (p.1, p.2) from hd)] at h; exact h⟩

/-! ## Reading back a list -/

theorem times_ok {α β : Type} (d : Dec β) (enc : α → List Tok) (g : α → β) (l : List α)
    (h : ∀ x ∈ l, ∀ rest, d (enc x ++ rest) = .ok (g x, rest)) (rest : List Tok) :
    Dec.times l.length d (l.flatMap enc ++ rest) = .ok (l.map g, rest) := by
  induction l generalizing rest with
  | nil => rfl
  | cons a l ih =>
    rw [List.flatMap_cons, List.length_cons, Dec.times, List.append_assoc,
      Dec.bind_ok (h a List.mem_cons_self _),
      Dec.bind_ok (ih (fun x hx => h x (List.mem_cons_of_mem _ hx)) rest)]
    rfl

theorem vec_ok {α β : Type} (d : Dec β) (enc : α → List Tok) (g : α → β) (l : List α)
    (h : ∀ x ∈ l, ∀ rest, d (enc x ++ rest) = .ok (g x, rest)) (rest : List Tok) :
    Dec.vec d (encVec enc l ++ rest) = .ok (l.map g, rest) := by
  rw [Dec.vec, encVec, List.cons_append, Dec.bind_ok (show Dec.ulong _ = .ok (l.length, _) from rfl)]
  exact times_ok d enc g l h rest

/-! ## Words in memory -/

theorem wordBytes_length (w : Nat) : (wordBytes w).length = 8 := by simp [wordBytes]

theorem flatMap_words_length {α : Type} (f : α → List Nat) (n : Nat) (l : List α)
    (h : ∀ x ∈ l, (f x).length = n) : (l.flatMap f).length = n * l.length := by
  induction l with
  | nil => simp
  | cons a l ih =>
    rw [List.flatMap_cons, List.length_append, h a List.mem_cons_self,
      ih (fun x hx => h x (List.mem_cons_of_mem _ hx)), List.length_cons, Nat.mul_succ]; omega

theorem flatMap_words_getD {α : Type} (f : α → List Nat) (n : Nat) (l : List α)
    (h : ∀ x ∈ l, (f x).length = n) (i k : Nat) (hi : i < l.length) (hk : k < n) :
    (l.flatMap f).getD (n * i + k) 0 = (f l[i]).getD k 0 := by
  induction l generalizing i with
  | nil => simp at hi
  | cons a l ih =>
    have ha := h a List.mem_cons_self
    simp only [List.getD_eq_getElem?_getD] at ih ⊢
    rw [List.flatMap_cons]
    cases i with
    | zero =>
      rw [Nat.mul_zero, Nat.zero_add, List.getElem?_append_left (by omega)]; rfl
    | succ i =>
      rw [Nat.mul_succ, List.getElem?_append_right (by omega), ha,
        show n * i + n + k - n = n * i + k from by omega,
        ih (fun x hx => h x (List.mem_cons_of_mem _ hx)) i (by simpa using hi)]
      rfl

theorem wordBytes_getD (w k : Nat) (hk : k < 8) : (wordBytes w).getD k 0 = w / 256 ^ k % 256 := by
  rw [wordBytes, List.getD_eq_getElem?_getD, List.getElem?_map, List.getElem?_range hk]; rfl

theorem word_sum (w : Nat) (h : w < 2 ^ 64) (f : Nat → Nat) (hf : ∀ k, k < 8 → f k = w / 256 ^ k % 256) :
    (List.range 8).foldr (fun k acc => f k + 256 * acc) 0 = w := by
  have e : List.range 8 = [0, 1, 2, 3, 4, 5, 6, 7] := by decide
  rw [e]
  simp only [List.foldr]
  rw [hf 0 (by omega), hf 1 (by omega), hf 2 (by omega), hf 3 (by omega), hf 4 (by omega),
    hf 5 (by omega), hf 6 (by omega), hf 7 (by omega)]
  simp only [Nat.reducePow] at h ⊢
  omega

theorem bytesWord_flatMap (ws : List Nat) (i : Nat) (hi : i < ws.length) (hw : ws[i] < 2 ^ 64) :
    bytesWord (ws.flatMap wordBytes) i = ws[i] := by
  unfold bytesWord
  refine word_sum ws[i] hw (fun k => (ws.flatMap wordBytes).getD (8 * i + k) 0) ?_
  intro k hk
  show (ws.flatMap wordBytes).getD (8 * i + k) 0 = _
  rw [flatMap_words_getD wordBytes 8 ws (fun x _ => wordBytes_length x) i k hi hk, wordBytes_getD _ _ hk]

theorem decWords_ok (ws : List Nat) (h : ∀ w ∈ ws, w < 2 ^ 64) (rest : List Tok) :
    decWords (encWords ws ++ rest) = .ok (ws, rest) := by
  rw [decWords, encWords, List.cons_append, Dec.bind_ok (show Dec.ulong _ = .ok (ws.length, _) from rfl),
    List.cons_append, Dec.bind_ok (show Dec.blob _ = .ok (_, _) from rfl),
    if_neg (by rw [flatMap_words_length wordBytes 8 ws (fun x _ => wordBytes_length x)]; omega),
    Dec.pure_apply, List.nil_append]
  congr 2
  apply List.ext_getElem
  · simp
  · intro i h1 h2
    rw [List.getElem_map, List.getElem_range]
    exact bytesWord_flatMap ws i h2 (h _ (List.getElem_mem h2))

theorem splitSizes_ok {α : Type} (vv : List (List α)) (pre : List α) :
    splitSizes (pre ++ vv.flatten) pre.length (vv.map List.length) = .ok vv := by
  induction vv generalizing pre with
  | nil => rfl
  | cons v vv ih =>
    rw [List.map_cons, splitSizes, List.flatten_cons,
      if_neg (by simp only [List.length_append]; omega), ← List.append_assoc, ← List.length_append,
      ih (pre ++ v), ok_bind, List.append_assoc, List.drop_left, List.take_left]

theorem decWords2_ok (vv : List (List Nat)) (hw : ∀ v ∈ vv, ∀ w ∈ v, w < 2 ^ 64)
    (hl : ∀ v ∈ vv, v.length < 2 ^ 64) (rest : List Tok) :
    decWords2 (encWords2 vv ++ rest) = .ok (vv, rest) := by
  rw [decWords2, encWords2, List.append_assoc,
    Dec.bind_ok (decWords_ok _ (by
      intro w hw'
      obtain ⟨v, hv, rfl⟩ := List.mem_map.mp hw'
      exact hl v hv) _),
    Dec.bind_ok (decWords_ok _ (by
      intro w hw'
      obtain ⟨v, hv, hwv⟩ := List.mem_flatten.mp hw'
      exact hw v hv w hwv) _)]
  have := splitSizes_ok vv []
  rw [List.nil_append, List.length_nil] at this
  unfold Dec.lift
  rw [this]

/-! ## Requests and results -/

theorem range_blob (rs : List Interval) :
    (rs.flatMap fun r => wordBytes r.b ++ wordBytes r.e)
      = (rs.flatMap fun r => [r.b, r.e]).flatMap wordBytes := by
  rw [List.flatMap_assoc]
  simp

theorem flatMap_pair_getElem (rs : List Interval) (i : Nat) (hi : i < rs.length) :
    (rs.flatMap fun r => [r.b, r.e])[i * 2]? = some rs[i].b ∧
    (rs.flatMap fun r => [r.b, r.e])[i * 2 + 1]? = some rs[i].e := by
  induction rs generalizing i with
  | nil => simp at hi
  | cons a rs ih =>
    cases i with
    | zero => simp
    | succ i =>
      have := ih i (by simpa using hi)
      rw [List.flatMap_cons]
      constructor
      · rw [List.getElem?_append_right (by simp; omega)]
        simpa [Nat.succ_mul] using this.1
      · rw [List.getElem?_append_right (by simp; omega)]
        have e : (i + 1) * 2 + 1 - [a.b, a.e].length = i * 2 + 1 := by simp; omega
        rw [e]; simpa using this.2

theorem decRanges_ok (rs : List Interval) (h : ∀ r ∈ rs, r.b < 2 ^ 64 ∧ r.e < 2 ^ 64)
    (rest : List Tok) : decRanges (encRanges rs ++ rest) = .ok (rs, rest) := by
  have hlen : (rs.flatMap fun r => [r.b, r.e]).length = 2 * rs.length :=
    flatMap_words_length _ 2 rs (fun _ _ => rfl)
  rw [decRanges, encRanges, List.cons_append,
    Dec.bind_ok (show Dec.ulong _ = .ok (rs.length, _) from rfl),
    List.cons_append, Dec.bind_ok (show Dec.blob _ = .ok (_, _) from rfl), range_blob,
    if_neg (by
      rw [flatMap_words_length wordBytes 8 _ (fun x _ => wordBytes_length x), hlen]; omega),
    Dec.pure_apply, List.nil_append]
  congr 2
  apply List.ext_getElem
  · simp
  · intro i h1 h2
    rw [List.getElem_map, List.getElem_range]
    obtain ⟨g1, g2⟩ := flatMap_pair_getElem rs i h2
    obtain ⟨l1, e1⟩ := List.getElem?_eq_some_iff.mp g1
    obtain ⟨l2, e2⟩ := List.getElem?_eq_some_iff.mp g2
    have hb := h _ (List.getElem_mem h2)
    rw [bytesWord_flatMap _ _ l1 (by rw [e1]; exact hb.1),
      bytesWord_flatMap _ _ l2 (by rw [e2]; exact hb.2), e1, e2]

/-- Interval bounds are `size_t`. -/
def ExRequest.Fits (r : ExRequest) : Prop := ∀ i ∈ r.ranges, i.b < 2 ^ 64 ∧ i.e < 2 ^ 64

/-- Mask words and vector lengths are 64-bit. -/
def WireResult.Fits (r : WireResult) : Prop :=
  (∀ v ∈ r.values, v.length < 2 ^ 64) ∧ (∀ m ∈ r.mask, m.length < 2 ^ 64 ∧ ∀ w ∈ m, w < 2 ^ 64)

theorem decRequest_ok (r : ExRequest) (h : r.Fits) (rest : List Tok) :
    decRequest (encRequest r ++ rest) = .ok (r, rest) := by
  rw [decRequest, encRequest, List.cons_append,
    Dec.bind_ok (show Dec.str _ = .ok (r.request, _) from rfl), List.cons_append,
    Dec.bind_ok (show Dec.str _ = .ok (r.gridHash, _) from rfl),
    Dec.bind_ok (decRanges_ok r.ranges h rest)]
  rfl

theorem decResult_ok (r : WireResult) (h : WireResult.Fits r) (rest : List Tok) :
    decResult (encResult r ++ rest) = .ok (r, rest) := by
  rw [decResult, encResult, List.append_assoc,
    Dec.bind_ok (decWords2_ok _ (by
      intro v hv w hw
      obtain ⟨v', -, rfl⟩ := List.mem_map.mp hv
      obtain ⟨x, -, rfl⟩ := List.mem_map.mp hw
      exact x.toNat_lt) (by
      intro v hv
      obtain ⟨v', hv', rfl⟩ := List.mem_map.mp hv
      rw [List.length_map]; exact h.1 v' hv') _),
    Dec.bind_ok (decWords2_ok _ (fun v hv => (h.2 v hv).2) (fun v hv => (h.2 v hv).1) _),
    Dec.pure_apply]
  congr 2
  obtain ⟨values, mask⟩ := r
  simp only [List.map_map]
  congr 1
  rw [show ((List.map UInt64.ofNat) ∘ (List.map UInt64.toNat)) = id from ?_, List.map_id]
  funext l
  rw [Function.comp_apply, List.map_map, show (UInt64.ofNat ∘ UInt64.toNat) = id from by
    funext x; simp, List.map_id]
  rfl

/-! ## Maps rebuilt from entries -/

theorem AMap.set_new {K V : Type} [DecidableEq K] (m : AMap K V) (x : K) (y : V) (h : x ∉ m.keys) :
    m.set x y = m ++ [(x, y)] := by
  induction m with
  | nil => rfl
  | cons p rest ih =>
    obtain ⟨k, v⟩ := p
    simp only [AMap.keys, List.map_cons, List.mem_cons, not_or] at h
    rw [AMap.set, if_neg (fun e => h.1 e.symm), ih h.2]; rfl

theorem AMap.rebuild {K V : Type} [DecidableEq K] (es m : AMap K V) (h : (m.keys ++ es.keys).Nodup) :
    es.foldl (fun m e => AMap.set m e.1 e.2) m = m ++ es := by
  induction es generalizing m with
  | nil => simp
  | cons e es ih =>
    have hnot : e.1 ∉ m.keys := by
      intro hm
      rw [List.nodup_append] at h
      exact h.2.2 _ hm _ (by simp [AMap.keys]) rfl
    rw [List.foldl_cons, AMap.set_new _ _ _ hnot, ih _ (by
      simpa [AMap.keys] using h), List.append_assoc]
    rfl

theorem AMap.find_mid {K V : Type} [DecidableEq K] (done todo : AMap K V) (x : K) (y : V)
    (h : x ∉ done.keys) : AMap.find (done ++ (x, y) :: todo) x = some y := by
  induction done with
  | nil => simp [AMap.find]
  | cons p rest ih =>
    obtain ⟨k, v⟩ := p
    simp only [AMap.keys, List.map_cons, List.mem_cons, not_or] at h
    rw [List.cons_append, AMap.find, if_neg (fun e => h.1 e.symm), ih h.2]

theorem AMap.set_mid {K V : Type} [DecidableEq K] (done todo : AMap K V) (x : K) (y z : V)
    (h : x ∉ done.keys) : AMap.set (done ++ (x, y) :: todo) x z = done ++ (x, z) :: todo := by
  induction done with
  | nil => simp [AMap.set]
  | cons p rest ih =>
    obtain ⟨k, v⟩ := p
    simp only [AMap.keys, List.map_cons, List.mem_cons, not_or] at h
    rw [List.cons_append, AMap.set, if_neg (fun e => h.1 e.symm), ih h.2]; rfl

theorem setInsert_rebuild {α : Type} [DecidableEq α] (vs s : List α) (h : (s ++ vs).Nodup) :
    vs.foldl setInsert s = s ++ vs := by
  induction vs generalizing s with
  | nil => simp
  | cons v vs ih =>
    have hnot : v ∉ s := by
      intro hm
      rw [List.nodup_append] at h
      exact h.2.2 _ hm _ (by simp) rfl
    rw [List.foldl_cons, setInsert, if_neg hnot, ih _ (by simpa using h), List.append_assoc]
    rfl

/-! ## Sorting by offset -/

theorem insertByOffset_perm (x : Item) (l : List Item) : (insertByOffset x l).Perm (x :: l) := by
  induction l with
  | nil => exact List.Perm.refl _
  | cons y l ih =>
    rw [insertByOffset]
    split
    · exact List.Perm.refl _
    · exact (ih.cons y).trans (List.Perm.swap x y l)

theorem insertByOffset_sorted (x : Item) (l : List Item)
    (h : l.Pairwise (fun a b => a.uri.offset ≤ b.uri.offset)) :
    (insertByOffset x l).Pairwise (fun a b => a.uri.offset ≤ b.uri.offset) := by
  induction l with
  | nil => simp [insertByOffset]
  | cons y l ih =>
    rw [List.pairwise_cons] at h
    rw [insertByOffset]
    split
    · rename_i hlt
      rw [List.pairwise_cons, List.pairwise_cons]
      refine ⟨?_, h.1, h.2⟩
      intro b hb
      rcases List.mem_cons.mp hb with rfl | hb
      · omega
      · have := h.1 b hb; omega
    · rename_i hge
      rw [List.pairwise_cons]
      refine ⟨?_, ih h.2⟩
      intro b hb
      rcases List.mem_cons.mp ((insertByOffset_perm x l).mem_iff.mp hb) with rfl | hb
      · omega
      · exact h.1 b hb

theorem sort_fold (l acc : List Item) :
    (l.foldl (fun acc x => insertByOffset x acc) acc).Perm (acc ++ l) := by
  induction l generalizing acc with
  | nil => simp
  | cons a l ih =>
    rw [List.foldl_cons]
    refine (ih _).trans ?_
    refine ((insertByOffset_perm a acc).append_right l).trans ?_
    exact (List.perm_middle (a := a) (l₁ := acc) (l₂ := l)).symm

theorem sortByOffset_perm (l : List Item) : (sortByOffset l).Perm l := by
  simpa [sortByOffset] using sort_fold l []

theorem sortByOffset_sorted (l : List Item) :
    (sortByOffset l).Pairwise (fun a b => a.uri.offset ≤ b.uri.offset) := by
  have : ∀ (l acc : List Item), acc.Pairwise (fun a b => a.uri.offset ≤ b.uri.offset) →
      (l.foldl (fun acc x => insertByOffset x acc) acc).Pairwise
        (fun a b => a.uri.offset ≤ b.uri.offset) := by
    intro l
    induction l with
    | nil => intro acc h; exact h
    | cons a l ih => intro acc h; exact ih _ (insertByOffset_sorted a acc h)
  exact this l [] List.Pairwise.nil

end GJ
