import Verif.Seq.Proofs
set_option autoImplicit false
set_option maxRecDepth 4000
/-
Properties C31, C33 - C37, C64, C65: sequence functions.  Each theorem says what the modelled C code
computes, in terms of `Spec.lean` and the list functions of Lean's library.
-/
namespace Eus.Seq
variable {α : Type}

/-! ### C31: remove -/

/-- On a list, `remove` with `0 ≤ start ≤ end ≤ length` returns the list without the first `count`
matching elements of the range, in order. -/
theorem C31_remove_list (p : α → Bool) (s e c : Nat) (l : List α) (he : e ≤ l.length) :
    removeList p s e c l = some (within (dropFirst p c) s e l) := by
  unfold removeList
  split
  · rename_i h
    have : l = [] := by simpa using h
    subst this
    cases c <;> simp [within, dropFirst]
  · obtain ⟨a, b, h1, h2⟩ := rmLoop_spec p (l.drop s) (e - s) c (l.take s).reverse (by simp; omega)
    simp only [h1, Option.map_some, h2, List.reverse_reverse]
    rfl

example : removeList (· == 1) 1 5 2 [1, 1, 2, 1, 1, 1] = some [1, 2, 1, 1] := by decide

/-- With no keyword (default count 1000000) `remove` is the filter, for lists with at most a million
matches. -/
theorem C31_remove_default_list (p : α → Bool) (l : List α) (h : l.countP p ≤ 1000000) :
    removeList p 0 l.length 1000000 l = some (l.filter fun x => !p x) := by
  rw [C31_remove_list p 0 l.length 1000000 l (Nat.le_refl _)]
  simp only [within, List.take_zero, List.nil_append, List.drop_zero, Nat.sub_zero, List.take_length,
    List.drop_length, List.append_nil, dropFirst_filter p l _ h]

/-- Beyond a million matches the rest stays in the result. -/
theorem C31_remove_default_limit (x : α) (n : Nat) :
    removeList (fun _ => true) 0 (1000000 + n) 1000000 (List.replicate (1000000 + n) x)
      = some (List.replicate n x) := by
  rw [C31_remove_list _ 0 _ _ _ (by simp)]
  have : ∀ c m, dropFirst (fun _ => true) c (List.replicate (c + m) x) = List.replicate m x := by
    intro c
    induction c with
    | zero => intro m; rw [dropFirst_zero, Nat.zero_add]
    | succ c ih =>
      intro m
      rw [show c + 1 + m = (c + m) + 1 by omega, List.replicate_succ]
      simp only [dropFirst, if_true]; exact ih m
  simp only [within, List.take_zero, List.nil_append, List.drop_zero, Nat.sub_zero]
  rw [List.take_of_length_le (by simp), List.drop_eq_nil_of_le (by simp), this]
  simp

/-- An `:end` beyond the list is an error unless the count runs out first. -/
theorem C31_remove_end_error (p : α → Bool) (s e c : Nat) (l : List α) (hl : l ≠ []) (hs : s ≤ e)
    (he : l.length < e) (hs' : s ≤ l.length) (hc : (l.drop s).countP p < c) :
    removeList p s e c l = none := by
  unfold removeList
  rw [if_neg (by simpa using hl), rmLoop_err p (l.drop s) (e - s) c _ (by simp; omega) hc]
  rfl

example : removeList (· == 1) 0 4 9 [1, 2, 3] = none := by decide

/-- On a vector, `remove` also drops everything between the `count`-th match and `end`. -/
theorem C31_remove_vector_result (p : α → Bool) (s e c : Nat) (v : List α) (hs : s ≤ e)
    (he : e ≤ v.length) (hm : v.length ≤ 100000000) :
    removeVec p s e c v =
      some (v.take s ++ (upTo p c (seg s e v)).filter (fun x => !p x) ++ v.drop e) :=
  removeVec_eq p s e c v hs he hm

/-- `remove` on a vector is right exactly when nothing of the range follows the `count`-th match. -/
theorem C31_remove_vector_iff_partial (p : α → Bool) (s e c : Nat) (v : List α) (hs : s ≤ e)
    (he : e ≤ v.length) (hm : v.length ≤ 100000000) :
    removeVec p s e c v = some (within (dropFirst p c) s e v) ↔
      (upTo p c (seg s e v)).length = (seg s e v).length := by
  rw [removeVec_eq p s e c v hs he hm, within_eq, dropFirst_upTo, drop_drop' s e v hs]
  have hle := upTo_le p (seg s e v) c
  constructor
  · intro h
    have := congrArg List.length (Option.some.inj h)
    simp only [List.length_append, List.length_drop] at this
    omega
  · intro h
    rw [h, List.drop_length, List.append_nil]

/-- In particular with fewer matches in the range than the count (no :count given, say). -/
theorem C31_remove_vector_partial (p : α → Bool) (s e c : Nat) (v : List α) (hs : s ≤ e)
    (he : e ≤ v.length) (hm : v.length ≤ 100000000) (hc : (seg s e v).countP p < c) :
    removeVec p s e c v = some (within (fun l => l.filter fun x => !p x) s e v) := by
  rw [(C31_remove_vector_iff_partial p s e c v hs he hm).2 (by rw [upTo_all p _ c hc])]
  rw [within_eq, within_eq, dropFirst_filter p _ c (by omega)]

example : (seg 1 5 [7, 1, 2, 1, 1, 3]).countP (· == 1) < 9 := by decide
example : removeVec (· == 1) 1 5 9 [7, 1, 2, 1, 1, 3] = some [7, 2, 3] := by decide

/-- `(remove 1 #(1 2 3) :count 1)` is `#()`, not `#(2 3)`. -/
theorem C31_remove_vector_count_wrong :
    removeVec (· == 1) 0 3 1 [1, 2, 3] = some [] ∧
    within (dropFirst (· == 1) 1) 0 3 [1, 2, 3] = [2, 3] := by decide

/-- `remove` on a vector with a fill pointer works on the whole underlying vector: with contents
`1 2`, fill pointer 2 and stale slots `8 9`, `(remove 1 v)` returns `#(2 8 9)`. -/
theorem C31_remove_fill_pointer_wrong : removeVec (· == 1) 0 2 1000000 [1, 2, 8, 9] = some [2, 8, 9] := by
  decide

/-! ### C32: delete on vectors -/

/-- `delete` on a vector: everything after the range, and everything after the `count`-th match, is
lost. -/
theorem C32_delete_vector_result (p : α → Bool) (s e c : Nat) (v : List α) (hs : s ≤ e)
    (he : e ≤ v.length) :
    deleteVec p s e c v = some (v.take s ++ (upTo p c (seg s e v)).filter (fun x => !p x)) :=
  deleteVec_eq p s e c v hs he

/-- `delete` on a vector is right exactly when the range extends to the end of the vector and nothing
follows the `count`-th match. -/
theorem C32_delete_vector_iff_partial (p : α → Bool) (s e c : Nat) (v : List α) (hs : s ≤ e)
    (he : e ≤ v.length) :
    deleteVec p s e c v = some (within (dropFirst p c) s e v) ↔
      e = v.length ∧ (upTo p c (seg s e v)).length = (seg s e v).length := by
  rw [deleteVec_eq p s e c v hs he, within_eq, dropFirst_upTo, drop_drop' s e v hs]
  have hle := upTo_le p (seg s e v) c
  constructor
  · intro h
    have := congrArg List.length (Option.some.inj h)
    simp only [List.length_append, List.length_drop] at this
    omega
  · rintro ⟨h1, h2⟩
    rw [h2, List.drop_length, h1, List.drop_length, List.append_nil, List.append_nil]

/-- In the common case, without :end and :count, `delete` on a vector is the filter. -/
theorem C32_delete_vector_partial (p : α → Bool) (v : List α) (hc : v.countP p < 1000000) :
    deleteVec p 0 v.length 1000000 v = some (v.filter fun x => !p x) := by
  rw [deleteVec_eq p 0 v.length _ v (Nat.zero_le _) (Nat.le_refl _)]
  have hs : seg 0 v.length v = v := by simp [seg]
  rw [hs, upTo_all p v _ hc]; simp

example : deleteVec (· == 1) 0 4 1000000 [1, 2, 1, 3] = some [2, 3] := by decide

/-- `(delete 1 #(1 2 1 3) :end 2)` is `#(2)` and `(delete 1 #(1 2 1 3) :count 1)` is `#()`. -/
theorem C32_delete_vector_wrong :
    deleteVec (· == 1) 0 2 1000000 [1, 2, 1, 3] = some [2] ∧
    deleteVec (· == 1) 0 4 1 [1, 2, 1, 3] = some [] := by decide

/-! ### C33: substitute, nsubstitute -/

theorem C33_substitute_list (p : α → Bool) (new : α) (s e c : Nat) (l : List α)
    (he : e ≤ l.length) :
    substituteList p new s e c l = some (within (replaceFirst p new c) s e l) := by
  unfold substituteList
  split
  · rename_i h
    have : l = [] := by simpa using h
    subst this
    cases c <;> simp [within, replaceFirst]
  · obtain ⟨a, b, h1, h2⟩ := subLoop_spec p new (l.drop s) (e - s) c (l.take s).reverse (by simp; omega)
    simp only [h1, Option.map_some, h2, List.reverse_reverse]
    rfl

example : substituteList (· == 1) 9 1 5 2 [1, 1, 2, 1, 1, 1] = some [1, 9, 2, 9, 1, 1] := by decide

theorem C33_nsubstitute_list (p : α → Bool) (new : α) (s e c : Nat) (l : List α) (hs : s ≤ e)
    (he : e ≤ l.length) :
    nsubstituteList p new s e c l = some (within (replaceFirst p new c) s e l) := by
  unfold nsubstituteList
  split
  · rename_i h
    have : l = [] := by simpa using h
    subst this
    cases c <;> simp [within, replaceFirst]
  · rw [if_neg (by omega), nsubLoop_spec p new (l.drop s) (e - s) c (by simp; omega)]
    simp [within]

theorem C33_nsubstitute_vector (p : α → Bool) (new : α) (s e c : Nat) (v : List α) (hs : s ≤ e)
    (he : e ≤ v.length) :
    nsubstituteVec p new s e c v = some (within (replaceFirst p new c) s e v) := by
  unfold nsubstituteVec
  rw [Nat.min_eq_left he, vnsubLoop_spec p new (e - s) c s v (by omega), within, ← List.drop_drop]

example : nsubstituteVec (· == 1) 9 1 5 2 [1, 1, 2, 1, 1, 1] = some [1, 9, 2, 9, 1, 1] := by decide

/-- `nsubstitute` never changes the length of the sequence. -/
theorem C33_nsubstitute_length (p : α → Bool) (new : α) (s e c : Nat) (v v' : List α) (hs : s ≤ e)
    (he : e ≤ v.length) (h : nsubstituteVec p new s e c v = some v') : v'.length = v.length := by
  rw [C33_nsubstitute_vector p new s e c v hs he] at h
  have hl : ∀ (l : List α) (c : Nat), (replaceFirst p new c l).length = l.length := by
    intro l
    induction l with
    | nil => intro c; cases c <;> rfl
    | cons x l ih =>
      intro c
      cases c with
      | zero => rfl
      | succ c => simp only [replaceFirst]; split <;> simp [ih]
  rw [← Option.some.inj h]
  simp [within, hl]; omega

/-- With enough count, `substitute` replaces exactly the matches of the range. -/
theorem C33_substitute_all (p : α → Bool) (new : α) (s e c : Nat) (l : List α)
    (he : e ≤ l.length) (hc : (seg s e l).countP p ≤ c) :
    substituteList p new s e c l =
      some (within (fun l => l.map fun x => if p x then new else x) s e l) := by
  rw [C33_substitute_list p new s e c l he, within_eq, within_eq, replaceFirst_map p new _ c hc]

/-- On a vector, `substitute` is right exactly when nothing of the range follows the `count`-th match;
otherwise those elements are lost. -/
theorem C33_substitute_vector_iff_partial (p : α → Bool) (new : α) (s e c : Nat) (v : List α)
    (hs : s ≤ e) (he : e ≤ v.length) (hm : v.length ≤ 100000000) :
    substituteVec p new s e c v = some (within (replaceFirst p new c) s e v) ↔
      (upTo p c (seg s e v)).length = (seg s e v).length := by
  rw [substituteVec_eq p new s e c v hs he hm, within_eq, replaceFirst_upTo, drop_drop' s e v hs]
  have hle := upTo_le p (seg s e v) c
  constructor
  · intro h
    have := congrArg List.length (Option.some.inj h)
    simp only [List.length_append, List.length_drop] at this
    omega
  · intro h
    rw [h, List.drop_length, List.append_nil]

theorem C33_substitute_vector_partial (p : α → Bool) (new : α) (s e c : Nat) (v : List α)
    (hs : s ≤ e) (he : e ≤ v.length) (hm : v.length ≤ 100000000) (hc : (seg s e v).countP p < c) :
    substituteVec p new s e c v =
      some (within (fun l => l.map fun x => if p x then new else x) s e v) := by
  rw [(C33_substitute_vector_iff_partial p new s e c v hs he hm).2 (by rw [upTo_all p _ c hc])]
  rw [within_eq, within_eq, replaceFirst_map p new _ c (by omega)]

example : substituteVec (· == 1) 9 1 5 7 [1, 1, 2, 1, 1, 1] = some [1, 9, 2, 9, 9, 1] := by decide

/-- `(substitute 9 1 #(1 2 3) :count 1)` is `#(9)`, not `#(9 2 3)`. -/
theorem C33_substitute_vector_count_wrong :
    substituteVec (· == 1) 9 0 3 1 [1, 2, 3] = some [9] ∧
    within (replaceFirst (· == 1) 9 1) 0 3 [1, 2, 3] = [9, 2, 3] := by decide

/-! ### C34: find, position, count -/

theorem C34_find_list (p : α → Bool) (s e : Nat) (l : List α) :
    findList p s e l = (seg s e l).find? p := findLoop_spec p (l.drop s) (e - s)

theorem C34_find_vector (p : α → Bool) (s e : Nat) (v : List α) :
    findVec p s e v = (seg s e v).find? p := by
  unfold findVec seg
  rw [vfindLoop_eq, findLoop_spec]
  congr 1
  by_cases h : e ≤ v.length
  · rw [Nat.min_eq_left h]
  · rw [Nat.min_eq_right (by omega), List.take_of_length_le (by simp), List.take_of_length_le (by simp; omega)]

example : findVec (fun x => 3 < x) 1 9 [9, 2, 5, 7] = some 5 := by decide

/-- `position` returns `k` exactly when `k` is in the range, matches, and is the `count`-th match of the
range (count 1 by default). -/
theorem C34_position_list (p : α → Bool) (s e c : Nat) (l : List α) (k : Nat) :
    positionList p s e (c + 1) l = some k ↔
      s ≤ k ∧ k < e ∧ (∃ x, l[k]? = some x ∧ p x = true) ∧ (seg s k l).countP p = c := by
  unfold positionList seg
  rw [posLoop_spec]
  constructor
  · rintro ⟨j, rfl, h1, ⟨x, hx, hp⟩, h3⟩
    refine ⟨by omega, by omega, ⟨x, by rw [← hx]; simp, hp⟩, ?_⟩
    rw [Nat.add_sub_cancel_left]; exact h3
  · rintro ⟨h1, h2, ⟨x, hx, hp⟩, h3⟩
    refine ⟨k - s, by omega, by omega, ⟨x, ?_, hp⟩, h3⟩
    rw [List.getElem?_drop, show s + (k - s) = k by omega]; exact hx

theorem C34_position_vector (p : α → Bool) (s e c : Nat) (v : List α) (k : Nat) :
    positionVec p s e (c + 1) v = some k ↔
      s ≤ k ∧ k < e ∧ (∃ x, v[k]? = some x ∧ p x = true) ∧ (seg s k v).countP p = c := by
  unfold positionVec
  rw [vposLoop_eq]
  refine (C34_position_list p s (min e v.length) c v k).trans ?_
  constructor
  · rintro ⟨h1, h2, h3, h4⟩; exact ⟨h1, by omega, h3, h4⟩
  · rintro ⟨h1, h2, ⟨x, hx, hp⟩, h4⟩
    have := (List.getElem?_eq_some_iff.1 hx).1
    exact ⟨h1, by omega, ⟨x, hx, hp⟩, h4⟩

example : positionVec (· == 1) 1 9 2 [1, 1, 0, 1] = some 3 := by decide

/-- `find` succeeds exactly when `position` does, at the element found. -/
theorem C34_find_position (p : α → Bool) (s e k : Nat) (l : List α)
    (h : positionList p s e 1 l = some k) : findList p s e l = l[k]? := by
  obtain ⟨h1, h2, ⟨x, hx, hp⟩, h4⟩ := (C34_position_list p s e 0 l k).1 h
  rw [C34_find_list, hx, List.find?_eq_some_iff_append]
  refine ⟨hp, seg s k l, seg (k + 1) e l, ?_, ?_⟩
  · unfold seg
    have := cons_of_getElem? hx
    have e1 : e - s = (k - s) + (e - k) := by omega
    rw [e1, List.take_add, List.drop_drop, show s + (k - s) = k by omega, this,
      show e - k = (e - (k + 1)) + 1 by omega, List.take_succ_cons]
  · intro a ha
    have := (List.countP_eq_zero (p := p)).1 h4 a ha
    simpa using this

example : positionList (· == 1) 0 4 1 [0, 1, 1] = some 1 := by decide

theorem C34_count_vector (p : α → Bool) (s e : Nat) (v : List α) :
    countVec p s e v = (seg s e v).countP p := by
  unfold countVec seg
  rw [vcountLoop_eq, countLoop_spec, Nat.zero_add]
  congr 1
  by_cases h : e ≤ v.length
  · rw [Nat.min_eq_left h]
  · rw [Nat.min_eq_right (by omega), List.take_of_length_le (by simp), List.take_of_length_le (by simp; omega)]

example : countVec (· == 1) 1 9 [1, 1, 0, 1] = 2 := by decide

theorem C34_count_list_partial (p : α → Bool) (s e : Nat) (l : List α) (h : l = [] ∨ s < l.length) :
    countList p s e l = some ((seg s e l).countP p) := by
  unfold countList
  split
  · rename_i hl
    have : l = [] := by simpa using hl
    subst this; simp [seg]
  · rename_i hl
    have hl' : l ≠ [] := by simpa using hl
    have hs : s < l.length := h.resolve_left hl'
    rw [if_neg (by simp; omega), countLoop_spec, Nat.zero_add]; rfl

example : countList (· == 1) 1 9 [1, 1, 0, 1] = some 2 := by decide

/-- `(count x l :start n)` with `n` the length of the non-empty list `l` is NIL, not 0. -/
theorem C34_count_at_end_is_nil (p : α → Bool) (s e : Nat) (l : List α) (hl : l ≠ [])
    (hs : l.length ≤ s) : countList p s e l = none := by
  unfold countList
  rw [if_neg (by simpa using hl), if_pos (by simpa using hs)]

example : countList (· == 1) 2 2 [1, 1] = none := by decide

/-! ### C35: reverse, nreverse -/

theorem C35_reverse_list (l : List α) : reverseList l = l.reverse := by
  simp [reverseList, revLoop_spec]

theorem C35_reverse_vector (nil : α) (v : List α) : reverseVec nil 0 v.length v = some v.reverse := by
  unfold reverseVec
  rw [vrevLoop_spec v v.length v.length 0 0 _ (by omega) (by simp) (by omega)]
  simp

/-- a displaced array: the reverse of its own elements -/
theorem C35_reverse_displaced (nil : α) (s k : Nat) (a : List α) (h : s + k ≤ a.length) :
    reverseVec nil s k a = some ((a.drop s).take k).reverse := by
  unfold reverseVec
  rw [vrevLoop_spec a k k 0 s _ (by omega) (by simp) h]
  simp

example : reverseVec 0 1 3 [9, 1, 2, 3, 8] = some [3, 2, 1] := by decide

theorem C35_nreverse_list (l : List α) : nreverseList l = l.reverse := by
  unfold nreverseList
  simp only
  rw [push_fold, List.append_nil]
  exact (nrev_fold l [] l.reverse (by simp)).trans (by
    rw [List.nil_append, List.take_of_length_le (by simp)])

theorem C35_nreverse_vector (v : List α) : nreverseVec 0 v.length v = some v.reverse := by
  unfold nreverseVec
  obtain ⟨v', h1, h2, h3⟩ := swapLoop_spec v.length (v.length / 2) 0 v rfl (by omega)
  rw [h1]
  congr 1
  apply List.ext_getElem?
  intro j
  by_cases hj : j < v.length
  · rw [h3 j hj, if_pos (by omega), List.getElem?_reverse hj]
  · rw [List.getElem?_eq_none_iff.2 (by omega), List.getElem?_eq_none_iff.2 (by simp; omega)]

example : nreverseVec 0 5 [1, 2, 3, 4, 5] = some [5, 4, 3, 2, 1] := by decide

/-- twice is the identity -/
theorem C35_reverse_involutive (nil : α) (v : List α) :
    (reverseVec nil 0 v.length v).bind (fun r => reverseVec nil 0 r.length r) = some v := by
  rw [C35_reverse_vector, Option.bind_some, C35_reverse_vector, List.reverse_reverse]

/-- `nreverse` of a displaced array exchanges the wrong elements: the elements `2 3` at offset 1
of `#(1 2 3)` stay as they are, and of `2 3 4` at offset 1 of `#(1 2 3 4)` the first two are swapped. -/
theorem C35_nreverse_displaced_wrong : nreverseVec 1 2 [1, 2, 3] = some [1, 2, 3] ∧
    nreverseVec 1 3 [1, 2, 3, 4] = some [1, 3, 2, 4] := by decide

/-! ### C36: subseq, concatenate -/

theorem C36_subseq_list_partial (s e : Nat) (l : List α) (hs : s ≤ e) (h : l = [] ∨ s < l.length) :
    subseqList s (some e) l = some (seg s e l) := by
  unfold subseqList
  rw [if_neg (by simp; omega)]
  split
  · rename_i hl
    have : l = [] := by simpa using hl
    subst this; simp [seg]
  · rename_i hl
    have : s < l.length := h.resolve_left (by simpa using hl)
    rw [if_neg (by simp; omega)]; rfl

theorem C36_subseq_list_tail_partial (s : Nat) (l : List α) (h : s < l.length) :
    subseqList s none l = some (l.drop s) := by
  unfold subseqList
  simp only [Bool.false_eq_true, if_false]
  rw [if_neg (by intro hl; rw [List.isEmpty_iff] at hl; rw [hl] at h; exact absurd h (by simp)), if_neg (by simp; omega)]

example : subseqList 1 (some 3) [1, 2, 3, 4] = some [2, 3] := by decide

/-- `(subseq l n)` with `n` the length of a non-empty list is an error, not the empty list. -/
theorem C36_subseq_at_end_error (l : List α) (hl : l ≠ []) (stop : Option Nat) :
    subseqList l.length stop l = none := by
  unfold subseqList
  have hl' : ¬ l.isEmpty = true := by simpa using hl
  cases stop with
  | none => simp [hl]
  | some e => simp [hl]

theorem C36_subseq_vector (s e : Nat) (v : List α) (hs : s ≤ e) (hv : s ≤ v.length) :
    subseqVec s (some e) v = some (seg s e v) := by
  unfold subseqVec
  rw [if_neg (by simp; omega)]
  simp only
  rw [if_neg (by omega)]
  unfold seg
  congr 1
  by_cases h : e ≤ v.length
  · rw [Nat.min_eq_left h]
  · rw [Nat.min_eq_right (by omega), List.take_of_length_le (by simp), List.take_of_length_le (by simp; omega)]

example : subseqVec 4 (some 9) [1, 2, 3, 4] = some [] := by decide

/-- `concatenate` is concatenation (each argument up to 10^8 elements). -/
theorem C36_concatenate (args : List (List α)) (h : ∀ a ∈ args, a.length ≤ 100000000) :
    concatenate args = args.flatten := by
  have : ∀ (args : List (List α)) (acc : List α), (∀ a ∈ args, a.length ≤ 100000000) →
      args.foldl (fun stk a => stk ++ pushseq a 0 MAXSEQ) acc = acc ++ args.flatten := by
    intro args
    induction args with
    | nil => intro acc _; simp
    | cons a as ih =>
      intro acc h
      rw [List.foldl_cons, ih _ (fun b hb => h b (List.mem_cons_of_mem _ hb))]
      have : pushseq a 0 MAXSEQ = a := by
        unfold pushseq
        rw [List.drop_zero]; exact List.take_of_length_le (h a List.mem_cons_self)
      rw [this]; simp
  exact this args [] h

/-- `subseq` then `concatenate` restores a vector. -/
theorem C36_split_join (k : Nat) (v a b : List α) (hk : k ≤ v.length) (hv : v.length ≤ 100000000)
    (ha : subseqVec 0 (some k) v = some a) (hb : subseqVec k (some v.length) v = some b) :
    concatenate [a, b] = v := by
  rw [C36_subseq_vector 0 k v (by omega) (by omega)] at ha
  rw [C36_subseq_vector k v.length v hk hk] at hb
  obtain rfl := Option.some.inj ha
  obtain rfl := Option.some.inj hb
  rw [C36_concatenate _ (by
    intro x hx
    simp only [List.mem_cons, List.not_mem_nil, or_false] at hx
    rcases hx with rfl | rfl <;> simp [seg] <;> omega)]
  simp only [seg, List.flatten_cons, List.flatten_nil, List.append_nil, List.drop_zero, Nat.sub_zero]
  rw [List.take_of_length_le (l := v.drop k) (by simp), List.take_append_drop]

example : subseqVec 0 (some 2) [1, 2, 3] = some [1, 2] ∧ subseqVec 2 (some 3) [1, 2, 3] = some [3] := by
  decide

/-- The same for lists, strictly inside the list. -/
theorem C36_split_join_list_partial (k : Nat) (v a b : List α) (hk : k < v.length)
    (hv : v.length ≤ 100000000)
    (ha : subseqList 0 (some k) v = some a) (hb : subseqList k none v = some b) :
    concatenate [a, b] = v := by
  rw [C36_subseq_list_partial 0 k v (by omega) (Or.inr (by omega))] at ha
  rw [C36_subseq_list_tail_partial k v hk] at hb
  obtain rfl := Option.some.inj ha
  obtain rfl := Option.some.inj hb
  rw [C36_concatenate _ (by
    intro x hx
    simp only [List.mem_cons, List.not_mem_nil, or_false] at hx
    rcases hx with rfl | rfl <;> simp [seg] <;> omega)]
  simp [seg]

/-! ### C37: remove-duplicates, unique -/

theorem C37_remove_duplicates_list (test : α → α → Bool) (s e : Nat) (l : List α) :
    removeDuplicatesList test s e l = within (keepLast test) s e l := by
  unfold removeDuplicatesList
  have := dupLoop_spec test (l.drop s) (e - s) (l.take s).reverse
  rw [List.reverse_reverse] at this
  exact this

theorem C37_remove_duplicates_vector (test : α → α → Bool) (s e : Nat) (v : List α) (hs : s ≤ e)
    (hm : v.length ≤ 100000000) :
    removeDuplicatesVec test s e v = within (keepLast test) s e v := by
  unfold removeDuplicatesVec
  simp only
  rw [vdupLoop_spec, List.reverse_reverse, List.take_of_length_le (l := v.drop (min e v.length)) (by simp [MAXSEQ]; omega), within]
  by_cases h : e ≤ v.length
  · rw [Nat.min_eq_left h, drop_drop' s e v hs]
  · rw [Nat.min_eq_right (by omega), List.drop_length, drop_drop' s e v hs,
      List.drop_eq_nil_of_le (as := v) (i := e) (by omega),
      List.take_of_length_le (l := v.drop s) (by simp), List.take_of_length_le (l := v.drop s) (by simp; omega)]

example : removeDuplicatesVec (· == ·) 0 1000000 [1, 2, 1, 3, 2] = [1, 3, 2] := by decide

/-- What that means: the result of `(remove-duplicates l)` on up to a million elements is a
subsequence, no two of its elements match, and each element of `l` is in it or matches one in it. -/
theorem C37_remove_duplicates_meaning (test : α → α → Bool)
    (htrans : ∀ x y z, test x y = true → test y z = true → test x z = true) (l : List α)
    (hl : l.length ≤ 1000000) :
    let r := removeDuplicatesList test 0 1000000 l
    r.Sublist l ∧ r.Pairwise (fun x y => test x y = false) ∧
      ∀ x ∈ l, x ∈ r ∨ ∃ y ∈ r, test x y = true := by
  have : removeDuplicatesList test 0 1000000 l = keepLast test l := by
    rw [C37_remove_duplicates_list]
    simp only [within, List.take_zero, List.nil_append, List.drop_zero, Nat.sub_zero]
    rw [List.take_of_length_le hl, List.drop_eq_nil_of_le hl, List.append_nil]
  rw [this]
  exact ⟨keepLast_sublist test l, keepLast_pairwise test l, keepLast_cover test htrans l⟩

example : ∀ x y z : Nat, (x % 3 == y % 3) = true → (y % 3 == z % 3) = true → (x % 3 == z % 3) = true := by
  intro x y z; simp; omega

/-- `unique` keeps the last occurrence of every element. -/
theorem C37_unique [BEq α] [LawfulBEq α] (l : List α) :
    (unique l).Sublist l ∧ (unique l).Nodup ∧ ∀ x, x ∈ unique l ↔ x ∈ l := by
  rw [unique_eq]
  refine ⟨keepLast_sublist _ l, ?_, fun x => ⟨fun h => (keepLast_sublist _ l).subset h, fun h => ?_⟩⟩
  · refine (keepLast_pairwise _ l).imp ?_
    intro a b h; simpa using h
  · rcases keepLast_cover (fun x y => x == y) (by simp) l x h with h | ⟨y, hy, h⟩
    · exact h
    · rwa [show x = y by simpa using h]

example : unique [1, 2, 1, 3, 2] = [1, 3, 2] := by decide

/-! ### C64: fill -/

theorem C64_fill_list (item : α) (s e : Nat) (l : List α) :
    fillList item s e l = within (fun x => List.replicate x.length item) s e l :=
  fillLoop_spec item l s (e - s)

theorem C64_fill_vector (item : α) (s e : Nat) (v : List α) (hs : s ≤ e) (hv : s ≤ v.length) :
    fillVec item s e v = within (fun x => List.replicate x.length item) s e v := by
  unfold fillVec within
  rw [vfillLoop_spec item _ s v (by omega)]
  beta_reduce
  rw [List.length_take, List.length_drop,
    show min (e - s) (v.length - s) = min e v.length - s by omega]
  congr 1
  by_cases h : e ≤ v.length
  · rw [Nat.min_eq_left h, drop_drop' s e v hs, show s + (e - s) = e by omega]
  · rw [Nat.min_eq_right (by omega), show s + (v.length - s) = v.length by omega, List.drop_length,
      List.drop_eq_nil_of_le (by simp; omega)]

/-- Element by element: exactly the indices in `[start, end)` change. -/
theorem C64_fill_elements (item : α) (s e : Nat) (v : List α) (hs : s ≤ e) (hv : s ≤ v.length) (i : Nat)
    (hi : i < v.length) :
    (fillVec item s e v)[i]? = if s ≤ i ∧ i < e then some item else v[i]? := by
  rw [C64_fill_vector item s e v hs hv, within]
  by_cases h1 : i < s
  · rw [if_neg (by omega), List.append_assoc, List.getElem?_append_left (by simp; omega),
      List.getElem?_take_of_lt h1]
  · by_cases h2 : i < e
    · rw [if_pos (by omega), List.getElem?_append_left (by simp; omega),
        List.getElem?_append_right (by simp; omega), List.getElem?_replicate, if_pos (by simp; omega)]
    · rw [if_neg (by omega), List.getElem?_append_right (by simp; omega), List.getElem?_drop,
        List.getElem?_drop]
      congr 1
      simp; omega

example : fillVec 7 1 3 [0, 1, 2, 3] = [0, 7, 7, 3] := by decide

/-! ### C65: map -/

/-- The i-th element of `(map type f s1 s2 …)` is `f` of the i-th elements, and the result stops where
the shortest sequence does; lists and vectors may be mixed. -/
theorem C65_map {β : Type} (f : List α → β) (a : Arg α) (rest : List (Arg α)) (i : Nat) :
    (MAP f a rest)[i]? = (((a :: rest).map Arg.elems).mapM (·[i]?)).map f := by
  unfold MAP
  rw [mapLoop_spec f (a :: rest) (a.elems.length + 1) 0 (a :: rest) ?_ ?_ ?_ i, Nat.zero_add]
  · generalize a :: rest = as
    induction as with
    | nil => exact List.Forall₂.nil
    | cons x xs ih => exact List.Forall₂.cons (by cases x <;> simp) ih
  · intro k hk
    rw [List.map_cons, List.mapM_cons]
    have : a.elems[k]? = none := by rw [List.getElem?_eq_none_iff]; omega
    simp [this]
  · exact mapM_mono _

example : MAP List.sum (.lst [1, 2, 3]) [.vec [10, 20]] = [11, 22] := by decide

/-- one sequence: the usual map -/
theorem C65_map_single {β : Type} (f : α → β) (d : β) (a : Arg α) :
    MAP (fun xs => (xs.head?.map f).getD d) a [] = a.elems.map f := by
  apply List.ext_getElem?
  intro i
  rw [C65_map]
  cases h : a.elems[i]? <;> simp [h]

end Eus.Seq
