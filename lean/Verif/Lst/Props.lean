import Verif.Lst.Proofs
set_option autoImplicit false
/-! Properties C15, C38, C39, C47, C67-C74. -/
namespace Eus.Lst
variable {α κ β : Type}

/-! ## C15 expt -/

/-- `(expt a n)` is the n-fold product. -/
theorem C15_expt {M : Type} [Monoid M] (a : M) (n : Nat) : expt a n = a ^ n := by
  unfold expt
  split_ifs with h
  · simp [h]
  · have := exptLoop_mul a n 1 1 (n - 1) (Or.inl rfl) (by omega) (le_refl _)
    rw [pow_one] at this; rw [this]; congr 1; omega

example : expt (3 : Nat) 13 = 1594323 := by rw [C15_expt]; decide

/-! ## C38 merge -/

/-- `merge` (vectors, or a result class other than `cons`) yields a sorted permutation of both. -/
theorem C38_merge {R : α → α → Prop} {pred : α → α → Bool} (hc : Compatible R pred) (s1 s2 : List α)
    (h1 : Sorted R s1) (h2 : Sorted R s2) :
    Sorted R (merge pred s1 s2) ∧ (merge pred s1 s2).Perm (s1 ++ s2) := by
  have := mergeLoop_eq pred s1 s2 (s1.length + s2.length) 0 0 (by simp)
  unfold merge
  rw [this]
  exact ⟨mrg_sorted hc _ _ h1 h2, mrg_perm _ _ _⟩

theorem compatible_lt : Compatible (fun a b : Int => a ≤ b) (fun a b => decide (a < b)) :=
  ⟨fun _ _ _ => Int.le_trans, fun a b h => by simp at h; omega, fun a b h => by simp at h; omega⟩

example : merge (fun a b : Int => decide (a < b)) [1, 4, 4] [2, 4, 7] = [1, 2, 4, 4, 4, 7] := by decide
example : Sorted (fun a b : Int => a ≤ b) [1, 4, 4] := by unfold Sorted; decide

/-- `merge` with result class `cons` on two lists, for a predicate (with its key) that accepts NIL as its
first argument. -/
theorem C38_merge_list_partial {R : α → α → Prop} {pred : α → α → Bool} (hc : Compatible R pred)
    (q : Option α → α → Option Bool) (hq : ∀ x y, q (some x) y = some (pred x y)) (hn : ∀ y, q none y ≠ none)
    (l1 l2 : List α) (h1 : Sorted R l1) (h2 : Sorted R l2) :
    ∃ r, mergeList q l1 l2 = some r ∧ Sorted R r ∧ r.Perm (l1 ++ l2) := by
  refine ⟨_, mergeList_eq (le := pred) (nl := fun y => (q none y).getD true) ⟨hq, fun y => ?_⟩ l1 l2,
    mrg_sorted hc _ _ h1 h2, mrg_perm _ _ _⟩
  cases h : q none y with
  | none => exact absurd h (hn y)
  | some b => simp only [h, Option.getD_some]

/-- The same for any predicate, such as `<`, that may signal an error on NIL, provided `list1` is not empty
and either has one element or its last element does not precede any element of `list2`. -/
theorem C38_merge_list_dominated_partial {R : α → α → Prop} {pred : α → α → Bool} (hc : Compatible R pred)
    (q : Option α → α → Option Bool) (hq : ∀ x y, q (some x) y = some (pred x y))
    (x : α) (l1 l2 : List α) (h1 : Sorted R (x :: l1)) (h2 : Sorted R l2)
    (h : l1 = [] ∨ ∀ y ∈ l2, ∃ z ∈ l1.getLast?, pred z y = false) :
    ∃ r, mergeList q (x :: l1) l2 = some r ∧ Sorted R r ∧ r.Perm (x :: l1 ++ l2) :=
  ⟨_, mergeList_ok hq x l1 l2 h, mrg_sorted hc _ _ h1 h2, mrg_perm _ _ _⟩

/-- Otherwise, if the predicate signals an error on NIL, so does `merge`: whenever some element of `list2`
follows all elements of a `list1` with two or more elements, or `list1` is empty and `list2` is not. -/
theorem C38_merge_list_error {pred : α → α → Bool} (q : Option α → α → Option Bool)
    (hq : ∀ x y, q (some x) y = some (pred x y)) (hn : ∀ y, q none y = none) (l1 l2 : List α)
    (h : (l1 = [] ∧ l2 ≠ []) ∨ (2 ≤ l1.length ∧ ∃ y ∈ l2, ∀ w ∈ l1, pred w y = true)) :
    mergeList q l1 l2 = none := by
  rcases h with ⟨rfl, h⟩ | ⟨h, y, hy, hle⟩
  · cases l2 with
    | nil => exact absurd rfl h
    | cons y l2 => simp [mergeList, mlLoop1, hn]
  · match l1, h with
    | x :: z :: l1, _ =>
      obtain ⟨r, l, h1, h2⟩ := mlLoop1_err hq x (z :: l1) l2 [] y hy (hle x (by simp))
      simp only [mergeList, h1, mlLoop2_err hq hn l [] x (z :: l1) (by simp) y h2
        (fun w hw => hle w (List.mem_cons_of_mem _ hw))]

/-- `<` on integers, with an error on NIL. -/
def ltq : Option Int → Int → Option Bool
  | none, _ => none
  | some a, b => some (decide (a < b))

/-- `(merge cons '(1 2) '(3) #'<)` signals an error, although `(1 2 3)` is a sorted permutation. -/
theorem C38_merge_list_wrong : mergeList ltq [1, 2] [3] = none := by decide

example : mergeList ltq [1, 5] [2, 3] = some [1, 2, 3, 5] := by decide
example : mergeList (fun a b => some (match a with | some a => decide (a < b) | none => false)) [1, 4, 6] ([2, 3, 9] : List Int)
    = some [1, 2, 3, 4, 6, 9] := by decide

/-- `merge` is not stable: of two elements that `<` does not order, that of the second argument comes first. -/
theorem C38_merge_unstable :
    merge (fun a b : Nat × Nat => decide (a.1 < b.1)) [(1, 0)] [(1, 1)] = [(1, 1), (1, 0)] := by decide

/-! ## C39 set operations, C68 their keys, C72 lookup -/

/-- `member` returns the suffix that starts at the first matching element, NIL if there is none. -/
theorem C72_member (t : κ → κ → Bool) (key : α → κ) (item : κ) (l : List α) :
    (∃ pre, l = pre ++ member t key item l ∧ (∀ x ∈ pre, t item (key x) = false) ∧
      ∀ y rest, member t key item l = y :: rest → t item (key y) = true) ∧
    (member t key item l = [] ↔ ¬ Matches t key item l) :=
  ⟨member_spec t key item l, member_nil_iff t key item l⟩

example : member (fun a b : Nat => a == b) id 2 [1, 2, 3, 2] = [2, 3, 2] := by decide

/-- `assoc` returns the first pair whose key matches, skipping elements that are not pairs. -/
theorem C72_assoc (t : κ → κ → Bool) (item : κ) (l : List (Option (κ × β))) :
    assoc t item l = (l.filterMap id).find? fun p => t item p.1 := by
  induction l with
  | nil => rfl
  | cons x l ih =>
    cases x with
    | none => simpa [assoc] using ih
    | some p => by_cases h : t item p.1 = true <;> simp [assoc, h, ih]

/-- `rassoc` returns the first pair whose datum matches. -/
theorem C72_rassoc (t : κ → κ → Bool) (item : κ) (l : List (β × κ)) :
    rassoc t item l = l.find? fun p => t item p.2 := by
  induction l with
  | nil => rfl
  | cons p l ih => by_cases h : t item p.2 = true <;> simp [rassoc, h, ih]

/-- After `pairlis`, `assoc` finds a key of the first list with the datum of the second at the position of its
first occurrence (NIL if the second list is shorter), and otherwise searches the old list. -/
theorem C72_pairlis (t : α → α → Bool) (nil : β) (l1 : List α) (l2 : List β) (alist : List (α × β)) (item : α) :
    assoc t item ((pairlis nil l1 l2 alist).map some) =
      match (l1.zip (l2 ++ List.replicate (l1.length - l2.length) nil)).find? (fun p => t item p.1) with
      | some p => some p
      | none => assoc t item (alist.map some) := by
  induction l1 generalizing l2 with
  | nil => simp [pairlis]
  | cons x l1 ih =>
    cases l2 with
    | nil =>
      have := ih []
      by_cases h : t item x = true
      · simp [pairlis, assoc, h, List.replicate_succ]
      · simp only [List.length_nil, Nat.sub_zero, List.nil_append] at this
        simp [pairlis, assoc, h, List.replicate_succ, this]
    | cons y l2 =>
      by_cases h : t item x = true
      · simp [pairlis, assoc, h]
      · have := ih l2
        simp [pairlis, assoc, h, this]

example : assoc (fun a b : Nat => a == b) 3 ((pairlis 0 [1, 2, 3] [10, 20] [(3, 5)]).map some) = some (3, 0) := by decide
example : assoc (fun a b : Nat => a == b) 2 ((pairlis 0 [1, 2] [10, 20] [(2, 5)]).map some) = some (2, 20) := by decide

/-- `adjoin` adds the item unless it matches an element. -/
theorem C39_adjoin (t : α → α → Bool) (item : α) (l : List α) :
    (Matches t id item l → adjoin t item l = l) ∧ (¬ Matches t id item l → adjoin t item l = item :: l) := by
  unfold adjoin
  constructor <;> intro h
  · rw [if_neg]; rw [member_isEmpty]; exact not_not_intro h
  · rw [if_pos]; rw [member_isEmpty]; exact h

/-- With :key, the key is not applied to the item: `(adjoin 4 '(3) :test #'= :key #'1+)` returns `(3)`
although `(1+ 4)` is not `(1+ 3)`. -/
theorem C68_adjoin_key_wrong :
    adjoinKey (fun a b : Nat => a == b) (· + 1) 4 [3] = [3] ∧ ¬ Matches (fun a b : Nat => a == b) (· + 1) (4 + 1) [3] := by
  refine ⟨by decide, ?_⟩
  rintro ⟨y, hy, h⟩; simp at hy; subst hy; simp at h

/-- `union`: every element comes from an argument; every element of an argument is there or matches an
element that is; of the elements of the result, none matches an earlier one. -/
theorem C39_union (t : κ → κ → Bool) (key : α → κ) (l1 l2 : List α) :
    (∀ x ∈ union t key l1 l2, x ∈ l1 ∨ x ∈ l2) ∧
    (∀ x, x ∈ l1 ∨ x ∈ l2 → x ∈ union t key l1 l2 ∨ Matches t key (key x) (union t key l1 l2)) ∧
    (union t key l1 l2).Pairwise (fun a b => t (key b) (key a) = false) := by
  unfold union
  obtain ⟨n1, h1, h2, h3, h4⟩ := unionLoop_spec t key l1 [] List.Pairwise.nil
  rw [List.append_nil] at h1 h3 h4
  rw [h1]
  obtain ⟨n2, h5, h6, h7, h8⟩ := unionLoop_spec t key l2 n1 h4
  rw [h5]
  refine ⟨?_, ?_, ?_⟩
  · intro x hx; simp at hx; rcases hx with hx | hx
    · exact Or.inl (h2 x hx)
    · exact Or.inr (h6 x hx)
  · have hm : ∀ k, Matches t key k (n2 ++ n1) → Matches t key k (n2 ++ n1).reverse := by
      rintro k ⟨y, hy, h⟩; exact ⟨y, by simpa [or_comm] using hy, h⟩
    rintro x (hx | hx)
    · rcases h3 x hx with h | ⟨y, hy, h⟩
      · left; simp [h]
      · right; exact hm _ ⟨y, by simp [hy], h⟩
    · rcases h7 x hx with h | h
      · left; simp [h]
      · right; exact hm _ h
  · rw [List.pairwise_reverse]; exact h8

/-- With the tests `eq` and the like, `union` has exactly the elements of both. -/
theorem C39_union_mem [DecidableEq α] (l1 l2 : List α) (x : α) :
    x ∈ union (fun a b => decide (a = b)) id l1 l2 ↔ x ∈ l1 ∨ x ∈ l2 := by
  obtain ⟨h1, h2, -⟩ := C39_union (fun a b : α => decide (a = b)) id l1 l2
  constructor
  · exact h1 x
  · intro h; rcases h2 x h with h | ⟨y, hy, h⟩
    · exact h
    · simp at h; rw [h]; exact hy

example : union (fun a b : Nat => a == b) id [1, 2, 1] [2, 3] = [1, 2, 3] := by decide

/-- `intersection` has the elements of the first list that match one of the second. -/
theorem C39_intersection (t : κ → κ → Bool) (key : α → κ) (l1 l2 : List α) (x : α) :
    x ∈ intersection t key l1 l2 ↔ x ∈ l1 ∧ Matches t key (key x) l2 := by
  simp [intersection, interLoop_spec, Matches]

/-- `set-difference` has the other elements of the first list, in order. -/
theorem C39_set_difference (t : κ → κ → Bool) (key : α → κ) (l1 l2 : List α) :
    (setDifference t key l1 l2).Sublist l1 ∧
    ∀ x, x ∈ setDifference t key l1 l2 ↔ x ∈ l1 ∧ ¬ Matches t key (key x) l2 := by
  unfold setDifference
  rw [diffLoop_spec, List.append_nil, List.reverse_reverse]
  exact ⟨List.filter_sublist, fun x => by simp [Matches]⟩

example : intersection (fun a b : Nat => a == b) id [1, 2, 3] [3, 2] = [3, 2] := by decide
example : setDifference (fun a b : Nat => a == b) id [1, 2, 3] [3, 4] = [1, 2] := by decide

/-- `set-exclusive-or` without :key. -/
theorem C39_set_exclusive_or (t : α → α → Bool) (l1 l2 : List α) (x : α) :
    x ∈ setExclusiveOr t id l1 l2 ↔
      (x ∈ l1 ∧ ¬ Matches t id x l2) ∨ (x ∈ l2 ∧ ¬ Matches t id x l1) := by
  simp [setExclusiveOr, xorLoop_eq, Matches]

/-- With :key it returns keys instead of elements, even for one element that matches nothing. -/
theorem C68_set_exclusive_or_key_wrong :
    setExclusiveOr (fun a b : Nat => a == b) (· + 1) [1] [] = [2] := by decide

/-- What `set-exclusive-or` with :key returns: the keys of the elements it should return. -/
theorem C68_set_exclusive_or_result (t : α → α → Bool) (key : α → α) (l1 l2 : List α) (k : α) :
    k ∈ setExclusiveOr t key l1 l2 ↔
      ∃ x, k = key x ∧ ((x ∈ l1 ∧ ¬ Matches t key (key x) l2) ∨ (x ∈ l2 ∧ ¬ Matches t key (key x) l1)) := by
  simp only [setExclusiveOr, xorLoop_eq, Matches, List.append_nil, List.mem_append, List.mem_reverse, List.mem_map,
    List.mem_filter, Bool.not_eq_true', List.any_eq_false]
  constructor
  · rintro (⟨x, ⟨h1, h2⟩, rfl⟩ | ⟨x, ⟨h1, h2⟩, rfl⟩)
    · exact ⟨x, rfl, Or.inl ⟨h1, by rintro ⟨y, hy, h⟩; exact h2 y hy h⟩⟩
    · exact ⟨x, rfl, Or.inr ⟨h1, by rintro ⟨y, hy, h⟩; exact h2 y hy h⟩⟩
  · rintro ⟨x, rfl, ⟨h1, h2⟩ | ⟨h1, h2⟩⟩
    · exact Or.inl ⟨x, ⟨h1, fun y hy h => h2 ⟨y, hy, h⟩⟩, rfl⟩
    · exact Or.inr ⟨x, ⟨h1, fun y hy h => h2 ⟨y, hy, h⟩⟩, rfl⟩

/-- `subsetp` without :key. -/
theorem C39_subsetp (t : α → α → Bool) (sub super : List α) :
    subsetp t id sub super = true ↔ ∀ s ∈ sub, Matches t id s super := by
  unfold subsetp
  rw [everyList_iff]
  constructor
  · intro h s hs; have := h s hs
    by_contra hc
    rw [(member_isEmpty t id s super).2 hc] at this; cases this
  · intro h s hs
    by_contra hc
    have : (member t id s super).isEmpty = true := by simpa using hc
    exact (member_isEmpty ..).1 this (h s hs)

/-- With :key, `(subsetp '(3) '(3) :test #'= :key #'1+)` is NIL: the key is applied to one side only. -/
theorem C68_subsetp_key_wrong : subsetp (fun a b : Nat => a == b) (· + 1) [3] [3] = false := by decide

/-- :key is applied to both sides by `union`, `intersection` and `set-difference` (the theorems above have it). -/
theorem C68_keys_partial (t : κ → κ → Bool) (key : α → κ) (l1 l2 : List α) (x : α) :
    (x ∈ intersection t key l1 l2 ↔ x ∈ l1 ∧ ∃ y ∈ l2, t (key x) (key y) = true) ∧
    (x ∈ setDifference t key l1 l2 ↔ x ∈ l1 ∧ ∀ y ∈ l2, t (key x) (key y) = false) ∧
    (x ∈ l1 ∨ x ∈ l2 → x ∈ union t key l1 l2 ∨ ∃ y ∈ union t key l1 l2, t (key x) (key y) = true) := by
  refine ⟨C39_intersection t key l1 l2 x, ?_, (C39_union t key l1 l2).2.1 x⟩
  rw [(C39_set_difference t key l1 l2).2]
  simp [Matches]

/-! ## C47 property lists -/

variable {A V : Type} [DecidableEq A]

/-- After any sequence of `putprop` and `remprop`, `get` returns what the partial map holds. -/
theorem C47_plist (ops : List (POp A V)) (a : A) (dflt : V) :
    getprop a dflt (prun ops) = (specRun ops a).getD dflt := by
  rw [getprop_look, (prun_spec ops).2]

example : getprop 1 0 (prun [.put 1 10, .put 2 20, .put 1 30, .rem 2]) = 30 := by decide
example : getprop 2 0 (prun [.put 1 10, .put 2 20, .put 1 30, .rem 2]) = 0 := by decide

/-- The message `:put` stores a new attribute ... -/
theorem C47_put_message_partial (ops : List (POp A V)) (a : A) (v : V) (h : specRun ops a = none) :
    putMessage a v (prun ops) = some (prun (ops ++ [.put a v])) := by
  have hn : a ∉ (prun ops).map (·.1) := by rw [← look_none, (prun_spec ops).2, h]
  have e1 : prun (ops ++ [.put a v]) = putprop a v (prun ops) := by simp [prun, pstep]
  rw [e1, putMessage, if_neg, putprop]
  · rcases putLoop_spec (prun ops) a v with ⟨h3, -⟩ | ⟨l', h3, h4, h5⟩
    · rw [h3]
    · exfalso
      have : look l' a = some v := by rw [h5 a]; simp
      have hc : look l' a ≠ none := by rw [this]; simp
      rw [Ne, look_none, h4] at hc; exact hc hn
  · intro hc
    simp only [List.any_eq_true, decide_eq_true_eq] at hc
    obtain ⟨p, hp, rfl⟩ := hc
    exact hn (List.mem_map_of_mem hp)

/-- ... but signals an error for any attribute that is already there. -/
theorem C47_put_message_wrong (ops : List (POp A V)) (a : A) (v : V) (h : specRun ops a ≠ none) :
    putMessage a v (prun ops) = none := by
  have hn : a ∈ (prun ops).map (·.1) := by
    by_contra hc; exact h (by rw [← (prun_spec ops).2, look_none]; exact hc)
  obtain ⟨p, hp, rfl⟩ := List.mem_map.1 hn
  rw [putMessage, if_pos]
  simp only [List.any_eq_true, decide_eq_true_eq]
  exact ⟨p, hp, rfl⟩

example : putMessage 1 20 (prun [.put 1 10] : PList Nat Nat) = none := by decide

/-! ## C67 reduce -/

/-- `reduce` without :from-end is the left fold of the subsequence; without :initial-value its first element
takes that role, and the function is called without arguments if there is none. -/
theorem C67_reduce (f : α → α → α) (f0 : α) (start stop : Nat) (init : Option α) (seq : List α)
    (h1 : start ≤ stop) (h2 : stop ≤ seq.length) :
    reduce f f0 false start stop init seq =
      match init, (seq.drop start).take (stop - start) with
      | some v, l => some (l.foldl f v)
      | none, [] => some f0
      | none, x :: l => some (l.foldl f x) := by
  unfold reduce
  simp only [Bool.false_eq_true, if_false]
  rcases Nat.lt_or_ge (stop - start) 2 with h | h
  · rcases Nat.lt_or_ge (stop - start) 1 with h' | h'
    · have h0 : stop - start = 0 := by omega
      cases init <;> simp [h0]
    · have h0 : stop - start = 1 := by omega
      have hi : start < seq.length := by omega
      rw [h0, List.drop_eq_getElem_cons hi, List.take_succ_cons, List.take_zero]
      cases init with
      | none => simp
      | some v => simp [reduceLoop, List.getElem?_eq_getElem hi]
  · have hi : start < seq.length := by omega
    have hi' : start + 1 < seq.length := by omega
    rw [if_neg (by omega), if_neg (by omega)]
    cases init with
    | some v => simp only; rw [reduceLoop_spec _ _ _ _ _ (by omega)]
    | none =>
      simp only
      rw [List.getElem?_eq_getElem hi, List.getElem?_eq_getElem hi']
      simp only
      rw [reduceLoop_spec _ _ _ _ _ (by omega)]
      obtain ⟨m, hm⟩ : ∃ m, stop - start = m + 2 := ⟨stop - start - 2, by omega⟩
      rw [hm, List.drop_eq_getElem_cons hi, List.drop_eq_getElem_cons hi', List.take_succ_cons, List.take_succ_cons]
      simp

example : reduce (· - ·) 0 false 1 4 none ([100, 50, 8, 2, 7] : List Int) = some 40 := by decide

/-- With :from-end on a whole sequence, the function gets its arguments in the wrong order: the right fold is
computed when the function is commutative. -/
theorem C67_reduce_from_end_partial (f : α → α → α) (f0 : α) (v : α) (seq : List α)
    (hf : ∀ a b, f a b = f b a) :
    reduce f f0 true 0 seq.length (some v) seq = some (seq.foldr f v) := by
  have key : seq.reverse.foldl f v = seq.foldr f v := by
    rw [List.foldl_reverse]
    exact List.foldr_congr_left' v hf seq
  unfold reduce
  simp only [if_true, Nat.sub_zero]
  rw [if_neg (by simp)]
  split_ifs with h
  · simp at h; simp [h]
  · rw [reduceLoop_spec _ _ _ _ _ (by simp)]
    simp only [List.drop_zero]
    rw [List.take_of_length_le (l := seq.reverse) (by simp), key]
where
  List.foldr_congr_left' (v : α) {f : α → α → α} (hf : ∀ a b, f a b = f b a) (l : List α) :
      l.foldr (fun x y => f y x) v = l.foldr f v := by
    induction l with
    | nil => rfl
    | cons x l ih => simp only [List.foldr_cons, ih]; exact hf _ _

/-- `(reduce #'- '(1 2 3) :from-end t)` is 0, not `1 - (2 - 3) = 2`. -/
theorem C67_reduce_from_end_wrong :
    reduce (· - ·) 0 true 0 3 none ([1, 2, 3] : List Int) = some 0 ∧ (1 : Int) - (2 - 3) = 2 := by decide

/-- With :from-end, :start and :end count from the end: the sum of the first element comes out as the last. -/
theorem C67_reduce_from_end_range_wrong :
    reduce (· + ·) 0 true 0 1 none ([1, 2, 3] : List Int) = some 3 := by decide

/-! ## C69 mapping -/

/-- `mapcar` calls the function on the i-th elements for every index of the first list, and signals an error
exactly if another list is shorter. -/
theorem C69_mapcar (f : List α → β) (l : List α) (more : List (List α)) (r : List β) :
    mapcar f l more = some r ↔
      (∀ a ∈ more, l.length ≤ a.length) ∧ r.length = l.length ∧
      ∀ i xs, i < l.length → IsColumn (l :: more) i xs → r[i]? = some (f xs) :=
  mapcarLoop_spec f l more r

theorem C69_mapcar_single (f : List α → β) (l : List α) : mapcar f l [] = some (l.map fun x => f [x]) := by
  unfold mapcar
  induction l with
  | nil => rfl
  | cons x l ih => simp [mapcarLoop, heads, ih]

/-- `mapcan` joins the results of these calls. -/
theorem C69_mapcan (f : List α → List β) (l : List α) (more : List (List α)) (r : List β) :
    mapcan f l more = some r ↔
      (∀ a ∈ more, l.length ≤ a.length) ∧ ∃ rs : List (List β), r = rs.flatten ∧ rs.length = l.length ∧
      ∀ i xs, i < l.length → IsColumn (l :: more) i xs → rs[i]? = some (f xs) := by
  unfold mapcan
  rw [Option.map_eq_some_iff]
  constructor
  · rintro ⟨rs, h, rfl⟩
    obtain ⟨h1, h2⟩ := (mapcarLoop_spec f l more rs).1 h
    exact ⟨h1, rs, rfl, h2⟩
  · rintro ⟨h1, rs, rfl, h2⟩
    exact ⟨rs, (mapcarLoop_spec f l more rs).2 ⟨h1, h2⟩, rfl⟩

theorem C69_mapcan_single (f : List α → List β) (l : List α) :
    mapcan f l [] = some (l.flatMap fun x => f [x]) := by
  have := C69_mapcar_single f l
  unfold mapcar at this
  rw [mapcan, this]; simp [List.flatMap]

/-- `maplist` calls the function on the non-empty suffixes. -/
theorem C69_maplist (f : List α → β) (l : List α) : maplist f l = (suffixes l).map f := by
  simp [maplist, maplistLoop_spec]

/-- What `mapcon` returns: every one of the joined lists is reversed. -/
theorem C69_mapcon_result (f : List α → List β) (l : List α) :
    mapcon f l = (suffixes l).flatMap fun s => (f s).reverse := by
  unfold mapcon
  rw [mapconLoop_spec, List.append_nil, List.reverse_flatten]
  simp [List.flatMap, Function.comp_def]

/-- It is right when no result has more than one element. -/
theorem C69_mapcon_partial (f : List α → List β) (l : List α) (h : ∀ s ∈ suffixes l, (f s).length ≤ 1) :
    mapcon f l = (suffixes l).flatMap f := by
  rw [C69_mapcon_result]
  apply List.flatMap_congr
  intro s hs
  have := h s hs
  match f s, this with
  | [], _ => rfl
  | [_], _ => rfl

/-- `(mapcon #'copy-list '(1 2))` is `(2 1 2)`, not `(1 2 2)`. -/
theorem C69_mapcon_wrong : mapcon id [1, 2] = [2, 1, 2] ∧ (suffixes [1, 2]).flatMap id = [1, 2, 2] := by decide

example : mapcar (fun xs : List Nat => xs.sum) [1, 2] [[10, 20, 30]] = some [11, 22] := by decide
example : mapcar (fun xs : List Nat => xs.sum) [1, 2] [[10]] = none := by decide
example : mapcan (fun xs : List Nat => xs) [1, 2] [[10, 20, 30]] = some [1, 10, 2, 20] := by decide
example : maplist (fun xs : List Nat => xs.sum) [1, 2, 3] = [6, 5, 3] := by decide

/-- `collect-if` keeps the elements that satisfy the predicate, in order. -/
theorem C69_collect_if (f : α → Bool) (l : List α) : collectIf f l = l.filter f := by
  simp [collectIf, collectIfLoop_spec]

/-! ## C70 every and some -/

/-- `some` returns the first true value of the predicate on the columns of its arguments, none of which is
shorter than the first. -/
theorem C70_some (pred : List α → Option β) (arg : List α) (more : List (List α)) (r : Option β)
    (h : ∀ a ∈ more, arg.length ≤ a.length) :
    someFn pred arg more = some r ↔
      (r = none ∧ ∀ j xs, j < arg.length → IsColumn (arg :: more) j xs → pred xs = none) ∨
      (∃ v j xs, r = some v ∧ j < arg.length ∧ IsColumn (arg :: more) j xs ∧ pred xs = some v ∧
        ∀ k ys, k < j → IsColumn (arg :: more) k ys → pred ys = none) := by
  unfold someFn
  rw [someLoop_spec]
  · simp
  · intro a ha; rcases List.mem_cons.1 ha with rfl | ha
    · simp
    · simpa using h a ha

/-- `every` of several sequences. -/
theorem C70_every (pred : List α → Bool) (arg : List α) (more : List (List α))
    (h : ∀ a ∈ more, arg.length ≤ a.length) :
    ∃ b, everyFn pred arg more = some b ∧
      (b = true ↔ ∀ j xs, j < arg.length → IsColumn (arg :: more) j xs → pred xs = true) := by
  have hlen : ∀ a ∈ arg :: more, 0 + arg.length ≤ a.length := by
    intro a ha; rcases List.mem_cons.1 ha with rfl | ha
    · simp
    · simpa using h a ha
  unfold everyFn
  by_cases hall : ∀ j xs, j < arg.length → IsColumn (arg :: more) j xs → pred xs = true
  · have := (someLoop_spec (fun xs => if pred xs then none else some ()) (arg :: more) arg.length 0 none hlen).2
      (Or.inl ⟨rfl, fun j xs _ h2 h3 => by simp [hall j xs (by omega) h3]⟩)
    exact ⟨true, by rw [this]; rfl, by simp; exact hall⟩
  · push Not at hall
    have hex : ∃ j, ∃ xs, j < arg.length ∧ IsColumn (arg :: more) j xs ∧ ¬ pred xs = true := hall
    classical
    obtain ⟨xs, h1, h2, h3⟩ := Nat.find_spec hex
    have hmin := fun {m} => Nat.find_min hex (m := m)
    have := (someLoop_spec (fun xs => if pred xs then none else some ()) (arg :: more) arg.length 0 (some ()) hlen).2
      (Or.inr ⟨(), Nat.find hex, xs, rfl, Nat.zero_le _, by omega, h2, by simp [h3], fun k ys _ hk hc => by
        have := hmin hk
        push Not at this
        simp [this ys (by omega) hc]⟩)
    refine ⟨false, by rw [this]; rfl, ?_⟩
    simp only [Bool.false_eq_true, false_iff]
    intro hc; exact h3 (hc _ xs h1 h2)

/-- `every` of one list. -/
theorem C70_every_list (pred : α → Bool) (l : List α) : everyList pred l = true ↔ ∀ x ∈ l, pred x = true :=
  everyList_iff pred l

/-- A shorter second argument makes `every` signal an error instead of stopping there. -/
theorem C70_short_argument_error : everyFn (fun _ => true) [1, 2] [[1]] = none := by decide

example : someFn (fun xs : List Nat => if xs.sum > 4 then some xs.sum else none) [1, 2, 3] [[2, 3, 9]] = some (some 5) := by decide
example : everyFn (fun xs : List Nat => xs.sum > 4) [1, 2, 3] [[4, 3, 9]] = some true := by decide

/-! ## C71 replace -/

/-- `replace` (source or destination a list) copies exactly the requested elements. -/
theorem C71_replace (nil : α) (srcIsList : Bool) (dest src : List α) (s1 e1 s2 e2 : Nat) (h1 : s1 ≤ e1)
    (h2 : e1 ≤ dest.length) (h3 : s2 ≤ e2) (h4 : e2 ≤ src.length) :
    ∃ r, replace nil srcIsList dest src s1 e1 s2 e2 = some r ∧ r.length = dest.length ∧
      ∀ i, r[i]? = if s1 ≤ i ∧ i < s1 + min (e1 - s1) (e2 - s2) then src[s2 + (i - s1)]? else dest[i]? := by
  unfold replace
  generalize hn : min (e1 - s1) (e2 - s2) = n
  refine ⟨_, replaceLoop_spec nil srcIsList src n s1 s2 dest (by omega) (by omega), by simp; omega, ?_⟩
  intro i
  split_ifs with h
  · rw [List.append_assoc, List.getElem?_append_right (by simp; omega)]
    rw [List.getElem?_append_left (by simp; omega)]
    simp only [List.length_take, List.getElem?_take, List.getElem?_drop]
    rw [if_pos (by omega)]; congr 1; omega
  · by_cases hi : i < s1
    · rw [List.append_assoc, List.getElem?_append_left (by simp; omega)]
      rw [List.getElem?_take, if_pos hi]
    · rw [List.getElem?_append_right (by simp; omega)]
      rw [List.getElem?_drop]; congr 1; simp; omega

example : replace 0 true [1, 2, 3, 4] [10, 20, 30] 1 4 0 2 = some [1, 10, 20, 4] := by decide

/-! ## C73 trees -/

/-- `subst` replaces every maximal subtree equal to `old`. -/
theorem C73_subst (eq : Tree α → Tree α → Bool) (new old z : Tree α) :
    Substituted (fun t => eq old t = true) new z (subst eq new old z) := by
  induction z with
  | nil =>
    unfold subst; split_ifs with h
    · exact .here h
    · exact .nil h
  | atom a =>
    unfold subst; split_ifs with h
    · exact .here h
    · exact .atom h
  | cons l r ihl ihr =>
    unfold subst; split_ifs with h
    · exact .here h
    · exact .cons h ihl ihr

/-- `copy-tree`, which is `(subst t t x)`, returns an equal tree, if `equal` objects are the same tree. -/
theorem C73_copy_tree [DecidableEq α] (t z : Tree α) : subst (fun a b => decide (a = b)) t t z = z := by
  induction z with
  | nil => simp only [subst, decide_eq_true_eq]; split_ifs with h <;> first | exact h | rfl
  | atom a => simp only [subst, decide_eq_true_eq]; split_ifs with h <;> first | exact h | rfl
  | cons l r ihl ihr =>
    simp only [subst, decide_eq_true_eq, ihl, ihr]; split_ifs with h <;> first | exact h | rfl

/-- `flatten` lists the atoms other than NIL from left to right. -/
theorem C73_flatten (z : Tree α) : flatten z [] = leaves z := by
  have : ∀ acc, flatten z acc = leaves z ++ acc := by
    induction z with
    | nil => intro acc; rfl
    | atom a => intro acc; rfl
    | cons l r ihl ihr => intro acc; simp [flatten, leaves, ihl, ihr]
  simpa using this []

example : subst (fun a b => decide (a = b)) (.atom 9) (.cons (.atom 1) .nil) (.cons (.cons (.atom 1) .nil) (.atom 1))
    = .cons (.atom 9) (.atom 1) := by decide
example : flatten (.cons (.cons (.atom 1) (.atom 2)) (.cons .nil (.atom 3))) [] = [1, 2, 3] := by decide

/-! ## C74 transpose-list -/

/-- Element (i,j) of the result is element (j,i) of the argument, for rows at least as long as the first. -/
theorem C74_transpose (nil : α) (d : List (List α)) :
    (transposeList nil d).length = (d.headD []).length ∧
    ∀ (i j : Nat) (row : List α), i < (d.headD []).length → d[j]? = some row → i < row.length →
      ((transposeList nil d)[i]?.bind fun (c : List α) => c[j]?) = row[i]? := by
  unfold transposeList
  rw [transposeLoop_spec, List.append_nil, List.reverse_reverse]
  refine ⟨by simp, ?_⟩
  intro i j row hi hj hr
  rw [List.getElem?_map, List.getElem?_range' hi]
  simp [hj, List.getElem?_eq_getElem hr]

example : transposeList 0 [[1, 2, 3], [4, 5, 6]] = [[1, 4], [2, 5], [3, 6]] := by decide

end Eus.Lst
