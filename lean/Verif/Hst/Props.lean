import Verif.Hst.Spec
set_option autoImplicit false
namespace Eus.Hst

variable {α : Type}

/-! ### C188: the history -/

theorem log_length (q : Nat) (l : List α) : (Log q l).length = l.length + 1 := by
  simp [Log]

theorem log_append (q : Nat) (l : List α) (h : α) :
    Log q (l ++ [h]) = Log q l ++ [(q + 1 + l.length, some h)] := by
  unfold Log
  rw [List.cons_append, List.length_append, List.length_singleton, List.range_succ,
    List.zipWith_append (by simp)]
  rfl

/-- The array holds `E`, then nothing. -/
structure Inv (n q : Nat) (l : List α) (H : Hist α) : Prop where
  max : H.max = n
  seq : H.seq = q + l.length
  idx : H.index = min l.length (n - 1)
  arr : H.arr = (Holds n q l).map some ++ List.replicate (n - (l.length + 1)) none

theorem holds_length (n q : Nat) (l : List α) (hn : 1 ≤ n) : (Holds n q l).length = min (l.length + 1) n := by
  simp only [Holds, List.length_drop, log_length]; omega

theorem set_last {β : Type} (L : List β) (R : List β) (x y : β) (i : Nat) (h : i = L.length) :
    (L ++ x :: R).set i y = L ++ y :: R := by
  subst h; simp

theorem inv_add {n q : Nat} (hn : 1 ≤ n) {l : List α} {H : Hist α} (h : Inv n q l H) (t : α) :
    Inv n q (l ++ [t]) (addHistory H t) := by
  have hlen := holds_length n q l hn
  by_cases hc : l.length + 1 ≥ n
  · -- full: everything moves down
    have hi : H.index + 1 ≥ H.max := by rw [h.idx, h.max]; omega
    have harr : H.arr = (Holds n q l).map some := by
      rw [h.arr, show n - (l.length + 1) = 0 by omega]; simp
    have hL : (Holds n q l).length = n := by rw [hlen]; omega
    have hE : H.arr.drop 1 ++ H.arr.drop (H.arr.length - 1) =
        ((Holds n q l).drop 1).map some ++ H.arr.drop (n - 1) := by
      rw [harr]; simp [hL]
    have hone : ∃ x, H.arr.drop (n - 1) = [x] := by
      have : (H.arr.drop (n - 1)).length = 1 := by rw [harr]; simp [hL]; omega
      exact List.length_eq_one_iff.1 this
    obtain ⟨x, hx⟩ := hone
    refine ⟨?_, ?_, ?_, ?_⟩
    · simp only [addHistory]; rw [if_pos hi]; exact h.max
    · simp only [addHistory]; rw [if_pos hi]; simp only [h.seq, List.length_append, List.length_singleton]; omega
    · simp only [addHistory]; rw [if_pos hi]; simp only [h.max, List.length_append, List.length_singleton]; omega
    · simp only [addHistory]; rw [if_pos hi]
      simp only [h.max, hE, hx, h.seq]
      rw [set_last _ [] x _ _ (by simp [hL])]
      have : Holds n q (l ++ [t]) = (Holds n q l).drop 1 ++ [(q + 1 + l.length, some t)] := by
        simp only [Holds, log_append, List.drop_drop, List.length_append, List.length_singleton]
        rw [List.drop_append_of_le_length (by rw [log_length]; omega)]
        congr 2
        omega
      rw [this, show n - ((l ++ [t]).length + 1) = 0 by simp; omega]
      simp only [List.map_append, List.map_cons, List.map_nil, List.replicate_zero, List.append_nil]
      rw [show q + l.length + 1 = q + 1 + l.length by omega]
  · have hi : ¬ (H.index + 1 ≥ H.max) := by rw [h.idx, h.max]; omega
    have hL : Holds n q l = Log q l := by simp only [Holds]; rw [show l.length + 1 - n = 0 by omega]; rfl
    have hL' : Holds n q (l ++ [t]) = Log q (l ++ [t]) := by
      simp only [Holds, List.length_append, List.length_singleton]
      rw [show l.length + 1 + 1 - n = 0 by omega]; rfl
    refine ⟨?_, ?_, ?_, ?_⟩
    · simp only [addHistory]; rw [if_neg hi]; exact h.max
    · simp only [addHistory]; rw [if_neg hi]; simp only [h.seq, List.length_append, List.length_singleton]; omega
    · simp only [addHistory]; rw [if_neg hi]; simp only [h.idx, List.length_append, List.length_singleton]; omega
    · simp only [addHistory]; rw [if_neg hi]
      simp only [h.arr, h.seq, h.idx]
      rw [hL, hL', log_append]
      obtain ⟨m, hm⟩ : ∃ m, n - (l.length + 1) = m + 1 := ⟨n - (l.length + 1) - 1, by omega⟩
      rw [hm, List.replicate_succ, set_last _ _ none _ _ (by simp [log_length]; omega)]
      rw [show n - ((l ++ [t]).length + 1) = m by simp; omega]
      rw [show q + l.length + 1 = q + 1 + l.length by omega]
      simp

theorem inv_new (n q : Nat) (hn : 1 ≤ n) : Inv n q ([] : List α) (newHistory n q) := by
  obtain ⟨m, rfl⟩ : ∃ m, n = m + 1 := ⟨n - 1, by omega⟩
  refine ⟨rfl, rfl, by simp [newHistory], ?_⟩
  simp [newHistory, Holds, Log, List.replicate_succ]

theorem inv_all (n q : Nat) (hn : 1 ≤ n) (l : List α) : Inv n q l (l.foldl addHistory (newHistory n q)) := by
  have gen : ∀ (l l0 : List α) (H : Hist α), Inv n q l0 H → Inv n q (l0 ++ l) (l.foldl addHistory H) := by
    intro l
    induction l with
    | nil => intro l0 H h; simpa using h
    | cons t l ih =>
      intro l0 H h
      have := ih (l0 ++ [t]) _ (inv_add hn h t)
      simpa using this
  simpa using gen l [] _ (inv_new n q hn)

/-- C188.  However many lines have been added, the history shows the last `n` entries (the first,
empty one included), each with its number, oldest first. -/
theorem C188_shows (n q : Nat) (hn : 1 ≤ n) (l : List α) :
    printHistory (l.foldl addHistory (newHistory n q)) = Holds n q l := by
  have h := inv_all n q hn l
  have hlen := holds_length n q l hn
  simp only [printHistory, h.arr, h.idx]
  rw [show min l.length (n - 1) + 1 = ((Holds n q l).map some).length by rw [List.length_map, hlen]; omega,
    List.take_left' rfl]
  simp

example : printHistory (["a", "b", "c"].foldl addHistory (newHistory 3 7)) =
    [(8, some "a"), (9, some "b"), (10, some "c")] := by decide +kernel

theorem textAt_holds {n q : Nat} (hn : 1 ≤ n) {l : List α} {H : Hist α} (h : Inv n q l H) (i : Nat)
    (hi : i < min (l.length + 1) n) :
    ∃ e, (Log q l)[(l.length + 1) - n + i]? = some e ∧ textAt H i = .text e.2 := by
  have hlen := holds_length n q l hn
  have h1 : i < (Holds n q l).length := by omega
  refine ⟨(Holds n q l)[i], ?_, ?_⟩
  · have : (Holds n q l)[i]? = some (Holds n q l)[i] := List.getElem?_eq_getElem h1
    rw [← this]; simp only [Holds, List.getElem?_drop]
  · simp only [textAt]
    rw [if_neg (by omega)]
    have : H.arr[(i : Int).toNat]? = some (some (Holds n q l)[i]) := by
      rw [h.arr, Int.toNat_natCast, List.getElem?_append_left (by simpa using h1)]
      simp [h1]
    rw [this]

theorem log_get (q : Nat) (l : List α) (j : Nat) (t : α) (h : l[j]? = some t) :
    (Log q l)[j + 1]? = some (q + 1 + j, some t) := by
  have hj : j < l.length := (List.getElem?_eq_some_iff.1 h).1
  simp only [Log, List.getElem?_cons_succ, List.getElem?_zipWith, h]
  rw [List.getElem?_range hj]

/-- C188.  `(get-history k)` for the number `k` of a line that the history still holds gives that line;
for a greater number the latest line, for a smaller one the oldest entry. -/
theorem C188_number (n q : Nat) (hn : 2 ≤ n) (l : List α) (k : Nat) (hk : 1 ≤ k) (hl : l ≠ []) :
    let H := l.foldl addHistory (newHistory n q)
    (∀ j t, l[j]? = some t → (l.length - j ≤ n) → k = q + 1 + j → getNumber H k = .text (some t)) ∧
    (∀ t, l.getLast? = some t → q + l.length ≤ k → getNumber H k = .text (some t)) ∧
    (∀ e, (Holds n q l).head? = some e → k ≤ e.1 → getNumber H k = .text e.2) := by
  intro H
  have h : Inv n q l H := inv_all n q (by omega) l
  have hlen := holds_length n q l (by omega : 1 ≤ n)
  have hpos : 1 ≤ l.length := by
    cases l with
    | nil => exact absurd rfl hl
    | cons _ _ => simp
  -- the number of the entry at place 1
  have hone : ∃ t, H.arr[1]? = some (some (q + (l.length + 1 - n) + 1, t)) := by
    have h1 : 1 < (Holds n q l).length := by omega
    have hd : l.length + 1 - n < l.length := by omega
    refine ⟨some l[l.length + 1 - n], ?_⟩
    rw [h.arr, List.getElem?_append_left (by simpa using h1)]
    rw [List.getElem?_map]
    simp only [Holds, List.getElem?_drop]
    rw [log_get q l (l.length + 1 - n) _ (List.getElem?_eq_getElem hd)]
    simp only [Option.map_some, Option.some.injEq, Prod.mk.injEq, and_true]
    omega
  obtain ⟨t1, ht1⟩ := hone
  have hget : getNumber H k = textAt H ((min H.index (k - (q + (l.length + 1 - n)) : Nat) : Nat) : Int) := by
    simp only [getNumber]
    rw [if_neg (by omega), ht1]
    simp only
    congr 1
    omega
  have hidx := h.idx
  refine ⟨?_, ?_, ?_⟩
  · intro j t hj hjn hkj
    have hj' : j < l.length := (List.getElem?_eq_some_iff.1 hj).1
    rw [hget]
    obtain ⟨e, he, hT⟩ := textAt_holds (by omega) h (min H.index (k - (q + (l.length + 1 - n)))) (by omega)
    rw [hT]
    rw [show l.length + 1 - n + min H.index (k - (q + (l.length + 1 - n))) = j + 1 by omega,
      log_get q l j t hj] at he
    injection he with he; rw [← he]
  · intro t ht hkq
    have hj : l[l.length - 1]? = some t := by rw [← List.getLast?_eq_getElem?]; exact ht
    rw [hget]
    obtain ⟨e, he, hT⟩ := textAt_holds (by omega) h (min H.index (k - (q + (l.length + 1 - n)))) (by omega)
    rw [hT]
    rw [show l.length + 1 - n + min H.index (k - (q + (l.length + 1 - n))) = (l.length - 1) + 1 by omega,
      log_get q l _ t hj] at he
    injection he with he; rw [← he]
  · intro e he hke
    have h0 : (Log q l)[l.length + 1 - n]? = some e := by
      rw [← he, List.head?_eq_getElem?]; simp only [Holds, List.getElem?_drop, Nat.add_zero]
    have hnum : e.1 = q + (l.length + 1 - n) := by
      by_cases hz : l.length + 1 - n = 0
      · rw [hz] at h0 ⊢
        simp only [Log, List.getElem?_cons_zero, Option.some.injEq] at h0
        rw [← h0]; simp
      · have hd : l.length + 1 - n - 1 < l.length := by omega
        have := log_get q l _ _ (List.getElem?_eq_getElem hd)
        rw [show l.length + 1 - n - 1 + 1 = l.length + 1 - n by omega, h0] at this
        injection this with this; rw [this]; simp only; omega
    rw [hget]
    obtain ⟨e', he', hT⟩ := textAt_holds (by omega) h (min H.index (k - (q + (l.length + 1 - n)))) (by omega)
    rw [hT]
    rw [show l.length + 1 - n + min H.index (k - (q + (l.length + 1 - n))) = l.length + 1 - n by omega, h0] at he'
    injection he' with he'; rw [he']

example : getNumber (["a", "b", "c"].foldl addHistory (newHistory 3 7)) 9 = .text (some "b") ∧
    getNumber (["a", "b", "c"].foldl addHistory (newHistory 3 7)) 99 = .text (some "c") ∧
    getNumber (["a", "b", "c"].foldl addHistory (newHistory 3 7)) 2 = .text (some "a") := by
  refine ⟨?_, ?_, ?_⟩ <;> decide +kernel

/-- C188.  `(get-history 0)`, `(get-history -1)` and so on: the line before the latest (which is the
command itself), the one before it; an error when there is none. -/
theorem C188_back (n q : Nat) (hn : 1 ≤ n) (l : List α) (b : Nat) :
    let H := l.foldl addHistory (newHistory n q)
    (∀ t, b + 2 ≤ n → b + 2 ≤ l.length → l[l.length - 2 - b]? = some t → getNumber H (-(b : Int)) = .text (some t)) ∧
    (b + 2 > n → getNumber H (-(b : Int)) = .err) := by
  intro H
  have h : Inv n q l H := inv_all n q hn l
  have hidx := h.idx
  constructor
  · intro t h1 h2 ht
    simp only [getNumber]
    rw [if_pos (by omega)]
    rw [show (H.index : Int) + -(b : Int) - 1 = ((H.index - 1 - b : Nat) : Int) by omega]
    obtain ⟨e, he, hT⟩ := textAt_holds hn h (H.index - 1 - b) (by omega)
    rw [hT]
    rw [show l.length + 1 - n + (H.index - 1 - b) = (l.length - 2 - b) + 1 by omega, log_get q l _ t ht] at he
    injection he with he; rw [← he]
  · intro h1
    simp only [getNumber]
    rw [if_pos (by omega)]
    simp only [textAt]
    rw [if_pos (by omega)]

example : getNumber (["a", "b", "c"].foldl addHistory (newHistory 50 0)) 0 = .text (some "b") := by decide +kernel

/-- C188.  A pattern finds the latest line with a hit, the command itself left out.  Partial: the oldest
entry shown is not looked at. -/
theorem C188_pattern_partial (n q : Nat) (hn : 1 ≤ n) (l : List α) (hit : Option α → Bool) (j : Nat) (t : α)
    (ht : l[j]? = some t) (hj : j + 1 < l.length) (hjn : l.length - j < n) (hh : hit (some t) = true)
    (hl : ∀ i u, j < i → i + 1 < l.length → l[i]? = some u → hit (some u) = false) :
    getHistory (l.foldl addHistory (newHistory n q)) hit = some t := by
  have h : Inv n q l (l.foldl addHistory (newHistory n q)) := inv_all n q hn l
  generalize l.foldl addHistory (newHistory n q) = H at h
  have hlen := holds_length n q l hn
  have hidx := h.idx
  -- the entry at a place
  have hat : ∀ i, 1 ≤ i → i < min (l.length + 1) n → ∀ u, l[l.length + 1 - n + i - 1]? = some u →
      ∃ m, H.arr[i]? = some (some (m, some u)) := by
    intro i hi1 hi u hu
    have h1 : i < (Holds n q l).length := by omega
    have := log_get q l _ u hu
    rw [show l.length + 1 - n + i - 1 + 1 = l.length + 1 - n + i by omega] at this
    refine ⟨q + 1 + (l.length + 1 - n + i - 1), ?_⟩
    rw [h.arr, List.getElem?_append_left (by simpa using h1), List.getElem?_map]
    simp only [Holds, List.getElem?_drop, this, Option.map_some]
  have loop : ∀ i, i ≤ H.index - 1 → (j + 1) - (l.length + 1 - n) ≤ i → getPattern H hit i = some t := by
    intro i
    induction i with
    | zero => intro _ h2; omega
    | succ i ih =>
      intro h1 h2
      have hb : l.length + 1 - n + (i + 1) - 1 < l.length := by omega
      obtain ⟨m, hm⟩ := hat (i + 1) (by omega) (by omega) _ (List.getElem?_eq_getElem hb)
      simp only [getPattern, hm]
      by_cases e : j + 1 - (l.length + 1 - n) = i + 1
      · have e' : l.length + 1 - n + (i + 1) - 1 = j := by omega
        have : l[l.length + 1 - n + (i + 1) - 1] = t := by
          have := List.getElem?_eq_getElem hb
          simp only [e'] at this ⊢
          rw [ht] at this; injection this with this; exact this.symm
        rw [this, hh, if_pos rfl]
      · rw [hl (l.length + 1 - n + (i + 1) - 1) _ (by omega) (by omega) (List.getElem?_eq_getElem hb)]
        simp only [Bool.false_eq_true, if_false]
        exact ih (by omega) (by omega)
  exact loop _ (Nat.le_refl _) (by omega)

example : getHistory (["ab", "b", "cd"].foldl addHistory (newHistory 4 0)) (· == some "ab") = some "ab" := by
  decide +kernel

/-- A line that the history shows, but as its oldest entry, is not found. -/
theorem C188_oldest_wrong (n q : Nat) (hn : 1 ≤ n) (l : List α) (hit : Option α → Bool)
    (e : Nat × Option α) (he : (Holds n q l).head? = some e)
    (hl : ∀ f ∈ (Holds n q l).drop 1, hit f.2 = false) (hnil : hit none = false) :
    e ∈ printHistory (l.foldl addHistory (newHistory n q)) ∧
    getHistory (l.foldl addHistory (newHistory n q)) hit = none := by
  rw [C188_shows n q hn]
  refine ⟨List.mem_of_mem_head? he, ?_⟩
  have h : Inv n q l (l.foldl addHistory (newHistory n q)) := inv_all n q hn l
  generalize l.foldl addHistory (newHistory n q) = H at h
  have loop : ∀ i, getPattern H hit i = none := by
    intro i
    induction i with
    | zero => rfl
    | succ i ih =>
      simp only [getPattern]
      have key : ∀ x, H.arr[i + 1]? = some (some x) → hit x.2 = false := by
        intro x hx
        apply hl
        rw [h.arr] at hx
        by_cases hc : i + 1 < (Holds n q l).length
        · rw [List.getElem?_append_left (by simpa using hc), List.getElem?_map] at hx
          rw [List.getElem?_eq_getElem hc] at hx
          simp only [Option.map_some, Option.some.injEq] at hx
          rw [← hx]
          have : ((Holds n q l).drop 1)[i]? = some (Holds n q l)[i + 1] := by
            rw [List.getElem?_drop, Nat.add_comm 1 i]; exact List.getElem?_eq_getElem hc
          exact List.mem_of_getElem? this
        · rw [List.getElem?_append_right (by simp; omega)] at hx
          have := List.mem_of_getElem? hx
          rw [List.mem_replicate] at this
          simp at this
      split
      · rename_i x hx
        rw [key x hx]; simpa using ih
      · rw [hnil]; simpa using ih
  exact loop _

example : (Holds 3 0 ["ab", "b", "cd"]).head? = some (1, some "ab") ∧
    (∀ f ∈ (Holds 3 0 ["ab", "b", "cd"]).drop 1, (f.2 == some "ab") = false) ∧
    getHistory (["ab", "b", "cd"].foldl addHistory (newHistory 3 0)) (· == some "ab") = none := by
  refine ⟨?_, ?_, ?_⟩ <;> decide +kernel

/-! ### C189: the line editor -/

/-- The editor's state shows the line with its cursor. -/
def Shows (z : Zip) (e : Ed) : Prop :=
  e.line = z.text ∧ e.index = z.before.length ∧ e.fin = z.text.length

theorem insert_shows (b a : List Nat) (c : Nat) :
    listInsert c b.length (b.reverse ++ a) = (c :: b).reverse ++ a := by
  unfold listInsert
  cases b with
  | nil =>
    cases a with
    | nil => rfl
    | cons x a => simp
  | cons y b =>
    rw [if_neg (by simp)]
    cases a with
    | nil => rw [if_pos (by simp)]; simp
    | cons x a =>
      rw [if_neg (by simp), if_neg (by simp)]
      rw [List.take_left' (by simp), List.drop_left' (by simp)]
      simp

theorem delete_shows (b a : List Nat) (x : Nat) :
    listDelete (b.reverse ++ x :: a) b.length = b.reverse ++ a := by
  unfold listDelete
  cases b with
  | nil => simp
  | cons y b =>
    rw [if_neg (by simp), List.take_left' (by simp)]
    congr 1
    rw [show (y :: b).reverse ++ x :: a = ((y :: b).reverse ++ [x]) ++ a by simp, List.drop_left' (by simp)]

/-- C189.  Every key that does not end the editing changes the line and the cursor as described. -/
theorem C189_key (z : Zip) (e : Ed) (c : Nat) (h : Shows z e) (hc : Typing c) :
    ∃ e', key c e = .go e' ∧ Shows (z.key c) e' := by
  obtain ⟨b, a⟩ := z
  obtain ⟨l, i, f⟩ := e
  obtain ⟨h1, h2, h3⟩ := h
  obtain ⟨hc, h4, h5, h6⟩ := hc
  simp only [Zip.text] at h1 h2 h3
  subst h1 h2 h3
  have hlen : (b.reverse ++ a).length = b.length + a.length := by simp
  unfold key
  rw [if_neg (by omega)]
  by_cases e1 : c = 1
  · subst e1; exact ⟨_, rfl, by simp [Shows, Zip.key, Zip.text]⟩
  rw [if_neg e1]
  by_cases e2 : c = 2 ∨ c = 8
  · rw [if_pos e2]
    refine ⟨_, rfl, ?_⟩
    have : Zip.key ⟨b, a⟩ c = (match b with | y :: r => ⟨r, y :: a⟩ | [] => ⟨b, a⟩) := by
      rcases e2 with rfl | rfl <;> cases b <;> rfl
    rw [this]
    cases b with
    | nil => simp [Shows, Zip.text]
    | cons y b => simp [Shows, Zip.text]
  rw [if_neg e2, if_neg h4]
  by_cases e4 : c = 4
  · subst e4
    refine ⟨_, rfl, ?_⟩
    cases a with
    | nil => simp [Shows, Zip.key, Zip.text]
    | cons x a =>
      rw [if_pos (by simp)]
      simp only [Shows, Zip.key, Zip.text, delete_shows]
      simp
  rw [if_neg e4]
  by_cases e6 : c = 6 ∨ c = 11
  · rw [if_pos e6]
    refine ⟨_, rfl, ?_⟩
    have : Zip.key ⟨b, a⟩ c = (match a with | x :: r => ⟨x :: b, r⟩ | [] => ⟨b, a⟩) := by
      rcases e6 with rfl | rfl <;> cases a <;> rfl
    rw [this]
    cases a with
    | nil => simp [Shows, Zip.text]
    | cons x a =>
      rw [if_pos (by simp)]
      simp [Shows, Zip.text]
  rw [if_neg e6]
  by_cases e7 : c = 7 ∨ c = 18
  · rw [if_pos e7]
    refine ⟨_, rfl, ?_⟩
    rcases e7 with rfl | rfl <;> simp [Shows, Zip.key, Zip.text] <;> omega
  rw [if_neg e7, if_neg (by omega)]
  by_cases e12 : c = 12
  · subst e12; exact ⟨_, rfl, by simp [Shows, Zip.key, Zip.text]; omega⟩
  rw [if_neg e12]
  by_cases e21 : c = 21
  · subst e21; exact ⟨_, rfl, by simp [Shows, Zip.key, Zip.text]⟩
  rw [if_neg e21]
  by_cases e127 : c = 127
  · subst e127
    refine ⟨_, rfl, ?_⟩
    cases b with
    | nil => simp [Shows, Zip.key, Zip.text]
    | cons y b =>
      rw [if_pos (by simp)]
      have := delete_shows b a y
      simp only [Shows, Zip.key, Zip.text, List.length_cons, Nat.add_sub_cancel, List.drop_one, List.tail_cons]
      rw [show (y :: b).reverse ++ a = b.reverse ++ y :: a by simp, this]
      simp
  rw [if_neg e127]
  have hz : Zip.key ⟨b, a⟩ c = if c < 32 then ⟨b, a⟩ else ⟨c :: b, a⟩ := by
    unfold Zip.key
    split <;> first | omega | rfl
  rw [hz]
  by_cases e32 : c < 32
  · rw [if_pos e32, if_pos e32]
    exact ⟨_, rfl, rfl, rfl, rfl⟩
  · rw [if_neg e32, if_neg e32]
    refine ⟨_, rfl, ?_⟩
    simp only [Shows, Zip.text, insert_shows]
    simp; omega

theorem edit_keys (ks : List Nat) : ∀ (z : Zip) (e : Ed) (r : List Nat), Shows z e → (∀ c ∈ ks, Typing c) →
    ∃ e', edit (ks ++ r) e = edit r e' ∧ Shows (ks.foldl Zip.key z) e' := by
  induction ks with
  | nil => intro z e r h _; exact ⟨e, rfl, h⟩
  | cons c ks ih =>
    intro z e r h hk
    obtain ⟨e1, h1, h2⟩ := C189_key z e c h (hk c (by simp))
    obtain ⟨e2, h3, h4⟩ := ih _ e1 r h2 (fun c hc => hk c (by simp [hc]))
    exact ⟨e2, by simp only [List.cons_append, edit, h1, h3], h4⟩

theorem start_shows (l : List Nat) : Shows ⟨l.reverse, []⟩ (start l) := by
  simp [Shows, start, Zip.text]

/-- C189.  Editing a line with any keys and then Return (or ^J) gives the line the keys made of it;
^C gives nil.  Partial: nil is also given when the line made is empty, and keys above 127 are an
error. -/
theorem C189_edit_partial (l ks rest : List Nat) (hk : ∀ c ∈ ks, Typing c) :
    (∀ c, c = 10 ∨ c = 13 → (ks.foldl Zip.key ⟨l.reverse, []⟩).text ≠ [] →
      edit (ks ++ c :: rest) (start l) = .line (ks.foldl Zip.key ⟨l.reverse, []⟩).text) ∧
    edit (ks ++ 3 :: rest) (start l) = .nil := by
  constructor
  · intro c hc hne
    obtain ⟨e, h1, h2, h3, h4⟩ := edit_keys ks _ (start l) (c :: rest) (start_shows l) hk
    rw [h1]
    have : key c e = .leave e.line := by rcases hc with rfl | rfl <;> rfl
    simp only [edit, this]
    rw [h2]
    split
    · rename_i h; simp at h
    · rename_i h; injection h with h; exact absurd h hne
    · rfl
    · rename_i h; simp at h
  · obtain ⟨e, h1, -⟩ := edit_keys ks _ (start l) (3 :: rest) (start_shows l) hk
    rw [h1]
    rfl

/-- "cat" edited to "cart": left, 'r', Return. -/
example : edit [2, 114, 13] (start [99, 97, 116]) = .line [99, 97, 114, 116] ∧
    (∀ c ∈ [2, 114], Typing c) := by
  constructor
  · decide +kernel
  · simp [Typing]

/-- An empty line cannot be entered: after ^U and Return the answer is the same as after ^C. -/
theorem C189_empty_wrong (l ks rest : List Nat) (hk : ∀ c ∈ ks, Typing c)
    (he : (ks.foldl Zip.key ⟨l.reverse, []⟩).text = []) : edit (ks ++ 13 :: rest) (start l) = .nil := by
  obtain ⟨e, h1, h2, h3, h4⟩ := edit_keys ks _ (start l) (13 :: rest) (start_shows l) hk
  rw [h1]
  have : key 13 e = .leave [] := by rw [show key 13 e = .leave e.line from rfl, h2, he]
  simp only [edit, this]

example : (([21].foldl Zip.key ⟨[99], []⟩).text = []) ∧ edit [21, 13] (start [99]) = .nil := by
  constructor <;> decide +kernel

/-- A character outside ASCII is an error, wherever it is typed. -/
theorem C189_key_wrong (l ks rest : List Nat) (hk : ∀ c ∈ ks, Typing c) (c : Nat) (hc : 128 ≤ c) :
    edit (ks ++ c :: rest) (start l) = .err := by
  obtain ⟨e, h1, -⟩ := edit_keys ks _ (start l) (c :: rest) (start_shows l) hk
  rw [h1]
  have : key c e = .err := by unfold key; rw [if_pos hc]
  simp only [edit, this]

example : edit [97, 233, 13] (start []) = .err := by decide +kernel

end Eus.Hst
