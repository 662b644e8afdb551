import Verif.Lib.Base64
import Verif.Lib.Qsort
import Verif.Lib.Perm
import Verif.Lib.Time
set_option autoImplicit false
/-
Properties of the library files base64.l, qsort.l, perm.l and time.l.
-/
namespace Eus.Lib

/-! ### Base 64 -/

/-- C99: the text made of any bytes is the one RFC 2045 describes, with a newline after every 76 characters. -/
theorem C99_encode (s : List Nat) (h : ∀ x ∈ s, x < 256) : encode s = some (inLines (rfc s).length (rfc s)) := by
  rw [encode_eq s h, breaks_inLines (rfc s).length (rfc s) 0 rfl (Nat.le_refl _)]

/-- C99 (part): decoding any text with the same digits as the encoding of s, whatever blanks, newlines and padding are between them, gives s back; but one zero byte is added unless the length of s is a multiple of 3. -/
theorem C99_decode_partial (s t : List Nat) (h : ∀ x ∈ s, x < 256) (ht : significant t = significant (rfc s)) :
    decode t = some (s ++ if s.length % 3 = 0 then [] else [0]) := by
  rw [decode, decLoop_significant, ht, significant_rfc s h]
  exact dec_sextets s h 0

/-- C99 (part): decoding what was encoded. -/
theorem C99_round_trip_partial (s : List Nat) (h : ∀ x ∈ s, x < 256) :
    (encode s).bind decode = some (s ++ if s.length % 3 = 0 then [] else [0]) := by
  rw [encode_eq s h]
  exact C99_decode_partial s _ h (significant_breaks _ 0)

/-- C99 is false as stated: "mats" comes back with a NUL character added. -/
theorem C99_round_trip_wrong : (encode [109, 97, 116, 115]).bind decode = some [109, 97, 116, 115, 0] := by decide +kernel

/-- The example in the file's header. -/
example : (encode ("Aladdin:open sesame".toList.map Char.toNat)) = some ("QWxhZGRpbjpvcGVuIHNlc2FtZQ==".toList.map Char.toNat) := by decide +kernel

/-! ### Sorting -/

/-- C100: with a strict order (not necessarily total) on the keys, `qsort` ends and gives a rearrangement of the list in which no element is less than one before it. -/
theorem C100_qsort {α κ : Type} (pred : κ → κ → Bool) (key : α → κ) (hp : StrictOrder pred) (l : List α) (fuel : Nat) (hf : l.length < fuel) :
    ∃ l', qsort pred key fuel l = some l' ∧ l'.Perm l ∧ l'.Pairwise (fun x y => pred (key y) (key x) = false) := by
  cases l with
  | nil => exact ⟨[], rfl, List.Perm.refl _, List.Pairwise.nil⟩
  | cons x xs =>
    obtain ⟨a', h1, h2, h3⟩ := quickSort_spec (pred := pred) (key := key) (fun x => by simp [Lt, hp.irrefl])
      (fun x y z => hp.trans _ _ _) fuel (fun i => (x :: xs).getD i x) 0 (xs.length + 1) (by simpa using hf) (by omega)
    refine ⟨(List.range (xs.length + 1)).map a', by simp only [qsort, h1, Option.map_some], ?_, ?_⟩
    · have := h2.perm
      rwa [show (List.range (xs.length + 1)).map (fun i => (x :: xs).getD i x) = x :: xs from map_getD x (x :: xs)] at this
    · refine pairwise_range _ _ _ fun i j hij hj => ?_
      have := h3 i j (Nat.zero_le _) hij hj
      simpa [Lt] using this

/-- C100 needs a strict order: with `<=` two equal elements are never sorted, however long one waits. -/
theorem C100_not_strict_wrong (fuel : Nat) : qsort (fun x y : Nat => decide (x ≤ y)) id fuel [1, 1] = none := by
  have h : ∀ (n : Nat) (a : Nat → Nat), a 0 = 1 → a 1 = 1 → quickSort (fun x y : Nat => decide (x ≤ y)) id n a 0 2 = none := by
    intro n
    induction n with
    | zero => intro a _ _; rfl
    | succ n ih =>
      intro a h0 h1
      have hp : part (fun x y : Nat => decide (x ≤ y)) id 0 (a 0) (2 + 1) a 0 2 = some (.split 2 a) := by
        simp [part, scanDown, scanUp, h0, h1]
      rw [quickSort, if_neg (by decide), hp]
      simp only [ih a h0 h1, Option.bind_none]
  simp only [qsort, h fuel (fun i => [1, 1].getD i 1) rfl rfl, List.length_cons, List.length_nil, Option.map_none]

example : qsort (fun x y : Nat => decide (x < y)) id 6 [3, 1, 2, 3, 1] = some [1, 1, 2, 3, 3] := by decide

/-! ### Permutations and combinations -/

/-- C101: `list-permutation` of a list that is not empty gives exactly its rearrangements, n! of them, all different if the elements are. -/
theorem C101_list_permutation {α : Type} (l : List α) (hl : l ≠ []) :
    (∀ z, z ∈ listPermutation l ↔ z.Perm l) ∧ (listPermutation l).length = factorial l.length ∧
    (l.Nodup → (listPermutation l).Nodup) := by
  have hp := listPermutation_perm l
  cases l with
  | nil => exact absurd rfl hl
  | cons x l =>
    refine ⟨fun z => ?_, ?_, fun h => ?_⟩
    · rw [hp.mem_iff]; exact mem_orders x l z
    · rw [hp.length_eq]; exact orders_length x l
    · exact hp.nodup_iff.2 (nodup_orders _ h)

/-- C101: the same for the results of sending `:next` to a permutation generator n! times; after that the results are nil. `:all` gives the same lists, and `:reset` starts again at any time. -/
theorem C101_generator {α : Type} (l : List α) (hl : l ≠ []) :
    (∀ z, z ∈ Gen.take (factorial l.length) (Gen.init l) ↔ z.Perm l) ∧
    (l.Nodup → (Gen.take (factorial l.length) (Gen.init l)).Nodup) ∧
    (∀ n, Gen.take (factorial l.length + n) (Gen.init l) = Gen.take (factorial l.length) (Gen.init l) ++ List.replicate n []) ∧
    (∀ n, factorial l.length < n → Gen.all n (Gen.init l) [] = some (Gen.take (factorial l.length) (Gen.init l)).reverse) ∧
    (∀ n, (Nat.repeat (fun g : Gen α => g.next.2) n (Gen.init l)).reset = Gen.init l) := by
  cases l with
  | nil => exact absurd rfl hl
  | cons x l =>
    have hlen : (orders (x :: l)).length = factorial (x :: l).length := orders_length x l
    have ht : ∀ n, Gen.take (factorial (x :: l).length + n) (Gen.init (x :: l)) = orders (x :: l) ++ List.replicate n [] := fun n => by
      rw [← hlen]; exact take_holds _ n _ (holds_init _ x l)
    have h0 : Gen.take (factorial (x :: l).length) (Gen.init (x :: l)) = orders (x :: l) := by
      have := ht 0; simpa using this
    rw [h0]
    refine ⟨mem_orders x l, nodup_orders _, ht, fun n hn => ?_, fun n => ?_⟩
    · rw [all_holds (orders (x :: l)) n _ [] (holds_init _ x l) (by rw [hlen]; exact hn) (orders_ne x l), List.append_nil]
    · have : ∀ n, (Nat.repeat (fun g : Gen α => g.next.2) n (Gen.init (x :: l))).reset = (Gen.init (x :: l)).reset := by
        intro n
        induction n with
        | zero => rfl
        | succ n ih => rw [Nat.repeat, next_reset]; exact ih
      rw [this, init_reset]

/-- C101: for r of 1 or more, `combi` gives exactly the sublists of r elements, each once per choice of places, and different ones if the elements are different; `combi2` is `combi` with 2. -/
theorem C101_combi_partial {α : Type} (l : List α) (r : Nat) (hr : 1 ≤ r) :
    (∀ z, z ∈ combi l r ↔ z.Sublist l ∧ z.length = r) ∧ (combi l r).length = binomial l.length r ∧
    (l.Nodup → (combi l r).Nodup) ∧ combi2 l = combi l 2 := by
  obtain ⟨r, rfl⟩ : ∃ m, r = m + 1 := ⟨r - 1, by omega⟩
  have e : combi l (r + 1 : Nat) = choose (r + 1) l := combiN_eq _ l r (by omega)
  have e2 : combi l 2 = choose 2 l := combiN_eq _ l 1 (by omega)
  rw [e, e2]
  exact ⟨mem_choose _ l, choose_length _ l, nodup_choose _ l, combi2_eq l⟩

/-- C101 is false for r = 0: there is one way to choose nothing, but `combi` gives none. -/
theorem C101_combi_zero_wrong {α : Type} (l : List α) : combi l 0 = [] ∧ binomial l.length 0 = 1 :=
  ⟨combiN_zero l _ 0 (Int.le_refl _), by cases l <;> rfl⟩

/-- C101 is false for the empty list: it has one rearrangement, but `list-permutation` gives none. -/
theorem C101_empty_wrong : listPermutation ([] : List Nat) = [] ∧ ([] : List Nat).Perm [] ∧ factorial 0 = 1 := ⟨rfl, List.Perm.refl _, rfl⟩

example : listPermutation [1, 2, 3] = [[3, 2, 1], [3, 1, 2], [1, 3, 2], [2, 3, 1], [2, 1, 3], [1, 2, 3]] := by decide
example : (Gen.take 8 (Gen.init [1, 2, 3])) = [[1, 2, 3], [2, 1, 3], [2, 3, 1], [1, 3, 2], [3, 1, 2], [3, 2, 1], [], []] := by decide
example : combi [1, 2, 3, 4] 2 = [[1, 2], [1, 3], [1, 4], [2, 3], [2, 4], [3, 4]] := by decide

/-! ### Calendar time -/

/-- C102 (part): for every number of seconds from the beginning of 1970 to the end of 2100, in any time zone, `:init` finds the date and time of day of the Gregorian calendar and its weekday. -/
theorem C102_init_partial (n : Nat) (tz : Int) (h : n < daysOfYears 131 * 86400) :
    ∃ c t, calInit ((n : Int) + tz) tz = some c ∧ c.shows t ∧ t.valid ∧ t.seconds = n ∧ c.weekday = t.weekday ∧ c.total = n :=
  calInit_spec n tz h

/-- There is only one such moment. -/
theorem C102_moment_unique (t t' : Moment) (h : t.valid) (h' : t'.valid) (e : t.seconds = t'.seconds) : t = t' := Moment.inj h h' e

/-- C102 (part): `:make` for an existing date to the end of 2099 counts the right number of seconds, if the present year is a leap year just when the given one is. -/
theorem C102_make_partial (clock : Int) (t : Moment) (hv : t.valid) (hy : t.year ≤ 2099) (hc : clock.tmod 4 = 0 ↔ isLeap t.year) :
    (calMake clock t.year t.month t.day t.hour t.minute t.second).total = t.seconds := compute_spec clock t hv hy hc

/-- C102 (part): under the same condition the object made from these seconds shows the same date. -/
theorem C102_round_trip_partial (clock : Int) (t : Moment) (hv : t.valid) (hy : t.year ≤ 2099) (hc : clock.tmod 4 = 0 ↔ isLeap t.year) :
    ∃ c, calInit (calMake clock t.year t.month t.day t.hour t.minute t.second).total 0 = some c ∧ c.shows t := by
  rw [C102_make_partial clock t hv hy hc]
  have hlt : t.seconds < daysOfYears 131 * 86400 := by
    obtain ⟨h1, h2, h3, h4, h5, h6, h7, h8⟩ := hv
    have hm := months_lt h2 h3 h4 h5
    have : yearLength t.year ≤ 366 := by unfold yearLength; split <;> omega
    have hn : daysOfYears (t.year - 1970) = 365 * (t.year - 1970) + (t.year - 1970 + 1) / 4 := daysOfYears_closed _ (by omega)
    have e131 : daysOfYears 131 = 47847 := by decide +kernel
    simp only [Moment.seconds, dayNumber, hn, e131]
    omega
  obtain ⟨c, t', q1, q2, q3, q4, _, _⟩ := C102_init_partial t.seconds 0 hlt
  rw [Moment.inj q3 hv q4] at q2
  exact ⟨c, by simpa using q1, q2⟩

/-- C102 is false from the beginning of 2101: the loop over the months leaves the array. -/
theorem C102_2101_wrong : calInit (dayNumber 2101 1 1 * 86400 : Nat) 0 = none := by decide +kernel

/-- C102 is false before 1970: the second before is shown as minus one second of January 1st, 1970. -/
theorem C102_before_wrong : calInit (-1) 0 = some ⟨1970, 0, 1, 0, 0, -1, 4, -1⟩ := by decide +kernel

/-- C102 is false if the present year differs: in 2026, March 1st, 2024 is counted as the day before. -/
theorem C102_clock_wrong : (calMake 126 2024 3 1 0 0 0).total + 86400 = (Moment.mk 2024 3 1 0 0 0).seconds := by decide +kernel

/-- C102 is false for the weekday after `:make`: August 16th, 2015 was a Sunday (0), but the object says Wednesday, which was September 16th. -/
theorem C102_weekday_wrong : (calMake 126 2015 8 16 18 39 58).weekday = 3 ∧ (Moment.mk 2015 8 16 18 39 58).weekday = 0 ∧
    (Moment.mk 2015 9 16 18 39 58).weekday = 3 := by decide +kernel

example : (Moment.mk 2024 2 29 23 59 59).valid ∧ isLeap 2024 ∧ calInit 1709251199 0 = some ⟨2024, 1, 29, 23, 59, 59, 4, 1709251199⟩ ∧
    (Moment.mk 2024 2 29 23 59 59).seconds = 1709251199 := by
  refine ⟨?_, by decide, by decide +kernel, by decide +kernel⟩
  unfold Moment.valid; decide

end Eus.Lib
