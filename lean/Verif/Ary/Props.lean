import Verif.Ary.Lemmas
set_option autoImplicit false
/-
C202: arrays and vectors that are printed and read again.
-/
namespace Eus.Ary
open Eus.Rd Eus.Num

/-- decimal, lower case, *print-length* 65536 -/
def dflt' : PCfg := ⟨10, true, 65536⟩

/-! ### ordinary arrays -/

/-- C202: an ordinary array is printed; the text reads as an array with the same dimensions and the same elements in the same order, whatever the displaced offset; with a fill pointer the elements before it.
Missing: dimensions that are 0 (`C202_empty_wrong`), a first element that is a list (`C202_list_wrong`), elements outside C54. -/
theorem C202_array_partial (p : PCfg) (hb : 2 ≤ p.base) (hb' : p.base ≤ 36) (a : Ary) (v : List T) (he : a.ent = .objs v) (ds : List Nat)
    (hs : Shape a ds) (hds : GoodDims ds) (hin : Inside v a.off ds)
    (hg : ∀ x ∈ window v a.off ds, GoodTree p.base p.prlength x ∧ depth x < 65534) (hf : FirstAtom (window v a.off ds)) :
    ∃ txt, printarray p a = some txt ∧ ∀ rest, Delim rest → ∃ v',
      readObj p.base (txt ++ rest) = .ok (.ary ⟨.objs v', ds, none, 0⟩) rest ∧ window v' 0 ds = window v a.off ds := by
  obtain ⟨hsh, hlen⟩ := shape_shown a ds hs
  obtain ⟨hne, h7, hpos⟩ := hds
  have hmem : ∀ i, i < total ds → v.getD (a.off + i) NIL ∈ window v a.off ds := by
    intro i hi
    unfold Inside at hin
    rw [window, ← els_getD v a.off (total ds) hin, els, List.mem_map]
    exact ⟨a.off + i, by simp [List.mem_range'_1]; omega, rfl⟩
  obtain ⟨t, e1, hr⟩ := prinary_reads p.base (prinelm p (65536 - 2) a.ent) (fun i => v.getD i NIL) ds a.off (fun i hi => by
    obtain ⟨g1, g2⟩ := hg _ (hmem i hi)
    obtain ⟨txt, q1, q2⟩ := readsAs_of_good p hb hb' _ g1 (65536 - 2) (by omega)
    refine ⟨txt, ?_, q2⟩
    unfold Inside at hin
    have hget : v[a.off + i]? = some (v.getD (a.off + i) NIL) := by
      rw [List.getD_eq_getElem?_getD, List.getElem?_eq_getElem (by omega)]; rfl
    rw [he]
    simp only [prinelm, hget, Option.bind_some]
    exact q1)
  refine ⟨[35, 48 + ds.length, 97] ++ t, ?_, ?_⟩
  · unfold printarray
    rw [hsh, e1, hlen, he]
    simp only [prefixOf, if_pos h7]
  intro rest hrest
  rw [show [35, 48 + ds.length, 97] ++ t ++ rest = 35 :: (48 + ds.length) :: 97 :: (t ++ rest) by simp, readObj_sharp,
    sharp_prefix p.base ds.length 97 _ h7 (by decide) (by decide) (by decide) (by decide), if_pos (by decide),
    withRead_reads p.base t rest _ _ hr hrest]
  obtain ⟨d, ds', rfl⟩ : ∃ d ds', ds = d :: ds' := by
    cases ds with
    | nil => exact absurd rfl hne
    | cons d ds' => exact ⟨d, ds', rfl⟩
  rcases hpos with hz | hpos
  · cases hz
    exact ⟨[NIL], rfl, by simp [window, total]⟩
  · have htp := total_pos _ hpos
    have hld : listDims (tree (fun i => v.getD i NIL) (d :: ds') a.off) = some (d :: ds') := by
      refine listDims_tree _ ds' d a.off (by simpa using h7) (hpos d (by simp)) (fun x hx => hpos x (List.mem_cons_of_mem _ hx)) ?_
      intro x y hxy
      unfold Inside at hin
      have hw : window v a.off (d :: ds') = els (fun i => v.getD i NIL) a.off (total (d :: ds')) := (els_getD v a.off _ hin).symm
      rw [hw] at hf
      obtain ⟨n, hn⟩ : ∃ n, total (d :: ds') = n + 1 := ⟨total (d :: ds') - 1, by omega⟩
      rw [hn, els, List.range'_succ, List.map_cons] at hf
      simp only [hxy, FirstAtom] at hf
    have hput : putAll 0 (els (fun i => v.getD i NIL) a.off (total (d :: ds'))) (.objs (List.replicate (max 1 (total (d :: ds'))) NIL)) =
        some (.objs (els (fun i => v.getD i NIL) a.off (total (d :: ds')))) := by
      have := putAll_objs (els (fun i => v.getD i NIL) a.off (total (d :: ds'))) [] (List.replicate (max 1 (total (d :: ds'))) NIL) (by
        rw [els_length, List.length_replicate]; omega)
      simp only [List.length_nil, List.nil_append] at this
      rw [this, List.drop_eq_nil_of_le (by rw [els_length, List.length_replicate]; omega), List.append_nil]
    refine ⟨els (fun i => v.getD i NIL) a.off (total (d :: ds')), ?_, ?_⟩
    · simp only [readA, hld, Option.bind_some]
      rw [makeArray_tree .obj _ d ds' a.off (by simpa using h7), Ty.make, hput]
      rfl
    · rw [els_getD v a.off _ hin]
      simp [window, List.take_take]

/-- #2a((1 "x") (nil 3) (a -4)) -/
example : printarray dflt' ⟨.objs [NIL, .int (.fix 1), .str [120], NIL, .int (.fix 3), .sym [65], .int (.fix (-4))], [3, 2], none, 1⟩ =
    some [35, 50, 97, 40, 40, 49, 32, 34, 120, 34, 41, 32, 40, 110, 105, 108, 32, 51, 41, 32, 40, 97, 32, 45, 52, 41, 41] := by decide


theorem good_small (w : Word) (h : -1000 ≤ w.toInt ∧ w.toInt ≤ 1000) : GoodTree 10 65536 (.int (.fix w)) := by
  refine ⟨?_, ?_, Or.inl ?_⟩
  · simp only [Num.Canonical, InFix]; omega
  · have e : (Num.fix w).val = w.toInt := rfl
    rw [e]
    calc w.toInt.natAbs < 10 ^ 4 := by omega
      _ ≤ 10 ^ 1022 := Nat.pow_le_pow_right (by decide) (by decide)
  · have e : (Num.fix w).val = w.toInt := rfl
    rw [e]; omega

/-- A 2×2 array in the middle of its entity meets the hypotheses. -/
example : ∃ txt, printarray dflt' ⟨.objs [NIL, .int (.fix 1), .str [120], .int (.fix 3), .int (.fix (-4)), NIL], [2, 2], none, 1⟩ = some txt ∧
    ∀ rest, Delim rest → ∃ v', readObj 10 (txt ++ rest) = .ok (.ary ⟨.objs v', [2, 2], none, 0⟩) rest ∧
      window v' 0 [2, 2] = [.int (.fix 1), .str [120], .int (.fix 3), .int (.fix (-4))] := by
  refine C202_array_partial dflt' (by decide) (by decide) ⟨.objs [NIL, .int (.fix 1), .str [120], .int (.fix 3), .int (.fix (-4)), NIL], [2, 2], none, 1⟩ _ rfl [2, 2]
    (Or.inr ⟨rfl, Or.inl rfl⟩) ⟨by decide, by decide, Or.inr (by decide)⟩ (by unfold Inside; decide) ?_ (by simp [window, total, FirstAtom])
  intro x hx
  simp only [window, total, List.drop_succ_cons, List.drop_zero, Nat.mul_one, List.take_succ_cons, List.take_zero, List.mem_cons, List.not_mem_nil, or_false] at hx
  rcases hx with rfl | rfl | rfl | rfl
  · exact ⟨good_small _ (by decide), by decide⟩
  · exact ⟨trivial, by decide⟩
  · exact ⟨good_small _ (by decide), by decide⟩
  · exact ⟨good_small _ (by decide), by decide⟩

/-- A vector with a fill pointer: what is before the fill pointer. -/
example : printarray dflt' ⟨.objs [.int (.fix 1), .int (.fix 2), .int (.fix 3)], [3], some 2, 0⟩ = some [35, 49, 97, 40, 49, 32, 50, 41] ∧
    Shape ⟨.objs [.int (.fix 1), .int (.fix 2), .int (.fix 3)], [3], some 2, 0⟩ [2] := by
  exact ⟨by decide, Or.inl ⟨3, 2, rfl, rfl, rfl⟩⟩

/-! ### arrays of integers -/

/-- C202: an array of integers reads as an array of integers with the same dimensions and elements.
Missing: dimensions that are 0, the smallest word (its negation is undefined in C), integers of C10 that are not read back in bases above 21. -/
theorem C202_integer_array_partial (p : PCfg) (hb : 2 ≤ p.base) (hb' : p.base ≤ 36) (a : Ary) (v : List Word) (he : a.ent = .ints v) (ds : List Nat)
    (hs : Shape a ds) (hds : GoodDims ds) (hin : Inside v a.off ds)
    (hg : ∀ w ∈ window v a.off ds, w.toInt ≠ -2 ^ 63 ∧ GoodInt p.base w.toInt) :
    ∃ txt, printarray p a = some txt ∧ ∀ rest, Delim rest → ∃ v',
      readObj p.base (txt ++ rest) = .ok (.ary ⟨.ints v', ds, none, 0⟩) rest ∧ window v' 0 ds = window v a.off ds := by
  obtain ⟨hsh, hlen⟩ := shape_shown a ds hs
  obtain ⟨hne, h7, hpos⟩ := hds
  unfold Inside at hin
  have hget : ∀ i, i < total ds → v[a.off + i]? = some (v.getD (a.off + i) 0) := by
    intro i hi
    rw [List.getD_eq_getElem?_getD, List.getElem?_eq_getElem (by omega)]; rfl
  have hmem : ∀ i, i < total ds → v.getD (a.off + i) 0 ∈ window v a.off ds := by
    intro i hi
    have : (window v a.off ds)[i]? = some (v.getD (a.off + i) 0) := by
      rw [window, List.getElem?_take, if_pos hi, List.getElem?_drop, hget i hi]
    exact List.mem_of_getElem? this
  obtain ⟨t, e1, hr⟩ := prinary_reads p.base (prinelm p (65536 - 2) a.ent) (fun i => .int (numOf (v.getD i 0))) ds a.off (fun i hi => by
    obtain ⟨g1, g2⟩ := hg _ (hmem i hi)
    obtain ⟨txt, q1, q2⟩ := word_read p hb hb' _ g1 g2
    refine ⟨txt, ?_, q2⟩
    rw [he]
    simp only [prinelm, hget i hi, Option.bind_some]
    exact q1)
  refine ⟨[35, 48 + ds.length, 105] ++ t, ?_, ?_⟩
  · unfold printarray
    rw [hsh, e1, hlen, he]
    simp only [prefixOf, if_pos h7]
  intro rest hrest
  rw [show [35, 48 + ds.length, 105] ++ t ++ rest = 35 :: (48 + ds.length) :: 105 :: (t ++ rest) by simp, readObj_sharp,
    sharp_prefix p.base ds.length 105 _ h7 (by decide) (by decide) (by decide) (by decide), if_neg (by decide), if_pos (by decide),
    withRead_reads p.base t rest _ _ hr hrest]
  obtain ⟨d, ds', rfl⟩ : ∃ d ds', ds = d :: ds' := by
    cases ds with
    | nil => exact absurd rfl hne
    | cons d ds' => exact ⟨d, ds', rfl⟩
  rcases hpos with hz | hpos
  · cases hz
    exact ⟨[0], rfl, by simp [window, total]⟩
  · have htp := total_pos _ hpos
    have hld : listDims (tree (fun i => .int (numOf (v.getD i 0))) (d :: ds') a.off) = some (d :: ds') := by
      refine listDims_tree _ ds' d a.off (by simpa using h7) (hpos d (by simp)) (fun x hx => hpos x (List.mem_cons_of_mem _ hx)) ?_
      intro x y hxy
      cases hxy
    have hput : putAll 0 (els (fun i => .int (numOf (v.getD i 0))) a.off (total (d :: ds'))) (.ints (List.replicate (max 1 (total (d :: ds'))) 0)) =
        some (.ints (window v a.off (d :: ds'))) := by
      rw [els_map]
      have := putAll_ints ((List.range' a.off (total (d :: ds'))).map fun i => numOf (v.getD i 0)) [] (List.replicate (max 1 (total (d :: ds'))) 0) (by
        rw [List.length_map, List.length_range', List.length_replicate]; omega)
      simp only [List.length_nil, List.nil_append] at this
      rw [this, List.drop_eq_nil_of_le (by rw [List.length_map, List.length_range', List.length_replicate]; omega), List.append_nil, els_words v a.off _ hin]
      rfl
    refine ⟨window v a.off (d :: ds'), ?_, ?_⟩
    · simp only [readI, List.length_cons, Nat.add_eq_zero_iff, Nat.one_ne_zero, and_false, if_false, hld, Option.bind_some]
      rw [makeArray_tree .int _ d ds' a.off (by simpa using h7), Ty.make, hput]
      rfl
    · simp [window, List.take_take]

theorem good_word (w : Word) : GoodInt 10 w.toInt := by
  have h1 : -2 ^ 63 ≤ w.toInt ∧ w.toInt < 2 ^ 63 := ⟨BitVec.le_toInt w, BitVec.toInt_lt⟩
  refine ⟨?_, ?_⟩
  · calc w.toInt.natAbs < 10 ^ 20 := by omega
      _ ≤ 10 ^ 1022 := Nat.pow_le_pow_right (by decide) (by decide)
  · show (-2 ^ 31 ≤ w.toInt ∧ w.toInt < 2 ^ 31) ∨ (10 : Int) ^ 7 ≤ w.toInt ∨ w.toInt ≤ -(10 : Int) ^ 6
    omega

theorem ne_min (w : Word) (h : w ≠ 0x8000000000000000#64) : w.toInt ≠ -2 ^ 63 := by
  intro e
  apply h
  apply BitVec.eq_of_toInt_eq
  rw [e]
  decide

/-- #2i((1 -2) (3 4)), with a word that is not a fixnum -/
example : printarray dflt' ⟨.ints [1, -2, 3, 4], [2, 2], none, 0⟩ = some [35, 50, 105, 40, 40, 49, 32, 45, 50, 41, 32, 40, 51, 32, 52, 41, 41] ∧
    ∃ txt, printarray dflt' ⟨.ints [0x4000000000000005#64, -2, 3, 4], [2, 2], none, 0⟩ = some txt ∧ ∀ rest, Delim rest → ∃ v',
      readObj 10 (txt ++ rest) = .ok (.ary ⟨.ints v', [2, 2], none, 0⟩) rest ∧ window v' 0 [2, 2] = [0x4000000000000005#64, -2, 3, 4] := by
  refine ⟨by decide, ?_⟩
  refine C202_integer_array_partial dflt' (by decide) (by decide) ⟨.ints [0x4000000000000005#64, -2, 3, 4], [2, 2], none, 0⟩ _ rfl [2, 2]
    (Or.inr ⟨rfl, Or.inl rfl⟩) ⟨by decide, by decide, Or.inr (by decide)⟩ (by unfold Inside; decide) ?_
  intro w hw
  refine ⟨ne_min w ?_, good_word w⟩
  intro e
  subst e
  revert hw
  decide

/-! ### vectors -/

/-- C202: a vector reads as a vector with the same elements, in order.  Missing: elements outside C54. -/
theorem C202_vector_partial (p : PCfg) (hb : 2 ≤ p.base) (hb' : p.base ≤ 36) (v : List T) (lev : Int) (hl : 0 < p.prlength)
    (hg : ∀ x ∈ v, GoodTree p.base p.prlength x ∧ (depth x : Int) < lev - 1) :
    ∃ txt, printvector p lev (.objs v) = some txt ∧ ∀ rest, readObj p.base (txt ++ rest) = .ok (.vec (.objs v)) rest := by
  obtain ⟨t, e1, hr⟩ := elems_reads p.base (prinelm p (lev - 1) (.objs v)) (fun i => v.getD i NIL) v.length 0 (fun i hi => by
    have hget : v[0 + i]? = some (v.getD (0 + i) NIL) := by
      rw [List.getD_eq_getElem?_getD, List.getElem?_eq_getElem (by omega)]; rfl
    obtain ⟨g1, g2⟩ := hg (v.getD (0 + i) NIL) (List.mem_of_getElem? hget)
    obtain ⟨txt, q1, q2⟩ := readsAs_of_good p hb hb' _ g1 (lev - 1) g2
    refine ⟨txt, ?_, q2⟩
    simp only [prinelm, hget, Option.bind_some]
    exact q1)
  refine ⟨[35, 40] ++ t ++ [41], ?_, ?_⟩
  · simp only [printvector]
    rw [if_neg (by omega), e1]
    rfl
  intro rest
  rw [show [35, 40] ++ t ++ [41] ++ rest = 35 :: 40 :: (t ++ 41 :: rest) by simp, readObj_sharp, sharp_letter _ _ _ (by decide),
    if_neg (by decide), if_neg (by decide), if_pos (by decide), hr rest _ (by simp), els_getD v 0 _ (by omega)]
  simp

/-- #(1 "x" 3) -/
example : printvector dflt' 65536 (.objs [.int (.fix 1), .str [120], .int (.fix 3)]) = some [35, 40, 49, 32, 34, 120, 34, 32, 51, 41] ∧
    ∃ txt, printvector dflt' 65536 (.objs [.int (.fix 1), .str [120], .int (.fix 3)]) = some txt ∧
      ∀ rest, readObj 10 (txt ++ rest) = .ok (.vec (.objs [.int (.fix 1), .str [120], .int (.fix 3)])) rest := by
  refine ⟨by decide, C202_vector_partial dflt' (by decide) (by decide) _ 65536 (by decide) ?_⟩
  intro x hx
  simp only [List.mem_cons, List.not_mem_nil, or_false] at hx
  rcases hx with rfl | rfl | rfl
  · exact ⟨good_small _ (by decide), by decide⟩
  · exact ⟨trivial, by decide⟩
  · exact ⟨good_small _ (by decide), by decide⟩

/-- C202: an integer-vector no longer than *print-length* reads as an integer-vector with the same elements, in order. -/
theorem C202_integer_vector_partial (p : PCfg) (hb : 2 ≤ p.base) (hb' : p.base ≤ 36) (v : List Word) (lev : Int) (hl : v.length ≤ p.prlength)
    (hg : ∀ w ∈ v, w.toInt ≠ -2 ^ 63 ∧ GoodInt p.base w.toInt) :
    ∃ txt, printvector p lev (.ints v) = some txt ∧ ∀ rest, Delim rest → readObj p.base (txt ++ rest) = .ok (.vec (.ints v)) rest := by
  obtain ⟨t, e1, hr⟩ := prinary_reads p.base (prinelm p lev (.ints v)) (fun i => .int (numOf (v.getD i 0))) [v.length] 0 (fun i hi => by
    simp only [total, Nat.mul_one] at hi
    have hget : v[0 + i]? = some (v.getD (0 + i) 0) := by
      rw [List.getD_eq_getElem?_getD, List.getElem?_eq_getElem (by omega)]; rfl
    obtain ⟨g1, g2⟩ := hg (v.getD (0 + i) 0) (List.mem_of_getElem? hget)
    obtain ⟨txt, q1, q2⟩ := word_read p hb hb' _ g1 g2
    refine ⟨txt, ?_, q2⟩
    simp only [prinelm, hget, Option.bind_some]
    exact q1)
  refine ⟨[35, 105] ++ t, ?_, ?_⟩
  · simp only [printvector]
    rw [if_pos hl, elems_rows _ _ _ 0]
    rw [prinary] at e1
    cases hrw : rows (prinary (prinelm p lev (.ints v)) []) v.length 0 0 with
    | none => rw [hrw] at e1; cases e1
    | some r =>
      rw [hrw] at e1
      simp only [Option.some.injEq, Prod.mk.injEq] at e1
      rw [← e1.1]
      simp
  intro rest hrest
  rw [show [35, 105] ++ t ++ rest = 35 :: 105 :: (t ++ rest) by simp, readObj_sharp, sharp_letter _ _ _ (by decide),
    if_neg (by decide), if_pos (by decide), withRead_reads p.base t rest _ _ hr hrest]
  have hc : conses (tree (fun i => T.int (numOf (v.getD i 0))) [v.length] 0) = ((List.range' 0 v.length).map fun i => numOf (v.getD i 0)).map T.int := by
    show conses (rowsT (tree (fun i => T.int (numOf (v.getD i 0))) []) 1 v.length 0) = _
    have htr : tree (fun i => T.int (numOf (v.getD i 0))) [] = fun i => T.int (numOf (v.getD i 0)) := by funext i; rfl
    rw [htr, conses_rowsT_1, els_map]
  simp only [readI, if_true, hc, intVector_map, els_words v 0 v.length (by omega)]
  simp

/-- #i(1 -2 4611686018427387909) -/
example : ∃ txt, printvector dflt' 65536 (.ints [1, -2, 0x4000000000000005#64]) = some txt ∧
    ∀ rest, Delim rest → readObj 10 (txt ++ rest) = .ok (.vec (.ints [1, -2, 0x4000000000000005#64])) rest := by
  refine C202_integer_vector_partial dflt' (by decide) (by decide) _ 65536 (by decide) ?_
  intro w hw
  refine ⟨ne_min w ?_, good_word w⟩
  intro e
  subst e
  revert hw
  decide

theorem bits_take (v : List Bool) (rest : List Nat) (h : ∀ c ∈ rest.head?, c ≠ 48 ∧ c ≠ 49) :
    ((v.map fun b : Bool => if b then 49 else 48) ++ rest).takeWhile (fun c => c = 48 ∨ c = 49) = (v.map fun b : Bool => if b then 49 else 48) ∧
    ((v.map fun b : Bool => if b then 49 else 48) ++ rest).dropWhile (fun c => c = 48 ∨ c = 49) = rest := by
  induction v with
  | nil =>
    cases rest with
    | nil => exact ⟨rfl, rfl⟩
    | cons c rest =>
      have := h c (by simp)
      simp [List.takeWhile_cons, List.dropWhile_cons, this.1, this.2]
  | cons b v ih =>
    simp only [Bool.decide_or] at ih
    cases b <;> simp [List.takeWhile_cons, List.dropWhile_cons, ih.1, ih.2]

/-- C202: a bit-vector reads as the same bit-vector, unless it is empty and nothing follows. -/
theorem C202_bits (p : PCfg) (base : Nat) (lev : Int) (v : List Bool) :
    ∃ txt, printvector p lev (.bits v) = some txt ∧ ∀ rest, Delim rest → (v ≠ [] ∨ rest ≠ []) →
      readObj base (txt ++ rest) = .ok (.vec (.bits v)) rest := by
  refine ⟨_, rfl, ?_⟩
  intro rest hrest hne
  rw [show [35, 42] ++ (v.map fun b : Bool => if b then 49 else 48) ++ rest = 35 :: 42 :: ((v.map fun b : Bool => if b then 49 else 48) ++ rest) by simp,
    readObj_sharp, sharp_letter _ _ _ (by decide), if_neg (by decide), if_neg (by decide), if_neg (by decide), if_pos (by decide)]
  have hd : ∀ c ∈ rest.head?, c ≠ 48 ∧ c ≠ 49 := by
    intro c hc
    have he := hrest c hc
    have h48 : ¬ EndsToken 48 := by unfold EndsToken; decide
    have h49 : ¬ EndsToken 49 := by unfold EndsToken; decide
    exact ⟨fun e => h48 (e ▸ he), fun e => h49 (e ▸ he)⟩
  have hb := bits_take v rest hd
  cases hs : (v.map fun b : Bool => if b then 49 else 48) ++ rest with
  | nil =>
    simp only [List.append_eq_nil_iff, List.map_eq_nil_iff] at hs
    rcases hne with h | h
    · exact absurd hs.1 h
    · exact absurd hs.2 h
  | cons c s =>
    rw [hs] at hb
    simp only [readBits, hb.1, hb.2]
    congr 3
    rw [List.map_map]
    conv_rhs => rw [← List.map_id v]
    apply List.map_congr_left
    intro b _
    cases b <;> rfl

/-- #*1101 -/
example : printvector dflt' 65536 (.bits [true, true, false, true]) = some [35, 42, 49, 49, 48, 49] ∧
    readObj 10 [35, 42, 49, 49, 48, 49, 32] = .ok (.vec (.bits [true, true, false, true])) [32] := by decide

/-! ### where it fails -/

/-- C202 fails: an array with a dimension 0 reads back with one dimension. -/
theorem C202_empty_wrong :
    printarray dflt' ⟨.objs [NIL], [0, 3], none, 0⟩ = some [35, 50, 97, 40, 41] ∧
    readObj 10 [35, 50, 97, 40, 41] = .ok (.ary ⟨.objs [NIL], [0], none, 0⟩) [] ∧
    printarray dflt' ⟨.objs [NIL], [2, 0], none, 0⟩ = some [35, 50, 97, 40, 40, 41, 32, 40, 41, 41] ∧
    readObj 10 [35, 50, 97, 40, 40, 41, 32, 40, 41, 41] = .ok (.ary ⟨.objs [NIL, NIL], [2], none, 0⟩) [] := by
  refine ⟨by decide, by decide, by decide, by decide⟩

/-- C202 fails: the number before the A is not looked at.  A vector (an array of one dimension) whose first element is a list reads back with two dimensions, or is an error. -/
theorem C202_list_wrong :
    printarray dflt' ⟨.objs [.cons (.int (.fix 1)) (.cons (.int (.fix 2)) NIL)], [1], none, 0⟩ = some [35, 49, 97, 40, 40, 49, 32, 50, 41, 41] ∧
    readObj 10 [35, 49, 97, 40, 40, 49, 32, 50, 41, 41] = .ok (.ary ⟨.objs [.int (.fix 1), .int (.fix 2)], [1, 2], none, 0⟩) [] ∧
    printarray dflt' ⟨.objs [.cons (.int (.fix 1)) NIL, .int (.fix 3)], [2], none, 0⟩ = some [35, 49, 97, 40, 40, 49, 41, 32, 51, 41] ∧
    readObj 10 [35, 49, 97, 40, 40, 49, 41, 32, 51, 41] = .err := by
  refine ⟨by decide, by decide, by decide, by decide⟩

/-- C202 fails: arrays of characters or bits read back as ordinary arrays. -/
theorem C202_type_wrong :
    printarray dflt' ⟨.bits [true, false], [2], none, 0⟩ = some [35, 49, 97, 40, 49, 32, 48, 41] ∧
    readObj 10 [35, 49, 97, 40, 49, 32, 48, 41] = .ok (.ary ⟨.objs [.int (.fix 1), .int (.fix 0)], [2], none, 0⟩) [] ∧
    printarray dflt' ⟨.chars [97], [1], none, 0⟩ = some [35, 49, 97, 40, 57, 55, 41] ∧
    readObj 10 [35, 49, 97, 40, 57, 55, 41] = .ok (.ary ⟨.objs [.int (.fix 97)], [1], none, 0⟩) [] := by
  refine ⟨by decide, by decide, by decide, by decide⟩

/-- C202 fails: an empty bit-vector at the end of the stream is not read. -/
theorem C202_no_bits_wrong : printvector dflt' 65536 (.bits []) = some [35, 42] ∧ readObj 10 [35, 42] = .err := by decide

theorem elems_congr (e e' : Nat → Option (List Nat)) : ∀ (k i : Nat), (∀ j, i ≤ j → j < i + k → e j = e' j) → elems e k i = elems e' k i
  | 0, _, _ => rfl
  | k + 1, i, h => by
    rw [elems, elems, h i (by omega) (by omega), elems_congr e e' k (i + 1) (fun j h1 h2 => h j (by omega) (by omega))]

/-- C202 fails: of an integer-vector longer than *print-length* only the beginning is printed: integer-vectors that differ have the same text. -/
theorem C202_long_wrong (p : PCfg) (lev : Int) (v : List Word) (hv : v.length = p.prlength) (x y : Word) (r r' : List Word) :
    printvector p lev (.ints (v ++ x :: r)) = printvector p lev (.ints (v ++ y :: r')) := by
  simp only [printvector, List.length_append, List.length_cons]
  rw [if_neg (by omega), if_neg (by omega)]
  congr 1
  apply elems_congr
  intro j _ h2
  simp only [prinelm]
  rw [List.getElem?_append_left (by omega), List.getElem?_append_left (by omega)]

end Eus.Ary
