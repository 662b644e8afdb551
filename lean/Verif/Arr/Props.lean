import Verif.Arr.Proofs
set_option autoImplicit false
set_option maxRecDepth 4000
/-! Properties of arrays, bit vectors, fill pointers and vector replacement: C42, C43, C44, C64, C71, C75-C77. -/
namespace Eus.Arr
open Eus.Num
variable {α : Type}

/-! ### C42: arrays -/

/-- C42.  With valid subscripts `aref` returns the element at the row-major position. -/
theorem C42_aref (a : Ary α) (hw : a.WF) (is : List Int) (h : Valid a.dims is) :
    ∃ x, a.entity[(a.offset + rowMajor a.dims is).toNat]? = some x ∧ AREF a is = .ok x := by
  have hb := rowMajor_bounds h
  have := hw.off; have := hw.inside
  have hlt : (a.offset + rowMajor a.dims is).toNat < a.entity.length := by omega
  refine ⟨a.entity[(a.offset + rowMajor a.dims is).toNat], List.getElem?_eq_getElem hlt, ?_⟩
  unfold AREF
  rw [arrayindex_valid hw h]
  simp only [vref]
  rw [if_neg (by omega), Int.add_comm, List.getElem?_eq_getElem hlt]

/-- C42.  With valid subscripts `aset` succeeds; afterwards `aref` returns the new value at these subscripts
and the old one at all other valid subscripts. -/
theorem C42_aset_aref (a : Ary α) (hw : a.WF) (is : List Int) (h : Valid a.dims is) (x : α) :
    ∃ a', ASET a is x = .ok a' ∧ a'.WF ∧ a'.dims = a.dims ∧ a'.entity.length = a.entity.length ∧
      AREF a' is = .ok x ∧ ∀ js, Valid a.dims js → js ≠ is → AREF a' js = AREF a js := by
  have hb := rowMajor_bounds h
  have o := hw.off; have ins := hw.inside
  have hlt : (rowMajor a.dims is + a.offset).toNat < a.entity.length := by omega
  have hw' : ({ a with entity := a.entity.set (rowMajor a.dims is + a.offset).toNat x } : Ary α).WF :=
    ⟨hw.small, hw.off, by simpa using hw.inside, by simpa using hw.size⟩
  refine ⟨{ a with entity := a.entity.set (rowMajor a.dims is + a.offset).toNat x }, ?_, hw', rfl, by simp, ?_, ?_⟩
  · unfold ASET
    rw [arrayindex_valid hw h]
    simp only [vset]
    rw [if_neg (by omega)]
  · unfold AREF
    rw [arrayindex_valid hw' h]
    simp only [vref, List.length_set]
    rw [if_neg (by omega), List.getElem?_set_self hlt]
  · intro js hj hne
    have hbj := rowMajor_bounds hj
    have hne' : rowMajor a.dims is ≠ rowMajor a.dims js := fun e => hne (rowMajor_inj h hj e).symm
    unfold AREF
    rw [arrayindex_valid hw' hj, arrayindex_valid hw hj]
    simp only [vref, List.length_set]
    rw [List.getElem?_set_ne (by omega)]

/-- C42, partial.  With non-negative subscripts (below 2^31) that are not valid, `aref` and `aset` signal an error.
Missing: negative subscripts and subscripts of 2^31 or more, see below; arrays with a dimension 0 and huge others. -/
theorem C42_error_partial (a : Ary α) (hw : a.WF) (hd : ∀ d ∈ a.dims, 0 < d) (is : List Int)
    (hi : ∀ i ∈ is, 0 ≤ i ∧ i < 2 ^ 31) (h : ¬ Valid a.dims is) (x : α) :
    AREF a is = .err ∧ ASET a is x = .err := by
  have key : arrayindex a is = .err := by
    unfold arrayindex
    split_ifs with hl
    · rfl
    · rw [indexLoop_bad (by simpa using hl) hd hi h 0 (le_refl _) (by have := hw.small; omega)]
  unfold AREF ASET
  rw [key]
  exact ⟨rfl, rfl⟩

/-- A 2 by 3 matrix displaced by 1 into a vector of 8. -/
def exAry : Ary Nat := ⟨[0, 1, 2, 3, 4, 5, 6, 7], 1, [2, 3]⟩
example : exAry.WF := ⟨by decide, by decide, by decide, by decide⟩
example : Valid exAry.dims [1, 2] := by simp [exAry, Valid]
example : AREF exAry [1, 2] = .ok 6 ∧ AREF exAry [1, 3] = .err ∧ AREF exAry [1] = .err := by decide
example : ¬ Valid exAry.dims [1, 3] := by simp [exAry, Valid]

/-- C42 fails for negative subscripts: `(aref m 1 -1)` returns the element (0,2) of a 2 by 3 matrix, and
`(setf (aref m 1 -1) x)` stores there. -/
theorem C42_negative_subscript_wrong :
    AREF (⟨[0, 1, 2, 3, 4, 5], 0, [2, 3]⟩ : Ary Nat) [1, -1] = .ok 2 ∧
    ∃ a, ASET (⟨[0, 1, 2, 3, 4, 5], 0, [2, 3]⟩ : Ary Nat) [1, -1] 9 = .ok a ∧ a.entity = [0, 1, 9, 3, 4, 5] :=
  ⟨by decide, ⟨[0, 1, 9, 3, 4, 5], 0, [2, 3]⟩, rfl, rfl⟩

/-- C42 fails for large subscripts: `(aref v 4294967296)` is `(aref v 0)`, of vectors and arrays. -/
theorem C42_large_subscript_wrong :
    AREFvec [7, 8] (2 ^ 32) = .ok 7 ∧ AREF (⟨[0, 1, 2, 3, 4, 5], 0, [2, 3]⟩ : Ary Nat) [1, 2 ^ 32] = .ok 3 := by
  decide

/-- C42 on vectors: subscripts below 2^31 in absolute value are checked, and `aset` changes one element. -/
theorem C42_vector (v : List α) (hv : (v.length : Int) < 2 ^ 31) (i : Int) (hi : -2 ^ 31 ≤ i ∧ i < 2 ^ 31) (x : α) :
    ((i < 0 ∨ (v.length : Int) ≤ i) → AREFvec v i = .err ∧ ASETvec v i x = .err) ∧
    (0 ≤ i ∧ i < v.length → (∃ y, v[i.toNat]? = some y ∧ AREFvec v i = .ok y) ∧
      ∃ v', ASETvec v i x = .ok v' ∧ v'.length = v.length ∧
        ∀ j : Int, 0 ≤ j → j < v.length → AREFvec v' j = if j = i then .ok x else AREFvec v j) := by
  unfold AREFvec ASETvec
  rw [int32_eq i hi.1 hi.2]
  constructor
  · intro h
    simp only [vref, vset]
    rw [if_pos h, if_pos h]
    exact ⟨rfl, rfl⟩
  · intro h
    have hlt : i.toNat < v.length := by omega
    refine ⟨⟨v[i.toNat], List.getElem?_eq_getElem hlt, ?_⟩, v.set i.toNat x, ?_, by simp, ?_⟩
    · simp only [vref]
      rw [if_neg (by omega), List.getElem?_eq_getElem hlt]
    · simp only [vset]
      rw [if_neg (by omega)]
    · intro j hj0 hj
      rw [int32_eq j (by omega) (by omega)]
      simp only [vref, List.length_set]
      have hr : ¬ (j < 0 ∨ (v.length : Int) ≤ j) := by omega
      rw [if_neg hr, if_neg hr]
      split_ifs with e
      · subst e
        rw [List.getElem?_set_self hlt]
      · rw [List.getElem?_set_ne (by omega)]

example : AREFvec [7, 8, 9] 2 = .ok 9 ∧ AREFvec [7, 8, 9] 3 = .err ∧ AREFvec [7, 8, 9] (-1) = .err := by decide

/-! ### C77: initial contents -/

/-- C77.  Filling an array of dimensions `d :: ds` from nested sequences of that shape puts every element where
`aref` with its subscripts finds it. -/
theorem C77_initial_contents (d : Nat) (ds : List Nat) (s : Nest α (ds.length + 1)) (hs : Shaped (d :: ds) s)
    (nil : α) (hsmall : max 1 (d :: ds).prod < 2 ^ 31) :
    ∃ vec, fillInitial ds d s 0 (List.replicate (max 1 (d :: ds).prod) nil) = some vec ∧
      ∀ is : List Nat, List.Forall₂ (fun d i => i < d) (d :: ds) is →
        ∃ x, nestGet (ds.length + 1) s is = some x ∧
          AREF ⟨vec, 0, (d :: ds).map Int.ofNat⟩ (is.map Int.ofNat) = .ok x := by
  have hp : (d :: ds).prod = d * ds.prod := List.prod_cons
  rw [fillInitial_eq ds d s 0 _ hs (by rw [List.length_replicate, hp]; omega)]
  refine ⟨_, rfl, fun is h => ?_⟩
  have hlen := flat_length (d :: ds) s hs
  have hget := flat_get (d :: ds) s is hs h
  have hlt := rmN_lt _ _ h
  have hv : Valid ((d :: ds).map Int.ofNat) (is.map Int.ofNat) := by
    unfold Valid
    rw [List.forall₂_map_left_iff, List.forall₂_map_right_iff]
    refine h.imp ?_
    intro a b hab
    exact ⟨Int.natCast_nonneg _, Int.ofNat_lt.2 hab⟩
  simp only [List.take_zero, List.nil_append]
  have hL : (flat (ds.length + 1) s ++
      List.drop (0 + d * ds.prod) (List.replicate (max 1 (d :: ds).prod) nil)).length = max 1 (d :: ds).prod := by
    rw [List.length_append, List.length_drop, List.length_replicate]
    change (flat (ds.length + 1) s).length = _ at hlen
    rw [hlen, hp]; omega
  obtain ⟨x, hx, ha⟩ := C42_aref ⟨flat (ds.length + 1) s ++
      List.drop (0 + d * ds.prod) (List.replicate (max 1 (d :: ds).prod) nil), 0, (d :: ds).map Int.ofNat⟩
    ⟨by rw [prod_ofNat]; omega, le_refl _, by simp only; rw [prod_ofNat]; omega, by simp only; omega⟩ _ hv
  refine ⟨x, ?_, ha⟩
  simp only at hx
  rw [rmN_rowMajor] at hx
  rw [show ((0 : Int) + (rmN (d :: ds) is : Int)).toNat = rmN (d :: ds) is by omega] at hx
  change (flat (ds.length + 1) s).length = _ at hlen
  change (flat (ds.length + 1) s)[_]? = _ at hget
  rw [List.getElem?_append_left (by omega), hget] at hx
  exact hx

/-- The contents `((1 2 3) (4 5 6))`. -/
def exNest : Nest Nat 2 := ([[1, 2, 3], [4, 5, 6]] : List (List Nat))
example : Shaped [2, 3] exNest := by
  refine ⟨rfl, fun t ht => ?_⟩
  have : t = ([1, 2, 3] : List Nat) ∨ t = ([4, 5, 6] : List Nat) := by
    have h : ∀ t ∈ ([[1, 2, 3], [4, 5, 6]] : List (List Nat)), t = [1, 2, 3] ∨ t = [4, 5, 6] := by decide
    exact h t ht
  rcases this with rfl | rfl <;> exact ⟨rfl, fun _ _ => trivial⟩
example : fillInitial [3] 2 exNest 0 (List.replicate 6 0) = some [1, 2, 3, 4, 5, 6] := by decide

/-- C77 fails for contents of another shape: a short row is accepted, and leaves elements unset. -/
theorem C77_short_row_wrong :
    fillInitial [3] 2 (show Nest Nat 2 from ([[1, 2], [4, 5, 6]] : List (List Nat))) 0 (List.replicate 6 0) =
      some [1, 2, 0, 4, 5, 6] := by decide

/-! ### C75: typed vectors -/

/-- C75.  An integer of 64 bits stored in an integer-vector is read back; other elements do not change. -/
theorem C75_integer_vector (v : List Word) (n : Int) (hn : 0 ≤ n ∧ n < v.length) (x : Num) (hc : x.Canonical)
    (hx : -2 ^ 63 ≤ x.val ∧ x.val < 2 ^ 63) :
    ∃ v', ivset v n x = .ok v' ∧ (∃ y, ivref v' n = .ok y ∧ y.val = x.val) ∧
      ∀ m : Int, m ≠ n → ivref v' m = ivref v m := by
  have hlt : n.toNat < v.length := by omega
  refine ⟨v.set n.toNat (bigintval x), ?_, ⟨mkbigint (bigintval x), ?_, ?_⟩, ?_⟩
  · simp only [ivset]; rw [if_neg (by omega)]
  · simp only [ivref, vref, List.length_set]
    rw [if_neg (by omega), List.getElem?_set_self hlt]
  · rw [mkbigint_val, bigintval_val x hc hx]
  · intro m hm
    simp only [ivref, vref, List.length_set]
    by_cases h : m < 0 ∨ (v.length : Int) ≤ m
    · rw [if_pos h, if_pos h]
    · rw [if_neg h, if_neg h, List.getElem?_set_ne (by omega)]

example : (Num.big [2#64 ^ 62]).val = 2 ^ 62 := by decide
example : ivset [0#64, 0#64] 1 (.big [2#64 ^ 62]) = .ok [0#64, 2#64 ^ 62] := by decide

/-- C75 fails for larger integers: 2^64 is stored as 0 without an error. -/
theorem C75_integer_vector_wrong :
    (Num.big [0#64, 2#64]).val = 2 ^ 64 ∧ ivset [7#64] 0 (.big [0#64, 2#64]) = .ok [0#64] := by decide

/-- C75.  A fixnum stored in a string is read back modulo 256. -/
theorem C75_string (v : List (BitVec 8)) (n : Int) (hn : 0 ≤ n ∧ n < v.length) (w : Word) :
    ∃ v', cvset v n (.fix w) = .ok v' ∧ (∃ y, cvref v' n = .ok y ∧ y.val = (Num.fix w).val % 256) ∧
      ∀ m : Int, m ≠ n → cvref v' m = cvref v m := by
  have hlt : n.toNat < v.length := by omega
  refine ⟨v.set n.toNat (w.setWidth 8), ?_, ⟨makeint ((w.setWidth 8).setWidth 64), ?_, ?_⟩, ?_⟩
  · simp only [cvset, ckintval]; rw [if_neg (by omega)]
  · simp only [cvref, vref, List.length_set]
    rw [if_neg (by omega), List.getElem?_set_self hlt]
  · rw [makeint_val]
    show _ = w.toInt % 256
    rw [BitVec.toInt_eq_toNat_bmod, BitVec.toNat_setWidth, BitVec.toNat_setWidth, BitVec.toInt_eq_toNat_bmod,
      Int.bmod_def, Int.bmod_def]
    have := w.isLt
    split_ifs <;> omega
  · intro m hm
    simp only [cvref, vref, List.length_set]
    by_cases h : m < 0 ∨ (v.length : Int) ≤ m
    · rw [if_pos h, if_pos h]
    · rw [if_neg h, if_neg h, List.getElem?_set_ne (by omega)]

example : cvset [0#8, 1#8] 1 (.fix 300#64) = .ok [0#8, 44#8] := by decide

/-! ### C43: bit vectors -/

/-- C43.  `setbit` of a valid index changes that bit to the lowest bit of the value and no other; other indices
are errors for `bit` and `setbit`. -/
theorem C43_setbit_bit (v : BV) (hw : v.WF) (n : Nat) (val : Word) :
    (v.size ≤ n → BIT v n = .err ∧ SETBIT v n val = .err) ∧
    (n < v.size → (∃ b, BIT v n = .ok b) ∧ ∃ v', SETBIT v n val = .ok v' ∧ v'.WF ∧ v'.size = v.size ∧
      BIT v' n = .ok (decide (val.toInt % 2 = 1)) ∧ ∀ m, m ≠ n → BIT v' m = BIT v m) := by
  constructor
  · intro h
    unfold BIT SETBIT
    rw [if_pos h, if_pos h]
    exact ⟨rfl, rfl⟩
  · intro h
    obtain ⟨h1, h2, h3⟩ := fastvset_bit v hw n h val
    refine ⟨⟨_, BIT_eq v n h⟩, _, SETBIT_eq v n val h, h1, h2, ?_, ?_⟩
    · rw [h3 n h, if_pos rfl]
      congr 1
      rw [BitVec.toInt_eq_toNat_bmod, Int.bmod_def]
      have e : val.getLsbD 0 = decide (val.toNat % 2 = 1) := by
        rw [BitVec.getLsbD, Nat.testBit_zero]
      rw [e, Bool.eq_iff_iff, decide_eq_true_eq, decide_eq_true_eq]
      split_ifs <;> omega
    · intro m hm
      by_cases hms : m < v.size
      · rw [h3 m hms, if_neg hm]
      · unfold BIT
        rw [h2, if_pos (by omega), if_pos (by omega)]

example : (BV.make 70).WF := rfl
example : SETBIT (BV.make 70) 69 1 = .ok ⟨[0#64, 32#64], 70⟩ ∧ BIT ⟨[0#64, 32#64], 70⟩ 69 = .ok true ∧
    BIT ⟨[0#64, 32#64], 70⟩ 68 = .ok false ∧ SETBIT (BV.make 70) 70 1 = .err := by decide

theorem viaInt_getLsbD (w : Word) (i : Nat) (hi : i < 64) : (viaInt w).getLsbD i = w.getLsbD (min i 31) := by
  unfold viaInt
  rw [BitVec.getLsbD_signExtend]
  simp only [hi, decide_true, Bool.true_and, BitVec.getLsbD_setWidth]
  split_ifs with h
  · rw [show min i 31 = i by omega]; simp [h]
  · rw [show min i 31 = 31 by omega, BitVec.msb_eq_getLsbD_last]
    simp

/-- C43, partial.  What `(setf (aref v n) val)` does to a bit vector: with `k` the position of the bit in its
64-bit word, it is right if `k < 31`; if `k = 31` it also sets the bits up to the end of the word; if `k > 31` it
does nothing.  Missing: the property, for the last 33 bits of every 64. -/
theorem C43_aset_bit_partial (v : BV) (hw : v.WF) (n : Nat) (hn : n < v.size) (val : Word) :
    ∃ v', vsetBit v n val = .ok v' ∧ v'.WF ∧ v'.size = v.size ∧ ∀ m < v.size,
      BIT v' m = if m / 64 = n / 64 ∧ min (m % 64) 31 = n % 64 then .ok (val.getLsbD 0) else BIT v m := by
  have hk : n % 64 < 64 := Nat.mod_lt _ (by omega)
  have hlen : n / 64 < v.words.length := by rw [hw]; omega
  have hstep : vsetBit v n val = .ok ⟨v.words.set (n / 64)
      ((v.words.getD (n / 64) 0 &&& ~~~(viaInt (1#64 <<< (n % 64)))) ||| viaInt ((val &&& 1#64) <<< (n % 64))),
      v.size⟩ := by
    unfold vsetBit
    rw [if_neg (by omega)]
  refine ⟨_, hstep, ?_, rfl, fun m hm => ?_⟩
  · simp only [BV.WF, List.length_set]; exact hw
  · rw [BIT_eq _ _ (by exact hm), BIT_eq _ _ hm]
    simp only
    by_cases e : n / 64 = m / 64
    · rw [← e, List.getD_eq_getElem?_getD, List.getElem?_set_self hlen, Option.getD_some]
      have hmk : m % 64 < 64 := Nat.mod_lt _ (by omega)
      rw [BitVec.getLsbD_or, BitVec.getLsbD_and, BitVec.getLsbD_not, viaInt_getLsbD _ _ hmk, viaInt_getLsbD _ _ hmk,
        shl1_getLsbD _ _ hk, BitVec.getLsbD_shiftLeft, BitVec.getLsbD_and, BitVec.getLsbD_one]
      by_cases h : min (m % 64) 31 = n % 64
      · rw [if_pos ⟨rfl, h⟩, ← h]
        have h64 : m % 64 < 64 := hmk
        have h31 : min (m % 64) 31 < 64 := by omega
        simp [h31]
      · rw [if_neg (fun hc => h hc.2)]
        have h0 : ¬ (min (m % 64) 31 - n % 64 = 0 ∧ ¬ min (m % 64) 31 < n % 64) := by omega
        simp only [h, decide_false, Bool.not_false, hmk, decide_true, Bool.and_true]
        by_cases hlt : min (m % 64) 31 < n % 64
        · simp [hlt]
        · have hne : ¬ min (m % 64) 31 - n % 64 = 0 := by omega
          simp [hne]
    · have hne : ¬ (m / 64 = n / 64 ∧ min (m % 64) 31 = n % 64) := fun hc => e hc.1.symm
      rw [if_neg hne, List.getD_eq_getElem?_getD, List.getElem?_set_ne e, ← List.getD_eq_getElem?_getD]

/-- C43 fails for `(setf (aref v n) 1)`: with n = 40 nothing is stored, with n = 31 bit 50 is set as well. -/
theorem C43_aset_bit_wrong :
    (∃ v, vsetBit (BV.make 64) 40 1 = .ok v ∧ BIT v 40 = .ok false) ∧
    (∃ v, vsetBit (BV.make 64) 31 1 = .ok v ∧ BIT v 50 = .ok true) :=
  ⟨⟨⟨[0#64], 64⟩, by decide, by decide⟩, ⟨⟨[0xffffffff80000000#64], 64⟩, by decide, by decide⟩⟩

/-! ### C76: operations on bit vectors -/

/-- C76.  The bit-vector functions work bit by bit; the result is as long as the arguments. -/
theorem C76_bitwise (a b : BV) (hs : a.size = b.size) :
    ∀ fg ∈ [(BITAND, and), (BITIOR, or), (BITXOR, xor), (BITEQV, fun x y => !(xor x y)),
      (BITNAND, fun x y => !(and x y)), (BITNOR, fun x y => !(or x y))],
      ∃ r, fg.1 a b = .ok r ∧ r.WF ∧ r.size = a.size ∧
        ∀ m < a.size, ∃ x y, BIT a m = .ok x ∧ BIT b m = .ok y ∧ BIT r m = .ok (fg.2 x y) := by
  intro fg h
  simp only [List.mem_cons, List.not_mem_nil, or_false] at h
  rcases h with rfl | rfl | rfl | rfl | rfl | rfl
  · exact bitop_bit _ _ (fun x y i _ => BitVec.getLsbD_and) a b hs
  · exact bitop_bit _ _ (fun x y i _ => BitVec.getLsbD_or) a b hs
  · exact bitop_bit _ _ (fun x y i _ => BitVec.getLsbD_xor) a b hs
  · refine bitop_bit (fun x y => ~~~(x ^^^ y)) (fun x y => !(xor x y)) (fun x y i hi => ?_) a b hs
    rw [BitVec.getLsbD_not, BitVec.getLsbD_xor]; simp [hi]
  · refine bitop_bit (fun x y => ~~~(x &&& y)) (fun x y => !(and x y)) (fun x y i hi => ?_) a b hs
    rw [BitVec.getLsbD_not, BitVec.getLsbD_and]; simp [hi]
  · refine bitop_bit (fun x y => ~~~(x ||| y)) (fun x y => !(or x y)) (fun x y i hi => ?_) a b hs
    rw [BitVec.getLsbD_not, BitVec.getLsbD_or]; simp [hi]

/-- C76.  Arguments of different lengths are errors. -/
theorem C76_size_error (a b : BV) (hs : a.size ≠ b.size) :
    ∀ f ∈ [BITAND, BITIOR, BITXOR, BITEQV, BITNAND, BITNOR], f a b = .err := by
  intro f h
  simp only [List.mem_cons, List.not_mem_nil, or_false] at h
  rcases h with rfl | rfl | rfl | rfl | rfl | rfl <;> exact if_pos hs

/-- C76.  `bit-not` inverts every bit. -/
theorem C76_bit_not (a : BV) : (BITNOT a).WF ∧ (BITNOT a).size = a.size ∧
    ∀ m < a.size, ∃ x, BIT a m = .ok x ∧ BIT (BITNOT a) m = .ok (!x) := by
  refine ⟨by simp [BITNOT, BV.WF], rfl, fun m hm => ⟨_, BIT_eq a m hm, ?_⟩⟩
  rw [BIT_eq _ _ (by exact hm)]
  congr 1
  have hlt : m / 64 < (a.size + 63) / 64 := by omega
  have hk : m % 64 < 64 := Nat.mod_lt _ (by omega)
  simp only [BITNOT, List.getD_eq_getElem?_getD, List.getElem?_map, List.getElem?_range hlt, Option.map_some,
    Option.getD_some, BitVec.getLsbD_not]
  simp [hk]

example : BITXOR ⟨[5#64], 3⟩ ⟨[6#64], 3⟩ = .ok ⟨[3#64], 3⟩ ∧ BITAND ⟨[5#64], 3⟩ ⟨[6#64], 4⟩ = .err := by decide

/-- C76 fails in that the words of the result may have ones beyond its length, so that bit vectors with the same
bits have different words, as compared by `equal`: `(bit-not #*1)` and `#*0`. -/
theorem C76_padding_wrong :
    BITNOT ⟨[1#64], 1⟩ ≠ ⟨[0#64], 1⟩ ∧ ∀ m < 1, BIT (BITNOT ⟨[1#64], 1⟩) m = BIT ⟨[0#64], 1⟩ m := by decide

/-! ### C64: fill of bit vectors -/

/-- C64, partial.  `fill` of a bit vector with 0 or an odd number sets the bits from start to end and no other.
Missing: other even numbers, see below. -/
theorem C64_fill_bits_partial (v : BV) (hw : v.WF) (item : Word) (h : item = 0 ∨ item.getLsbD 0 = true)
    (start stop m : Nat) (hm : m < v.size) :
    BIT (fillBits v item start stop) m =
      if start ≤ m ∧ m < stop then .ok (item.getLsbD 0) else BIT v m := by
  have := (fillBits_upd v hw item h start stop).2.2 m hm
  split_ifs with hc
  · exact this.1 hc
  · exact this.2 hc

example : fillBits (BV.make 70) 1 3 69 = ⟨[~~~7#64, 31#64], 70⟩ := by decide

/-- C64 fails for even items: filling with 2 clears the bits outside whole words and sets the bits of whole words. -/
theorem C64_fill_bits_wrong : fillBits ⟨[0#64, 3#64], 66⟩ 2 0 66 = ⟨[~~~0#64, 0#64], 66⟩ := by decide

/-! ### C44: fill pointers -/

/-- C44, partial.  A vector with fill pointer, of at least one element and not displaced, is a stack with a
capacity: after any sequence of calls the elements below the fill pointer are the stack, `aref` returns them,
`vector-pop` returns the last one pushed and is an error only on the empty stack, and `vector-push` is an error
exactly if the stack is full.  Missing: dimension 0 and displaced arrays, see below. -/
theorem C44_stack_partial (nil : α) (dim fp : Nat) (hd : 0 < dim) (hf : fp ≤ dim) (ops : List (FOp α)) :
    let a := ops.foldl (fstep nil) (FArr.make nil dim fp)
    let s := ops.foldl stackStep (List.replicate fp nil, dim)
    a.fp = s.1.length ∧ (∀ i < a.fp, a.aref i = s.1[i]?) ∧
    (a.pop.map (·.1) = s.1.getLast?) ∧ (∀ x, a.push x = none ↔ s.1.length = s.2) ∧
    (∀ x, a.pushExtend nil x ≠ none) := by
  intro a s
  have h : Holds a s := (make_holds nil dim fp hd hf).run ops
  clear_value a s
  obtain ⟨h1, h2, h3, h4, h5, h6, h7⟩ := h
  refine ⟨h5, ?_, ?_, ?_, ?_⟩
  · intro i hi
    rw [FArr.aref, if_neg (by omega), h1, Nat.add_zero, ← h7, List.getElem?_take_of_lt hi]
  · rw [FArr.pop, List.getLast?_eq_getElem?, ← h5]
    split_ifs with hc
    · have : s.1 = [] := List.length_eq_zero_iff.1 (by omega)
      simp [this]
    · rw [h1, Nat.add_zero, Option.map_map, ← h7, List.getElem?_take_of_lt (by omega)]
      cases a.entity[a.fp - 1]? <;> rfl
  · intro x
    rw [FArr.push, h1, Nat.add_zero]
    split_ifs with hc
    · simp; omega
    · simp; omega
  · intro x
    simp only [FArr.pushExtend]
    by_cases hg : a.fp ≥ a.entity.length
    · simp only [if_pos hg]
      rw [if_pos (by simp; omega)]
      simp
    · simp only [if_neg hg]
      rw [if_pos (by omega)]
      simp

example : (([.push 5, .pushExtend 6, .pushExtend 7, .pop, .push 8] : List (FOp Nat)).foldl (fstep 0)
    (FArr.make 0 1 0)).entity.take 3 = [5, 6, 8] := by decide
example : (([.push 5, .pushExtend 6, .pushExtend 7, .pop, .push 8] : List (FOp Nat)).foldl stackStep
    ([], 1)) = ([5, 6, 8], 4) := by decide

/-- C44 fails for `(make-array '(0) :fill-pointer 0)`: after `vector-push-extend` of 5 the fill pointer is 1,
but `(aref a 0)` is an error. -/
theorem C44_dimension_zero_wrong :
    ((FArr.make 0 0 0).pushExtend 0 5).map (fun a => (a.fp, a.aref 0)) = some (1, none) := by decide

/-- C44 fails for displaced arrays: `vector-push-extend` stores at the fill pointer without the offset, and so
overwrites what lies before; the value pushed is not the one popped. -/
theorem C44_displaced_wrong :
    ((⟨[1, 2, 3, 4], 2, 2, 0⟩ : FArr Nat).pushExtend 0 9).map (fun a => (a.entity, a.pop.map (·.1))) =
      some ([9, 2, 3, 4], some 3) := by decide

/-! ### C71: replace, vectors -/

/-- C71.  `replace` of vectors of one element type, for ranges inside the vectors that do not overlap in one
vector: the elements from `ss` are copied to `ds`, as many as fit both ranges; no other element changes. -/
theorem C71_vectors (same : Bool) (dest src : List α) (ds de ss se : Nat) (hd : ds ≤ de) (hd' : de ≤ dest.length)
    (hs : ss ≤ se) (hs' : se ≤ src.length)
    (hover : same = true → de ≤ ss ∨ se ≤ ds) :
    ∃ r, vecReplace same dest src ds de ss se = .ok r ∧ r.length = dest.length ∧ ∀ i, i < dest.length →
      r[i]? = if ds ≤ i ∧ i < ds + min (de - ds) (se - ss) then src[ss + (i - ds)]? else dest[i]? := by
  refine ⟨dest.take ds ++ (src.drop ss).take (min (de - ds) (se - ss)) ++ dest.drop (ds + min (de - ds) (se - ss)),
    ?_, ?_, ?_⟩
  · simp only [vecReplace]
    rw [if_neg (by omega), if_neg (by omega), if_neg]
    rintro ⟨h1, h2, h3, h4⟩
    have := hover h1
    omega
  · simp; omega
  · intro i hi
    rw [List.append_assoc, List.getElem?_append, List.getElem?_append]
    simp only [List.length_take, List.length_drop, List.getElem?_take, List.getElem?_drop]
    have e1 : min ds dest.length = ds := by omega
    have e2 : min (min (de - ds) (se - ss)) (src.length - ss) = min (de - ds) (se - ss) := by omega
    rw [e1, e2]
    by_cases h1 : i < ds
    · rw [if_pos h1, if_pos h1, if_neg (by omega)]
    · rw [if_neg h1]
      by_cases h2 : i - ds < min (de - ds) (se - ss)
      · rw [if_pos h2, if_pos h2, if_pos (by omega)]
      · rw [if_neg h2, if_neg (by omega)]
        congr 1; omega

/-- C71.  `replace` of vectors of different element types: the same, with each element coerced. -/
theorem C71_vectors_coerced {β : Type} (co : α → β) (dest : List β) (src : List α) (ds de ss se : Nat) (hd : ds ≤ de)
    (hd' : de ≤ dest.length) (hs : ss ≤ se) (hs' : se ≤ src.length) :
    ∃ r, vecReplaceGeneral co dest src ds de ss se = .ok r ∧ r.length = dest.length ∧ ∀ i, i < dest.length →
      r[i]? = if ds ≤ i ∧ i < ds + min (de - ds) (se - ss) then (src[ss + (i - ds)]?).map co else dest[i]? := by
  have hl : (((src.drop ss).take (min (de - ds) (se - ss))).map co).reverse.length = min (de - ds) (se - ss) := by
    simp; omega
  refine ⟨dest.take ds ++ ((src.drop ss).take (min (de - ds) (se - ss))).map co ++
    dest.drop (ds + min (de - ds) (se - ss)), ?_, ?_, ?_⟩
  · simp only [vecReplaceGeneral]
    rw [if_neg (by omega), if_neg (by omega), storeDown_eq _ _ _ (by rw [hl]; omega) (by omega), hl, List.reverse_reverse,
      Nat.add_sub_cancel]
  · simp; omega
  · intro i hi
    rw [List.append_assoc, List.getElem?_append, List.getElem?_append]
    simp only [List.length_take, List.length_map, List.length_drop, List.getElem?_take, List.getElem?_map,
      List.getElem?_drop]
    have e1 : min ds dest.length = ds := by omega
    have e2 : min (min (de - ds) (se - ss)) (src.length - ss) = min (de - ds) (se - ss) := by omega
    rw [e1, e2]
    by_cases h1 : i < ds
    · rw [if_pos h1, if_pos h1, if_neg (by omega)]
    · rw [if_neg h1]
      by_cases h2 : i - ds < min (de - ds) (se - ss)
      · rw [if_pos h2, if_pos h2, if_pos (by omega)]
      · rw [if_neg h2, if_neg (by omega)]
        congr 1; omega

example : vecReplace false [0, 0, 0, 0] [1, 2, 3] 1 4 1 3 = .ok [0, 2, 3, 0] := by decide
example : vecReplaceGeneral (· + 10) [0, 0, 0, 0] [1, 2, 3] 1 4 1 3 = .ok [0, 12, 13, 0] := by decide

/-- C71 fails for overlapping ranges of one vector (undefined: memcpy) and for ranges outside the vectors
(undefined: no check). -/
theorem C71_vectors_wrong :
    vecReplace true [1, 2, 3, 4] [1, 2, 3, 4] 1 4 0 3 = .ub ∧
    vecReplace false [0, 0] [1, 2, 3] 1 3 0 3 = .ub := by decide

end Eus.Arr
