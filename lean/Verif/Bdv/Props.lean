import Verif.Bdv.Lemmas
import Verif.Num.Boxing
import Verif.Num.Props
import Verif.Bits.Props
set_option autoImplicit false
/-
C203: quotients of bignums by bignums.
-/
namespace Eus.Bdv
open Eus.Num

theorem mkbigint_fix (y : Word) (h : -2 ^ 31 ≤ y.toInt ∧ y.toInt < 2 ^ 31) : mkbigint y = .fix y := by
  have hf : InFix y.toInt := by unfold InFix; omega
  unfold mkbigint
  rw [if_neg ?_]
  · exact makeint_infix y hf
  · rw [mkbig_cond]; exact not_not.2 hf

theorem result_fix (neg : Bool) (q : Nat) (hq : q < 2147483648) :
    ∃ m, bigResult neg (.ok (BitVec.ofNat 64 q)) = .ok (.fix m) ∧ m.toInt = if neg then -(q : Int) else q := by
  have hn : (BitVec.ofNat 64 q).toNat = q := by rw [BitVec.toNat_ofNat, Nat.mod_eq_of_lt (by omega)]
  have hi : (BitVec.ofNat 64 q : Word).toInt = q := by rw [toInt_of_lt _ (by omega), hn]
  have hv : (if neg then -BitVec.ofNat 64 q else BitVec.ofNat 64 q : Word).toInt = if neg then -(q : Int) else q := by
    cases neg with
    | false => simpa using hi
    | true =>
      simp only [if_true]
      rw [toInt_neg' _ (by omega), hi]
  have hr : -2 ^ 31 ≤ (if neg then -BitVec.ofNat 64 q else BitVec.ofNat 64 q : Word).toInt ∧
      (if neg then -BitVec.ofNat 64 q else BitVec.ofNat 64 q : Word).toInt < 2 ^ 31 := by
    rw [hv]; split_ifs <;> omega
  refine ⟨_, ?_, hv⟩
  rw [bigResult]
  generalize (if neg then -BitVec.ofNat 64 q else BitVec.ofNat 64 q : Word) = w at *
  have e : truncInt w = w := BitVec.eq_of_toInt_eq ((truncInt_val w).2 hr)
  rw [e, mkbigint_fix w hr]

theorem tdiv_sign (a : Int) (b : Nat) : Int.tdiv a (b : Int) = if a < 0 then -((a.natAbs / b : Nat) : Int) else ((a.natAbs / b : Nat) : Int) := by
  split_ifs with h
  · obtain ⟨k, rfl⟩ : ∃ k : Nat, a = -(k : Int) := ⟨a.natAbs, by omega⟩
    rw [Int.neg_tdiv, Int.natAbs_neg, Int.natAbs_natCast, Int.ofNat_tdiv]
  · obtain ⟨k, rfl⟩ : ∃ k : Nat, a = (k : Int) := ⟨a.natAbs, by omega⟩
    rw [Int.natAbs_natCast, Int.ofNat_tdiv]

/-- the divisor of `Fits`: number of words and top word -/
theorem fits_top (x : List Word) (hx0 : x ≠ []) (hx : Small x) (tx : Top x) (n : Nat) (h1 : 2147483648 * B63 ^ n ≤ uval x) (h2 : uval x < B63 ^ (n + 1)) :
    x.length = n + 1 ∧ 2147483648 ≤ (big_sign x).toNat := by
  have a1 := top_le x hx0 tx
  have a2 := uval_lt' x hx
  have hlen : 0 < x.length := List.length_pos_iff.2 hx0
  have l1 : x.length - 1 < n + 1 := (Nat.pow_lt_pow_iff_right (a := B63) (by decide)).1 (lt_of_le_of_lt a1 h2)
  have l2 : n < x.length := (Nat.pow_lt_pow_iff_right (a := B63) (by decide)).1 (by omega)
  have hl : x.length = n + 1 := by omega
  refine ⟨hl, ?_⟩
  obtain ⟨u, t, rfl⟩ := snoc_cases x hx0
  rw [big_sign_snoc]
  rw [uval_snoc] at h1
  have hu : Small u := fun w hw => hx w (by simp [hw])
  have a3 := uval_lt' u hu
  have hn : u.length = n := by simpa using hl
  rw [hn] at a3 h1
  by_contra hc
  have h4 : t.toNat + 1 ≤ 2147483648 := by omega
  have h5 : B63 ^ n * (t.toNat + 1) ≤ B63 ^ n * 2147483648 := Nat.mul_le_mul_left _ h4
  rw [Nat.mul_add, Nat.mul_one] at h5
  rw [Nat.mul_comm] at h1
  omega

/-- C203: the quotient of two bignums, the divisor positive with a highest word of at least 2^31, the dividend with at least as many words, the quotient below 2^31 -/
theorem C203_quotient_partial (a b : List Word) (ha : (Num.big a).Canonical) (hb : (Num.big b).Canonical)
    (hf : Fits (Num.big a).val (Num.big b).val) (hq : (Num.big a).val.natAbs / (Num.big b).val.natAbs < 2 ^ 31) (fuel : Nat) (hfu : 3 ≤ fuel) :
    ∃ m, QUOTIENT fuel [.big a, .big b] = .ok (.fix m) ∧ m.toInt = Int.tdiv (Num.big a).val (Num.big b).val := by
  obtain ⟨n, f1, f2, f3⟩ := hf
  simp only [Num.val] at *
  have hbpos : 0 < limbsVal b := lt_of_lt_of_le (by positivity) f1
  have hsb := sign_iff b hb.1
  have hsa := sign_iff a ha.1
  have hnb : ¬ (big_sign b).toInt < 0 := by rw [hsb]; omega
  obtain ⟨b0, b1, b2, b3⟩ := magnitude b hb b (by rw [if_neg hnb])
  obtain ⟨a0, a1, a2, a3⟩ := magnitude a ha _ rfl
  have hbv : limbsVal b = (uval b : Int) := by omega
  have g1 : 2147483648 * B63 ^ n ≤ uval b := by
    rw [hbv] at f1
    have : (((2147483648 * B63 ^ n : Nat)) : Int) ≤ (uval b : Int) := by push_cast; simpa using f1
    exact_mod_cast this
  have g2 : uval b < B63 ^ (n + 1) := by
    rw [hbv] at f2
    have : (uval b : Int) < ((B63 ^ (n + 1) : Nat) : Int) := by push_cast; simpa using f2
    exact_mod_cast this
  have g3 : B63 ^ n ≤ (limbsVal a).natAbs := by
    have : ((B63 ^ n : Nat) : Int) ≤ ((limbsVal a).natAbs : Int) := by push_cast; simpa using f3
    exact_mod_cast this
  obtain ⟨hlb, htb⟩ := fits_top b b0 b1 b2 n g1 g2
  rw [← b3, ← a3] at hq
  rw [← a3] at g3
  have a4 := uval_lt' _ a1
  have hla : n < (if (big_sign a).toInt < 0 then complement_big a else a).length :=
    (Nat.pow_lt_pow_iff_right (a := B63) (by decide)).1 (lt_of_le_of_lt g3 a4)
  have hd := div_spec b _ b0 b1 a1 a2 htb (by omega) (by simpa using hq) fuel hfu
  rw [hbv, tdiv_sign, ← a3]
  by_cases hneg : (big_sign a).toInt < 0
  · have hn' : limbsVal a < 0 := by rw [← hsa]; exact hneg
    simp only [QUOTIENT, if_pos hneg, quoBig] at hd hq ⊢
    rw [hd, if_pos hn']
    obtain ⟨m, e1, e2⟩ := result_fix true _ hq
    exact ⟨m, e1, by simpa using e2⟩
  · have hn' : ¬ limbsVal a < 0 := by rw [← hsa]; exact hneg
    simp only [QUOTIENT, if_neg hneg, quoBig] at hd hq ⊢
    rw [hd, if_neg hn']
    obtain ⟨m, e1, e2⟩ := result_fix false _ hq
    exact ⟨m, e1, by simpa using e2⟩

/-- C203: two bignums of one word, the divisor positive: every quotient is right -/
theorem C203_one_word (a b : List Word) (ha : (Num.big a).Canonical) (hb : (Num.big b).Canonical)
    (h1 : (Num.big a).val.natAbs < 2 ^ 63) (h2 : 0 < (Num.big b).val) (h3 : (Num.big b).val < 2 ^ 63) (fuel : Nat) (hfu : 3 ≤ fuel) :
    ∃ m, QUOTIENT fuel [.big a, .big b] = .ok (.fix m) ∧ m.toInt = Int.tdiv (Num.big a).val (Num.big b).val := by
  have ca : ¬ InFix (Num.big a).val := ha.2.1
  have cb : ¬ InFix (Num.big b).val := hb.2.1
  generalize hva : (Num.big a).val = va at *
  generalize hvb : (Num.big b).val = vb at *
  have hb61 : 2 ^ 61 ≤ vb := by unfold InFix at cb; omega
  rw [← hva, ← hvb]
  refine C203_quotient_partial a b ha hb ?_ ?_ fuel hfu
  · rw [hva, hvb]
    refine ⟨0, by simpa using (by omega : (2147483648 : Int) ≤ vb), by simpa using h3, ?_⟩
    unfold InFix at ca
    simp only [pow_zero]
    omega
  · rw [hva, hvb, Nat.div_lt_iff_lt_mul (by omega)]
    omega

/-- the fixnum divisors of `Num.QUOTIENT` -/
theorem quoBig_fix (fuel : Nat) : ∀ (l : List Num), AllFix l → ∀ (neg : Bool) (rs : List Word), quoBig fuel neg rs l = Num.quoBig neg rs l
  | [], _, _, _ => rfl
  | .fix a :: l, h, neg, rs => by
    have hl : AllFix l := fun x hx => h x (by simp [hx])
    simp only [quoBig, Num.quoBig]
    generalize div_int_big _ _ = d
    cases d with
    | none => rfl
    | some p => exact quoBig_fix fuel l hl _ _
  | .big v :: l, h, _, _ => by
    obtain ⟨w, e, _⟩ := h (.big v) (by simp)
    cases e

theorem quotient_fix (fuel : Nat) (x : Num) (l : List Num) (h : AllFix l) : QUOTIENT fuel (x :: l) = Num.QUOTIENT (x :: l) := by
  cases l with
  | nil => cases x <;> rfl
  | cons a l =>
    cases x with
    | fix w => rfl
    | big v => simp only [QUOTIENT, Num.QUOTIENT, quoBig_fix fuel _ h]

/-- C203: fixnum divisors, any number of them -/
theorem C203_fixnum_divisors (fuel : Nat) (v : List Word) (ds : List Num) (hne : ds ≠ []) (hv : WFv v) (hd : AllFix ds) (h0 : ∀ d ∈ ds, d.val ≠ 0) :
    ∃ n, QUOTIENT fuel (.big v :: ds) = .ok n ∧ n.WF ∧ n.val = valQuot (.big v) ds := by
  rw [quotient_fix fuel _ _ hd]
  exact C07_bignum_quotient v ds hne hv hd h0

/-! Cases that meet the hypotheses, with their values. -/

/-- 2^63 / 2^62 -/
example : Fits (limbsVal [0, 1]) (limbsVal [0x4000000000000000#64]) ∧ (limbsVal [0, 1]).natAbs / (limbsVal [0x4000000000000000#64]).natAbs < 2 ^ 31 ∧
    QUOTIENT 3 [.big [0, 1], .big [0x4000000000000000#64]] = .ok (.fix 2) :=
  ⟨⟨0, by decide, by decide, by decide⟩, by decide, by decide +kernel⟩

/-- a divisor of two words: (7·2^123 + 5) / (2^123 + 9) -/
example : Fits (limbsVal [5, 0x7000000000000000#64]) (limbsVal [9, 0x1000000000000000#64]) ∧
    QUOTIENT 3 [.big [5, 0x7000000000000000#64], .big [9, 0x1000000000000000#64]] = .ok (.fix 6) :=
  ⟨⟨1, by decide, by decide, by decide⟩, by decide +kernel⟩

/-- -2^62 / 2^62 -/
example : QUOTIENT 3 [.big [0xC000000000000000#64], .big [0x4000000000000000#64]] = .ok (.fix (-1)) := by decide +kernel

/-! What goes wrong outside. -/

/-- C203: 2^93 / 2^62 is 2^31, the answer is -2^31: the quotient passes through a C int. -/
theorem C203_int_wrong :
    Fits (limbsVal [0, 0x40000000]) (limbsVal [0x4000000000000000#64]) ∧
    Int.tdiv (limbsVal [0, 0x40000000]) (limbsVal [0x4000000000000000#64]) = 2 ^ 31 ∧
    QUOTIENT 3 [.big [0, 0x40000000], .big [0x4000000000000000#64]] = .ok (.fix (-0x80000000)) :=
  ⟨⟨0, by decide, by decide, by decide⟩, by decide, by decide +kernel⟩

/-- C203: 2^125 / 2^62 is 2^63, the answer is 0. -/
theorem C203_zero_wrong :
    Int.tdiv (limbsVal [0, 0x4000000000000000#64]) (limbsVal [0x4000000000000000#64]) = 2 ^ 63 ∧
    QUOTIENT 3 [.big [0, 0x4000000000000000#64], .big [0x4000000000000000#64]] = .ok (.fix 0) :=
  ⟨by decide, by decide +kernel⟩

/-- C203: a divisor with a small highest word: 10·2^63 / (2^64 - 1) is 5, the first guess is 8 and the subtraction runs out of the vector. -/
theorem C203_guess_wrong (fuel : Nat) :
    Int.tdiv (limbsVal [0, 10]) (limbsVal [0x7fffffffffffffff#64, 1]) = 5 ∧
    QUOTIENT fuel [.big [0, 10], .big [0x7fffffffffffffff#64, 1]] = .ub := by
  refine ⟨by decide, ?_⟩
  have e : sub_int_big_big 8 [0x7fffffffffffffff#64, 1] [0, 10] = none := by decide +kernel
  have g : guess [0x7fffffffffffffff#64, 1] [0, 10] = some 8 := by decide +kernel
  have s : ¬ (big_sign [0, 10]).toInt < 0 := by decide
  simp only [QUOTIENT, if_neg s, quoBig, div_big_big, g, e, bigResult]
  rfl

/-- C203: a dividend with fewer words than the divisor: 2^62 / 2^63 is 0, the program reads past the dividend. -/
theorem C203_short_wrong (fuel : Nat) :
    Int.tdiv (limbsVal [0x4000000000000000#64]) (limbsVal [0, 1]) = 0 ∧
    QUOTIENT fuel [.big [0x4000000000000000#64], .big [0, 1]] = .ub := by
  refine ⟨by decide, ?_⟩
  have g : guess [0, 1] [0x4000000000000000#64] = none := by decide +kernel
  have s : ¬ (big_sign [0x4000000000000000#64]).toInt < 0 := by decide
  simp only [QUOTIENT, if_neg s, quoBig, div_big_big, g, bigResult]

/-- C203: a negative divisor: 2^62 / -2^62 is -1, the program subtracts for ever or past the vector. -/
theorem C203_negative_wrong :
    Int.tdiv (limbsVal [0x4000000000000000#64]) (limbsVal [0xC000000000000000#64]) = -1 ∧
    QUOTIENT 3 [.big [0x4000000000000000#64], .big [0xC000000000000000#64]] = .ub :=
  ⟨by decide, by decide +kernel⟩

/-- C203: three arguments, 2^63 / 2^62 / 2 is 1: what follows a bignum divisor is not looked at. -/
theorem C203_rest_wrong :
    Int.tdiv (Int.tdiv (limbsVal [0, 1]) (limbsVal [0x4000000000000000#64])) 2 = 1 ∧
    QUOTIENT 3 [.big [0, 1], .big [0x4000000000000000#64], .fix 2] = .ok (.fix 2) :=
  ⟨by decide, by decide +kernel⟩

/-- C203: whatever follows a bignum divisor -/
theorem C203_rest_ignored (fuel : Nat) (a b : List Word) (rest : List Num) :
    QUOTIENT fuel (.big a :: .big b :: rest) = QUOTIENT fuel [.big a, .big b] := by
  simp only [QUOTIENT, quoBig]

end Eus.Bdv
