import Verif.Num.Arith2
namespace Eus.Num

theorem bit_eq (w : Word) (i : Nat) : w.getLsbD i = decide (w.toNat / 2 ^ i % 2 = 1) := by
  rw [← BitVec.testBit_toNat, Nat.testBit_eq_decide_div_mod_eq]

theorem and3_61 (x : Word) : (x &&& (3#64 <<< 61)) = 0#64 ↔ x.getLsbD 61 = false ∧ x.getLsbD 62 = false := by
  have hb : ∀ i, (3#64 <<< 61 : Word).getLsbD i = decide (i = 61 ∨ i = 62) := by
    intro i
    rcases Nat.lt_or_ge i 64 with h | h
    · have : ∀ i < 64, (3#64 <<< 61 : Word).getLsbD i = decide (i = 61 ∨ i = 62) := by decide
      exact this i h
    · rw [BitVec.getLsbD_of_ge _ _ h]; symm; rw [decide_eq_false_iff_not]; omega
  constructor
  · intro h
    have h1 := congrArg (fun y => BitVec.getLsbD y 61) h
    have h2 := congrArg (fun y => BitVec.getLsbD y 62) h
    have h1' : (x.getLsbD 61 && true) = false := by
      rw [← show (3#64 <<< 61 : Word).getLsbD 61 = true by decide, ← BitVec.getLsbD_and]; exact h1
    have h2' : (x.getLsbD 62 && true) = false := by
      rw [← show (3#64 <<< 61 : Word).getLsbD 62 = true by decide, ← BitVec.getLsbD_and]; exact h2
    rw [Bool.and_true] at h1' h2'
    exact ⟨h1', h2'⟩
  · rintro ⟨h1, h2⟩
    apply BitVec.eq_of_getLsbD_eq
    intro i _
    rw [BitVec.getLsbD_and, hb]
    by_cases hi : i = 61
    · subst hi; rw [h1]; rfl
    · by_cases hj : i = 62
      · subst hj; rw [h2]; rfl
      · simp [hi, hj]

theorem mkbig_cond (v : Word) : (v ^^^ v.sshiftRight 1) &&& (3#64 <<< 61) ≠ 0 ↔ ¬ InFix v.toInt := by
  rw [not_iff_not]
  show (v ^^^ v.sshiftRight 1) &&& (3#64 <<< 61) = 0#64 ↔ _
  rw [and3_61]
  have e1 : (v ^^^ v.sshiftRight 1).getLsbD 61 = (v.getLsbD 61 ^^ v.getLsbD 62) := by
    rw [BitVec.getLsbD_xor, BitVec.getLsbD_sshiftRight]; simp
  have e2 : (v ^^^ v.sshiftRight 1).getLsbD 62 = (v.getLsbD 62 ^^ v.getLsbD 63) := by
    rw [BitVec.getLsbD_xor, BitVec.getLsbD_sshiftRight]; simp
  rw [e1, e2, bit_eq, bit_eq, bit_eq]
  have hl := v.isLt
  unfold InFix
  rw [toInt_cond]
  simp only [Nat.reducePow, Int.reducePow, bne_eq_false_iff_eq, decide_eq_decide] at *
  split_ifs <;> omega

theorem out_iff (v : Word) : (v.toInt > MAXPOSFIXNUM.toInt ∨ v.toInt < MINNEGFIXNUM.toInt) ↔
    ¬ InFix v.toInt := by
  have e1 : MAXPOSFIXNUM.toInt = 2 ^ 61 - 1 := by decide
  have e2 : MINNEGFIXNUM.toInt = -2 ^ 61 := by decide
  rw [e1, e2]; unfold InFix; omega

theorem and3 (w : Word) : (w &&& 3#64).toNat = w.toNat % 4 := and_ones w 2 _ (by decide)
theorem and7 (w : Word) : (w &&& 7#64).toNat = w.toNat % 8 := and_ones w 3 _ (by decide)

theorem or3 (w : Word) (h : w.toNat % 8 = 0) : (w ||| 3#64).toNat = w.toNat + 3 := by
  rw [BitVec.toNat_or]
  have h3 : (3#64 : Word).toNat = 3 := rfl
  rw [h3]
  have : w.toNat = 2 ^ 2 * (w.toNat / 4) := by omega
  rw [this, Nat.two_pow_add_eq_or_of_lt (by omega)]

theorem andn3 (w : Word) (h : w.toNat % 8 = 0) : ((w ||| 3#64) &&& ~~~3#64) = w := by
  apply BitVec.eq_of_getLsbD_eq
  intro i hi
  rw [BitVec.getLsbD_and, BitVec.getLsbD_or, BitVec.getLsbD_not]
  have h3 : ∀ i < 64, (3#64 : Word).getLsbD i = decide (i < 2) := by decide
  rw [h3 i hi]
  by_cases h2 : i < 2
  · have : w.getLsbD i = false := by
      rw [bit_eq, decide_eq_false_iff_not]
      have : i = 0 ∨ i = 1 := by omega
      rcases this with rfl | rfl <;> simp <;> omega
    simp [h2, this]
  · simp [h2, hi]

/-- the immediate word made for an in-range integer -/
theorem imm_in (v : Word) (h : InFix v.toInt) :
    (v <<< 2 + 2#64).toNat % 4 = 2 ∧ (v <<< 2 + 2#64).sshiftRight 2 = v := by
  have hb := boxed_infix v h
  unfold boxed at hb
  rw [if_neg (by rw [out_iff]; exact not_not.2 h)] at hb
  constructor
  · rw [BitVec.toNat_add, BitVec.toNat_shiftLeft, Nat.shiftLeft_eq]
    simp only [BitVec.toNat_ofNat, Nat.reducePow]
    omega
  · apply BitVec.eq_of_toInt_eq
    rw [BitVec.toInt_sshiftRight, hb, Int.shiftRight_eq_div_pow]
    simp only [Nat.reducePow]
    push_cast
    omega

theorem boxing (v : Word) : ∃ o, makeintObj v = some o ∧ intvalObj o = some v ∧
    ((∃ i, o = .imm i) → isintObj o = true) := by
  unfold makeintObj
  by_cases hf : InFix v.toInt
  · rw [if_neg (by rw [out_iff]; exact not_not.2 hf)]
    obtain ⟨h1, h2⟩ := imm_in v hf
    refine ⟨_, rfl, ?_, ?_⟩
    · have n0 : (v <<< 2 + 2#64) ≠ 0 := by
        rw [ne_eq, word_eq_iff, toNat_zero]; omega
      have n3 : ¬ (v <<< 2 + 2#64) &&& 3#64 = 3#64 := by
        rw [word_eq_iff, and3]; simp only [BitVec.toNat_ofNat, Nat.reducePow]; omega
      have n7 : ¬ (v <<< 2 + 2#64) &&& 7#64 = 0 := by
        rw [word_eq_iff, and7, toNat_zero]; omega
      simp only [intvalObj, if_neg n0, if_neg n3, if_neg n7, h2]
    · intro _
      have : (v <<< 2 + 2#64) &&& 3#64 = 2#64 := by
        rw [word_eq_iff, and3]; simp only [BitVec.toNat_ofNat, Nat.reducePow]; omega
      simp [isintObj, this]
  · rw [if_pos (by rw [out_iff]; exact hf)]
    by_cases h7 : v &&& 7#64 ≠ 0
    · rw [if_pos h7, mkbigint?, if_pos ((mkbig_cond v).2 hf)]
      exact ⟨_, rfl, rfl, fun ⟨i, hi⟩ => by cases hi⟩
    · rw [if_neg h7]
      rw [ne_eq, not_not, word_eq_iff, and7, toNat_zero] at h7
      have ho := or3 v h7
      have hlt := (v ||| 3#64).isLt
      refine ⟨_, rfl, ?_, ?_⟩
      · have n0 : (v ||| 3#64) ≠ 0 := by
          rw [ne_eq, word_eq_iff, toNat_zero, ho]; omega
        have n3 : (v ||| 3#64) &&& 3#64 = 3#64 := by
          rw [word_eq_iff, and3, ho]; simp only [BitVec.toNat_ofNat, Nat.reducePow]; omega
        simp only [intvalObj, if_neg n0, if_pos n3, andn3 v h7]
      · intro _
        have n3 : (v ||| 3#64) &&& 3#64 = 3#64 := by
          rw [word_eq_iff, and3, ho]; simp only [BitVec.toNat_ofNat, Nat.reducePow]; omega
        simp [isintObj, n3]

end Eus.Num
