import Verif.Flt.Model
import Verif.Flt.Spec
import Mathlib.Tactic.Linarith
import Mathlib.Tactic.Ring
import Mathlib.Tactic.Positivity
import Mathlib.Algebra.Order.Field.Power
import Mathlib.Tactic.NormNum
import Mathlib.Tactic.FieldSimp
set_option autoImplicit false
namespace Eus.Flt
open Spec

theorem cut_toNat (b : BitVec 64) : (b &&& ~~~3#64).toNat = b.toNat / 4 * 4 := by
  have h : b &&& ~~~3#64 = (b >>> 2) <<< 2 := by
    apply BitVec.eq_of_getLsbD_eq
    intro i hi
    rcases i with _ | _ | i
    · simp
    · simp
    · have : (3#64).getLsbD (i + 2) = false := by
        rw [BitVec.getLsbD_ofNat]
        have : Nat.testBit 3 (i + 2) = false := by
          apply Nat.testBit_lt_two_pow
          calc 3 < 2 ^ 2 := by norm_num
            _ ≤ 2 ^ (i + 2) := Nat.pow_le_pow_right (by norm_num) (by omega)
        simp [this]
      rw [BitVec.getLsbD_and, BitVec.getLsbD_not, this, BitVec.getLsbD_shiftLeft, BitVec.getLsbD_ushiftRight]
      have h2 : 2 + (i + 1 + 1 - 2) = i + 1 + 1 := by omega
      have h3 : ¬ i + 1 + 1 < 2 := by omega
      rw [h2]
      simp [hi]
  rw [h]
  have hb := b.isLt
  simp [BitVec.toNat_shiftLeft, BitVec.toNat_ushiftRight, Nat.shiftRight_eq_div_pow, Nat.shiftLeft_eq]
  omega

theorem unbox (b : BitVec 64) : fltval (makeflt b) = b &&& ~~~3#64 := by
  apply BitVec.eq_of_getLsbD_eq
  intro i hi
  unfold fltval makeflt
  rcases i with _ | _ | i
  · simp
  · simp
  · simp [hi]

theorem unbox_toNat (b : BitVec 64) : (fltval (makeflt b)).toNat = b.toNat / 4 * 4 := by
  rw [unbox, cut_toNat]

theorem tag (b : BitVec 64) : makeflt b &&& 3#64 = 1#64 := by
  apply BitVec.eq_of_getLsbD_eq
  intro i hi
  unfold makeflt
  rcases i with _ | _ | i
  · simp
  · simp
  · have : (3#64).getLsbD (i + 2) = false := by
      rw [BitVec.getLsbD_ofNat]
      have : Nat.testBit 3 (i + 2) = false := by
        apply Nat.testBit_lt_two_pow
        calc 3 < 2 ^ 2 := by norm_num
          _ ≤ 2 ^ (i + 2) := Nat.pow_le_pow_right (by norm_num) (by omega)
      simp [this]
    have h1 : (1#64).getLsbD (i + 2) = false := by
      rw [BitVec.getLsbD_ofNat]
      have : Nat.testBit 1 (i + 2) = false := by
        apply Nat.testBit_lt_two_pow
        calc 1 < 2 ^ 1 := by norm_num
          _ ≤ 2 ^ (i + 2) := Nat.pow_le_pow_right (by norm_num) (by omega)
      simp [this]
    simp [this, h1]

theorem exp_cut (n : Nat) : expOf (n / 4 * 4) = expOf n := by unfold expOf; omega
theorem sign_cut (n : Nat) : signOf (n / 4 * 4) = signOf n := by
  unfold signOf
  have : n / 4 * 4 / 2 ^ 63 = n / 2 ^ 63 := by omega
  rw [this]
theorem frac_cut (n : Nat) : fracOf (n / 4 * 4) = fracOf n / 4 * 4 := by unfold fracOf; omega

theorem ulp_cut (n : Nat) : ulp (n / 4 * 4) = ulp n := by unfold ulp; rw [exp_cut]
theorem ulp_pos (n : Nat) : 0 < ulp n := by unfold ulp; split <;> positivity

/-- What is cut. -/
theorem mag_cut (n : Nat) : mag (n / 4 * 4) = mag n - (n % 4 : ℕ) * ulp n := by
  unfold mag
  rw [ulp_cut, exp_cut, frac_cut]
  have h : fracOf n = fracOf n / 4 * 4 + n % 4 := by unfold fracOf; omega
  have h2 : ((fracOf n : ℕ) : ℚ) = ((fracOf n / 4 * 4 : ℕ) : ℚ) + ((n % 4 : ℕ) : ℚ) := by exact_mod_cast h
  simp only [Nat.cast_add] at *
  rw [h2]
  ring

theorem mag_nonneg (n : Nat) : 0 ≤ mag n := by
  unfold mag; have := ulp_pos n; positivity

/-- Finite magnitudes grow with the pattern. -/
theorem mag_mono {m n : Nat} (hn : n < 2 ^ 63) (h : m ≤ n) : mag m ≤ mag n := by
  have hm : m < 2 ^ 63 := by omega
  have em : expOf m = m / 2 ^ 52 := by unfold expOf; omega
  have en : expOf n = n / 2 ^ 52 := by unfold expOf; omega
  have he : expOf m ≤ expOf n := by rw [em, en]; omega
  rcases Nat.lt_or_ge (expOf m) (expOf n) with hlt | hge
  · -- the exponent grows
    have fm : fracOf m < 2 ^ 52 := by unfold fracOf; omega
    have hn0 : expOf n ≠ 0 := by omega
    have hN : mag n = ((2 ^ 52 + fracOf n : ℕ) : ℚ) * 2 ^ ((expOf n : Int) - 1075) := by
      unfold mag ulp; rw [if_neg hn0, if_neg hn0]
    have hN2 : (2 : ℚ) ^ 52 * 2 ^ ((expOf n : Int) - 1075) ≤ mag n := by
      rw [hN]
      apply mul_le_mul_of_nonneg_right _ (by positivity)
      push_cast
      have : (0 : ℚ) ≤ fracOf n := Nat.cast_nonneg _
      linarith
    refine le_trans ?_ hN2
    unfold mag ulp
    by_cases h0 : expOf m = 0
    · rw [if_pos h0, if_pos h0]
      have h1 : (2 : ℚ) ^ (-1074 : Int) ≤ 2 ^ ((expOf n : Int) - 1075) :=
        zpow_le_zpow_right₀ (by norm_num) (by omega)
      have h2 : ((0 + fracOf m : ℕ) : ℚ) ≤ 2 ^ 52 := by
        have : 0 + fracOf m ≤ 2 ^ 52 := by omega
        exact_mod_cast this
      exact mul_le_mul h2 h1 (by positivity) (by positivity)
    · rw [if_neg h0, if_neg h0]
      have h1 : (2 : ℚ) * 2 ^ ((expOf m : Int) - 1075) ≤ 2 ^ ((expOf n : Int) - 1075) := by
        calc (2 : ℚ) * 2 ^ ((expOf m : Int) - 1075) = 2 ^ ((expOf m : Int) - 1075 + 1) := by
              rw [zpow_add_one₀ (by norm_num)]; ring
          _ ≤ 2 ^ ((expOf n : Int) - 1075) := zpow_le_zpow_right₀ (by norm_num) (by omega)
      have h2 : ((2 ^ 52 + fracOf m : ℕ) : ℚ) ≤ 2 ^ 52 * 2 := by
        have : 2 ^ 52 + fracOf m ≤ 2 ^ 52 * 2 := by omega
        exact_mod_cast this
      calc ((2 ^ 52 + fracOf m : ℕ) : ℚ) * 2 ^ ((expOf m : Int) - 1075)
          ≤ 2 ^ 52 * 2 * 2 ^ ((expOf m : Int) - 1075) := mul_le_mul_of_nonneg_right h2 (by positivity)
        _ = 2 ^ 52 * (2 * 2 ^ ((expOf m : Int) - 1075)) := by ring
        _ ≤ _ := mul_le_mul_of_nonneg_left h1 (by positivity)
  · have hee : expOf m = expOf n := by omega
    unfold mag ulp
    rw [hee]
    apply mul_le_mul_of_nonneg_right
    · have : fracOf m ≤ fracOf n := by
        unfold fracOf; rw [em, en] at hee; omega
      exact_mod_cast Nat.add_le_add_left this _
    · split <;> positivity

theorem mag_low (n : Nat) : mag n = mag (n % 2 ^ 63) := by
  have he : expOf (n % 2 ^ 63) = expOf n := by unfold expOf; omega
  have hf : fracOf (n % 2 ^ 63) = fracOf n := by unfold fracOf; omega
  unfold mag ulp; rw [he, hf]

/-- Patterns of finite numbers are ordered as their magnitudes. -/
theorem mag_strict {m n : Nat} (hn : n < 2 ^ 63) (h : m < n) : mag m < mag n := by
  have h1 : mag m < mag (m + 1) := by
    have hm : m + 1 < 2 ^ 63 := by omega
    have hu := ulp_pos m
    by_cases hf : fracOf m = 2 ^ 52 - 1
    · have he : expOf (m + 1) = expOf m + 1 := by unfold expOf at *; unfold fracOf at hf; omega
      have hf' : fracOf (m + 1) = 0 := by unfold fracOf at *; omega
      unfold mag
      rw [he, hf, hf']
      have hul : ulp m ≤ ulp (m + 1) ∧ (expOf m ≠ 0 → 2 * ulp m = ulp (m + 1)) := by
        unfold ulp; rw [he]
        constructor
        · split
          · rw [if_neg (by omega)]
            exact zpow_le_zpow_right₀ (by norm_num) (by omega)
          · rw [if_neg (by omega)]
            exact zpow_le_zpow_right₀ (by norm_num) (by omega)
        · intro h0
          rw [if_neg h0, if_neg (by omega)]
          have : (((expOf m + 1 : ℕ) : Int) - 1075) = ((expOf m : Int) - 1075) + 1 := by push_cast; ring
          rw [this, zpow_add_one₀ (by norm_num)]; ring
      rw [if_neg (by omega : ¬ expOf m + 1 = 0)]
      by_cases h0 : expOf m = 0
      · rw [if_pos h0]
        push_cast
        nlinarith [hul.1]
      · rw [if_neg h0, ← hul.2 h0]
        push_cast
        nlinarith
    · have he : expOf (m + 1) = expOf m := by unfold expOf; unfold fracOf at hf; omega
      have hf' : fracOf (m + 1) = fracOf m + 1 := by unfold fracOf at *; omega
      unfold mag ulp
      rw [he, hf']
      apply mul_lt_mul_of_pos_right
      · exact_mod_cast (by omega : _ + fracOf m < _ + (fracOf m + 1))
      · split <;> positivity
  exact lt_of_lt_of_le h1 (mag_mono hn h)

/-- The exponent fields of integers below 2^51. -/
theorem int_frac (n k : Nat) (hk : k ≤ 2 ^ 51) (h : mag n = k) : n % 4 = 0 := by
  have hfr : fracOf n % 4 = n % 4 := by unfold fracOf; omega
  have hf52 : fracOf n < 2 ^ 52 := by unfold fracOf; omega
  rw [← hfr]
  unfold mag ulp at h
  by_cases h0 : expOf n = 0
  · rw [if_pos h0, if_pos h0] at h
    have h1 : ((fracOf n : ℕ) : ℚ) = k * 2 ^ 1074 := by
      have : (2 : ℚ) ^ (-1074 : Int) = (2 ^ 1074)⁻¹ := by rw [zpow_neg]; norm_cast
      rw [this] at h
      rw [← h]
      push_cast
      field_simp
      simp
    have h2 : fracOf n = k * 2 ^ 1074 := by exact_mod_cast h1
    rw [h2]
    have : (2 : ℕ) ^ 1074 = 4 * 2 ^ 1072 := by rw [show (1074 : ℕ) = 2 + 1072 by norm_num, pow_add]; norm_num
    rw [this]
    omega
  · rw [if_neg h0, if_neg h0] at h
    -- the exponent is at most 1074 - 1
    have hk' : (k : ℚ) ≤ 2 ^ 51 := by exact_mod_cast hk
    have hex : expOf n ≤ 1074 := by
      by_contra hc
      have h1 : (1 : ℚ) ≤ 2 ^ ((expOf n : Int) - 1075) := by
        calc (1 : ℚ) = 2 ^ (0 : Int) := by simp
          _ ≤ _ := zpow_le_zpow_right₀ (by norm_num) (by omega)
      have h2 : (2 : ℚ) ^ 52 ≤ ((2 ^ 52 + fracOf n : ℕ) : ℚ) := by
        have : 2 ^ 52 ≤ 2 ^ 52 + fracOf n := by omega
        exact_mod_cast this
      have h3 : (2 : ℚ) ^ 52 * 1 ≤ ((2 ^ 52 + fracOf n : ℕ) : ℚ) * 2 ^ ((expOf n : Int) - 1075) :=
        mul_le_mul h2 h1 (by norm_num) (by positivity)
      rw [h] at h3
      linarith
    obtain ⟨d, hd⟩ : ∃ d : ℕ, 1075 = expOf n + d := ⟨1075 - expOf n, by omega⟩
    have hd1 : 1 ≤ d := by omega
    have hz : (2 : ℚ) ^ ((expOf n : Int) - 1075) = (2 ^ d)⁻¹ := by
      have : (expOf n : Int) - 1075 = -(d : Int) := by omega
      rw [this, zpow_neg]; norm_cast
    rw [hz] at h
    have h1 : ((2 ^ 52 + fracOf n : ℕ) : ℚ) = ((k * 2 ^ d : ℕ) : ℚ) := by
      push_cast; push_cast at h; rw [← h]; field_simp
    have h2 : 2 ^ 52 + fracOf n = k * 2 ^ d := by exact_mod_cast h1
    rcases Nat.lt_or_ge d 2 with hlt | hge
    · have hd' : d = 1 := by omega
      subst hd'
      omega
    · obtain ⟨d', rfl⟩ : ∃ d', d = 2 + d' := ⟨d - 2, by omega⟩
      rw [pow_add] at h2
      have h3 : k * (2 ^ 2 * 2 ^ d') = 4 * (k * 2 ^ d') := by ring
      rw [h3] at h2
      omega

end Eus.Flt
