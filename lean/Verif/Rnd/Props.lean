import Verif.Rnd.Spec
import Mathlib.Tactic.Linarith
import Mathlib.Tactic.Positivity
import Mathlib.Tactic.FieldSimp
import Mathlib.Tactic.NormNum
import Mathlib.Tactic.Ring
set_option autoImplicit false
/-
C211: random.
-/
namespace Eus.Rnd

theorem Rounding.bounds {r : ℚ → ℚ} (h : Rounding r) (x : ℚ) (hx : 0 ≤ x) : x * (1 - 1 / 2 ^ 53) ≤ r x ∧ r x ≤ x * (1 + 1 / 2 ^ 53) := by
  have := h.err x
  rw [abs_of_nonneg hx, abs_le] at this
  constructor <;> linarith [this.1, this.2]

theorem Rounding.nbounds {r : ℚ → ℚ} (h : Rounding r) (x : ℚ) (hx : x ≤ 0) : x * (1 + 1 / 2 ^ 53) ≤ r x ∧ r x ≤ x * (1 - 1 / 2 ^ 53) := by
  have := h.err x
  rw [abs_of_nonpos hx, abs_le] at this
  constructor <;> linarith [this.1, this.2]

theorem rint_err (x : ℚ) : |(rint x : ℚ) - x| ≤ 1 / 2 := by
  have h1 := Int.floor_le x
  have h2 := Int.lt_floor_add_one x
  rw [abs_le]
  unfold rint
  split
  · constructor <;> linarith
  · split
    · push_cast; constructor <;> linarith
    · split
      · constructor <;> linarith
      · push_cast; constructor <;> linarith

theorem rint_int (m : Int) : rint (m : ℚ) = m := by
  unfold rint
  rw [Int.floor_intCast, if_pos (by norm_num)]

theorem dbl_rounding : Rounding dbl := by
  constructor
  · intro x
    unfold dbl
    by_cases hx : x = 0
    · subst hx
      have := rint_int 0
      push_cast at this
      simp [this]
    · have hpos : 0 < |x| := abs_pos.2 hx
      have hl := Int.zpow_log_le_self (b := 2) (by norm_num) hpos
      generalize Int.log 2 |x| = l at hl
      have hu : (0 : ℚ) < 2 ^ (l - 52) := zpow_pos (by norm_num) _
      have e := rint_err (x / 2 ^ (l - 52))
      have e2 : (rint (x / 2 ^ (l - 52)) : ℚ) * 2 ^ (l - 52) - x = ((rint (x / 2 ^ (l - 52)) : ℚ) - x / 2 ^ (l - 52)) * 2 ^ (l - 52) := by
        rw [sub_mul, div_mul_cancel₀ _ hu.ne']
      rw [e2, abs_mul, abs_of_pos hu]
      have e3 : (2 : ℚ) ^ l = 2 ^ (l - 52) * 2 ^ 52 := by
        rw [← zpow_natCast, ← zpow_add₀ (by norm_num)]
        congr 1
        norm_num
      have e4 := mul_le_mul_of_nonneg_right e hu.le
      have hl' : (2 : ℚ) ^ l ≤ |x| := by exact_mod_cast hl
      rw [e3] at hl'
      refine le_trans e4 ?_
      rw [le_div_iff₀ (show (0 : ℚ) < 2 ^ 53 by norm_num)]
      linarith
  · intro m j hm
    unfold dbl
    by_cases hm0 : m = 0
    · subst hm0
      have := rint_int 0
      push_cast at this
      simp [this]
    · have hne : ((m : ℚ) * 2 ^ j) ≠ 0 := mul_ne_zero (by exact_mod_cast hm0) (by positivity)
      have hpos : 0 < |(m : ℚ) * 2 ^ j| := abs_pos.2 hne
      have hl := Int.zpow_log_le_self (b := 2) (by norm_num) hpos
      have hl1 := Int.lt_zpow_succ_log_self (b := 2) (by norm_num) |(m : ℚ) * 2 ^ j|
      generalize Int.log 2 |(m : ℚ) * 2 ^ j| = l at hl hl1
      suffices h : ∃ z : Int, (m : ℚ) * 2 ^ j / 2 ^ (l - 52) = z by
        obtain ⟨z, hz⟩ := h
        rw [hz, rint_int, ← hz, div_mul_cancel₀ _ (zpow_pos (by norm_num : (0 : ℚ) < 2) (l - 52)).ne']
      have hm' : |(m : ℚ)| ≤ 2 ^ 53 := by exact_mod_cast hm
      have habs : |(m : ℚ) * 2 ^ j| = |(m : ℚ)| * 2 ^ j := by rw [abs_mul, abs_of_pos (by positivity : (0 : ℚ) < 2 ^ j)]
      rw [habs] at hl hl1
      have hl' : (2 : ℚ) ^ l ≤ 2 ^ (53 + (j : Int)) := by
        rw [zpow_add₀ (by norm_num), zpow_natCast]
        have hl0 : (2 : ℚ) ^ l ≤ |(m : ℚ)| * 2 ^ j := by exact_mod_cast hl
        exact le_trans hl0 (mul_le_mul_of_nonneg_right (by exact_mod_cast hm') (by positivity))
      have hlj : l ≤ 53 + (j : Int) := (zpow_le_zpow_iff_right₀ (by norm_num : (1 : ℚ) < 2)).1 hl'
      by_cases hlt : l ≤ 52 + (j : Int)
      · refine ⟨m * 2 ^ (52 + (j : Int) - l).toNat, ?_⟩
        have : (j : Int) - (l - 52) = ((52 + (j : Int) - l).toNat : Int) := by omega
        push_cast
        rw [mul_div_assoc, ← zpow_natCast (2 : ℚ) j, ← zpow_sub₀ (by norm_num), this, zpow_natCast]
      · have hle : l = 53 + (j : Int) := by omega
        subst hle
        have hl2 : (2 : ℚ) ^ (53 + (j : Int)) ≤ |(m : ℚ)| * 2 ^ j := by exact_mod_cast hl
        rw [zpow_add₀ (by norm_num), zpow_natCast] at hl2
        have h3 : (2 : ℚ) ^ (53 : Int) ≤ |(m : ℚ)| := le_of_mul_le_mul_right hl2 (by positivity)
        have h4 : |(m : ℚ)| = 2 ^ 53 := le_antisymm hm' (by exact_mod_cast h3)
        have h5 : |m| = 2 ^ 53 := by exact_mod_cast h4
        have e : (2 : ℚ) ^ (53 + (j : Int) - 52) = 2 * 2 ^ j := by
          rw [show 53 + (j : Int) - 52 = 1 + (j : Int) by ring, zpow_add₀ (by norm_num), zpow_natCast, zpow_one]
        have hj : (2 : ℚ) ^ j ≠ 0 := by positivity
        rcases abs_choice m with h | h
        · refine ⟨2 ^ 52, ?_⟩
          have : m = 2 ^ 53 := by omega
          rw [e, this]
          push_cast
          field_simp
          norm_num
        · refine ⟨-2 ^ 52, ?_⟩
          have : m = -2 ^ 53 := by omega
          rw [e, this]
          push_cast
          field_simp
          norm_num

theorem erand_nonneg (k : Nat) : 0 ≤ erand48 k := by unfold erand48; positivity

theorem erand_le (k : Nat) (hk : k < 2 ^ 48) : erand48 k ≤ 1 - 1 / 2 ^ 48 := by
  unfold erand48
  have : (k : ℚ) ≤ 2 ^ 48 - 1 := by
    have h : k + 1 ≤ 2 ^ 48 := hk
    have : ((k + 1 : Nat) : ℚ) ≤ ((2 ^ 48 : Nat) : ℚ) := Nat.cast_le.2 h
    push_cast at this
    linarith
  rw [div_le_iff₀ (by positivity)]
  norm_num at *
  linarith

theorem prod_lt (e n a p : ℚ) (he : e ≤ 1 - 1 / 2 ^ 48) (hn : 0 < n) (ha : a ≤ n * (1 + 1 / 2 ^ 53)) (ha0 : 0 ≤ a)
    (hp : p ≤ e * a * (1 + 1 / 2 ^ 53)) : p < n := by
  have h1 : e * a ≤ (1 - 1 / 2 ^ 48) * (n * (1 + 1 / 2 ^ 53)) := by
    apply mul_le_mul he ha ha0; norm_num
  have h2 : e * a * (1 + 1 / 2 ^ 53) ≤ (1 - 1 / 2 ^ 48) * (n * (1 + 1 / 2 ^ 53)) * (1 + 1 / 2 ^ 53) := by
    apply mul_le_mul_of_nonneg_right h1; norm_num
  have h3 : ((1 : ℚ) - 1 / 2 ^ 48) * (n * (1 + 1 / 2 ^ 53)) * (1 + 1 / 2 ^ 53) = n * ((1 - 1 / 2 ^ 48) * (1 + 1 / 2 ^ 53) * (1 + 1 / 2 ^ 53)) := by ring
  have h4 : ((1 : ℚ) - 1 / 2 ^ 48) * (1 + 1 / 2 ^ 53) * (1 + 1 / 2 ^ 53) < 1 := by norm_num
  have h5 := mul_lt_mul_of_pos_left h4 hn
  linarith

/-- C211.  `(random n)` for a positive integer is nevedbl negative and always less than n, whatever the random bits are. -/
theorem C211_range (k : Nat) (hk : k < 2 ^ 48) (n : Int) (hn : 0 < n) :
    0 ≤ random k n ∧ random k n < n := by
  have hn' : (0 : ℚ) < n := by exact_mod_cast hn
  obtain ⟨a1, a2⟩ := dbl_rounding.bounds n hn'.le
  have ha0 : 0 ≤ dbl n := le_trans (mul_nonneg hn'.le (by norm_num)) a1
  have he0 := erand_nonneg k
  obtain ⟨p1, p2⟩ := dbl_rounding.bounds (erand48 k * dbl n) (mul_nonneg he0 ha0)
  have hp0 : 0 ≤ dbl (erand48 k * dbl n) := le_trans (mul_nonneg (mul_nonneg he0 ha0) (by norm_num)) p1
  have hlt := prod_lt _ _ _ _ (erand_le k hk) hn' a2 ha0 p2
  unfold random trunc
  rw [if_pos hp0]
  exact ⟨Int.floor_nonneg.2 hp0, Int.floor_lt.2 hlt⟩

/-- C211.  For a negative integer the value lies between it and 0, 0 included; for 0 it is 0. -/
theorem C211_negative (k : Nat) (hk : k < 2 ^ 48) (n : Int) (hn : n ≤ 0) :
    random k n ≤ 0 ∧ (n < 0 → n < random k n) := by
  have hn' : (n : ℚ) ≤ 0 := by exact_mod_cast hn
  obtain ⟨a1, a2⟩ := dbl_rounding.nbounds n hn'
  have ha0 : dbl n ≤ 0 := le_trans a2 (mul_nonpos_of_nonpos_of_nonneg hn' (by norm_num))
  have he0 := erand_nonneg k
  have hm : erand48 k * dbl n ≤ 0 := mul_nonpos_of_nonneg_of_nonpos he0 ha0
  obtain ⟨p1, p2⟩ := dbl_rounding.nbounds (erand48 k * dbl n) hm
  have hp0 : dbl (erand48 k * dbl n) ≤ 0 := le_trans p2 (mul_nonpos_of_nonpos_of_nonneg hm (by norm_num))
  have hlt : n < 0 → (n : ℚ) < dbl (erand48 k * dbl n) := by
    intro hneg
    have hneg' : (0 : ℚ) < -n := by
      have : (n : ℚ) < 0 := by exact_mod_cast hneg
      linarith
    have := prod_lt (erand48 k) (-n) (-(dbl n)) (-(dbl (erand48 k * dbl n))) (erand_le k hk) hneg' (by linarith) (by linarith) (by linarith)
    linarith
  unfold random trunc
  split
  · rename_i h
    have e : dbl (erand48 k * dbl n) = 0 := le_antisymm hp0 h
    rw [e]
    simp
  · exact ⟨Int.ceil_le.2 (by exact_mod_cast hp0), fun hneg => Int.lt_ceil.2 (hlt hneg)⟩

/-- C211.  Up to 2^47 every number below n is the value for some random bits. -/
theorem C211_every_partial (n : Int) (hn : n ≤ 2 ^ 47) (v : Int) (hv0 : 0 ≤ v) (hv : v < n) :
    ∃ k, k < 2 ^ 48 ∧ random k n = v := by
  have hn0 : 0 < n := by omega
  have hn' : (0 : ℚ) < n := by exact_mod_cast hn0
  have hn47 : (n : ℚ) ≤ 2 ^ 47 := by exact_mod_cast hn
  have hv' : (0 : ℚ) ≤ v := by exact_mod_cast hv0
  have hvn : (v : ℚ) + 1 ≤ n := by exact_mod_cast hv
  have hrn : dbl n = n := by
    have := dbl_rounding.exact n 0 (by rw [abs_of_pos hn0]; linarith)
    simpa using this
  have hx0 : 0 ≤ ((v : ℚ) + 1 / 4) * 2 ^ 48 / n := by positivity
  refine ⟨⌈((v : ℚ) + 1 / 4) * 2 ^ 48 / n⌉.toNat, ?_, ?_⟩ <;> (
    have hc0 : 0 ≤ ⌈((v : ℚ) + 1 / 4) * 2 ^ 48 / n⌉ := Int.ceil_nonneg hx0
    have c1 := Int.le_ceil (((v : ℚ) + 1 / 4) * 2 ^ 48 / n)
    have c2 := Int.ceil_lt_add_one (((v : ℚ) + 1 / 4) * 2 ^ 48 / n))
  · have : ((⌈((v : ℚ) + 1 / 4) * 2 ^ 48 / n⌉ : Int) : ℚ) < 2 ^ 48 := by
      have h1 : ((v : ℚ) + 1 / 4) * 2 ^ 48 / n + 1 ≤ 2 ^ 48 := by
        rw [← le_sub_iff_add_le, div_le_iff₀ hn']
        norm_num at hn47 ⊢
        linarith
      linarith
    have : ⌈((v : ℚ) + 1 / 4) * 2 ^ 48 / n⌉ < 2 ^ 48 := by exact_mod_cast this
    omega
  · have ek : ((⌈((v : ℚ) + 1 / 4) * 2 ^ 48 / n⌉.toNat : Nat) : ℚ) = ((⌈((v : ℚ) + 1 / 4) * 2 ^ 48 / n⌉ : Int) : ℚ) := by
      have : ((⌈((v : ℚ) + 1 / 4) * 2 ^ 48 / n⌉.toNat : Nat) : Int) = ⌈((v : ℚ) + 1 / 4) * 2 ^ 48 / n⌉ := Int.toNat_of_nonneg hc0
      exact_mod_cast congrArg (fun z : Int => (z : ℚ)) this
    unfold random erand48
    rw [ek, hrn]
    generalize ((⌈((v : ℚ) + 1 / 4) * 2 ^ 48 / n⌉ : Int) : ℚ) = c at c1 c2
    have d1 : (v : ℚ) + 1 / 4 ≤ c / 2 ^ 48 * n := by
      rw [div_le_iff₀ hn'] at c1
      rw [div_mul_eq_mul_div, le_div_iff₀ (by positivity)]
      exact c1
    have d2 : c / 2 ^ 48 * n ≤ (v : ℚ) + 3 / 4 := by
      have : c * n ≤ ((v : ℚ) + 1 / 4) * 2 ^ 48 + n := by
        have h := mul_le_mul_of_nonneg_right c2.le hn'.le
        rw [add_mul, div_mul_cancel₀ _ hn'.ne', one_mul] at h
        exact h
      rw [div_mul_eq_mul_div, div_le_iff₀ (by positivity)]
      norm_num at hn47 this ⊢
      linarith
    generalize c / 2 ^ 48 * n = x at d1 d2
    have hx : 0 ≤ x := by linarith
    obtain ⟨e1, e2⟩ := dbl_rounding.bounds x hx
    have hxb : x ≤ 2 ^ 47 := by linarith
    have hr1 : (v : ℚ) ≤ dbl x := by
      have : x * (1 / 2 ^ 53) ≤ 2 ^ 47 * (1 / 2 ^ 53) := mul_le_mul_of_nonneg_right hxb (by norm_num)
      norm_num at this e1 e2
      linarith
    have hr2 : dbl x < (v : ℚ) + 1 := by
      have : x * (1 / 2 ^ 53) ≤ 2 ^ 47 * (1 / 2 ^ 53) := mul_le_mul_of_nonneg_right hxb (by norm_num)
      norm_num at this e1 e2
      linarith
    unfold trunc
    rw [if_pos (by linarith)]
    exact Int.floor_eq_iff.2 ⟨hr1, hr2⟩

/-- C211 fails for large integers: there are only 2^48 different values; `(random (expt 2 60))` is always a multiple of 4096. -/
theorem C211_large_wrong (k : Nat) (hk : k < 2 ^ 48) : random k (2 ^ 60) = 4096 * k := by
  have h1 : dbl (((2 ^ 60 : Int)) : ℚ) = 2 ^ 60 := by
    have := dbl_rounding.exact 1 60 (by norm_num)
    have e : (((2 ^ 60 : Int)) : ℚ) = 2 ^ 60 := by push_cast; rfl
    rw [e]
    simpa using this
  have h2 : dbl (erand48 k * 2 ^ 60) = (4096 * k : Int) := by
    have hb : |(k : Int)| ≤ 2 ^ 53 := by
      rw [abs_of_nonneg (by positivity)]
      have : (k : Int) < 2 ^ 48 := by exact_mod_cast hk
      linarith
    have := dbl_rounding.exact k 12 hb
    have e : erand48 k * 2 ^ 60 = ((k : Int) : ℚ) * 2 ^ 12 := by
      unfold erand48
      push_cast
      ring
    rw [e, this]
    push_cast
    ring
  unfold random
  rw [h1, h2]
  unfold trunc
  rw [if_pos (by positivity), Int.floor_intCast]

/-- The middle number gives half of n. -/
theorem half (n : Int) (hn : |n| ≤ 2 ^ 53) : random (2 ^ 47) (2 * n) = n := by
  have h1 : dbl ((2 * n : Int) : ℚ) = 2 * n := by
    have := dbl_rounding.exact n 1 hn
    rw [show ((2 * n : Int) : ℚ) = (n : ℚ) * 2 ^ 1 by push_cast; ring, this]
    ring
  have h2 : dbl (erand48 (2 ^ 47) * (2 * n)) = n := by
    have := dbl_rounding.exact n 0 hn
    have he : erand48 (2 ^ 47) = 1 / 2 := by unfold erand48; norm_num
    rw [show erand48 (2 ^ 47) * (2 * n) = (n : ℚ) * 2 ^ 0 by rw [he]; ring, this]
    ring
  unfold random trunc
  rw [h1, h2]
  split <;> simp

example : random (2 ^ 47) 6 = 3 := half 3 (by norm_num)
example : random (2 ^ 47) (2 * (-3)) = -3 := half (-3) (by norm_num)

end Eus.Rnd
