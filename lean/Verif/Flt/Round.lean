import Verif.Flt.Model
import Verif.Flt.Spec
import Mathlib.Tactic.Linarith
import Mathlib.Tactic.Ring
import Mathlib.Tactic.Positivity
import Mathlib.Algebra.Order.Field.Power
import Mathlib.Tactic.NormNum
import Mathlib.Tactic.FieldSimp
set_option autoImplicit false
namespace Eus.Flt
open Spec

theorem c23 : ((2 ^ 23 : Int) : ℚ) = 2 ^ 23 := by norm_num
theorem c24 : ((2 ^ 24 : Int) : ℚ) = 2 ^ 24 := by norm_num

theorem rint_int (n : Int) : rint (n : ℚ) = n := by
  unfold rint; simp

theorem rint_err (x : ℚ) : |(rint x : ℚ) - x| ≤ 1 / 2 := by
  have h1 := Int.floor_le x
  have h2 := Int.lt_floor_add_one x
  unfold rint
  simp only
  rw [abs_le]
  split
  · constructor <;> linarith
  · split
    · push_cast; constructor <;> linarith
    · split
      · constructor <;> linarith
      · push_cast; constructor <;> linarith

theorem rint_even (x : ℚ) (h : |(rint x : ℚ) - x| = 1 / 2) : rint x % 2 = 0 := by
  have h1 := Int.floor_le x
  have h2 := Int.lt_floor_add_one x
  revert h
  unfold rint
  simp only
  split
  · intro h
    rw [abs_of_nonpos (by linarith)] at h
    linarith
  · split
    · intro h
      push_cast at h
      rw [abs_of_nonneg (by linarith)] at h
      linarith
    · split
      · intro _; assumption
      · intro _; omega

theorem rint_ge {x : ℚ} {n : Int} (h : (n : ℚ) ≤ x) : n ≤ rint x := by
  have h1 : n ≤ ⌊x⌋ := Int.le_floor.mpr h
  unfold rint; simp only
  split
  · exact h1
  · split
    · omega
    · split <;> omega

theorem rint_le {x : ℚ} {n : Int} (h : x ≤ n) : rint x ≤ n := by
  have he := rint_err x
  rw [abs_le] at he
  have h3 : (rint x : ℚ) ≤ n + 1 / 2 := by linarith [he.2]
  have h4 : (rint x : ℚ) < (n + 1 : Int) := by push_cast; linarith
  have := Int.cast_lt.mp h4
  omega

theorem rint_lt {x : ℚ} {n : Int} (h : x < n - 1 / 2) : rint x < n := by
  have he := rint_err x
  rw [abs_le] at he
  have h3 : (rint x : ℚ) < n := by linarith [he.2]
  exact Int.cast_lt.mp h3

theorem rint_neg (x : ℚ) : rint (-x) = -rint x := by
  have h1 := Int.floor_le x
  have h2 := Int.lt_floor_add_one x
  by_cases hi : x = ⌊x⌋
  · rw [hi]
    have : (-(⌊x⌋ : ℚ)) = ((-⌊x⌋ : Int) : ℚ) := by push_cast; rfl
    rw [this, rint_int, rint_int]
  · have hlt : (⌊x⌋ : ℚ) < x := lt_of_le_of_ne h1 (Ne.symm hi)
    have hf : ⌊-x⌋ = -⌊x⌋ - 1 := by
      rw [Int.floor_eq_iff]
      push_cast
      constructor <;> linarith
    unfold rint
    simp only [hf]
    push_cast
    by_cases a : x - ⌊x⌋ < 1 / 2
    · rw [if_pos a, if_neg (by linarith), if_pos (by linarith)]; ring
    · rw [if_neg a]
      by_cases b : 1 / 2 < x - ⌊x⌋
      · rw [if_pos b, if_pos (by linarith)]; ring
      · rw [if_neg b, if_neg (by linarith), if_neg (by linarith)]
        by_cases c : ⌊x⌋ % 2 = 0
        · rw [if_pos c, if_neg (by omega)]; ring
        · rw [if_neg c, if_pos (by omega)]; ring

/-- The unit of the conversion to `float`. -/
def unit (x : ℚ) : ℚ := 2 ^ max (Int.log 2 |x| - 23) (-149)

theorem unit_pos (x : ℚ) : 0 < unit x := by unfold unit; positivity

theorem toFloat_eq (x : ℚ) : toFloat x = if |(rint (x / unit x) : ℚ) * unit x| < 2 ^ 128 then
    some (rint (x / unit x) * unit x) else none := rfl

theorem toFloat_neg (x : ℚ) : toFloat (-x) = (toFloat x).map (fun y => -y) := by
  have hu : unit (-x) = unit x := by unfold unit; rw [abs_neg]
  rw [toFloat_eq, toFloat_eq, hu, neg_div, rint_neg]
  push_cast
  rw [neg_mul, abs_neg]
  split <;> simp

theorem eusfloat_neg (x : ℚ) : eusfloat_to_big (-x) =
    match eusfloat_to_big x with | .ok i => .ok (-i) | .ub => .ub := by
  unfold eusfloat_to_big
  rw [toFloat_neg]
  cases h : toFloat x with
  | none => rfl
  | some f =>
    simp only [Option.map_some]
    rcases lt_trichotomy f 0 with hf | hf | hf
    · rw [if_neg (by linarith), if_pos hf]
      by_cases hb : -f ≤ 2 ^ 61
      · rw [if_pos hb, if_pos hb]
        unfold smallToInt
        rw [if_neg (by linarith), if_pos hf]
        cases toInt (-f) <;> simp
      · rw [if_neg hb, if_neg hb]
        cases bigToInt (-f) <;> simp
    · subst hf
      simp [smallToInt, toInt]
    · have hn : ¬ f < 0 := by linarith
      have hm : -f < 0 := by linarith
      simp only [neg_neg]
      rw [if_pos hm, if_neg hn]
      by_cases hb : f ≤ 2 ^ 61
      · rw [if_pos hb, if_pos hb]
        unfold smallToInt
        rw [if_pos hm, if_neg hn, neg_neg]
        cases toInt f <;> rfl
      · rw [if_neg hb, if_neg hb]
        cases bigToInt f <;> rfl

theorem log_eq {x : ℚ} {k : Int} (h1 : (2 : ℚ) ^ k ≤ x) (h2 : x < 2 ^ (k + 1)) : Int.log 2 x = k := by
  have hx : 0 < x := lt_of_lt_of_le (by positivity) h1
  have a : k ≤ Int.log 2 x := by
    rw [← Int.zpow_le_iff_le_log (by norm_num) hx]; exact_mod_cast h1
  have b : Int.log 2 x < k + 1 := by
    rw [← Int.lt_zpow_iff_log_lt (by norm_num) hx]; exact_mod_cast h2
  omega

theorem log_bounds {x : ℚ} (hx : 0 < x) : (2 : ℚ) ^ Int.log 2 x ≤ x ∧ x < 2 ^ (Int.log 2 x + 1) := by
  constructor
  · have := Int.zpow_log_le_self (b := 2) (by norm_num) hx
    exact_mod_cast this
  · have := Int.lt_zpow_succ_log_self (b := 2) (by norm_num) x
    exact_mod_cast this

theorem log_pos_int {n : Int} (hn : 0 < n) : 0 ≤ Int.log 2 (n : ℚ) := by
  have h : (1 : ℚ) ≤ n := by exact_mod_cast hn
  have := (log_bounds (x := (n : ℚ)) (by linarith)).2
  by_contra hc
  have h2 : (2 : ℚ) ^ (Int.log 2 (n : ℚ) + 1) ≤ 2 ^ (0 : Int) := zpow_le_zpow_right₀ (by norm_num) (by omega)
  rw [zpow_zero] at h2
  linarith

theorem unit_int {n : Int} (hn : 0 < n) : unit n = 2 ^ (Int.log 2 (n : ℚ) - 23) := by
  have h0 := log_pos_int hn
  unfold unit
  have : |(n : ℚ)| = n := abs_of_pos (by exact_mod_cast hn)
  rw [this, max_eq_left (by omega)]

/-- Short integers divide evenly. -/
theorem short_div {n : Int} (hn : 0 < n) (h : Short n) : ∃ q : Int, (n : ℚ) / unit n = q := by
  obtain ⟨k, j, rfl, hk⟩ := h
  have hkp : 0 < k := by
    have : (0 : Int) < 2 ^ j := by positivity
    exact (mul_pos_iff_of_pos_right this).mp hn
  rw [unit_int hn]
  have hb := log_bounds (x := ((k * 2 ^ j : Int) : ℚ)) (by exact_mod_cast hn)
  set l := Int.log 2 ((k * 2 ^ j : Int) : ℚ) with hl
  have hk2 : k ≤ 2 ^ 24 := by rwa [abs_of_pos hkp] at hk
  rcases lt_or_ge l (24 + j) with hlt | hge
  · -- the unit is at most 2^j
    obtain ⟨d, hd⟩ : ∃ d : ℕ, (j : Int) = l - 23 + d := ⟨((j : Int) - (l - 23)).toNat, by omega⟩
    refine ⟨k * 2 ^ d, ?_⟩
    push_cast
    have : (2 : ℚ) ^ j = 2 ^ (l - 23) * 2 ^ d := by
      rw [← zpow_natCast (2 : ℚ) j, hd, zpow_add₀ (by norm_num), zpow_natCast]
    rw [this]
    field_simp
  · -- then k is 2^24
    have h24 : (2 : ℚ) ^ 24 * 2 ^ j ≤ ((k * 2 ^ j : Int) : ℚ) := by
      refine le_trans ?_ hb.1
      rw [← zpow_natCast (2 : ℚ) j, ← zpow_natCast (2 : ℚ) 24, ← zpow_add₀ (by norm_num)]
      exact zpow_le_zpow_right₀ (by norm_num) (by push_cast; omega)
    have hke : k = 2 ^ 24 := by
      push_cast at h24
      have : (2 : ℚ) ^ 24 ≤ k := le_of_mul_le_mul_right h24 (by positivity)
      have : (2 : Int) ^ 24 ≤ k := by exact_mod_cast this
      omega
    have hle : l = 24 + j := by
      rw [hl, hke]
      apply log_eq
      · push_cast
        rw [zpow_add₀ (by norm_num), zpow_natCast]; norm_num
      · push_cast
        rw [zpow_add₀ (by norm_num), zpow_add₀ (by norm_num), zpow_natCast]
        have : (0 : ℚ) < 2 ^ j := by positivity
        norm_num
    refine ⟨2 ^ 23, ?_⟩
    rw [hle, hke]
    have : (24 : Int) + j - 23 = (j : Int) + 1 := by ring
    rw [this, zpow_add₀ (by norm_num), zpow_natCast]
    push_cast
    field_simp
    norm_num

/-- An evenly divided integer is short. -/
theorem div_short {n : Int} (hn : 0 < n) (q : Int) (h : (n : ℚ) / unit n = q) : Short n := by
  rw [unit_int hn] at h
  have hb := log_bounds (x := (n : ℚ)) (by exact_mod_cast hn)
  have hl0 := log_pos_int hn
  set l := Int.log 2 (n : ℚ)
  rcases lt_or_ge l 23 with hlt | hge
  · refine ⟨n, 0, by simp, ?_⟩
    have h1 : (n : ℚ) < 2 ^ (24 : Int) := lt_of_lt_of_le hb.2 (zpow_le_zpow_right₀ (by norm_num) (by omega))
    have h2 : n < 2 ^ 24 := by exact_mod_cast h1
    rw [abs_of_pos hn]; omega
  · obtain ⟨d, hd⟩ : ∃ d : ℕ, l = 23 + d := ⟨(l - 23).toNat, by omega⟩
    have hu : (2 : ℚ) ^ (l - 23) = 2 ^ d := by
      have : l - 23 = (d : Int) := by omega
      rw [this, zpow_natCast]
    rw [hu] at h
    have hnq : (n : ℚ) = q * 2 ^ d := by rw [← h]; field_simp
    refine ⟨q, d, by exact_mod_cast hnq, ?_⟩
    have hq0 : 0 < q := by
      have : (0 : ℚ) < q * 2 ^ d := by rw [← hnq]; exact_mod_cast hn
      have := (mul_pos_iff_of_pos_right (by positivity)).mp this
      exact_mod_cast this
    rw [abs_of_pos hq0]
    have h1 : (q : ℚ) * 2 ^ d < 2 ^ 24 * 2 ^ d := by
      rw [← hnq]
      refine lt_of_lt_of_le hb.2 ?_
      rw [← zpow_natCast (2 : ℚ) d, ← zpow_natCast (2 : ℚ) 24, ← zpow_add₀ (by norm_num)]
      exact zpow_le_zpow_right₀ (by norm_num) (by push_cast; omega)
    have h2 := lt_of_mul_lt_mul_right h1 (by positivity)
    have h3 : q < 2 ^ 24 := by exact_mod_cast h2
    omega

/-- The float of a positive number: how it compares. -/
theorem float_ge {x : ℚ} {q : Int} {f : ℚ} (hf : toFloat x = some f) (h : (q : ℚ) * unit x ≤ x) :
    (q : ℚ) * unit x ≤ f := by
  rw [toFloat_eq] at hf
  split at hf
  · simp only [Option.some.injEq] at hf
    subst hf
    have : (q : ℚ) ≤ x / unit x := by rw [le_div_iff₀ (unit_pos x)]; exact h
    have := rint_ge this
    have : (q : ℚ) ≤ rint (x / unit x) := by exact_mod_cast this
    exact mul_le_mul_of_nonneg_right this (le_of_lt (unit_pos x))
  · cases hf

theorem float_le {x : ℚ} {q : Int} {f : ℚ} (hf : toFloat x = some f) (h : x ≤ (q : ℚ) * unit x) :
    f ≤ (q : ℚ) * unit x := by
  rw [toFloat_eq] at hf
  split at hf
  · simp only [Option.some.injEq] at hf
    subst hf
    have : x / unit x ≤ q := by rw [div_le_iff₀ (unit_pos x)]; exact h
    have := rint_le this
    have : (rint (x / unit x) : ℚ) ≤ q := by exact_mod_cast this
    exact mul_le_mul_of_nonneg_right this (le_of_lt (unit_pos x))
  · cases hf

theorem float_lt {x : ℚ} {q : Int} {f : ℚ} (hf : toFloat x = some f) (h : x < ((q : ℚ) - 1 / 2) * unit x) :
    f < (q : ℚ) * unit x := by
  rw [toFloat_eq] at hf
  split at hf
  · simp only [Option.some.injEq] at hf
    subst hf
    have : x / unit x < q - 1 / 2 := by rw [div_lt_iff₀ (unit_pos x)]; exact h
    have := rint_lt this
    have : (rint (x / unit x) : ℚ) < q := by exact_mod_cast this
    exact mul_lt_mul_of_pos_right this (unit_pos x)
  · cases hf

theorem float_short {n : Int} (hn : 0 < n) (hb : n < 2 ^ 128) (h : Short n) : toFloat (n : ℚ) = some (n : ℚ) := by
  obtain ⟨q, hq⟩ := short_div hn h
  rw [toFloat_eq, hq, rint_int, ← hq]
  have : (n : ℚ) / unit n * unit n = n := div_mul_cancel₀ _ (ne_of_gt (unit_pos _))
  rw [this, if_pos]
  rw [abs_of_pos (by exact_mod_cast hn)]
  exact_mod_cast hb

/-- Powers of two at least the unit are multiples of it. -/
theorem float_ge_pow {x : ℚ} (hx : 0 < x) {f : ℚ} (hf : toFloat x = some f) (k : Int) (hk : -126 ≤ k)
    (h : (2 : ℚ) ^ k ≤ x) : (2 : ℚ) ^ k ≤ f := by
  have hb := log_bounds hx
  have hl : k ≤ Int.log 2 x := by
    rw [← Int.zpow_le_iff_le_log (by norm_num) hx]; exact_mod_cast h
  -- compare with 2^log, which is 2^23 units
  have hu : unit x = 2 ^ (Int.log 2 x - 23) := by
    unfold unit; rw [abs_of_pos hx, max_eq_left (by omega)]
  have h1 : ((2 ^ 23 : Int) : ℚ) * unit x = 2 ^ Int.log 2 x := by
    rw [hu, c23]
    rw [← zpow_natCast (2 : ℚ) 23, ← zpow_add₀ (by norm_num)]
    congr 1
    push_cast
    ring
  have h2 := float_ge hf (q := 2 ^ 23) (by rw [h1]; exact hb.1)
  rw [h1] at h2
  exact le_trans (zpow_le_zpow_right₀ (by norm_num) hl) h2

theorem toInt_int {n : Int} : toInt (n : ℚ) = if -2 ^ 31 ≤ n ∧ n < 2 ^ 31 then .ok n else .ub := by
  unfold toInt
  simp

/-- Small positive integers come back exactly when they are short. -/
theorem big_of_int {n : Int} (hn : 0 < n) (hb : n < 2 ^ 31) :
    eusfloat_to_big n = .ok n ↔ Short n := by
  constructor
  · intro h
    unfold eusfloat_to_big at h
    cases hf : toFloat (n : ℚ) with
    | none => rw [hf] at h; cases h
    | some f =>
      rw [hf] at h
      simp only at h
      have hb2 := log_bounds (x := (n : ℚ)) (by exact_mod_cast hn)
      have hl0 := log_pos_int hn
      have hu := unit_int hn
      set l := Int.log 2 (n : ℚ) with hl
      have hf1 : (1 : ℚ) ≤ f := by
        have := float_ge_pow (x := (n : ℚ)) (by exact_mod_cast hn) hf 0 (by norm_num) (by
          rw [zpow_zero]; exact_mod_cast hn)
        simpa using this
      -- below 2^23 everything is short
      rcases lt_or_ge l 23 with hlt | hge
      · refine ⟨n, 0, by simp, ?_⟩
        have h1 : (n : ℚ) < 2 ^ (24 : Int) := lt_of_lt_of_le hb2.2 (zpow_le_zpow_right₀ (by norm_num) (by omega))
        have h2 : n < 2 ^ 24 := by exact_mod_cast h1
        rw [abs_of_pos hn]; omega
      · obtain ⟨d, hd⟩ : ∃ d : ℕ, l = 23 + d := ⟨(l - 23).toNat, by omega⟩
        have hu2 : unit n = ((2 ^ d : Int) : ℚ) := by
          rw [hu]
          have : l - 23 = (d : Int) := by omega
          rw [this, zpow_natCast]; push_cast; rfl
        have hfe : f = ((rint ((n : ℚ) / unit n) * 2 ^ d : Int) : ℚ) := by
          rw [toFloat_eq] at hf
          split at hf
          · simp only [Option.some.injEq] at hf
            rw [← hf, hu2]; push_cast; rfl
          · cases hf
        set z := rint ((n : ℚ) / unit n) * 2 ^ d with hz
        rw [if_neg (by linarith)] at h
        have hl31 : l ≤ 30 := by
          by_contra hc
          have h1 : (2 : ℚ) ^ (31 : Int) ≤ n := le_trans (zpow_le_zpow_right₀ (by norm_num) (by omega)) hb2.1
          have h2 : (2 : Int) ^ 31 ≤ n := by exact_mod_cast h1
          omega
        have hle : f ≤ 2 ^ 31 := by
          have := float_le hf (q := 2 ^ 24) (by
            rw [hu2]
            have : (2 : ℚ) ^ (l + 1) = 2 ^ 24 * 2 ^ d := by
              rw [hd, ← zpow_natCast (2 : ℚ) d, ← zpow_natCast (2 : ℚ) 24, ← zpow_add₀ (by norm_num)]
              congr 1; push_cast; ring
            rw [c24, Int.cast_pow, Int.cast_ofNat, ← this]
            exact le_of_lt hb2.2)
          refine le_trans this ?_
          rw [hu2, c24, Int.cast_pow, Int.cast_ofNat]
          have hd7 : d ≤ 7 := by omega
          calc (2 : ℚ) ^ 24 * 2 ^ d ≤ 2 ^ 24 * 2 ^ 7 :=
                mul_le_mul_of_nonneg_left (pow_le_pow_right₀ (by norm_num) hd7) (by positivity)
            _ = 2 ^ 31 := by norm_num
        rw [if_pos (le_trans hle (by norm_num))] at h
        unfold smallToInt at h
        rw [if_neg (by linarith), hfe, toInt_int] at h
        split at h
        · simp only [Res.ok.injEq] at h
          have hnz : (n : ℚ) = rint ((n : ℚ) / unit n) * unit n := by
            have e2 : (2 : ℚ) ^ d = unit n := by rw [hu2]; push_cast; rfl
            have := congrArg (fun i : Int => (i : ℚ)) h
            rw [hz] at this
            push_cast at this
            rw [e2] at this
            exact this.symm
          apply div_short hn (rint ((n : ℚ) / unit n))
          rw [div_eq_iff (ne_of_gt (unit_pos _))]
          exact hnz
        · cases h
  · intro h
    unfold eusfloat_to_big
    rw [float_short hn (by omega) h]
    have hp : (0 : ℚ) < n := by exact_mod_cast hn
    have hle : (n : ℚ) ≤ 2 ^ 61 := by
      have : n ≤ 2 ^ 61 := by omega
      exact_mod_cast this
    simp only
    rw [if_neg (by linarith), if_pos hle]
    unfold smallToInt
    rw [if_neg (by linarith), toInt_int, if_pos (by constructor <;> omega)]

/-- From 2^31 to 2^85 the behaviour is undefined. -/
theorem big_undefined {n : Int} (h1 : 2 ^ 31 ≤ n) (h2 : n ≤ 2 ^ 85) : eusfloat_to_big n = .ub := by
  have hn : 0 < n := by omega
  have hnq : (0 : ℚ) < n := by exact_mod_cast hn
  unfold eusfloat_to_big
  cases hf : toFloat (n : ℚ) with
  | none => rfl
  | some f =>
    simp only
    have hlo : (2 : ℚ) ^ 31 ≤ f := by
      have := float_ge_pow hnq hf 31 (by norm_num) (by exact_mod_cast h1)
      exact_mod_cast this
    have hfp : 0 < f := by linarith [show (0:ℚ) < 2 ^ 31 by positivity]
    have hhi : f ≤ 2 ^ 85 := by
      have hb := log_bounds hnq
      have hu := unit_int hn
      have hl : Int.log 2 (n : ℚ) ≤ 85 := by
        by_contra hc
        have h3 : (2 : ℚ) ^ (86 : Int) ≤ n := le_trans (zpow_le_zpow_right₀ (by norm_num) (by omega)) hb.1
        have h4 : (2 : Int) ^ 86 ≤ n := by exact_mod_cast h3
        omega
      -- 2^85 is a multiple of the unit
      obtain ⟨d, hd⟩ : ∃ d : ℕ, Int.log 2 (n : ℚ) + d = 85 := ⟨(85 - Int.log 2 (n : ℚ)).toNat, by omega⟩
      have h85 : ((2 ^ (23 + d) : Int) : ℚ) * unit n = 2 ^ 85 := by
        rw [hu]
        push_cast
        rw [← zpow_natCast (2 : ℚ) (23 + d), ← zpow_natCast (2 : ℚ) 85, ← zpow_add₀ (by norm_num)]
        congr 1
        push_cast
        omega
      have := float_le hf (q := 2 ^ (23 + d)) (by rw [h85]; exact_mod_cast h2)
      rwa [h85] at this
    rw [if_neg (by linarith)]
    by_cases h61 : f ≤ 2 ^ 61
    · rw [if_pos h61]
      unfold smallToInt
      rw [if_neg (by linarith)]
      unfold toInt
      rw [if_pos (le_of_lt hfp)]
      simp only
      rw [if_neg]
      rintro ⟨_, h⟩
      have : (2 : Int) ^ 31 ≤ ⌊f⌋ := Int.le_floor.mpr (by exact_mod_cast hlo)
      omega
    · rw [if_neg h61]
      unfold bigToInt
      simp only
      have hb := log_bounds hfp
      have hl1 : 61 ≤ Int.log 2 f := by
        rw [← Int.zpow_le_iff_le_log (by norm_num) hfp]
        push_cast
        have := le_of_lt (lt_of_not_ge h61)
        exact_mod_cast this
      have hl2 : Int.log 2 f ≤ 85 := by
        by_contra hc
        have h3 : (2 : ℚ) ^ (86 : Int) ≤ f := le_trans (zpow_le_zpow_right₀ (by norm_num) (by omega)) hb.1
        have h4 : (2 : ℚ) ^ 86 ≤ f := by exact_mod_cast h3
        linarith [show (2:ℚ) ^ 85 < 2 ^ 86 by norm_num]
      set l := Int.log 2 f
      have hj : (l + 1 - 24) % 63 = l + 1 - 24 := by omega
      have hiz : (2 : Int) ^ 23 ≤ ⌊f / 2 ^ (l + 1 - 24)⌋ := by
        rw [Int.le_floor, c23]
        rw [le_div_iff₀ (by positivity), ← zpow_natCast (2 : ℚ) 23, ← zpow_add₀ (by norm_num)]
        refine le_trans ?_ hb.1
        exact zpow_le_zpow_right₀ (by norm_num) (by push_cast; omega)
      rw [if_pos]
      rw [hj]
      have h8 : 8 ≤ (l + 1 - 24).toNat := by omega
      calc (2 : Int) ^ 31 = 2 ^ 23 * 2 ^ 8 := by norm_num
        _ ≤ ⌊f / 2 ^ (l + 1 - 24)⌋ * 2 ^ (l + 1 - 24).toNat :=
          mul_le_mul hiz (pow_le_pow_right₀ (by norm_num) h8) (by positivity) (by
            have : (0 : Int) ≤ 2 ^ 23 := by positivity
            omega)

theorem big_zero : eusfloat_to_big 0 = .ok 0 := by
  unfold eusfloat_to_big
  have : toFloat 0 = some 0 := by
    rw [toFloat_eq]
    simp [rint]
  rw [this]
  simp [smallToInt, toInt]

theorem short_neg {n : Int} : Short (-n) ↔ Short n := by
  constructor
  · rintro ⟨k, j, h, hk⟩
    exact ⟨-k, j, by rw [neg_mul, ← h]; ring, by rwa [abs_neg]⟩
  · rintro ⟨k, j, h, hk⟩
    exact ⟨-k, j, by rw [neg_mul, ← h], by rwa [abs_neg]⟩

/-- Integers below 2^31 in magnitude. -/
theorem big_iff (n : Int) (hb : |n| < 2 ^ 31) : eusfloat_to_big n = .ok n ↔ Short n := by
  rcases lt_trichotomy n 0 with h | h | h
  · rw [abs_of_neg h] at hb
    have := big_of_int (n := -n) (by omega) hb
    rw [short_neg] at this
    rw [← this]
    have e : ((-n : Int) : ℚ) = -(n : ℚ) := by push_cast; rfl
    rw [e, eusfloat_neg]
    cases eusfloat_to_big (n : ℚ) with
    | ub => simp
    | ok i => simp
  · subst h
    simp only [Int.cast_zero, big_zero]
    exact ⟨fun _ => ⟨0, 0, by simp, by simp⟩, fun _ => trivial⟩
  · rw [abs_of_pos h] at hb
    exact big_of_int h hb

theorem big_undefined_abs (n : Int) (h1 : 2 ^ 31 ≤ |n|) (h2 : |n| ≤ 2 ^ 85) : eusfloat_to_big n = .ub := by
  rcases le_or_gt 0 n with h | h
  · rw [abs_of_nonneg h] at h1 h2; exact big_undefined h1 h2
  · rw [abs_of_neg h] at h1 h2
    have e : (n : ℚ) = -((-n : Int) : ℚ) := by push_cast; ring
    rw [e, eusfloat_neg, big_undefined h1 h2]

theorem short_small (n : Int) (h : |n| ≤ 2 ^ 24) : Short n := ⟨n, 0, by simp, h⟩

/-- Truncation of a positive number that the conversion does not carry to the next integer. -/
theorem trunc_pos {x : ℚ} (hx : 0 ≤ x) (hb : x < 2 ^ 23)
    (hsafe : x ≤ (⌊x⌋ + 1) * (1 - 1 / 2 ^ 24)) : eusfloat_to_big x = .ok ⌊x⌋ := by
  rcases eq_or_lt_of_le hx with h0 | hpos
  · rw [← h0]; simpa using big_zero
  have hu0 := unit_pos x
  have hlb := log_bounds hpos
  have hl : Int.log 2 x < 23 := by
    rw [← Int.lt_zpow_iff_log_lt (by norm_num) hpos]; exact_mod_cast hb
  -- the unit is 2^-d
  obtain ⟨d, hd⟩ : ∃ d : ℕ, max (Int.log 2 |x| - 23) (-149) = -(d : Int) := by
    rw [abs_of_pos hpos]
    exact ⟨(-(max (Int.log 2 x - 23) (-149))).toNat, by omega⟩
  have hu : unit x = (2 ^ d)⁻¹ := by unfold unit; rw [hd, zpow_neg, zpow_natCast]
  have hmul : ∀ m : Int, ((m * 2 ^ d : Int) : ℚ) * unit x = m := by
    intro m; rw [hu]; push_cast; field_simp
  have hfl := Int.floor_le x
  have hfn : 0 ≤ ⌊x⌋ := Int.floor_nonneg.mpr hx
  have hfb : ⌊x⌋ + 1 ≤ 2 ^ 23 := by
    have : ⌊x⌋ < 2 ^ 23 := Int.floor_lt.mpr (by exact_mod_cast hb)
    omega
  have hlt := Int.lt_floor_add_one x
  unfold eusfloat_to_big
  have hsome : ∃ f, toFloat x = some f := by
    rw [toFloat_eq]
    rw [if_pos]
    · exact ⟨_, rfl⟩
    · have h1 : x / unit x ≤ (((⌊x⌋ + 1) * 2 ^ d : Int) : ℚ) := by
        rw [div_le_iff₀ hu0, hmul]; push_cast; linarith
      have h2 : ((0 : Int) : ℚ) ≤ x / unit x := by push_cast; positivity
      have h3 : (rint (x / unit x) : ℚ) ≤ (((⌊x⌋ + 1) * 2 ^ d : Int) : ℚ) := by exact_mod_cast rint_le h1
      have h4 : (0 : ℚ) ≤ rint (x / unit x) := by exact_mod_cast rint_ge h2
      rw [abs_of_nonneg (mul_nonneg h4 (le_of_lt hu0))]
      calc (rint (x / unit x) : ℚ) * unit x ≤ (((⌊x⌋ + 1) * 2 ^ d : Int) : ℚ) * unit x :=
            mul_le_mul_of_nonneg_right h3 (le_of_lt hu0)
        _ = ((⌊x⌋ + 1 : Int) : ℚ) := hmul _
        _ ≤ ((2 ^ 23 : Int) : ℚ) := by exact_mod_cast hfb
        _ < 2 ^ 128 := by norm_num
  obtain ⟨f, hf⟩ := hsome
  rw [hf]
  simp only
  have hge : (⌊x⌋ : ℚ) ≤ f := by
    have := float_ge hf (q := ⌊x⌋ * 2 ^ d) (by rw [hmul]; exact hfl)
    rwa [hmul] at this
  -- half a unit is less than what is left
  have hhalf : unit x / 2 < ((⌊x⌋ : ℚ) + 1) / 2 ^ 24 := by
    rcases le_or_gt (-126) (Int.log 2 x) with hc | hc
    · have hu2 : unit x = 2 ^ (Int.log 2 x) / 2 ^ 23 := by
        unfold unit
        rw [abs_of_pos hpos, max_eq_left (by omega), zpow_sub₀ (by norm_num)]
        norm_num
      have : unit x ≤ x / 2 ^ 23 := by rw [hu2]; gcongr; exact hlb.1
      have h3 : x / 2 ^ 23 < ((⌊x⌋ : ℚ) + 1) / 2 ^ 23 := by gcongr
      have h4 : ((⌊x⌋ : ℚ) + 1) / 2 ^ 24 = ((⌊x⌋ : ℚ) + 1) / 2 ^ 23 / 2 := by ring
      rw [h4]
      linarith
    · have hu2 : unit x = 2 ^ (-149 : Int) := by
        unfold unit; rw [abs_of_pos hpos, max_eq_right (by omega)]
      rw [hu2]
      have h1 : (1 : ℚ) ≤ (⌊x⌋ : ℚ) + 1 := by
        have : (0 : ℚ) ≤ ⌊x⌋ := by exact_mod_cast hfn
        linarith
      have h2 : (2 : ℚ) ^ (-149 : Int) / 2 < 1 / 2 ^ 24 := by norm_num [zpow_neg]
      have h3 : (1 : ℚ) / 2 ^ 24 ≤ ((⌊x⌋ : ℚ) + 1) / 2 ^ 24 := by gcongr
      linarith
  have hltf : f < (⌊x⌋ : ℚ) + 1 := by
    have := float_lt hf (q := (⌊x⌋ + 1) * 2 ^ d) (by
      rw [sub_mul, hmul]
      push_cast
      have : ((⌊x⌋ : ℚ) + 1) * (1 - 1 / 2 ^ 24) = ((⌊x⌋ : ℚ) + 1) - ((⌊x⌋ : ℚ) + 1) / 2 ^ 24 := by ring
      rw [this] at hsafe
      linarith)
    rw [hmul] at this
    push_cast at this
    exact this
  have hf0 : 0 ≤ f := le_trans (by exact_mod_cast hfn) hge
  have hff : ⌊f⌋ = ⌊x⌋ := Int.floor_eq_iff.mpr ⟨hge, hltf⟩
  have hf61 : f ≤ 2 ^ 61 := by
    have : ((⌊x⌋ + 1 : Int) : ℚ) ≤ ((2 ^ 23 : Int) : ℚ) := by exact_mod_cast hfb
    push_cast at this
    linarith [show (2 : ℚ) ^ 23 < 2 ^ 61 by norm_num]
  rw [if_neg (by linarith), if_pos hf61]
  unfold smallToInt
  rw [if_neg (by linarith)]
  unfold toInt
  rw [if_pos hf0, hff]
  simp only
  rw [if_pos (by constructor <;> omega)]

end Eus.Flt
