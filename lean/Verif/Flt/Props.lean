import Verif.Flt.Box
import Verif.Flt.Round
import Verif.Flt.Print
set_option autoImplicit false
namespace Eus.Flt
open Spec

/-! ## C164: floats in pointers -/

/-- A float is a float, and neither an integer nor a pointer. -/
theorem C164_tag (b : BitVec 64) :
    isflt (makeflt b) = true ∧ isint (makeflt b) = false ∧ ispointer (makeflt b) = false := by
  have h := tag b
  unfold isflt isint ispointer
  rw [h]
  decide

/-- A finite number stays finite, keeps its sign, does not grow, and loses less than four units in the last place. -/
theorem C164_value_partial (b : BitVec 64) (s : Bool) (m : ℚ) (h : decode b = .fin s m) :
    ∃ m', decode (fltval (makeflt b)) = .fin s m' ∧ 0 ≤ m' ∧ m' ≤ m ∧ m - m' ≤ 3 * ulp b.toNat := by
  unfold decode at *
  rw [unbox_toNat, exp_cut, sign_cut, mag_cut]
  split at h
  · split at h <;> cases h
  · rename_i hne
    rw [if_neg hne]
    simp only [Dbl.fin.injEq] at h
    obtain ⟨rfl, rfl⟩ := h
    have hu := ulp_pos b.toNat
    have h3 : ((b.toNat % 4 : ℕ) : ℚ) ≤ 3 := by
      have : b.toNat % 4 ≤ 3 := by omega
      exact_mod_cast this
    have h0 : (0 : ℚ) ≤ ((b.toNat % 4 : ℕ) : ℚ) := Nat.cast_nonneg _
    refine ⟨_, rfl, ?_, ?_, ?_⟩
    · rw [← mag_cut]; exact mag_nonneg _
    · nlinarith
    · nlinarith

/-- Relative to the number, less than 2^-50, unless it is subnormal. -/
theorem C164_relative_partial (b : BitVec 64) (s s' : Bool) (m m' : ℚ) (h : decode b = .fin s m)
    (hn : (2 : ℚ) ^ (-1022 : Int) ≤ m) (h' : decode (fltval (makeflt b)) = .fin s' m') :
    m - m' < m / 2 ^ 50 := by
  obtain ⟨m'', h1, h2, h3, h4⟩ := C164_value_partial b s m h
  rw [h'] at h1
  simp only [Dbl.fin.injEq] at h1
  obtain ⟨_, rfl⟩ := h1
  unfold decode at h
  split at h
  · split at h <;> cases h
  · simp only [Dbl.fin.injEq] at h
    obtain ⟨_, rfl⟩ := h
    have hu := ulp_pos b.toNat
    have hge : (2 : ℚ) ^ 52 * ulp b.toNat ≤ mag b.toNat := by
      by_cases h0 : expOf b.toNat = 0
      · exfalso
        unfold mag ulp at hn
        rw [if_pos h0, if_pos h0] at hn
        have hf : fracOf b.toNat < 2 ^ 52 := by unfold fracOf; omega
        have hq : ((0 + fracOf b.toNat : ℕ) : ℚ) < 2 ^ 52 := by
          have : 0 + fracOf b.toNat < 2 ^ 52 := by omega
          exact_mod_cast this
        have : ((0 + fracOf b.toNat : ℕ) : ℚ) * 2 ^ (-1074 : Int) < 2 ^ 52 * 2 ^ (-1074 : Int) :=
          mul_lt_mul_of_pos_right hq (by positivity)
        rw [← zpow_natCast (2 : ℚ) 52, ← zpow_add₀ (by norm_num)] at this
        norm_num at this
        norm_num at hn
        linarith
      · unfold mag
        rw [if_neg h0]
        apply mul_le_mul_of_nonneg_right _ (le_of_lt hu)
        push_cast
        have : (0 : ℚ) ≤ fracOf b.toNat := Nat.cast_nonneg _
        linarith
    have h50 : mag b.toNat / 2 ^ 50 = mag b.toNat / 2 ^ 52 * 4 := by ring
    rw [h50]
    have : ulp b.toNat ≤ mag b.toNat / 2 ^ 52 := by rw [le_div_iff₀ (by norm_num)]; linarith
    linarith

/-- The order is kept. -/
theorem C164_monotone (b c : BitVec 64) (hb : (decode b).finite) (hc : (decode c).finite)
    (h : (decode b).val ≤ (decode c).val) :
    (decode (fltval (makeflt b))).val ≤ (decode (fltval (makeflt c))).val := by
  have hfin : ∀ b : BitVec 64, (decode b).finite → decode b = .fin (signOf b.toNat) (mag b.toNat) ∧
      decode (fltval (makeflt b)) = .fin (signOf b.toNat) (mag (b.toNat / 4 * 4)) := by
    intro b hb
    unfold decode at *
    rw [unbox_toNat, exp_cut, sign_cut]
    split at hb
    · split at hb <;> cases hb
    · rename_i hne
      rw [if_neg hne, if_neg hne]
      exact ⟨rfl, rfl⟩
  obtain ⟨b1, b2⟩ := hfin b hb
  obtain ⟨c1, c2⟩ := hfin c hc
  rw [b2, c2]
  rw [b1, c1] at h
  have nb := mag_nonneg (b.toNat / 4 * 4)
  have nc := mag_nonneg (c.toNat / 4 * 4)
  have lb : mag (b.toNat / 4 * 4) ≤ mag b.toNat := by
    rw [mag_cut]; have := ulp_pos b.toNat
    have h0 : (0 : ℚ) ≤ ((b.toNat % 4 : ℕ) : ℚ) := Nat.cast_nonneg _
    nlinarith
  have lc : mag (c.toNat / 4 * 4) ≤ mag c.toNat := by
    rw [mag_cut]; have := ulp_pos c.toNat
    have h0 : (0 : ℚ) ≤ ((c.toNat % 4 : ℕ) : ℚ) := Nat.cast_nonneg _
    nlinarith
  -- the order of the magnitudes is the order of the patterns
  have key : ∀ m n : Nat, mag m ≤ mag n → mag (m / 4 * 4) ≤ mag (n / 4 * 4) := by
    intro m n hmn
    rw [mag_low (m / 4 * 4), mag_low (n / 4 * 4)]
    have hle : m % 2 ^ 63 ≤ n % 2 ^ 63 := by
      by_contra hcon
      have := mag_strict (m := n % 2 ^ 63) (n := m % 2 ^ 63) (Nat.mod_lt _ (by norm_num)) (by omega)
      rw [← mag_low, ← mag_low] at this
      linarith
    exact mag_mono (Nat.mod_lt _ (by norm_num)) (by omega)
  unfold Dbl.val at *
  simp only at *
  cases hsb : signOf b.toNat <;> cases hsc : signOf c.toNat <;> simp only [hsb, hsc] at * <;> simp at *
  · exact key _ _ h
  · -- positive ≤ negative: both are zero
    have z1 : mag b.toNat = 0 := by linarith [mag_nonneg b.toNat, mag_nonneg c.toNat]
    have z2 : mag c.toNat = 0 := by linarith [mag_nonneg b.toNat, mag_nonneg c.toNat]
    linarith
  · linarith
  · exact key _ _ h

/-- The value is kept exactly when the low two bits are zero. -/
theorem C164_exact_iff (b : BitVec 64) (hb : (decode b).finite) :
    decode (fltval (makeflt b)) = decode b ↔ b.toNat % 4 = 0 := by
  unfold decode at *
  rw [unbox_toNat, exp_cut, sign_cut, mag_cut]
  split at hb
  · split at hb <;> cases hb
  · rename_i hne
    rw [if_neg hne, if_neg hne]
    simp only [Dbl.fin.injEq, true_and]
    have hu := ulp_pos b.toNat
    constructor
    · intro h
      have h1 : ((b.toNat % 4 : ℕ) : ℚ) * ulp b.toNat = 0 := by linarith
      rcases mul_eq_zero.mp h1 with h2 | h2
      · exact_mod_cast h2
      · linarith
    · intro h; rw [h]; simp

/-- Integers up to 2^51 are kept. -/
theorem C164_integers (b : BitVec 64) (s : Bool) (k : Nat) (hk : k ≤ 2 ^ 51) (h : decode b = .fin s k) :
    decode (fltval (makeflt b)) = .fin s k := by
  rw [← h]
  apply (C164_exact_iff b (by rw [h]; rfl)).mpr
  unfold decode at h
  split at h
  · split at h <;> cases h
  · simp only [Dbl.fin.injEq] at h
    exact int_frac _ k hk h.2

/-- Infinities are kept; boxing what was unboxed changes nothing. -/
theorem C164_again (b : BitVec 64) :
    makeflt (fltval (makeflt b)) = makeflt b ∧ (∀ s, decode b = .inf s → decode (fltval (makeflt b)) = .inf s) := by
  constructor
  · rw [unbox]
    unfold makeflt
    rw [BitVec.and_assoc, BitVec.and_self]
  · intro s h
    unfold decode at *
    rw [unbox_toNat, exp_cut, sign_cut, frac_cut]
    split at h
    · rename_i he
      split at h
      · rename_i hf
        rw [if_pos he, hf]; simpa using h
      · cases h
    · cases h

example : decode 0x3FF8000000000000#64 = .fin false ((2 ^ 52 + 2 ^ 51 : ℕ) * 2 ^ (-52 : Int)) := by
  have h1 : expOf (0x3FF8000000000000#64).toNat = 1023 := by decide
  have h2 : fracOf (0x3FF8000000000000#64).toNat = 2 ^ 51 := by decide
  have h3 : signOf (0x3FF8000000000000#64).toNat = false := by decide
  unfold decode mag ulp
  rw [h1, h2, h3]
  norm_num

/-- The double nearest to 0.1 is not what is stored. -/
theorem C164_cut_wrong : (decode 0x3FB999999999999A#64).finite = true ∧
    decode (fltval (makeflt 0x3FB999999999999A#64)) ≠ decode 0x3FB999999999999A#64 := by
  have hf : (decode 0x3FB999999999999A#64).finite = true := by
    unfold decode
    rw [if_neg (by decide)]; rfl
  refine ⟨hf, fun h => ?_⟩
  have := (C164_exact_iff _ hf).mp h
  revert this
  decide

/-- A not-a-number can come back as infinity. -/
theorem C164_nan_wrong : decode 0x7FF0000000000001#64 = .nan ∧
    decode (fltval (makeflt 0x7FF0000000000001#64)) = .inf false := by
  constructor
  · unfold decode
    rw [if_pos (by decide), if_neg (by decide)]
  · unfold decode
    rw [if_pos (by decide), if_pos (by decide)]
    rfl

/-! ## C165: the rounding functions -/

/-- `floor` up to 2^24. -/
theorem C165_floor_partial (x : ℚ) (h : |x| ≤ 2 ^ 24) : ∃ n : Int, FLOOR x = .ok n ∧ (n : ℚ) ≤ x ∧ x < n + 1 := by
  refine ⟨⌊x⌋, ?_, Int.floor_le x, Int.lt_floor_add_one x⟩
  obtain ⟨h1, h2⟩ := abs_le.mp h
  have a : -2 ^ 24 ≤ ⌊x⌋ := Int.le_floor.mpr (by push_cast; linarith)
  have b : ⌊x⌋ ≤ 2 ^ 24 := (Int.cast_le (R := ℚ)).mp (by push_cast; linarith [Int.floor_le x])
  have hab : |⌊x⌋| ≤ 2 ^ 24 := abs_le.mpr ⟨a, b⟩
  exact (big_iff _ (by omega)).mpr (short_small _ hab)

/-- `ceiling` up to 2^24. -/
theorem C165_ceiling_partial (x : ℚ) (h : |x| ≤ 2 ^ 24) :
    ∃ n : Int, CEILING x = .ok n ∧ x ≤ n ∧ (n : ℚ) < x + 1 := by
  refine ⟨⌈x⌉, ?_, Int.le_ceil x, Int.ceil_lt_add_one x⟩
  obtain ⟨h1, h2⟩ := abs_le.mp h
  have a : -2 ^ 24 ≤ ⌈x⌉ := (Int.cast_le (R := ℚ)).mp (by push_cast; linarith [Int.le_ceil x])
  have b : ⌈x⌉ ≤ 2 ^ 24 := Int.ceil_le.mpr (by push_cast; linarith)
  have hab : |⌈x⌉| ≤ 2 ^ 24 := abs_le.mpr ⟨a, b⟩
  exact (big_iff _ (by omega)).mpr (short_small _ hab)

/-- `round` up to 2^24: the nearest integer, the even one of two. -/
theorem C165_round_partial (x : ℚ) (h : |x| ≤ 2 ^ 24) : ∃ n : Int, ROUND x = .ok n ∧ Nearest x n := by
  refine ⟨rint x, ?_, rint_err x, rint_even x⟩
  obtain ⟨h1, h2⟩ := abs_le.mp h
  have a : -2 ^ 24 ≤ rint x := rint_ge (by push_cast; linarith)
  have b : rint x ≤ 2 ^ 24 := rint_le (by push_cast; linarith)
  have hab : |rint x| ≤ 2 ^ 24 := abs_le.mpr ⟨a, b⟩
  exact (big_iff _ (by omega)).mpr (short_small _ hab)

/-- `truncate` below 2^23, when the number is not within 2^-24 of itself from the next integer: the integer part,
towards zero. -/
theorem C165_truncate_partial (x : ℚ) (hb : |x| < 2 ^ 23) (hs : |x| ≤ (⌊|x|⌋ + 1) * (1 - 1 / 2 ^ 24)) :
    ∃ n : Int, TRUNCATE x = .ok n ∧ |(n : ℚ)| ≤ |x| ∧ |x| < |(n : ℚ)| + 1 ∧ 0 ≤ n * x := by
  have hfl := Int.floor_le |x|
  have hlt := Int.lt_floor_add_one |x|
  have hf0 : (0 : ℚ) ≤ ⌊|x|⌋ := by exact_mod_cast Int.floor_nonneg.mpr (abs_nonneg x)
  have ht := trunc_pos (abs_nonneg x) hb hs
  rcases le_or_gt 0 x with h | h
  · rw [abs_of_nonneg h] at *
    refine ⟨⌊x⌋, ht, ?_, ?_, mul_nonneg hf0 h⟩
    · rw [abs_of_nonneg hf0]; exact hfl
    · rw [abs_of_nonneg hf0]; exact hlt
  · rw [abs_of_neg h] at *
    refine ⟨-⌊-x⌋, ?_, ?_, ?_, ?_⟩
    · unfold TRUNCATE
      have : x = - -x := by ring
      rw [this, eusfloat_neg, ht]
      simp
    · push_cast; rw [abs_neg, abs_of_nonneg hf0]; exact hfl
    · push_cast; rw [abs_neg, abs_of_nonneg hf0]; exact hlt
    · push_cast; nlinarith

example : FLOOR (-5 / 2) = .ok (-3) ∧ ROUND (5 / 2) = .ok 2 := by
  obtain ⟨n, h1, h2, h3⟩ := C165_floor_partial (-5 / 2) (by norm_num)
  obtain ⟨m, k1, k2, k3⟩ := C165_round_partial (5 / 2) (by norm_num)
  have hn : n = -3 := by
    have a : n < -2 := (Int.cast_lt (R := ℚ)).mp (by push_cast; linarith)
    have b : -4 < n := (Int.cast_lt (R := ℚ)).mp (by push_cast; linarith)
    omega
  have hm : m = 2 := by
    rw [abs_le] at k2
    have a : m < 4 := (Int.cast_lt (R := ℚ)).mp (by push_cast; linarith [k2.2])
    have b : 1 < m := (Int.cast_lt (R := ℚ)).mp (by push_cast; linarith [k2.1])
    have : m = 2 ∨ m = 3 := by omega
    rcases this with h | h
    · exact h
    · subst h; norm_num at k3
  subst hn hm
  exact ⟨h1, k1⟩

/-- Beyond 2^24 and below 2^31: right exactly when the integer has at most 24 significant bits. -/
theorem C165_short (x : ℚ) :
    (|⌊x⌋| < 2 ^ 31 → (FLOOR x = .ok ⌊x⌋ ↔ Short ⌊x⌋)) ∧
    (|⌈x⌉| < 2 ^ 31 → (CEILING x = .ok ⌈x⌉ ↔ Short ⌈x⌉)) ∧
    (∀ n : Int, Nearest x n → |n| < 2 ^ 31 → (ROUND x = .ok n ↔ Short n)) := by
  refine ⟨fun h => big_iff _ h, fun h => big_iff _ h, fun n hn hb => ?_⟩
  have : rint x = n := by
    obtain ⟨h1, h2⟩ := hn
    have e1 := rint_err x
    have e2 := rint_even x
    rw [abs_le] at h1 e1
    have a : rint x ≤ n + 1 := by
      have : (rint x : ℚ) ≤ ((n + 1 : Int) : ℚ) := by push_cast; linarith
      exact_mod_cast this
    have b : n ≤ rint x + 1 := by
      have : (n : ℚ) ≤ ((rint x + 1 : Int) : ℚ) := by push_cast; linarith
      exact_mod_cast this
    rcases (by omega : rint x = n ∨ rint x = n + 1 ∨ n = rint x + 1) with h | h | h
    · exact h
    · exfalso
      have hq : (rint x : ℚ) = n + 1 := by rw [h]; push_cast; rfl
      have p1 := h2 (by rw [abs_of_nonpos (by linarith)]; linarith)
      have p2 := e2 (by rw [hq, abs_of_nonneg (by linarith)]; linarith)
      omega
    · exfalso
      have hq : (n : ℚ) = rint x + 1 := by rw [h]; push_cast; rfl
      have p1 := h2 (by rw [abs_of_nonneg (by linarith)]; linarith)
      have p2 := e2 (by rw [abs_of_nonpos (by linarith)]; linarith)
      omega
  rw [← this]
  exact big_iff _ (by rw [this]; exact hb)

/-- From 2^31 to 2^85 in magnitude nothing is promised: the conversion to `int` or the shift is undefined. -/
theorem C165_undefined (x : ℚ) :
    (2 ^ 31 ≤ |⌊x⌋| → |⌊x⌋| ≤ 2 ^ 85 → FLOOR x = .ub) ∧ (2 ^ 31 ≤ |⌈x⌉| → |⌈x⌉| ≤ 2 ^ 85 → CEILING x = .ub) :=
  ⟨fun h1 h2 => big_undefined_abs _ h1 h2, fun h1 h2 => big_undefined_abs _ h1 h2⟩

theorem C165_large_wrong : FLOOR 3000000000 = .ub := by
  apply (C165_undefined _).1
  · have : ⌊(3000000000 : ℚ)⌋ = 3000000000 := by norm_num
    rw [this]; norm_num
  · have : ⌊(3000000000 : ℚ)⌋ = 3000000000 := by norm_num
    rw [this]; norm_num

/-- `(floor 16777217.5)` is not 16777217. -/
theorem C165_floor_wrong : FLOOR (33554435 / 2) ≠ .ok 16777217 := by
  have hf : ⌊(33554435 / 2 : ℚ)⌋ = 16777217 := by
    rw [Int.floor_eq_iff]; norm_num
  intro h
  rw [← hf] at h
  have := ((C165_short (33554435 / 2)).1 (by rw [hf]; norm_num)).mp h
  rw [hf] at this
  obtain ⟨k, j, hkj, hk⟩ := this
  cases j with
  | zero => simp at hkj; subst hkj; norm_num at hk
  | succ j =>
    rw [pow_succ, ← mul_assoc] at hkj
    omega

/-- `(truncate 0.99999999)` is 1: the number is rounded to 24 bits first. -/
theorem C165_truncate_wrong : TRUNCATE (1 - 1 / 2 ^ 27) = .ok 1 := by
  have hl : Int.log 2 |(1 - 1 / 2 ^ 27 : ℚ)| = -1 := by
    apply log_eq
    · norm_num [abs_of_pos]
    · norm_num [abs_of_pos]
  have hu : unit (1 - 1 / 2 ^ 27) = 1 / 2 ^ 24 := by
    unfold unit; rw [hl]; norm_num
  have hr : rint ((1 - 1 / 2 ^ 27) / (1 / 2 ^ 24)) = 2 ^ 24 := by
    have hfl : ⌊((1 - 1 / 2 ^ 27) / (1 / 2 ^ 24) : ℚ)⌋ = 2 ^ 24 - 1 := by
      rw [Int.floor_eq_iff]; norm_num
    unfold rint
    simp only [hfl]
    norm_num
  have ht : toFloat (1 - 1 / 2 ^ 27) = some 1 := by
    rw [toFloat_eq, hu, hr]
    norm_num
  unfold TRUNCATE eusfloat_to_big
  rw [ht]
  simp only
  rw [if_neg (by norm_num), if_pos (by norm_num)]
  unfold smallToInt
  rw [if_neg (by norm_num)]
  have := toInt_int (n := 1)
  simpa using this

/-! ## C166: printed floats -/

theorem decimals_pos (i : Int) : 0 < decimals i := by
  unfold decimals; repeat' split
  all_goals norm_num

theorem decimals_error (a : ℚ) (ha : 1 ≤ a) (hb : a ≤ 10 ^ 5) : 1 / 2 / (10 : ℚ) ^ decimals ⌊a⌋ ≤ a * (1 / 2) / 10 ^ 5 := by
  have h1 := Int.floor_le a
  have h1' : 1 ≤ ⌊a⌋ := Int.le_floor.mpr (by exact_mod_cast ha)
  unfold decimals
  rw [if_neg (by omega)]
  split
  · norm_num; linarith
  · split
    · have : (10 : ℚ) ≤ ⌊a⌋ := by exact_mod_cast (by omega : (10 : Int) ≤ ⌊a⌋)
      norm_num; linarith
    · split
      · have : (100 : ℚ) ≤ ⌊a⌋ := by exact_mod_cast (by omega : (100 : Int) ≤ ⌊a⌋)
        norm_num; linarith
      · split
        · have : (1000 : ℚ) ≤ ⌊a⌋ := by exact_mod_cast (by omega : (1000 : Int) ≤ ⌊a⌋)
          norm_num; linarith
        · have : (10000 : ℚ) ≤ ⌊a⌋ := by exact_mod_cast (by omega : (10000 : Int) ≤ ⌊a⌋)
          norm_num; linarith

theorem signed (x r : ℚ) : |(if x < 0 then -1 else 1) * r - x| = abs (r - |x|) := by
  split
  · rename_i h
    rw [abs_of_neg h, ← abs_neg]
    congr 1; ring
  · rename_i h
    rw [abs_of_nonneg (not_lt.mp h)]
    congr 1; ring

/-- Between the two limits the text is a decimal number, within 5e-6 of the number relative to it; and below 1
within 5e-7 of it, the text being the nearest number of six decimals. -/
theorem C166_fixed_partial (lo x : ℚ) (h0 : x ≠ 0) (h1 : lo ≤ |x|) (h2 : |x| ≤ 10 ^ 5) :
    ∃ v, textVal (printflt lo x) = some v ∧
      (|x| < 1 → (∃ z : Int, v = z / 10 ^ 6) ∧ |v - x| ≤ 1 / 2 / 10 ^ 6) ∧
      (1 ≤ |x| → |v - x| ≤ |x| * (1 / 2) / 10 ^ 5) := by
  unfold printflt
  rw [if_neg h0, if_neg (by push Not; exact ⟨h1, h2⟩)]
  refine ⟨_, fixed_value _ (decimals_pos _) x, ?_, ?_⟩
  all_goals
    set i := decimals ⌊|x|⌋ with hi
    have herr : |((if x < 0 then -1 else 1) * ((rint (|x| * 10 ^ i) : ℚ) / 10 ^ i)) - x| ≤ 1 / 2 / 10 ^ i := by
      rw [signed]
      have := rint_err (|x| * 10 ^ i)
      have hp : (0 : ℚ) < 10 ^ i := by positivity
      have e : (rint (|x| * 10 ^ i) : ℚ) / 10 ^ i - |x| = ((rint (|x| * 10 ^ i) : ℚ) - |x| * 10 ^ i) / 10 ^ i := by
        field_simp
      rw [e, abs_div, abs_of_pos hp]
      gcongr
  · intro hlt
    have hfl : ⌊|x|⌋ = 0 := by rw [Int.floor_eq_iff]; simpa using hlt
    have hi6 : i = 6 := by rw [hi, hfl]; rfl
    rw [hi6] at herr ⊢
    refine ⟨?_, herr⟩
    by_cases hx : x < 0
    · exact ⟨-rint (|x| * 10 ^ 6), by rw [if_pos hx]; push_cast; ring⟩
    · exact ⟨rint (|x| * 10 ^ 6), by rw [if_neg hx]; ring⟩
  · intro hge
    exact le_trans herr (decimals_error _ hge h2)

/-- Outside the limits: within 5e-7 relative to the number. -/
theorem C166_scientific (lo x : ℚ) (h0 : x ≠ 0) (h : |x| < lo ∨ 10 ^ 5 < |x|) :
    ∃ v, textVal (printflt lo x) = some v ∧ |v - x| ≤ |x| * (1 / 2) / 10 ^ 6 := by
  unfold printflt
  rw [if_neg h0, if_pos h]
  refine ⟨_, sci_value x h0, ?_⟩
  rw [signed]
  have hp : 0 < |x| := abs_pos.mpr h0
  have hl1 : (10 : ℚ) ^ Int.log 10 |x| ≤ |x| := by
    have := Int.zpow_log_le_self (b := 10) (by norm_num) hp
    exact_mod_cast this
  have hz : (10 : ℚ) ^ (Int.log 10 |x| - 6) = 10 ^ Int.log 10 |x| / 10 ^ 6 := by
    rw [zpow_sub₀ (by norm_num)]; norm_num
  set u : ℚ := (10 : ℚ) ^ (Int.log 10 |x| - 6) with hu
  have hup : 0 < u := by rw [hu]; positivity
  have := rint_err (|x| / u)
  have e : (rint (|x| / u) : ℚ) * u - |x| = ((rint (|x| / u) : ℚ) - |x| / u) * u := by field_simp
  rw [e, abs_mul, abs_of_pos hup]
  calc abs ((rint (|x| / u) : ℚ) - |x| / u) * u ≤ 1 / 2 * u := by gcongr
    _ ≤ 1 / 2 * (|x| / 10 ^ 6) := by rw [hz]; gcongr
    _ = _ := by ring

/-- Zero. -/
theorem C166_zero (lo : ℚ) : printflt lo 0 = "0.0".toList := by
  unfold printflt; rw [if_pos rfl]; decide

example : printflt (1 / 10000) (5 / 4) = "1.25".toList := by decide +kernel
example : printflt (1 / 10000) (-100) = "-100.0".toList := by decide +kernel

/-- Different floats print alike, so a float does not survive being printed and read. -/
theorem C166_lost_wrong :
    printflt (1 / 10000) 1 = "1.0".toList ∧ printflt (1 / 10000) (1 + 1 / 2 ^ 20) = "1.0".toList := by
  constructor <;> decide +kernel

/-- Just above the lower limit the text is off by nearly half a percent: 1053/2^23 prints as 0.000126. -/
theorem C166_small_wrong : printflt (1 / 10000) (1053 / 2 ^ 23) = "0.000126".toList ∧
    (1053 / 2 ^ 23 : ℚ) * (3 / 1000) < |126 / 1000000 - 1053 / 2 ^ 23| := by
  constructor
  · decide +kernel
  · norm_num [abs_of_pos]

end Eus.Flt
