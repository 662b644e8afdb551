import Verif.Rat.Spec
import Mathlib.Tactic.Ring
import Mathlib.Algebra.Order.Ring.Abs
import Mathlib.RingTheory.Coprime.Lemmas
import Mathlib.Tactic.FieldSimp
import Mathlib.Tactic.Linarith
set_option autoImplicit false
namespace Eus.Rt

theorem int32_fits {z : Int} (h : Fits z) : int32 z = z := by
  unfold int32
  rw [Int.bmod_eq_of_le]
  · have := h.1; norm_num; omega
  · have := h.2; norm_num; omega

theorem euclid_gcd : ∀ (n u v : Nat), v < n → euclid n u v = Nat.gcd u v := by
  intro n
  induction n with
  | zero => intro u v h; omega
  | succ n ih =>
    intro u v h
    unfold euclid
    by_cases hv : v = 0
    · simp [hv]
    · rw [if_neg hv, ih v (u % v) (by have := Nat.mod_lt u (Nat.pos_of_ne_zero hv); omega), Nat.gcd_comm u v,
        Nat.gcd_rec v u, Nat.gcd_comm]

theorem gcd_fits {u v : Int} (hu : Fits u) (hv : Fits v) : gcd u v = .ok (Int.gcd u v : Int) := by
  unfold gcd
  simp only [int32_fits hu, int32_fits hv]
  rw [if_neg (by rintro (h | h) <;> [have := hu.1; have := hv.1] <;> omega)]
  split
  · rw [euclid_gcd _ _ _ (by omega), Int.gcd_comm]; rfl
  · rw [euclid_gcd _ _ _ (by omega)]; rfl

theorem bind_of {α β : Type} {r : Res α} {a : α} {f : α → Res β} (h : r = .ok a) : r.bind f = f a := by
  rw [h]; rfl

theorem ck_ok {z : Int} (h : -2 ^ 63 ≤ z ∧ z < 2 ^ 63) : ck z = .ok z := by unfold ck; rw [if_pos h]

theorem mul_bound {a b : Int} (ha : Fits a) (hb : Fits b) : -2 ^ 62 < a * b ∧ a * b < 2 ^ 62 := by
  have h1 : |a| ≤ 2 ^ 31 - 1 := abs_le.2 ⟨by have := ha.1; omega, by have := ha.2; omega⟩
  have h2 : |b| ≤ 2 ^ 31 - 1 := abs_le.2 ⟨by have := hb.1; omega, by have := hb.2; omega⟩
  have h3 : |a * b| ≤ (2 ^ 31 - 1) * (2 ^ 31 - 1) := by
    rw [abs_mul]
    exact mul_le_mul h1 h2 (abs_nonneg _) (by norm_num)
  have := abs_le.1 h3
  constructor
  · have := this.1; norm_num at this ⊢; omega
  · have := this.2; norm_num at this ⊢; omega

theorem ck_mul {a b : Int} (ha : Fits a) (hb : Fits b) : ck (a * b) = .ok (a * b) := by
  have := mul_bound ha hb
  exact ck_ok (by omega)

theorem fits_small {z : Int} (h : Fits z) : -2 ^ 63 ≤ z ∧ z < 2 ^ 63 := by
  unfold Fits at h; omega

/-- Exact division of something that fits. -/
theorem cdiv_exact {a b c : Int} (h : a = b * c) (hb : b ≠ 0) (hc : Fits c) : cdiv a b = .ok c := by
  unfold cdiv
  rw [if_neg hb, h, Int.mul_tdiv_cancel_left _ hb]
  exact ck_ok (fits_small hc)

/-- A quotient of something that fits. -/
theorem fits_factor {a b c : Int} (ha : Fits a) (h : a = b * c) (hb : b ≠ 0) : Fits c := by
  have h1 : |a| = |b| * |c| := by rw [h, abs_mul]
  have h2 : 1 ≤ |b| := Int.one_le_abs hb
  have h3 : |c| ≤ |a| := by
    rw [h1]
    nlinarith [abs_nonneg c]
  have h4 : |a| < 2 ^ 31 := abs_lt.2 ha
  exact abs_lt.1 (lt_of_le_of_lt h3 h4)

/-- The ratio object `r` holds `q`. -/
def RepR (r : Ratio) (q : ℚ) : Prop := r.num = q.num ∧ r.den = q.den

theorem repR_of {n d : Int} {q : ℚ} (hd : 0 < d) (hc : Nat.Coprime n.natAbs d.natAbs) (hq : (n : ℚ) / d = q)
    (hf : Fit q) : RepR (makeratio n d) q ∧ n = q.num ∧ d = q.den := by
  have h1 := Rat.num_div_eq_of_coprime hd hc
  have h2 := Rat.den_div_eq_of_coprime hd hc
  rw [hq] at h1 h2
  refine ⟨⟨?_, ?_⟩, h1.symm, h2.symm⟩
  · show int32 n = _
    rw [← h1]; exact int32_fits hf.1
  · show int32 d = _
    rw [← h2]; exact int32_fits hf.2

theorem coprime_of (q : ℚ) : IsCoprime q.num (q.den : Int) := by
  rw [Int.isCoprime_iff_gcd_eq_one]
  exact q.reduced

/-- Knuth's addition of fractions. -/
theorem core_add (X Y : ℚ) : ∃ g b d t e n f : Int, g = (Nat.gcd X.den Y.den : Nat) ∧ 0 < g ∧ (X.den : Int) = g * b ∧ (Y.den : Int) = g * d ∧
    0 < b ∧ 0 < d ∧ t = X.num * d + Y.num * b ∧ e = (Int.gcd t g : Nat) ∧ 0 < e ∧ t = e * n ∧ g = e * f ∧ 0 < f ∧
    Nat.Coprime n.natAbs (b * (d * f)).natAbs ∧ (n : ℚ) / ((b * (d * f) : Int) : ℚ) = X + Y := by
  have hX : (0 : Int) < X.den := by exact_mod_cast X.pos
  have hY : (0 : Int) < Y.den := by exact_mod_cast Y.pos
  obtain ⟨b, hb⟩ : ((Nat.gcd X.den Y.den : Nat) : Int) ∣ X.den := by exact_mod_cast Nat.gcd_dvd_left _ _
  obtain ⟨d, hd⟩ : ((Nat.gcd X.den Y.den : Nat) : Int) ∣ Y.den := by exact_mod_cast Nat.gcd_dvd_right _ _
  set g : Int := ((Nat.gcd X.den Y.den : Nat) : Int) with hg
  have hg0 : 0 < g := by
    rw [hg]; exact_mod_cast Nat.gcd_pos_of_pos_left _ X.pos
  have hb0 : 0 < b := by rw [hb] at hX; exact (mul_pos_iff_of_pos_left hg0).1 hX
  have hd0 : 0 < d := by rw [hd] at hY; exact (mul_pos_iff_of_pos_left hg0).1 hY
  have hbd : IsCoprime b d := by
    rw [Int.isCoprime_iff_gcd_eq_one]
    have h1 : Int.gcd (g * b) (g * d) = g.natAbs * Int.gcd b d := Int.gcd_mul_left _ _ _
    rw [← hb, ← hd] at h1
    have h2 : Int.gcd (X.den : Int) (Y.den : Int) = g.natAbs := by rw [hg]; rfl
    rw [h2] at h1
    have h3 : 0 < g.natAbs := by omega
    exact (Nat.eq_of_mul_eq_mul_left h3 (by omega : g.natAbs * 1 = g.natAbs * Int.gcd b d)).symm
  have hXb : IsCoprime X.num b := (coprime_of X).of_isCoprime_of_dvd_right ⟨g, by rw [hb, mul_comm]⟩
  have hYd : IsCoprime Y.num d := (coprime_of Y).of_isCoprime_of_dvd_right ⟨g, by rw [hd, mul_comm]⟩
  set t : Int := X.num * d + Y.num * b with ht
  have htb : IsCoprime t b := by
    rw [ht]
    exact (IsCoprime.add_mul_right_left_iff (y := b) (z := Y.num)).2 (hXb.mul_left hbd.symm)
  have htd : IsCoprime t d := by
    rw [ht, add_comm]
    exact (IsCoprime.add_mul_right_left_iff (y := d) (z := X.num)).2 (hYd.mul_left hbd)
  obtain ⟨n, hn⟩ : ((Int.gcd t g : Nat) : Int) ∣ t := Int.gcd_dvd_left _ _
  obtain ⟨f, hf⟩ : ((Int.gcd t g : Nat) : Int) ∣ g := Int.gcd_dvd_right _ _
  set e : Int := ((Int.gcd t g : Nat) : Int) with he
  have he0 : 0 < e := by
    rw [he]; exact_mod_cast Int.gcd_pos_of_ne_zero_right _ (by omega)
  have hf0 : 0 < f := by rw [hf] at hg0; exact (mul_pos_iff_of_pos_left he0).1 hg0
  have hnf : IsCoprime n f := by
    rw [Int.isCoprime_iff_gcd_eq_one]
    have h1 : Int.gcd (e * n) (e * f) = e.natAbs * Int.gcd n f := Int.gcd_mul_left _ _ _
    rw [← hn, ← hf] at h1
    have h2 : Int.gcd t g = e.natAbs := by rw [he]; rfl
    rw [h2] at h1
    have h3 : 0 < e.natAbs := by omega
    exact (Nat.eq_of_mul_eq_mul_left h3 (by omega : e.natAbs * 1 = e.natAbs * Int.gcd n f)).symm
  have hnt : n ∣ t := ⟨e, by rw [hn, mul_comm]⟩
  have hcop : IsCoprime n (b * (d * f)) :=
    (htb.of_isCoprime_of_dvd_left hnt).mul_right ((htd.of_isCoprime_of_dvd_left hnt).mul_right hnf)
  refine ⟨g, b, d, t, e, n, f, rfl, hg0, hb, hd, hb0, hd0, rfl, he, he0, hn, hf, hf0, ?_, ?_⟩
  · exact Int.isCoprime_iff_gcd_eq_one.1 hcop
  · have hx : X = (X.num : ℚ) / ((g * b : Int) : ℚ) := by
      rw [← hb]; exact_mod_cast (Rat.num_div_den X).symm
    have hy : Y = (Y.num : ℚ) / ((g * d : Int) : ℚ) := by
      rw [← hd]; exact_mod_cast (Rat.num_div_den Y).symm
    have hgq : (g : ℚ) ≠ 0 := by exact_mod_cast hg0.ne'
    have hbq : (b : ℚ) ≠ 0 := by exact_mod_cast hb0.ne'
    have hdq : (d : ℚ) ≠ 0 := by exact_mod_cast hd0.ne'
    have hfq : (f : ℚ) ≠ 0 := by exact_mod_cast hf0.ne'
    have heq : (e : ℚ) ≠ 0 := by exact_mod_cast he0.ne'
    have htq : (X.num : ℚ) * d + Y.num * b = e * n := by exact_mod_cast hn ▸ ht.symm
    have hgf : (g : ℚ) = e * f := by exact_mod_cast hf
    have : X + Y = ((X.num : ℚ) * d + Y.num * b) / (g * b * d) := by
      conv_lhs => rw [hx, hy]
      push_cast
      field_simp
    rw [this, htq, hgf]
    push_cast
    field_simp


theorem den_pos (q : ℚ) : (0 : Int) < q.den := by exact_mod_cast q.pos

theorem fits_one : Fits 1 := by unfold Fits; omega

theorem nat_div_cast {a g : Nat} {b : Int} (hg : (0 : Int) < (g : Int)) (h : (a : Int) = g * b) : ((a / g : Nat) : Int) = b := by
  rw [Int.natCast_ediv, h]
  exact Int.mul_ediv_cancel_left _ (by omega)

/-- Addition and subtraction; `c` is the numerator of the second argument, with its sign. -/
theorem add_steps {X Y : ℚ} (h : FitAdd X Y) :
    ∃ g b d n f e : Int, gcd (X.den : Int) (Y.den : Int) = .ok g ∧ cdiv (Y.den : Int) g = .ok d ∧ cdiv (X.den : Int) g = .ok b ∧
      Fits d ∧ Fits b ∧ gcd (X.num * d + Y.num * b) g = .ok e ∧ cdiv (X.num * d + Y.num * b) e = .ok n ∧
      cdiv (Y.den : Int) e = .ok (d * f) ∧ ck (b * (d * f)) = .ok (b * (d * f)) ∧
      RepR (makeratio n (b * (d * f))) (X + Y) ∧
      (g = 1 → d = (Y.den : Int) ∧ b = (X.den : Int) ∧ n = X.num * d + Y.num * b ∧ f = 1) := by
  obtain ⟨hx, hy, hs, ht⟩ := h
  obtain ⟨g, b, d, t, e, n, f, hg, hg0, hb, hd, hb0, hd0, htt, he, he0, hn, hf, hf0, hc, hq⟩ := core_add X Y
  have hfb : Fits b := fits_factor hx.2 hb (by omega)
  have hfd : Fits d := fits_factor hy.2 hd (by omega)
  have hgg : Fits g := fits_factor hx.2 (by rw [hb, mul_comm]) (by omega : b ≠ 0)
  have e1 : ((Y.den / Nat.gcd X.den Y.den : Nat) : Int) = d := nat_div_cast (by rw [← hg]; exact hg0) (by rw [← hg]; exact hd)
  have e2 : ((X.den / Nat.gcd X.den Y.den : Nat) : Int) = b := nat_div_cast (by rw [← hg]; exact hg0) (by rw [← hg]; exact hb)
  rw [e1, e2, ← htt] at ht
  have hden : 0 < b * (d * f) := mul_pos hb0 (mul_pos hd0 hf0)
  obtain ⟨hr, hn1, hd1⟩ := repR_of hden hc hq hs
  have hfn : Fits n := by rw [hn1]; exact hs.1
  have hfden : Fits (b * (d * f)) := by rw [hd1]; exact hs.2
  have hdf : (Y.den : Int) = e * (d * f) := by rw [hd, hf]; ring
  refine ⟨g, b, d, n, f, e, ?_, cdiv_exact hd (by omega) hfd, cdiv_exact hb (by omega) hfb, hfd, hfb, ?_, ?_,
    cdiv_exact hdf (by omega) (fits_factor hy.2 hdf (by omega)), ck_ok (fits_small hfden), hr, ?_⟩
  · rw [gcd_fits hx.2 hy.2, hg]; rfl
  · rw [← htt, gcd_fits ht hgg, he]
  · rw [← htt]; exact cdiv_exact hn (by omega) hfn
  · intro h1
    subst h1
    have he1 : e = 1 := by rw [he]; simp
    subst he1
    refine ⟨by omega, by omega, by omega, by omega⟩

theorem ratio_plus_spec {x y : Ratio} {X Y : ℚ} (hx : RepR x X) (hy : RepR y Y) (h : FitAdd X Y) :
    ∃ r, ratio_plus x y = .ok r ∧ RepR r (X + Y) := by
  obtain ⟨g, b, d, n, f, e, s1, s2, s3, hd, hb, s4, s5, s6, s7, hr, h1⟩ := add_steps h
  refine ⟨_, ?_, hr⟩
  unfold ratio_plus
  rw [hx.1, hx.2, hy.1, hy.2, bind_of s1]
  by_cases hg : g = 1
  · obtain ⟨e1, e2, e3, e4⟩ := h1 hg
    have m1 := mul_bound h.1.1 h.2.1.2
    have m2 := mul_bound h.1.2 h.2.1.1
    rw [if_pos hg, bind_of (ck_mul h.1.1 h.2.1.2), bind_of (ck_mul h.1.2 h.2.1.1), bind_of (ck_ok (by omega)),
      bind_of (ck_mul h.1.2 h.2.1.2), e3, e4, e1, e2, mul_one, mul_comm (Y.num)]
  · have m1 := mul_bound h.1.1 hd
    have m2 := mul_bound h.2.1.1 hb
    rw [if_neg hg, bind_of s2, bind_of s3, bind_of (ck_mul h.1.1 hd), bind_of (ck_mul h.2.1.1 hb),
      bind_of (ck_ok (by omega)), bind_of s4, bind_of s5, bind_of s6, bind_of s7]

theorem fits_neg {z : Int} (h : Fits (-z)) : Fits z := by unfold Fits at *; omega

theorem ratio_minus_spec {x y : Ratio} {X Y : ℚ} (hx : RepR x X) (hy : RepR y Y) (h : FitAdd X (-Y)) :
    ∃ r, ratio_minus x y = .ok r ∧ RepR r (X - Y) := by
  obtain ⟨g, b, d, n, f, e, s1, s2, s3, hd, hb, s4, s5, s6, s7, hr, h1⟩ := add_steps h
  rw [Rat.neg_den] at s1 s2 s6 h1
  rw [Rat.neg_num] at s4 s5 h1
  have hyn : Fits Y.num := fits_neg (by rw [← Rat.neg_num]; exact h.2.1.1)
  have hyd : Fits Y.den := by have := h.2.1.2; rwa [Rat.neg_den] at this
  rw [← sub_eq_add_neg] at hr
  refine ⟨_, ?_, hr⟩
  unfold ratio_minus
  rw [hx.1, hx.2, hy.1, hy.2, bind_of s1]
  have en : X.num * d + -Y.num * b = X.num * d - Y.num * b := by ring
  rw [en] at s4 s5
  by_cases hg : g = 1
  · obtain ⟨e1, e2, e3, e4⟩ := h1 hg
    have m1 := mul_bound h.1.1 hyd
    have m2 := mul_bound h.1.2 hyn
    rw [if_pos hg, bind_of (ck_mul h.1.1 hyd), bind_of (ck_mul h.1.2 hyn), bind_of (ck_ok (by omega)),
      bind_of (ck_mul h.1.2 hyd), e3, e4, en, e1, e2, mul_one, mul_comm (Y.num)]
  · have m1 := mul_bound h.1.1 hd
    have m2 := mul_bound hyn hb
    rw [if_neg hg, bind_of s2, bind_of s3, bind_of (ck_mul h.1.1 hd), bind_of (ck_mul hyn hb),
      bind_of (ck_ok (by omega)), bind_of s4, bind_of s5, bind_of s6, bind_of s7]

theorem gcd_split {u v : Int} (h : u ≠ 0 ∨ v ≠ 0) : ∃ g a b : Int, g = (Int.gcd u v : Nat) ∧ 0 < g ∧ u = g * a ∧ v = g * b ∧
    IsCoprime a b := by
  obtain ⟨a, ha⟩ : ((Int.gcd u v : Nat) : Int) ∣ u := Int.gcd_dvd_left _ _
  obtain ⟨b, hb⟩ : ((Int.gcd u v : Nat) : Int) ∣ v := Int.gcd_dvd_right _ _
  have h0 : 0 < Int.gcd u v := by
    rcases h with h | h
    · exact Int.gcd_pos_of_ne_zero_left _ h
    · exact Int.gcd_pos_of_ne_zero_right _ h
  refine ⟨_, a, b, rfl, by exact_mod_cast h0, ha, hb, ?_⟩
  rw [Int.isCoprime_iff_gcd_eq_one]
  have h1 := Int.gcd_mul_left ((Int.gcd u v : Nat) : Int) a b
  rw [← ha, ← hb] at h1
  have h2 : ((Int.gcd u v : Nat) : Int).natAbs = Int.gcd u v := Int.natAbs_natCast _
  rw [h2] at h1
  exact (Nat.eq_of_mul_eq_mul_left h0 (by omega : Int.gcd u v * 1 = Int.gcd u v * Int.gcd a b)).symm

/-- Multiplication of two fractions in lowest terms; the second one is `c / d`, of any sign. -/
theorem mul_steps {X : ℚ} {c d : Int} (hd : d ≠ 0) (hcd : IsCoprime c d) (hx : Fit X) (hfc : Fits c) (hfd : Fits d) :
    ∃ g1 g2 a b p q : Int, gcd X.num d = .ok g1 ∧ gcd (X.den : Int) c = .ok g2 ∧ cdiv X.num g1 = .ok a ∧ cdiv c g2 = .ok b ∧
      cdiv (X.den : Int) g2 = .ok p ∧ cdiv d g1 = .ok q ∧ Fits a ∧ Fits b ∧ Fits p ∧ Fits q ∧ 0 < p ∧ q ≠ 0 ∧ 0 < g1 ∧ d = g1 * q ∧
      c = g2 * b ∧ 0 < g2 ∧
      IsCoprime (a * b) (p * q) ∧ ((a * b : Int) : ℚ) / ((p * q : Int) : ℚ) = X * ((c : ℚ) / d) := by
  have hX := den_pos X
  obtain ⟨g1, a, q, hg1, hg10, h1, h2, hc1⟩ := gcd_split (u := X.num) (v := d) (Or.inr hd)
  obtain ⟨g2, p, b, hg2, hg20, h3, h4, hc2⟩ := gcd_split (u := (X.den : Int)) (v := c) (Or.inl hX.ne')
  have hfa : Fits a := fits_factor hx.1 h1 (by omega)
  have hfb : Fits b := fits_factor hfc h4 (by omega)
  have hfp : Fits p := fits_factor hx.2 h3 (by omega)
  have hfq : Fits q := fits_factor hfd h2 (by omega)
  have hp0 : 0 < p := by rw [h3] at hX; exact (mul_pos_iff_of_pos_left hg20).1 hX
  have hq0 : q ≠ 0 := by rintro rfl; simp at h2; exact hd h2
  have hap : IsCoprime a p := ((coprime_of X).of_isCoprime_of_dvd_left ⟨g1, by rw [h1, mul_comm]⟩).of_isCoprime_of_dvd_right
    ⟨g2, by rw [h3, mul_comm]⟩
  have hbq : IsCoprime b q := (hcd.of_isCoprime_of_dvd_left ⟨g2, by rw [h4, mul_comm]⟩).of_isCoprime_of_dvd_right
    ⟨g1, by rw [h2, mul_comm]⟩
  refine ⟨g1, g2, a, b, p, q, by rw [gcd_fits hx.1 hfd, hg1], by rw [gcd_fits hx.2 hfc, hg2],
    cdiv_exact h1 (by omega) hfa, cdiv_exact h4 (by omega) hfb, cdiv_exact h3 (by omega) hfp, cdiv_exact h2 (by omega) hfq,
    hfa, hfb, hfp, hfq, hp0, hq0, hg10, h2, h4, hg20, ?_, ?_⟩
  · exact (hap.mul_right hc1).mul_left (hc2.symm.mul_right hbq)
  · have hx' : X = (X.num : ℚ) / ((X.den : Int) : ℚ) := by exact_mod_cast (Rat.num_div_den X).symm
    conv_rhs => rw [hx', h1, h2, h3, h4]
    have : (g1 : ℚ) ≠ 0 := by exact_mod_cast hg10.ne'
    have : (g2 : ℚ) ≠ 0 := by exact_mod_cast hg20.ne'
    have : (p : ℚ) ≠ 0 := by exact_mod_cast hp0.ne'
    have : (q : ℚ) ≠ 0 := by exact_mod_cast hq0
    push_cast
    field_simp

theorem ratio_times_spec {x y : Ratio} {X Y : ℚ} (hx : RepR x X) (hy : RepR y Y) (h1 : Fit X) (h2 : Fit Y) (h3 : Fit (X * Y)) :
    ∃ r, ratio_times x y = .ok r ∧ RepR r (X * Y) := by
  have hY := den_pos Y
  have hy' : (Y.num : ℚ) / ((Y.den : Int) : ℚ) = Y := by exact_mod_cast Rat.num_div_den Y
  obtain ⟨g1, g2, a, b, p, q, s1, s2, s3, s4, s5, s6, fa, fb, fp, fq, hp, hq0, hg1, hd, _, _, hc, hq⟩ :=
    mul_steps (X := X) (c := Y.num) (d := Y.den) hY.ne' (coprime_of Y) h1 h2.1 h2.2
  rw [hy'] at hq
  have hq1 : 0 < q := by rw [hd] at hY; exact (mul_pos_iff_of_pos_left hg1).1 hY
  refine ⟨_, ?_, (repR_of (mul_pos hp hq1) (Int.isCoprime_iff_gcd_eq_one.1 hc) hq h3).1⟩
  unfold ratio_times
  rw [hx.1, hx.2, hy.1, hy.2, bind_of s1, bind_of s2, bind_of s3, bind_of s4, bind_of (ck_mul fa fb), bind_of s5, bind_of s6,
    bind_of (ck_mul fp fq)]

theorem ratio_divide_spec {x y : Ratio} {X Y : ℚ} (hx : RepR x X) (hy : RepR y Y) (h1 : Fit X) (h2 : Fit Y) (h0 : Y ≠ 0)
    (h3 : Fit (X / Y)) : ∃ r, ratio_divide x y = .ok r ∧ RepR r (X / Y) := by
  have hY := den_pos Y
  have hn0 : Y.num ≠ 0 := fun h => h0 (Rat.num_eq_zero.1 h)
  have hy' : ((Y.den : Int) : ℚ) / (Y.num : ℚ) = Y⁻¹ := by
    have : (Y.num : ℚ) / ((Y.den : Int) : ℚ) = Y := by exact_mod_cast Rat.num_div_den Y
    conv_rhs => rw [← this, inv_div]
  have e : X * (((Y.den : Int) : ℚ) / (Y.num : ℚ)) = X / Y := by rw [hy', div_eq_mul_inv]
  obtain ⟨g1, g2, a, b, p, q, s1, s2, s3, s4, s5, s6, fa, fb, fp, fq, hp, hq0, hg1, hd, hb', hg2, hc, hq⟩ :=
    mul_steps (X := X) (c := (Y.den : Int)) (d := Y.num) hn0 (coprime_of Y).symm h1 h2.2 h2.1
  rw [e] at hq
  -- the sign
  have key : ∀ s : Int, (s = 1 ∧ 0 < q ∨ s = -1 ∧ q < 0) → RepR (makeratio (a * b * s) (p * q * s)) (X / Y) ∧
      a * b * s = (X / Y).num ∧ p * q * s = (X / Y).den := by
    intro s hs
    apply repR_of _ _ _ h3
    · rcases hs with ⟨rfl, hh⟩ | ⟨rfl, hh⟩
      · rw [mul_one]; exact mul_pos hp hh
      · have := mul_neg_of_pos_of_neg hp hh; omega
    · have hc' := Int.isCoprime_iff_gcd_eq_one.1 hc
      rcases hs with ⟨rfl, hh⟩ | ⟨rfl, hh⟩
      · rw [mul_one, mul_one]; exact hc'
      · rw [mul_neg_one, mul_neg_one, Int.natAbs_neg, Int.natAbs_neg]; exact hc'
    · rw [← hq]
      have hpq : ((p * q : Int) : ℚ) ≠ 0 := by exact_mod_cast mul_ne_zero hp.ne' hq0
      rcases hs with ⟨rfl, hh⟩ | ⟨rfl, hh⟩
      · rw [mul_one, mul_one]
      · rw [mul_neg_one, mul_neg_one]; push_cast; rw [neg_div_neg_eq]
  have hsg : ∃ s : Int, (s = 1 ∧ 0 < q ∨ s = -1 ∧ q < 0) ∧ (if Y.num ≥ 0 then (1 : Int) else -1) = s := by
    by_cases hn : Y.num ≥ 0
    · rw [if_pos hn]
      refine ⟨1, Or.inl ⟨rfl, ?_⟩, rfl⟩
      have : 0 < Y.num := by omega
      rw [hd] at this
      exact (mul_pos_iff_of_pos_left hg1).1 this
    · rw [if_neg hn]
      refine ⟨-1, Or.inr ⟨rfl, ?_⟩, rfl⟩
      by_contra hq'
      have : 0 ≤ g1 * q := mul_nonneg hg1.le (by omega)
      omega
  obtain ⟨s, hs, es⟩ := hsg
  obtain ⟨k1, k2, k3⟩ := key s hs
  refine ⟨_, ?_, k1⟩
  have hfn : Fits (a * b * s) := by rw [k2]; exact h3.1
  have hfd : Fits (p * q * s) := by rw [k3]; exact h3.2
  have hfpq : Fits (p * q) := by
    rcases hs with ⟨rfl, hh⟩ | ⟨rfl, hh⟩
    · rwa [mul_one] at hfd
    · rw [mul_neg_one] at hfd; exact fits_neg hfd
  have hpos : 0 < p * q * s := by
    rw [k3]; exact den_pos _
  have : ((p * q).natAbs : Int) = p * q * s := by
    rcases hs with ⟨rfl, hh⟩ | ⟨rfl, hh⟩ <;> omega
  unfold ratio_divide
  rw [hx.1, hx.2, hy.1, hy.2, bind_of s1, bind_of s2]
  dsimp only
  rw [es, bind_of s3, bind_of s4, bind_of (ck_mul fa fb), bind_of (ck_ok (fits_small hfn)), bind_of s5, bind_of s6,
    bind_of (ck_mul fp fq), int32_fits hfpq, if_neg (by unfold Fits at hfpq; omega), this]

end Eus.Rt
