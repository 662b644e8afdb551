import Verif.Rpy.Lemmas
set_option autoImplicit false
/-
C200: the angles of a rotation.
-/
namespace Eus.Rpy
open Eus.Mat Spec

/-! ### Roll, pitch and yaw -/

/-- C200. `rpy-matrix` is the product of the three rotations. -/
theorem C200_rpy_matrix (a b c : ℝ) : mat 3 (rpyMatrix a b c) = Z a * Y b * X c := rpy_elems a b c

/-- C200. `euler-matrix` is the product of the three rotations. -/
theorem C200_euler_matrix (a b c : ℝ) : mat 3 (eulerMatrix a b c) = Z a * Y b * Z c := euler_elems a b c

/-- C200. Both lists of angles that `rpy-angle` finds in a rotation give that rotation, at the poles too; the second angle of the first list is between -π/2 and π/2. -/
theorem C200_rpy {f : ℝ → ℝ → ℝ} (hf : IsAtan2 f) (m : Nat → Nat → ℝ) (h : IsRot (mat 3 m)) :
    let r := rpyAngle f m
    mat 3 (rpyMatrix r.1.1 r.1.2.1 r.1.2.2) = mat 3 m ∧ mat 3 (rpyMatrix r.2.1 r.2.2.1 r.2.2.2) = mat 3 m ∧
      -(Real.pi / 2) ≤ r.1.2.1 ∧ r.1.2.1 ≤ Real.pi / 2 := by
  have e := eqs h
  have ht := turn_back hf (m 1 0) (m 0 0)
  refine ⟨?_, ?_, ?_⟩
  · rw [rpy_elems]; exact rpyFrom_right hf e _ ht
  · rw [rpy_elems]
    refine rpyFrom_right hf e _ ?_
    rw [Real.sin_add_pi, Real.cos_add_pi]; linarith
  · have hcs := cs1 (f (m 1 0) (m 0 0))
    have hb := unit_angle hf (y := -(m 2 0)) (x := Real.cos (f (m 1 0) (m 0 0)) * m 0 0 + Real.sin (f (m 1 0) (m 0 0)) * m 1 0) (by
      linear_combination e.c00 + (m 0 0 * m 0 0 + m 1 0 * m 1 0) * hcs -
        (-Real.sin (f (m 1 0) (m 0 0)) * m 0 0 + Real.cos (f (m 1 0) (m 0 0)) * m 1 0) * ht)
    have hpos : 0 ≤ Real.cos (f (m 1 0) (m 0 0)) * m 0 0 + Real.sin (f (m 1 0) (m 0 0)) * m 1 0 := by
      by_cases hn : m 0 0 ≠ 0 ∨ m 1 0 ≠ 0
      · have h1 := hf.cosine (m 1 0) (m 0 0) hn
        have h2 := hf.sine (m 1 0) (m 0 0) hn
        have : Real.cos (f (m 1 0) (m 0 0)) * m 0 0 + Real.sin (f (m 1 0) (m 0 0)) * m 1 0 = Real.sqrt (m 0 0 * m 0 0 + m 1 0 * m 1 0) := by
          linear_combination -Real.cos (f (m 1 0) (m 0 0)) * h1 - Real.sin (f (m 1 0) (m 0 0)) * h2 + Real.sqrt (m 0 0 * m 0 0 + m 1 0 * m 1 0) * hcs
        rw [this]; exact Real.sqrt_nonneg _
      · push Not at hn
        rw [hn.1, hn.2]; simp
    rw [← hb.1] at hpos
    have hl := hf.low (-(m 2 0)) (Real.cos (f (m 1 0) (m 0 0)) * m 0 0 + Real.sin (f (m 1 0) (m 0 0)) * m 1 0)
    have hh := hf.high (-(m 2 0)) (Real.cos (f (m 1 0) (m 0 0)) * m 0 0 + Real.sin (f (m 1 0) (m 0 0)) * m 1 0)
    show -(Real.pi / 2) ≤ f _ _ ∧ f _ _ ≤ Real.pi / 2
    generalize f (-(m 2 0)) (Real.cos (f (m 1 0) (m 0 0)) * m 0 0 + Real.sin (f (m 1 0) (m 0 0)) * m 1 0) = b at *
    have hpi := Real.pi_pos
    constructor
    · by_contra hc
      push Not at hc
      have := Real.cos_neg_of_pi_div_two_lt_of_lt (x := -b) (by linarith) (by linarith)
      rw [Real.cos_neg] at this; linarith
    · by_contra hc
      push Not at hc
      have := Real.cos_neg_of_pi_div_two_lt_of_lt (x := b) hc (by linarith)
      linarith

theorem angle_unique {a b : ℝ} (h1 : -Real.pi ≤ a) (h2 : a ≤ Real.pi) (h3 : -Real.pi < b) (h4 : b < Real.pi)
    (hc : Real.cos a = Real.cos b) (hs : Real.sin a = Real.sin b) : a = b := by
  have h : Real.cos (a - b) = 1 := by
    rw [Real.cos_sub, hc, hs]; exact cs1 b
  have := (Real.cos_eq_one_iff_of_lt_of_lt (by linarith) (by linarith)).mp h
  linarith

/-- The angle of a multiple of (cos a, sin a) -/
theorem angle_of {f : ℝ → ℝ → ℝ} (hf : IsAtan2 f) {a r x y : ℝ} (h3 : -Real.pi < a) (h4 : a < Real.pi) (hr : 0 < r)
    (hx : x = r * Real.cos a) (hy : y = r * Real.sin a) : f y x = a := by
  have hsq : Real.sqrt (x * x + y * y) = r := by
    rw [show x * x + y * y = r * r by rw [hx, hy]; linear_combination r * r * cs1 a]
    exact Real.sqrt_mul_self hr.le
  have hn : x ≠ 0 ∨ y ≠ 0 := by
    by_contra hc
    push Not at hc
    rw [hc.1, hc.2] at hsq
    simp at hsq
    linarith
  have h1 := hf.cosine y x hn
  have h2 := hf.sine y x hn
  rw [hsq] at h1 h2
  refine angle_unique (hf.low _ _) (hf.high _ _) h3 h4 ?_ ?_
  · apply mul_left_cancel₀ hr.ne'; rw [h1, hx]
  · apply mul_left_cancel₀ hr.ne'; rw [h2, hy]

theorem elems9 {m : Nat → Nat → ℝ} {a b c d e f g h i : ℝ} (hm : mat 3 m = mat 3 (mat9 a b c d e f g h i)) :
    (m 0 0 = a ∧ m 0 1 = b ∧ m 0 2 = c) ∧ (m 1 0 = d ∧ m 1 1 = e ∧ m 1 2 = f) ∧ (m 2 0 = g ∧ m 2 1 = h ∧ m 2 2 = i) :=
  mat_ext.mp hm

/-- C200. `rpy-angle` finds the angles that were given to `rpy-matrix`. -/
theorem C200_rpy_back {f : ℝ → ℝ → ℝ} (hf : IsAtan2 f) (a b c : ℝ) (ha : -Real.pi < a ∧ a < Real.pi)
    (hb : -(Real.pi / 2) < b ∧ b < Real.pi / 2) (hc : -Real.pi < c ∧ c < Real.pi) :
    (rpyAngle f (rpyMatrix a b c)).1 = (a, b, c) := by
  obtain ⟨⟨h00, h01, h02⟩, ⟨h10, h11, h12⟩, ⟨h20, h21, h22⟩⟩ := elems9 ((rpy_elems a b c).trans (ZYX a b c))
  generalize rpyMatrix a b c = m at *
  have hpi := Real.pi_pos
  have hcb := Real.cos_pos_of_mem_Ioo ⟨hb.1, hb.2⟩
  have hcs := cs1 a
  have e1 : f (m 1 0) (m 0 0) = a := angle_of hf ha.1 ha.2 hcb (by rw [h00]; ring) (by rw [h10]; ring)
  simp only [rpyAngle, rpyFrom, e1]
  refine Prod.ext rfl (Prod.ext ?_ ?_)
  · refine angle_of hf (by linarith) (by linarith) one_pos ?_ ?_
    · rw [h00, h10]; linear_combination Real.cos b * hcs
    · rw [h20]; ring
  · refine angle_of hf hc.1 hc.2 one_pos ?_ ?_
    · rw [h01, h11]; linear_combination Real.cos c * hcs
    · rw [h02, h12]; linear_combination Real.sin c * hcs

/-! ### Euler angles -/

/-- C200. Both lists of angles that `euler-angle` finds in a rotation give that rotation, if it moves the z axis noticeably or not at all.  Partial: `C200_euler_wrong`, `C200_euler_near`. -/
theorem C200_euler_partial {f : ℝ → ℝ → ℝ} (hf : IsAtan2 f) (m : Nat → Nat → ℝ) (h : IsRot (mat 3 m))
    (hz : 0.00001 ≤ |m 0 2| ∨ 0.00001 ≤ |m 1 2| ∨ m 1 2 = 0) :
    let r := eulerAngle f m
    mat 3 (eulerMatrix r.1.1 r.1.2.1 r.1.2.2) = mat 3 m ∧ mat 3 (eulerMatrix r.2.1 r.2.2.1 r.2.2.2) = mat 3 m := by
  have e := eqs h
  have ht : -Real.sin (eulerFirst f m) * m 0 2 + Real.cos (eulerFirst f m) * m 1 2 = 0 := by
    unfold eulerFirst
    split
    · next hn =>
      obtain ⟨n1, n2, n3, n4⟩ := hn
      have a1 : |m 1 2| < 0.00001 := abs_lt.mpr ⟨n1, n2⟩
      have a2 : |m 0 2| < 0.00001 := abs_lt.mpr ⟨n3, n4⟩
      rcases hz with h | h | h
      · linarith
      · linarith
      · rw [h]; simp
    · exact turn_back hf (m 1 2) (m 0 2)
  constructor
  · rw [euler_elems]; exact eulerFrom_right hf e _ ht
  · rw [euler_elems]
    refine eulerFrom_right hf e _ ?_
    show -Real.sin (eulerFirst f m + Real.pi) * m 0 2 + Real.cos (eulerFirst f m + Real.pi) * m 1 2 = 0
    rw [Real.sin_add_pi, Real.cos_add_pi]; linarith

/-- C200 fails for `euler-angle` near the poles: if the z axis is moved by less than 0.00001, and not only along x, neither list of angles gives the rotation. -/
theorem C200_euler_wrong (f : ℝ → ℝ → ℝ) (m : Nat → Nat → ℝ) (hx : |m 0 2| < 0.00001) (hy : |m 1 2| < 0.00001) (hn : m 1 2 ≠ 0) :
    let r := eulerAngle f m
    mat 3 (eulerMatrix r.1.1 r.1.2.1 r.1.2.2) ≠ mat 3 m ∧ mat 3 (eulerMatrix r.2.1 r.2.2.1 r.2.2.2) ≠ mat 3 m := by
  have h0 : eulerFirst f m = 0 := by
    unfold eulerFirst
    exact if_pos ⟨(abs_lt.mp hy).1, (abs_lt.mp hy).2, (abs_lt.mp hx).1, (abs_lt.mp hx).2⟩
  have key : ∀ a b c : ℝ, Real.sin a = 0 → mat 3 (eulerMatrix a b c) ≠ mat 3 m := by
    intro a b c hs hc
    rw [euler_elems, ZYZ, mat_mat9] at hc
    exact hn (by rw [← hc.2.1.2.2, hs, zero_mul])
  exact ⟨key _ _ _ (by simp only [eulerAngle, eulerFrom, h0]; simp), key _ _ _ (by simp only [eulerAngle, eulerFrom, h0]; simp)⟩

theorem small_bound {u v t : ℝ} (hu : |u| ≤ 1) (hv : |v| ≤ 1) (ht : |t| < 0.00001) : |t * t * u + t * v| ≤ 0.000011 := by
  rw [abs_le] at *
  rw [abs_lt] at ht
  constructor <;> nlinarith [abs_lt.mpr ht, mul_self_nonneg t]

theorem abs_cos_mul {a b c : ℝ} (ha : |a| ≤ 1) (hb : |b| ≤ 1) (hc : |c| ≤ 1) : |a * b * c| ≤ 1 := by
  rw [abs_mul, abs_mul]
  have := abs_nonneg a; have := abs_nonneg b; have := abs_nonneg c
  have h1 : |a| * |b| ≤ 1 := by nlinarith
  have h2 : 0 ≤ |a| * |b| := by positivity
  nlinarith

/-- Every element of the first differs from that of the second by at most d. -/
def Near (d : ℝ) (m m' : Nat → Nat → ℝ) : Prop := ∀ i j, i < 3 → j < 3 → |m i j - m' i j| ≤ d

theorem near_mk {d : ℝ} {m m' : Nat → Nat → ℝ} (h00 : |m 0 0 - m' 0 0| ≤ d) (h01 : |m 0 1 - m' 0 1| ≤ d) (h02 : |m 0 2 - m' 0 2| ≤ d)
    (h10 : |m 1 0 - m' 1 0| ≤ d) (h11 : |m 1 1 - m' 1 1| ≤ d) (h12 : |m 1 2 - m' 1 2| ≤ d)
    (h20 : |m 2 0 - m' 2 0| ≤ d) (h21 : |m 2 1 - m' 2 1| ≤ d) (h22 : |m 2 2 - m' 2 2| ≤ d) : Near d m m' := by
  intro i j hi hj
  rcases (by omega : i = 0 ∨ i = 1 ∨ i = 2) with rfl | rfl | rfl <;> rcases (by omega : j = 0 ∨ j = 1 ∨ j = 2) with rfl | rfl | rfl <;> assumption

theorem single_bound {n t w x : ℝ} (h0 : 0 < n) (h1 : n ≤ 1) (hnn : n * n = 1 - t * t) (ht : |t| < 0.00001) (hx : n * w = x) (hw : |w| ≤ 1) :
    |w - x| ≤ 0.000011 := by
  have e : w - x = w * (1 - n) := by rw [← hx]; ring
  rw [e, abs_mul, abs_of_nonneg (by linarith : 0 ≤ 1 - n)]
  have h2 : 1 - n ≤ t * t := by nlinarith
  have h3 : t * t ≤ 0.00001 * 0.00001 := by
    rw [← abs_mul_abs_self]
    nlinarith [abs_nonneg t]
  have h4 := abs_nonneg w
  have h5 : 1 - n ≤ 0.00001 * 0.00001 := h2.trans h3
  calc |w| * (1 - n) ≤ 1 * (0.00001 * 0.00001) := mul_le_mul hw h5 (by linarith) (by norm_num)
    _ ≤ 0.000011 := by norm_num

theorem sq_lt_one {t : ℝ} (ht : |t| < 0.00001) : t * t < 1 := by
  rw [← abs_mul_abs_self]
  nlinarith [abs_nonneg t]

theorem euler_near {f : ℝ → ℝ → ℝ} (hf : IsAtan2 f) {m : Nat → Nat → ℝ} (e : Eqs m) (hy : |m 1 2| < 0.00001) (a : ℝ) (hsa : Real.sin a = 0) :
    Near 0.000011 (eulerMatrix (eulerFrom f m a).1 (eulerFrom f m a).2.1 (eulerFrom f m a).2.2) m := by
  have hcs := cs1 a
  rw [hsa] at hcs
  obtain ⟨⟨h00, h01, h02⟩, ⟨h10, h11, h12⟩, ⟨h20, h21, h22⟩⟩ :=
    elems9 ((euler_elems (eulerFrom f m a).1 (eulerFrom f m a).2.1 (eulerFrom f m a).2.2).trans (ZYZ _ _ _))
  simp only [eulerFrom, hsa] at h00 h01 h02 h10 h11 h12 h20 h21 h22 ⊢
  have hyy : m 1 2 * m 1 2 < 1 := sq_lt_one hy
  have hp : 0 < 1 - m 1 2 * m 1 2 := by linarith
  obtain ⟨n, hn⟩ : ∃ n, n = Real.sqrt (1 - m 1 2 * m 1 2) := ⟨_, rfl⟩
  have hn0 : 0 < n := by rw [hn]; exact Real.sqrt_pos.mpr hp
  have hnn : n * n = 1 - m 1 2 * m 1 2 := by rw [hn]; exact Real.mul_self_sqrt hp.le
  have hn1 : n ≤ 1 := by rw [hn]; exact Real.sqrt_le_one.mpr (by linarith [mul_self_nonneg (m 1 2)])
  have nz : ∀ x y : ℝ, x * x + y * y = 1 - m 1 2 * m 1 2 → n * Real.cos (f y x) = x ∧ n * Real.sin (f y x) = y := by
    intro x y hxy
    have hne : x ≠ 0 ∨ y ≠ 0 := by
      by_contra hc
      push Not at hc
      rw [hc.1, hc.2] at hxy; linarith
    have h1 := hf.cosine y x hne
    have h2 := hf.sine y x hne
    rw [hxy, ← hn] at h1 h2
    exact ⟨h1, h2⟩
  obtain ⟨hb1, hb2⟩ := nz (m 2 2) (Real.cos a * m 0 2 + 0 * m 1 2) (by linear_combination e.c22 + m 0 2 * m 0 2 * hcs)
  obtain ⟨hc1, hc2⟩ := nz (-0 * m 0 1 + Real.cos a * m 1 1) (-0 * m 0 0 + Real.cos a * m 1 0) (by
    linear_combination e.r11 + (m 1 0 * m 1 0 + m 1 1 * m 1 1) * hcs)
  generalize f (Real.cos a * m 0 2 + 0 * m 1 2) (m 2 2) = b at *
  generalize f (-0 * m 0 0 + Real.cos a * m 1 0) (-0 * m 0 1 + Real.cos a * m 1 1) = c at *
  have ba := Real.abs_cos_le_one a
  have bb := Real.abs_cos_le_one b
  have bc := Real.abs_cos_le_one c
  have sb := Real.abs_sin_le_one b
  have sc := Real.abs_sin_le_one c
  have one : |(1 : ℝ)| ≤ 1 := by simp
  have le : ∀ x y z : ℝ, x * x + y * y + z * z = 1 → |x| ≤ 1 := by
    intro x y z h
    exact abs_le_one_iff_mul_self_le_one.mpr (by nlinarith [mul_self_nonneg y, mul_self_nonneg z])
  have l00 := le _ _ _ e.r00
  have l01 : |m 0 1| ≤ 1 := le _ (m 0 0) (m 0 2) (by linarith [e.r00])
  have l20 := le _ _ _ e.r22
  have l21 : |m 2 1| ≤ 1 := le _ (m 2 0) (m 2 2) (by linarith [e.r22])
  have neg : ∀ x : ℝ, |x| ≤ 1 → |-x| ≤ 1 := by intro x h; rwa [abs_neg]
  -- elements with one factor
  have single := fun w x : ℝ => single_bound (w := w) (x := x) hn0 hn1 hnn hy
  refine near_mk ?_ ?_ ?_ ?_ ?_ ?_ ?_ ?_ ?_
  · rw [h00]
    have : Real.cos a * Real.cos b * Real.cos c - 0 * Real.sin c - m 0 0 = m 1 2 * m 1 2 * (Real.cos a * Real.cos b * Real.cos c) + m 1 2 * m 2 1 := by
      linear_combination e.a00 + (Real.cos a * Real.cos b * Real.cos c) * (-hnn) + n * Real.cos a * Real.cos c * hb1 + Real.cos a * m 2 2 * hc1 + m 2 2 * m 1 1 * hcs
    rw [this]; exact small_bound (abs_cos_mul ba bb bc) l21 hy
  · rw [h01]
    have : -Real.cos a * Real.cos b * Real.sin c - 0 * Real.cos c - m 0 1 = m 1 2 * m 1 2 * (-(Real.cos a * Real.cos b * Real.sin c)) + m 1 2 * (-m 2 0) := by
      linear_combination e.a01 + (Real.cos a * Real.cos b * Real.sin c) * hnn - n * Real.cos a * Real.sin c * hb1 - Real.cos a * m 2 2 * hc2 - m 2 2 * m 1 0 * hcs
    rw [this]; exact small_bound (neg _ (abs_cos_mul ba bb sc)) (neg _ l20) hy
  · rw [h02]
    refine single _ _ ?_ (by simpa using abs_cos_mul ba sb one)
    linear_combination Real.cos a * hb2 + m 0 2 * hcs
  · rw [h10]
    have : 0 * Real.cos b * Real.cos c + Real.cos a * Real.sin c = Real.cos a * Real.sin c := by ring
    rw [this]
    refine single _ _ ?_ (by simpa using abs_cos_mul ba sc one)
    linear_combination Real.cos a * hc2 + m 1 0 * hcs
  · rw [h11]
    have : -0 * Real.cos b * Real.sin c + Real.cos a * Real.cos c = Real.cos a * Real.cos c := by ring
    rw [this]
    refine single _ _ ?_ (by simpa using abs_cos_mul ba bc one)
    linear_combination Real.cos a * hc1 + m 1 1 * hcs
  · rw [h12]
    rw [show 0 * Real.sin b - m 1 2 = -m 1 2 by ring, abs_neg]
    linarith
  · rw [h20]
    have : -Real.sin b * Real.cos c - m 2 0 = m 1 2 * m 1 2 * (-(1 * Real.sin b * Real.cos c)) + m 1 2 * (-m 0 1) := by
      linear_combination e.a20 + (Real.sin b * Real.cos c) * hnn - n * Real.cos c * hb2 - (Real.cos a * m 0 2) * hc1 - m 0 2 * m 1 1 * hcs
    rw [this]; exact small_bound (neg _ (abs_cos_mul one sb bc)) (neg _ l01) hy
  · rw [h21]
    have : Real.sin b * Real.sin c - m 2 1 = m 1 2 * m 1 2 * (1 * Real.sin b * Real.sin c) + m 1 2 * m 0 0 := by
      linear_combination e.a21 - (Real.sin b * Real.sin c) * hnn + n * Real.sin c * hb2 + (Real.cos a * m 0 2) * hc2 + m 0 2 * m 1 0 * hcs
    rw [this]; exact small_bound (abs_cos_mul one sb sc) l00 hy
  · rw [h22]; exact single _ _ hb1 bb

/-- C200. For every rotation at all, both lists of angles that `euler-angle` finds give a matrix whose elements are at most 0.000011 off. -/
theorem C200_euler_near {f : ℝ → ℝ → ℝ} (hf : IsAtan2 f) (m : Nat → Nat → ℝ) (h : IsRot (mat 3 m)) :
    let r := eulerAngle f m
    Near 0.000011 (eulerMatrix r.1.1 r.1.2.1 r.1.2.2) m ∧ Near 0.000011 (eulerMatrix r.2.1 r.2.2.1 r.2.2.2) m := by
  intro r
  by_cases hz : 0.00001 ≤ |m 0 2| ∨ 0.00001 ≤ |m 1 2|
  · obtain ⟨h1, h2⟩ := C200_euler_partial hf m h (hz.imp id Or.inl)
    have key : ∀ m', mat 3 m' = mat 3 m → Near 0.000011 m' m := by
      intro m' e
      obtain ⟨⟨h00, h01, h02⟩, ⟨h10, h11, h12⟩, ⟨h20, h21, h22⟩⟩ := mat_ext.mp e
      refine near_mk ?_ ?_ ?_ ?_ ?_ ?_ ?_ ?_ ?_ <;> simp [*] <;> norm_num
    exact ⟨key _ h1, key _ h2⟩
  · push Not at hz
    have h0 : eulerFirst f m = 0 := by
      unfold eulerFirst
      exact if_pos ⟨(abs_lt.mp hz.2).1, (abs_lt.mp hz.2).2, (abs_lt.mp hz.1).1, (abs_lt.mp hz.1).2⟩
    have e := eqs h
    refine ⟨euler_near hf e hz.2 _ ?_, euler_near hf e hz.2 _ ?_⟩
    · rw [h0]; simp
    · show Real.sin (eulerFirst f m + Real.pi) = 0
      rw [h0]; simp

/-- C200. `euler-angle` finds the angles that were given to `euler-matrix`, if the z axis is moved by 0.000015 or more. -/
theorem C200_euler_back {f : ℝ → ℝ → ℝ} (hf : IsAtan2 f) (a b c : ℝ) (ha : -Real.pi < a ∧ a < Real.pi)
    (hb : 0 < b ∧ b < Real.pi) (hs : 0.000015 ≤ Real.sin b) (hc : -Real.pi < c ∧ c < Real.pi) :
    (eulerAngle f (eulerMatrix a b c)).1 = (a, b, c) := by
  obtain ⟨⟨h00, h01, h02⟩, ⟨h10, h11, h12⟩, ⟨h20, h21, h22⟩⟩ := elems9 ((euler_elems a b c).trans (ZYZ a b c))
  generalize eulerMatrix a b c = m at *
  have hcs := cs1 a
  have hsb : 0 < Real.sin b := by linarith
  have e1 : eulerFirst f m = a := by
    unfold eulerFirst
    rw [if_neg]
    · exact angle_of hf ha.1 ha.2 hsb (by rw [h02]; ring) (by rw [h12]; ring)
    · rintro ⟨n1, n2, n3, n4⟩
      rw [h12] at n1 n2
      rw [h02] at n3 n4
      have : Real.sin b * Real.sin b = (Real.cos a * Real.sin b) * (Real.cos a * Real.sin b) + (Real.sin a * Real.sin b) * (Real.sin a * Real.sin b) := by
        linear_combination -Real.sin b * Real.sin b * hcs
      nlinarith
  simp only [eulerAngle, eulerFrom, e1]
  refine Prod.ext rfl (Prod.ext ?_ ?_)
  · refine angle_of hf (by linarith) hb.2 one_pos ?_ ?_
    · rw [h22]; ring
    · rw [h02, h12]; linear_combination Real.sin b * hcs
  · refine angle_of hf hc.1 hc.2 one_pos ?_ ?_
    · rw [h01, h11]; linear_combination Real.cos c * hcs
    · rw [h00, h10]; linear_combination Real.sin c * hcs

/-! ### The axis of a rotation -/

/-- An axis of length 1 with the right products -/
structure Axis1 (m : Nat → Nat → ℝ) (cs sn x y z : ℝ) : Prop where
  unit : x * x + y * y + z * z = 1
  xx : x * x * (1 - cs) = m 0 0 - cs
  yy : y * y * (1 - cs) = m 1 1 - cs
  zz : z * z * (1 - cs) = m 2 2 - cs
  xy : 2 * (x * y * (1 - cs)) = m 1 0 + m 0 1
  xz : 2 * (x * z * (1 - cs)) = m 0 2 + m 2 0
  yz : 2 * (y * z * (1 - cs)) = m 1 2 + m 2 1
  sx : 2 * sn * x = m 2 1 - m 1 2
  sy : 2 * sn * y = m 0 2 - m 2 0
  sz : 2 * sn * z = m 1 0 - m 0 1

theorem better_right {m : Nat → Nat → ℝ} {cs sn kx ky kz : ℝ}
    (h : Sym cs (m 0 0 - cs) (m 1 1 - cs) (m 2 2 - cs) (m 1 0 + m 0 1) (m 0 2 + m 2 0) (m 1 2 + m 2 1)
      (m 2 1 - m 1 2) (m 0 2 - m 2 0) (m 1 0 - m 0 1))
    (hv : 0 < 1 - cs) (hs : sn * sn = 1 - cs * cs)
    (k : First cs sn (m 0 0 - cs) (m 1 1 - cs) (m 2 2 - cs) (m 2 1 - m 1 2) (m 0 2 - m 2 0) (m 1 0 - m 0 1) kx ky kz)
    (hd : ¬ (m 2 2 = cs ∧ m 0 0 = m 1 1)) : ∃ x y z, better m (1 - cs) kx ky kz = some (x, y, z) ∧ Axis1 m cs sn x y z := by
  unfold better
  split
  · next hx =>
    have h0 : kx ≠ 0 := abs_pos.mp (lt_of_le_of_lt (abs_nonneg ky) hx.1)
    obtain ⟨y, z, e, h1, h2, h3, h4, h5, h6, h7, h8⟩ := refine_right h hv hs kx h0 k.xx k.sx
    exact ⟨kx, y, z, by rw [e]; rfl, ⟨h1, k.xx, h2, h3, h4, h5, h6, k.sx, h7, h8⟩⟩
  · split
    · next hy =>
      have h0 : ky ≠ 0 := abs_pos.mp (lt_of_le_of_lt (abs_nonneg kx) hy.1)
      obtain ⟨x, z, e, h1, h2, h3, h4, h5, h6, h7, h8⟩ := refine_right h.rot hv hs ky h0 k.yy k.sy
      exact ⟨x, ky, z, by rw [e]; rfl, ⟨by linarith, h2, k.yy, h3, by linarith, h6, h5, h7, k.sy, h8⟩⟩
    · next hx hy =>
      have h0 : kz ≠ 0 := by
        intro hz
        apply hd
        rw [hz] at hx hy
        have h1 : m 2 2 = cs := by have := k.zz; rw [hz] at this; linarith
        refine ⟨h1, ?_⟩
        have habs : |kx| = |ky| := by
          rw [abs_zero] at hx hy
          rcases lt_trichotomy (|kx|) (|ky|) with h | h | h
          · exact absurd ⟨h, lt_of_le_of_lt (abs_nonneg kx) h⟩ hy
          · exact h
          · exact absurd ⟨h, lt_of_le_of_lt (abs_nonneg ky) h⟩ hx
        have : kx * kx = ky * ky := by rw [← abs_mul_abs_self kx, habs, abs_mul_abs_self]
        have h2 := k.xx
        have h3 := k.yy
        rw [this] at h2; linarith
      obtain ⟨x, y, e, h1, h2, h3, h4, h5, h6, h7, h8⟩ := refine_right h.swap.rot hv hs kz h0 k.zz k.sz
      exact ⟨x, y, kz, by rw [e]; rfl, ⟨by linarith, h2, h3, k.zz, h6, by linarith, by linarith, h7, h8, k.sz⟩⟩

theorem better_none {m : Nat → Nat → ℝ} {cs sn kx ky kz : ℝ} (hv : 0 < 1 - cs)
    (k : First cs sn (m 0 0 - cs) (m 1 1 - cs) (m 2 2 - cs) (m 2 1 - m 1 2) (m 0 2 - m 2 0) (m 1 0 - m 0 1) kx ky kz)
    (hd : m 2 2 = cs ∧ m 0 0 = m 1 1) : better m (1 - cs) kx ky kz = none := by
  have hz : kz = 0 := by
    have := k.zz
    rw [hd.1, sub_self] at this
    rcases mul_eq_zero.mp this with h | h
    · exact mul_self_eq_zero.mp h
    · exact absurd h hv.ne'
  have hxy : kx * kx = ky * ky := by
    have h1 := k.xx
    have h2 := k.yy
    rw [hd.2, ← h2] at h1
    exact mul_right_cancel₀ hv.ne' h1
  have habs : |kx| = |ky| := by
    rw [← abs_mul_abs_self kx, ← abs_mul_abs_self ky] at hxy
    exact (mul_self_inj (abs_nonneg _) (abs_nonneg _)).mp hxy
  unfold better
  rw [if_neg (by rw [habs]; simp), if_neg (by rw [habs]; simp), hz]
  simp [refine, fdiv]

theorem unitize_unit {x y z : ℝ} (h : x * x + y * y + z * z = 1) : unitize (x, y, z) = some (x, y, z) := by
  simp only [unitize, h, Real.sqrt_one, fdiv_some one_ne_zero]
  simp

theorem about_mat (t x y z : ℝ) : About t x y z = mat 3 (rotationAbout (Real.cos t) (Real.sin t) x y z) := by
  ext i j
  fin_cases i <;> fin_cases j <;>
    simp [About, mat, rotationAbout, mat9, Matrix.smul_apply, Matrix.one_apply] <;> ring

/-- The angle: its cosine and sine. -/
theorem angle_facts {f : ℝ → ℝ → ℝ} (hf : IsAtan2 f) (h0 : ∀ x, 0 ≤ f 0 x) {m : Nat → Nat → ℝ} (e : Eqs m) (th cs sn : ℝ)
    (hcs : cs = (m 0 0 + m 1 1 + m 2 2 - 1) / 2)
    (hsn : sn = Real.sqrt ((m 2 1 - m 1 2) * (m 2 1 - m 1 2) + (m 0 2 - m 2 0) * (m 0 2 - m 2 0) + (m 1 0 - m 0 1) * (m 1 0 - m 0 1)) / 2)
    (hth : th = f (2 * sn) (2 * cs)) :
    Real.cos th = cs ∧ Real.sin th = sn ∧ 0 ≤ th ∧ th ≤ Real.pi ∧ 0 ≤ sn ∧ sn * sn = 1 - cs * cs := by
  have hk := skew_norm e
  have hq : 0 ≤ (m 2 1 - m 1 2) * (m 2 1 - m 1 2) + (m 0 2 - m 2 0) * (m 0 2 - m 2 0) + (m 1 0 - m 0 1) * (m 1 0 - m 0 1) :=
    add_nonneg (add_nonneg (mul_self_nonneg _) (mul_self_nonneg _)) (mul_self_nonneg _)
  have hr := Real.mul_self_sqrt hq
  have hs0 : 0 ≤ sn := by rw [hsn]; exact div_nonneg (Real.sqrt_nonneg _) (by norm_num)
  have hss : sn * sn = 1 - cs * cs := by
    rw [hsn, hcs]
    linear_combination hr / 4 + hk / 4
  have hsum : (2 * cs) * (2 * cs) + (2 * sn) * (2 * sn) = 2 * 2 := by linear_combination 4 * hss
  have hne : 2 * cs ≠ 0 ∨ 2 * sn ≠ 0 := by
    by_contra hc
    push Not at hc
    rw [hc.1, hc.2] at hsum; norm_num at hsum
  have h1 := hf.cosine _ _ hne
  have h2 := hf.sine _ _ hne
  rw [hsum, Real.sqrt_mul_self (by norm_num), ← hth] at h1 h2
  have hl := hf.low (2 * sn) (2 * cs)
  have hh := hf.high (2 * sn) (2 * cs)
  rw [← hth] at hl hh
  refine ⟨by linarith, by linarith, ?_, hh, hs0, hss⟩
  by_cases hz : sn = 0
  · rw [hth, hz, mul_zero]; exact h0 _
  · by_contra hc
    push Not at hc
    have hp : 0 < sn := lt_of_le_of_ne hs0 (Ne.symm hz)
    rcases eq_or_lt_of_le hl with he | he
    · rw [← he, Real.sin_neg, Real.sin_pi] at h2; linarith
    · have := Real.sin_neg_of_neg_of_neg_pi_lt hc he
      linarith

/-- The rotations that `rotation-angle` does not answer for: half of the trace is the last element of the diagonal, and the other two are equal.  That is, the axis is (1,1,0) or (1,-1,0). -/
def Diagonal (m : Nat → Nat → ℝ) : Prop := m 2 2 = 2 * m 0 0 - 1 ∧ m 0 0 = m 1 1

theorem rotationAngle_cases {f : ℝ → ℝ → ℝ} (hf : IsAtan2 f) (h0 : ∀ x, 0 ≤ f 0 x) (m : Nat → Nat → ℝ) (h : IsRot (mat 3 m)) :
    (1 - (m 0 0 + m 1 1 + m 2 2 - 1) / 2 < 1e-10 ∧ rotationAngle f m = .nil) ∨
    (1e-10 ≤ 1 - (m 0 0 + m 1 1 + m 2 2 - 1) / 2 ∧ Diagonal m ∧ rotationAngle f m = .nan) ∨
    (1e-10 ≤ 1 - (m 0 0 + m 1 1 + m 2 2 - 1) / 2 ∧ ¬ Diagonal m ∧ ∃ th x y z, rotationAngle f m = .ok th x y z ∧ 0 < th ∧ th ≤ Real.pi ∧
      Axis1 m (Real.cos th) (Real.sin th) x y z) := by
  have e := eqs h
  obtain ⟨cs, hcs⟩ : ∃ cs, cs = (m 0 0 + m 1 1 + m 2 2 - 1) / 2 := ⟨_, rfl⟩
  obtain ⟨sn, hsn⟩ : ∃ sn, sn = Real.sqrt ((m 2 1 - m 1 2) * (m 2 1 - m 1 2) + (m 0 2 - m 2 0) * (m 0 2 - m 2 0) + (m 1 0 - m 0 1) * (m 1 0 - m 0 1)) / 2 := ⟨_, rfl⟩
  obtain ⟨th, hth⟩ : ∃ th, th = f (2 * sn) (2 * cs) := ⟨_, rfl⟩
  obtain ⟨f1, f2, f3, f4, f5, f6⟩ := angle_facts hf h0 e th cs sn hcs hsn hth
  have hsym := eq_sym e cs hcs
  have e1 : Real.sqrt ((m 2 1 - m 1 2) * (m 2 1 - m 1 2) + (m 0 2 - m 2 0) * (m 0 2 - m 2 0) + (m 1 0 - m 0 1) * (m 1 0 - m 0 1)) = 2 * sn := by
    rw [hsn]; ring
  have e2 : m 0 0 + m 1 1 + m 2 2 - 1 = 2 * cs := by rw [hcs]; ring
  have hdiag : Diagonal m ↔ (m 2 2 = cs ∧ m 0 0 = m 1 1) := by
    unfold Diagonal
    constructor
    · rintro ⟨a, b⟩; exact ⟨by linarith, b⟩
    · rintro ⟨a, b⟩; exact ⟨by linarith, b⟩
  unfold rotationAngle
  simp only [e1, e2, ← hth, mul_div_cancel_left₀ cs (two_ne_zero (α := ℝ))]
  by_cases hnil : th < 1e-10 ∨ 1 - cs < 1e-10
  · rw [if_pos hnil]
    refine Or.inl ⟨?_, rfl⟩
    rcases hnil with hn | hn
    · have := Real.one_sub_sq_div_two_le_cos (x := th)
      rw [f1] at this
      nlinarith
    · exact hn
  · rw [if_neg hnil]
    push Not at hnil
    have hv : 0 < 1 - cs := lt_of_lt_of_le (by norm_num) hnil.2
    have hth0 : 0 < th := lt_of_lt_of_le (by norm_num) hnil.1
    obtain ⟨kx, ky, kz, hk, hfirst⟩ : ∃ kx ky kz, axisFirst m th cs (1 - cs) (m 2 1 - m 1 2) (m 0 2 - m 2 0) (m 1 0 - m 0 1) (2 * sn) = some (kx, ky, kz) ∧
        First cs sn (m 0 0 - cs) (m 1 1 - cs) (m 2 2 - cs) (m 2 1 - m 1 2) (m 0 2 - m 2 0) (m 1 0 - m 0 1) kx ky kz := by
      unfold axisFirst
      split
      · next hlt =>
        have hp : 0 < sn := by
          rw [← f2]
          exact Real.sin_pos_of_pos_of_lt_pi hth0 (lt_trans hlt (by linarith [Real.pi_gt_three]))
        exact axisSmall_right hsym hp f6 hv
      · exact axisLarge_right hsym hv f5 f6
    rw [hk]
    by_cases hd : m 2 2 = cs ∧ m 0 0 = m 1 1
    · refine Or.inr (Or.inl ⟨hnil.2, hdiag.mpr hd, ?_⟩)
      simp [better_none hv hfirst hd]
    · obtain ⟨x, y, z, hb, ha⟩ := better_right hsym hv f6 hfirst hd
      refine Or.inr (Or.inr ⟨hnil.2, fun c => hd (hdiag.mp c), th, x, y, z, ?_, hth0, f4, by rw [f1, f2]; exact ha⟩)
      simp [hb, unitize_unit ha.unit]

/-- C200. The angle and the axis that `rotation-angle` finds give the rotation back, the axis has length 1 and the angle is between 0 and π.  Partial: not for the axes of `C200_axis_wrong`.  (atan2 of 0 and a negative number is π here and not -π, because the first argument is a square root.) -/
theorem C200_axis_partial {f : ℝ → ℝ → ℝ} (hf : IsAtan2 f) (h0 : ∀ x, 0 ≤ f 0 x) (m : Nat → Nat → ℝ) (h : IsRot (mat 3 m)) (hd : ¬ Diagonal m) :
    rotationAngle f m = .nil ∨ ∃ th x y z, rotationAngle f m = .ok th x y z ∧ 0 < th ∧ th ≤ Real.pi ∧ x * x + y * y + z * z = 1 ∧
      About th x y z = mat 3 m ∧ mat 3 (rotationAbout (Real.cos th) (Real.sin th) x y z) = mat 3 m := by
  rcases rotationAngle_cases hf h0 m h with ⟨_, h1⟩ | ⟨_, h1, _⟩ | ⟨_, _, th, x, y, z, h1, h2, h3, ha⟩
  · exact Or.inl h1
  · exact absurd h1 hd
  · have key : mat 3 (rotationAbout (Real.cos th) (Real.sin th) x y z) = mat 3 m := by
      unfold rotationAbout
      rw [mat_mat9]
      refine ⟨⟨?_, ?_, ?_⟩, ⟨?_, ?_, ?_⟩, ⟨?_, ?_, ?_⟩⟩
      · linarith [ha.xx]
      · linarith [ha.xy, ha.sz]
      · linarith [ha.xz, ha.sy]
      · linarith [ha.xy, ha.sz]
      · linarith [ha.yy]
      · linarith [ha.yz, ha.sx]
      · linarith [ha.xz, ha.sy]
      · linarith [ha.yz, ha.sx]
      · linarith [ha.zz]
    exact Or.inr ⟨th, x, y, z, h1, h2, h3, ha.unit, by rw [about_mat]; exact key, key⟩

/-- C200 fails for `rotation-angle` about the axes (1,1,0) and (1,-1,0): for every such rotation the components of the answer are not numbers (or the answer is NIL, if the angle is small). -/
theorem C200_axis_wrong {f : ℝ → ℝ → ℝ} (hf : IsAtan2 f) (h0 : ∀ x, 0 ≤ f 0 x) (m : Nat → Nat → ℝ) (h : IsRot (mat 3 m)) (hd : Diagonal m) :
    rotationAngle f m = .nil ∨ rotationAngle f m = .nan := by
  rcases rotationAngle_cases hf h0 m h with ⟨_, h1⟩ | ⟨_, _, h1⟩ | ⟨_, h1, _⟩
  · exact Or.inl h1
  · exact Or.inr h1
  · exact absurd hd h1

/-- C200. NIL is answered only for matrices that are nearly the identity, and for all with an angle below 0.00001. -/
theorem C200_axis_nil {f : ℝ → ℝ → ℝ} (hf : IsAtan2 f) (h0 : ∀ x, 0 ≤ f 0 x) (m : Nat → Nat → ℝ) (h : IsRot (mat 3 m)) :
    (rotationAngle f m = .nil → Near 0.000015 m (fun i j => if i = j then 1 else 0)) ∧
    (3 - 0.0000000002 < m 0 0 + m 1 1 + m 2 2 → rotationAngle f m = .nil) := by
  constructor
  · intro hnil
    rcases rotationAngle_cases hf h0 m h with ⟨hv, _⟩ | ⟨_, _, h1⟩ | ⟨_, _, th, x, y, z, h1, _⟩
    · have e := eqs h
      obtain ⟨cs, hcs⟩ : ∃ cs, cs = (m 0 0 + m 1 1 + m 2 2 - 1) / 2 := ⟨_, rfl⟩
      rw [← hcs] at hv
      have s := eq_sym e cs hcs
      have hsum := s.sum
      have n1 := s.nonnegx
      have n2 := s.nonnegy
      have n3 := s.nonnegz
      have diag : ∀ d x : ℝ, d = x - cs → 0 ≤ d → d ≤ 1 - cs → |x - 1| ≤ 0.000015 := by
        intro d x h1 h2 h3
        rw [abs_le]; constructor <;> linarith
      have tb : ∀ t d : ℝ, t * t = 4 * (1 + cs) * d → 0 ≤ d → d ≤ 1 - cs → |t| ≤ 0.0000285 := by
        intro t d h1 h2 h3
        apply abs_le_of_sq_le_sq _ (by norm_num)
        nlinarith
      have pb : ∀ p d d' : ℝ, 4 * d * d' = p * p → 0 ≤ d → d ≤ 1 - cs → 0 ≤ d' → d' ≤ 1 - cs → |p| ≤ 0.000000001 := by
        intro p d d' h1 h2 h3 h4 h5
        apply abs_le_of_sq_le_sq _ (by norm_num)
        have : d * d' ≤ 1e-10 * 1e-10 := mul_le_mul (by linarith) (by linarith) h4 (by norm_num)
        nlinarith
      have t1 := abs_le.mp (tb _ _ s.xx n1 (by linarith))
      have t2 := abs_le.mp (tb _ _ s.yy n2 (by linarith))
      have t3 := abs_le.mp (tb _ _ s.zz n3 (by linarith))
      have p1 := abs_le.mp (pb _ _ _ s.dxy n1 (by linarith) n2 (by linarith))
      have p2 := abs_le.mp (pb _ _ _ s.dxz n1 (by linarith) n3 (by linarith))
      have p3 := abs_le.mp (pb _ _ _ s.dyz n2 (by linarith) n3 (by linarith))
      refine near_mk ?_ ?_ ?_ ?_ ?_ ?_ ?_ ?_ ?_ <;> simp only [reduceIte, zero_ne_one, one_ne_zero, OfNat.zero_ne_ofNat, OfNat.ofNat_ne_zero, OfNat.one_ne_ofNat, OfNat.ofNat_ne_one, sub_zero]
      · exact diag _ _ rfl n1 (by linarith)
      · rw [abs_le]; constructor <;> linarith
      · rw [abs_le]; constructor <;> linarith
      · rw [abs_le]; constructor <;> linarith
      · exact diag _ _ rfl n2 (by linarith)
      · rw [abs_le]; constructor <;> linarith
      · rw [abs_le]; constructor <;> linarith
      · rw [abs_le]; constructor <;> linarith
      · exact diag _ _ rfl n3 (by linarith)
    · rw [hnil] at h1; cases h1
    · rw [hnil] at h1; cases h1
  · intro ht
    rcases rotationAngle_cases hf h0 m h with ⟨_, h1⟩ | ⟨hv, _⟩ | ⟨hv, _⟩
    · exact h1
    · norm_num at hv ht; linarith
    · norm_num at hv ht; linarith

/-- C200. `rotation-angle` of a rotation of the plane: `rotation-matrix` of the angle is the rotation. -/
theorem C200_plane {f : ℝ → ℝ → ℝ} (hf : IsAtan2 f) (m : Nat → Nat → ℝ) (h : IsRot (mat 2 m)) :
    mat 2 (rotationMatrix2 (rotationAngle2 f m)) = mat 2 m := by
  obtain ⟨h1, h2⟩ := h
  have h3 : (mat 2 m).transpose * mat 2 m = 1 := mul_eq_one_comm.mp h1
  have r := fun i j => congrFun (congrFun h1 i) j
  have c := fun i j => congrFun (congrFun h3 i) j
  simp only [Matrix.mul_apply, Fin.sum_univ_two, Matrix.transpose_apply, mat, Matrix.of_apply] at r c
  rw [Matrix.det_fin_two] at h2
  have r00 := r 0 0; have r01 := r 0 1; have r11 := r 1 1; have c00 := c 0 0; have c01 := c 0 1; have c11 := c 1 1
  simp [mat] at h2 r00 r01 r11 c00 c01 c11
  obtain ⟨a1, a2⟩ := unit_angle hf c00
  have e1 : m 1 1 = m 0 0 := by linear_combination -(m 1 1) * c00 + (m 1 0) * c01 + m 0 0 * h2
  have e2 : m 0 1 = - m 1 0 := by linear_combination -(m 0 1) * c00 + (m 0 0) * c01 - m 1 0 * h2
  ext i j
  fin_cases i <;> fin_cases j <;> simp [mat, rotationMatrix2, rotationAngle2, a1, a2, e1, e2]

/-! ### The hypotheses can be met -/

theorem isRot_mk {m : Nat → Nat → ℝ} (h00 : m 0 0 * m 0 0 + m 0 1 * m 0 1 + m 0 2 * m 0 2 = 1) (h11 : m 1 0 * m 1 0 + m 1 1 * m 1 1 + m 1 2 * m 1 2 = 1)
    (h22 : m 2 0 * m 2 0 + m 2 1 * m 2 1 + m 2 2 * m 2 2 = 1) (h01 : m 0 0 * m 1 0 + m 0 1 * m 1 1 + m 0 2 * m 1 2 = 0)
    (h02 : m 0 0 * m 2 0 + m 0 1 * m 2 1 + m 0 2 * m 2 2 = 0) (h12 : m 1 0 * m 2 0 + m 1 1 * m 2 1 + m 1 2 * m 2 2 = 0)
    (hdet : m 0 0 * m 1 1 * m 2 2 - m 0 0 * m 1 2 * m 2 1 - m 0 1 * m 1 0 * m 2 2 + m 0 1 * m 1 2 * m 2 0 + m 0 2 * m 1 0 * m 2 1 - m 0 2 * m 1 1 * m 2 0 = 1) :
    IsRot (mat 3 m) := by
  constructor
  · ext i j
    fin_cases i <;> fin_cases j <;> simp [mat, Matrix.mul_apply, Fin.sum_univ_three] <;> linarith
  · rw [Matrix.det_fin_three]
    simpa [mat] using hdet

/-- The rotation by 60 degrees about (1,1,1) -/
noncomputable def third : Nat → Nat → ℝ := mat9 (2/3) (-1/3) (2/3) (2/3) (2/3) (-1/3) (-1/3) (2/3) (2/3)

example : IsRot (mat 3 third) ∧ 0.00001 ≤ |third 0 2| ∧ ¬ Diagonal third := by
  refine ⟨isRot_mk ?_ ?_ ?_ ?_ ?_ ?_ ?_, ?_, ?_⟩ <;> simp [third, mat9, Diagonal] <;> norm_num

/-- Half a turn about (1,1,0): answered with NaN. -/
noncomputable def half : Nat → Nat → ℝ := mat9 0 1 0 1 0 0 0 0 (-1)

example : IsRot (mat 3 half) ∧ Diagonal half ∧ ∀ f, IsAtan2 f → (∀ x, 0 ≤ f 0 x) → rotationAngle f half = .nan := by
  have h1 : IsRot (mat 3 half) := by refine isRot_mk ?_ ?_ ?_ ?_ ?_ ?_ ?_ <;> simp [half, mat9]
  have h2 : Diagonal half := by constructor <;> simp [half, mat9]
  refine ⟨h1, h2, fun f hf h0 => ?_⟩
  rcases rotationAngle_cases hf h0 half h1 with ⟨h, _⟩ | ⟨_, _, h⟩ | ⟨_, h, _⟩
  · simp [half, mat9] at h; norm_num at h
  · exact h
  · exact absurd h2 h

/-- A rotation about x by about 0.000002: `euler-angle` does not see it. -/
noncomputable def slight : Nat → Nat → ℝ :=
  mat9 1 0 0 0 (999999999999/1000000000001) (2000000/1000000000001) 0 (-2000000/1000000000001) (999999999999/1000000000001)

example : IsRot (mat 3 slight) ∧ |slight 0 2| < 0.00001 ∧ |slight 1 2| < 0.00001 ∧ slight 1 2 ≠ 0 := by
  refine ⟨isRot_mk ?_ ?_ ?_ ?_ ?_ ?_ ?_, ?_, ?_, ?_⟩ <;> simp [slight, mat9] <;> norm_num [abs_of_pos]

/-- There is such an atan2. -/
example : IsAtan2 (fun y x => Complex.arg ⟨x, y⟩) ∧ ∀ x : ℝ, 0 ≤ Complex.arg ⟨x, 0⟩ :=
  ⟨arg_isAtan2, fun x => Complex.arg_nonneg_iff.mpr (le_refl 0)⟩

end Eus.Rpy
