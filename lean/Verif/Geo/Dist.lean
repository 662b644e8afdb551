import Verif.Geo.DistModel
import Verif.Geo.Poly
import Mathlib.Topology.Order.IntermediateValue
import Mathlib.Topology.Instances.Real.Lemmas
import Mathlib.Tactic.NormNum
set_option autoImplicit false
/- Distances: proofs. -/
namespace Eus.Geo

theorem dot_self_nonneg (a : V3 ℝ) : 0 ≤ a.dot a := by
  simp only [V3.dot]
  nlinarith [sq_nonneg a.x, sq_nonneg a.y, sq_nonneg a.z]

theorem dot_self_zero {a : V3 ℝ} (h : a.dot a = 0) : a = ⟨0, 0, 0⟩ := by
  simp only [V3.dot] at h
  have hx : a.x * a.x = 0 := by nlinarith [sq_nonneg a.x, sq_nonneg a.y, sq_nonneg a.z]
  have hy : a.y * a.y = 0 := by nlinarith [sq_nonneg a.x, sq_nonneg a.y, sq_nonneg a.z]
  have hz : a.z * a.z = 0 := by nlinarith [sq_nonneg a.x, sq_nonneg a.y, sq_nonneg a.z]
  ext
  · exact mul_self_eq_zero.1 hx
  · exact mul_self_eq_zero.1 hy
  · exact mul_self_eq_zero.1 hz

theorem dir_ne {p q : V3 ℝ} (h : p ≠ q) : 0 < (q.sub p).dot (q.sub p) := by
  rcases lt_or_eq_of_le (dot_self_nonneg (q.sub p)) with h' | h'
  · exact h'
  · exfalso
    have := dot_self_zero h'.symm
    apply h
    have hx := congrArg V3.x this; have hy := congrArg V3.y this; have hz := congrArg V3.z this
    simp only [V3.sub] at hx hy hz
    ext <;> linarith

theorem point_eq (l : Line) (t : ℝ) : l.point t = at3 l.pvert l.nvert t := by
  ext <;> simp only [Line.point, V3.mid, at3] <;> ring

theorem dist_comm' (a b : V3 ℝ) : dist a b = dist b a := by
  unfold dist
  congr 1
  simp only [V3.dot, V3.sub]; ring

theorem dist_nonneg' (a b : V3 ℝ) : 0 ≤ dist a b := Real.sqrt_nonneg _

theorem dist_self' (a : V3 ℝ) : dist a a = 0 := by simp [dist, V3.dot, V3.sub]

theorem dist_le_iff (a b c d : V3 ℝ) : dist a b ≤ dist c d ↔ (a.sub b).dot (a.sub b) ≤ (c.sub d).dot (c.sub d) := by
  unfold dist
  exact Real.sqrt_le_sqrt_iff (dot_self_nonneg _)

theorem foot_eq (l : Line) (h : l.pvert ≠ l.nvert) (p : V3 ℝ) :
    l.foot p = some ((l.nvert.sub l.pvert).dot (p.sub l.pvert) / (l.nvert.sub l.pvert).dot (l.nvert.sub l.pvert)) := by
  have hp := dir_ne h
  have h1 : (l.pvert.sub l.nvert).dot (l.pvert.sub l.nvert) = (l.nvert.sub l.pvert).dot (l.nvert.sub l.pvert) := by
    simp only [V3.dot, V3.sub]; ring
  have h2 : (l.pvert.sub l.nvert).dot (l.pvert.sub p) = (l.nvert.sub l.pvert).dot (p.sub l.pvert) := by
    simp only [V3.dot, V3.sub]; ring
  unfold Line.foot
  simp only [h1, h2]
  rw [if_neg hp.ne']

/-- Pythagoras about the foot. -/
theorem foot_pyth (p q r : V3 ℝ) (t0 : ℝ) (h0 : t0 * (q.sub p).dot (q.sub p) = (q.sub p).dot (r.sub p)) (t : ℝ) :
    ((at3 p q t).sub r).dot ((at3 p q t).sub r) =
      ((at3 p q t0).sub r).dot ((at3 p q t0).sub r) + (t - t0) ^ 2 * (q.sub p).dot (q.sub p) := by
  simp only [V3.dot, V3.sub, at3] at h0 ⊢
  linear_combination (2 * (t - t0)) * h0

theorem distancePoint_spec (l : Line) (h : l.pvert ≠ l.nvert) (p : V3 ℝ) :
    ∃ d t, l.distancePoint p = some d ∧ 0 ≤ t ∧ t ≤ 1 ∧ d = dist (at3 l.pvert l.nvert t) p ∧
      ∀ s, 0 ≤ s → s ≤ 1 → d ≤ dist (at3 l.pvert l.nvert s) p := by
  have hpos := dir_ne h
  unfold Line.distancePoint
  rw [foot_eq l h p]
  simp only
  generalize ht0 : (l.nvert.sub l.pvert).dot (p.sub l.pvert) / (l.nvert.sub l.pvert).dot (l.nvert.sub l.pvert) = t0
  have hmul : t0 * (l.nvert.sub l.pvert).dot (l.nvert.sub l.pvert) = (l.nvert.sub l.pvert).dot (p.sub l.pvert) := by
    rw [← ht0]; exact div_mul_cancel₀ _ hpos.ne'
  have hpy := foot_pyth l.pvert l.nvert p t0 hmul
  by_cases h1 : t0 > 1
  · rw [if_pos h1]
    refine ⟨_, 1, rfl, zero_le_one, le_rfl, by rw [show at3 l.pvert l.nvert 1 = l.nvert by simp [at3]], fun s hs0 hs1 => ?_⟩
    rw [show l.nvert = at3 l.pvert l.nvert 1 by simp [at3]]
    rw [show at3 l.pvert (at3 l.pvert l.nvert 1) s = at3 l.pvert l.nvert s by ext <;> simp [at3]]
    rw [dist_le_iff, hpy 1, hpy s]
    have : (1 - t0) ^ 2 ≤ (s - t0) ^ 2 := by nlinarith
    nlinarith
  · rw [if_neg h1]
    by_cases h0 : t0 < 0
    · rw [if_pos h0]
      refine ⟨_, 0, rfl, le_rfl, zero_le_one, by rw [show at3 l.pvert l.nvert 0 = l.pvert by simp [at3]], fun s hs0 hs1 => ?_⟩
      rw [show dist l.pvert p = dist (at3 l.pvert l.nvert 0) p by simp [at3]]
      rw [dist_le_iff, hpy 0, hpy s]
      have : (0 - t0) ^ 2 ≤ (s - t0) ^ 2 := by nlinarith
      nlinarith
    · rw [if_neg h0]
      refine ⟨_, t0, rfl, not_lt.1 h0, not_lt.1 h1, by rw [point_eq], fun s _ _ => ?_⟩
      rw [point_eq, dist_le_iff, hpy s]
      have := mul_nonneg (sq_nonneg (s - t0)) hpos.le
      linarith

/-- From a point of the unit square towards a point that is not in its interior, one meets the boundary. -/
theorem exit_square (s t u v : ℝ) (hs0 : 0 ≤ s) (hs1 : s ≤ 1) (ht0 : 0 ≤ t) (ht1 : t ≤ 1)
    (hout : ¬ ((0 < u ∧ u < 1) ∧ (0 < v ∧ v < 1))) :
    ∃ r s' t', 0 ≤ r ∧ r ≤ 1 ∧ s' = s + r * (u - s) ∧ t' = t + r * (v - t) ∧ 0 ≤ s' ∧ s' ≤ 1 ∧ 0 ≤ t' ∧ t' ≤ 1 ∧
      (s' = 0 ∨ s' = 1 ∨ t' = 0 ∨ t' = 1) := by
  let m : ℝ → ℝ := fun r => min (min (s + r * (u - s)) (1 - (s + r * (u - s)))) (min (t + r * (v - t)) (1 - (t + r * (v - t))))
  have hcont : Continuous m := by fun_prop
  have h0 : 0 ≤ m 0 := by
    simp only [m, zero_mul, add_zero, le_min_iff]
    refine ⟨⟨hs0, by linarith⟩, ht0, by linarith⟩
  have h1 : m 1 ≤ 0 := by
    simp only [m, one_mul]
    by_contra hc
    rw [not_le, lt_min_iff, lt_min_iff, lt_min_iff] at hc
    exact hout ⟨⟨by linarith [hc.1.1], by linarith [hc.1.2]⟩, by linarith [hc.2.1], by linarith [hc.2.2]⟩
  obtain ⟨r, hr, hm⟩ : (0 : ℝ) ∈ m '' Set.Icc 0 1 := intermediate_value_Icc' zero_le_one hcont.continuousOn ⟨h1, h0⟩
  refine ⟨r, _, _, hr.1, hr.2, rfl, rfl, ?_⟩
  simp only [m] at hm
  generalize s + r * (u - s) = a at hm ⊢
  generalize t + r * (v - t) = b at hm ⊢
  have hall : 0 ≤ min (min a (1 - a)) (min b (1 - b)) := hm.ge
  simp only [le_min_iff] at hall
  refine ⟨hall.1.1, by linarith [hall.1.2], hall.2.1, by linarith [hall.2.2], ?_⟩
  rcases min_choice (min a (1 - a)) (min b (1 - b)) with h | h <;> rw [h] at hm
  · rcases min_choice a (1 - a) with h' | h' <;> rw [h'] at hm
    · exact Or.inl hm
    · exact Or.inr (Or.inl (by linarith))
  · rcases min_choice b (1 - b) with h' | h' <;> rw [h'] at hm
    · exact Or.inr (Or.inr (Or.inl hm))
    · exact Or.inr (Or.inr (Or.inr (by linarith)))

/-- Squared distance between points of two lines. -/
noncomputable def F (s ln : Line) (u v : ℝ) : ℝ := ((at3 s.pvert s.nvert u).sub (at3 ln.pvert ln.nvert v)).dot ((at3 s.pvert s.nvert u).sub (at3 ln.pvert ln.nvert v))

theorem F_eq (s ln : Line) (u v : ℝ) :
    F s ln u v = (s.pvert.sub ln.pvert).dot (s.pvert.sub ln.pvert)
      + u ^ 2 * (s.nvert.sub s.pvert).dot (s.nvert.sub s.pvert)
      + v ^ 2 * (ln.nvert.sub ln.pvert).dot (ln.nvert.sub ln.pvert)
      - 2 * u * v * (s.nvert.sub s.pvert).dot (ln.nvert.sub ln.pvert)
      + 2 * u * (s.pvert.sub ln.pvert).dot (s.nvert.sub s.pvert)
      - 2 * v * (s.pvert.sub ln.pvert).dot (ln.nvert.sub ln.pvert) := by
  simp only [F, at3, V3.dot, V3.sub]; ring

/-- Cauchy and Schwarz. -/
theorem cauchy (a b : V3 ℝ) : a.dot b * a.dot b ≤ a.dot a * b.dot b := by
  simp only [V3.dot]
  nlinarith [sq_nonneg (a.x * b.y - a.y * b.x), sq_nonneg (a.y * b.z - a.z * b.y), sq_nonneg (a.z * b.x - a.x * b.z)]

/-- Quadratic form of the two directions is not negative. -/
theorem form_nonneg (a b : V3 ℝ) (u v : ℝ) : 0 ≤ u ^ 2 * a.dot a + v ^ 2 * b.dot b - 2 * u * v * a.dot b := by
  have : u ^ 2 * a.dot a + v ^ 2 * b.dot b - 2 * u * v * a.dot b = ((V3.scale u a).sub (V3.scale v b)).dot ((V3.scale u a).sub (V3.scale v b)) := by
    simp only [V3.dot, V3.sub, V3.scale]; ring
  rw [this]
  exact dot_self_nonneg _

/-- The critical point is where the distance is smallest. -/
theorem crit_min (aa bb ab xa xb c u0 v0 : ℝ) (hq : ∀ u v : ℝ, 0 ≤ u ^ 2 * aa + v ^ 2 * bb - 2 * u * v * ab)
    (h1 : u0 * aa - v0 * ab = -xa) (h2 : v0 * bb - u0 * ab = xb) (u v r : ℝ) (hr0 : 0 ≤ r) (hr1 : r ≤ 1) :
    c + (u + r * (u0 - u)) ^ 2 * aa + (v + r * (v0 - v)) ^ 2 * bb - 2 * (u + r * (u0 - u)) * (v + r * (v0 - v)) * ab
        + 2 * (u + r * (u0 - u)) * xa - 2 * (v + r * (v0 - v)) * xb ≤
      c + u ^ 2 * aa + v ^ 2 * bb - 2 * u * v * ab + 2 * u * xa - 2 * v * xb := by
  have hn := hq (u - u0) (v - v0)
  have hxa : xa = -(u0 * aa - v0 * ab) := by linarith
  have hxb : xb = v0 * bb - u0 * ab := by linarith
  subst hxa hxb
  have key : (c + u ^ 2 * aa + v ^ 2 * bb - 2 * u * v * ab + 2 * u * -(u0 * aa - v0 * ab) - 2 * v * (v0 * bb - u0 * ab)) -
      (c + (u + r * (u0 - u)) ^ 2 * aa + (v + r * (v0 - v)) ^ 2 * bb - 2 * (u + r * (u0 - u)) * (v + r * (v0 - v)) * ab
        + 2 * (u + r * (u0 - u)) * -(u0 * aa - v0 * ab) - 2 * (v + r * (v0 - v)) * (v0 * bb - u0 * ab)) =
      (r * (2 - r)) * ((u - u0) ^ 2 * aa + (v - v0) ^ 2 * bb - 2 * (u - u0) * (v - v0) * ab) := by ring
  have : 0 ≤ (r * (2 - r)) * ((u - u0) ^ 2 * aa + (v - v0) ^ 2 * bb - 2 * (u - u0) * (v - v0) * ab) :=
    mul_nonneg (mul_nonneg hr0 (by linarith)) hn
  linarith

theorem dist_sq (a b : V3 ℝ) : dist a b ^ 2 = (a.sub b).dot (a.sub b) := Real.sq_sqrt (dot_self_nonneg _)

theorem F_dist (s ln : Line) (u v : ℝ) : dist (at3 s.pvert s.nvert u) (at3 ln.pvert ln.nvert v) = Real.sqrt (F s ln u v) := rfl

theorem at3_zero' (p q : V3 ℝ) : at3 p q 0 = p := by simp [at3]
theorem at3_one' (p q : V3 ℝ) : at3 p q 1 = q := by simp [at3]

/-- The smallest of the four distances of an end from the other line. -/
theorem ends_spec (s ln : Line) (hs : s.pvert ≠ s.nvert) (hl : ln.pvert ≠ ln.nvert) :
    ∃ d, min4 (s.distancePoint ln.pvert) (s.distancePoint ln.nvert) (ln.distancePoint s.pvert) (ln.distancePoint s.nvert) = some d ∧
      (∃ u v, 0 ≤ u ∧ u ≤ 1 ∧ 0 ≤ v ∧ v ≤ 1 ∧ d = dist (at3 s.pvert s.nvert u) (at3 ln.pvert ln.nvert v)) ∧
      ∀ u v, 0 ≤ u → u ≤ 1 → 0 ≤ v → v ≤ 1 → (u = 0 ∨ u = 1 ∨ v = 0 ∨ v = 1) →
        d ≤ dist (at3 s.pvert s.nvert u) (at3 ln.pvert ln.nvert v) := by
  obtain ⟨d1, t1, e1, h10, h11, hd1, m1⟩ := distancePoint_spec s hs ln.pvert
  obtain ⟨d2, t2, e2, h20, h21, hd2, m2⟩ := distancePoint_spec s hs ln.nvert
  obtain ⟨d3, t3, e3, h30, h31, hd3, m3⟩ := distancePoint_spec ln hl s.pvert
  obtain ⟨d4, t4, e4, h40, h41, hd4, m4⟩ := distancePoint_spec ln hl s.nvert
  rw [e1, e2, e3, e4]
  refine ⟨min (min (min d1 d2) d3) d4, rfl, ?_, ?_⟩
  · rcases min_choice (min (min d1 d2) d3) d4 with h | h <;> rw [h]
    · rcases min_choice (min d1 d2) d3 with h | h <;> rw [h]
      · rcases min_choice d1 d2 with h | h <;> rw [h]
        · exact ⟨t1, 0, h10, h11, le_rfl, zero_le_one, by rw [hd1, at3_zero']⟩
        · exact ⟨t2, 1, h20, h21, zero_le_one, le_rfl, by rw [hd2, at3_one']⟩
      · exact ⟨0, t3, le_rfl, zero_le_one, h30, h31, by rw [hd3, at3_zero', dist_comm']⟩
    · exact ⟨1, t4, zero_le_one, le_rfl, h40, h41, by rw [hd4, at3_one', dist_comm']⟩
  · intro u v hu0 hu1 hv0 hv1 hb
    have l1 : min (min (min d1 d2) d3) d4 ≤ d1 := (min_le_left _ _).trans ((min_le_left _ _).trans (min_le_left _ _))
    have l2 : min (min (min d1 d2) d3) d4 ≤ d2 := (min_le_left _ _).trans ((min_le_left _ _).trans (min_le_right _ _))
    have l3 : min (min (min d1 d2) d3) d4 ≤ d3 := (min_le_left _ _).trans (min_le_right _ _)
    have l4 : min (min (min d1 d2) d3) d4 ≤ d4 := min_le_right _ _
    rcases hb with rfl | rfl | rfl | rfl
    · rw [at3_zero', dist_comm']; exact l3.trans (m3 v hv0 hv1)
    · rw [at3_one', dist_comm']; exact l4.trans (m4 v hv0 hv1)
    · rw [at3_zero' ln.pvert]; exact l1.trans (m1 u hu0 hu1)
    · rw [at3_one' ln.pvert]; exact l2.trans (m2 u hu0 hu1)

/-- Directions of two lines: the square of the sine of their angle, times their squared lengths, negated. -/
noncomputable def para (s ln : Line) : ℝ :=
  (s.nvert.sub s.pvert).dot (ln.nvert.sub ln.pvert) * (s.nvert.sub s.pvert).dot (ln.nvert.sub ln.pvert)
    - (s.nvert.sub s.pvert).dot (s.nvert.sub s.pvert) * (ln.nvert.sub ln.pvert).dot (ln.nvert.sub ln.pvert)

/-- Two lines with equal slopes: the distance does not change along both. -/
theorem slide (s ln : Line) (hp : para s ln = 0) (u v r : ℝ) :
    F s ln (u + r * (ln.nvert.sub ln.pvert).dot (ln.nvert.sub ln.pvert)) (v + r * (s.nvert.sub s.pvert).dot (ln.nvert.sub ln.pvert)) = F s ln u v := by
  have hv : ((V3.scale ((ln.nvert.sub ln.pvert).dot (ln.nvert.sub ln.pvert)) (s.nvert.sub s.pvert)).sub
      (V3.scale ((s.nvert.sub s.pvert).dot (ln.nvert.sub ln.pvert)) (ln.nvert.sub ln.pvert))) = ⟨0, 0, 0⟩ := by
    apply dot_self_zero
    have : ∀ a b : V3 ℝ, ((V3.scale (b.dot b) a).sub (V3.scale (a.dot b) b)).dot ((V3.scale (b.dot b) a).sub (V3.scale (a.dot b) b)) =
        -(b.dot b) * (a.dot b * a.dot b - a.dot a * b.dot b) := by
      intro a b; simp only [V3.dot, V3.sub, V3.scale]; ring
    rw [this]
    have h0 : (s.nvert.sub s.pvert).dot (ln.nvert.sub ln.pvert) * (s.nvert.sub s.pvert).dot (ln.nvert.sub ln.pvert)
      - (s.nvert.sub s.pvert).dot (s.nvert.sub s.pvert) * (ln.nvert.sub ln.pvert).dot (ln.nvert.sub ln.pvert) = 0 := hp
    rw [h0, mul_zero]
  have hx := congrArg V3.x hv
  have hy := congrArg V3.y hv
  have hz := congrArg V3.z hv
  unfold F
  have : (at3 s.pvert s.nvert (u + r * (ln.nvert.sub ln.pvert).dot (ln.nvert.sub ln.pvert))).sub
        (at3 ln.pvert ln.nvert (v + r * (s.nvert.sub s.pvert).dot (ln.nvert.sub ln.pvert))) =
      (at3 s.pvert s.nvert u).sub (at3 ln.pvert ln.nvert v) := by
    generalize (ln.nvert.sub ln.pvert).dot (ln.nvert.sub ln.pvert) = bb at *
    generalize (s.nvert.sub s.pvert).dot (ln.nvert.sub ln.pvert) = ab at *
    simp only [V3.sub, V3.scale] at hx hy hz
    ext
    · simp only [V3.sub, at3]; linear_combination r * hx
    · simp only [V3.sub, at3]; linear_combination r * hy
    · simp only [V3.sub, at3]; linear_combination r * hz
  rw [this]

theorem distanceLine_spec (s ln : Line) (hs : s.pvert ≠ s.nvert) (hl : ln.pvert ≠ ln.nvert) :
    ∃ d, s.distanceLine ln = some d ∧
      (∃ u v, 0 ≤ u ∧ u ≤ 1 ∧ 0 ≤ v ∧ v ≤ 1 ∧ d = dist (at3 s.pvert s.nvert u) (at3 ln.pvert ln.nvert v)) ∧
      ((para s ln = 0 ∨ |para s ln| > 1 / 10000) → ∀ u v, 0 ≤ u → u ≤ 1 → 0 ≤ v → v ≤ 1 →
        d ≤ dist (at3 s.pvert s.nvert u) (at3 ln.pvert ln.nvert v)) := by
  obtain ⟨d, he, hatt, hmin⟩ := ends_spec s ln hs hl
  have hbb := dir_ne hl
  unfold Line.distanceLine
  simp only [he]
  change ∃ d', (if |para s ln| > 1 / 10000 then _ else some d) = some d' ∧ _
  by_cases hpar : |para s ln| > 1 / 10000
  · rw [if_pos hpar]
    have hne : para s ln ≠ 0 := by
      intro h; rw [h, abs_zero] at hpar; norm_num at hpar
    generalize hta : ((ln.nvert.sub ln.pvert).dot (ln.nvert.sub ln.pvert) * (s.pvert.sub ln.pvert).dot (s.nvert.sub s.pvert)
      - (s.nvert.sub s.pvert).dot (ln.nvert.sub ln.pvert) * (s.pvert.sub ln.pvert).dot (ln.nvert.sub ln.pvert)) /
      ((s.nvert.sub s.pvert).dot (ln.nvert.sub ln.pvert) * (s.nvert.sub s.pvert).dot (ln.nvert.sub ln.pvert)
        - (s.nvert.sub s.pvert).dot (s.nvert.sub s.pvert) * (ln.nvert.sub ln.pvert).dot (ln.nvert.sub ln.pvert)) = ta
    generalize htb : ((s.nvert.sub s.pvert).dot (ln.nvert.sub ln.pvert) * (s.pvert.sub ln.pvert).dot (s.nvert.sub s.pvert)
      - (s.nvert.sub s.pvert).dot (s.nvert.sub s.pvert) * (s.pvert.sub ln.pvert).dot (ln.nvert.sub ln.pvert)) /
      ((s.nvert.sub s.pvert).dot (ln.nvert.sub ln.pvert) * (s.nvert.sub s.pvert).dot (ln.nvert.sub ln.pvert)
        - (s.nvert.sub s.pvert).dot (s.nvert.sub s.pvert) * (ln.nvert.sub ln.pvert).dot (ln.nvert.sub ln.pvert)) = tb
    have hcr : ∀ u v r : ℝ, 0 ≤ r → r ≤ 1 → F s ln (u + r * (ta - u)) (v + r * (tb - v)) ≤ F s ln u v := by
      intro u v r hr0 hr1
      have hform := form_nonneg (s.nvert.sub s.pvert) (ln.nvert.sub ln.pvert)
      rw [F_eq, F_eq]
      unfold para at hne
      generalize (s.nvert.sub s.pvert).dot (s.nvert.sub s.pvert) = aa at *
      generalize (ln.nvert.sub ln.pvert).dot (ln.nvert.sub ln.pvert) = bb at *
      generalize (s.nvert.sub s.pvert).dot (ln.nvert.sub ln.pvert) = ab at *
      generalize (s.pvert.sub ln.pvert).dot (s.nvert.sub s.pvert) = xa at *
      generalize (s.pvert.sub ln.pvert).dot (ln.nvert.sub ln.pvert) = xb at *
      have h1 : ta * (ab * ab - aa * bb) = bb * xa - ab * xb := by rw [← hta]; exact div_mul_cancel₀ _ hne
      have h2 : tb * (ab * ab - aa * bb) = ab * xa - aa * xb := by rw [← htb]; exact div_mul_cancel₀ _ hne
      refine crit_min aa bb ab xa xb _ ta tb hform ?_ ?_ u v r hr0 hr1
      · apply mul_right_cancel₀ hne
        linear_combination aa * h1 - ab * h2
      · apply mul_right_cancel₀ hne
        linear_combination bb * h2 - ab * h1
    by_cases hin : (0 < ta ∧ ta < 1) ∧ (0 < tb ∧ tb < 1)
    · rw [if_pos hin]
      refine ⟨_, rfl, ⟨ta, tb, hin.1.1.le, hin.1.2.le, hin.2.1.le, hin.2.2.le, by rw [point_eq, point_eq]⟩, fun _ u v _ _ _ _ => ?_⟩
      rw [point_eq, point_eq, F_dist, F_dist]
      have := hcr u v 1 zero_le_one le_rfl
      rw [show u + 1 * (ta - u) = ta by ring, show v + 1 * (tb - v) = tb by ring] at this
      exact Real.sqrt_le_sqrt this
    · rw [if_neg hin]
      refine ⟨d, rfl, hatt, fun _ u v hu0 hu1 hv0 hv1 => ?_⟩
      obtain ⟨r, u', v', hr0, hr1, rfl, rfl, h1, h2, h3, h4, hb⟩ := exit_square u v ta tb hu0 hu1 hv0 hv1 hin
      refine (hmin _ _ h1 h2 h3 h4 hb).trans ?_
      rw [F_dist, F_dist]
      exact Real.sqrt_le_sqrt (hcr u v r hr0 hr1)
  · rw [if_neg hpar]
    refine ⟨d, rfl, hatt, fun hor u v hu0 hu1 hv0 hv1 => ?_⟩
    rcases hor with h0 | h0
    · obtain ⟨r, u', v', hr0, hr1, hu', hv', h1, h2, h3, h4, hb⟩ := exit_square u v
        (u + 2 / (ln.nvert.sub ln.pvert).dot (ln.nvert.sub ln.pvert) * (ln.nvert.sub ln.pvert).dot (ln.nvert.sub ln.pvert))
        (v + 2 / (ln.nvert.sub ln.pvert).dot (ln.nvert.sub ln.pvert) * (s.nvert.sub s.pvert).dot (ln.nvert.sub ln.pvert)) hu0 hu1 hv0 hv1
        (by
          rw [div_mul_cancel₀ _ hbb.ne']
          intro h; linarith [h.1.2])
      refine (hmin _ _ h1 h2 h3 h4 hb).trans ?_
      rw [F_dist, F_dist]
      have := slide s ln h0 u v (r * (2 / (ln.nvert.sub ln.pvert).dot (ln.nvert.sub ln.pvert)))
      rw [← this]
      apply le_of_eq
      congr 2
      · rw [hu']; ring
      · rw [hv']; ring
    · exact absurd h0 hpar

/-! ### Common perpendicular -/

theorem norm_sq (a : V3 ℝ) : norm a * norm a = a.dot a := Real.mul_self_sqrt (dot_self_nonneg _)

theorem commonPerp_spec (thr : ℝ) (s l : Line) (hthr : 0 < thr) :
    (s.commonPerpendicular thr l = .parallel ∧ |para s l| < thr) ∨
    (|para s l| ≥ thr ∧ ∃ u v, s.commonPerpendicular thr l = .points (at3 s.pvert s.nvert u) (at3 l.pvert l.nvert v) ∧
      (s.nvert.sub s.pvert).dot ((at3 s.pvert s.nvert u).sub (at3 l.pvert l.nvert v)) = 0 ∧
      (l.nvert.sub l.pvert).dot ((at3 s.pvert s.nvert u).sub (at3 l.pvert l.nvert v)) = 0) := by
  unfold Line.commonPerpendicular
  simp only [norm_sq, point_eq]
  have hdet : (s.nvert.sub s.pvert).dot (l.nvert.sub l.pvert) * (s.nvert.sub s.pvert).dot (l.nvert.sub l.pvert) +
      -(l.nvert.sub l.pvert).dot (l.nvert.sub l.pvert) * (s.nvert.sub s.pvert).dot (s.nvert.sub s.pvert) = para s l := by
    unfold para; ring
  rw [hdet]
  by_cases h : |para s l| < thr
  · rw [if_pos h]; exact Or.inl ⟨rfl, h⟩
  · rw [if_neg h]
    refine Or.inr ⟨not_lt.1 h, _, _, rfl, ?_⟩
    have hne : para s l ≠ 0 := by
      intro h0; rw [h0, abs_zero] at h; exact h hthr
    generalize hu : _ / para s l = u
    generalize hv : ((-(s.nvert.sub s.pvert).dot (l.nvert.sub l.pvert)) * _ + _) / para s l = v
    have hu' := (div_eq_iff hne).1 hu
    have hv' := (div_eq_iff hne).1 hv
    clear hu hv
    have e1 : (s.nvert.sub s.pvert).dot ((at3 s.pvert s.nvert u).sub (at3 l.pvert l.nvert v)) =
        u * (s.nvert.sub s.pvert).dot (s.nvert.sub s.pvert) - v * (s.nvert.sub s.pvert).dot (l.nvert.sub l.pvert)
          - (s.nvert.sub s.pvert).dot (l.pvert.sub s.pvert) := by
      simp only [V3.dot, V3.sub, at3]; ring
    have e2 : (l.nvert.sub l.pvert).dot ((at3 s.pvert s.nvert u).sub (at3 l.pvert l.nvert v)) =
        u * (s.nvert.sub s.pvert).dot (l.nvert.sub l.pvert) - v * (l.nvert.sub l.pvert).dot (l.nvert.sub l.pvert)
          - (l.nvert.sub l.pvert).dot (l.pvert.sub s.pvert) := by
      simp only [V3.dot, V3.sub, at3]; ring
    rw [e1, e2]
    unfold para at hu' hv' hne
    generalize (s.nvert.sub s.pvert).dot (s.nvert.sub s.pvert) = aa at *
    generalize (l.nvert.sub l.pvert).dot (l.nvert.sub l.pvert) = bb at *
    generalize (s.nvert.sub s.pvert).dot (l.nvert.sub l.pvert) = ab at *
    generalize (s.nvert.sub s.pvert).dot (l.pvert.sub s.pvert) = a at *
    generalize (l.nvert.sub l.pvert).dot (l.pvert.sub s.pvert) = b at *
    constructor
    · apply (mul_left_inj' hne).1
      rw [zero_mul]
      linear_combination (-aa) * hu' + ab * hv'
    · apply (mul_left_inj' hne).1
      rw [zero_mul]
      linear_combination (-ab) * hu' + bb * hv'

/-! ### Farthest points -/

theorem farthestLoop_spec (p : V3 ℝ) : ∀ (vs : List (V3 ℝ)) (v : V3 ℝ),
    farthestLoop p vs v (dist p v) ∈ v :: vs ∧ ∀ q ∈ v :: vs, dist p q ≤ dist p (farthestLoop p vs v (dist p v)) := by
  intro vs
  induction vs with
  | nil => intro v; simp [farthestLoop]
  | cons w vs ih =>
    intro v
    rw [farthestLoop]
    by_cases h : dist p w > dist p v
    · rw [if_pos h]
      obtain ⟨h1, h2⟩ := ih w
      refine ⟨List.mem_cons_of_mem _ h1, fun q hq => ?_⟩
      rcases List.mem_cons.1 hq with rfl | hq
      · exact h.le.trans (h2 w List.mem_cons_self)
      · exact h2 q hq
    · rw [if_neg h]
      obtain ⟨h1, h2⟩ := ih v
      refine ⟨?_, fun q hq => ?_⟩
      · rcases List.mem_cons.1 h1 with h1 | h1
        · rw [h1]; exact List.mem_cons_self
        · exact List.mem_cons_of_mem _ (List.mem_cons_of_mem _ h1)
      · rcases List.mem_cons.1 hq with rfl | hq
        · exact h2 q List.mem_cons_self
        · rcases List.mem_cons.1 hq with rfl | hq
          · exact (not_lt.1 h).trans (h2 v List.mem_cons_self)
          · exact h2 q (List.mem_cons_of_mem _ hq)

theorem farthestPairLoop_spec : ∀ (vs : List (V3 ℝ)) (r : V3 ℝ × V3 ℝ),
    (farthestPairLoop vs r (dist r.1 r.2) = r ∨ ((farthestPairLoop vs r (dist r.1 r.2)).1 ∈ vs ∧ (farthestPairLoop vs r (dist r.1 r.2)).2 ∈ vs)) ∧
    dist r.1 r.2 ≤ dist (farthestPairLoop vs r (dist r.1 r.2)).1 (farthestPairLoop vs r (dist r.1 r.2)).2 ∧
    ∀ p q, [p, q].Sublist vs → dist p q ≤ dist (farthestPairLoop vs r (dist r.1 r.2)).1 (farthestPairLoop vs r (dist r.1 r.2)).2 := by
  intro vs
  induction vs with
  | nil => intro r; refine ⟨Or.inl rfl, le_rfl, fun p q h => by simp at h⟩
  | cons v11 vs ih =>
    intro r
    cases vs with
    | nil => refine ⟨Or.inl rfl, le_rfl, fun p q h => ?_⟩; have := h.length_le; simp at this
    | cons v vs =>
      rw [farthestPairLoop]
      obtain ⟨f1, f2⟩ := farthestLoop_spec v11 vs v
      generalize farthestLoop v11 vs v (dist v11 v) = v22 at f1 f2 ⊢
      have split : ∀ p q, [p, q].Sublist (v11 :: v :: vs) → (p = v11 ∧ q ∈ v :: vs) ∨ [p, q].Sublist (v :: vs) := by
        intro p q h
        cases h with
        | cons _ h => exact Or.inr h
        | cons_cons _ h => exact Or.inl ⟨rfl, List.singleton_sublist.1 h⟩
      by_cases h : dist v11 v22 > dist r.1 r.2
      · rw [if_pos h]
        obtain ⟨h1, h2, h3⟩ := ih (v11, v22)
        simp only at h1 h2 h3
        refine ⟨Or.inr ?_, h.le.trans h2, fun p q hpq => ?_⟩
        · rcases h1 with h1 | h1
          · rw [h1]; exact ⟨List.mem_cons_self, List.mem_cons_of_mem _ f1⟩
          · exact ⟨List.mem_cons_of_mem _ h1.1, List.mem_cons_of_mem _ h1.2⟩
        · rcases split p q hpq with ⟨rfl, hq⟩ | hpq
          · exact (f2 q hq).trans h2
          · exact h3 p q hpq
      · rw [if_neg h]
        obtain ⟨h1, h2, h3⟩ := ih r
        refine ⟨?_, h2, fun p q hpq => ?_⟩
        · rcases h1 with h1 | h1
          · exact Or.inl h1
          · exact Or.inr ⟨List.mem_cons_of_mem _ h1.1, List.mem_cons_of_mem _ h1.2⟩
        · rcases split p q hpq with ⟨rfl, hq⟩ | hpq
          · exact (f2 q hq).trans ((not_lt.1 h).trans h2)
          · exact h3 p q hpq

theorem farthestPair_spec (v1 v2 : V3 ℝ) (vs : List (V3 ℝ)) :
    ∃ p q, farthestPair (v1 :: v2 :: vs) = some (p, q) ∧ p ∈ v1 :: v2 :: vs ∧ q ∈ v1 :: v2 :: vs ∧
      ∀ a ∈ v1 :: v2 :: vs, ∀ b ∈ v1 :: v2 :: vs, dist a b ≤ dist p q := by
  unfold farthestPair farthest
  simp only
  obtain ⟨f1, f2⟩ := farthestLoop_spec v1 vs v2
  generalize farthestLoop v1 vs v2 (dist v1 v2) = w at f1 f2 ⊢
  obtain ⟨h1, h2, h3⟩ := farthestPairLoop_spec (v2 :: vs) (v1, w)
  simp only at h1 h2 h3
  generalize farthestPairLoop (v2 :: vs) (v1, w) (dist v1 w) = r at h1 h2 h3 ⊢
  refine ⟨r.1, r.2, rfl, ?_, ?_, ?_⟩
  · rcases h1 with h1 | h1
    · rw [h1]; exact List.mem_cons_self
    · exact List.mem_cons_of_mem _ h1.1
  · rcases h1 with h1 | h1
    · rw [h1]; exact List.mem_cons_of_mem _ f1
    · exact List.mem_cons_of_mem _ h1.2
  · have key : ∀ a b, [a, b].Sublist (v1 :: v2 :: vs) → dist a b ≤ dist r.1 r.2 := by
      intro a b hab
      cases hab with
      | cons _ h => exact h3 a b h
      | cons_cons _ h => exact (f2 b (List.singleton_sublist.1 h)).trans h2
    have pair : ∀ (l : List (V3 ℝ)) (a b : V3 ℝ), a ∈ l → b ∈ l → a = b ∨ [a, b].Sublist l ∨ [b, a].Sublist l := by
      intro l
      induction l with
      | nil => intro a b h; cases h
      | cons x l ih =>
        intro a b ha hb
        rcases List.mem_cons.1 ha with ha' | ha'
        · rcases List.mem_cons.1 hb with hb' | hb'
          · exact Or.inl (ha'.trans hb'.symm)
          · subst ha'; exact Or.inr (Or.inl ((List.singleton_sublist.2 hb').cons_cons _))
        · rcases List.mem_cons.1 hb with hb' | hb'
          · subst hb'; exact Or.inr (Or.inr ((List.singleton_sublist.2 ha').cons_cons _))
          · rcases ih a b ha' hb' with h | h | h
            · exact Or.inl h
            · exact Or.inr (Or.inl (h.cons _))
            · exact Or.inr (Or.inr (h.cons _))
    intro a ha b hb
    rcases pair _ a b ha hb with rfl | h | h
    · rw [dist_self']; exact dist_nonneg' _ _
    · exact key a b h
    · rw [dist_comm']; exact key b a h

end Eus.Geo
