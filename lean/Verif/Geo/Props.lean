import Verif.Geo.Dda
import Verif.Geo.Clip
import Verif.Geo.Boxes
import Verif.Geo.Poly
import Verif.Geo.Dist
import Verif.Geo.Inside
set_option autoImplicit false
set_option linter.unusedSectionVars false
/-
C141 to C158: geometry (lisp/geo), with exact numbers.
-/
namespace Eus.Geo

/-! ### C141 dda-line -/

/-- C141: `dda-line` ends, and returns the first point, the last point, and between them one point for every step of the longer axis; each is at most half a pixel from the line, and each follows the one before without a jump. -/
theorem C141_line (x0 y0 x1 y1 : Int) :
    ∃ ps : List (Int × Int), (∃ f0, ∀ f, f0 ≤ f → ddaLine f x0 y0 x1 y1 = some ps) ∧
      (ps.length : Int) = max |x1 - x0| |y1 - y0| + 1 ∧ ps.head? = some (x0, y0) ∧ ps.getLast? = some (x1, y1) ∧
      (∀ p ∈ ps, HalfPixel x0 y0 x1 y1 p) ∧ ps.IsChain (Step x0 y0 x1 y1) := by
  obtain ⟨n, hn⟩ : ∃ n : Nat, (n : Int) = max |x1 - x0| |y1 - y0| :=
    ⟨(max |x1 - x0| |y1 - y0|).toNat, Int.toNat_of_nonneg (le_max_of_le_left (abs_nonneg _))⟩
  refine ⟨(List.range (n + 1)).map (pt x0 y0 x1 y1), ⟨n + 2, fun f hf => ddaLine_eq x0 y0 x1 y1 f n hn hf⟩, by simp [hn], ?_, ?_, ?_, ?_⟩
  · rw [List.head?_map, List.head?_range]; simp [pt_zero]
  · rw [List.range_succ]; simp [pt_end x0 y0 x1 y1 n hn]
  · intro p hp
    obtain ⟨k, _, rfl⟩ := List.mem_map.1 hp
    exact pt_near x0 y0 x1 y1 k
  · rw [List.isChain_map, List.isChain_iff_getElem]
    intro i hi
    simp only [List.getElem_range]
    have hs := mE_step
    unfold Step pt
    by_cases h : |x1 - x0| > |y1 - y0|
    · simp only [h, if_true]
      refine ⟨by simp only [dirOf]; push_cast; ring, ?_⟩
      rcases hs |x1 - x0| |y1 - y0| i with h' | h' <;> rw [h']
      · exact Or.inl rfl
      · right; simp only [dirOf]; ring
    · simp only [h, if_false]
      refine ⟨by simp only [dirOf]; push_cast; ring, ?_⟩
      rcases hs |y1 - y0| |x1 - x0| i with h' | h' <;> rw [h']
      · exact Or.inl rfl
      · right; simp only [dirOf]; ring

example : ddaLine 20 0 0 5 (-2) = some [(0, 0), (1, 0), (2, -1), (3, -1), (4, -2), (5, -2)] := by decide +kernel
example : HalfPixel 0 0 5 (-2) (2, -1) ∧ ¬ HalfPixel 0 0 5 (-2) (2, 0) := by unfold HalfPixel; decide

/-- C141: the points depend on the direction: a line drawn from its other end is not erased by drawing it again. -/
theorem C141_reverse_wrong : ddaLine 9 0 0 2 1 = some [(0, 0), (1, 0), (2, 1)] ∧ ddaLine 9 2 1 0 0 = some [(2, 1), (1, 1), (0, 0)] := by decide +kernel

/-! ### C142 line-intersection -/

section
variable {K : Type} [Field K] [LinearOrder K] [IsStrictOrderedRing K]

/-- C142: `line-intersection` of lines that are not parallel returns u and v exactly when the point u of the first is the point v of the second; with range, exactly when these are on both segments.  Of parallel ones, NIL. -/
theorem C142_intersection (a1 a2 b1 b2 : K × K) (range : Bool) :
    (Parallel2 a1 a2 b1 b2 → lineIntersection a1 a2 b1 b2 range = none) ∧
    (¬ Parallel2 a1 a2 b1 b2 → ∀ u v, lineIntersection a1 a2 b1 b2 range = some (u, v) ↔
      at2 a1 a2 u = at2 b1 b2 v ∧ (range = true → 0 ≤ u ∧ u ≤ 1 ∧ 0 ≤ v ∧ v ≤ 1)) := by
  unfold Parallel2 lineIntersection
  simp only
  constructor
  · intro h
    rw [if_pos (by linear_combination h)]
  · intro h u v
    have hcz : (a2.1 - a1.1) * (b2.2 - b1.2) - (a2.2 - a1.2) * (b2.1 - b1.1) ≠ 0 := fun h0 => h (by linear_combination h0)
    rw [if_neg hcz]
    have hp : at2 a1 a2 u = at2 b1 b2 v ↔
        u = ((b1.1 - a1.1) * (b2.2 - b1.2) - (b1.2 - a1.2) * (b2.1 - b1.1)) / ((a2.1 - a1.1) * (b2.2 - b1.2) - (a2.2 - a1.2) * (b2.1 - b1.1)) ∧
        v = ((b1.1 - a1.1) * (a2.2 - a1.2) - (b1.2 - a1.2) * (a2.1 - a1.1)) / ((a2.1 - a1.1) * (b2.2 - b1.2) - (a2.2 - a1.2) * (b2.1 - b1.1)) := by
      rw [eq_div_iff hcz, eq_div_iff hcz]
      simp only [at2, Prod.mk.injEq]
      constructor
      · rintro ⟨h1, h2⟩
        constructor
        · linear_combination (b2.2 - b1.2) * h1 - (b2.1 - b1.1) * h2
        · linear_combination (a2.2 - a1.2) * h1 - (a2.1 - a1.1) * h2
      · rintro ⟨h1, h2⟩
        constructor
        · apply mul_right_cancel₀ hcz
          linear_combination (a2.1 - a1.1) * h1 - (b2.1 - b1.1) * h2
        · apply mul_right_cancel₀ hcz
          linear_combination (a2.2 - a1.2) * h1 - (b2.2 - b1.2) * h2
    rw [hp]
    generalize ((b1.1 - a1.1) * (b2.2 - b1.2) - (b1.2 - a1.2) * (b2.1 - b1.1)) / ((a2.1 - a1.1) * (b2.2 - b1.2) - (a2.2 - a1.2) * (b2.1 - b1.1)) = x
    generalize ((b1.1 - a1.1) * (a2.2 - a1.2) - (b1.2 - a1.2) * (a2.1 - a1.1)) / ((a2.1 - a1.1) * (b2.2 - b1.2) - (a2.2 - a1.2) * (b2.1 - b1.1)) = y
    cases range with
    | false =>
      simp only [Bool.false_and, Bool.false_eq_true, if_false, Option.some.injEq, Prod.mk.injEq, false_implies, and_true]
      exact ⟨fun h => ⟨h.1.symm, h.2.symm⟩, fun h => ⟨h.1.symm, h.2.symm⟩⟩
    | true =>
      simp only [Bool.true_and, Bool.or_eq_true, decide_eq_true_eq, forall_const]
      by_cases hr : ((x < 0 ∨ 1 < x) ∨ y < 0) ∨ 1 < y
      · rw [if_pos hr]
        constructor
        · intro h; cases h
        · rintro ⟨⟨rfl, rfl⟩, h1, h2, h3, h4⟩
          rcases hr with ((h | h) | h) | h <;> exact absurd h (not_lt.2 ‹_›)
      · rw [if_neg hr]
        simp only [not_or, not_lt] at hr
        constructor
        · intro h
          injection h with h
          injection h with h1 h2
          subst h1 h2
          exact ⟨⟨rfl, rfl⟩, hr.1.1.1, hr.1.1.2, hr.1.2, hr.2⟩
        · rintro ⟨⟨rfl, rfl⟩, _⟩; rfl

example : lineIntersection ((0 : ℚ), 0) (4, 4) (0, 2) (2, 0) true = some (1 / 4, 1 / 2) := by decide +kernel
example : ¬ Parallel2 ((0 : ℚ), 0) (4, 4) (0, 2) (2, 0) := by unfold Parallel2; norm_num

/-- C142: segments of one line that overlap are said not to meet. -/
theorem C142_overlap_wrong :
    at2 ((0 : ℚ), 0) (2, 0) (1 / 2) = at2 (1, 0) (3, 0) 0 ∧ lineIntersection ((0 : ℚ), 0) (2, 0) (1, 0) (3, 0) true = none := by
  constructor
  · unfold at2; norm_num
  · decide +kernel

/-! ### C143 line-intersection3, :common-perpendicular -/

/-- C143: `line-intersection3` of lines whose directions' cross product is not shorter than the tolerance (nor zero) returns the parameters of the two ends of their common perpendicular. -/
theorem C143_feet (a1 a2 b1 b2 : V3 K) (tolerance : K)
    (h0 : (a2.sub a1).cross (b2.sub b1) ≠ ⟨0, 0, 0⟩)
    (ht : tolerance ≤ ((a2.sub a1).cross (b2.sub b1)).dot ((a2.sub a1).cross (b2.sub b1))) :
    ∃ u v, lineIntersection3 a1 a2 b1 b2 tolerance = .params u v ∧
      (a2.sub a1).dot ((at3 a1 a2 u).sub (at3 b1 b2 v)) = 0 ∧ (b2.sub b1).dot ((at3 a1 a2 u).sub (at3 b1 b2 v)) = 0 := by
  have hne : ((a2.sub a1).cross (b2.sub b1)).dot ((a2.sub a1).cross (b2.sub b1)) ≠ 0 := by
    intro h
    apply h0
    generalize (a2.sub a1).cross (b2.sub b1) = c at h
    simp only [V3.dot] at h
    have hx : c.x * c.x = 0 := by nlinarith [mul_self_nonneg c.x, mul_self_nonneg c.y, mul_self_nonneg c.z]
    have hy : c.y * c.y = 0 := by nlinarith [mul_self_nonneg c.x, mul_self_nonneg c.y, mul_self_nonneg c.z]
    have hz : c.z * c.z = 0 := by nlinarith [mul_self_nonneg c.x, mul_self_nonneg c.y, mul_self_nonneg c.z]
    ext
    · exact mul_self_eq_zero.1 hx
    · exact mul_self_eq_zero.1 hy
    · exact mul_self_eq_zero.1 hz
  unfold lineIntersection3
  simp only
  rw [if_neg (not_lt.2 ht), if_neg hne]
  refine ⟨_, _, rfl, ?_⟩
  generalize hu : _ / ((a2.sub a1).cross (b2.sub b1)).dot ((a2.sub a1).cross (b2.sub b1)) = u
  generalize hv : (b1.sub a1).triple (a2.sub a1) _ / ((a2.sub a1).cross (b2.sub b1)).dot ((a2.sub a1).cross (b2.sub b1)) = v
  rw [div_eq_iff hne] at hu hv
  constructor
  · apply (mul_left_inj' hne).1
    rw [zero_mul]
    simp only [V3.triple, V3.dot, V3.cross, V3.sub, at3] at hu hv ⊢
    linear_combination (-((a2.x - a1.x) * (a2.x - a1.x) + (a2.y - a1.y) * (a2.y - a1.y) + (a2.z - a1.z) * (a2.z - a1.z))) * hu +
      ((a2.x - a1.x) * (b2.x - b1.x) + (a2.y - a1.y) * (b2.y - b1.y) + (a2.z - a1.z) * (b2.z - b1.z)) * hv
  · apply (mul_left_inj' hne).1
    rw [zero_mul]
    simp only [V3.triple, V3.dot, V3.cross, V3.sub, at3] at hu hv ⊢
    linear_combination (-((a2.x - a1.x) * (b2.x - b1.x) + (a2.y - a1.y) * (b2.y - b1.y) + (a2.z - a1.z) * (b2.z - b1.z))) * hu +
      ((b2.x - b1.x) * (b2.x - b1.x) + (b2.y - b1.y) * (b2.y - b1.y) + (b2.z - b1.z) * (b2.z - b1.z)) * hv

/-- C143: there is only one such pair of parameters; so for lines that meet it is where they meet. -/
theorem C143_meet (a1 a2 b1 b2 : V3 K) (h0 : (a2.sub a1).cross (b2.sub b1) ≠ ⟨0, 0, 0⟩) (s t : K) (hm : at3 a1 a2 s = at3 b1 b2 t) :
    lineIntersection3 a1 a2 b1 b2 0 = .params s t := by
  have hsq : 0 ≤ ((a2.sub a1).cross (b2.sub b1)).dot ((a2.sub a1).cross (b2.sub b1)) := by
    generalize (a2.sub a1).cross (b2.sub b1) = c
    simp only [V3.dot]
    nlinarith [mul_self_nonneg c.x, mul_self_nonneg c.y, mul_self_nonneg c.z]
  obtain ⟨u, v, e, hu, hv⟩ := C143_feet a1 a2 b1 b2 0 h0 hsq
  rw [e]
  have hne : ((a2.sub a1).cross (b2.sub b1)).dot ((a2.sub a1).cross (b2.sub b1)) ≠ 0 := by
    intro h
    unfold lineIntersection3 at e
    simp only [h, lt_irrefl, if_true, if_false] at e
    cases e
  have mx := congrArg V3.x hm
  have my := congrArg V3.y hm
  have mz := congrArg V3.z hm
  simp only [V3.dot, V3.cross, V3.sub, at3] at hu hv mx my mz hne
  congr 1
  · apply (mul_left_inj' hne).1
    linear_combination ((b2.x - b1.x) * (b2.x - b1.x) + (b2.y - b1.y) * (b2.y - b1.y) + (b2.z - b1.z) * (b2.z - b1.z)) *
        (hu - (a2.x - a1.x) * mx - (a2.y - a1.y) * my - (a2.z - a1.z) * mz) -
      ((a2.x - a1.x) * (b2.x - b1.x) + (a2.y - a1.y) * (b2.y - b1.y) + (a2.z - a1.z) * (b2.z - b1.z)) *
        (hv - (b2.x - b1.x) * mx - (b2.y - b1.y) * my - (b2.z - b1.z) * mz)
  · apply (mul_left_inj' hne).1
    linear_combination ((a2.x - a1.x) * (b2.x - b1.x) + (a2.y - a1.y) * (b2.y - b1.y) + (a2.z - a1.z) * (b2.z - b1.z)) *
        (hu - (a2.x - a1.x) * mx - (a2.y - a1.y) * my - (a2.z - a1.z) * mz) -
      ((a2.x - a1.x) * (a2.x - a1.x) + (a2.y - a1.y) * (a2.y - a1.y) + (a2.z - a1.z) * (a2.z - a1.z)) *
        (hv - (b2.x - b1.x) * mx - (b2.y - b1.y) * my - (b2.z - b1.z) * mz)

example : lineIntersection3 (⟨0, 0, 0⟩ : V3 ℚ) ⟨1, 0, 0⟩ ⟨3, 5, 1⟩ ⟨3, 6, 1⟩ 0 = .params 3 (-5) := by decide +kernel
example : ((⟨1, 0, 0⟩ : V3 ℚ).sub ⟨0, 0, 0⟩).cross ((⟨3, 6, 1⟩ : V3 ℚ).sub ⟨3, 5, 1⟩) ≠ ⟨0, 0, 0⟩ := by decide +kernel

/-- C143: of parallel lines, with a tolerance, NIL is returned; but without one, two quotients by zero (the comment before the function says NIL). -/
theorem C143_parallel_wrong : lineIntersection3 (⟨0, 0, 0⟩ : V3 ℚ) ⟨1, 0, 0⟩ ⟨0, 1, 0⟩ ⟨1, 1, 0⟩ (1 / 100) = .nil ∧
    lineIntersection3 (⟨0, 0, 0⟩ : V3 ℚ) ⟨1, 0, 0⟩ ⟨0, 1, 0⟩ ⟨1, 1, 0⟩ 0 = .notNumbers := by decide +kernel

end

/-- C143: `:common-perpendicular` returns a point of each line, and what joins them is perpendicular to both lines; or :parallel, when the squared sine of the angle, times both squared lengths, is below the threshold. -/
theorem C143_perpendicular (thr : ℝ) (hthr : 0 < thr) (s l : Line) :
    (s.commonPerpendicular thr l = .parallel ∧ ((s.nvert.sub s.pvert).cross (l.nvert.sub l.pvert)).dot ((s.nvert.sub s.pvert).cross (l.nvert.sub l.pvert)) < thr) ∨
    ∃ p q, s.commonPerpendicular thr l = .points p q ∧ (∃ u, p = at3 s.pvert s.nvert u) ∧ (∃ v, q = at3 l.pvert l.nvert v) ∧
      (s.nvert.sub s.pvert).dot (p.sub q) = 0 ∧ (l.nvert.sub l.pvert).dot (p.sub q) = 0 := by
  have hp : para s l = -((s.nvert.sub s.pvert).cross (l.nvert.sub l.pvert)).dot ((s.nvert.sub s.pvert).cross (l.nvert.sub l.pvert)) := by
    simp only [para, V3.dot, V3.cross, V3.sub]; ring
  rcases commonPerp_spec thr s l hthr with ⟨h1, h2⟩ | ⟨_, u, v, e, h1, h2⟩
  · refine Or.inl ⟨h1, ?_⟩
    rw [hp, abs_neg, abs_of_nonneg (dot_self_nonneg _)] at h2
    exact h2
  · exact Or.inr ⟨_, _, e, ⟨u, rfl⟩, ⟨v, rfl⟩, h1, h2⟩

/-! ### C144 viewportclip -/

section
variable {K : Type} [Field K] [LinearOrder K] [IsStrictOrderedRing K]

/-- C144, partial: when both ends have z ≥ 0, `viewportclip` returns after at most five rounds: NIL if no point of the segment is in view, or two points of the segment such that the points in view are those between them.  Missing: ends behind the eye. -/
theorem C144_viewport_partial (p q : V3 K) (hp : 0 ≤ p.z) (hq : 0 ≤ q.z) (k : Nat) (hk : 5 ≤ k) :
    (vpclip k p q = .nil ∧ ∀ r, OnSeg p q r → ¬ InView r) ∨
    ∃ a b, vpclip k p q = .seg a b ∧ OnSeg p q a ∧ OnSeg p q b ∧ ∀ r, OnSeg p q r → (InView r ↔ OnSeg a b r) := by
  have hc : (open_ p q).card ≤ 4 := (Finset.card_le_univ _).trans (by simp)
  rcases vpclip_spec k p q hp hq (by omega) with ⟨h1, h2⟩ | ⟨t1, t2, h1, h3, h4, h5, h6⟩
  · refine Or.inl ⟨h1, ?_⟩
    rintro r ⟨t, h0, h1, rfl⟩
    exact h2 t h0 h1
  · refine Or.inr ⟨_, _, h1, ⟨t1, h3, h4.trans h5, rfl⟩, ⟨t2, h3.trans h4, h5, rfl⟩, ?_⟩
    rintro r ⟨t, g0, g1, rfl⟩
    exact h6 t g0 g1

example : vpclip 5 (⟨-3, 0, 1⟩ : V3 ℚ) ⟨3, 0, 1⟩ = .seg ⟨-1, 0, 1⟩ ⟨1, 0, 1⟩ := by decide +kernel
example : vpclip 5 (⟨-3, 0, 1⟩ : V3 ℚ) ⟨0, 5, 1⟩ = .nil := by decide +kernel

/-- C144: with an end behind the eye, points are returned that are not on the segment, of which no point is in view. -/
theorem C144_behind_wrong : vpclip 5 (⟨2, 0, 1⟩ : V3 ℚ) ⟨1 / 2, 0, -3 / 2⟩ = .seg ⟨7 / 2, 0, 7 / 2⟩ ⟨7 / 2, 0, 7 / 2⟩ ∧
    ∀ r, OnSeg (⟨2, 0, 1⟩ : V3 ℚ) ⟨1 / 2, 0, -3 / 2⟩ r → ¬ InView r ∧ r ≠ ⟨7 / 2, 0, 7 / 2⟩ := by
  refine ⟨by decide +kernel, ?_⟩
  rintro r ⟨t, h0, h1, rfl⟩
  refine ⟨?_, ?_⟩
  · simp only [InView, at3]
    rintro ⟨_, h, _⟩
    linarith
  · intro h
    have := congrArg V3.x h
    simp only [at3] at this
    linarith

/-- C144: and a quotient by zero. -/
theorem C144_zero_wrong : vpclip 5 (⟨2, 0, 1⟩ : V3 ℚ) ⟨0, 0, -1⟩ = .notNumber := by decide +kernel

/-! ### C145 homo-viewport-clip -/

/-- C145: `homo-viewport-clip` returns NIL if no point of the segment is in view, or two points such that the points in view are those between them. -/
theorem C145_homo (p q : V4 K) :
    (homoVpclip p q = .nil ∧ ∀ t, 0 ≤ t → t ≤ 1 → ¬ InView4 (p.at q t)) ∨
    ∃ t1 t2, homoVpclip p q = .seg (p.at q t1) (p.at q t2) ∧ 0 ≤ t1 ∧ t1 ≤ t2 ∧ t2 ≤ 1 ∧
      ∀ t, 0 ≤ t → t ≤ 1 → (InView4 (p.at q t) ↔ t1 ≤ t ∧ t ≤ t2) := homo_spec p q

example : homoVpclip (⟨-3, 0, 1 / 2, 1⟩ : V4 ℚ) ⟨3, 0, 1 / 2, 1⟩ = .seg ⟨-1, 0, 1 / 2, 1⟩ ⟨1, 0, 1 / 2, 1⟩ := by decide +kernel
example : homoVpclip (⟨2, 0, 1 / 2, 1⟩ : V4 ℚ) ⟨1 / 2, 0, 1 / 2, -3 / 2⟩ = .nil := by decide +kernel

/-! ### C146 boxes of points; union -/

variable {n : Nat}

/-- C146: the bounding box of points has them all, and any box that has them all has all of it; a tolerance that is not negative only adds to it. -/
theorem C146_points (v : Fin n → K) (vs : List (Fin n → K)) (s : K) (hs : 0 ≤ s) :
    (∀ p ∈ v :: vs, (Box.init v vs none).Mem p) ∧
    (∀ c : Box n K, (∀ p ∈ v :: vs, c.Mem p) → ∀ p, (Box.init v vs none).Mem p → c.Mem p) ∧
    ∀ p, (Box.init v vs none).Mem p → (Box.init v vs (some s)).Mem p :=
  ⟨fun _ hp => init_mem v vs hp,
    fun c hc p hp i => ⟨((init_least v vs c hc i).1).trans (hp i).1, (hp i).2.trans (init_least v vs c hc i).2⟩,
    fun _ hp => grow_mem _ (init_proper v vs) hs hp⟩

/-- C146: `bounding-box-union` of boxes that have points is the smallest box that has the points of all. -/
theorem C146_union (b : Box n K) (bs : List (Box n K)) (hb : ∀ c ∈ b :: bs, c.Proper) :
    (∀ c ∈ b :: bs, ∀ p, c.Mem p → (boxUnion none b bs).Mem p) ∧
    ∀ d : Box n K, (∀ c ∈ b :: bs, ∀ p, c.Mem p → d.Mem p) → ∀ p, (boxUnion none b bs).Mem p → d.Mem p := by
  obtain ⟨_, h2, h3⟩ := boxUnion_spec none bs b (hb b List.mem_cons_self) (fun c hc => hb c (List.mem_cons_of_mem _ hc))
  refine ⟨fun c hc p hp i => ⟨((h2 i _).1 le_rfl c hc).trans (hp i).1, (hp i).2.trans ((h3 i _).1 le_rfl c hc)⟩, fun d hd p hp i => ⟨?_, ?_⟩⟩
  · refine ((h2 i _).2 fun c hc => ?_).trans (hp i).1
    exact (hd c hc c.minpoint (fun j => ⟨le_rfl, hb c hc j⟩) i).1
  · refine (hp i).2.trans ((h3 i _).2 fun c hc => ?_)
    exact (hd c hc c.maxpoint (fun j => ⟨hb c hc j, le_rfl⟩) i).2

example : ((boxUnion none (⟨![0, 5], ![1, 6]⟩ : Box 2 ℚ) [⟨![3, 0], ![4, 1]⟩]).minpoint = ![0, 0]) ∧
    ((boxUnion none (⟨![0, 5], ![1, 6]⟩ : Box 2 ℚ) [⟨![3, 0], ![4, 1]⟩]).maxpoint = ![4, 6]) := by decide +kernel
example : ∀ c ∈ [(⟨![0, 5], ![1, 6]⟩ : Box 2 ℚ), ⟨![3, 0], ![4, 1]⟩], c.Proper := by unfold Box.Proper; decide +kernel

/-- C146: the tolerance of `bounding-box-union` has no effect, though that of the method :union has. -/
theorem C146_tolerance_wrong :
    (∀ (tol : Option ℚ) (b : Box 2 ℚ) (bs : List (Box 2 ℚ)), boxUnion tol b bs = boxUnion none b bs) ∧
    ((⟨![0, 0], ![1, 1]⟩ : Box 2 ℚ).union ⟨![3, 0], ![4, 1]⟩ (some 1)).maxpoint = ![8, 2] ∧
    (boxUnion (some 1) (⟨![0, 0], ![1, 1]⟩ : Box 2 ℚ) [⟨![3, 0], ![4, 1]⟩]).maxpoint = ![4, 1] :=
  ⟨fun _ _ _ => rfl, by decide +kernel, by decide +kernel⟩

/-- C146: `(:grow 0.01)` makes a box two percent longer (the manual says one), and the box of a single point does not grow at all. -/
theorem C146_grow_wrong (b : Box n K) (s : K) (i : Fin n) :
    (b.grow s).maxpoint i - (b.grow s).minpoint i = (1 + 2 * s) * (b.maxpoint i - b.minpoint i) ∧
    ∀ v : Fin n → K, (Box.init v [] (some s)).maxpoint i = v i ∧ (Box.init v [] (some s)).minpoint i = v i := by
  refine ⟨by simp only [Box.grow]; ring, fun v => ?_⟩
  simp [Box.init, Box.growIf, Box.grow, vmin, vmax]

/-! ### C147 intersection of boxes -/

/-- C147: `:intersection-p` says whether two boxes have a common point. -/
theorem C147_common (a b : Box n K) : a.interP b = true ↔ ∃ p, a.Mem p ∧ b.Mem p := interP_common a b

/-- C147: `bounding-box-intersection` without a tolerance: NIL if the boxes have no common point, or the box of their common points. -/
theorem C147_intersection (b : Box n K) (bs : List (Box n K)) (hb : b.Proper) :
    (boxIntersection none b bs = none ∧ ¬ ∃ p, ∀ c ∈ b :: bs, c.Mem p) ∨
    ∃ r, boxIntersection none b bs = some r ∧ r.Proper ∧ ∀ p, r.Mem p ↔ ∀ c ∈ b :: bs, c.Mem p := boxIntersection_none bs b hb

/-- C147: `:boxtest` of a line without a tolerance: whether the box has a point of the box of the line; the box remains as it was. -/
theorem C147_line (p q : Fin n → K) (b : Box n K) :
    ((lineBoxtest p q b none).1 = true ↔ ∃ r, b.Mem r ∧ (Box.init p [q] none).Mem r) ∧ (lineBoxtest p q b none).2 = b :=
  ⟨interP_common _ _, rfl⟩

example : ((boxIntersection none (⟨![0, 0], ![2, 2]⟩ : Box 2 ℚ) [⟨![1, -1], ![4, 1]⟩, ⟨![0, 0], ![4, 4]⟩]).map fun b => (b.minpoint, b.maxpoint)) = some (![1, 0], ![2, 1]) := by decide +kernel
example : (⟨![0, 0], ![2, 2]⟩ : Box 2 ℚ).Proper := by unfold Box.Proper; decide +kernel

/-- C147: a tolerance is applied once for each further box: the more often the same box is given, the larger the intersection. -/
theorem C147_compound_wrong :
    ((boxIntersection (some 1) (⟨![0, 0, 0], ![2, 2, 2]⟩ : Box 3 ℚ) [⟨![0, 0, 0], ![4, 4, 4]⟩]).map (·.maxpoint)) = some ![3, 3, 3] ∧
    ((boxIntersection (some 1) (⟨![0, 0, 0], ![2, 2, 2]⟩ : Box 3 ℚ) [⟨![0, 0, 0], ![4, 4, 4]⟩, ⟨![0, 0, 0], ![4, 4, 4]⟩]).map (·.maxpoint)) = some ![4, 4, 4] := by
  decide +kernel

/-- C147: `:boxtest` of a polygon with a tolerance enlarges the box it is given, so that the same question, asked again, has another answer. -/
theorem C147_boxtest_wrong :
    (polygonBoxtest ![(6 : ℚ), 0, 0] [![7, 0, 0], ![7, 1, 0]] ⟨![0, 0, 0], ![2, 1, 1]⟩ (some 1)).1.isNone = true ∧
    (polygonBoxtest ![(6 : ℚ), 0, 0] [![7, 0, 0], ![7, 1, 0]]
      (polygonBoxtest ![(6 : ℚ), 0, 0] [![7, 0, 0], ![7, 1, 0]] ⟨![0, 0, 0], ![2, 1, 1]⟩ (some 1)).2 (some 1)).1.isSome = true := by decide +kernel

/-! ### C148 extreme points, below, corners -/

/-- C148: `:extream-point` is a point of the box, and none is farther in the direction. -/
theorem C148_extreme (b : Box n K) (hb : b.Proper) (dir : Fin n → K) :
    b.Mem (b.extreme dir) ∧ ∀ p, b.Mem p → ∑ i, dir i * p i ≤ ∑ i, dir i * b.extreme dir i := by
  refine ⟨extreme_mem b hb dir, fun p hp => ?_⟩
  rw [← vdot_eq, ← vdot_eq]
  exact extreme_max b dir p hp

/-- C148: a box is below another if every point of it is below every point of the other. -/
theorem C148_below (a b : Box n K) (ha : a.Proper) (hb : b.Proper) (dir : Fin n → K) :
    a.below b dir = true ↔ ∀ p q, a.Mem p → b.Mem q → ∑ i, dir i * p i < ∑ i, dir i * q i := by
  simp only [← vdot_eq]
  exact below_iff a b ha hb dir

/-- C148: `:corners` of a box with a volume returns each corner once. -/
theorem C148_corners (b : Box n K) (hb : ∀ i, b.minpoint i < b.maxpoint i) :
    b.corners.length = 2 ^ n ∧ b.corners.Nodup ∧ ∀ p, p ∈ b.corners ↔ ∀ i, p i = b.minpoint i ∨ p i = b.maxpoint i := by
  refine ⟨corners_length b, corners_nodup b hb, fun p => ?_⟩
  rw [mem_corners]
  constructor
  · rintro ⟨up, rfl⟩ i
    by_cases h : up i = true
    · right; simp [h]
    · left; simp [h]
  · intro h
    refine ⟨fun i => decide (p i = b.maxpoint i), funext fun i => ?_⟩
    by_cases hi : p i = b.maxpoint i
    · simp [hi]
    · rcases h i with h | h
      · simp [hi, h]
      · exact absurd h hi

example : (⟨![0, 0, 0], ![2, 1, 1]⟩ : Box 3 ℚ).below ⟨![0, 0, 2], ![2, 1, 3]⟩ ![0, 0, 1] = true ∧
    (⟨![0, 0], ![2, 1]⟩ : Box 2 ℚ).corners = [![2, 1], ![0, 1], ![2, 0], ![0, 0]] := by decide +kernel
example : (⟨![0, 0, 0], ![2, 1, 1]⟩ : Box 3 ℚ).Proper ∧ ∀ i, (![0, 0] : Fin 2 → ℚ) i < (![2, 1] : Fin 2 → ℚ) i := by
  unfold Box.Proper; decide +kernel

end

/-! ### C149 a point and a line -/

/-- C149: of a line whose ends differ: `:parameter` is the inverse of `:point`, and `:point` of `:parameter` or `:foot` is the foot of the perpendicular. -/
theorem C149_foot (l : Line) (h : l.pvert ≠ l.nvert) :
    (∀ t, l.parameter (l.point t) = some t) ∧
    ∀ p, ∃ t, l.parameter p = some t ∧ l.foot p = some t ∧ (l.nvert.sub l.pvert).dot (p.sub (l.point t)) = 0 := by
  have hpos := dir_ne h
  have hpar : ∀ p, l.parameter p = some ((l.nvert.sub l.pvert).dot (p.sub l.pvert) / (l.nvert.sub l.pvert).dot (l.nvert.sub l.pvert)) := by
    intro p; unfold Line.parameter; simp only; rw [if_neg hpos.ne']
  refine ⟨fun t => ?_, fun p => ⟨_, hpar p, foot_eq l h p, ?_⟩⟩
  · rw [hpar, point_eq]
    congr 1
    rw [div_eq_iff hpos.ne']
    simp only [V3.dot, V3.sub, at3]; ring
  · generalize ht : (l.nvert.sub l.pvert).dot (p.sub l.pvert) / (l.nvert.sub l.pvert).dot (l.nvert.sub l.pvert) = t
    rw [div_eq_iff hpos.ne'] at ht
    rw [point_eq]
    simp only [V3.dot, V3.sub, at3] at ht ⊢
    linear_combination ht

/-- C149: `:distance-point` is the distance of the nearest point between the ends. -/
theorem C149_distance (l : Line) (h : l.pvert ≠ l.nvert) (p : V3 ℝ) :
    ∃ d, l.distancePoint p = some d ∧ (∃ r, OnSeg l.pvert l.nvert r ∧ d = dist r p) ∧ ∀ r, OnSeg l.pvert l.nvert r → d ≤ dist r p := by
  obtain ⟨d, t, e, h0, h1, hd, hm⟩ := distancePoint_spec l h p
  refine ⟨d, e, ⟨_, ⟨t, h0, h1, rfl⟩, hd⟩, ?_⟩
  rintro r ⟨s, s0, s1, rfl⟩
  exact hm s s0 s1

example : (⟨⟨0, 0, 0⟩, ⟨4, 0, 0⟩⟩ : Line).distancePoint ⟨7, 4, 0⟩ = some 5 := by
  have : (⟨⟨0, 0, 0⟩, ⟨4, 0, 0⟩⟩ : Line).foot ⟨7, 4, 0⟩ = some (7 / 4) := by
    unfold Line.foot; norm_num [V3.dot, V3.sub]
  unfold Line.distancePoint
  rw [this]
  norm_num [dist, V3.dot, V3.sub]
  rw [show (25 : ℝ) = 5 ^ 2 by norm_num]
  exact Real.sqrt_sq (by norm_num)

/-- C149: of a line whose ends are equal, the distance of a point is not a number. -/
theorem C149_degenerate_wrong (a p : V3 ℝ) : (⟨a, a⟩ : Line).distancePoint p = none := by
  have : (⟨a, a⟩ : Line).foot p = none := by
    unfold Line.foot; simp [V3.dot, V3.sub]
  unfold Line.distancePoint
  rw [this]

/-- C149: `:end-point` returns the end it is given, not, as the manual says, the other one. -/
theorem C149_end_wrong (p q : Nat) : endPoint p q p = some p ∧ endPoint p q q = some q := by
  unfold endPoint
  refine ⟨by simp, ?_⟩
  by_cases h : p = q
  · simp [h]
  · simp [h]

/-! ### C150 two lines -/

/-- C150, partial: `:distance-line` is the distance of two points between the ends; the smallest, if the lines are parallel or the squared sine of their angle, times both squared lengths, is above 0.0001.  Missing: short or almost parallel lines (below). -/
theorem C150_distance_partial (s l : Line) (hs : s.pvert ≠ s.nvert) (hl : l.pvert ≠ l.nvert) :
    ∃ d, s.distanceLine l = some d ∧ (∃ p q, OnSeg s.pvert s.nvert p ∧ OnSeg l.pvert l.nvert q ∧ d = dist p q) ∧
      (((s.nvert.sub s.pvert).cross (l.nvert.sub l.pvert)).dot ((s.nvert.sub s.pvert).cross (l.nvert.sub l.pvert)) = 0 ∨
        ((s.nvert.sub s.pvert).cross (l.nvert.sub l.pvert)).dot ((s.nvert.sub s.pvert).cross (l.nvert.sub l.pvert)) > 1 / 10000 →
        ∀ p q, OnSeg s.pvert s.nvert p → OnSeg l.pvert l.nvert q → d ≤ dist p q) := by
  have hp : para s l = -((s.nvert.sub s.pvert).cross (l.nvert.sub l.pvert)).dot ((s.nvert.sub s.pvert).cross (l.nvert.sub l.pvert)) := by
    simp only [para, V3.dot, V3.cross, V3.sub]; ring
  obtain ⟨d, e, ⟨u, v, u0, u1, v0, v1, hd⟩, hm⟩ := distanceLine_spec s l hs hl
  refine ⟨d, e, ⟨_, _, ⟨u, u0, u1, rfl⟩, ⟨v, v0, v1, rfl⟩, hd⟩, ?_⟩
  rintro hor p q ⟨u, u0, u1, rfl⟩ ⟨v, v0, v1, rfl⟩
  refine hm ?_ u v u0 u1 v0 v1
  rw [hp, abs_neg, abs_of_nonneg (dot_self_nonneg _), neg_eq_zero]
  exact hor

example : ((⟨1, 0, 0⟩ : V3 ℝ).cross ⟨0, 1, 0⟩).dot ((⟨1, 0, 0⟩ : V3 ℝ).cross ⟨0, 1, 0⟩) > 1 / 10000 := by
  norm_num [V3.cross, V3.dot]

theorem dist_of_sq {a b : V3 ℝ} {d : ℝ} (hd : 0 ≤ d) (h : (a.sub b).dot (a.sub b) = d ^ 2) : dist a b = d := by
  unfold dist; rw [h]; exact Real.sqrt_sq hd

/-- C150: two short lines that cross are said to be apart: one from (0 0) to (0.1 0), the other from (0.05 -0.05) to (0.05 0.05). -/
theorem C150_short_wrong : ∃ s l : Line, s.pvert = ⟨0, 0, 0⟩ ∧ s.nvert = ⟨1 / 10, 0, 0⟩ ∧ l.pvert = ⟨1 / 20, -1 / 20, 0⟩ ∧ l.nvert = ⟨1 / 20, 1 / 20, 0⟩ ∧
    OnSeg s.pvert s.nvert ⟨1 / 20, 0, 0⟩ ∧ OnSeg l.pvert l.nvert ⟨1 / 20, 0, 0⟩ ∧ s.distanceLine l = some (1 / 20) := by
  refine ⟨⟨⟨0, 0, 0⟩, ⟨1 / 10, 0, 0⟩⟩, ⟨⟨1 / 20, -1 / 20, 0⟩, ⟨1 / 20, 1 / 20, 0⟩⟩, rfl, rfl, rfl, rfl, ⟨1 / 2, by norm_num, by norm_num, ?_⟩, ⟨1 / 2, by norm_num, by norm_num, ?_⟩, ?_⟩
  · ext <;> norm_num [at3]
  · ext <;> norm_num [at3]
  · have f1 : (⟨⟨0, 0, 0⟩, ⟨1 / 10, 0, 0⟩⟩ : Line).distancePoint ⟨1 / 20, -1 / 20, 0⟩ = some (1 / 20) := by
      have : (⟨⟨0, 0, 0⟩, ⟨1 / 10, 0, 0⟩⟩ : Line).foot ⟨1 / 20, -1 / 20, 0⟩ = some (1 / 2) := by
        unfold Line.foot; norm_num [V3.dot, V3.sub]
      unfold Line.distancePoint
      rw [this]
      simp only [Line.point, V3.mid]
      rw [if_neg (by norm_num), if_neg (by norm_num), dist_of_sq (d := 1 / 20) (by norm_num) (by norm_num [V3.dot, V3.sub])]
    have f2 : (⟨⟨0, 0, 0⟩, ⟨1 / 10, 0, 0⟩⟩ : Line).distancePoint ⟨1 / 20, 1 / 20, 0⟩ = some (1 / 20) := by
      have : (⟨⟨0, 0, 0⟩, ⟨1 / 10, 0, 0⟩⟩ : Line).foot ⟨1 / 20, 1 / 20, 0⟩ = some (1 / 2) := by
        unfold Line.foot; norm_num [V3.dot, V3.sub]
      unfold Line.distancePoint
      rw [this]
      simp only [Line.point, V3.mid]
      rw [if_neg (by norm_num), if_neg (by norm_num), dist_of_sq (d := 1 / 20) (by norm_num) (by norm_num [V3.dot, V3.sub])]
    have f3 : (⟨⟨1 / 20, -1 / 20, 0⟩, ⟨1 / 20, 1 / 20, 0⟩⟩ : Line).distancePoint ⟨0, 0, 0⟩ = some (1 / 20) := by
      have : (⟨⟨1 / 20, -1 / 20, 0⟩, ⟨1 / 20, 1 / 20, 0⟩⟩ : Line).foot ⟨0, 0, 0⟩ = some (1 / 2) := by
        unfold Line.foot; norm_num [V3.dot, V3.sub]
      unfold Line.distancePoint
      rw [this]
      simp only [Line.point, V3.mid]
      rw [if_neg (by norm_num), if_neg (by norm_num), dist_of_sq (d := 1 / 20) (by norm_num) (by norm_num [V3.dot, V3.sub])]
    have f4 : (⟨⟨1 / 20, -1 / 20, 0⟩, ⟨1 / 20, 1 / 20, 0⟩⟩ : Line).distancePoint ⟨1 / 10, 0, 0⟩ = some (1 / 20) := by
      have : (⟨⟨1 / 20, -1 / 20, 0⟩, ⟨1 / 20, 1 / 20, 0⟩⟩ : Line).foot ⟨1 / 10, 0, 0⟩ = some (1 / 2) := by
        unfold Line.foot; norm_num [V3.dot, V3.sub]
      unfold Line.distancePoint
      rw [this]
      simp only [Line.point, V3.mid]
      rw [if_neg (by norm_num), if_neg (by norm_num), dist_of_sq (d := 1 / 20) (by norm_num) (by norm_num [V3.dot, V3.sub])]
    unfold Line.distanceLine
    simp only [f1, f2, f3, f4, min4, min_self]
    rw [if_neg]
    norm_num [V3.dot, V3.sub]

/-! ### C151 planes -/

section
variable {K : Type} [Field K] [LinearOrder K] [IsStrictOrderedRing K]

/-- C151: the plane with normal n through a has the points p with n·(p - a) = 0; `:intersection` is the parameter of the one point of the line on the plane, if the line is not parallel to it. -/
theorem C151_intersection (n a : V3 K) (p q : V3 K) :
    (∀ r, (Plane.ofPoint n a).dist r = n.dot (r.sub a)) ∧
    (n.dot (q.sub p) ≠ 0 → ∃ t, (Plane.ofPoint n a).intersection p q = some t ∧ ∀ s, n.dot ((at3 p q s).sub a) = 0 ↔ s = t) := by
  refine ⟨fun r => by simp only [Plane.dist, Plane.ofPoint, V3.dot, V3.sub]; ring, fun h => ?_⟩
  have hne : n.dot p - n.dot q ≠ 0 := by
    intro h0; apply h; rw [dot_sub]; linear_combination -h0
  refine ⟨(-(n.dot a) + n.dot p) / (n.dot p - n.dot q), ?_, fun s => ?_⟩
  · unfold Plane.intersection Plane.ofPoint
    simp only
    rw [if_neg hne]
  · rw [eq_div_iff hne]
    have : n.dot ((at3 p q s).sub a) = -(s * (n.dot p - n.dot q)) + (-(n.dot a) + n.dot p) := by
      simp only [V3.dot, V3.sub, at3]; ring
    rw [this]
    constructor
    · intro h; linear_combination -h
    · intro h; linear_combination -h

/-- C151: with a normal of length one, `:foot` and `:project` return the nearest point of the plane, `:distance` is how far it is, along the normal. -/
theorem C151_foot (n a : V3 K) (hn : n.dot n = 1) (p : V3 K) :
    (Plane.ofPoint n a).foot p = (Plane.ofPoint n a).project p ∧
    n.dot (((Plane.ofPoint n a).foot p).sub a) = 0 ∧
    p = ((Plane.ofPoint n a).foot p).add (V3.scale ((Plane.ofPoint n a).dist p) n) ∧
    ∀ r, n.dot (r.sub a) = 0 → (p.sub ((Plane.ofPoint n a).foot p)).dot (p.sub ((Plane.ofPoint n a).foot p)) ≤ (p.sub r).dot (p.sub r) := by
  refine ⟨?_, ?_, ?_, fun r hr => ?_⟩
  · ext <;> simp only [Plane.foot, Plane.project, Plane.ofPoint, V3.sub, V3.scale, V3.dot] <;> ring
  · simp only [Plane.foot, Plane.ofPoint, V3.dot, V3.sub, V3.scale] at hn ⊢
    linear_combination (-(n.x * p.x + n.y * p.y + n.z * p.z + -(n.x * a.x + n.y * a.y + n.z * a.z))) * hn
  · ext <;> simp only [Plane.foot, Plane.dist, Plane.ofPoint, V3.add, V3.sub, V3.scale, V3.dot] <;> ring
  · have hf : (p.sub ((Plane.ofPoint n a).foot p)) = V3.scale (n.dot (p.sub a)) n := by
      ext <;> simp only [Plane.foot, Plane.ofPoint, V3.sub, V3.scale, V3.dot] <;> ring
    rw [hf]
    have h1 : n.dot (p.sub r) = n.dot (p.sub a) := by
      rw [dot_sub] at hr ⊢; rw [dot_sub]; linear_combination -hr
    rw [← h1]
    generalize p.sub r = w
    have e : w.dot w = (V3.scale (n.dot w) n).dot (V3.scale (n.dot w) n) + (n.cross w).dot (n.cross w) := by
      simp only [V3.dot, V3.scale, V3.cross] at hn ⊢
      linear_combination (-(w.x * w.x + w.y * w.y + w.z * w.z) - (n.x * w.x + n.y * w.y + n.z * w.z) ^ 2) * hn
    rw [e]
    have : 0 ≤ (n.cross w).dot (n.cross w) := by
      generalize n.cross w = c
      exact add_nonneg (add_nonneg (mul_self_nonneg _) (mul_self_nonneg _)) (mul_self_nonneg _)
    linarith

example : (Plane.ofPoint (⟨0, 0, 1⟩ : V3 ℚ) ⟨0, 0, 3⟩).intersection ⟨1, 1, 0⟩ ⟨1, 1, 4⟩ = some (3 / 4) ∧
    (Plane.ofPoint (⟨0, 0, 1⟩ : V3 ℚ) ⟨0, 0, 3⟩).foot ⟨1, 2, 8⟩ = ⟨1, 2, 3⟩ ∧ (⟨0, 0, 1⟩ : V3 ℚ).dot ⟨0, 0, 1⟩ = 1 := by decide +kernel

/-- C151: `:on-plane-p` with a tolerance accepts points farther from the plane than the tolerance. -/
theorem C151_tolerance_wrong (tol eps : K) (he : 0 < eps) (ht : 0 ≤ tol) :
    ∃ p : V3 K, |(Plane.ofPoint ⟨0, 0, 1⟩ ⟨0, 0, 0⟩).dist p| > tol ∧ (Plane.ofPoint ⟨0, 0, 1⟩ ⟨0, 0, 0⟩).onPlane p tol eps = true := by
  have hd : (Plane.ofPoint ⟨0, 0, 1⟩ ⟨0, 0, 0⟩).dist (⟨0, 0, tol + eps / 2⟩ : V3 K) = tol + eps / 2 := by
    simp [Plane.dist, Plane.ofPoint, V3.dot]
  refine ⟨⟨0, 0, tol + eps / 2⟩, ?_, ?_⟩
  · rw [hd, abs_of_pos (by linarith)]; linarith
  · unfold Plane.onPlane epsLe
    rw [hd, abs_of_pos (by linarith)]
    exact decide_eq_true (by linarith)

/-- C151: of a line parallel to a plane, `:intersection` is a quotient by zero. -/
theorem C151_parallel_wrong (n a p q : V3 K) (h : n.dot (q.sub p) = 0) : (Plane.ofPoint n a).intersection p q = none := by
  unfold Plane.intersection Plane.ofPoint
  simp only
  rw [if_pos]
  rw [dot_sub] at h
  linear_combination -h

/-! ### C152 area and volume -/

/-- C152: `:area` of a polygon is, along its normal, half the sum of the cross products of its sides' ends (in a plane: the shoelace formula); so the area of a triangle is that of its corners, and the area of a polygon is the sum of the areas of the two parts into which a diagonal cuts it. -/
theorem C152_area (v : V3 K) (vs : List (V3 K)) (n : V3 K) :
    area (closed v vs) n = n.dot (vectorArea (v :: vs)) / 2 ∧
    (∀ a b c : V3 K, area (closed a [b, c]) n = n.dot (triArea a b c) / 2) ∧
    ∀ (a b : V3 K) (as bs : List (V3 K)), area (closed a (as ++ b :: bs)) n = area (closed a (as ++ [b])) n + area (closed a (b :: bs)) n := by
  refine ⟨area_eq v vs n, fun a b c => ?_, fun a b as bs => ?_⟩
  · rw [area_eq]
    congr 1
    simp only [vectorArea, sides, List.nil_append, List.cons_append, List.zip_cons_cons, List.zip_nil_right, List.map_cons, List.map_nil, V3.sum,
      triArea, V3.dot, V3.add, V3.sub, V3.cross]
    ring
  · rw [area_eq, area_eq, area_eq, vectorArea_cut, dot_add]
    ring

/-- C152: in the plane z = 0, the shoelace formula. -/
theorem C152_shoelace (v : V3 K) (vs : List (V3 K)) :
    area (closed v vs) ⟨0, 0, 1⟩ = ((sides (v :: vs)).map fun s => s.1.x * s.2.y - s.1.y * s.2.x).sum / 2 := by
  rw [area_eq]
  congr 1
  unfold vectorArea
  induction sides (v :: vs) with
  | nil => simp [V3.sum, V3.dot]
  | cons s l ih =>
    simp only [List.map_cons, V3.sum, dot_add, List.sum_cons, ih]
    simp [V3.dot, V3.cross]

/-- C152: the normal that a polygon is given when none is named has the direction of the vector area, so the area is not negative. -/
theorem C152_positive (v : V3 K) (vs : List (V3 K)) (len : K) (hl : 0 < len) :
    ∃ m, faceNormal0 (v :: vs) = some m ∧ 0 ≤ area (closed v vs) (V3.scale (1 / len) m) := by
  refine ⟨_, faceNormal_eq v vs, ?_⟩
  rw [area_eq]
  generalize vectorArea (v :: vs) = w
  have : (V3.scale (1 / len) w).dot w = 1 / len * (w.x * w.x + w.y * w.y + w.z * w.z) := by simp only [V3.dot, V3.scale]; ring
  rw [this]
  have := mul_self_nonneg w.x
  have := mul_self_nonneg w.y
  have := mul_self_nonneg w.z
  positivity

/-- Six times the volume of the pyramids with the top p over the triangles that o forms with the sides. -/
def pyramid6 (p o : V3 K) (poly : List (V3 K)) : K := ((sides poly).map fun s => (o.sub p).dot ((s.1.sub p).cross (s.2.sub p))).sum

/-- C152: `:volume` of a flat polygon is the volume of the pyramid over it with its top at the point. -/
theorem C152_volume (n o v : V3 K) (vs : List (V3 K)) (p : V3 K) (hn : n.dot n = 1) (h : ∀ q ∈ v :: vs, n.dot (q.sub o) = 0) :
    volume (Plane.ofPoint n o) (closed v vs) p = pyramid6 p o (v :: vs) / 6 := by
  unfold volume
  rw [show (Plane.ofPoint n o).normal = n from rfl, area_eq]
  have hd : (Plane.ofPoint n o).dist p = n.dot (p.sub o) := by simp only [Plane.dist, Plane.ofPoint, V3.dot, V3.sub]; ring
  rw [hd]
  have h1 : pyramid6 p o (v :: vs) = (o.sub p).dot (vectorArea (v :: vs)) := by
    rw [← vectorArea_from p]
    unfold pyramid6
    induction sides (v :: vs) with
    | nil => simp [V3.sum, V3.dot]
    | cons s l ih => simp only [List.map_cons, List.sum_cons, V3.sum, dot_add, ih]
  rw [h1]
  have h2 := vectorArea_par n o v vs hn h
  have h3 : (o.sub p).dot (vectorArea (v :: vs)) = -(n.dot (vectorArea (v :: vs)) * n.dot (p.sub o)) := by
    rw [h2]
    generalize vectorArea (v :: vs) = w
    simp only [V3.dot, V3.sub, V3.scale] at hn ⊢
    linear_combination ((n.x * w.x + n.y * w.y + n.z * w.z) * (n.x * (p.x - o.x) + n.y * (p.y - o.y) + n.z * (p.z - o.z))) * hn
  rw [h3]
  ring

example : area (closed (⟨0, 0, 0⟩ : V3 ℚ) [⟨4, 0, 0⟩, ⟨4, 3, 0⟩, ⟨0, 3, 0⟩]) ⟨0, 0, 1⟩ = 12 ∧
    volume (Plane.ofPoint (⟨0, 0, 1⟩ : V3 ℚ) ⟨0, 0, 0⟩) (closed ⟨0, 0, 0⟩ [⟨4, 0, 0⟩, ⟨4, 3, 0⟩, ⟨0, 3, 0⟩]) ⟨9, 9, -5⟩ = 20 := by decide +kernel
example : ∀ q ∈ [(⟨0, 0, 0⟩ : V3 ℚ), ⟨4, 0, 0⟩, ⟨4, 3, 0⟩, ⟨0, 3, 0⟩], (⟨0, 0, 1⟩ : V3 ℚ).dot (q.sub ⟨0, 0, 0⟩) = 0 := by decide +kernel

/-! ### C153 centre of gravity -/

/-- C153: `:centroid` of a flat polygon returns its area and the centre of gravity of the triangles that any point of the plane forms with its sides. -/
theorem C153_centroid (v : V3 K) (vs : List (V3 K)) (n o : V3 K) (hplane : ∀ p ∈ v :: vs, n.dot p = n.dot o) (A : K) (g : V3 K)
    (h : centroid (closed v vs) n = some (A, g)) :
    A = area (closed v vs) n ∧ A ≠ 0 ∧ fanArea o n (v :: vs) = 2 * A ∧ fanMoment o n (v :: vs) = V3.scale (2 * A) g :=
  centroid_spec v vs n o hplane A g h

/-- C153: if the area is not zero it is returned; and the centre of gravity of a triangle is the mean of its corners. -/
theorem C153_triangle (a b c n : V3 K) (hp : n.dot a = n.dot b ∧ n.dot a = n.dot c) (hA : n.dot (triArea a b c) ≠ 0) :
    centroid (closed a [b, c]) n = some (n.dot (triArea a b c) / 2, V3.scale (1 / 3) (a.add (b.add c))) := by
  have hsome : ∃ A g, centroid (closed a [b, c]) n = some (A, g) := by
    unfold centroid
    simp only
    rw [if_neg]
    · exact ⟨_, _, rfl⟩
    · rw [centroidLoop_eq]
      simp only
      rw [closed_sum (fun p => n.dot (triArea p.1 p.2 (vectorMean (closed a [b, c])))), zero_add]
      have := fanArea_eq (vectorMean (closed a [b, c])) n [a, b, c]
      unfold fanArea at this
      rw [this]
      intro h
      apply hA
      rw [← h]
      simp only [vectorArea, sides, List.nil_append, List.cons_append, List.zip_cons_cons, List.zip_nil_right, List.map_cons, List.map_nil, V3.sum,
        triArea, V3.dot, V3.add, V3.sub, V3.cross]
      ring
  obtain ⟨A, g, e⟩ := hsome
  obtain ⟨_, h2, h3, h4⟩ := centroid_spec a [b, c] n a (by simp [← hp.1, ← hp.2]) A g e
  have hA2 : 2 * A = n.dot (triArea a b c) := by
    rw [← h3]
    simp only [fanArea, sides, List.nil_append, List.cons_append, List.zip_cons_cons, List.zip_nil_right, List.map_cons, List.map_nil, List.sum_cons, List.sum_nil,
      triArea, V3.dot, V3.add, V3.sub, V3.cross]
    ring
  rw [e]
  have hg : V3.scale (2 * A) g = V3.scale (2 * A) (V3.scale (1 / 3) (a.add (b.add c))) := by
    rw [← h4, hA2]
    ext <;> simp only [fanMoment, sides, List.nil_append, List.cons_append, List.zip_cons_cons, List.zip_nil_right, List.map_cons, List.map_nil, V3.sum,
      triArea, V3.dot, V3.add, V3.sub, V3.cross, V3.scale] <;> ring
  have h2A : 2 * A ≠ 0 := mul_ne_zero two_ne_zero h2
  have hx := congrArg V3.x hg
  have hy := congrArg V3.y hg
  have hz := congrArg V3.z hg
  simp only [V3.scale] at hx hy hz
  congr 2
  · linear_combination hA2 / 2
  · ext
    · exact mul_left_cancel₀ h2A hx
    · exact mul_left_cancel₀ h2A hy
    · exact mul_left_cancel₀ h2A hz

example : centroid (closed (⟨0, 0, 0⟩ : V3 ℚ) [⟨6, 0, 0⟩, ⟨6, 3, 0⟩, ⟨3, 3, 0⟩, ⟨3, 6, 0⟩, ⟨0, 6, 0⟩]) ⟨0, 0, 1⟩ = some (27, ⟨5 / 2, 5 / 2, 0⟩) := by decide +kernel

/-! ### C154 convex polygons -/

/-- C154, partial: a convex polygon is found to be convex; a polygon that turns right somewhere is not.  Missing: that a polygon found to be convex is (below). -/
theorem C154_convexp_partial (n v : V3 K) (vs : List (V3 K)) :
    (Convex n (v :: vs) → convexp (closed v vs) n = true) ∧
    (convexp (closed v vs) n = true → NoRightTurn n ((v :: vs).getLast (by simp) :: v :: vs ++ [v])) := by
  refine ⟨convex_turns n v vs, fun h => ?_⟩
  unfold convexp at h
  rw [convexLoop_iff] at h
  simpa [closed] using h

example : Convex (⟨0, 0, 1⟩ : V3 ℚ) [⟨0, 0, 0⟩, ⟨4, 0, 0⟩, ⟨4, 3, 0⟩] := by unfold Convex; decide +kernel

/-- C154: a five-pointed star drawn in one stroke counts as convex. -/
theorem C154_star_wrong :
    convexp (closed (⟨0, 10, 0⟩ : V3 ℚ) [⟨-6, -8, 0⟩, ⟨10, 3, 0⟩, ⟨-10, 3, 0⟩, ⟨6, -8, 0⟩]) ⟨0, 0, 1⟩ = true ∧
    ¬ Convex (⟨0, 0, 1⟩ : V3 ℚ) [⟨0, 10, 0⟩, ⟨-6, -8, 0⟩, ⟨10, 3, 0⟩, ⟨-10, 3, 0⟩, ⟨6, -8, 0⟩] := by
  refine ⟨by decide +kernel, ?_⟩
  unfold Convex
  decide +kernel

end

/-- C154: `:insidep` of a convex polygon, up to epsilon: a point that is said to be outside is more than epsilon to the right of a side, so it is not in the polygon; one said to be inside is not as much as epsilon to the right of any; and one on the border is less than epsilon from the line of a side, between its ends (up to epsilon of the length of the side). -/
theorem C154_insidep (n : V3 ℝ) (eps : ℝ) (heps : 0 < eps) (v : V3 ℝ) (vs : List (V3 ℝ)) (hc : Convex n (v :: vs)) (p : V3 ℝ) :
    (insidep n eps (closed v vs) p = .outside →
      (∃ s ∈ sides (v :: vs), n.dot (triArea s.1 s.2 p) ≤ -(eps * dist s.1 s.2) ∧ s.1 ≠ s.2) ∧ ¬ Hull (v :: vs) p) ∧
    (insidep n eps (closed v vs) p = .inside → ∀ s ∈ sides (v :: vs), s.1 ≠ s.2 → -(eps * dist s.1 s.2) < n.dot (triArea s.1 s.2 p)) ∧
    (insidep n eps (closed v vs) p = .border → ∃ s ∈ sides (v :: vs), s.1 ≠ s.2 ∧ |n.dot (triArea s.1 s.2 p)| < eps * dist s.1 s.2 ∧
      ∃ t, (s.2.sub s.1).dot (p.sub (at3 s.1 s.2 t)) = 0 ∧ -eps ≤ t ∧ t ≤ 1 + eps) := by
  have hpos : ∀ a b : V3 ℝ, a ≠ b → 0 < dist a b := by
    intro a b h
    rw [dist_comm']
    exact Real.sqrt_pos.2 (dir_ne h)
  obtain ⟨h1, h2, h3⟩ := insideLoop_spec n eps p (v :: vs) ((v :: vs).getLast (by simp))
  have hcl : insidep n eps (closed v vs) p = insideLoop n eps p ((v :: vs).getLast (by simp)) (v :: vs) := rfl
  have hmem : ∀ s, s ∈ pairs ((v :: vs).getLast (by simp) :: v :: vs) ↔ s ∈ sides (v :: vs) := mem_pairs_closed v vs
  rw [hcl]
  refine ⟨fun h => ?_, fun h s hs hne => ?_, fun h => ?_⟩
  · obtain ⟨s, hs, hlt, hle⟩ := h2 h
    rw [hmem] at hs
    have hne : s.1 ≠ s.2 := by
      intro e
      rw [e] at hlt
      simp [triArea, V3.dot, V3.cross, V3.sub] at hlt
    refine ⟨⟨s, hs, ?_, hne⟩, fun hh => absurd (hull_left n _ hc hh s hs) (not_le.2 hlt)⟩
    have := (div_le_iff₀ (hpos _ _ hne)).1 (hle hne)
    linarith
  · have hp := hpos _ _ hne
    rcases h3 h s ((hmem s).2 hs) hne with h' | h'
    · have := (lt_div_iff₀ hp).1 h'
      linarith
    · have := mul_pos heps hp
      linarith
  · obtain ⟨s, hs, hne, ha, t, ht, t0, t1⟩ := h1 h
    refine ⟨s, (hmem s).1 hs, hne, ?_, t, ?_, t0, t1⟩
    · have hp := hpos _ _ hne
      rw [abs_div, abs_of_pos hp, div_lt_iff₀ hp] at ha
      exact ha
    · simp only [V3.dot, V3.sub, at3] at ht ⊢
      linear_combination -ht

example : Convex (⟨0, 0, 1⟩ : V3 ℝ) [⟨0, 0, 0⟩, ⟨4, 0, 0⟩, ⟨4, 3, 0⟩] := by
  intro s hs p hp
  simp only [sides, List.nil_append, List.cons_append, List.zip_cons_cons, List.zip_nil_right, List.mem_cons, List.not_mem_nil, or_false] at hs hp
  rcases hs with rfl | rfl | rfl <;> rcases hp with rfl | rfl | rfl <;> norm_num [triArea, V3.dot, V3.cross, V3.sub]

section
variable {K : Type} [Field K] [LinearOrder K] [IsStrictOrderedRing K]

/-! ### C155 eliminate-concave-vertex -/

/-- C155: `eliminate-concave-vertex` ends, leaves a chain that never turns right, takes out points only, keeps the first and the last, and leaves a chain that never turns right as it is. -/
theorem C155_eliminate (n : V3 K) (vs : List (V3 K)) (k : Nat) (hk : k > vs.length) :
    ∃ l f, eliminate n k vs = some (l, f) ∧ NoRightTurn n l ∧ l.Sublist vs ∧ l.head? = vs.head? ∧ l.getLast? = vs.getLast? ∧ (NoRightTurn n vs → l = vs) := by
  obtain ⟨l, f, h1, h2, h3, h4, h5, _, _, h8⟩ := eliminate_spec n k vs hk
  exact ⟨l, f, h1, h2, h3, h4, h5, h8⟩

example : eliminate (⟨0, 0, 1⟩ : V3 ℚ) 9 [⟨4, 0, 0⟩, ⟨3, 2, 0⟩, ⟨1, 1, 0⟩, ⟨0, 4, 0⟩, ⟨-4, 0, 0⟩] =
    some ([⟨4, 0, 0⟩, ⟨3, 2, 0⟩, ⟨0, 4, 0⟩, ⟨-4, 0, 0⟩], false) := by decide +kernel

/-- C155: so the hull that `grahamhull` makes need not be convex: the last of the points, sorted by angle about their mean and beginning with the farthest, is kept even if it lies within the others. -/
theorem C155_hull_wrong :
    let pts : List (V3 ℚ) := [⟨10, 0, 0⟩, ⟨0, 5, 0⟩, ⟨-5, 0, 0⟩, ⟨0, -5, 0⟩, ⟨4, -1 / 2, 0⟩]
    let n : V3 ℚ := ⟨0, 0, 1⟩
    (∀ s ∈ sides pts, 0 < n.dot (triArea (vectorMean pts) s.1 s.2)) ∧
    eliminate n 9 pts = some (pts, false) ∧ ¬ Convex n pts ∧
    ∀ s ∈ sides [(⟨10, 0, 0⟩ : V3 ℚ), ⟨0, 5, 0⟩, ⟨-5, 0, 0⟩, ⟨0, -5, 0⟩], 0 < n.dot (triArea s.1 s.2 ⟨4, -1 / 2, 0⟩) := by
  refine ⟨by decide +kernel, by decide +kernel, ?_, by decide +kernel⟩
  unfold Convex
  decide +kernel

/-! ### C156 maxindex -/

/-- C156: `maxindex` is the index of an element of the largest absolute value. -/
theorem C156_maxindex (v : V3 K) :
    (maxindex v = 0 ∧ |v.y| ≤ |v.x| ∧ |v.z| ≤ |v.x|) ∨ (maxindex v = 1 ∧ |v.x| ≤ |v.y| ∧ |v.z| ≤ |v.y|) ∨ (maxindex v = 2 ∧ |v.x| ≤ |v.z| ∧ |v.y| ≤ |v.z|) := by
  unfold maxindex
  by_cases h1 : |v.y| > |v.x|
  · simp only [h1, if_true]
    by_cases h2 : |v.z| > |v.y|
    · simp only [h2, if_true]
      exact Or.inr (Or.inr ⟨trivial, (h1.trans h2).le, h2.le⟩)
    · simp only [h2, if_false]
      exact Or.inr (Or.inl ⟨trivial, h1.le, not_lt.1 h2⟩)
  · simp only [h1, if_false, Nat.zero_ne_one]
    by_cases h2 : |v.z| > |v.x|
    · simp only [h2, if_true]
      exact Or.inr (Or.inr ⟨trivial, h2.le, (not_lt.1 h1).trans h2.le⟩)
    · simp only [h2, if_false]
      exact Or.inl ⟨trivial, not_lt.1 h1, not_lt.1 h2⟩

example : maxindex (⟨1, -5, 3⟩ : V3 ℚ) = 1 := by decide +kernel

end

/-- C156: `farthest` returns one of the points, and none is farther. -/
theorem C156_farthest (p v : V3 ℝ) (vs : List (V3 ℝ)) :
    ∃ w, farthest p (v :: vs) = some w ∧ w ∈ v :: vs ∧ ∀ q ∈ v :: vs, dist p q ≤ dist p w :=
  ⟨_, rfl, (farthestLoop_spec p vs v).1, (farthestLoop_spec p vs v).2⟩

/-- C156: `farthest-pair` of two points or more returns two of them, and no two are farther from each other. -/
theorem C156_pair (v1 v2 : V3 ℝ) (vs : List (V3 ℝ)) :
    ∃ p q, farthestPair (v1 :: v2 :: vs) = some (p, q) ∧ p ∈ v1 :: v2 :: vs ∧ q ∈ v1 :: v2 :: vs ∧
      ∀ a ∈ v1 :: v2 :: vs, ∀ b ∈ v1 :: v2 :: vs, dist a b ≤ dist p q := farthestPair_spec v1 v2 vs

section
variable {K : Type} [Field K] [LinearOrder K] [IsStrictOrderedRing K]

/-! ### C157 comparisons with a tolerance -/

/-- C157, partial: unless m and n differ by exactly epsilon, exactly one of eps<, eps=, eps> holds, eps<= is eps< or eps=, and the opposite of eps>; eps>= likewise.  Missing: the boundary. -/
theorem C157_compare_partial (m n eps : K) (he : 0 < eps) (hb : |m - n| ≠ eps) :
    (epsLt m n eps = true ∧ epsEq m n eps = false ∧ epsGt m n eps = false ∨
      epsLt m n eps = false ∧ epsEq m n eps = true ∧ epsGt m n eps = false ∨
      epsLt m n eps = false ∧ epsEq m n eps = false ∧ epsGt m n eps = true) ∧
    epsLe m n eps = (epsLt m n eps || epsEq m n eps) ∧ epsGe m n eps = (epsGt m n eps || epsEq m n eps) ∧
    epsLe m n eps = !epsGt m n eps ∧ epsGe m n eps = !epsLt m n eps ∧ epsNe m n eps = (epsLt m n eps || epsGt m n eps) := by
  have h1 : m - n ≠ eps := by
    intro h; apply hb; rw [h, abs_of_pos he]
  have h2 : m - n ≠ -eps := by
    intro h; apply hb; rw [h, abs_neg, abs_of_pos he]
  unfold epsNe epsLe epsGe epsLt epsGt epsEq
  rcases lt_trichotomy (m - n) (-eps) with h | h | h
  · have a1 : m < n - eps := by linarith
    have a2 : ¬ |m - n| < eps := fun x => by linarith [(abs_lt.1 x).1]
    have a3 : ¬ m > n + eps := by intro x; linarith
    have a4 : m < n + eps := by linarith
    have a5 : ¬ m > n - eps := by intro x; linarith
    simp only [a1, a2, a3, a4, a5, decide_true, decide_false]; decide
  · exact absurd h h2
  · rcases lt_trichotomy (m - n) eps with g | g | g
    · have a1 : ¬ m < n - eps := by intro x; linarith
      have a2 : |m - n| < eps := abs_lt.2 ⟨h, g⟩
      have a3 : ¬ m > n + eps := by intro x; linarith
      have a4 : m < n + eps := by linarith
      have a5 : m > n - eps := by linarith
      simp only [a1, a2, a3, a4, a5, decide_true, decide_false]; decide
    · exact absurd g h1
    · have a1 : ¬ m < n - eps := by intro x; linarith
      have a2 : ¬ |m - n| < eps := fun x => by linarith [(abs_lt.1 x).2]
      have a3 : m > n + eps := by linarith
      have a4 : ¬ m < n + eps := by intro x; linarith
      have a5 : m > n - eps := by linarith
      simp only [a1, a2, a3, a4, a5, decide_true, decide_false]; decide

example : |(3 : ℚ) - 4| ≠ 1 / 2 ∧ epsLt (3 : ℚ) 4 (1 / 2) = true := by decide +kernel

/-- C157: numbers that differ by exactly epsilon are neither eps<, nor eps=, nor eps>; and n + epsilon is not eps<= n although it is not eps> n. -/
theorem C157_boundary_wrong (n eps : K) (he : 0 < eps) :
    epsLt (n + eps) n eps = false ∧ epsEq (n + eps) n eps = false ∧ epsGt (n + eps) n eps = false ∧ epsLe (n + eps) n eps = false := by
  unfold epsLe epsLt epsGt epsEq
  rw [add_sub_cancel_left, abs_of_pos he]
  have a1 : ¬ n + eps < n - eps := by intro x; linarith
  have a3 : ¬ n + eps > n + eps := lt_irrefl _
  simp [a1, a3]

/-! ### C158 moving a plane -/

/-- C158: `:transform-normal`: a point is as far from the moved plane as the point from which it was moved is from the plane as it was; and a rotation keeps the length of the normal. -/
theorem C158_transform (pl : Plane K) (r1 r2 r3 ipos q : V3 K) :
    (transformNormal pl r1 r2 r3 ipos).dist q = pl.dist ⟨r1.dot q + ipos.x, r2.dot q + ipos.y, r3.dot q + ipos.z⟩ ∧
    (r1.dot r1 = 1 → r2.dot r2 = 1 → r3.dot r3 = 1 → r1.dot r2 = 0 → r1.dot r3 = 0 → r2.dot r3 = 0 →
      (transformNormal pl r1 r2 r3 ipos).normal.dot (transformNormal pl r1 r2 r3 ipos).normal = pl.normal.dot pl.normal) := by
  constructor
  · simp only [transformNormal, Plane.dist, V3.dot, V3.add, V3.scale]; ring
  · intro h1 h2 h3 h4 h5 h6
    simp only [transformNormal, V3.dot, V3.add, V3.scale] at *
    linear_combination pl.normal.x ^ 2 * h1 + pl.normal.y ^ 2 * h2 + pl.normal.z ^ 2 * h3 + 2 * pl.normal.x * pl.normal.y * h4
      + 2 * pl.normal.x * pl.normal.z * h5 + 2 * pl.normal.y * pl.normal.z * h6

example : ((⟨0, 1, 0⟩ : V3 ℚ).dot ⟨0, 1, 0⟩ = 1) ∧ ((⟨-1, 0, 0⟩ : V3 ℚ).dot ⟨-1, 0, 0⟩ = 1) ∧ ((⟨0, 1, 0⟩ : V3 ℚ).dot ⟨-1, 0, 0⟩ = 0) := by decide +kernel

end

end Eus.Geo
