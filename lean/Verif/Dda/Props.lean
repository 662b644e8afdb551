import Verif.Dda.Spec
import Mathlib.Tactic.Ring
import Mathlib.Tactic.Linarith
set_option autoImplicit false
namespace Eus.Dda

/-! ### one direction -/

theorem abs_nonneg' (a : Int) : 0 ≤ abs a := by unfold abs; split <;> omega
theorem abs_natAbs (a : Int) : abs a = a.natAbs := by unfold abs; split <;> omega

/-- The sign the code uses. -/
def sg (a : Int) : Int := if a > 0 then 1 else -1

theorem sg_abs (a : Int) : sg a * abs a = a := by
  unfold sg abs; split <;> split <;> omega

theorem sg_sq (a : Int) : sg a * sg a = 1 := by unfold sg; split <;> rfl

/-- The state after `i` points with `k` steps in the short direction; `u` and `v` are the long and the
short side. -/
structure At (x0 y0 x1 y1 : Int) (i k : Int) (l : Line) : Prop where
  count : l.count = i
  dx : l.dx = x1 - x0
  dy : l.dy = y1 - y0
  len : l.length = 1 + max (abs (x1 - x0)) (abs (y1 - y0))
  major : l.xmajor = decide (abs (x1 - x0) > abs (y1 - y0))
  i0 : 0 ≤ i
  k0 : 0 ≤ k ∧ k ≤ i
  xm : abs (x1 - x0) > abs (y1 - y0) →
    l.x = x0 + i * sg (x1 - x0) ∧ l.y = y0 + k * sg (y1 - y0) ∧ l.xyinc = sg (y1 - y0) ∧
    l.errinc = 2 * abs (y1 - y0) ∧ l.errdec = 2 * (abs (x1 - x0) - abs (y1 - y0)) ∧
    l.err = 2 * abs (y1 - y0) * (i + 1) - abs (x1 - x0) - 2 * abs (x1 - x0) * k ∧
    -abs (x1 - x0) ≤ 2 * abs (y1 - y0) * i - 2 * abs (x1 - x0) * k ∧
    2 * abs (y1 - y0) * i - 2 * abs (x1 - x0) * k ≤ abs (x1 - x0)
  ym : ¬ abs (x1 - x0) > abs (y1 - y0) →
    l.y = y0 + i * sg (y1 - y0) ∧ l.x = x0 + k * sg (x1 - x0) ∧ l.xyinc = sg (x1 - x0) ∧
    l.errinc = 2 * abs (x1 - x0) ∧ l.errdec = 2 * (abs (y1 - y0) - abs (x1 - x0)) ∧
    l.err = 2 * abs (x1 - x0) * (i + 1) - abs (y1 - y0) - 2 * abs (y1 - y0) * k ∧
    -abs (y1 - y0) ≤ 2 * abs (x1 - x0) * i - 2 * abs (y1 - y0) * k ∧
    2 * abs (x1 - x0) * i - 2 * abs (y1 - y0) * k ≤ abs (y1 - y0)

theorem init_at (x0 y0 x1 y1 : Int) : At x0 y0 x1 y1 0 0 (init x0 y0 x1 y1) := by
  have h1 := abs_nonneg' (x1 - x0)
  have h2 := abs_nonneg' (y1 - y0)
  refine ⟨rfl, rfl, rfl, ?_, rfl, by omega, by omega, ?_, ?_⟩
  · simp only [init]; split <;> omega
  · intro h
    simp only [init, if_pos h]
    refine ⟨by omega, by omega, rfl, trivial, ?_, by ring, by omega, by omega⟩
    simp only [abs] at *; split <;> omega
  · intro h
    simp only [init, if_neg h]
    refine ⟨by omega, by omega, rfl, trivial, ?_, by ring, by omega, by omega⟩
    have : abs (abs (y1 - y0) - abs (x1 - x0)) = abs (y1 - y0) - abs (x1 - x0) := by
      rw [abs]; split <;> omega
    rw [this]

/-- One step in the long direction, `0` or `1` in the short one. -/
theorem step_at {x0 y0 x1 y1 i k : Int} {l : Line} (h : At x0 y0 x1 y1 i k l) (hl : i < l.length) :
    ∃ l' k', next l = (some (l.x, l.y), l') ∧ At x0 y0 x1 y1 (i + 1) k' l' ∧ Touch (l.x, l.y) (l'.x, l'.y) := by
  have h1 := abs_nonneg' (x1 - x0)
  have h2 := abs_nonneg' (y1 - y0)
  have hc : ¬ (l.count + 1 > l.length) := by rw [h.count]; omega
  have hs : ∀ a : Int, sg a = 1 ∨ sg a = -1 := by intro a; unfold sg; split <;> simp
  by_cases hm : abs (x1 - x0) > abs (y1 - y0)
  · obtain ⟨ex, ey, e3, e4, e5, e6, e7, e8⟩ := h.xm hm
    have hmaj : l.xmajor = true := by rw [h.major]; simpa using hm
    have hsx := hs (x1 - x0)
    have hsy := hs (y1 - y0)
    have hdx : (if l.dx > 0 then (1 : Int) else -1) = sg (x1 - x0) := by rw [h.dx]; rfl
    by_cases he : l.err > 0
    · refine ⟨_, k + 1, by simp only [next, if_neg hc, hmaj, if_true, updateX, if_pos he]; rfl, ?_, ?_⟩
      · refine ⟨?_, h.dx, h.dy, h.len, hmaj.symm.trans h.major, by have := h.i0; omega, by have := h.k0; omega, ?_, fun hn => absurd hm hn⟩
        · simp only [h.count]
        · intro _
          refine ⟨?_, ?_, e3, e4, e5, ?_, ?_, ?_⟩
          · simp only [hdx, ex]; ring
          · simp only [ey, e3]; ring
          · simp only [e6, e5]; ring
          · rw [e6] at he; linarith [he]
          · linarith [e8, hm]
      · simp only [Touch, hdx, e3]
        refine ⟨?_, ?_, ?_⟩
        · intro hh
          have := congrArg Prod.fst hh
          simp only at this
          omega
        · omega
        · omega
    · refine ⟨_, k, by simp only [next, if_neg hc, hmaj, if_true, updateX, if_neg he]; rfl, ?_, ?_⟩
      · refine ⟨?_, h.dx, h.dy, h.len, hmaj.symm.trans h.major, by have := h.i0; omega, by have := h.k0; omega, ?_, fun hn => absurd hm hn⟩
        · simp only [h.count]
        · intro _
          refine ⟨?_, ey, e3, e4, e5, ?_, ?_, ?_⟩
          · simp only [hdx, ex]; ring
          · simp only [e6, e4]; ring
          · linarith [e7]
          · rw [e6] at he; linarith [he]
      · simp only [Touch, hdx]
        refine ⟨?_, ?_, ?_⟩
        · intro hh
          have := congrArg Prod.fst hh
          simp only at this
          omega
        · omega
        · omega
  · obtain ⟨ey, ex, e3, e4, e5, e6, e7, e8⟩ := h.ym hm
    have hmaj : l.xmajor = false := by rw [h.major]; simpa using hm
    have hsx := hs (x1 - x0)
    have hsy := hs (y1 - y0)
    have hdy : (if l.dy > 0 then (1 : Int) else -1) = sg (y1 - y0) := by rw [h.dy]; rfl
    by_cases he : l.err > 0
    · refine ⟨_, k + 1, by simp only [next, if_neg hc, hmaj, Bool.false_eq_true, if_false, updateY, if_pos he]; rfl, ?_, ?_⟩
      · refine ⟨?_, h.dx, h.dy, h.len, hmaj.symm.trans h.major, by have := h.i0; omega, by have := h.k0; omega, fun hn => absurd hn hm, ?_⟩
        · simp only [h.count]
        · intro _
          refine ⟨?_, ?_, e3, e4, e5, ?_, ?_, ?_⟩
          · simp only [hdy, ey]; ring
          · simp only [ex, e3]; ring
          · simp only [e6, e5]; ring
          · rw [e6] at he; linarith [he]
          · linarith [e8, hm]
      · simp only [Touch, hdy, e3]
        refine ⟨?_, ?_, ?_⟩
        · intro hh
          have := congrArg Prod.snd hh
          simp only at this
          omega
        · omega
        · omega
    · refine ⟨_, k, by simp only [next, if_neg hc, hmaj, Bool.false_eq_true, if_false, updateY, if_neg he]; rfl, ?_, ?_⟩
      · refine ⟨?_, h.dx, h.dy, h.len, hmaj.symm.trans h.major, by have := h.i0; omega, by have := h.k0; omega, fun hn => absurd hn hm, ?_⟩
        · simp only [h.count]
        · intro _
          refine ⟨?_, ex, e3, e4, e5, ?_, ?_, ?_⟩
          · simp only [hdy, ey]; ring
          · simp only [e6, e4]; ring
          · linarith [e7]
          · rw [e6] at he; linarith [he]
      · simp only [Touch, hdy]
        refine ⟨?_, ?_, ?_⟩
        · intro hh
          have := congrArg Prod.snd hh
          simp only at this
          omega
        · omega
        · omega

theorem mul_sg_bound (u v s t D : Int) (hs : s = 1 ∨ s = -1) (ht : t = 1 ∨ t = -1)
    (hD : -u ≤ 2 * D ∧ 2 * D ≤ u) : 2 * (((s * t * D).natAbs : Nat) : Int) ≤ max u v := by
  rcases hs with rfl | rfl <;> rcases ht with rfl | rfl <;> simp only [Int.mul_one, Int.one_mul, Int.neg_mul, Int.mul_neg, Int.neg_neg] <;> omega

theorem near_at {x0 y0 x1 y1 i k : Int} {l : Line} (h : At x0 y0 x1 y1 i k l) :
    Near (x0, y0) (x1, y1) (l.x, l.y) := by
  have hs : ∀ a : Int, sg a = 1 ∨ sg a = -1 := by intro a; unfold sg; split <;> simp
  unfold Near
  simp only
  have e1 := abs_natAbs (x1 - x0)
  have e2 := abs_natAbs (y1 - y0)
  have s1 := sg_abs (x1 - x0)
  have s2 := sg_abs (y1 - y0)
  by_cases hm : abs (x1 - x0) > abs (y1 - y0)
  · obtain ⟨ex, ey, -, -, -, -, e7, e8⟩ := h.xm hm
    have key : (l.y - y0) * (x1 - x0) - (l.x - x0) * (y1 - y0) =
        sg (x1 - x0) * sg (y1 - y0) * (k * abs (x1 - x0) - i * abs (y1 - y0)) := by
      rw [ex, ey]
      calc _ = k * sg (y1 - y0) * (x1 - x0) - i * sg (x1 - x0) * (y1 - y0) := by ring
        _ = k * sg (y1 - y0) * (sg (x1 - x0) * abs (x1 - x0)) - i * sg (x1 - x0) * (sg (y1 - y0) * abs (y1 - y0)) := by
          rw [s1, s2]
        _ = _ := by ring
    rw [key]
    have := mul_sg_bound (abs (x1 - x0)) (abs (y1 - y0)) _ _ (k * abs (x1 - x0) - i * abs (y1 - y0))
      (hs (x1 - x0)) (hs (y1 - y0)) ⟨by linarith, by linarith⟩
    omega
  · obtain ⟨ey, ex, -, -, -, -, e7, e8⟩ := h.ym hm
    have key : (l.y - y0) * (x1 - x0) - (l.x - x0) * (y1 - y0) =
        sg (x1 - x0) * sg (y1 - y0) * (i * abs (x1 - x0) - k * abs (y1 - y0)) := by
      rw [ex, ey]
      calc _ = i * sg (y1 - y0) * (x1 - x0) - k * sg (x1 - x0) * (y1 - y0) := by ring
        _ = i * sg (y1 - y0) * (sg (x1 - x0) * abs (x1 - x0)) - k * sg (x1 - x0) * (sg (y1 - y0) * abs (y1 - y0)) := by
          rw [s1, s2]
        _ = _ := by ring
    rw [key]
    have := mul_sg_bound (abs (y1 - y0)) (abs (x1 - x0)) _ _ (i * abs (x1 - x0) - k * abs (y1 - y0))
      (hs (x1 - x0)) (hs (y1 - y0)) ⟨by linarith, by linarith⟩
    omega

/-- At the last point the error bound leaves only the end of the line. -/
theorem end_at {x0 y0 x1 y1 i k : Int} {l : Line} (h : At x0 y0 x1 y1 i k l) (hi : i = l.length - 1) :
    (l.x, l.y) = (x1, y1) := by
  have h1 := abs_nonneg' (x1 - x0)
  have h2 := abs_nonneg' (y1 - y0)
  have s1 := sg_abs (x1 - x0)
  have s2 := sg_abs (y1 - y0)
  have hk : ∀ u v : Int, 0 ≤ u → -u ≤ 2 * v * u - 2 * u * k → 2 * v * u - 2 * u * k ≤ u → u = 0 ∨ k = v := by
    intro u v hu ha hb
    by_cases hu0 : u = 0
    · exact Or.inl hu0
    · right
      have hu' : 0 < u := by omega
      have ha' : 0 ≤ u * (2 * (v - k) + 1) := by linarith
      have hb' : 0 ≤ u * (1 - 2 * (v - k)) := by linarith
      have h3 : 0 ≤ 2 * (v - k) + 1 := by
        by_contra hc
        have : u * (2 * (v - k) + 1) < 0 := Int.mul_neg_of_pos_of_neg hu' (by omega)
        omega
      have h4 : 0 ≤ 1 - 2 * (v - k) := by
        by_contra hc
        have : u * (1 - 2 * (v - k)) < 0 := Int.mul_neg_of_pos_of_neg hu' (by omega)
        omega
      omega
  rw [h.len] at hi
  by_cases hm : abs (x1 - x0) > abs (y1 - y0)
  · obtain ⟨ex, ey, -, -, -, -, e7, e8⟩ := h.xm hm
    have hi' : i = abs (x1 - x0) := by omega
    rw [hi'] at e7 e8 ex
    rcases hk _ _ h1 e7 e8 with h3 | h3
    · omega
    · rw [h3] at ey
      rw [ex, ey]
      have a1 : abs (x1 - x0) * sg (x1 - x0) = x1 - x0 := by rw [Int.mul_comm]; exact s1
      have a2 : abs (y1 - y0) * sg (y1 - y0) = y1 - y0 := by rw [Int.mul_comm]; exact s2
      rw [a1, a2]; congr 1 <;> omega
  · obtain ⟨ey, ex, -, -, -, -, e7, e8⟩ := h.ym hm
    have hi' : i = abs (y1 - y0) := by omega
    rw [hi'] at e7 e8 ey
    have a1 : abs (x1 - x0) * sg (x1 - x0) = x1 - x0 := by rw [Int.mul_comm]; exact s1
    have a2 : abs (y1 - y0) * sg (y1 - y0) = y1 - y0 := by rw [Int.mul_comm]; exact s2
    rcases hk _ _ h2 e7 e8 with h3 | h3
    · -- a single point
      have h4 : abs (x1 - x0) = 0 := by omega
      have h5 : k * sg (x1 - x0) = 0 := by
        have := h.k0
        have : k = 0 := by omega
        rw [this]; ring
      rw [ex, ey, h5, a2]
      have : x1 - x0 = 0 := by rw [← s1, h4]; ring
      congr 1 <;> omega
    · rw [h3] at ex
      rw [ex, ey, a1, a2]; congr 1 <;> omega

theorem points_at {x0 y0 x1 y1 : Int} : ∀ (n fuel : Nat) (i k : Int) (l : Line), At x0 y0 x1 y1 i k l →
    (n : Int) + i = l.length → n < fuel →
    ∃ P, points fuel l = some P ∧ P.length = n ∧ (∀ p ∈ P, Near (x0, y0) (x1, y1) p) ∧ Chain P ∧
      (0 < n → P.head? = some (l.x, l.y) ∧ P.getLast? = some (x1, y1)) := by
  intro n
  induction n with
  | zero =>
    intro fuel i k l h hn hf
    obtain ⟨f, rfl⟩ : ∃ f, fuel = f + 1 := ⟨fuel - 1, by omega⟩
    refine ⟨[], ?_, rfl, by simp, trivial, by omega⟩
    have : l.count + 1 > l.length := by rw [h.count]; omega
    simp only [points, next, if_pos this]
  | succ n ih =>
    intro fuel i k l h hn hf
    obtain ⟨f, rfl⟩ : ∃ f, fuel = f + 1 := ⟨fuel - 1, by omega⟩
    obtain ⟨l', k', e, h', ht⟩ := step_at h (by omega)
    have hlen : l'.length = l.length := by rw [h.len, h'.len]
    obtain ⟨P, e1, e2, e3, e4, e5⟩ := ih f (i + 1) k' l' h' (by omega) (by omega)
    refine ⟨(l.x, l.y) :: P, by simp only [points, e, e1, Option.map_some], by simp [e2], ?_, ?_, ?_⟩
    · intro p hp
      rcases List.mem_cons.1 hp with rfl | hp
      · exact near_at h
      · exact e3 p hp
    · cases P with
      | nil => trivial
      | cons q r =>
        have := (e5 (by simp at e2; omega)).1
        simp only [List.head?_cons, Option.some.injEq] at this
        subst this
        exact ⟨ht, e4⟩
    · intro _
      refine ⟨rfl, ?_⟩
      cases P with
      | nil =>
        simp only [List.length_nil] at e2
        rw [List.getLast?_singleton, end_at h (by omega)]
      | cons q r =>
        rw [List.getLast?_cons_cons]
        exact (e5 (by simp at e2; omega)).2

/-! ### C187 -/

/-- C187.  `dda-line` gives the points of the line from `(x0, y0)` to `(x1, y1)`: it begins at the one and
ends at the other, has one point for each column (or row, if it is steep), each point touches the
next, and none is more than half a unit from the line.  For all integers. -/
theorem C187_line (x0 y0 x1 y1 : Int) (fuel : Nat)
    (hf : max (x1 - x0).natAbs (y1 - y0).natAbs + 1 < fuel) :
    ∃ P, points fuel (init x0 y0 x1 y1) = some P ∧
      P.head? = some (x0, y0) ∧ P.getLast? = some (x1, y1) ∧
      P.length = max (x1 - x0).natAbs (y1 - y0).natAbs + 1 ∧
      Chain P ∧ ∀ p ∈ P, Near (x0, y0) (x1, y1) p := by
  have e1 := abs_natAbs (x1 - x0)
  have e2 := abs_natAbs (y1 - y0)
  have h := init_at x0 y0 x1 y1
  obtain ⟨P, a, b, c, d, e⟩ := points_at (max (x1 - x0).natAbs (y1 - y0).natAbs + 1) fuel 0 0 _ h
    (by rw [h.len]; omega) hf
  exact ⟨P, a, (e (by omega)).1, (e (by omega)).2, b, d, c⟩

example : points 20 (init 2 3 (-3) 1) =
    some [(2, 3), (1, 3), (0, 2), (-1, 2), (-2, 1), (-3, 1)] := by decide +kernel

example : points 3 (init 4 4 4 4) = some [(4, 4)] := by decide +kernel

/-- A coarser line is not near: the specification tells points apart. -/
example : Near (0, 0) (5, 2) (3, 1) ∧ ¬ Near (0, 0) (5, 2) (3, 2) ∧ ¬ Near (0, 0) (5, 2) (3, 0) := by
  unfold Near; decide

end Eus.Dda
