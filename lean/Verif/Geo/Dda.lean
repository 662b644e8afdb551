import Verif.Geo.Model
import Mathlib.Tactic.Linarith
import Mathlib.Tactic.Ring
import Mathlib.Tactic.LinearCombination
import Mathlib.Algebra.Order.Group.Unbundled.Int
set_option autoImplicit false
/- The line-DDA: what the loop computes. -/
namespace Eus.Geo

/-- Minor steps made and the error after so many points, for the distances a ≥ b. -/
def mE (a b : Int) : Nat → Int × Int
  | 0 => (0, 2 * b - a)
  | k + 1 => if (mE a b k).2 > 0 then ((mE a b k).1 + 1, (mE a b k).2 - 2 * (a - b)) else ((mE a b k).1, (mE a b k).2 + 2 * b)

theorem mE_err (a b : Int) (k : Nat) : (mE a b k).2 = 2 * b * (k + 1) - a - 2 * (mE a b k).1 * a := by
  induction k with
  | zero => simp [mE]
  | succ k ih =>
    unfold mE
    split
    · push_cast; rw [ih]; ring
    · push_cast; rw [ih]; ring

theorem mE_near {a b : Int} (hb : 0 ≤ b) (hab : b ≤ a) (k : Nat) :
    -a ≤ 2 * (b * k - (mE a b k).1 * a) ∧ 2 * (b * k - (mE a b k).1 * a) ≤ a := by
  induction k with
  | zero => simp [mE]; omega
  | succ k ih =>
    have he := mE_err a b k
    unfold mE
    split
    · rename_i h
      rw [he] at h
      push_cast
      constructor <;> nlinarith
    · rename_i h
      rw [he] at h
      push_cast
      constructor <;> nlinarith

theorem mE_step (a b : Int) (k : Nat) : (mE a b (k + 1)).1 = (mE a b k).1 ∨ (mE a b (k + 1)).1 = (mE a b k).1 + 1 := by
  have h : mE a b (k + 1) = if (mE a b k).2 > 0 then ((mE a b k).1 + 1, (mE a b k).2 - 2 * (a - b)) else ((mE a b k).1, (mE a b k).2 + 2 * b) := rfl
  rw [h]
  split
  · right; rfl
  · left; rfl

theorem mE_zero {a : Int} (ha : 0 < a) (k : Nat) : (mE a 0 k).1 = 0 := by
  have h := mE_near (le_refl 0) ha.le k
  rcases h with ⟨h1, h2⟩
  have h3 : (mE a 0 k).1 * a * 2 ≤ a := by linarith
  have h4 : -a ≤ (mE a 0 k).1 * a * 2 := by linarith
  by_contra hne
  rcases lt_or_gt_of_ne hne with hlt | hgt
  · nlinarith
  · nlinarith

theorem mE_end {a b : Int} (hb : 0 ≤ b) (hab : b ≤ a) (n : Nat) (hn : (n : Int) = a) : (mE a b n).1 = b := by
  rcases lt_or_eq_of_le (hb.trans hab) with ha | ha
  · have h := mE_near hb hab n
    rw [hn] at h
    rcases h with ⟨h1, h2⟩
    have h3 : (b - (mE a b n).1) * a * 2 ≤ a := by linarith
    have h4 : -a ≤ (b - (mE a b n).1) * a * 2 := by linarith
    by_contra hne
    rcases lt_or_gt_of_ne hne with hlt | hgt
    · nlinarith
    · nlinarith
  · have : n = 0 := by omega
    subst this
    simp [mE]; omega

/-- The direction in which a coordinate moves. -/
def dirOf (d : Int) : Int := if d > 0 then 1 else -1

theorem dirOf_mul (d : Int) : dirOf d * |d| = d := by
  unfold dirOf
  split
  · rename_i h; rw [abs_of_pos h, one_mul]
  · rename_i h; rw [abs_of_nonpos (by omega)]; omega

/-- The k-th point. -/
def pt (x0 y0 x1 y1 : Int) (k : Nat) : Int × Int :=
  if |x1 - x0| > |y1 - y0| then
    (x0 + dirOf (x1 - x0) * k, y0 + dirOf (y1 - y0) * (mE |x1 - x0| |y1 - y0| k).1)
  else (x0 + dirOf (x1 - x0) * (mE |y1 - y0| |x1 - x0| k).1, y0 + dirOf (y1 - y0) * k)

/-- The object after k points. -/
def st (x0 y0 x1 y1 : Int) (k : Nat) : Dda :=
  { Dda.init x0 y0 x1 y1 with
    count := k, x := (pt x0 y0 x1 y1 k).1, y := (pt x0 y0 x1 y1 k).2,
    err := if |x1 - x0| > |y1 - y0| then (mE |x1 - x0| |y1 - y0| k).2 else (mE |y1 - y0| |x1 - x0| k).2 }

theorem st_zero (x0 y0 x1 y1 : Int) : st x0 y0 x1 y1 0 = Dda.init x0 y0 x1 y1 := by
  unfold st pt Dda.init
  by_cases h : |x1 - x0| > |y1 - y0| <;> simp [h, mE]

theorem next_st (x0 y0 x1 y1 : Int) (k : Nat) (hk : (k : Int) ≤ max |x1 - x0| |y1 - y0|) :
    (st x0 y0 x1 y1 k).next = (some (pt x0 y0 x1 y1 k), st x0 y0 x1 y1 (k + 1)) := by
  have hcount : ¬ ((k : Int) + 1 > 1 + max |x1 - x0| |y1 - y0|) := by omega
  have hab : |(|y1 - y0| - |x1 - x0|)| = if |x1 - x0| > |y1 - y0| then |x1 - x0| - |y1 - y0| else |y1 - y0| - |x1 - x0| := by
    split
    · rw [abs_of_nonpos (by omega)]; omega
    · rw [abs_of_nonneg (by omega)]
  by_cases h : |x1 - x0| > |y1 - y0|
  · have hst : st x0 y0 x1 y1 k = ⟨k, x0 + dirOf (x1 - x0) * k, y0 + dirOf (y1 - y0) * (mE |x1 - x0| |y1 - y0| k).1, x1 - x0, y1 - y0,
        (mE |x1 - x0| |y1 - y0| k).2, 2 * |y1 - y0|, 2 * (|x1 - x0| - |y1 - y0|), dirOf (y1 - y0), 1 + max |x1 - x0| |y1 - y0|, true⟩ := by
      simp only [st, pt, Dda.init, hab, if_pos h, dirOf]
      simp [h]
    have hst' : st x0 y0 x1 y1 (k + 1) = ⟨(k : Int) + 1, x0 + dirOf (x1 - x0) * ((k : Int) + 1), y0 + dirOf (y1 - y0) * (mE |x1 - x0| |y1 - y0| (k + 1)).1, x1 - x0, y1 - y0,
        (mE |x1 - x0| |y1 - y0| (k + 1)).2, 2 * |y1 - y0|, 2 * (|x1 - x0| - |y1 - y0|), dirOf (y1 - y0), 1 + max |x1 - x0| |y1 - y0|, true⟩ := by
      simp only [st, pt, Dda.init, hab, if_pos h, dirOf]
      simp [h]
    have hpt : pt x0 y0 x1 y1 k = (x0 + dirOf (x1 - x0) * k, y0 + dirOf (y1 - y0) * (mE |x1 - x0| |y1 - y0| k).1) := by
      simp only [pt, if_pos h]
    rw [hst, hst', hpt]
    unfold Dda.next
    simp only [if_neg hcount, if_true, Dda.updateX, mE]
    by_cases he : (mE |x1 - x0| |y1 - y0| k).2 > 0
    · simp only [if_pos he, Prod.mk.injEq, true_and, Dda.mk.injEq, and_true]
      simp only [dirOf]; constructor <;> ring
    · simp only [if_neg he, Prod.mk.injEq, true_and, Dda.mk.injEq, and_true]
      simp only [dirOf]; ring
  · have hst : st x0 y0 x1 y1 k = ⟨k, x0 + dirOf (x1 - x0) * (mE |y1 - y0| |x1 - x0| k).1, y0 + dirOf (y1 - y0) * k, x1 - x0, y1 - y0,
        (mE |y1 - y0| |x1 - x0| k).2, 2 * |x1 - x0|, 2 * (|y1 - y0| - |x1 - x0|), dirOf (x1 - x0), 1 + max |x1 - x0| |y1 - y0|, false⟩ := by
      simp only [st, pt, Dda.init, hab, if_neg h, dirOf]
      simpa using h
    have hst' : st x0 y0 x1 y1 (k + 1) = ⟨(k : Int) + 1, x0 + dirOf (x1 - x0) * (mE |y1 - y0| |x1 - x0| (k + 1)).1, y0 + dirOf (y1 - y0) * ((k : Int) + 1), x1 - x0, y1 - y0,
        (mE |y1 - y0| |x1 - x0| (k + 1)).2, 2 * |x1 - x0|, 2 * (|y1 - y0| - |x1 - x0|), dirOf (x1 - x0), 1 + max |x1 - x0| |y1 - y0|, false⟩ := by
      simp only [st, pt, Dda.init, hab, if_neg h, dirOf]
      simpa using h
    have hpt : pt x0 y0 x1 y1 k = (x0 + dirOf (x1 - x0) * (mE |y1 - y0| |x1 - x0| k).1, y0 + dirOf (y1 - y0) * k) := by
      simp only [pt, if_neg h]
    rw [hst, hst', hpt]
    unfold Dda.next
    simp only [if_neg hcount, Bool.false_eq_true, if_false, Dda.updateY, mE]
    by_cases he : (mE |y1 - y0| |x1 - x0| k).2 > 0
    · simp only [if_pos he, Prod.mk.injEq, true_and, Dda.mk.injEq, and_true]
      simp only [dirOf]; constructor <;> ring
    · simp only [if_neg he, Prod.mk.injEq, true_and, Dda.mk.injEq, and_true]
      simp only [dirOf]; ring

theorem next_end (x0 y0 x1 y1 : Int) (k : Nat) (hk : (k : Int) > max |x1 - x0| |y1 - y0|) :
    ((st x0 y0 x1 y1 k).next).1 = none := by
  have hcount : ((k : Int) + 1 > 1 + max |x1 - x0| |y1 - y0|) := by omega
  have h1 : (st x0 y0 x1 y1 k).count = k := rfl
  have h2 : (st x0 y0 x1 y1 k).length = 1 + max |x1 - x0| |y1 - y0| := rfl
  unfold Dda.next
  simp only [h1, h2, if_pos hcount]

theorem collect_st (x0 y0 x1 y1 : Int) (n : Nat) (hn : (n : Int) = max |x1 - x0| |y1 - y0|) :
    ∀ (j k f : Nat), k + j = n + 1 → f ≥ j + 1 →
      (st x0 y0 x1 y1 k).collect f = some ((List.range' k j).map (pt x0 y0 x1 y1)) := by
  intro j
  induction j with
  | zero =>
    intro k f hk hf
    obtain ⟨f, rfl⟩ : ∃ g, f = g + 1 := ⟨f - 1, by omega⟩
    have h := next_end x0 y0 x1 y1 k (by omega)
    unfold Dda.collect
    revert h
    generalize (st x0 y0 x1 y1 k).next = r
    rcases r with ⟨_ | _, _⟩
    · simp
    · simp
  | succ j ih =>
    intro k f hk hf
    obtain ⟨f, rfl⟩ : ∃ g, f = g + 1 := ⟨f - 1, by omega⟩
    unfold Dda.collect
    rw [next_st x0 y0 x1 y1 k (by omega)]
    simp only
    rw [ih (k + 1) f (by omega) (by omega)]
    simp [List.range'_succ]

theorem ddaLine_eq (x0 y0 x1 y1 : Int) (f n : Nat) (hn : (n : Int) = max |x1 - x0| |y1 - y0|) (hf : f ≥ n + 2) :
    ddaLine f x0 y0 x1 y1 = some ((List.range (n + 1)).map (pt x0 y0 x1 y1)) := by
  unfold ddaLine
  rw [← st_zero, collect_st x0 y0 x1 y1 n hn (n + 1) 0 f (by omega) (by omega), List.range_eq_range']

theorem pt_zero (x0 y0 x1 y1 : Int) : pt x0 y0 x1 y1 0 = (x0, y0) := by
  unfold pt; split <;> simp [mE]

theorem pt_end (x0 y0 x1 y1 : Int) (n : Nat) (hn : (n : Int) = max |x1 - x0| |y1 - y0|) : pt x0 y0 x1 y1 n = (x1, y1) := by
  unfold pt
  split
  · rename_i h
    have hm : (n : Int) = |x1 - x0| := by rw [hn]; exact max_eq_left h.le
    rw [mE_end (abs_nonneg _) h.le n hm, hm, dirOf_mul, dirOf_mul]
    simp
  · rename_i h
    have hm : (n : Int) = |y1 - y0| := by rw [hn]; exact max_eq_right (by omega)
    rw [mE_end (abs_nonneg _) (by omega) n hm, hm, dirOf_mul, dirOf_mul]
    simp

theorem dirOf_abs (d : Int) : |dirOf d| = 1 := by unfold dirOf; split <;> rfl

theorem near_aux (dx dy a b k m : Int) (h1 : -a ≤ 2 * (b * k - m * a)) (h2 : 2 * (b * k - m * a) ≤ a) (hx : dirOf dx * a = dx) (hy : dirOf dy * b = dy) :
    2 * |dx * (dirOf dy * m) - dy * (dirOf dx * k)| ≤ a := by
  have : dx * (dirOf dy * m) - dy * (dirOf dx * k) = (dirOf dx * dirOf dy) * (m * a - b * k) := by
    linear_combination (-(dirOf dy * m)) * hx + (dirOf dx * k) * hy
  rw [this, abs_mul, abs_mul, dirOf_abs, dirOf_abs, one_mul, one_mul]
  rw [show (2:Int) * |m * a - b * k| = |2 * (m * a - b * k)| by rw [abs_mul]; rfl, abs_le]
  constructor <;> linarith

theorem pt_near (x0 y0 x1 y1 : Int) (k : Nat) :
    2 * |(x1 - x0) * ((pt x0 y0 x1 y1 k).2 - y0) - (y1 - y0) * ((pt x0 y0 x1 y1 k).1 - x0)| ≤ max |x1 - x0| |y1 - y0| := by
  unfold pt
  split
  · rename_i h
    have hn := mE_near (abs_nonneg (y1 - y0)) h.le k
    rw [max_eq_left h.le]
    simp only [add_sub_cancel_left]
    exact near_aux _ _ _ _ _ _ hn.1 hn.2 (dirOf_mul _) (dirOf_mul _)
  · rename_i h
    have hn := mE_near (abs_nonneg (x1 - x0)) (not_lt.1 h) k
    rw [max_eq_right (not_lt.1 h)]
    simp only [add_sub_cancel_left]
    rw [abs_sub_comm]
    exact near_aux _ _ _ _ _ _ hn.1 hn.2 (dirOf_mul _) (dirOf_mul _)

end Eus.Geo
