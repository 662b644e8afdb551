import Verif.Itv.Model
import Verif.Itv.Spec
set_option autoImplicit false
/-
C228.
-/
namespace Eus.Itv

theorem tdiv60 (n : Int) : (0 ≤ n → 0 ≤ n.tdiv 60 ∧ 0 ≤ n - 60 * n.tdiv 60 ∧ n - 60 * n.tdiv 60 < 60) ∧
    (n ≤ 0 → n.tdiv 60 ≤ 0 ∧ n - 60 * n.tdiv 60 ≤ 0 ∧ -60 < n - 60 * n.tdiv 60) := by
  constructor
  · intro h
    rw [Int.tdiv_eq_ediv_of_nonneg h]
    omega
  · intro h
    have e : n.tdiv 60 = -((-n).tdiv 60) := by rw [Int.neg_tdiv, Int.neg_neg]
    rw [e, Int.tdiv_eq_ediv_of_nonneg (by omega)]
    omega

theorem tmod60 (n : Int) : n.tmod 60 = n - 60 * n.tdiv 60 := by
  have := Int.tmod_add_mul_tdiv n 60
  omega

/-- the numbers in the interval, by the total -/
theorem make_parts (y mo d h mi s us : Int) : let r := make y mo d h mi s us
    (0 ≤ r.total → 0 ≤ r.days ∧ 0 ≤ r.hours ∧ r.hours < 60 ∧ 0 ≤ r.minutes ∧ r.minutes < 60 ∧ 0 ≤ r.seconds ∧ r.seconds < 60) ∧
    (r.total ≤ 0 → r.days ≤ 0 ∧ r.hours ≤ 0 ∧ -60 < r.hours ∧ r.minutes ≤ 0 ∧ -60 < r.minutes ∧ r.seconds ≤ 0 ∧ -60 < r.seconds) ∧
    r.total = ((r.days * 60 + r.hours) * 60 + r.minutes) * 60 + r.seconds := by
  simp only [make]
  generalize s + 60 * (mi + 60 * (h + 24 * (d + 30 * (mo + 12 * y)))) = n
  have h1 := tdiv60 n
  have h2 := tdiv60 (n.tdiv 60)
  have h3 := tdiv60 ((n.tdiv 60).tdiv 60)
  rw [tmod60]
  generalize n.tdiv 60 = a at *
  generalize a.tdiv 60 = b at *
  generalize b.tdiv 60 = c at *
  omega

/-- C228.  The total is that of the parts given, with 30 days for a month and 12 months for a year; and for less than a day the hours, minutes and seconds shown
are right, for negative intervals too. -/
theorem C228_parts_partial (y mo d h mi s us : Int) : let r := make y mo d h mi s us
    r.total = 86400 * (360 * y + 30 * mo + d) + 3600 * h + 60 * mi + s ∧ r.micros = us ∧
    (-86400 < r.total → r.total < 86400 → r.days = 0 ∧ Shows r.total 0 r.hours r.minutes r.seconds) := by
  obtain ⟨h1, h2, h3⟩ := make_parts y mo d h mi s us
  refine ⟨?_, rfl, ?_⟩
  · simp only [make]; omega
  · intro ha hb
    unfold Shows
    generalize make y mo d h mi s us = r at *
    rcases Int.le_total 0 r.total with q | q
    · have := h1 q
      have h0 : r.days = 0 := by omega
      exact ⟨h0, by omega, Or.inl (by omega)⟩
    · have := h2 q
      have h0 : r.days = 0 := by omega
      exact ⟨h0, by omega, Or.inr (by omega)⟩

/-- C228.  From one day on, what is shown is never right: the hours are divided by 60, not by 24, for the days. -/
theorem C228_days_wrong (y mo d h mi s us : Int) : let r := make y mo d h mi s us
    (86400 ≤ r.total ∨ r.total ≤ -86400) → ¬ Shows r.total r.days r.hours r.minutes r.seconds := by
  obtain ⟨h1, h2, h3⟩ := make_parts y mo d h mi s us
  simp only [Shows]
  generalize make y mo d h mi s us = r at *
  intro hr hs
  rcases Int.le_total 0 r.total with q | q
  · have := h1 q
    omega
  · have := h2 q
    omega

/-- C228.  The hours, minutes and seconds determine the total, with 60 hours for each of the "days". -/
theorem C228_total (y mo d h mi s us : Int) : let r := make y mo d h mi s us
    r.total = ((r.days * 60 + r.hours) * 60 + r.minutes) * 60 + r.seconds := (make_parts y mo d h mi s us).2.2

/-- C228.  Adding and subtracting intervals always fails: :init is sent two arguments and takes one. -/
theorem C228_add_wrong (a b : Interval) : add a b = none ∧ subtract a b = none := by
  refine ⟨rfl, ?_⟩
  unfold subtract
  simp only
  split <;> rfl

example : let r := make 0 0 0 1 30 5 0; r.days = 0 ∧ r.hours = 1 ∧ r.minutes = 30 ∧ r.seconds = 5 := by decide
example : let r := make 0 0 3 1 0 0 0; r.days = 1 ∧ r.hours = 13 := by decide

end Eus.Itv
