import Verif.Lib.Spec
set_option autoImplicit false
/-
Lemmas for time.l.
-/
namespace Eus.Lib

theorem leap_small {y : Nat} (h1 : 1970 ≤ y) (h2 : y ≤ 2099) : isLeap y ↔ y % 4 = 0 := by
  unfold isLeap; omega

theorem tmod_nat (y k : Nat) : (y : Int).tmod (k : Int) = ((y % k : Nat) : Int) := rfl

theorem leapYearP_iff (y : Nat) : leapYearP (y : Int) = true ↔ isLeap y := by
  have e4 : (y : Int).tmod 4 = ((y % 4 : Nat) : Int) := tmod_nat y 4
  have e100 : (y : Int).tmod 100 = ((y % 100 : Nat) : Int) := tmod_nat y 100
  have e400 : (y : Int).tmod 400 = ((y % 400 : Nat) : Int) := tmod_nat y 400
  unfold leapYearP isLeap
  simp only [e4, e100, e400]
  simp
  omega

theorem daysOfYears_closed : ∀ k, k ≤ 130 → daysOfYears k = 365 * k + (k + 1) / 4
  | 0, _ => rfl
  | k + 1, h => by
    rw [daysOfYears, daysOfYears_closed k (by omega), yearLength]
    have := leap_small (y := 1970 + k) (by omega) (by omega)
    by_cases hl : isLeap (1970 + k)
    · rw [if_pos hl]; have := this.1 hl; omega
    · rw [if_neg hl]; have : ¬ (1970 + k) % 4 = 0 := fun h => hl (this.2 h); omega

theorem monthLoop_spec (md : List Int) (hlen : md.length = 12) : ∀ (n m : Nat) (d : Int), m ≤ 12 → 12 < n + m → 1 ≤ d →
    daysBefore md m + d ≤ daysBefore md 12 →
    ∃ m' d', monthLoop md n m d = some (m', d') ∧ m' < 12 ∧ 1 ≤ d' ∧ d' ≤ md.getD m' 0 ∧ daysBefore md m + d = daysBefore md m' + d'
  | 0, m, d, h1, h2, _, _ => by omega
  | n + 1, m, d, h1, h2, h3, h4 => by
    by_cases hm : m = 12
    · subst hm; omega
    · have hlt : m < md.length := by omega
      have e : md[m]? = some (md.getD m 0) := by
        rw [List.getElem?_eq_getElem hlt]; simp [List.getElem?_eq_getElem hlt]
      simp only [monthLoop, e]
      by_cases hd : d > md.getD m 0
      · rw [if_pos hd]
        obtain ⟨m', d', q1, q2, q3, q4, q5⟩ := monthLoop_spec md hlen n (m + 1) (d - md.getD m 0) (by omega) (by omega) (by omega)
          (by rw [show daysBefore md (m + 1) = md.getD m 0 + daysBefore md m from rfl]; omega)
        refine ⟨m', d', q1, q2, q3, q4, ?_⟩
        rw [show daysBefore md (m + 1) = md.getD m 0 + daysBefore md m from rfl] at q5; omega
      · rw [if_neg hd]
        exact ⟨m, d, rfl, by omega, h3, by omega, rfl⟩

theorem getD_monthDays (y : Nat) (feb : Int) (hf : feb = monthLength y 2) : ∀ m, m < 12 → (monthDays feb).getD m 0 = monthLength y (m + 1)
  | 0, _ | 2, _ | 3, _ | 4, _ | 5, _ | 6, _ | 7, _ | 8, _ | 9, _ | 10, _ | 11, _ => by simp [monthDays, monthLength]
  | 1, _ => by simp [monthDays, hf]
  | m + 12, h => by omega

theorem daysBefore_eq (y : Nat) (feb : Int) (hf : feb = monthLength y 2) : ∀ m, m ≤ 12 → daysBefore (monthDays feb) m = daysOfMonths y m
  | 0, _ => rfl
  | m + 1, h => by
    rw [daysBefore, daysOfMonths, daysBefore_eq y feb hf m (by omega), getD_monthDays y feb hf m (by omega)]
    omega

theorem daysOfMonths_year (y : Nat) : daysOfMonths y 12 = yearLength y := by
  simp only [daysOfMonths, monthLength, yearLength]
  by_cases h : isLeap y <;> simp [h]

/-- The year and the day in it, as found by time.l:326-333. -/
theorem year_split (D : Nat) (hD : D < daysOfYears 131) :
    ∃ k q : Nat, k ≤ 130 ∧ D = daysOfYears k + q ∧ q < yearLength (1970 + k) ∧
      splitYear D = ((q : Int), (k : Int)) := by
  have e131 : daysOfYears 131 = 47847 := by decide +kernel
  rw [e131] at hD
  have e : (D : Int).tdiv (365 + 365 + 365 + 366) = ((D / 1461 : Nat) : Int) := rfl
  have hl : D / 1461 ≤ 32 := by omega
  have hyl : ∀ k, k ≤ 129 → yearLength (1970 + k) = if (1970 + k) % 4 = 0 then 366 else 365 := fun k hk => by
    have := leap_small (y := 1970 + k) (by omega) (by omega)
    simp only [yearLength, this]
  have hyl2 : yearLength (1970 + 130) = 365 := by decide
  simp only [splitYear, e]
  by_cases h1 : D % 1461 < 365
  · refine ⟨4 * (D / 1461), D % 1461, by omega, ?_, ?_, ?_⟩
    · rw [daysOfYears_closed _ (by omega)]; omega
    · rw [hyl _ (by omega)]; split <;> omega
    · have a1 : ¬ ((D : Int) - ((D / 1461 : Nat) : Int) * (365 + 365 + 365 + 366) ≥ 365) := by omega
      have a2 : ¬ ((D : Int) - ((D / 1461 : Nat) : Int) * (365 + 365 + 365 + 366) ≥ 366) := by omega
      simp only [a1, a2, if_false, Prod.mk.injEq]; omega
  · by_cases h2 : D % 1461 < 730
    · refine ⟨4 * (D / 1461) + 1, D % 1461 - 365, by omega, ?_, ?_, ?_⟩
      · rw [daysOfYears_closed _ (by omega)]; omega
      · rw [hyl _ (by omega)]; split <;> omega
      · have a0 : (D : Int) - ((D / 1461 : Nat) : Int) * (365 + 365 + 365 + 366) ≥ 365 := by omega
        have a1 : ¬ ((D : Int) - ((D / 1461 : Nat) : Int) * (365 + 365 + 365 + 366) - 365 ≥ 365) := by omega
        have a2 : ¬ ((D : Int) - ((D / 1461 : Nat) : Int) * (365 + 365 + 365 + 366) - 365 ≥ 366) := by omega
        simp only [a0, a1, a2, if_false, if_true, Prod.mk.injEq]; omega
    · by_cases h3 : D % 1461 < 1096
      · refine ⟨4 * (D / 1461) + 2, D % 1461 - 730, by omega, ?_, ?_, ?_⟩
        · rw [daysOfYears_closed _ (by omega)]; omega
        · by_cases h4 : 4 * (D / 1461) + 2 ≤ 129
          · rw [hyl _ h4]; split <;> omega
          · have : 4 * (D / 1461) + 2 = 130 := by omega
            rw [this, hyl2]; omega
        · have a0 : (D : Int) - ((D / 1461 : Nat) : Int) * (365 + 365 + 365 + 366) ≥ 365 := by omega
          have a1 : (D : Int) - ((D / 1461 : Nat) : Int) * (365 + 365 + 365 + 366) - 365 ≥ 365 := by omega
          have a2 : ¬ ((D : Int) - ((D / 1461 : Nat) : Int) * (365 + 365 + 365 + 366) - 365 - 365 ≥ 366) := by omega
          simp only [a0, a1, a2, if_false, if_true, Prod.mk.injEq]; omega
      · refine ⟨4 * (D / 1461) + 3, D % 1461 - 1096, by omega, ?_, ?_, ?_⟩
        · rw [daysOfYears_closed _ (by omega)]; omega
        · rw [hyl _ (by omega)]; split <;> omega
        · have a0 : (D : Int) - ((D / 1461 : Nat) : Int) * (365 + 365 + 365 + 366) ≥ 365 := by omega
          have a1 : (D : Int) - ((D / 1461 : Nat) : Int) * (365 + 365 + 365 + 366) - 365 ≥ 365 := by omega
          have a2 : (D : Int) - ((D / 1461 : Nat) : Int) * (365 + 365 + 365 + 366) - 365 - 365 ≥ 366 := by omega
          simp only [a0, a1, a2, if_true, Prod.mk.injEq]; omega

theorem clock_split (n : Nat) : n = 86400 * (n / 86400) + 3600 * (n % 86400 / 3600) + 60 * (n % 3600 / 60) + n % 60 := by
  have h1 : n % 86400 % 3600 = n % 3600 := Nat.mod_mod_of_dvd n ⟨24, rfl⟩
  have h2 : n % 3600 % 60 = n % 60 := Nat.mod_mod_of_dvd n ⟨60, rfl⟩
  omega

theorem clock_split' (n : Nat) : (n : Int) - ((n / 86400 : Nat) : Int) * 86400 - ((n % 86400 / 3600 : Nat) : Int) * 3600 - ((n % 3600 / 60 : Nat) : Int) * 60 = ((n % 60 : Nat) : Int) := by
  have := clock_split n
  generalize n / 86400 = A at *
  generalize n % 86400 / 3600 = B at *
  generalize n % 3600 / 60 = C at *
  generalize n % 60 = E at *
  omega

theorem calInit_spec (n : Nat) (tz : Int) (h : n < daysOfYears 131 * 86400) :
    ∃ c t, calInit ((n : Int) + tz) tz = some c ∧ c.shows t ∧ t.valid ∧ t.seconds = n ∧ c.weekday = t.weekday ∧ c.total = n := by
  obtain ⟨k, q, hk, hD, hq, hp⟩ := year_split (n / 86400) (by omega)
  have hs : (n : Int) + tz - tz = n := by omega
  have hfeb : (if leapYearP (((1970 + k : Nat) : Int)) then (29 : Int) else 28) = monthLength (1970 + k) 2 := by
    have := leapYearP_iff (1970 + k)
    by_cases hl : isLeap (1970 + k)
    · rw [this.2 hl]; simp [monthLength, hl]
    · have : leapYearP ((1970 + k : Nat) : Int) = false := by
        cases h : leapYearP ((1970 + k : Nat) : Int) with
        | false => rfl
        | true => exact absurd (this.1 h) hl
      simp only [this, monthLength, hl]; simp
  have hdb := daysBefore_eq (1970 + k) _ hfeb
  obtain ⟨m, d, q1, q2, q3, q4, q5⟩ := monthLoop_spec (monthDays (if leapYearP (((1970 + k : Nat) : Int)) then (29 : Int) else 28)) rfl 13 0 ((q : Int) + 1)
    (by omega) (by omega) (by omega) (by rw [hdb 12 (by omega), daysOfMonths_year]; simp only [daysBefore]; omega)
  rw [getD_monthDays (1970 + k) _ hfeb m q2] at q4
  rw [hdb m (by omega)] at q5
  simp only [daysBefore] at q5
  have ed : (n : Int).tdiv 86400 = ((n / 86400 : Nat) : Int) := rfl
  have eh : ((n : Int) - ((n / 86400 : Nat) : Int) * 86400).tdiv 3600 = ((n % 86400 / 3600 : Nat) : Int) := by
    have : (n : Int) - ((n / 86400 : Nat) : Int) * 86400 = ((n % 86400 : Nat) : Int) := by omega
    rw [this]; rfl
  have em : ((n : Int) - ((n / 86400 : Nat) : Int) * 86400 - ((n % 86400 / 3600 : Nat) : Int) * 3600).tdiv 60 = ((n % 3600 / 60 : Nat) : Int) := by
    have : (n : Int) - ((n / 86400 : Nat) : Int) * 86400 - ((n % 86400 / 3600 : Nat) : Int) * 3600 = ((n % 3600 : Nat) : Int) := by omega
    rw [this]; rfl
  have ew : (((n / 86400 : Nat) : Int) + 4).tmod 7 = (((n / 86400 + 4) % 7 : Nat) : Int) := rfl
  have hdn : dayNumber (1970 + k) (m + 1) d.toNat = n / 86400 := by
    simp only [dayNumber]
    rw [show 1970 + k - 1970 = k by omega, show m + 1 - 1 = m by omega]
    omega
  refine ⟨⟨((1970 + k : Nat) : Int), m, d, ((n % 86400 / 3600 : Nat) : Int), ((n % 3600 / 60 : Nat) : Int), ((n % 60 : Nat) : Int), (((n / 86400 + 4) % 7 : Nat) : Int), n⟩,
    ⟨1970 + k, m + 1, d.toNat, n % 86400 / 3600, n % 3600 / 60, n % 60⟩, ?_, ?_, ?_, ?_, ?_, rfl⟩
  · simp only [calInit, hs, ed, eh, em, ew]
    simp only [hp]
    rw [show (k : Int) + 1970 = ((1970 + k : Nat) : Int) by omega, q1]
    simp only [Option.map_some, Option.some.injEq, Cal.mk.injEq, true_and]
    refine ⟨?_, trivial⟩
    exact clock_split' n
  · refine ⟨rfl, rfl, ?_, rfl, rfl, rfl⟩
    simp; omega
  · refine ⟨?_, ?_, ?_, ?_, ?_, ?_, ?_, ?_⟩ <;> simp only <;> omega
  · simp only [Moment.seconds, hdn]; omega
  · simp only [Moment.weekday, hdn]

theorem compute_spec (clock : Int) (t : Moment) (hv : t.valid) (hy : t.year ≤ 2099) (hc : clock.tmod 4 = 0 ↔ isLeap t.year) :
    computeSeconds clock t.year (t.month - 1) t.day t.hour t.minute t.second = t.seconds := by
  obtain ⟨h1, h2, h3, h4, h5, h6, h7, h8⟩ := hv
  have hf : (if clock.tmod 4 = 0 then (29 : Int) else 28) = monthLength t.year 2 := by
    simp only [monthLength, hc]
    by_cases hl : isLeap t.year <;> simp [hl]
  have hd := daysBefore_eq t.year _ hf (t.month - 1) (by omega)
  have hn : daysOfYears (t.year - 1970) = 365 * (t.year - 1970) + (t.year - 1970 + 1) / 4 := daysOfYears_closed _ (by omega)
  have e : ((t.year : Int) - 1970 + 1).tdiv 4 = (((t.year - 1970 + 1) / 4 : Nat) : Int) := by
    have : (t.year : Int) - 1970 + 1 = ((t.year - 1970 + 1 : Nat) : Int) := by omega
    rw [this]; rfl
  simp only [computeSeconds, yearDay, hd, e, Moment.seconds, dayNumber, hn]
  omega

theorem daysOfMonths_mono (y k : Nat) : ∀ j, daysOfMonths y k ≤ daysOfMonths y (k + j)
  | 0 => Nat.le_refl _
  | j + 1 => Nat.le_trans (daysOfMonths_mono y k j) (Nat.le_add_right _ _)

theorem daysOfYears_mono (k : Nat) : ∀ j, daysOfYears k ≤ daysOfYears (k + j)
  | 0 => Nat.le_refl _
  | j + 1 => Nat.le_trans (daysOfYears_mono k j) (Nat.le_add_right _ _)

theorem months_lt {y m d : Nat} (h1 : 1 ≤ m) (h2 : m ≤ 12) (h3 : 1 ≤ d) (h4 : d ≤ monthLength y m) :
    daysOfMonths y (m - 1) + (d - 1) < yearLength y := by
  have h := daysOfMonths_mono y m (12 - m)
  rw [show m + (12 - m) = 12 by omega, daysOfMonths_year] at h
  have e : daysOfMonths y m = daysOfMonths y (m - 1) + monthLength y m := by
    obtain ⟨k, rfl⟩ : ∃ k, m = k + 1 := ⟨m - 1, by omega⟩
    rfl
  omega

theorem month_inj {y m d m' d' : Nat} (h1 : 1 ≤ m) (h3 : 1 ≤ d) (h4 : d ≤ monthLength y m) (k1 : 1 ≤ m') (k3 : 1 ≤ d')
    (h : daysOfMonths y (m - 1) + (d - 1) = daysOfMonths y (m' - 1) + (d' - 1)) : m' ≤ m := by
  refine Classical.byContradiction fun hc => ?_
  have hm := daysOfMonths_mono y m (m' - 1 - m)
  rw [show m + (m' - 1 - m) = m' - 1 by omega] at hm
  have e : daysOfMonths y m = daysOfMonths y (m - 1) + monthLength y m := by
    obtain ⟨k, rfl⟩ : ∃ k, m = k + 1 := ⟨m - 1, by omega⟩
    rfl
  omega

theorem year_inj {y y' q q' : Nat} (h1 : 1970 ≤ y) (h2 : q < yearLength y) (k1 : 1970 ≤ y')
    (h : daysOfYears (y - 1970) + q = daysOfYears (y' - 1970) + q') : y' ≤ y := by
  refine Classical.byContradiction fun hc => ?_
  have hm := daysOfYears_mono (y - 1970 + 1) (y' - y - 1)
  rw [show y - 1970 + 1 + (y' - y - 1) = y' - 1970 by omega] at hm
  have e : daysOfYears (y - 1970 + 1) = daysOfYears (y - 1970) + yearLength y := by
    rw [daysOfYears, show 1970 + (y - 1970) = y by omega]
  omega

theorem day_inj {y m d y' m' d' : Nat} (h0 : 1970 ≤ y) (h1 : 1 ≤ m) (h2 : m ≤ 12) (h3 : 1 ≤ d) (h4 : d ≤ monthLength y m)
    (k0 : 1970 ≤ y') (k1 : 1 ≤ m') (k2 : m' ≤ 12) (k3 : 1 ≤ d') (k4 : d' ≤ monthLength y' m')
    (h : dayNumber y m d = dayNumber y' m' d') : y = y' ∧ m = m' ∧ d = d' := by
  simp only [dayNumber, Nat.add_assoc] at h
  have hy : y = y' := Nat.le_antisymm (year_inj k0 (months_lt k1 k2 k3 k4) h0 h.symm) (year_inj h0 (months_lt h1 h2 h3 h4) k0 h)
  subst hy
  have h := Nat.add_left_cancel h
  have hm : m = m' := Nat.le_antisymm (month_inj k1 k3 k4 h1 h3 h.symm) (month_inj h1 h3 h4 k1 k3 h)
  subst hm
  exact ⟨rfl, rfl, by omega⟩

/-- The seconds determine the moment. -/
theorem Moment.inj {t t' : Moment} (h : t.valid) (h' : t'.valid) (e : t.seconds = t'.seconds) : t = t' := by
  obtain ⟨h0, h1, h2, h3, h4, h5, h6, h7⟩ := h
  obtain ⟨k0, k1, k2, k3, k4, k5, k6, k7⟩ := h'
  simp only [Moment.seconds] at e
  have e1 : dayNumber t.year t.month t.day = dayNumber t'.year t'.month t'.day ∧ t.hour = t'.hour ∧ t.minute = t'.minute ∧ t.second = t'.second := by
    generalize dayNumber t.year t.month t.day = A at *
    generalize dayNumber t'.year t'.month t'.day = B at *
    have a : t.second = t'.second := by omega
    have b : t.minute = t'.minute := by omega
    have c : t.hour = t'.hour := by omega
    exact ⟨by omega, c, b, a⟩
  have e2 := day_inj h0 h1 h2 h3 h4 k0 k1 k2 k3 k4 e1.1
  cases t; cases t'
  simp only at e1 e2
  simp [e1.2.1, e1.2.2.1, e1.2.2.2, e2.1, e2.2.1, e2.2.2]

end Eus.Lib
