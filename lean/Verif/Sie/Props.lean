import Verif.Sie.Model
import Mathlib.Data.Nat.Prime.Basic
import Mathlib.Tactic.Ring
import Mathlib.Tactic.Linarith
set_option autoImplicit false
/-
C222.  The specification is `Nat.Prime`.
-/
namespace Eus.Sie

open Classical in
theorem strike_spec (n i : Nat) (a : List Bool) (j : Nat) (hl : a.length = n) (hi : 0 < i) :
    ∃ b, strike n i a j = some b ∧ b.length = n ∧
      ∀ k, k < n → b[k]? = if ∃ m, k = j + m * i then some false else a[k]? := by
  fun_induction strike n i a j with
  | case1 a j h b hb ih =>
    have hjl : j < a.length := by omega
    simp only [setAt, if_pos hjl, Option.some.injEq] at hb
    subst hb
    obtain ⟨c, h1, h2, h3⟩ := ih (by simp [hl])
    refine ⟨c, h1, h2, ?_⟩
    intro k hk
    rw [h3 k hk]
    by_cases hm : ∃ m, k = j + i + m * i
    · rw [if_pos hm, if_pos]
      obtain ⟨m, hm⟩ := hm
      exact ⟨m + 1, by rw [hm]; ring⟩
    · rw [if_neg hm]
      by_cases hkj : k = j
      · rw [if_pos ⟨0, by omega⟩, hkj, List.getElem?_set_self hjl]
      · rw [List.getElem?_set_ne (fun e => hkj e.symm), if_neg]
        rintro ⟨m, hm'⟩
        cases m with
        | zero => exact hkj (by omega)
        | succ m => exact hm ⟨m, by rw [hm']; ring⟩
  | case2 a j h hb =>
    have hjl : j < a.length := by omega
    simp [setAt, hjl] at hb
  | case3 a j h =>
    refine ⟨a, rfl, hl, ?_⟩
    intro k hk
    rw [if_neg]
    rintro ⟨m, hm⟩
    have : ¬ j < n := fun hj => h ⟨hj, hi⟩
    have := Nat.zero_le (m * i)
    omega

/-- before i, everything with a divisor below i is struck out -/
def Struck (n : Nat) (a : List Bool) (i : Nat) : Prop :=
  a.length = n ∧ ∀ k, 2 ≤ k → k < n → ∃ v, a[k]? = some v ∧ (v = true ↔ ∀ d, 2 ≤ d → d < i → d ∣ k → d = k)

theorem sieve_spec (n e : Nat) (a : List Bool) (i : Nat) (he : e ≤ n) (h2 : 2 ≤ i) (h : Struck n a i) :
    ∃ b, sieve n e a i = some b ∧ Struck n b (max e i) := by
  fun_induction sieve n e a i with
  | case1 a i hi ha =>
    obtain ⟨v, hv, _⟩ := h.2 i h2 (by omega)
    rw [hv] at ha
    exact absurd ha (by simp)
  | case2 a i hi ha b hb ih =>
    obtain ⟨c, h1, h3, h4⟩ := strike_spec n i a (i + i) h.1 (by omega)
    rw [h1, Option.some.injEq] at hb
    subst hb
    have hs : Struck n c (i + 1) := by
      refine ⟨h3, ?_⟩
      intro k hk hkn
      rw [h4 k hkn]
      by_cases hm : ∃ m, k = i + i + m * i
      · rw [if_pos hm]
        refine ⟨false, rfl, ?_⟩
        simp only [Bool.false_eq_true, false_iff]
        intro hall
        obtain ⟨m, hm⟩ := hm
        have hki : i ∣ k := ⟨m + 2, by rw [hm]; ring⟩
        have := hall i h2 (by omega) hki
        have := Nat.zero_le (m * i)
        omega
      · rw [if_neg hm]
        obtain ⟨v, hv, hvi⟩ := h.2 k hk hkn
        refine ⟨v, hv, hvi.trans ⟨?_, fun ha d h5 h6 h7 => ha d h5 (by omega) h7⟩⟩
        intro ha d h5 h6 h7
        by_cases hdi : d = i
        · subst hdi
          obtain ⟨m, hm'⟩ := h7
          rcases m with _ | _ | m
          · omega
          · omega
          · exact absurd ⟨m, by rw [hm']; ring⟩ hm
        · exact ha d h5 (by omega) h7
    obtain ⟨b, h5, h6⟩ := ih (by omega) hs
    refine ⟨b, h5, ?_⟩
    rwa [show max e (i + 1) = max e i by omega] at h6
  | case3 a i hi ha hb =>
    obtain ⟨c, h1, _⟩ := strike_spec n i a (i + i) h.1 (by omega)
    rw [h1] at hb
    exact absurd hb (by simp)
  | case4 a i hi ha ih =>
    have hs : Struck n a (i + 1) := by
      refine ⟨h.1, ?_⟩
      intro k hk hkn
      obtain ⟨v, hv, hvi⟩ := h.2 k hk hkn
      refine ⟨v, hv, hvi.trans ⟨?_, fun ha d h5 h6 h7 => ha d h5 (by omega) h7⟩⟩
      intro hall d h5 h6 h7
      by_cases hdi : d = i
      · subst hdi
        obtain ⟨u, hu, hui⟩ := h.2 d h2 (by omega)
        rw [ha, Option.some.injEq] at hu
        subst hu
        simp only [Bool.false_eq_true, false_iff] at hui
        exfalso
        apply hui
        intro c h8 h9 h10
        have h11 := hall c h8 h9 (h10.trans h7)
        subst h11
        exact Nat.dvd_antisymm h10 h7
      · exact hall d h5 (by omega) h7
    obtain ⟨b, h5, h6⟩ := ih (by omega) hs
    refine ⟨b, h5, ?_⟩
    rwa [show max e (i + 1) = max e i by omega] at h6
  | case5 a i hi =>
    refine ⟨a, rfl, ?_⟩
    rwa [show max e i = i by omega]

theorem collect_spec (n : Nat) (a : List Bool) (i : Nat) (r : List Nat) (P : Nat → Bool)
    (h : ∀ k, i ≤ k → k < n → a[k]? = some (P k)) :
    collect n a i r = some (((List.range' i (n - i)).filter P).reverse ++ r) := by
  fun_induction collect n a i r with
  | case1 i r hi ha => rw [h i (by omega) hi] at ha; exact absurd ha (by simp)
  | case2 i r hi ha ih =>
    rw [h i (by omega) hi, Option.some.injEq] at ha
    rw [ih fun k h1 h2 => h k (by omega) h2, show n - i = (n - (i + 1)) + 1 by omega, List.range'_succ, List.filter_cons_of_pos ha]
    simp
  | case3 i r hi ha ih =>
    rw [h i (by omega) hi, Option.some.injEq] at ha
    rw [ih fun k h1 h2 => h k (by omega) h2, show n - i = (n - (i + 1)) + 1 by omega, List.range'_succ,
      List.filter_cons_of_neg (by simp [ha])]
  | case4 i r hi =>
    rw [show n - i = 0 by omega]
    simp

theorem ceilSqrt_spec (n : Nat) : n ≤ ceilSqrt n * ceilSqrt n ∧ ceilSqrt n ≤ n := by
  unfold ceilSqrt
  cases h : (List.range (n + 1)).find? fun k => decide (n ≤ k * k) with
  | none =>
    rw [Option.getD_none]
    exact ⟨Nat.le_mul_self n, le_refl n⟩
  | some k =>
    have h1 := List.find?_some h
    have h2 := List.mem_of_find?_eq_some h
    simp only [decide_eq_true_eq] at h1
    rw [List.mem_range] at h2
    exact ⟨h1, by simp only [Option.getD_some]; omega⟩

/-- C222.  For n from 4 on, `(prime n)` is the list of all primes below n, the greatest first. -/
theorem C222_primes_partial (n : Nat) (hn : 4 ≤ n) :
    prime n = some ((List.range n).filter fun k => decide k.Prime).reverse := by
  obtain ⟨hs1, hs2⟩ := ceilSqrt_spec n
  have e1 : setAt (List.replicate n true) 2 true = some (List.replicate n true) := by
    simp only [setAt, List.length_replicate, if_pos (show 2 < n by omega), Option.some.injEq]
    apply List.ext_getElem <;> simp [List.getElem_set]
  have e2 : setAt (List.replicate n true) 3 true = some (List.replicate n true) := by
    simp only [setAt, List.length_replicate, if_pos (show 3 < n by omega), Option.some.injEq]
    apply List.ext_getElem <;> simp [List.getElem_set]
  have h0 : Struck n (List.replicate n true) 2 := by
    refine ⟨by simp, ?_⟩
    intro k _ hk
    exact ⟨true, by simp [List.getElem?_replicate, hk], by simp; intro d h1 h2; omega⟩
  obtain ⟨b, hb, hb1, hb2⟩ := sieve_spec n (ceilSqrt n) _ 2 hs2 (le_refl 2) h0
  have hP : ∀ k, 2 ≤ k → k < n → b[k]? = some (decide k.Prime) := by
    intro k h1 h2
    obtain ⟨v, hv, hvi⟩ := hb2 k h1 h2
    rw [hv, Option.some.injEq, Bool.eq_iff_iff, hvi, decide_eq_true_eq]
    constructor
    · intro hall
      by_contra hp
      have h3 := Nat.minFac_sq_le_self (by omega) hp
      have h4 : k.minFac < ceilSqrt n := by nlinarith
      have h5 := hall k.minFac (Nat.minFac_prime (by omega)).two_le (by omega) (Nat.minFac_dvd k)
      rw [h5] at h3
      nlinarith
    · intro hp d h3 _ h5
      rcases (Nat.dvd_prime hp).1 h5 with h6 | h6
      · omega
      · exact h6
  unfold prime
  rw [e1]
  simp only
  rw [e2]
  simp only
  rw [hb]
  simp only
  rw [collect_spec n b 2 [] (fun k => decide k.Prime) hP, List.append_nil, Option.some.injEq]
  congr 1
  rw [List.range_eq_range', show n = 2 + (n - 2) by omega, ← List.range'_append_1, List.filter_append]
  simp [List.range'_succ, Nat.not_prime_zero, Nat.not_prime_one]

/-- C222 fails below 4: `(prime 3)` is an error, although 2 is a prime below 3. -/
theorem C222_small_wrong : ∀ n, n < 4 → prime n = none := by decide

example : prime 20 = some [19, 17, 13, 11, 7, 5, 3, 2] := by decide +kernel

end Eus.Sie
