import Verif.Rd.Spec
import Verif.Num.Chain
import Verif.Num.Arith
import Mathlib.Tactic.SplitIfs
set_option autoImplicit false
namespace Eus.Rd
open Eus.Num

/-! ### digits -/

theorem posVal_snoc (base : Nat) (ds : List Nat) (d : Nat) :
    posVal base (ds ++ [d]) = posVal base ds * base + d := by
  induction ds with
  | nil => simp [posVal]
  | cons a l ih =>
    simp only [List.cons_append, posVal, ih, List.length_append, List.length_singleton, pow_succ]
    ring

theorem posVal_lt (base : Nat) (ds : List Nat) (h : ∀ d ∈ ds, d < base) :
    posVal base ds < base ^ ds.length ∨ ds = [] ∧ posVal base ds = 0 := by
  induction ds with
  | nil => right; simp [posVal]
  | cons a l ih =>
    left
    have ha := h a (by simp)
    have hl := ih (fun d hd => h d (by simp [hd]))
    simp only [posVal, List.length_cons, pow_succ]
    have hb : 0 < base ^ l.length := Nat.pow_pos (by omega)
    have : posVal base l < base ^ l.length := by
      rcases hl with hl | ⟨rfl, hl⟩
      · exact hl
      · rw [hl]; exact hb
    calc a * base ^ l.length + posVal base l < a * base ^ l.length + base ^ l.length := by omega
      _ = (a + 1) * base ^ l.length := by ring
      _ ≤ base * base ^ l.length := Nat.mul_le_mul_right _ ha
      _ = _ := by ring

theorem digitChar_code (down : Bool) (d : Nat) (h : d < 36) : DigitCode (digitChar down d) d := by
  unfold DigitCode digitChar
  by_cases h1 : d < 10
  · simp [h1]
  · cases down <;> simp [h1] <;> omega

theorem digitVal_code (c d : Nat) (h : DigitCode c d) : digitVal c = some d := by
  unfold digitVal
  rcases h with ⟨h1, rfl⟩ | ⟨h1, h2, rfl | rfl⟩
  · rw [if_pos (by omega)]; congr 1; omega
  · rw [if_neg (by omega), if_pos (by omega)]; congr 1; omega
  · rw [if_neg (by omega), if_neg (by omega), if_pos (by omega)]; congr 1; omega

/-- the characters of numerals are constituents, and upcasing keeps their value -/
theorem code_props (c d : Nat) (h : DigitCode c d) :
    syntaxtype c = .constituent ∧ c ≠ 58 ∧ c ≠ 46 ∧ c ≠ 43 ∧ c ≠ 45 ∧ c ≠ 59 ∧ c < 128 ∧
    DigitCode (to_upper c) d ∧ (∀ base, d < base → is_digit base (to_upper c) = true) := by
  have hs : (48 ≤ c ∧ c ≤ 57) ∨ (65 ≤ c ∧ c ≤ 90) ∨ (97 ≤ c ∧ c ≤ 122) := by
    rcases h with ⟨h1, rfl⟩ | ⟨h1, h2, rfl | rfl⟩ <;> omega
  refine ⟨?_, by omega, by omega, by omega, by omega, by omega, by omega, ?_, ?_⟩
  · unfold syntaxtype chartype
    rw [if_neg (by omega), if_neg (by omega), if_neg (by omega), if_neg (by omega), if_neg (by omega),
      if_neg (by omega), if_neg (by omega), if_neg (by omega)]
  · unfold to_upper islower
    rcases h with ⟨h1, rfl⟩ | ⟨h1, h2, rfl | rfl⟩
    · rw [if_neg (by simp; omega)]; left; exact ⟨h1, rfl⟩
    · rw [if_neg (by simp; omega)]; right; exact ⟨h1, h2, Or.inl rfl⟩
    · rw [if_pos (by simp; omega)]; right; exact ⟨h1, h2, Or.inl (by omega)⟩
  · intro base hb
    unfold to_upper islower
    rcases h with ⟨h1, rfl⟩ | ⟨h1, h2, rfl | rfl⟩
    · rw [if_neg (by simp; omega)]; unfold is_digit
      rw [if_neg (by omega)]
      by_cases h10 : base ≤ 10
      · rw [if_pos h10]; simp; omega
      · rw [if_neg h10, if_pos (by omega)]
    · rw [if_neg (by simp; omega)]; unfold is_digit
      rw [if_neg (by omega), if_neg (by omega), if_neg (by omega), if_pos (by omega)]
    · rw [if_pos (by simp; omega)]; unfold is_digit
      rw [if_neg (by omega), if_neg (by omega), if_neg (by omega), if_pos (by omega)]

/-! ### printing -/

theorem workLoop_spec (base : Nat) (down : Bool) (hb : 2 ≤ base) (hb' : base ≤ 36) :
    ∀ (i num : Nat) (acc : List Nat), num < base ^ (i + 1) →
      ∃ ds : List Nat, ds ≠ [] ∧ (∀ d ∈ ds, d < base) ∧ posVal base ds = num ∧
        (ds.head? = some 0 → ds = [0]) ∧
        workLoop base down (i + 1) num acc = some (ds.map (digitChar down) ++ acc) := by
  intro i
  induction i with
  | zero =>
    intro num acc h
    have h0 : num / base = 0 := Nat.div_eq_of_lt (by simpa using h)
    refine ⟨[num % base], by simp, by simp; exact Nat.mod_lt _ (by omega), ?_, by simp, ?_⟩
    · simp only [posVal, List.length_nil, pow_zero]
      have := Nat.div_add_mod num base
      rw [h0] at this; omega
    · simp only [workLoop, h0, if_true, List.map_cons, List.map_nil, List.cons_append, List.nil_append]
      congr 2
      have := Nat.mod_lt num (show base > 0 by omega)
      by_cases h10 : base ≤ 10
      · simp only [if_pos h10, digitChar]; rw [if_pos (by omega)]
      · simp only [if_neg h10]
  | succ i ih =>
    intro num acc h
    have hm := Nat.mod_lt num (show base > 0 by omega)
    have hc : (if base ≤ 10 then 48 + num % base else digitChar down (num % base))
        = digitChar down (num % base) := by
      by_cases h10 : base ≤ 10
      · simp only [if_pos h10, digitChar]; rw [if_pos (by omega)]
      · simp only [if_neg h10]
    rw [workLoop]
    simp only [hc]
    by_cases h0 : num / base = 0
    · rw [if_pos h0]
      refine ⟨[num % base], by simp, by simpa using hm, ?_, by simp, by simp⟩
      simp only [posVal, List.length_nil, pow_zero]
      have := Nat.div_add_mod num base
      rw [h0] at this; omega
    · rw [if_neg h0]
      obtain ⟨ds, h1, h2, h3, h5, h4⟩ := ih (num / base) (digitChar down (num % base) :: acc)
        (Nat.div_lt_of_lt_mul (by rw [pow_succ, Nat.mul_comm] at h; exact h))
      refine ⟨ds ++ [num % base], by simp, ?_, ?_, ?_, ?_⟩
      · intro d hd
        rcases List.mem_append.1 hd with hd | hd
        · exact h2 d hd
        · rw [List.mem_singleton.1 hd]; exact hm
      · rw [posVal_snoc, h3, Nat.mul_comm]; exact Nat.div_add_mod num base
      · intro hh
        have hh' : ds.head? = some 0 := by
          cases ds with
          | nil => exact absurd rfl h1
          | cons a l => simpa using hh
        rw [h5 hh'] at h3
        exact absurd (by simpa [posVal] using h3.symm) h0
      · rw [h4]; simp

theorem forall2_digitChar (down : Bool) (base : Nat) (hb : base ≤ 36) :
    ∀ ds : List Nat, (∀ d ∈ ds, d < base) → List.Forall₂ DigitCode (ds.map (digitChar down)) ds
  | [], _ => .nil
  | d :: ds, h => .cons (digitChar_code down d (by have := h d (by simp); omega))
      (forall2_digitChar down base hb ds fun x hx => h x (by simp [hx]))

theorem big_zerop_iff (v : List Word) (hv : WFv v) (hs : 0 ≤ limbsVal v) :
    big_zerop v = true ↔ limbsVal v = 0 := by
  have hsm : Small v := small_of_nonneg v hv (by
    by_contra h
    have := (sign_iff v hv).1 (by omega)
    omega)
  rw [(limbsVal_of_small v hsm hv.ne_nil).2]
  unfold big_zerop
  clear hv hs hsm
  induction v with
  | nil => simp [uval]
  | cons a l ih =>
    simp only [List.all_cons, Bool.and_eq_true, decide_eq_true_eq, uval, Nat.cast_eq_zero,
      Nat.add_eq_zero_iff, Nat.mul_eq_zero] at ih ⊢
    have : a = 0 ↔ a.toNat = 0 := by
      constructor
      · rintro rfl; rfl
      · intro h; exact BitVec.eq_of_toNat_eq (by simpa using h)
    rw [this]
    exact ⟨fun h => ⟨h.1, Or.inr (ih.1 h.2)⟩, fun h => ⟨h.1, ih.2 (by omega)⟩⟩

theorem bigLoop_spec (base : Nat) (down : Bool) (hb : 2 ≤ base) (hb' : base ≤ 36) :
    ∀ (n : Nat) (v : List Word) (acc : List Nat), WFv v → 0 ≤ limbsVal v → limbsVal v < 2 ^ n →
      ∃ ds : List Nat, (limbsVal v ≠ 0 → ds ≠ []) ∧ (∀ d ∈ ds, d < base) ∧
        (posVal base ds : Int) = limbsVal v ∧
        ds.head? ≠ some 0 ∧
        bigLoop base down (n + 1) v acc = some (ds.map (digitChar down) ++ acc) := by
  have hbi : (BitVec.ofNat 64 base : Word).toInt = base := by
    rw [toInt_of_lt _ (by rw [BitVec.toNat_ofNat]; omega), BitVec.toNat_ofNat]; omega
  intro n
  induction n with
  | zero =>
    intro v acc hv hs hl
    have h0 : limbsVal v = 0 := by omega
    refine ⟨[], fun h => absurd h0 h, by simp, by simp [posVal, h0], by simp, ?_⟩
    rw [bigLoop, if_pos ((big_zerop_iff v hv hs).2 h0)]; rfl
  | succ n ih =>
    intro v acc hv hs hl
    by_cases h0 : limbsVal v = 0
    · refine ⟨[], fun h => absurd h0 h, by simp, by simp [posVal, h0], by simp, ?_⟩
      rw [bigLoop, if_pos ((big_zerop_iff v hv hs).2 h0)]; rfl
    · obtain ⟨q, r, e, hq, hqv, hrv, hq0, _⟩ := div_int_big_spec (BitVec.ofNat 64 base) v
        (by rw [hbi]; omega) hv hs
      rw [hbi] at hqv hrv
      have hr1 : 0 ≤ limbsVal v % (base : Int) := Int.emod_nonneg _ (by omega)
      have hr2 : limbsVal v % (base : Int) < base := Int.emod_lt_of_pos _ (by omega)
      have hrn : (r.toNat : Int) = r.toInt := by
        have := toNat_of_nonneg r (by omega); omega
      have hlt : limbsVal q < 2 ^ n := by
        rw [hqv]
        apply Int.ediv_lt_of_lt_mul (by omega)
        rw [pow_succ] at hl
        have hp : (0:Int) < 2 ^ n := by positivity
        nlinarith
      obtain ⟨ds, h1, h2, h3, h5, h4⟩ := ih q (digitChar down r.toNat :: acc) hq hq0 hlt
      refine ⟨ds ++ [r.toNat], by simp, ?_, ?_, ?_, ?_⟩
      · intro d hd
        rcases List.mem_append.1 hd with hd | hd
        · exact h2 d hd
        · rw [List.mem_singleton.1 hd]; omega
      · rw [posVal_snoc]; push_cast
        rw [h3, hrn, hrv, hqv, mul_comm]; exact Int.mul_ediv_add_emod _ _
      · cases ds with
        | nil =>
          have hz : limbsVal q = 0 := by simpa [posVal] using h3.symm
          have hd := Int.mul_ediv_add_emod (limbsVal v) base
          rw [← hqv, hz, ← hrv] at hd
          intro hh
          have hr0 : r.toNat = 0 := by simpa using hh
          omega
        | cons a l => simpa using h5
      · rw [bigLoop, if_neg (fun h => h0 ((big_zerop_iff v hv hs).1 h)), e]
        simp only [h4, List.map_append, List.map_cons, List.map_nil, List.append_assoc,
          List.cons_append, List.nil_append]

end Eus.Rd
