import Verif.Flt.Round
import Verif.Flt.Spec
import Mathlib.Tactic.IntervalCases
set_option autoImplicit false
namespace Eus.Flt
open Spec

/-- A digit. -/
def IsDig (c : Char) : Prop := ∃ d : Nat, d < 10 ∧ c = Char.ofNat (48 + d)

theorem dig_val {d : Nat} (h : d < 10) : digitVal (Char.ofNat (48 + d)) = some d := by
  interval_cases d <;> decide

theorem dig_ne {c : Char} (h : IsDig c) : c ≠ '.' ∧ c ≠ 'e' ∧ c ≠ '-' ∧ c ≠ '+' := by
  obtain ⟨d, hd, rfl⟩ := h
  interval_cases d <;> decide

theorem zero_dig {d : Nat} (hd : d < 10) (h : Char.ofNat (48 + d) = '0') : d = 0 := by
  revert h
  interval_cases d <;> decide

/-- The reading loop. -/
def step (a : Option Nat) (c : Char) : Option Nat := a.bind fun n => (digitVal c).map fun d => 10 * n + d

theorem natVal_eq (l : List Char) (h : l ≠ []) : natVal l = l.foldl step (some 0) := by
  unfold natVal; rw [if_neg h]; rfl

theorem step_dig (n d : Nat) (h : d < 10) : step (some n) (Char.ofNat (48 + d)) = some (10 * n + d) := by
  unfold step; simp [dig_val h]

theorem digitsFuel_spec (f n : Nat) (hf : n < f) (acc : List Char) :
    ∃ ds, digitsFuel f n acc = ds ++ acc ∧ ds ≠ [] ∧ (∀ c ∈ ds, IsDig c) ∧ ds.foldl step (some 0) = some n := by
  induction f using Nat.strong_induction_on generalizing n acc with
  | _ f ih =>
    cases f with
    | zero => omega
    | succ f =>
      unfold digitsFuel
      simp only
      have hm : n % 10 < 10 := Nat.mod_lt _ (by norm_num)
      by_cases h : n < 10
      · rw [if_pos h]
        refine ⟨[Char.ofNat (48 + n % 10)], rfl, by simp, ?_, ?_⟩
        · intro c hc; simp at hc; exact ⟨n % 10, hm, hc⟩
        · simp only [List.foldl_cons, List.foldl_nil]
          rw [step_dig _ _ hm]; simp; omega
      · rw [if_neg h]
        obtain ⟨ds, h1, h2, h3, h4⟩ := ih f (by omega) (n / 10) (by omega) (Char.ofNat (48 + n % 10) :: acc)
        refine ⟨ds ++ [Char.ofNat (48 + n % 10)], by rw [h1]; simp, by simp, ?_, ?_⟩
        · intro c hc
          rcases List.mem_append.mp hc with hc | hc
          · exact h3 c hc
          · simp at hc; exact ⟨n % 10, hm, hc⟩
        · rw [List.foldl_append, h4]
          simp only [List.foldl_cons, List.foldl_nil]
          rw [step_dig _ _ hm]; simp; omega

theorem digits_spec (n : Nat) : digits n ≠ [] ∧ (∀ c ∈ digits n, IsDig c) ∧ natVal (digits n) = some n := by
  obtain ⟨ds, h1, h2, h3, h4⟩ := digitsFuel_spec (n + 1) n (by omega) []
  have : digits n = ds := by unfold digits; rw [h1]; simp
  rw [this]
  exact ⟨h2, h3, by rw [natVal_eq _ h2, h4]⟩

theorem lastDigits_spec (i n : Nat) : (lastDigits i n).length = i ∧ (∀ c ∈ lastDigits i n, IsDig c) ∧
    (lastDigits i n).foldl step (some 0) = some (n % 10 ^ i) := by
  induction i generalizing n with
  | zero => simp [lastDigits, Nat.mod_one]
  | succ i ih =>
    obtain ⟨h1, h2, h3⟩ := ih (n / 10)
    have hm : n % 10 < 10 := Nat.mod_lt _ (by norm_num)
    unfold lastDigits
    refine ⟨by simp [h1], ?_, ?_⟩
    · intro c hc
      rcases List.mem_append.mp hc with hc | hc
      · exact h2 c hc
      · simp at hc; exact ⟨n % 10, hm, hc⟩
    · rw [List.foldl_append, h3]
      simp only [List.foldl_cons, List.foldl_nil]
      rw [step_dig _ _ hm]
      have : n % 10 ^ (i + 1) = n % 10 + 10 * (n / 10 % 10 ^ i) := by
        rw [pow_succ, mul_comm, Nat.mod_mul]
      simp; omega

/-- Trailing zeros of a fraction. -/
theorem foldl_zeros (k : Nat) (v : Nat) : (List.replicate k '0').foldl step (some v) = some (v * 10 ^ k) := by
  induction k generalizing v with
  | zero => simp
  | succ k ih =>
    rw [List.replicate_succ, List.foldl_cons]
    have : step (some v) '0' = some (10 * v + 0) := by
      have := step_dig v 0 (by norm_num)
      simpa using this
    rw [this, ih]
    congr 1
    rw [pow_succ]; ring

/-- What the trimming loop keeps. -/
theorem trimRev_spec (ds rest : List Char) (hne : ds ≠ []) (hd : ∀ c ∈ ds, IsDig c) (hr : rest ≠ []) :
    ∃ k ds', ds = List.replicate k '0' ++ ds' ∧ ds' ≠ [] ∧ trimRev (ds ++ '.' :: rest) = ds' ++ '.' :: rest := by
  induction ds with
  | nil => exact absurd rfl hne
  | cons c ds ih =>
    cases ds with
    | nil =>
      refine ⟨0, [c], by simp, by simp, ?_⟩
      simp [trimRev]
    | cons d ds =>
      have hdd := (dig_ne (hd d (by simp))).1
      simp only [List.cons_append]
      rw [trimRev]
      by_cases h0 : c = '0'
      · rw [if_pos ⟨by simp, h0, hdd⟩]
        obtain ⟨k, ds', h1, h2, h3⟩ := ih (by simp) (fun x hx => hd x (by simp [hx]))
        refine ⟨k + 1, ds', ?_, h2, ?_⟩
        · rw [h1, h0, List.replicate_succ, List.cons_append]
        · rw [← h3]; simp
      · rw [if_neg (by simp [h0])]
        exact ⟨0, c :: d :: ds, by simp, by simp, rfl⟩

theorem takeWhile_dig {p : Char → Bool} (a : List Char) (c : Char) (b : List Char) (ha : ∀ x ∈ a, p x = true)
    (hc : p c = false) : (a ++ c :: b).takeWhile p = a ∧ (a ++ c :: b).dropWhile p = c :: b := by
  induction a with
  | nil => simp [hc]
  | cons x a ih =>
    have hx := ha x (by simp)
    have := ih (fun y hy => ha y (by simp [hy]))
    simp [hx, this]

theorem takeWhile_all {p : Char → Bool} (a : List Char) (ha : ∀ x ∈ a, p x = true) :
    a.takeWhile p = a := by
  induction a with
  | nil => rfl
  | cons x a ih => simp [ha x (by simp)]; exact ih (fun y hy => ha y (by simp [hy]))

/-- A fixed text. -/
theorem fixedVal_spec (a b : List Char) (i f : Nat) (ha : ∀ c ∈ a, IsDig c) (hia : natVal a = some i)
    (hfb : natVal b = some f) : fixedVal (a ++ '.' :: b) = some ((i : ℚ) + f / 10 ^ b.length) := by
  unfold fixedVal
  have hp : ∀ x ∈ a, (decide (x ≠ '.')) = true := fun x hx => by simpa using (dig_ne (ha x hx)).1
  obtain ⟨h1, h2⟩ := takeWhile_dig (p := fun x => decide (x ≠ '.')) a '.' b hp (by simp)
  simp only [h1, h2, List.drop_succ_cons, List.drop_zero, hia, hfb]
  simp

theorem textVal_sign (neg : Bool) (l : List Char) (hl : ∃ c r, l = c :: r ∧ IsDig c) :
    textVal (signText neg ++ l) = (unsignedVal l).map fun v => if neg then -v else v := by
  obtain ⟨c, r, rfl, hc⟩ := hl
  have hne := (dig_ne hc).2.2.1
  cases neg
  · simp only [signText, Bool.false_eq_true, if_false, List.nil_append]
    unfold textVal
    split
    · rename_i heq; simp at heq; exact absurd heq.1 hne
    · simp
  · simp only [signText, if_true, List.cons_append, List.nil_append]
    rfl

theorem unsigned_fixed (a b : List Char) (ha : ∀ c ∈ a, IsDig c) (hb : ∀ c ∈ b, IsDig c) :
    unsignedVal (a ++ '.' :: b) = fixedVal (a ++ '.' :: b) := by
  unfold unsignedVal
  rw [if_neg]
  intro h
  rcases List.mem_append.mp h with h | h
  · exact (dig_ne (ha _ h)).2.1 rfl
  · rcases List.mem_cons.mp h with h | h
    · exact absurd h (by decide)
    · exact (dig_ne (hb _ h)).2.1 rfl

theorem digits_cons (n : Nat) (r : List Char) : ∃ c t, digits n ++ r = c :: t ∧ IsDig c := by
  obtain ⟨h1, h2, _⟩ := digits_spec n
  cases h : digits n with
  | nil => exact absurd h h1
  | cons c t => exact ⟨c, t ++ r, by simp, h2 c (by simp [h])⟩

/-- The trimmed fixed text stands for the rounded number. -/
theorem fixed_value (i : Nat) (hi : 0 < i) (x : ℚ) :
    textVal (trimRev (fixedText i x).reverse).reverse =
      some ((if x < 0 then -1 else 1) * ((rint (|x| * 10 ^ i) : ℚ) / 10 ^ i)) := by
  set n := (rint (|x| * 10 ^ i)).toNat with hn
  have hn0 : 0 ≤ rint (|x| * 10 ^ i) := rint_ge (by push_cast; positivity)
  have hnq : (rint (|x| * 10 ^ i) : ℚ) = n := by
    have : rint (|x| * 10 ^ i) = (n : Int) := by omega
    rw [this]; simp
  obtain ⟨hD1, hD2, hD3⟩ := digits_spec (n / 10 ^ i)
  obtain ⟨hL1, hL2, hL3⟩ := lastDigits_spec i n
  have hLne : lastDigits i n ≠ [] := by intro h; rw [h] at hL1; simp at hL1; omega
  have hft : (fixedText i x).reverse =
      (lastDigits i n).reverse ++ '.' :: ((digits (n / 10 ^ i)).reverse ++ (signText (x < 0)).reverse) := by
    unfold fixedText
    simp [← hn]
  obtain ⟨k, ds', h1, h2, h3⟩ := trimRev_spec (lastDigits i n).reverse
    ((digits (n / 10 ^ i)).reverse ++ (signText (x < 0)).reverse) (by simpa using hLne)
    (fun c hc => hL2 c (by simpa using hc)) (by simp [hD1])
  rw [hft, h3]
  have hrev : (ds' ++ '.' :: ((digits (n / 10 ^ i)).reverse ++ (signText (x < 0)).reverse)).reverse =
      signText (x < 0) ++ (digits (n / 10 ^ i) ++ '.' :: ds'.reverse) := by simp
  rw [hrev, textVal_sign _ _ (digits_cons _ _)]
  have hlast : lastDigits i n = ds'.reverse ++ List.replicate k '0' := by
    have := congrArg List.reverse h1
    simpa using this
  have hds : ∀ c ∈ ds'.reverse, IsDig c := fun c hc => hL2 c (by rw [hlast]; exact List.mem_append_left _ hc)
  -- the value of the digits that are left
  have hlen : ds'.reverse.length + k = i := by rw [← hL1, hlast]; simp
  obtain ⟨v, hv⟩ : ∃ v, ds'.reverse.foldl step (some 0) = some v := by
    cases hh : ds'.reverse.foldl step (some 0) with
    | some v => exact ⟨v, rfl⟩
    | none =>
      rw [hlast, List.foldl_append, hh] at hL3
      exfalso
      have : ∀ l : List Char, l.foldl step none = none := by
        intro l; induction l with
        | nil => rfl
        | cons a l ih => simpa [step] using ih
      rw [this] at hL3; cases hL3
  have hvk : v * 10 ^ k = n % 10 ^ i := by
    rw [hlast, List.foldl_append, hv, foldl_zeros] at hL3
    simpa using hL3
  have hnv : natVal ds'.reverse = some v := by rw [natVal_eq _ (by simpa using h2), hv]
  rw [unsigned_fixed _ _ hD2 hds, fixedVal_spec _ _ _ _ hD2 hD3 hnv]
  rw [hnq]
  simp only [Option.map_some, Option.some.injEq]
  have hval : ((n / 10 ^ i : ℕ) : ℚ) + (v : ℚ) / 10 ^ ds'.reverse.length = (n : ℚ) / 10 ^ i := by
    have h10 : (10 : ℚ) ^ i = 10 ^ ds'.reverse.length * 10 ^ k := by rw [← pow_add, hlen]
    have hdm : (n : ℚ) = (10 : ℚ) ^ i * ((n / 10 ^ i : ℕ) : ℚ) + (v : ℚ) * 10 ^ k := by
      have := Nat.div_add_mod n (10 ^ i)
      rw [← hvk] at this
      exact_mod_cast this.symm
    rw [hdm]
    rw [add_div, mul_div_cancel_left₀ _ (by positivity)]
    congr 1
    rw [h10]
    field_simp
  rw [hval]
  by_cases hx : x < 0
  · simp [hx]
  · simp [hx]

/-- The parts of the scientific text. -/
theorem sciParts_spec (x : ℚ) (hx : x ≠ 0) :
    10 ^ 6 ≤ (sciParts x).1 ∧ (sciParts x).1 < 10 ^ 7 ∧
    ((sciParts x).1 : ℚ) * 10 ^ ((sciParts x).2 - 6) =
      rint (|x| / (10 : ℚ) ^ (Int.log 10 |x| - 6)) * (10 : ℚ) ^ (Int.log 10 |x| - 6) := by
  have hp : 0 < |x| := abs_pos.mpr hx
  have hl1 : (10 : ℚ) ^ Int.log 10 |x| ≤ |x| := by
    have := Int.zpow_log_le_self (b := 10) (by norm_num) hp
    exact_mod_cast this
  have hl2 : |x| < (10 : ℚ) ^ (Int.log 10 |x| + 1) := by
    have := Int.lt_zpow_succ_log_self (b := 10) (by norm_num) |x|
    exact_mod_cast this
  set e := Int.log 10 |x| with he
  have c6 : ((10 ^ 6 : Int) : ℚ) = 10 ^ 6 := by norm_num
  have c7 : ((10 ^ 7 : Int) : ℚ) = 10 ^ 7 := by norm_num
  have hge : (10 : Int) ^ 6 ≤ rint (|x| / (10 : ℚ) ^ (e - 6)) := by
    apply rint_ge
    rw [c6, le_div_iff₀ (by positivity), ← zpow_natCast (10 : ℚ) 6, ← zpow_add₀ (by norm_num)]
    have : ((6 : ℕ) : Int) + (e - 6) = e := by push_cast; ring
    rw [this]; exact hl1
  have hle : rint (|x| / (10 : ℚ) ^ (e - 6)) ≤ (10 : Int) ^ 7 := by
    apply rint_le
    rw [c7, div_le_iff₀ (by positivity), ← zpow_natCast (10 : ℚ) 7, ← zpow_add₀ (by norm_num)]
    have : ((7 : ℕ) : Int) + (e - 6) = e + 1 := by push_cast; ring
    rw [this]; exact le_of_lt hl2
  set r := rint (|x| / (10 : ℚ) ^ (e - 6)) with hr
  have hsp : sciParts x = if r.toNat = 10 ^ 7 then (10 ^ 6, e + 1) else (r.toNat, e) := rfl
  have hrq : (r : ℚ) = (r.toNat : ℚ) := by
    have : r = (r.toNat : Int) := by omega
    exact_mod_cast congrArg (fun z : Int => (z : ℚ)) this
  rw [hsp]
  by_cases h : r.toNat = 10 ^ 7
  · rw [if_pos h]
    refine ⟨by simp, by simp, ?_⟩
    rw [hrq, h]
    simp only
    have : e + 1 - 6 = (e - 6) + 1 := by ring
    rw [this, zpow_add_one₀ (by norm_num)]
    push_cast
    ring
  · rw [if_neg h]
    simp only
    refine ⟨by omega, by omega, by rw [hrq]⟩

theorem expText_val (e : Int) : ∃ l, expText e = 'e' :: l ∧ expVal l = some e ∧ True := by
  obtain ⟨h1, h2, h3⟩ := digits_spec e.natAbs
  have hz : natVal ((if e.natAbs < 10 then ['0'] else []) ++ digits e.natAbs) = some e.natAbs := by
    split
    · rw [natVal_eq _ (by simp), List.foldl_append]
      have : List.foldl step (some 0) ['0'] = some 0 := by decide
      rw [this, ← natVal_eq _ h1, h3]
    · simpa using h3
  unfold expText
  by_cases he : e < 0
  · refine ⟨'-' :: ((if e.natAbs < 10 then ['0'] else []) ++ digits e.natAbs), ?_, ?_, trivial⟩
    · rw [if_pos he]; simp
    · show Option.map _ (natVal _) = _
      rw [hz, Option.map_some]
      congr 1
      omega
  · refine ⟨'+' :: ((if e.natAbs < 10 then ['0'] else []) ++ digits e.natAbs), ?_, ?_, trivial⟩
    · rw [if_neg he]; simp
    · show Option.map _ (natVal _) = _
      rw [hz, Option.map_some]
      congr 1
      omega

theorem sci_value (x : ℚ) (hx : x ≠ 0) :
    textVal (sciText x) = some ((if x < 0 then -1 else 1) *
      (rint (|x| / (10 : ℚ) ^ (Int.log 10 |x| - 6)) * (10 : ℚ) ^ (Int.log 10 |x| - 6))) := by
  obtain ⟨hp1, hp2, hp3⟩ := sciParts_spec x hx
  rw [← hp3]
  have hst : sciText x = signText (x < 0) ++ (digits ((sciParts x).1 / 10 ^ 6) ++
      ('.' :: (lastDigits 6 (sciParts x).1 ++ expText (sciParts x).2))) := by
    unfold sciText; simp
  set m := (sciParts x).1
  set e := (sciParts x).2
  obtain ⟨hD1, hD2, hD3⟩ := digits_spec (m / 10 ^ 6)
  obtain ⟨hL1, hL2, hL3⟩ := lastDigits_spec 6 m
  have hLne : lastDigits 6 m ≠ [] := by intro h; rw [h] at hL1; simp at hL1
  obtain ⟨el, hE, hEv, _⟩ := expText_val e
  rw [hst, textVal_sign _ _ (digits_cons _ _)]
  unfold unsignedVal
  rw [hE]
  rw [if_pos (by simp)]
  have hre : digits (m / 10 ^ 6) ++ '.' :: (lastDigits 6 m ++ 'e' :: el) =
      (digits (m / 10 ^ 6) ++ '.' :: lastDigits 6 m) ++ 'e' :: el := by simp
  rw [hre]
  obtain ⟨ht, hd⟩ := takeWhile_dig (p := fun x => decide (x ≠ 'e')) (digits (m / 10 ^ 6) ++ '.' :: lastDigits 6 m)
    'e' el (by
      intro c hc
      rcases List.mem_append.mp hc with h | h
      · simpa using (dig_ne (hD2 c h)).2.1
      · rcases List.mem_cons.mp h with h | h
        · subst h; decide
        · simpa using (dig_ne (hL2 c h)).2.1) (by simp)
  rw [ht, hd]
  have hnv : natVal (lastDigits 6 m) = some (m % 10 ^ 6) := by rw [natVal_eq _ hLne, hL3]
  rw [fixedVal_spec _ _ _ _ hD2 hD3 hnv]
  simp only [List.drop_succ_cons, List.drop_zero, hEv, Option.bind_some, Option.map_some, Option.some.injEq, hL1]
  have hval : ((m / 10 ^ 6 : ℕ) : ℚ) + ((m % 10 ^ 6 : ℕ) : ℚ) / 10 ^ 6 = (m : ℚ) / 10 ^ 6 := by
    have hdm : (m : ℚ) = (10 : ℚ) ^ 6 * ((m / 10 ^ 6 : ℕ) : ℚ) + ((m % 10 ^ 6 : ℕ) : ℚ) := by
      have := Nat.div_add_mod m (10 ^ 6)
      exact_mod_cast this.symm
    rw [hdm]
    field_simp
  rw [hval]
  have hz : (10 : ℚ) ^ (e - 6) = 10 ^ e / 10 ^ 6 := by
    rw [zpow_sub₀ (by norm_num)]; norm_num
  rw [hz]
  by_cases hx0 : x < 0
  · simp [hx0]; ring
  · simp [hx0]; ring

end Eus.Flt
