import Verif.Num.MulDiv
namespace Eus.Num

abbrev B : Int := 9223372036854775808

/-! ### values of concatenations, ranges -/

theorem pwN (n : Nat) : ((2 ^ 63) ^ (n + 1) : Nat) = 9223372036854775808 * (2 ^ 63) ^ n := by
  rw [pow_succ, Nat.mul_comm]; norm_num

theorem pwZ (n : Nat) : ((2 ^ 63) ^ (n + 1) : Int) = 9223372036854775808 * (2 ^ 63) ^ n := by
  rw [pow_succ, Int.mul_comm]; norm_num

theorem uval_lt : ∀ v, Small v → uval v < (2 ^ 63) ^ v.length
  | [], _ => by simp [uval]
  | x :: xs, h => by
    have hx := h x (by simp)
    have := uval_lt xs (fun w hw => h w (by simp [hw]))
    rw [List.length_cons, pwN, uval]
    generalize (2 ^ 63) ^ xs.length = P at *
    simp only [Nat.reducePow] at *
    omega

theorem limbsVal_append : ∀ (u r : List Word), r ≠ [] →
    limbsVal (u ++ r) = (uval u : Int) + (2 ^ 63) ^ u.length * limbsVal r
  | [], r, _ => by simp [uval]
  | x :: xs, r, hr => by
    rw [List.cons_append, limbsVal_cons _ _ (by simp [hr]), limbsVal_append xs r hr]
    simp only [uval, List.length_cons]
    push_cast
    ring

theorem WFv_append : ∀ (u r : List Word), r ≠ [] → (WFv (u ++ r) ↔ Small u ∧ WFv r)
  | [], r, _ => by simp [Small]
  | x :: xs, r, hr => by
    rw [List.cons_append, WFv_cons _ _ (by simp [hr]), WFv_append xs r hr]
    simp only [Small, List.mem_cons, forall_eq_or_imp, Nat.reducePow]
    tauto

theorem snoc_cases (v : List Word) (h : v ≠ []) : ∃ u t, v = u ++ [t] :=
  ⟨v.dropLast, v.getLast h, (List.dropLast_concat_getLast h).symm⟩

theorem big_sign_snoc (u : List Word) (t : Word) : big_sign (u ++ [t]) = t := by
  simp [big_sign, List.getLastD_eq_getLast?]

/-- the value of a vector of `n` words lies in `[-B^n, B^n)`; and the top word determines the block -/
theorem snoc_range (u : List Word) (t : Word) (h : WFv (u ++ [t])) :
    limbsVal (u ++ [t]) = (uval u : Int) + (2 ^ 63) ^ u.length * t.toInt ∧
    (uval u : Int) < (2 ^ 63) ^ u.length := by
  rw [limbsVal_append _ _ (by simp)]
  refine ⟨rfl, ?_⟩
  have := uval_lt u ((WFv_append u [t] (by simp)).1 h).1
  exact_mod_cast this

theorem limbsVal_range (v : List Word) (h : WFv v) :
    -(2 ^ 63) ^ v.length ≤ limbsVal v ∧ limbsVal v < (2 ^ 63) ^ v.length := by
  obtain ⟨u, t, rfl⟩ := snoc_cases v h.ne_nil
  obtain ⟨h1, h2⟩ := snoc_range u t h
  have hb := toInt_bd t
  have hp : (0:Int) < (2 ^ 63) ^ u.length := by positivity
  rw [h1]
  simp only [List.length_append, List.length_singleton]
  rw [pwZ]
  generalize ((2 ^ 63) ^ u.length : Int) = P at *
  constructor
  · nlinarith [hb.1, Int.natCast_nonneg (uval u)]
  · nlinarith [hb.2]

/-! ### makeint -/

theorem makeint_infix (y : Word) (h : InFix y.toInt) : makeint y = .fix y := by
  unfold makeint
  have e1 : MAXPOSFIXNUM.toInt = 2 ^ 61 - 1 := by decide
  have e2 : MINNEGFIXNUM.toInt = -2 ^ 61 := by decide
  obtain ⟨a, b⟩ := h
  rw [if_neg]
  rw [e1, e2]; omega

theorem msb3_iff (y : Word) :
    (y.sshiftRight 61 &&& 7#64 = 0 ∨ y.sshiftRight 61 &&& 7#64 = 7) ↔ InFix y.toInt := by
  have h : (y.sshiftRight 61 &&& 7#64).toNat = y.toNat / 2 ^ 61 % 2 ^ 3 :=
    sshr_and_ones y 61 3 _ (by decide) (by omega)
  have h0 : (0#64 : Word).toNat = 0 := rfl
  have h7 : (7#64 : Word).toNat = 7 := rfl
  have hl := y.isLt
  have e0 : (y.sshiftRight 61 &&& 7#64 = 0#64) ↔ y.toNat / 2 ^ 61 % 2 ^ 3 = 0 := by
    rw [word_eq_iff, h, h0]
  have e7 : (y.sshiftRight 61 &&& 7#64 = 7#64) ↔ y.toNat / 2 ^ 61 % 2 ^ 3 = 7 := by
    rw [word_eq_iff, h, h7]
  show (y.sshiftRight 61 &&& 7#64 = 0#64) ∨ (y.sshiftRight 61 &&& 7#64 = 7#64) ↔ _
  rw [e0, e7]
  unfold InFix
  rw [toInt_cond]
  simp only [Nat.reducePow, Int.reducePow] at *
  split_ifs <;> omega

theorem ovf_iff (y : Word) (h : -2 ^ 62 ≤ y.toInt ∧ y.toInt < 2 ^ 62) :
    ovf y = true ↔ ¬ InFix y.toInt := by
  unfold ovf
  have hb : ((y.sshiftRight 1 ^^^ y) &&& (1#64 <<< 61) ≠ 0) ↔
      (y.getLsbD 62 ^^ y.getLsbD 61) = true := by
    have hc : (1#64 <<< 61 : Word) = BitVec.twoPow 64 61 := by decide
    rw [hc, BitVec.and_twoPow]
    have : (y.sshiftRight 1 ^^^ y).getLsbD 61 = (y.getLsbD 62 ^^ y.getLsbD 61) := by
      rw [BitVec.getLsbD_xor, BitVec.getLsbD_sshiftRight]; simp
    rw [this]
    have hne : BitVec.twoPow 64 61 ≠ 0 := by decide
    split_ifs with hx
    · exact ⟨fun _ => hx, fun _ => hne⟩
    · exact ⟨fun hh => absurd rfl hh, fun hh => absurd hh hx⟩
  rw [decide_eq_true_iff, hb]
  have g (i : Nat) : y.getLsbD i = decide (y.toNat / 2 ^ i % 2 = 1) := by
    rw [← BitVec.testBit_toNat, Nat.testBit_eq_decide_div_mod_eq]
  rw [g, g]
  have hl := y.isLt
  unfold InFix
  rw [toInt_cond] at *
  simp only [Nat.reducePow, Int.reducePow, bne_iff_ne, ne_eq, decide_eq_decide] at *
  split_ifs at * <;> omega

/-! ### normalize_big -/

theorem normalize_neg (u : List Word) (t : Word) (h : WFv (u ++ [t])) (hn : t.toInt < 0) :
    (t ≠ -1 ∧ normalize_big (u ++ [t]) = u ++ [t]) ∨
    (u = [] ∧ normalize_big (u ++ [t]) = u ++ [t]) ∨
    (∃ u' a, u = u' ++ [a] ∧ t = -1 ∧ normalize_big (u ++ [t]) = u' ++ [a ||| MSB]) := by
  have hs : big_sign (u ++ [t]) = t := big_sign_snoc u t
  have hp : decide (t.toInt ≥ 0) = false := by simp; omega
  by_cases ht : t = -1
  · rcases List.eq_nil_or_concat u with rfl | ⟨u', a, rfl⟩
    · right; left
      refine ⟨rfl, ?_⟩
      simp [normalize_big, big_sign, hn]
    · right; right
      refine ⟨u', a, by simp, ht, ?_⟩
      have ha : a.toNat < 2 ^ 63 := by
        rw [WFv_append _ _ (by simp)] at h
        exact h.1 a (by simp)
      have ha' : (a == 18446744073709551615#64) = false := by
        rw [beq_eq_false_iff_ne]
        intro e
        rw [e] at ha
        exact absurd ha (by decide)
      simp only [normalize_big, hs, hp]
      simp only [List.concat_eq_append] at *
      simp [ht, ha', List.dropWhile, List.getLastD_eq_getLast?]
  · left
    refine ⟨ht, ?_⟩
    have : (t == 18446744073709551615#64) = false := by rw [beq_eq_false_iff_ne]; exact ht
    simp only [normalize_big, hs, hp]
    simp [List.dropWhile, this]

theorem or_MSB (a : Word) (h : a.toNat < 2 ^ 63) : (a ||| MSB).toInt = a.toNat - 2 ^ 63 := by
  have : (a ||| MSB).toNat = a.toNat + 2 ^ 63 := by
    have hm : MSB.toNat = 2 ^ 63 := by decide
    rw [BitVec.toNat_or, hm, Nat.or_comm]
    have := Nat.two_pow_add_eq_or_of_lt h 1
    simp only [Nat.mul_one] at this
    omega
  have hl := (a ||| MSB).isLt
  rw [toInt_cond, this]
  simp only [Nat.reducePow, Int.reducePow] at *
  split_ifs <;> omega

/-- facts about a vector produced by `normalize_big` from a negative one -/
theorem normalize_neg_spec (v : List Word) (h : WFv v) (hn : limbsVal v < 0) :
    WFv (normalize_big v) ∧ limbsVal (normalize_big v) = limbsVal v ∧
    ((v.length ≥ 3 → limbsVal v < -(2 ^ 63) ^ (v.length - 2)) →
      (normalize_big v).length ≥ 2 →
        limbsVal v < -(2 ^ 63) ^ ((normalize_big v).length - 1)) := by
  obtain ⟨u, t, rfl⟩ := snoc_cases v h.ne_nil
  have hts : t.toInt < 0 := by
    have := (sign_iff _ h).2 hn
    rwa [big_sign_snoc] at this
  rcases normalize_neg u t h hts with ⟨h1, h2⟩ | ⟨h1, h2⟩ | ⟨u', a, rfl, rfl, h2⟩
  · rw [h2]
    refine ⟨h, rfl, ?_⟩
    intro _ _
    obtain ⟨r1, r2⟩ := snoc_range u t h
    rw [r1]
    have : t.toInt ≤ -2 := by
      have : t.toInt ≠ -1 := by
        intro e; apply h1; apply BitVec.eq_of_toInt_eq; rw [e]; decide
      omega
    simp only [List.length_append, List.length_singleton, Nat.add_sub_cancel]
    have hp : (0:Int) < (2 ^ 63) ^ u.length := by positivity
    nlinarith
  · rw [h2]; subst h1
    refine ⟨h, rfl, ?_⟩
    intro _ hl; simp at hl
  · rw [h2]
    have hsm : Small u' ∧ a.toNat < 2 ^ 63 := by
      rw [WFv_append _ _ (by simp)] at h
      exact ⟨fun w hw => h.1 w (by simp [hw]), h.1 a (by simp)⟩
    have e : u' ++ [a] ++ [(-1 : Word)] = u' ++ [a, -1] := by simp
    rw [e] at *
    refine ⟨(WFv_append _ _ (by simp)).2 ⟨hsm.1, trivial⟩, ?_, ?_⟩
    · rw [limbsVal_append _ _ (by simp), limbsVal_append _ _ (by simp), limbsVal_two]
      simp only [limbsVal, or_MSB a hsm.2, toInt_m1]
      ring
    · intro hc hl
      simp only [List.length_append, List.length_cons, List.length_nil] at *
      have h3 : u'.length + (0 + 1 + 1) ≥ 3 := by omega
      have := hc h3
      have e1 : u'.length + (0 + 1 + 1) - 2 = u'.length := by omega
      have e2 : u'.length + (0 + 1) - 1 = u'.length := by omega
      rw [e1] at this
      rw [e2]
      exact this

theorem normalize_pos_spec (v : List Word) (h : WFv v) (hn : 0 ≤ limbsVal v) :
    Small (normalize_big v) ∧ (uval (normalize_big v) : Int) = limbsVal v ∧
    (normalize_big v ≠ [] → 0 < (big_sign (normalize_big v)).toNat) := by
  have hsg : 0 ≤ (big_sign v).toInt := by
    by_contra hh
    have := (sign_iff v h).1 (by omega)
    omega
  have hsm := small_of_nonneg v h hsg
  obtain ⟨_, hv⟩ := limbsVal_of_small v hsm h.ne_nil
  have hp : decide ((big_sign v).toInt ≥ 0) = true := by simpa using hsg
  have e : normalize_big v = (v.reverse.dropWhile (fun w => w == 0)).reverse := by
    simp [normalize_big, hp]
  rw [e]
  have hrv : ∀ l : List Word, rval 0 (l.dropWhile (fun w => w == 0)) = rval 0 l := by
    intro l
    induction l with
    | nil => rfl
    | cons x xs ih =>
      simp only [List.dropWhile]
      cases hx : (x == 0) with
      | false => rfl
      | true =>
        have : x = 0 := by simpa using hx
        simp only [rval, this, toNat_zero]
        exact ih
  refine ⟨?_, ?_, ?_⟩
  · intro w hw
    rw [List.mem_reverse] at hw
    have := (List.dropWhile_sublist _).subset hw
    exact hsm w (by simpa using this)
  · rw [hv, ← rval_reverse, List.reverse_reverse, hrv, rval_reverse]
  · intro hne
    have h1 : v.reverse.dropWhile (fun w => w == 0) ≠ [] := by simpa using hne
    cases hc : v.reverse.dropWhile (fun w => w == 0) with
    | nil => exact absurd hc h1
    | cons a l =>
      rw [List.reverse_cons, big_sign_snoc]
      have := List.head_dropWhile_not (fun w : Word => w == 0) (l := v.reverse) h1
      simp only [hc, List.head_cons] at this
      have ha : a ≠ 0 := by simpa using this
      have : a.toNat ≠ 0 := by
        intro e; apply ha; apply BitVec.eq_of_toNat_eq; simpa using e
      omega

/-! ### normalize_bignum -/

/-- what remains of `normalize_bignum` after `normalize_big` -/
theorem normalize_bignum_eq (v : List Word) : normalize_bignum v =
    match normalize_big v with
    | [] => .fix 0
    | [y] => if (y.sshiftRight 61 &&& 7#64 = 0 ∨ y.sshiftRight 61 &&& 7#64 = 7) then makeint y else .big [y]
    | w => .big w := by
  unfold normalize_bignum
  have : makeint 0 = .fix 0 := by decide
  rw [this]
  rfl

theorem normalize_bignum_spec (v : List Word) (h : WFv v) :
    (normalize_bignum v).WF ∧ (normalize_bignum v).val = limbsVal v ∧
    ((limbsVal v < 0 → v.length ≥ 3 → limbsVal v < -(2 ^ 63) ^ (v.length - 2)) →
      (normalize_bignum v).Canonical) := by
  rw [normalize_bignum_eq]
  -- common facts
  have facts : (normalize_big v = [] ∧ limbsVal v = 0) ∨
      (WFv (normalize_big v) ∧ limbsVal (normalize_big v) = limbsVal v ∧
       ((limbsVal v < 0 → v.length ≥ 3 → limbsVal v < -(2 ^ 63) ^ (v.length - 2)) →
         (normalize_big v).length ≥ 2 →
         ¬ (-(2 ^ 63) ^ ((normalize_big v).length - 1) ≤ limbsVal v ∧
            limbsVal v < (2 ^ 63) ^ ((normalize_big v).length - 1)))) := by
    rcases lt_or_ge (limbsVal v) 0 with hn | hn
    · right
      obtain ⟨a, b, c⟩ := normalize_neg_spec v h hn
      refine ⟨a, b, fun hc hl => ?_⟩
      have := c (hc hn) hl
      omega
    · obtain ⟨a, b, c⟩ := normalize_pos_spec v h hn
      by_cases he : normalize_big v = []
      · left; refine ⟨he, ?_⟩
        rw [← b, he]; rfl
      · right
        obtain ⟨w1, w2⟩ := limbsVal_of_small _ a he
        refine ⟨w1, by rw [w2, b], fun _ hl => ?_⟩
        obtain ⟨u, t, hut⟩ := snoc_cases _ he
        have ht := c he
        rw [hut, big_sign_snoc] at ht
        rw [hut] at w1 w2 b
        obtain ⟨r1, r2⟩ := snoc_range u t w1
        rw [← b, ← w2, r1, hut]
        have hts : t.toNat < 2 ^ 63 := a t (by rw [hut]; simp)
        have hti := toInt_of_lt t (by simpa using hts)
        rw [hti]
        simp only [List.length_append, List.length_singleton, Nat.add_sub_cancel]
        have hp : (0:Int) < (2 ^ 63) ^ u.length := by positivity
        have : (1:Int) ≤ t.toNat := by omega
        intro hh
        nlinarith [hh.2, Int.natCast_nonneg (uval u)]
  rcases facts with ⟨e, hz⟩ | ⟨hw, hv, hcan⟩
  · rw [e, hz]
    refine ⟨?_, by decide, fun _ => ?_⟩
    · show InFix (0:Word).toInt
      rw [toInt_zero]; unfold InFix; omega
    · show InFix (0:Word).toInt
      rw [toInt_zero]; unfold InFix; omega
  · match hm : normalize_big v with
    | [] => rw [hm] at hw; exact hw.elim
    | [y] =>
      simp only
      rw [hm] at hw hv hcan
      have hy : limbsVal [y] = y.toInt := rfl
      split_ifs with hmsb
      · have hf := (msb3_iff y).1 hmsb
        rw [makeint_infix y hf]
        exact ⟨hf, by rw [← hv]; rfl, fun _ => hf⟩
      · have hf : ¬ InFix y.toInt := fun hf => hmsb ((msb3_iff y).2 hf)
        exact ⟨trivial, hv, fun _ => ⟨trivial, by rw [hy]; exact hf, fun hl => by simp at hl⟩⟩
    | a :: b :: r =>
      simp only
      rw [hm] at hw hv hcan
      refine ⟨hw, hv, fun hc => ⟨hw, ?_, ?_⟩⟩
      · have := hcan hc (by simp)
        rw [hv]
        intro hf
        apply this
        have hp : (2:Int) ^ 63 ≤ (2 ^ 63) ^ ((a :: b :: r).length - 1) := by
          have : (2:Int) ^ 63 = (2 ^ 63) ^ 1 := by ring
          nth_rw 1 [this]
          apply pow_le_pow_right₀ (by norm_num)
          simp
        unfold InFix at hf
        constructor
        · calc -(2 ^ 63) ^ ((a :: b :: r).length - 1) ≤ -(2:Int) ^ 63 := by omega
            _ ≤ limbsVal v := by omega
        · calc limbsVal v < (2:Int) ^ 63 := by omega
            _ ≤ _ := hp
      · intro hl
        rw [hv]
        exact hcan hc hl

end Eus.Num
