import Verif.Num.Arith
set_option linter.unusedSimpArgs false
namespace Eus.Num

/-! ### makeint on any word -/

theorem makeint_val (v : Word) : (makeint v).val = v.toInt := by
  unfold makeint
  split_ifs <;> rfl

/-! ### QUOTIENT -/

theorem tdiv_bound (a b m : Int) (h : -m ≤ a ∧ a ≤ m) :
    -m ≤ a.tdiv b ∧ a.tdiv b ≤ m := by
  have hb : (a.tdiv b).natAbs ≤ a.natAbs := Int.natAbs_tdiv_le_natAbs _ _
  omega

theorem quoFix_spec : ∀ (args : List Num) (is : Word), -2 ^ 61 ≤ is.toInt ∧ is.toInt ≤ 2 ^ 61 →
    (∀ a ∈ args, isFix a ∧ a.val ≠ 0) →
    ∃ n, quoFix is args = .ok n ∧ n.val = (args.map Num.val).foldl Int.tdiv is.toInt
  | [], is, h, _ => ⟨makeint is, rfl, makeint_val is⟩
  | .big a :: rest, is, h, ha => (ha (.big a) (by simp)).1.elim
  | .fix a :: rest, is, h, ha => by
    have h0 : a ≠ 0 := by
      have := (ha (.fix a) (by simp)).2
      intro e; apply this; rw [e]; rfl
    have e := sdiv_toInt is a (by omega)
    have hb := tdiv_bound is.toInt a.toInt (2 ^ 61) h
    simp only [quoFix, if_neg h0]
    obtain ⟨n, h1, h2⟩ := quoFix_spec rest (is.sdiv a) (by rw [e]; exact hb)
      (fun x hx => ha x (by simp [hx]))
    exact ⟨n, h1, by rw [h2, e]; rfl⟩

theorem quoBig_spec : ∀ (args : List Num) (neg : Bool) (rs : List Word), WFv rs → 0 ≤ limbsVal rs →
    (∀ a ∈ args, a.WF ∧ isFix a ∧ a.val ≠ 0) →
    ∃ n, quoBig neg rs args = .ok n ∧ n.WF ∧
      n.val = (args.map Num.val).foldl Int.tdiv (if neg then -limbsVal rs else limbsVal rs)
  | [], neg, rs, hw, hp, _ => by
    cases neg with
    | false => exact ⟨_, rfl, norm_wf hw, norm_val hw⟩
    | true =>
      obtain ⟨p, q⟩ := complement_big_spec rs hw
      exact ⟨_, rfl, norm_wf p, (norm_val p).trans q⟩
  | .big a :: rest, neg, rs, _, _, ha => (ha (.big a) (by simp)).2.1.elim
  | .fix a :: rest, neg, rs, hw, hp, ha => by
    have haf : InFix a.toInt := (ha (.fix a) (by simp)).1
    have h0 : a.toInt ≠ 0 := (ha (.fix a) (by simp)).2.2
    have hr : ∀ a ∈ rest, a.WF ∧ isFix a ∧ a.val ≠ 0 := fun x hx => ha x (by simp [hx])
    have hn := toInt_neg' a (infix_ne_min haf)
    simp only [quoBig]
    by_cases hneg : a.toInt < 0
    · simp only [if_pos hneg]
      obtain ⟨q, r, e, qw, qv, _, qp, _⟩ := div_int_big_spec (-a) rs (by omega) hw hp
      simp only [e]
      obtain ⟨n, h1, h2, h3⟩ := quoBig_spec rest (!neg) q qw qp hr
      refine ⟨n, h1, h2, ?_⟩
      rw [h3, List.map_cons, List.foldl_cons, val_fix, qv, hn]
      congr 1
      have e2 : limbsVal rs / -a.toInt = -(limbsVal rs).tdiv a.toInt := by
        rw [Int.ediv_neg, Int.tdiv_eq_ediv_of_nonneg hp]
      rw [e2]
      cases neg <;> simp [Int.neg_tdiv]
    · simp only [if_neg hneg]
      obtain ⟨q, r, e, qw, qv, _, qp, _⟩ := div_int_big_spec a rs (by omega) hw hp
      simp only [e]
      obtain ⟨n, h1, h2, h3⟩ := quoBig_spec rest neg q qw qp hr
      refine ⟨n, h1, h2, ?_⟩
      rw [h3, List.map_cons, List.foldl_cons, val_fix, qv]
      congr 1
      rw [← Int.tdiv_eq_ediv_of_nonneg hp]
      cases neg <;> simp [Int.neg_tdiv]

theorem QUOTIENT_big_spec (v : List Word) (a : Num) (rest : List Num) (hv : WFv v)
    (ha : ∀ x ∈ a :: rest, x.WF ∧ isFix x ∧ x.val ≠ 0) :
    ∃ n, QUOTIENT (.big v :: a :: rest) = .ok n ∧ n.WF ∧
      n.val = ((a :: rest).map Num.val).foldl Int.tdiv (limbsVal v) := by
  have hs := sign_iff v hv
  simp only [QUOTIENT]
  split_ifs with h
  · obtain ⟨p, q⟩ := complement_big_spec v hv
    have := hs.1 h
    obtain ⟨n, h1, h2, h3⟩ := quoBig_spec (a :: rest) true _ p (by omega) ha
    exact ⟨n, h1, h2, by rw [h3, q, if_pos rfl, neg_neg]⟩
  · have : 0 ≤ limbsVal v := by
      by_contra hh; exact h (hs.2 (by omega))
    obtain ⟨n, h1, h2, h3⟩ := quoBig_spec (a :: rest) false v hv this ha
    exact ⟨n, h1, h2, by rw [h3]; rfl⟩

/-! ### TIMES -/

/-- `z` is not in the lowest part of a word-count range: no well-formed vector with value `z` has
`-2^63` as its top word. -/
def OffBoundary (z : Int) : Prop :=
  ∀ k : Nat, ¬ (-(2 ^ 63) ^ (k + 1) ≤ z ∧ z < -(2 ^ 63) ^ (k + 1) + (2 ^ 63) ^ k)

theorem top_ne_min (v : List Word) (hv : WFv v) (h : OffBoundary (limbsVal v)) :
    (big_sign v).toInt ≠ -9223372036854775808 := by
  obtain ⟨u, t, rfl⟩ := snoc_cases v hv.ne_nil
  obtain ⟨r1, r2⟩ := snoc_range u t hv
  rw [big_sign_snoc]
  intro e
  apply h u.length
  rw [r1, e, pwZ]
  generalize ((2 ^ 63) ^ u.length : Int) = P at *
  constructor <;> omega

theorem bigTimesFix_spec (b : List Word) (is : Word) (hb : WFv b)
    (hpos : 0 < limbsVal b → 0 < (big_sign b).toInt) (hoff : OffBoundary (limbsVal b))
    (hi : InFix is.toInt) :
    (bigTimesFix b is).WF ∧ (bigTimesFix b is).val = limbsVal b * is.toInt ∧
    (∀ u, bigTimesFix b is = .big u → 0 < limbsVal u → 0 < (big_sign u).toInt) := by
  have hs := sign_iff b hb
  have htop := top_ne_min b hb hoff
  have hn := toInt_neg' is (infix_ne_min hi)
  have hns := toInt_neg' (big_sign b) htop
  -- the normalized vector before the last step
  have key : ∃ w, WFv w ∧ limbsVal w = limbsVal b * is.toInt ∧ bigTimesFix b is = normalize_bignum w := by
    obtain ⟨cp, cq⟩ := complement_big_spec b hb
    unfold bigTimesFix
    by_cases h1 : (big_sign b).toInt < 0
    · have hv := hs.1 h1
      by_cases h2 : is.toInt < 0
      · obtain ⟨mp, mq, ms⟩ := mul_int_big_spec (-is) _ (by omega) cp (by omega)
        refine ⟨_, mp, by rw [mq, cq, hn]; ring, ?_⟩
        simp only [h1, h2, if_true]
        rw [if_neg (by omega)]
      · obtain ⟨mp, mq, ms⟩ := mul_int_big_spec is _ (by omega) cp (by omega)
        obtain ⟨dp, dq⟩ := complement_big_spec _ mp
        refine ⟨_, dp, by rw [dq, mq, cq]; ring, ?_⟩
        simp only [h1, h2, if_true, if_false]
    · have hv : 0 ≤ limbsVal b := by
        by_contra hh; exact h1 (hs.2 (by omega))
      by_cases h2 : is.toInt < 0
      · obtain ⟨mp, mq, ms⟩ := mul_int_big_spec (-is) b (by omega) hb hv
        by_cases h3 : limbsVal b = 0
        · by_cases h4 : (-big_sign b).toInt < 0
          · obtain ⟨dp, dq⟩ := complement_big_spec _ mp
            refine ⟨_, dp, by rw [dq, mq, hn]; ring, ?_⟩
            simp only [h1, h2, h4, if_true, if_false]
          · refine ⟨_, mp, by rw [mq, h3]; ring, ?_⟩
            simp only [h1, h2, h4, if_true, if_false]
        · have h4 := hpos (by omega)
          obtain ⟨dp, dq⟩ := complement_big_spec _ mp
          refine ⟨_, dp, by rw [dq, mq, hn]; ring, ?_⟩
          have h5 : (-big_sign b).toInt < 0 := by omega
          simp only [h1, h2, h5, if_true, if_false]
      · obtain ⟨mp, mq, ms⟩ := mul_int_big_spec is b (by omega) hb hv
        refine ⟨_, mp, by rw [mq]; ring, ?_⟩
        simp only [h1, h2, if_false]
  obtain ⟨w, ww, wv, we⟩ := key
  rw [we]
  refine ⟨norm_wf ww, by rw [norm_val ww, wv], ?_⟩
  intro u hu hp
  have hv := norm_val ww
  rw [hu, val_big] at hv
  have hc := (normalize_bignum_spec w ww).2.2 (fun hneg => by omega)
  rw [hu] at hc
  rcases canon_pos u hc (by omega) with h | h
  · exact h.1
  · exact h.2

/-- the states `TIMES` can be in -/
def TV (sign : Word) : Acc → Prop
  | .fixnum is => InFix is.toInt ∧ (0 < is.toInt → sign = 1)
  | .bignum b => WFv b ∧ (0 < limbsVal b → 0 < (big_sign b).toInt) ∧
      (2 ^ 61 ≤ limbsVal b ∨ limbsVal b ≤ -2 ^ 61)

theorem infix_off (z : Int) (h : InFix z) : OffBoundary z := by
  intro k hk
  have h1 : (1 : Int) ≤ (2 ^ 63) ^ k := one_le_pow₀ (by norm_num)
  rw [pwZ] at hk
  generalize ((2 ^ 63) ^ k : Int) = P at *
  unfold InFix at h
  omega

theorem mul_away (a b : Int) (ha : 2 ^ 61 ≤ a ∨ a ≤ -2 ^ 61) (h : 0 < a * b) : 2 ^ 61 ≤ a * b := by
  rcases ha with ha | ha
  · have : 0 < b := by by_contra hh; nlinarith
    nlinarith
  · have : b < 0 := by by_contra hh; nlinarith
    nlinarith

/-- magnitude invariant is restored by the next state -/
theorem tv_next (s : Word) (n : Num) (hw : n.WF)
    (h1 : 0 < n.val → 2 ^ 61 ≤ n.val)
    (h2 : ∀ u, n = .big u → 0 < limbsVal u → 0 < (big_sign u).toInt)
    (h3 : ∀ u, n = .big u → 2 ^ 61 ≤ limbsVal u ∨ limbsVal u ≤ -2 ^ 61) :
    TV s (toAcc n) := by
  cases n with
  | fix w =>
    refine ⟨hw, fun h => ?_⟩
    have := h1 h
    simp only [Num.WF, InFix, val_fix] at *
    omega
  | big u =>
    exact ⟨hw, h2 u rfl, h3 u rfl⟩

theorem contNum_eq (s : Word) (n : Num) : contNum s n = .cont s (toAcc n) := by
  cases n <;> rfl

theorem timesLoopA_big (sign : Word) (b : List Word) (is : Word) (rest : List Num) :
    timesLoopA sign (.bignum b) (.fix is :: rest) =
      timesLoopA (if is.toInt < 0 then -big_sign b else big_sign b) (toAcc (bigTimesFix b is)) rest := by
  rw [timesLoopA, timesStep, contNum_eq]

theorem timesLoopA_fixbig (sign : Word) (a : List Word) (is : Word) (rest : List Num) :
    timesLoopA sign (.fixnum is) (.big a :: rest) =
      timesLoopA (if is.toInt < 0 then -big_sign a else big_sign a) (toAcc (bigTimesFix a is)) rest := by
  rw [timesLoopA, timesStep, contNum_eq]

theorem mul_away2 (a b : Int) (ha : 2 ^ 61 ≤ a ∨ a ≤ -2 ^ 61) (h : b ≠ 0) :
    2 ^ 61 ≤ a * b ∨ a * b ≤ -2 ^ 61 := by
  rcases lt_or_gt_of_ne h with hb | hb <;> rcases ha with ha | ha
  · right; nlinarith
  · left; nlinarith
  · left; nlinarith
  · right; nlinarith

theorem norm_zero (n : Num) (v : List Word) (hv : WFv v) (h0 : limbsVal v = 0)
    (hn : n = normalize_bignum v) : n = .fix 0 := by
  subst hn
  have hc := (normalize_bignum_spec v hv).2.2 (fun h => by omega)
  refine canon_unique_num _ (.fix 0) hc ?_ ?_
  · show InFix (0 : Word).toInt
    rw [toInt_zero]; unfold InFix; omega
  · rw [norm_val hv, h0]; rfl

/-- the state after multiplying a bignum by a fixnum -/
theorem tv_bigTimes (s : Word) (b : List Word) (is : Word) (hb : WFv b)
    (hpos : 0 < limbsVal b → 0 < (big_sign b).toInt) (hoff : OffBoundary (limbsVal b))
    (hmag : 2 ^ 61 ≤ limbsVal b ∨ limbsVal b ≤ -2 ^ 61) (hi : InFix is.toInt) :
    TV s (toAcc (bigTimesFix b is)) ∧ (toAcc (bigTimesFix b is)).val = limbsVal b * is.toInt := by
  obtain ⟨p, q, r⟩ := bigTimesFix_spec b is hb hpos hoff hi
  refine ⟨?_, by rw [toAcc_val, q]⟩
  by_cases h0 : is.toInt = 0
  · -- the product is zero
    have hfix : bigTimesFix b is = .fix 0 := by
      have hz : is = 0 := by apply BitVec.eq_of_toInt_eq; rw [h0]; rfl
      subst hz
      have hs := sign_iff b hb
      have h00 : ¬ (0 : Word).toInt < 0 := by decide
      unfold bigTimesFix
      simp only [h00, if_false]
      obtain ⟨cp, cq⟩ := complement_big_spec b hb
      have main : ∀ w, WFv w → 0 ≤ limbsVal w →
          normalize_bignum (if (big_sign b).toInt < 0 then complement_big (mul_int_big 0 w)
            else mul_int_big 0 w) = .fix 0 := by
        intro w hw hwp
        obtain ⟨mp, mq, _⟩ := mul_int_big_spec 0 w (by decide) hw hwp
        rw [toInt_zero, zero_mul] at mq
        split_ifs
        · obtain ⟨dp, dq⟩ := complement_big_spec _ mp
          exact norm_zero _ _ dp (by omega) rfl
        · exact norm_zero _ _ mp mq rfl
      split_ifs with hneg
      · have := main (complement_big b) cp (by have := hs.1 hneg; omega)
        rwa [if_pos hneg] at this
      · have := main b hb (by by_contra hh; exact hneg (hs.2 (by omega)))
        rwa [if_neg hneg] at this
    rw [hfix]
    refine ⟨?_, fun h => ?_⟩
    · show InFix (0 : Word).toInt
      rw [toInt_zero]; unfold InFix; omega
    · exact absurd h (by decide)
  · refine tv_next s _ p (fun h => ?_) r (fun u hu => ?_)
    · rw [q] at h ⊢; exact mul_away _ _ hmag h
    · rw [hu, val_big] at q
      rw [q]; exact mul_away2 _ _ hmag h0

theorem mul_pm (lo q : Word) (hlo : lo.toNat < 2 ^ 61) (hq : q = 1 ∨ q = -1) :
    (lo * q).toInt = lo.toNat * q.toInt := by
  have hl := toInt_of_lt lo (by omega)
  rcases hq with rfl | rfl
  · have : lo * (1 : Word) = lo := BitVec.mul_one lo
    rw [this, toInt_one, hl]; omega
  · have : lo * (-1 : Word) = -lo := by rw [BitVec.mul_neg]; congr 1; exact BitVec.mul_one lo
    rw [this, toInt_m1, toInt_neg' lo (by omega), hl]; omega

theorem and7_iff (w : Word) (h : w.toNat < 2 ^ 63) : w &&& (7#64 <<< 61) ≠ 0 ↔ 2 ^ 61 ≤ w.toNat := by
  have key : (w &&& (7#64 <<< 61)) = 0 ↔ w.toNat < 2 ^ 61 := by
    have e : (w &&& (7#64 <<< 61)).toNat = w.toNat / 2 ^ 61 * 2 ^ 61 := by
      have h7 : (7#64 <<< 61 : Word).toNat = 7 * 2 ^ 61 := by decide
      rw [BitVec.toNat_and, h7]
      apply Nat.eq_of_testBit_eq
      intro i
      rw [Nat.testBit_and, Nat.testBit_mul_two_pow, Nat.testBit_mul_two_pow, Nat.testBit_div_two_pow]
      by_cases hi : 61 ≤ i
      · simp only [hi, decide_true, Bool.true_and]
        have e2 : i - 61 + 61 = i := by omega
        rw [e2]
        rcases Nat.lt_or_ge i 64 with h64 | h64
        · have : i = 61 ∨ i = 62 ∨ i = 63 := by omega
          rcases this with rfl | rfl | rfl <;> simp [Nat.testBit]
        · have : w.toNat.testBit i = false := Nat.testBit_lt_two_pow (lt_of_lt_of_le w.isLt (Nat.pow_le_pow_right (by omega) h64))
          simp [this]
      · simp [hi]
    rw [word_eq_iff, e, toNat_zero]
    omega
  rw [ne_eq, key]; omega

/-- one fixnum times fixnum step -/
theorem timesFixFix (sign is s : Word) (hi : InFix is.toInt)
    (hsg : 0 < is.toInt → sign = 1) (hs : InFix s.toInt) :
    (timesFF sign is s = .done (.ok (.fix 0)) ∧ is.toInt * s.toInt = 0) ∨
    ∃ sign' x, timesFF sign is s = .cont sign' x ∧
      TV sign' x ∧ x.val = is.toInt * s.toInt := by
  unfold timesFF
  have z1 : is = 0 ↔ is.toInt = 0 := ⟨fun h => by rw [h]; rfl, fun h => BitVec.eq_of_toInt_eq (by rw [h]; rfl)⟩
  have z2 : s = 0 ↔ s.toInt = 0 := ⟨fun h => by rw [h]; rfl, fun h => BitVec.eq_of_toInt_eq (by rw [h]; rfl)⟩
  by_cases h0 : s = 0 ∨ is = 0
  · left
    rw [if_pos h0]
    refine ⟨by rfl, ?_⟩
    rcases h0 with h | h
    · rw [z2.1 h, mul_zero]
    · rw [z1.1 h, zero_mul]
  · right
    rw [if_neg h0]
    have n1 : is.toInt ≠ 0 := fun h => h0 (.inr (z1.2 h))
    have n2 : s.toInt ≠ 0 := fun h => h0 (.inl (z2.2 h))
    -- magnitudes and sign
    obtain ⟨p, hp⟩ : ∃ p, p = (if is.toInt < 0 then ((-1 : Word), -is) else (sign, is)) := ⟨_, rfl⟩
    obtain ⟨q, hq⟩ : ∃ q, q = (if s.toInt < 0 then (-p.1, -s) else (p.1, s)) := ⟨_, rfl⟩
    have hni := toInt_neg' is (infix_ne_min hi)
    have hns := toInt_neg' s (infix_ne_min hs)
    have hp1 : 0 < p.2.toInt ∧ p.2.toInt ≤ 2 ^ 61 ∧ (p.1 = 1 ∨ p.1 = -1) ∧ p.1.toInt * p.2.toInt = is.toInt := by
      unfold InFix at hi
      rw [hp]
      split_ifs with h
      · dsimp only
        refine ⟨by omega, by omega, .inr rfl, ?_⟩
        rw [toInt_m1]; omega
      · dsimp only
        have := hsg (by omega)
        refine ⟨by omega, by omega, .inl this, ?_⟩
        rw [this, toInt_one]; omega
    obtain ⟨p1, p2, p3, p4⟩ := hp1
    have hq1 : 0 < q.2.toInt ∧ q.2.toInt ≤ 2 ^ 61 ∧ (q.1 = 1 ∨ q.1 = -1) ∧
        q.1.toInt * (p.2.toInt * q.2.toInt) = is.toInt * s.toInt := by
      unfold InFix at hs
      rw [hq]
      split_ifs with h
      · dsimp only
        refine ⟨by omega, by omega, ?_, ?_⟩
        · rcases p3 with e | e
          · right; rw [e]
          · left; rw [e]; decide
        · have : (-p.1).toInt = -p.1.toInt := by
            rcases p3 with e | e <;> rw [e] <;> decide
          rw [this, hns, ← p4]; ring
      · dsimp only
        refine ⟨by omega, by omega, p3, ?_⟩
        rw [← p4]; ring
    obtain ⟨q1, q2, q3, q4⟩ := hq1
    have e1 := toNat_of_nonneg p.2 (by omega)
    have e2 := toNat_of_nonneg q.2 (by omega)
    have hm := extended_mul_spec p.2 q.2 0 (by omega) (by omega) (by decide)
    rw [toNat_zero, Nat.add_zero] at hm
    rw [← hp]
    dsimp only
    rw [← hq]
    obtain ⟨m, hmm⟩ : ∃ m, m = extended_mul p.2 q.2 0 := ⟨_, rfl⟩
    rw [← hmm] at hm ⊢
    obtain ⟨m1, m2, m3⟩ := hm
    have hprod : ((m.1.toNat * 2 ^ 63 + m.2.toNat : Nat) : Int) = p.2.toInt * q.2.toInt := by
      rw [m1]; push_cast; rw [e1, e2]
    have hmpos : 1 ≤ p.2.toInt * q.2.toInt := by nlinarith
    have hm1i := toInt_of_lt m.1 (by simpa using m3)
    have hq1s : q.1.toInt < 0 ↔ q.1 = -1 := by
      rcases q3 with e | e <;> rw [e] <;> decide
    have h7 := and7_iff m.2 m2
    have hz : m.1 ≠ 0 ↔ m.1.toNat ≠ 0 := by rw [ne_eq, word_eq_iff, toNat_zero]
    by_cases ho : m.1 ≠ 0 ∨ m.2 &&& (7#64 <<< 61) ≠ 0
    · rw [if_pos ho]
      rw [h7, hz] at ho
      have hmask : (m.2 &&& MASK) = m.2 := by
        apply BitVec.eq_of_toNat_eq; rw [and_mask]; omega
      rw [hmask]
      have hw : WFv [m.2, m.1] := ⟨m2, trivial⟩
      have hv : limbsVal [m.2, m.1] = p.2.toInt * q.2.toInt := by
        rw [limbsVal_two, hm1i, ← hprod]; push_cast; ring
      have hge : 2 ^ 61 ≤ p.2.toInt * q.2.toInt := by rw [← hprod]; push_cast; omega
      have hnv := norm_val hw
      have hc := (normalize_bignum_spec _ hw).2.2 (fun h => by omega)
      obtain ⟨b, hb⟩ := wf_big_of_not_infix _ (norm_wf hw) (by rw [hnv, hv]; unfold InFix; omega)
      rw [hb] at hnv hc ⊢
      rw [val_big, hv] at hnv
      obtain ⟨cp, cq⟩ := complement_big_spec b hc.1
      refine ⟨q.1, .bignum (if q.1.toInt < 0 then complement_big b else b), rfl, ?_, ?_⟩
      · split_ifs with h
        · exact ⟨cp, fun h => by omega, by omega⟩
        · refine ⟨hc.1, fun h => ?_, by omega⟩
          rcases canon_pos b hc (by omega) with h | h
          · exact h.1
          · exact h.2
      · show limbsVal (if q.1.toInt < 0 then complement_big b else b) = _
        rcases q3 with e | e
        · rw [if_neg (by rw [e]; decide), hnv, ← q4, e, toInt_one]; ring
        · rw [if_pos (by rw [e]; decide), cq, hnv, ← q4, e, toInt_m1]; ring
    · rw [if_neg ho]
      rw [h7, hz] at ho
      push Not at ho
      have hlo : m.2.toNat < 2 ^ 61 := ho.2
      have hpr : (m.2.toNat : Int) = p.2.toInt * q.2.toInt := by
        rw [← hprod, ho.1]; push_cast; ring
      have hmul := mul_pm m.2 q.1 hlo q3
      refine ⟨q.1, .fixnum (m.2 * q.1), rfl, ⟨?_, ?_⟩, ?_⟩
      · rw [hmul]; unfold InFix
        rcases q3 with e | e <;> rw [e]
        · rw [toInt_one]; omega
        · rw [toInt_m1]; omega
      · rw [hmul]
        rcases q3 with e | e
        · intro _; exact e
        · rw [e, toInt_m1]; intro h; omega
      · show (m.2 * q.1).toInt = _
        rw [hmul, hpr, ← q4]; ring

/-- Product of the values of a list of integer objects. -/
theorem timesLoopA_spec : ∀ (args : List Num) (sign : Word) (x : Acc), TV sign x →
    (∀ a ∈ args, a.WF ∧ isFix a) →
    (∀ k < args.length, OffBoundary (x.val * ((args.take k).map Num.val).prod)) →
    ∃ n, timesLoopA sign x args = .ok n ∧ n.WF ∧ n.val = x.val * (args.map Num.val).prod
  | [], sign, .fixnum is, hx, _, _ => by
    refine ⟨.fix is, ?_, hx.1, by simp [Acc.val, val_fix]⟩
    simp only [timesLoopA]; rw [makeint_infix is hx.1]
  | [], sign, .bignum b, hx, _, _ => ⟨.big b, rfl, hx.1, by simp [Acc.val, val_big]⟩
  | .big a :: rest, sign, x, _, ha, _ => (ha (.big a) (by simp)).2.elim
  | .fix s :: rest, sign, .fixnum is, hx, ha, hk => by
    have hr : ∀ a ∈ rest, a.WF ∧ isFix a := fun y hy => ha y (by simp [hy])
    rcases timesFixFix sign is s hx.1 hx.2 (ha (.fix s) (by simp)).1 with ⟨h1, h2⟩ | ⟨s', y, h1, h2, h3⟩
    · refine ⟨.fix 0, by rw [timesLoopA, timesStep, h1], ?_, ?_⟩
      · show InFix (0 : Word).toInt
        rw [toInt_zero]; unfold InFix; omega
      · show (0 : Word).toInt = is.toInt * _
        rw [List.map_cons, List.prod_cons, val_fix, ← mul_assoc, h2, zero_mul]; rfl
    · rw [timesLoopA, timesStep, h1]
      obtain ⟨n, g1, g2, g3⟩ := timesLoopA_spec rest s' y h2 hr (fun k hkl => by
        have := hk (k + 1) (by simpa using hkl)
        rw [List.take_succ_cons, List.map_cons, List.prod_cons, val_fix, ← mul_assoc] at this
        rw [h3]; exact this)
      refine ⟨n, g1, g2, ?_⟩
      rw [g3, h3, List.map_cons, List.prod_cons, val_fix, ← mul_assoc]; rfl
  | .fix s :: rest, sign, .bignum b, hx, ha, hk => by
    have hr : ∀ a ∈ rest, a.WF ∧ isFix a := fun y hy => ha y (by simp [hy])
    have hoff : OffBoundary (limbsVal b) := by
      have := hk 0 (by simp)
      simpa [Acc.val] using this
    rw [timesLoopA_big]
    obtain ⟨t1, t2⟩ := tv_bigTimes (if s.toInt < 0 then -big_sign b else big_sign b) b s hx.1 hx.2.1 hoff hx.2.2
      (ha (.fix s) (by simp)).1
    obtain ⟨n, g1, g2, g3⟩ := timesLoopA_spec rest _ _ t1 hr (fun k hkl => by
      have := hk (k + 1) (by simpa using hkl)
      rw [List.take_succ_cons, List.map_cons, List.prod_cons, val_fix, ← mul_assoc] at this
      rw [t2]; exact this)
    refine ⟨n, g1, g2, ?_⟩
    rw [g3, t2, List.map_cons, List.prod_cons, val_fix, ← mul_assoc]; rfl

theorem canon_TV (v : List Word) (s : Word) (h : (Num.big v).Canonical) : TV s (.bignum v) := by
  refine ⟨h.1, fun hp => ?_, ?_⟩
  · rcases canon_pos v h (by omega) with h | h
    · exact h.1
    · exact h.2
  · have := h.2.1; unfold InFix at this; omega

end Eus.Num
