import Verif.Sgp.Model
import Verif.Bdv.Props
set_option autoImplicit false
/-
C207: sign and parity.
-/
namespace Eus.Sgp
open Eus.Num

theorem zero_canon : (Num.fix 0).Canonical := by show InFix (0 : Word).toInt; unfold InFix; decide

theorem zero_val : (Num.fix 0).val = 0 := by decide

/-- C207: zerop, plusp and minusp of every integer -/
theorem C207_sign (n : Num) (h : n.Canonical) :
    zerop n = some (decide (n.val = 0)) ∧ plusp n = some (decide (0 < n.val)) ∧ minusp n = some (decide (n.val < 0)) := by
  have hc : ∀ a ∈ [n, Num.fix 0], a.Canonical := by
    intro a ha
    simp only [List.mem_cons, List.not_mem_nil, or_false] at ha
    rcases ha with rfl | rfl
    · exact h
    · exact zero_canon
  have hb : [n, Num.fix 0].IsChain (fun a b => ¬ BadPair a b) := by
    rw [List.isChain_cons_cons]
    refine ⟨?_, List.isChain_singleton _⟩
    rintro ⟨u, v, _, h2, _⟩
    cases h2
  obtain ⟨b0, e0, i0⟩ := C09_equal [n, .fix 0] (by simp) hc
  obtain ⟨⟨b1, e1, i1⟩, ⟨b2, e2, i2⟩, _⟩ := C09_order_partial [n, .fix 0] (by simp) hc hb
  refine ⟨?_, ?_, ?_⟩
  · unfold zerop
    rw [e0]
    congr 1
    rw [Bool.eq_iff_iff, i0, decide_eq_true_iff]
    constructor
    · intro g
      have := g n (by simp) (.fix 0) (by simp)
      rw [zero_val] at this
      exact this
    · intro g x hx y hy
      have : ∀ a ∈ [n, Num.fix 0], a.val = 0 := by
        intro a ha
        simp only [List.mem_cons, List.not_mem_nil, or_false] at ha
        rcases ha with rfl | rfl
        · exact g
        · exact zero_val
      rw [this x hx, this y hy]
  · unfold plusp
    rw [e1]
    congr 1
    rw [Bool.eq_iff_iff, i1, decide_eq_true_iff, List.isChain_cons_cons, zero_val]
    simp
  · unfold minusp
    rw [e2]
    congr 1
    rw [Bool.eq_iff_iff, i2, decide_eq_true_iff, List.isChain_cons_cons, zero_val]
    simp

theorem bit0 (v : Word) : ((v.sshiftRight (0 : Word).toNat) &&& 1#64 ≠ 0) ↔ v.toNat % 2 = 1 := by
  have e : v.sshiftRight (0 : Word).toNat = v := by
    show v.sshiftRight 0 = v
    simp
  rw [e]
  have h : (v &&& 1#64).toNat = v.toNat % 2 := by
    rw [BitVec.toNat_and]
    exact Nat.and_one_is_mod _
  constructor
  · intro hne
    by_contra hc
    apply hne
    apply BitVec.eq_of_toNat_eq
    rw [h]
    show _ = 0
    omega
  · intro ho he
    rw [he] at h
    have : (0 : Word).toNat = 0 := rfl
    omega

theorem oddp_word (n : Num) (v : Word) (h : ckintval n = some v) : oddp n = if v.toNat % 2 = 1 then .yes else .no := by
  have h0 : ckintval (.fix 0) = some 0 := rfl
  unfold oddp LOGBITP
  rw [h0, h]
  simp only
  rw [if_neg (by decide), if_neg (by decide)]
  by_cases hp : v.toNat % 2 = 1
  · rw [if_pos hp, if_pos ((bit0 v).2 hp)]
  · rw [if_neg hp, if_neg (fun g => hp ((bit0 v).1 g))]

theorem toInt_mod2 (w : Word) : w.toInt % 2 = 1 ↔ w.toNat % 2 = 1 := by
  rw [BitVec.toInt_eq_toNat_cond]
  split <;> omega

theorem join_mod2 (a b : Word) : ((b <<< 63) ||| a).toNat % 2 = a.toNat % 2 := by
  rw [BitVec.toNat_or, BitVec.toNat_shiftLeft]
  have : b.toNat <<< 63 % 2 ^ 64 = 2 * (b.toNat <<< 63 % 2 ^ 64 / 2) := by
    rw [Nat.shiftLeft_eq]
    omega
  rw [this]
  generalize b.toNat <<< 63 % 2 ^ 64 / 2 = x
  have h := Nat.testBit_or (2 * x) a.toNat 0
  simp only [Nat.testBit_zero] at h
  have h1 : ¬ 2 * x % 2 = 1 := by omega
  simp only [h1, decide_false, Bool.false_or, decide_eq_decide] at h
  omega

/-- C207: oddp and evenp of every integer from -2^126 to 2^64 - 1; an error for all others -/
theorem C207_parity_partial (n : Num) (h : n.Canonical) :
    (-2 ^ 126 ≤ n.val ∧ n.val < 2 ^ 64 →
      oddp n = (if n.val % 2 = 1 then .yes else .no) ∧ evenp n = (if n.val % 2 = 0 then .yes else .no)) ∧
    (¬ (-2 ^ 126 ≤ n.val ∧ n.val < 2 ^ 64) → oddp n = .err ∧ evenp n = .err) := by
  have hev : ∀ v : Word, (n.val % 2 = 1 ↔ v.toNat % 2 = 1) → ckintval n = some v →
      oddp n = (if n.val % 2 = 1 then .yes else .no) ∧ evenp n = (if n.val % 2 = 0 then .yes else .no) := by
    intro v hv hk
    have ho := oddp_word n v hk
    unfold evenp
    have ho' : LOGBITP (.fix 0) n = if v.toNat % 2 = 1 then .yes else .no := ho
    rw [ho, ho']
    by_cases hp : v.toNat % 2 = 1
    · have h1 := hv.2 hp
      rw [if_pos hp, if_pos h1, if_neg (by omega)]
      exact ⟨rfl, rfl⟩
    · have h1 : ¬ n.val % 2 = 1 := fun g => hp (hv.1 g)
      rw [if_neg hp, if_neg h1, if_pos (by omega)]
      exact ⟨rfl, rfl⟩
  have herr : ckintval n = none → oddp n = .err ∧ evenp n = .err := by
    intro hk
    have : LOGBITP (.fix 0) n = .err := by
      unfold LOGBITP
      rw [hk]
      cases ckintval (.fix 0) <;> rfl
    unfold oddp evenp
    rw [this]
    exact ⟨rfl, rfl⟩
  cases n with
  | fix w =>
    have hw : InFix w.toInt := h
    unfold InFix at hw
    refine ⟨fun _ => hev w (toInt_mod2 w) rfl, fun g => ?_⟩
    exfalso; apply g
    show -2 ^ 126 ≤ w.toInt ∧ w.toInt < 2 ^ 64
    omega
  | big v =>
    match v, h with
    | [a], h =>
      have ha := BitVec.toInt_lt (x := a)
      have hb := BitVec.le_toInt (x := a)
      refine ⟨fun _ => hev a (toInt_mod2 a) rfl, fun g => ?_⟩
      exfalso; apply g
      show -2 ^ 126 ≤ a.toInt ∧ a.toInt < 2 ^ 64
      norm_num at ha hb ⊢
      omega
    | [a, b], h =>
      have hval : (Num.big [a, b]).val = (a.toNat : Int) + 2 ^ 63 * b.toInt := rfl
      have ha : a.toNat < 2 ^ 63 := h.1.1
      have hb := BitVec.le_toInt (x := b)
      have hk : ckintval (.big [a, b]) = if b.toInt < 2 then some ((b <<< 63) ||| a) else none := rfl
      norm_num at hb
      rw [hval] at hev ⊢
      by_cases h2 : b.toInt < 2
      · rw [if_pos h2] at hk
        refine ⟨fun _ => hev _ ?_ hk, fun g => ?_⟩
        · rw [join_mod2]; omega
        · exfalso; apply g; omega
      · rw [if_neg h2] at hk
        exact ⟨fun g => by omega, fun _ => herr hk⟩
    | a :: b :: c :: r, h =>
      have hl := h.2.2 (by simp)
      refine ⟨fun g => ?_, fun _ => herr rfl⟩
      exfalso
      apply hl
      have hp : ((2 : Int) ^ 63) ^ 2 ≤ (2 ^ 63) ^ ((a :: b :: c :: r).length - 1) := pow_le_pow_right₀ (by norm_num) (by simp)
      have g' : -2 ^ 126 ≤ limbsVal (a :: b :: c :: r) ∧ limbsVal (a :: b :: c :: r) < 2 ^ 64 := g
      have e : ((2 : Int) ^ 63) ^ 2 = 2 ^ 126 := by norm_num
      rw [e] at hp
      generalize ((2 : Int) ^ 63) ^ ((a :: b :: c :: r).length - 1) = P at *
      have hneg : -(2 : Int) ^ 126 ≤ limbsVal (a :: b :: c :: r) := by simpa using g'.1
      constructor
      · linarith
      · have : (2 : Int) ^ 64 ≤ 2 ^ 126 := by norm_num
        linarith [g'.2]

/-- C207: signum of every fixnum but the most negative one -/
theorem C207_signum_fixnum_partial (fuel : Nat) (w : Word) (h : InFix w.toInt) (hm : w.toInt ≠ -2 ^ 61) :
    ∃ n, signum fuel (.fix w) = .ok n ∧ n.val = Int.sign w.toInt := by
  have hz := (C207_sign (.fix w) h).1
  unfold signum
  rw [hz]
  by_cases h0 : (Num.fix w).val = 0
  · refine ⟨.fix w, by simp [h0], ?_⟩
    have : w.toInt = 0 := h0
    show w.toInt = _
    rw [this]; rfl
  · have e : decide ((Num.fix w).val = 0) = false := by simp [h0]
    rw [e]
    simp only
    have hne : w.toInt ≠ 0 := h0
    have ha := C05_abs (.fix w) h
    have hmin : w ≠ MINNEGFIXNUM := by
      intro g; apply hm; rw [g]; decide
    obtain ⟨u, hu⟩ : ∃ u, ABS (.fix w) = .fix u := by
      simp only [ABS, if_neg hmin]
      have hn := toInt_neg' w (infix_ne_min h)
      refine ⟨_, makeint_infix _ ?_⟩
      unfold InFix at h ⊢
      split <;> omega
    rw [hu] at ha ⊢
    obtain ⟨n, hn, hv⟩ := C07_fixnum_quotient w [.fix u] (by simp) h
      (by intro a h1; rw [List.mem_singleton] at h1; exact ⟨u, h1, ha.1⟩)
      (by
        intro d hd
        rw [List.mem_singleton] at hd
        rw [hd, ha.2]
        show |w.toInt| ≠ 0
        simpa using hne)
    refine ⟨n, hn, ?_⟩
    rw [hv]
    show w.toInt.tdiv (Num.fix u).val = _
    rw [ha.2]
    show w.toInt.tdiv |w.toInt| = _
    rcases lt_trichotomy w.toInt 0 with g | g | g
    · rw [abs_of_neg g, Int.sign_eq_neg_one_of_neg g, Int.tdiv_neg, Int.tdiv_self hne]
    · exact absurd g hne
    · rw [abs_of_pos g, Int.sign_eq_one_of_pos g, Int.tdiv_self hne]

theorem div_self (fuel : Nat) (hf : 2 ≤ fuel) (x : List Word) (hx0 : x ≠ []) (hx : Small x) (tx : Bdv.Top x) : Bdv.div_big_big fuel x x = .ok 1 := by
  have hpos : 0 < uval x := lt_of_lt_of_le (Nat.pow_pos (by decide)) (Bdv.top_le x hx0 tx)
  obtain ⟨u, t, rfl⟩ := snoc_cases x hx0
  have ht : 0 < t.toNat := by have := tx hx0; rwa [big_sign_snoc] at this
  have ht0 : t ≠ 0 := by intro e; rw [e] at ht; simp at ht
  have hsmall : t.toNat < 2 ^ 63 := by have := hx t (by simp); omega
  have hti : t.toInt = t.toNat := by
    rw [BitVec.toInt_eq_toNat_cond]; split <;> omega
  have hsd : t.sdiv t = 1 := by
    apply BitVec.eq_of_toInt_eq
    rw [BitVec.toInt_sdiv_of_ne_or_ne]
    · rw [hti, Int.tdiv_self (by omega)]; rfl
    · left; intro e; rw [e] at hti; revert hti; decide
  have hg : Bdv.guess (u ++ [t]) (u ++ [t]) = some (-1) := by
    unfold Bdv.guess
    simp only [big_sign_snoc, ne_eq, not_true, if_false]
    rw [show (u ++ [t]).length - 1 = u.length by simp, Bdv.getElem_last]
    simp only [if_neg ht0, hsd]
    decide
  rw [Bdv.div_big_big, hg]
  simp only
  rw [if_pos (by decide), Bdv.rounds_spec _ hx0 hx tx 1 fuel 0 _ hx tx (by rw [Nat.div_self hpos]) (by omega), Nat.div_self hpos]
  decide

/-- C207: signum of every bignum -/
theorem C207_signum_bignum (fuel : Nat) (hf : 2 ≤ fuel) (v : List Word) (h : (Num.big v).Canonical) :
    signum fuel (.big v) = .ok (.fix (if limbsVal v < 0 then -1 else 1)) := by
  have hz := (C207_sign (.big v) h).1
  have hs := canon_sign v h
  have hne : limbsVal v ≠ 0 := by omega
  unfold signum
  rw [hz]
  have e : decide ((Num.big v).val = 0) = false := by
    rw [decide_eq_false_iff_not]; exact hne
  rw [e]
  simp only [ABS]
  obtain ⟨m1, m2, m3, m4⟩ := Bdv.magnitude v h _ rfl
  by_cases hneg : (big_sign v).toInt < 0
  · rw [if_pos hneg] at m1 m2 m3 ⊢
    simp only [Bdv.QUOTIENT, if_pos hneg, Bdv.quoBig, div_self fuel hf _ m1 m2 m3, Bdv.bigResult]
    rw [if_pos (show limbsVal v < 0 by omega)]
    decide
  · rw [if_neg hneg] at m1 m2 m3 ⊢
    simp only [Bdv.QUOTIENT, if_neg hneg, Bdv.quoBig, div_self fuel hf _ m1 m2 m3, Bdv.bigResult]
    rw [if_neg (show ¬ limbsVal v < 0 by omega)]
    decide

/-! Cases that meet the hypotheses. -/

example : oddp (.fix (-3)) = .yes ∧ evenp (.big [0x4000000000000000#64]) = .yes ∧ oddp (.big [3, 1]) = .yes := by decide
example : plusp (.big [0, 1]) = some true ∧ minusp (.big [0, -1]) = some true ∧ zerop (.fix 0) = some true := by decide
example : signum 3 (.fix (-17)) = .ok (.fix (-1)) ∧ signum 3 (.big [-0x4000000000000000#64]) = .ok (.fix (-1)) := by decide +kernel

/-- C207: 3·2^63 is neither odd nor even. -/
theorem C207_parity_wrong : (Num.big [0, 3]).val = 3 * 2 ^ 63 ∧ oddp (.big [0, 3]) = .err ∧ evenp (.big [0, 3]) = .err := by decide

/-- C207: the sign of the most negative fixnum is 0. -/
theorem C207_signum_wrong (fuel : Nat) : signum fuel (.fix (-0x2000000000000000#64)) = .ok (.fix 0) := by
  have : zerop (.fix (-0x2000000000000000#64)) = some false := by decide
  unfold signum
  rw [this]
  show quoFix _ _ = _
  decide

end Eus.Sgp
