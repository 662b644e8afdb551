import Verif.Bits.Model
import Verif.Bits.Spec
import Verif.Num.Chain
import Mathlib.Tactic.Ring
import Mathlib.Tactic.NormNum
set_option autoImplicit false
set_option maxRecDepth 4000
namespace Eus.Num

/-! ### ibit -/

theorem ibit_word (w : Word) (i : Nat) : ibit w.toInt i = if i < 64 then w.getLsbD i else w.msb := by
  have h1 : w.toInt / 2 ^ i = (w.sshiftRight i).toInt := by
    rw [BitVec.toInt_sshiftRight, Int.shiftRight_eq_div_pow]; norm_num
  have h2 : ∀ u : Word, (u.toInt % 2 == 1) = u.getLsbD 0 := by
    intro u
    rw [BitVec.getLsbD, Nat.testBit_zero, toInt_cond]
    split_ifs <;> (rw [Bool.eq_iff_iff]; simp only [beq_iff_eq, decide_eq_true_eq]; omega)
  unfold ibit
  rw [h1, h2, BitVec.getLsbD_sshiftRight]
  simp

theorem ibit_nat (n i : Nat) : ibit (n : Int) i = n.testBit i := by
  unfold ibit
  rw [Nat.testBit_eq_decide_div_mod_eq, Bool.eq_iff_iff]
  simp only [beq_iff_eq, decide_eq_true_eq]
  have : ((n : Int) / 2 ^ i) = ((n / 2 ^ i : Nat) : Int) := by push_cast; rfl
  rw [this]; omega

theorem ibit_limb (w : Word) (h : w.toNat < 9223372036854775808) (i : Nat) :
    ibit (w.toNat : Int) i = if i < 63 then w.getLsbD i else false := by
  rw [ibit_nat]
  split_ifs with hi
  · rfl
  · apply Nat.testBit_lt_two_pow
    calc w.toNat < 2 ^ 63 := by omega
      _ ≤ 2 ^ i := Nat.pow_le_pow_right (by omega) (by omega)

theorem ibit_cons (l : Int) (r : Int) (h0 : 0 ≤ l) (h1 : l < 9223372036854775808) (i : Nat) :
    ibit (l + 9223372036854775808 * r) i = if i < 63 then ibit l i else ibit r (i - 63) := by
  unfold ibit
  split_ifs with hi
  · obtain ⟨k, hk⟩ : ∃ k, 63 = i + 1 + k := ⟨63 - (i + 1), by omega⟩
    have e : (9223372036854775808 : Int) = 2 ^ i * (2 * 2 ^ k) := by
      have : (9223372036854775808 : Int) = 2 ^ 63 := by norm_num
      rw [this, hk]; ring
    rw [e, mul_assoc, Int.add_mul_ediv_left _ _ (by positivity)]
    have : l / 2 ^ i + 2 * 2 ^ k * r = l / 2 ^ i + 2 * (2 ^ k * r) := by ring
    rw [this, Int.add_mul_emod_self_left]
  · obtain ⟨k, rfl⟩ : ∃ k, i = 63 + k := ⟨i - 63, by omega⟩
    have e : (2 : Int) ^ (63 + k) = 9223372036854775808 * 2 ^ k := by rw [pow_add]; norm_num
    rw [e, ← Int.ediv_ediv_of_nonneg (by norm_num), Int.add_mul_ediv_left _ _ (by norm_num),
      Int.ediv_eq_zero_of_lt h0 h1, zero_add]
    simp

theorem ibit_zero (i : Nat) : ibit 0 i = false := by simp [ibit]

/-- an integer is determined by its bits -/
theorem ibit_ext (a b : Int) (h : ∀ i, ibit a i = ibit b i) : a = b := by
  have key : ∀ n : Nat, ∀ a b : Int, -2 ^ n ≤ a → a < 2 ^ n → -2 ^ n ≤ b → b < 2 ^ n →
      (∀ i, ibit a i = ibit b i) → a = b := by
    intro n
    induction n with
    | zero =>
      intro a b h1 h2 h3 h4 h
      have := h 0
      unfold ibit at this
      rw [Bool.eq_iff_iff] at this
      simp only [beq_iff_eq, pow_zero, Int.ediv_one] at this
      simp only [pow_zero] at *
      omega
    | succ n ih =>
      intro a b h1 h2 h3 h4 h
      have e : a / 2 = b / 2 := by
        rw [pow_succ] at *
        apply ih <;> try omega
        intro i
        have := h (i + 1)
        unfold ibit at this ⊢
        rw [Int.ediv_ediv_of_nonneg (by norm_num), Int.ediv_ediv_of_nonneg (by norm_num)]
        rw [pow_succ, mul_comm] at this
        exact this
      have := h 0
      unfold ibit at this
      rw [Bool.eq_iff_iff] at this
      simp only [beq_iff_eq, pow_zero, Int.ediv_one] at this
      omega
  obtain ⟨n, hn⟩ : ∃ n : Nat, |a| + |b| < 2 ^ n := by
    refine ⟨(|a| + |b|).toNat, ?_⟩
    have h0 : 0 ≤ |a| + |b| := by positivity
    have := @Nat.lt_two_pow_self (|a| + |b|).toNat
    have h2 : (((|a| + |b|).toNat : Nat) : Int) < ((2 ^ (|a| + |b|).toNat : Nat) : Int) := by
      exact_mod_cast this
    push_cast at h2
    rw [Int.toNat_of_nonneg h0] at h2
    exact h2
  have ha := abs_le.1 (le_refl |a|)
  have hb := abs_le.1 (le_refl |b|)
  have := abs_nonneg a; have := abs_nonneg b
  exact key n a b (by omega) (by omega) (by omega) (by omega) h

theorem ibit_single (t : Word) (i : Nat) : ibit (limbsVal [t]) i = if i < 64 then t.getLsbD i else t.msb :=
  ibit_word t i

theorem ibit_limbs (l : Word) (r : List Word) (hr : r ≠ []) (hl : l.toNat < 9223372036854775808) (i : Nat) :
    ibit (limbsVal (l :: r)) i = if i < 63 then l.getLsbD i else ibit (limbsVal r) (i - 63) := by
  rw [limbsVal_cons l r hr, ibit_cons _ _ (by omega) (by omega)]
  split_ifs with h
  · rw [ibit_limb l hl, if_pos h]
  · rfl

theorem msb_iff (w : Word) : w.msb = decide (w.toInt < 0) := by
  rw [BitVec.msb_eq_toInt]

theorem getLsbD_small (w : Word) (h : w.toNat < 9223372036854775808) : w.getLsbD 63 = false := by
  have := ibit_limb w h 63
  rw [ibit_nat] at this
  exact this

theorem ibit_sign (w : Word) (i : Nat) (h : 63 ≤ i) : ibit w.toInt i = decide (w.toInt < 0) := by
  rw [ibit_word, ← msb_iff]
  split_ifs with h2
  · have : i = 63 := by omega
    subst this
    rw [BitVec.msb_eq_getLsbD_last]
  · rfl

theorem and_small (a b : Word) (h : b.toNat < 9223372036854775808) : (a &&& b).toNat < 9223372036854775808 := by
  rw [BitVec.toNat_and]
  exact lt_of_le_of_lt Nat.and_le_right h

theorem and_small' (a b : Word) (h : a.toNat < 9223372036854775808) : (a &&& b).toNat < 9223372036854775808 := by
  rw [BitVec.toNat_and]
  exact lt_of_le_of_lt Nat.and_le_left h

theorem limbsVal_zeros (r : List Word) : limbsVal (r.map (fun _ => (0 : Word))) = 0 := by
  induction r with
  | nil => rfl
  | cons a r ih =>
    cases r with
    | nil => rfl
    | cons b t =>
      rw [List.map_cons, limbsVal_cons _ _ (by simp), ih]; rfl

theorem WFv_zeros (r : List Word) (h : r ≠ []) : WFv (r.map (fun _ => (0 : Word))) := by
  induction r with
  | nil => exact absurd rfl h
  | cons a r ih =>
    cases r with
    | nil => trivial
    | cons b t =>
      rw [List.map_cons, WFv_cons _ _ (by simp)]; exact ⟨by decide, ih (by simp)⟩

/-! ### LOGAND on bignums -/

theorem and_bit (a b : Word) (i : Nat) : (a &&& b).getLsbD i = (a.getLsbD i && b.getLsbD i) :=
  BitVec.getLsbD_and

theorem and_toInt_neg (a b : Word) : decide ((a &&& b).toInt < 0) = (decide (a.toInt < 0) && decide (b.toInt < 0)) := by
  rw [← msb_iff, ← msb_iff, ← msb_iff, BitVec.msb_and]

theorem ibit_and_word (a b : Word) (i : Nat) : ibit (a &&& b).toInt i = (ibit a.toInt i && ibit b.toInt i) := by
  rw [ibit_word, ibit_word, ibit_word]
  split_ifs
  · exact and_bit a b i
  · exact BitVec.msb_and

/-- the words of `r` above `p` -/
theorem andWords_ge (rest : List Word → List Word) : ∀ (r p : List Word), WFv r → WFv p →
    p.length ≤ r.length → big_sign p ≠ 0 →
    rest = (fun t => if (big_sign p).toInt > 0 then t.map (fun _ => 0) else t) →
    WFv (andWords rest r p) ∧
    ∀ i, ibit (limbsVal (andWords rest r p)) i = (ibit (limbsVal r) i && ibit (limbsVal p) i) := by
  intro r
  induction r with
  | nil => intro p h; exact h.elim
  | cons a r ih =>
    intro p hr hp hlen hs hrest
    match p, hp, hlen, hs, hrest with
    | [], hp, _, _, _ => exact hp.elim
    | [b], hp, _, hs, hrest =>
      cases r with
      | nil =>
        simp only [andWords]
        exact ⟨trivial, fun i => ibit_and_word a b i⟩
      | cons a2 r' =>
        have hbs : big_sign [b] = b := rfl
        rw [hbs] at hrest hs
        obtain ⟨ha, hr2⟩ := (WFv_cons _ _ (by simp)).1 hr
        have e : andWords rest (a :: a2 :: r') [b] = (a &&& b) :: rest (a2 :: r') := rfl
        rw [e, hrest]
        dsimp only
        by_cases hb : b.toInt > 0
        · rw [if_pos hb]
          refine ⟨(WFv_cons _ _ (by simp)).2 ⟨and_small' _ _ ha, WFv_zeros _ (by simp)⟩, fun i => ?_⟩
          rw [ibit_limbs _ _ (by simp) (and_small' _ _ ha), ibit_limbs _ _ (by simp) ha, limbsVal_zeros,
            ibit_zero, ibit_single]
          by_cases hi : i < 63
          · simp only [if_pos hi]; rw [if_pos (by omega)]; exact and_bit a b i
          · simp only [if_neg hi]
            have := ibit_sign b i (by omega)
            rw [ibit_word] at this
            rw [this, decide_eq_false (by omega)]; simp
        · have hbn : b.toInt < 0 := by
            have : b.toInt ≠ 0 := fun h => hs (by apply BitVec.eq_of_toInt_eq; rw [h]; rfl)
            omega
          rw [if_neg hb]
          refine ⟨(WFv_cons _ _ (by simp)).2 ⟨and_small' _ _ ha, hr2⟩, fun i => ?_⟩
          rw [ibit_limbs _ _ (by simp) (and_small' _ _ ha), ibit_limbs _ _ (by simp) ha, ibit_single]
          by_cases hi : i < 63
          · simp only [if_pos hi]; rw [if_pos (by omega)]; exact and_bit a b i
          · simp only [if_neg hi]
            have := ibit_sign b i (by omega)
            rw [ibit_word] at this
            rw [this, decide_eq_true hbn]; simp
    | b :: b2 :: p', hp, hlen, hs, hrest =>
      cases r with
      | nil => simp at hlen
      | cons a2 r' =>
        obtain ⟨ha, hr2⟩ := (WFv_cons _ _ (by simp)).1 hr
        obtain ⟨hb, hp2⟩ := (WFv_cons _ _ (by simp)).1 hp
        have hbs : big_sign (b :: b2 :: p') = big_sign (b2 :: p') := by simp [big_sign]
        rw [hbs] at hs hrest
        obtain ⟨w1, w2⟩ := ih (b2 :: p') hr2 hp2 (by simp at hlen ⊢; omega) hs hrest
        have e : andWords rest (a :: a2 :: r') (b :: b2 :: p') = (a &&& b) :: andWords rest (a2 :: r') (b2 :: p') := rfl
        rw [e]
        refine ⟨(WFv_cons _ _ w1.ne_nil).2 ⟨and_small' _ _ ha, w1⟩, fun i => ?_⟩
        rw [ibit_limbs _ _ w1.ne_nil (and_small' _ _ ha), ibit_limbs _ _ (by simp) ha,
          ibit_limbs _ _ (by simp) hb, w2]
        split_ifs
        · exact and_bit a b i
        · rfl

theorem andWords_ones (rest : List Word → List Word) : ∀ (p : List Word), WFv p →
    andWords rest (List.replicate (p.length - 1) MASK ++ [-1]) p = p := by
  apply WFv.ind
  · intro t
    show [(-1 : Word) &&& t] = [t]
    rw [show (-1 : Word) = BitVec.allOnes 64 by decide, BitVec.allOnes_and]
  · intro l r hr hl hw ih
    have e : (l :: r).length - 1 = (r.length - 1) + 1 := by
      have := List.length_pos_iff.2 hr; simp; omega
    rw [e, List.replicate_succ, List.cons_append, andWords, ih]
    congr 1
    rw [word_eq_iff, BitVec.and_comm, and_mask]; exact Nat.mod_eq_of_lt hl

theorem andWords_ext (rest : List Word → List Word) : ∀ (r p : List Word), WFv r → WFv p →
    r.length < p.length → (big_sign r).toInt < 0 →
    WFv (andWords rest (extend_neg r p.length) p) ∧
    ∀ i, ibit (limbsVal (andWords rest (extend_neg r p.length) p)) i = (ibit (limbsVal r) i && ibit (limbsVal p) i) := by
  intro r
  induction r with
  | nil => intro p h; exact h.elim
  | cons a r ih =>
    intro p hr hp hlen hs
    match p, hp, hlen with
    | [], hp, _ => exact hp.elim
    | [b], _, hlen => simp at hlen
    | b :: b2 :: p', hp, hlen =>
      obtain ⟨hb, hp2⟩ := (WFv_cons _ _ (by simp)).1 hp
      cases r with
      | nil =>
        have e : andWords rest (extend_neg [a] (b :: b2 :: p').length) (b :: b2 :: p') = (a &&& b) :: (b2 :: p') := by
          have := andWords_ones rest (b2 :: p') hp2
          simp only [List.length_cons, Nat.add_sub_cancel] at this
          simp only [extend_neg, List.length_cons, List.cons_append, List.nil_append, List.length_nil, andWords]
          rw [show p'.length + 1 + 1 - (0 + 1) - 1 = p'.length by omega, this]
        rw [e]
        refine ⟨(WFv_cons _ _ (by simp)).2 ⟨and_small _ _ hb, hp2⟩, fun i => ?_⟩
        rw [ibit_limbs _ _ (by simp) (and_small _ _ hb), ibit_limbs _ _ (by simp) hb, ibit_single]
        have hs' : a.toInt < 0 := hs
        by_cases hi : i < 63
        · simp only [if_pos hi]; rw [if_pos (by omega)]; exact and_bit a b i
        · simp only [if_neg hi]
          have := ibit_sign a i (by omega)
          rw [ibit_word] at this
          rw [this, decide_eq_true hs']; simp
      | cons a2 r' =>
        obtain ⟨ha, hr2⟩ := (WFv_cons _ _ (by simp)).1 hr
        have hbs : big_sign (a :: a2 :: r') = big_sign (a2 :: r') := by simp [big_sign]
        rw [hbs] at hs
        obtain ⟨w1, w2⟩ := ih (b2 :: p') hr2 hp2 (by simp at hlen ⊢; omega) hs
        have e : andWords rest (extend_neg (a :: a2 :: r') (b :: b2 :: p').length) (b :: b2 :: p') =
            (a &&& b) :: andWords rest (extend_neg (a2 :: r') (b2 :: p').length) (b2 :: p') := by
          simp only [extend_neg, List.length_cons, List.cons_append]
          rw [show p'.length + 1 + 1 - (r'.length + 1 + 1) = p'.length + 1 - (r'.length + 1) by omega]
          rfl
        rw [e]
        refine ⟨(WFv_cons _ _ w1.ne_nil).2 ⟨and_small' _ _ ha, w1⟩, fun i => ?_⟩
        rw [ibit_limbs _ _ w1.ne_nil (and_small' _ _ ha), ibit_limbs _ _ (by simp) ha,
          ibit_limbs _ _ (by simp) hb, w2]
        split_ifs
        · exact and_bit a b i
        · rfl

theorem andWords_pos (rest : List Word → List Word) : ∀ (r p : List Word), WFv r → WFv p →
    r.length < p.length → 0 ≤ (big_sign r).toInt →
    WFv (andWords rest r p) ∧
    ∀ i, ibit (limbsVal (andWords rest r p)) i = (ibit (limbsVal r) i && ibit (limbsVal p) i) := by
  intro r
  induction r with
  | nil => intro p h; exact h.elim
  | cons a r ih =>
    intro p hr hp hlen hs
    match p, hp, hlen with
    | [], hp, _ => exact hp.elim
    | [b], _, hlen => simp at hlen
    | b :: b2 :: p', hp, hlen =>
      obtain ⟨hb, hp2⟩ := (WFv_cons _ _ (by simp)).1 hp
      cases r with
      | nil =>
        have hs' : 0 ≤ a.toInt := hs
        refine ⟨trivial, fun i => ?_⟩
        have e : andWords rest [a] (b :: b2 :: p') = [a &&& b] := rfl
        rw [e, ibit_limbs _ _ (by simp) hb, ibit_single, ibit_single]
        by_cases hi : i < 63
        · simp only [if_pos hi]; rw [if_pos (by omega), if_pos (by omega)]; exact and_bit a b i
        · simp only [if_neg hi]
          have h1 := ibit_sign a i (by omega)
          have h2 := ibit_sign (a &&& b) i (by omega)
          rw [ibit_word] at h1 h2
          rw [h1, h2, and_toInt_neg, decide_eq_false (by omega)]; simp
      | cons a2 r' =>
        obtain ⟨ha, hr2⟩ := (WFv_cons _ _ (by simp)).1 hr
        have hbs : big_sign (a :: a2 :: r') = big_sign (a2 :: r') := by simp [big_sign]
        rw [hbs] at hs
        obtain ⟨w1, w2⟩ := ih (b2 :: p') hr2 hp2 (by simp at hlen ⊢; omega) hs
        have e : andWords rest (a :: a2 :: r') (b :: b2 :: p') = (a &&& b) :: andWords rest (a2 :: r') (b2 :: p') := rfl
        rw [e]
        refine ⟨(WFv_cons _ _ w1.ne_nil).2 ⟨and_small' _ _ ha, w1⟩, fun i => ?_⟩
        rw [ibit_limbs _ _ w1.ne_nil (and_small' _ _ ha), ibit_limbs _ _ (by simp) ha,
          ibit_limbs _ _ (by simp) hb, w2]
        split_ifs
        · exact and_bit a b i
        · rfl

theorem bigand_fix (r : List Word) (w : Word) (hr : WFv r) :
    WFv (bigand r (.fix w)) ∧
    ∀ i, ibit (limbsVal (bigand r (.fix w))) i = (ibit (limbsVal r) i && ibit w.toInt i) := by
  match r, hr with
  | [a], _ =>
    have e : bigand [a] (.fix w) = [a &&& w] := by simp [bigand]
    rw [e]; exact ⟨trivial, fun i => ibit_and_word a w i⟩
  | a :: a2 :: r', hr =>
    obtain ⟨ha, hr2⟩ := (WFv_cons _ _ (by simp)).1 hr
    simp only [bigand]
    split_ifs with hw
    · refine ⟨(WFv_cons _ _ (by simp)).2 ⟨and_small' _ _ ha, WFv_zeros _ (by simp)⟩, fun i => ?_⟩
      rw [ibit_limbs _ _ (by simp) (and_small' _ _ ha), ibit_limbs _ _ (by simp) ha, limbsVal_zeros,
        ibit_zero]
      by_cases hi : i < 63
      · simp only [if_pos hi]; rw [ibit_word, if_pos (by omega)]; exact and_bit a w i
      · simp only [if_neg hi]
        rw [ibit_sign w i (by omega), decide_eq_false (by omega)]; simp
    · refine ⟨(WFv_cons _ _ (by simp)).2 ⟨and_small' _ _ ha, hr2⟩, fun i => ?_⟩
      rw [ibit_limbs _ _ (by simp) (and_small' _ _ ha), ibit_limbs _ _ (by simp) ha]
      by_cases hi : i < 63
      · simp only [if_pos hi]; rw [ibit_word, if_pos (by omega)]; exact and_bit a w i
      · simp only [if_neg hi]
        rw [ibit_sign w i (by omega), decide_eq_true (by omega)]; simp

theorem canon_sign_ne (p : List Word) (h : (Num.big p).Canonical) : big_sign p ≠ 0 := by
  obtain ⟨u, t, rfl⟩ := snoc_cases p h.1.ne_nil
  rw [big_sign_snoc]
  rintro rfl
  obtain ⟨h1, h2⟩ := snoc_range u 0 h.1
  have e0 : (0 : Word).toInt = 0 := by decide
  rw [e0] at h1
  cases u with
  | nil =>
    apply h.2.1
    rw [h1]; simp [uval, InFix]
  | cons a u =>
    apply h.2.2 (by simp)
    simp only [List.length_append, List.length_cons, List.length_nil, Nat.add_sub_cancel, zero_add] at *
    rw [h1]
    constructor <;> simp only [mul_zero, add_zero]
    · have : (0 : Int) ≤ (2 ^ 63) ^ (u.length + 1) := by positivity
      omega
    · exact h2

theorem bigand_spec (r : List Word) (a : Num) (hr : WFv r) (ha : a.Canonical) :
    WFv (bigand r a) ∧ ∀ i, ibit (limbsVal (bigand r a)) i = (ibit (limbsVal r) i && ibit a.val i) := by
  cases a with
  | fix w => exact bigand_fix r w hr
  | big p =>
    simp only [bigand]
    by_cases h1 : r.length ≥ p.length
    · rw [if_pos h1]; exact andWords_ge _ r p hr ha.1 h1 (canon_sign_ne p ha) rfl
    · rw [if_neg h1]
      by_cases h2 : (big_sign r).toInt < 0
      · rw [if_pos h2]; exact andWords_ext _ r p hr ha.1 (by omega) h2
      · rw [if_neg h2]; exact andWords_pos _ r p hr ha.1 (by omega) (by omega)

theorem bigand_foldl (args : List Num) : ∀ (r : List Word), WFv r → (∀ a ∈ args, a.Canonical) →
    WFv (args.foldl bigand r) ∧
    ∀ i, ibit (limbsVal (args.foldl bigand r)) i = (ibit (limbsVal r) i && args.all (fun a => ibit a.val i)) := by
  induction args with
  | nil => intro r h _; simp [h]
  | cons a args ih =>
    intro r hr h
    obtain ⟨h1, h2⟩ := bigand_spec r a hr (h a (by simp))
    obtain ⟨h3, h4⟩ := ih (bigand r a) h1 (fun x hx => h x (by simp [hx]))
    refine ⟨h3, fun i => ?_⟩
    rw [List.foldl_cons, h4, h2]
    simp [Bool.and_assoc]

end Eus.Num
