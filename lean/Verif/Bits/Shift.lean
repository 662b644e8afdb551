import Verif.Bits.Proofs
import Mathlib.Tactic.Linarith
set_option autoImplicit false
set_option maxRecDepth 4000
namespace Eus.Num

theorem smallW (w : Word) (h : 0 ≤ w.toInt) : w.toNat < 9223372036854775808 := by
  rw [toInt_cond] at h
  have := toNat_lt' w
  split_ifs at h <;> omega

theorem shl_toNat (x : Word) (k : Nat) : ((x <<< k).toNat : Int) = (x.toInt * 2 ^ k) % 18446744073709551616 := by
  rw [BitVec.toNat_shiftLeft, Nat.shiftLeft_eq]
  have h : ((x.toNat * 2 ^ k % 2 ^ 64 : Nat) : Int) = ((x.toNat : Int) * 2 ^ k) % 18446744073709551616 := by
    push_cast; rfl
  rw [h, toInt_cond]
  split_ifs
  · rfl
  · rw [sub_mul, mul_comm (18446744073709551616 : Int), Int.sub_mul_emod_self_right]

theorem sshr_toInt (x : Word) (k : Nat) : (x.sshiftRight k).toInt = x.toInt / 2 ^ k := by
  rw [BitVec.toInt_sshiftRight, Int.shiftRight_eq_div_pow]; norm_num

/-- a word shifted left, when the bit that would go to position 63 is clear -/
theorem shl_clean (x : Word) (k : Nat) (hk : k ≤ 63) (hb : ibit x.toInt (63 - k) = false) :
    ((x <<< k).toNat : Int) = (x.toInt % 2 ^ (63 - k)) * 2 ^ k ∧
    (x <<< k).toNat < 9223372036854775808 := by
  have hAB : (2 : Int) ^ (63 - k) * 2 ^ k = 9223372036854775808 := by
    rw [← pow_add, Nat.sub_add_cancel hk]; norm_num
  have hA : (0 : Int) < 2 ^ k := by positivity
  have hB : (0 : Int) < 2 ^ (63 - k) := by positivity
  have hs := shl_toNat x k
  unfold ibit at hb
  rw [beq_eq_false_iff_ne] at hb
  have hd := Int.mul_ediv_add_emod x.toInt (2 ^ (63 - k))
  have hr0 := Int.emod_nonneg x.toInt (ne_of_gt hB)
  have hr1 := Int.emod_lt_of_pos x.toInt hB
  generalize x.toInt / 2 ^ (63 - k) = q at *
  generalize x.toInt % 2 ^ (63 - k) = r at *
  obtain ⟨m, rfl⟩ : ∃ m, q = 2 * m := ⟨q / 2, by omega⟩
  generalize (2 : Int) ^ (63 - k) = B at *
  generalize (2 : Int) ^ k = A at *
  have hrA : r * A < 9223372036854775808 := by nlinarith
  have hrA0 : 0 ≤ r * A := by positivity
  have e : x.toInt * A = r * A + 18446744073709551616 * m := by
    rw [← hd]
    calc (B * (2 * m) + r) * A = (B * A) * (2 * m) + r * A := by ring
      _ = _ := by rw [hAB]; ring
  rw [e, Int.add_mul_emod_self_left, Int.emod_eq_of_lt hrA0 (by omega)] at hs
  exact ⟨hs, by omega⟩

theorem or_add (c y : Word) (k : Nat) (hc : c.toNat < 2 ^ k) (hy : 2 ^ k ∣ y.toNat) :
    (c ||| y).toNat = c.toNat + y.toNat := by
  obtain ⟨a, ha⟩ := hy
  rw [BitVec.toNat_or, ha, Nat.or_comm, ← Nat.two_pow_add_eq_or_of_lt hc]; omega

theorem shlLoop_spec (k : Nat) (hk : k ≤ 63) : ∀ v, WFv v → (∀ x ∈ v, ibit x.toInt (63 - k) = false) →
    ∀ c : Word, c.toNat < 2 ^ k →
    WFv (shlLoop k c v) ∧ limbsVal (shlLoop k c v) = c.toNat + 2 ^ k * limbsVal v := by
  have hAB : (2 : Int) ^ (63 - k) * 2 ^ k = 9223372036854775808 := by
    rw [← pow_add, Nat.sub_add_cancel hk]; norm_num
  have hABn : (2 : Nat) ^ (63 - k) * 2 ^ k = 9223372036854775808 := by
    rw [← pow_add, Nat.sub_add_cancel hk]; norm_num
  have hA : (0 : Int) < 2 ^ k := by positivity
  have hB : (0 : Int) < 2 ^ (63 - k) := by positivity
  -- facts about one word
  have word1 : ∀ (x c : Word), ibit x.toInt (63 - k) = false → c.toNat < 2 ^ k →
      ((c ||| (x <<< k)).toNat : Int) = c.toNat + (x.toInt % 2 ^ (63 - k)) * 2 ^ k ∧
      (c ||| (x <<< k)).toNat < 9223372036854775808 := by
    intro x c hb hc
    obtain ⟨h1, h2⟩ := shl_clean x k hk hb
    have hr0 := Int.emod_nonneg x.toInt (ne_of_gt hB)
    have hr1 := Int.emod_lt_of_pos x.toInt hB
    have hdv : (2 : Nat) ^ k ∣ (x <<< k).toNat := by
      have : ((2 ^ k : Nat) : Int) ∣ ((x <<< k).toNat : Int) := by
        rw [h1]; push_cast; exact Dvd.intro_left _ rfl
      exact_mod_cast this
    have e := or_add c (x <<< k) k hc hdv
    refine ⟨by rw [e]; push_cast; rw [h1], ?_⟩
    have hcz : (c.toNat : Int) < 2 ^ k := by exact_mod_cast hc
    have : ((c ||| (x <<< k)).toNat : Int) < 9223372036854775808 := by
      rw [e]; push_cast; rw [h1]
      generalize x.toInt % 2 ^ (63 - k) = r at *
      generalize (2 : Int) ^ (63 - k) = B at *
      generalize (2 : Int) ^ k = A at *
      nlinarith
    omega
  apply WFv.ind
  · intro t hb c hc
    obtain ⟨h1, h2⟩ := word1 t c (hb t (by simp)) hc
    simp only [shlLoop]
    refine ⟨(WFv_cons _ _ (by simp)).2 ⟨h2, trivial⟩, ?_⟩
    rw [limbsVal_cons _ _ (by simp), h1]
    show _ + _ * (t.sshiftRight (63 - k)).toInt = _ + _ * t.toInt
    rw [sshr_toInt]
    have hd := Int.mul_ediv_add_emod t.toInt (2 ^ (63 - k))
    generalize t.toInt / 2 ^ (63 - k) = q at *
    generalize t.toInt % 2 ^ (63 - k) = r at *
    rw [← hd, ← hAB]; ring
  · intro l r hr hl hw ih hb c hc
    obtain ⟨h1, h2⟩ := word1 l c (hb l (by simp)) hc
    have hli : l.toInt = l.toNat := by rw [toInt_cond, if_pos hl]
    have hq0 : (0 : Int) ≤ l.toInt / 2 ^ (63 - k) := Int.ediv_nonneg (by omega) (le_of_lt hB)
    have hq1 : l.toInt / 2 ^ (63 - k) < 2 ^ k := by
      apply Int.ediv_lt_of_lt_mul hB
      rw [mul_comm, hAB]; omega
    have hqn : ((l.sshiftRight (63 - k)).toNat : Int) = l.toInt / 2 ^ (63 - k) := by
      have := sshr_toInt l (63 - k)
      rw [← this, toInt_cond]
      rw [if_pos]
      exact smallW _ (by rw [this]; exact hq0)
    have hcn : (l.sshiftRight (63 - k)).toNat < 2 ^ k := by
      have : ((l.sshiftRight (63 - k)).toNat : Int) < ((2 ^ k : Nat) : Int) := by
        rw [hqn]; push_cast; exact hq1
      exact_mod_cast this
    obtain ⟨w1, w2⟩ := ih (fun x hx => hb x (by simp [hx])) (l.sshiftRight (63 - k)) hcn
    simp only [shlLoop]
    refine ⟨(WFv_cons _ _ w1.ne_nil).2 ⟨h2, w1⟩, ?_⟩
    rw [limbsVal_cons _ _ w1.ne_nil, h1, w2, limbsVal_cons _ _ hr, hqn, ← hli]
    have hd := Int.mul_ediv_add_emod l.toInt (2 ^ (63 - k))
    generalize l.toInt / 2 ^ (63 - k) = q at *
    generalize l.toInt % 2 ^ (63 - k) = s at *
    rw [← hd, ← hAB]; ring

theorem limbsVal_zpre (j : Nat) (v : List Word) (h : WFv v) :
    WFv (List.replicate j 0 ++ v) ∧ limbsVal (List.replicate j 0 ++ v) = (2 ^ 63) ^ j * limbsVal v := by
  induction j with
  | zero => simp [h]
  | succ j ih =>
    rw [List.replicate_succ, List.cons_append]
    refine ⟨(WFv_cons _ _ ih.1.ne_nil).2 ⟨by decide, ih.1⟩, ?_⟩
    rw [limbsVal_cons _ _ ih.1.ne_nil, ih.2, pwZ]
    have : ((0 : Word).toNat : Int) = 0 := by decide
    rw [this]; ring

theorem ashLeft_spec (v : List Word) (c : Nat) (h : WFv v) (hk : c % 63 ≠ 0)
    (hb : ∀ x ∈ v, ibit x.toInt (63 - c % 63) = false) :
    ∃ b, ashLeft v c = some b ∧ WFv b ∧ limbsVal b = limbsVal v * 2 ^ c := by
  have hk63 : c % 63 ≤ 63 := by omega
  obtain ⟨w1, w2⟩ := shlLoop_spec (c % 63) hk63 v h hb 0 (by rw [toNat_zero]; positivity)
  obtain ⟨u1, u2⟩ := limbsVal_zpre (c / 63) _ w1
  refine ⟨_, by simp only [ashLeft, if_neg hk], u1, ?_⟩
  rw [u2, w2, toNat_zero]
  have e : (2 : Int) ^ c = (2 ^ 63) ^ (c / 63) * 2 ^ (c % 63) := by
    rw [← pow_mul, ← pow_add, Nat.div_add_mod]
  rw [e]; push_cast; ring

/-! ### right shift -/

theorem limbs_mod (y : Word) (r : List Word) (k : Nat) (hk : k ≤ 63) :
    limbsVal (y :: r) % 2 ^ k = (y.toNat : Int) % 2 ^ k := by
  have e : (9223372036854775808 : Int) = 2 ^ k * 2 ^ (63 - k) := by
    rw [← pow_add, Nat.add_sub_cancel' hk]; norm_num
  cases r with
  | nil =>
    show y.toInt % _ = _
    rw [toInt_cond]
    split_ifs
    · rfl
    · have : (18446744073709551616 : Int) = 2 ^ k * (2 ^ (63 - k) * 2) := by
        rw [← mul_assoc, ← e]; norm_num
      rw [this, Int.sub_mul_emod_self_left]
  | cons a t =>
    rw [limbsVal_cons _ _ (by simp), e, mul_assoc, Int.add_mul_emod_self_left]

theorem shrLoop_ne (k : Nat) (v : List Word) (h : v ≠ []) : shrLoop k v ≠ [] := by
  match v, h with
  | [t], _ => simp [shrLoop]
  | x :: y :: r, _ => simp [shrLoop]

theorem shrLoop_spec (k : Nat) (hk : k ≤ 63) : ∀ v, WFv v →
    WFv (shrLoop k v) ∧ limbsVal (shrLoop k v) = limbsVal v / 2 ^ k ∧ (shrLoop k v).length = v.length := by
  have hAB : (2 : Nat) ^ (63 - k) * 2 ^ k = 9223372036854775808 := by
    rw [← pow_add, Nat.sub_add_cancel hk]; norm_num
  have hABz : (2 : Int) ^ (63 - k) * 2 ^ k = 9223372036854775808 := by exact_mod_cast hAB
  have hA : (0 : Int) < 2 ^ k := by positivity
  have hB : (0 : Int) < 2 ^ (63 - k) := by positivity
  apply WFv.ind
  · intro t
    exact ⟨trivial, sshr_toInt t k, rfl⟩
  · intro x r hr hx hw ih
    obtain ⟨i1, i2, i3⟩ := ih
    obtain ⟨y, r', rfl⟩ : ∃ y r', r = y :: r' := List.exists_cons_of_ne_nil hr
    simp only [shrLoop]
    have hxs : (x.sshiftRight k).toNat = x.toNat / 2 ^ k := by
      have h1 := sshr_toInt x k
      have hxi : x.toInt = x.toNat := by rw [toInt_cond, if_pos hx]
      have h0 : 0 ≤ (x.sshiftRight k).toInt := by
        rw [h1, hxi]; exact Int.ediv_nonneg (by omega) (le_of_lt hA)
      have h2 : (x.sshiftRight k).toInt = (x.sshiftRight k).toNat := by
        rw [toInt_cond, if_pos (smallW _ h0)]
      rw [h2, hxi] at h1
      have h3 : ((x.toNat / 2 ^ k : Nat) : Int) = (x.toNat : Int) / 2 ^ k := by push_cast; rfl
      rw [← h3] at h1
      exact_mod_cast h1
    have hxlt : x.toNat / 2 ^ k < 2 ^ (63 - k) := by
      rw [Nat.div_lt_iff_lt_mul (by positivity), hAB]; exact hx
    have hys : ((y <<< (63 - k)) &&& MASK).toNat = 2 ^ (63 - k) * (y.toNat % 2 ^ k) := by
      rw [and_mask, BitVec.toNat_shiftLeft, Nat.shiftLeft_eq]
      rw [Nat.mod_mod_of_dvd _ (by norm_num : 9223372036854775808 ∣ 2 ^ 64)]
      rw [← hAB, mul_comm, Nat.mul_mod_mul_left]
    have hor : ((x.sshiftRight k) ||| ((y <<< (63 - k)) &&& MASK)).toNat =
        x.toNat / 2 ^ k + 2 ^ (63 - k) * (y.toNat % 2 ^ k) := by
      rw [or_add _ _ (63 - k) (by rw [hxs]; exact hxlt) (by rw [hys]; exact Dvd.intro _ rfl), hxs, hys]
    have hlt : x.toNat / 2 ^ k + 2 ^ (63 - k) * (y.toNat % 2 ^ k) < 9223372036854775808 := by
      have : y.toNat % 2 ^ k < 2 ^ k := Nat.mod_lt _ (by positivity)
      have h5 : 2 ^ (63 - k) * (y.toNat % 2 ^ k + 1) ≤ 2 ^ (63 - k) * 2 ^ k := Nat.mul_le_mul_left _ this
      rw [hAB, Nat.mul_add] at h5
      omega
    have hne : shrLoop k (y :: r') ≠ [] := shrLoop_ne k _ (by simp)
    refine ⟨(WFv_cons _ _ hne).2 ⟨by rw [hor]; exact hlt, i1⟩, ?_, by simp [i3]⟩
    rw [limbsVal_cons _ _ hne, hor, i2, limbsVal_cons x (y :: r') (by simp)]
    have hm := limbs_mod y r' k hk
    generalize limbsVal (y :: r') = R at *
    have hd := Int.mul_ediv_add_emod R (2 ^ k)
    rw [hm] at hd
    push_cast
    have e : (x.toNat : Int) + 9223372036854775808 * R = x.toNat + 2 ^ k * (2 ^ (63 - k) * R) := by
      rw [← hABz]; ring
    rw [e, Int.add_mul_ediv_left _ _ (ne_of_gt hA)]
    generalize (y.toNat : Int) % 2 ^ k = s at *
    generalize R / 2 ^ k = Q at *
    rw [← hd, ← hABz]; ring

theorem limbsVal_drop (j : Nat) : ∀ v, WFv v → j < v.length →
    WFv (v.drop j) ∧ limbsVal (v.drop j) = limbsVal v / (2 ^ 63) ^ j := by
  induction j with
  | zero => intro v h _; simp [h]
  | succ j ih =>
    intro v h hj
    match v, h, hj with
    | x :: y :: r, h, hj =>
      obtain ⟨hx, hr⟩ := (WFv_cons _ _ (by simp)).1 h
      obtain ⟨h1, h2⟩ := ih (y :: r) hr (by simp at hj ⊢; omega)
      refine ⟨h1, ?_⟩
      rw [List.drop_succ_cons, h2, limbsVal_cons x (y :: r) (by simp), pwZ,
        ← Int.ediv_ediv_of_nonneg (by norm_num), Int.add_mul_ediv_left _ _ (by norm_num),
        Int.ediv_eq_zero_of_lt (a := (x.toNat : Int)) (b := 9223372036854775808) (by omega) (by omega), zero_add]
    | [x], h, hj => simp at hj

theorem limbsVal_snoc0 (v : List Word) (h : WFv v) (h0 : 0 ≤ limbsVal v) (m : Nat) :
    WFv (v ++ List.replicate m 0) ∧ limbsVal (v ++ List.replicate m 0) = limbsVal v := by
  induction m with
  | zero => simp [h]
  | succ m ih =>
    have e : v ++ List.replicate (m + 1) 0 = (v ++ List.replicate m 0) ++ [0] := by
      rw [List.replicate_succ', List.append_assoc]
    rw [e]
    generalize v ++ List.replicate m 0 = u at *
    obtain ⟨i1, i2⟩ := ih
    obtain ⟨w, t, rfl⟩ := snoc_cases u i1.ne_nil
    have ht : 0 ≤ t.toInt := by
      have := sign_iff _ i1
      rw [big_sign_snoc] at this
      by_contra hh
      have := this.1 (by omega)
      omega
    have hts := smallW t ht
    rw [WFv_append _ _ (by simp)] at i1
    rw [List.append_assoc]
    refine ⟨(WFv_append _ _ (by simp)).2 ⟨i1.1, (WFv_cons _ _ (by simp)).2 ⟨hts, trivial⟩⟩, ?_⟩
    rw [← i2, limbsVal_append w ([t] ++ [0]) (by simp), limbsVal_append w [t] (by simp)]
    congr 2
    rw [List.singleton_append, limbsVal_cons _ _ (by simp)]
    show _ + _ * (0 : Word).toInt = t.toInt
    have e0 : (0 : Word).toInt = 0 := by decide
    rw [e0, toInt_cond t, if_pos hts]; simp

theorem ashRight_spec (v : List Word) (c : Nat) (h : WFv v) (hj : c / 63 < v.length)
    (hs : 0 ≤ limbsVal v ∨ c ≤ 62) :
    ∃ b, ashRight v c = some b ∧ WFv b ∧ limbsVal b = limbsVal v / 2 ^ c := by
  obtain ⟨d1, d2⟩ := limbsVal_drop (c / 63) v h hj
  obtain ⟨s1, s2, s3⟩ := shrLoop_spec (c % 63) (by omega) _ d1
  have e : (2 : Int) ^ c = (2 ^ 63) ^ (c / 63) * 2 ^ (c % 63) := by
    rw [← pow_mul, ← pow_add, Nat.div_add_mod]
  have hval : limbsVal (shrLoop (c % 63) (v.drop (c / 63))) = limbsVal v / 2 ^ c := by
    rw [s2, d2, e, Int.ediv_ediv_of_nonneg (by positivity)]
  unfold ashRight
  simp only
  rw [if_neg (by omega)]
  refine ⟨_, rfl, ?_⟩
  rcases hs with hs | hs
  · have h0 : 0 ≤ limbsVal (shrLoop (c % 63) (v.drop (c / 63))) := by
      rw [hval]; exact Int.ediv_nonneg hs (by positivity)
    have := limbsVal_snoc0 _ s1 h0 (((v.length : Int) + (62 - (c : Int)).tdiv 63 - ((v.length - c / 63 : Nat) : Int)).toNat)
    exact ⟨this.1, by rw [this.2, hval]⟩
  · have e1 : (62 - (c : Int)).tdiv 63 = 0 := by
      rw [Int.tdiv_eq_ediv_of_nonneg (by omega)]; omega
    have e2 : c / 63 = 0 := by omega
    have e3 : ((v.length : Int) + (62 - (c : Int)).tdiv 63 - ((v.length - c / 63 : Nat) : Int)).toNat = 0 := by
      rw [e1, e2]; simp
    rw [e3, List.replicate_zero, List.append_nil]
    exact ⟨s1, hval⟩

/-! ### ffsl -/

theorem ffsl_spec (w : Word) (hw : 0 < w.toInt) (c : Int) (hc : 0 < c) :
    (ffsl w : Int) + c < 62 ↔ c ≤ 60 ∧ ¬ (2 ^ (61 - c.toNat) ∣ w.toNat) := by
  have hne : ∃ i < 64, w.getLsbD i = true := by
    by_contra hh
    push Not at hh
    have : w = 0 := by
      apply BitVec.eq_of_getLsbD_eq
      intro i hi
      have := hh i hi
      simp at this ⊢; exact this
    rw [this] at hw
    exact absurd hw (by decide)
  have hex : ∃ i, (List.range 64).find? (fun i => w.getLsbD i) = some i := by
    rw [← Option.isSome_iff_exists, List.find?_isSome]
    obtain ⟨i, hi, h⟩ := hne
    exact ⟨i, by simp [hi], h⟩
  obtain ⟨i, hi⟩ := hex
  have hf : ffsl w = i + 1 := by simp [ffsl, hi]
  rw [List.find?_range_eq_some] at hi
  obtain ⟨h1, h2, h3⟩ := hi
  have hdv : ∀ m, 2 ^ m ∣ w.toNat ↔ m ≤ i := by
    intro m
    constructor
    · intro hd
      by_contra hm
      obtain ⟨q, hq⟩ := hd
      have : w.getLsbD i = false := by
        rw [BitVec.getLsbD, hq, Nat.testBit_two_pow_mul]; simp; omega
      rw [this] at h1; cases h1
    · intro hm
      apply Nat.dvd_of_mod_eq_zero
      apply Nat.eq_of_testBit_eq
      intro j
      rw [Nat.testBit_mod_two_pow, Nat.zero_testBit]
      by_cases hj : j < m
      · have := h3 j (by omega)
        rw [BitVec.getLsbD] at this
        simp at this ⊢; intro _; exact this
      · simp [hj]
  rw [hf, hdv]
  simp only [List.mem_range] at h2
  push_cast
  omega

theorem mkbigint_val (y : Word) : (mkbigint y).val = y.toInt := by
  unfold mkbigint
  split_ifs
  · rfl
  · exact makeint_val y

theorem ckintval_makeint (w : Word) : ckintval (makeint w) = some w := by
  unfold makeint
  split_ifs <;> rfl

end Eus.Num
