import Verif.Num.Proofs
namespace Eus.Num

/-! ### extended_mul -/

theorem and_ones (w : Word) (k : Nat) (m : Word) (h : m.toNat = 2 ^ k - 1) :
    (w &&& m).toNat = w.toNat % 2 ^ k := by
  rw [BitVec.toNat_and, h, Nat.and_two_pow_sub_one_eq_mod]

theorem sshr_and_ones (w : Word) (s k : Nat) (m : Word) (h : m.toNat = 2 ^ k - 1)
    (hs : s + k ≤ 64) : (w.sshiftRight s &&& m).toNat = w.toNat / 2 ^ s % 2 ^ k := by
  rw [and_ones _ k m h]
  apply Nat.eq_of_testBit_eq
  intro i
  rw [Nat.testBit_mod_two_pow, Nat.testBit_mod_two_pow, Nat.testBit_div_two_pow,
    BitVec.testBit_toNat, BitVec.testBit_toNat, BitVec.getLsbD_sshiftRight]
  by_cases hi : i < k
  · have h1 : ¬ 64 ≤ i := by omega
    have h2 : s + i < 64 := by omega
    simp [hi, h1, h2, Nat.add_comm]
  · simp [hi]

theorem and_MSB (m : Word) :
    m &&& 0x8000000000000000#64 = if 9223372036854775808 ≤ m.toNat then 0x8000000000000000#64 else 0 := by
  have hm : m.msb = decide (9223372036854775808 ≤ m.toNat) := by
    rw [BitVec.msb_eq_decide]
  apply BitVec.eq_of_getLsbD_eq
  intro i hi
  have hc : (0x8000000000000000#64 : Word) = BitVec.twoPow 64 63 := by decide
  rw [hc, BitVec.getLsbD_and, BitVec.getLsbD_twoPow]
  by_cases h63 : i = 63
  · subst h63
    have : m.getLsbD 63 = m.msb := by rw [BitVec.msb_eq_getLsbD_last]
    rw [this, hm]
    split_ifs with h <;> simp [h]
  · have : ¬ (63 = i) := fun h => h63 h.symm
    split_ifs <;> simp [this, BitVec.getLsbD_twoPow]

theorem hm1_eq (m : Word) : ((m &&& 0x8000000000000000#64).sshiftRight 32 &&& 0x80000000#64).toNat
    = m.toNat / 9223372036854775808 * 2147483648 := by
  have := m.isLt
  rw [and_MSB]
  split_ifs with h
  · have : m.toNat / 9223372036854775808 = 1 := by omega
    rw [this]; decide
  · have : m.toNat / 9223372036854775808 = 0 := by omega
    rw [this]; decide

theorem hm2_eq (m : Word) : ((m &&& 0x8000000000000000#64).sshiftRight 31 &&& 0x1ffffffff#64).toNat
    = m.toNat / 9223372036854775808 * 4294967296 := by
  have := m.isLt
  rw [and_MSB]
  split_ifs with h
  · have : m.toNat / 9223372036854775808 = 1 := by omega
    rw [this]; decide
  · have : m.toNat / 9223372036854775808 = 0 := by omega
    rw [this]; decide

theorem mul_bound {a b m n : Nat} (ha : a ≤ m) (hb : b ≤ n) : a * b ≤ m * n :=
  Nat.mul_le_mul ha hb

theorem extended_mul_spec (d q r : Word) (hd : d.toNat < 2 ^ 63) (hq : q.toNat < 2 ^ 63)
    (hr : r.toNat < 2 ^ 63) :
    (extended_mul d q r).1.toNat * 2 ^ 63 + (extended_mul d q r).2.toNat = d.toNat * q.toNat + r.toNat
    ∧ (extended_mul d q r).2.toNat < 2 ^ 63 ∧ (extended_mul d q r).1.toNat < 2 ^ 63 := by
  unfold extended_mul
  simp only [Nat.reducePow] at *
  -- halves
  have eld : (d &&& 0xffffffff#64).toNat = d.toNat % 4294967296 := and_ones d 32 _ (by decide)
  have ehd : (d.sshiftRight 32 &&& 0x7fffffff#64).toNat = d.toNat / 4294967296 % 2147483648 :=
    sshr_and_ones d 32 31 _ (by decide) (by omega)
  have elq : (q &&& 0xffffffff#64).toNat = q.toNat % 4294967296 := and_ones q 32 _ (by decide)
  have ehq : (q.sshiftRight 32 &&& 0x7fffffff#64).toNat = q.toNat / 4294967296 % 2147483648 :=
    sshr_and_ones q 32 31 _ (by decide) (by omega)
  generalize (d &&& 0xffffffff#64) = ld at *
  generalize (d.sshiftRight 32 &&& 0x7fffffff#64) = hd' at *
  generalize (q &&& 0xffffffff#64) = lq at *
  generalize (q.sshiftRight 32 &&& 0x7fffffff#64) = hq' at *
  have bld : ld.toNat ≤ 4294967295 := by omega
  have bhd : hd'.toNat ≤ 2147483647 := by omega
  have blq : lq.toNat ≤ 4294967295 := by omega
  have bhq : hq'.toNat ≤ 2147483647 := by omega
  have dd : d.toNat = hd'.toNat * 4294967296 + ld.toNat := by omega
  have dq : q.toNat = hq'.toNat * 4294967296 + lq.toNat := by omega
  have bA := mul_bound bld blq
  have bB := mul_bound blq bhd
  have bC := mul_bound bhq bld
  have bE := mul_bound bhq bhd
  have prod : d.toNat * q.toNat = (hq'.toNat * hd'.toNat) * 18446744073709551616 +
      (lq.toNat * hd'.toNat) * 4294967296 + (hq'.toNat * ld.toNat) * 4294967296
      + ld.toNat * lq.toNat := by rw [dd, dq]; ring
  rw [prod]
  clear prod dd dq eld ehd elq ehq
  -- m1
  have em1 : (ld * lq).toNat = ld.toNat * lq.toNat := by
    rw [BitVec.toNat_mul]; apply Nat.mod_eq_of_lt; omega
  have elqhd : (lq * hd').toNat = lq.toNat * hd'.toNat := by
    rw [BitVec.toNat_mul]; apply Nat.mod_eq_of_lt; omega
  have ehqld : (hq' * ld).toNat = hq'.toNat * ld.toNat := by
    rw [BitVec.toNat_mul]; apply Nat.mod_eq_of_lt; omega
  have ehqhd : (hq' * hd').toNat = hq'.toNat * hd'.toNat := by
    rw [BitVec.toNat_mul]; apply Nat.mod_eq_of_lt; omega
  have ehqhd2 : (hq' * hd' * 2#64).toNat = hq'.toNat * hd'.toNat * 2 := by
    rw [BitVec.toNat_mul, ehqhd]
    have : (2#64).toNat = 2 := by decide
    rw [this]
    apply Nat.mod_eq_of_lt; omega
  rw [← em1, ← elqhd, ← ehqld, ← ehqhd]
  rw [← ehqhd] at ehqhd2
  rw [← em1] at bA
  rw [← elqhd] at bB
  rw [← ehqld] at bC
  rw [← ehqhd] at bE
  clear em1 elqhd ehqld ehqhd
  generalize hq' * hd' * 2#64 = E2 at *
  generalize hq' * hd' = E at *
  generalize ld * lq = A at *
  generalize lq * hd' = B at *
  generalize hq' * ld = C at *
  clear bld bhd blq bhq
  -- steps
  have ehm1 := hm1_eq A
  generalize ((A &&& 0x8000000000000000#64).sshiftRight 32 &&& 0x80000000#64) = hm1 at *
  have em2a : (A &&& 0x7fffffffffffffff#64).toNat = A.toNat % 9223372036854775808 :=
    and_ones A 63 _ (by decide)
  have em2 : ((A &&& 0x7fffffffffffffff#64) + r).toNat = A.toNat % 9223372036854775808 + r.toNat := by
    rw [BitVec.toNat_add, em2a]; apply Nat.mod_eq_of_lt; omega
  generalize ((A &&& 0x7fffffffffffffff#64) + r) = m2 at *
  have elz1 : (m2 &&& 0xffffffff#64).toNat = m2.toNat % 4294967296 := and_ones m2 32 _ (by decide)
  have em3a : (m2.sshiftRight 32 &&& 0xffffffff#64).toNat = m2.toNat / 4294967296 % 4294967296 :=
    sshr_and_ones m2 32 32 _ (by decide) (by omega)
  have hA := A.isLt
  have em3 : ((m2.sshiftRight 32 &&& 0xffffffff#64) + hm1 + B).toNat
      = m2.toNat / 4294967296 % 4294967296 + hm1.toNat + B.toNat := by
    rw [BitVec.toNat_add, BitVec.toNat_add, em3a]
    omega
  generalize ((m2.sshiftRight 32 &&& 0xffffffff#64) + hm1 + B) = m3 at *
  generalize (m2 &&& 0xffffffff#64) = lz1 at *
  have ehm2 := hm2_eq m3
  generalize ((m3 &&& 0x8000000000000000#64).sshiftRight 31 &&& 0x1ffffffff#64) = hm2 at *
  have em4a : (m3 &&& 0x7fffffffffffffff#64).toNat = m3.toNat % 9223372036854775808 :=
    and_ones m3 63 _ (by decide)
  have em4 : ((m3 &&& 0x7fffffffffffffff#64) + C).toNat = m3.toNat % 9223372036854775808 + C.toNat := by
    rw [BitVec.toNat_add, em4a]; apply Nat.mod_eq_of_lt; omega
  generalize ((m3 &&& 0x7fffffffffffffff#64) + C) = m4 at *
  have elm : (m4 &&& 0x7fffffff#64).toNat = m4.toNat % 2147483648 := and_ones m4 31 _ (by decide)
  have elz : (lz1 + (m4 &&& 0x7fffffff#64) <<< 32).toNat
      = lz1.toNat + m4.toNat % 2147483648 * 4294967296 := by
    rw [BitVec.toNat_add, BitVec.toNat_shiftLeft, elm, Nat.shiftLeft_eq]
    simp only [Nat.reducePow]
    omega
  have em5a : (m4.sshiftRight 31 &&& 0x1ffffffff#64).toNat = m4.toNat / 2147483648 % 8589934592 :=
    sshr_and_ones m4 31 33 _ (by decide) (by omega)
  have hm4 := m4.isLt
  have hm3 := m3.isLt
  have em5 : ((m4.sshiftRight 31 &&& 0x1ffffffff#64) + hm2 + E2).toNat
      = m4.toNat / 2147483648 + hm2.toNat + E2.toNat := by
    rw [BitVec.toNat_add, BitVec.toNat_add, em5a]
    omega
  rw [em5, elz]
  refine ⟨?_, ?_, ?_⟩ <;> omega

/-! ### extended_div -/

/-- invariant of the shift-subtract loop: after `k` steps on dividend `h·2^63 + l` -/
theorem divStep_spec (d : Word) (s : DivSt) (hd0 : 0 < d.toNat) (hd : d.toNat < 2 ^ 63)
    (hlh : s.lh.toNat < d.toNat) (a : Nat) (ha : s.ans.toNat = a) (ha2 : a < 2 ^ 62 * 2) :
    let t := divStep d s
    let bit := s.ll.toNat / 2 ^ 62 % 2
    t.lh.toNat = (2 * s.lh.toNat + bit) % d.toNat ∧
    t.ans.toNat = 2 * a + (2 * s.lh.toNat + bit) / d.toNat ∧
    t.ll.toNat = 2 * s.ll.toNat % 2 ^ 64 := by
  obtain ⟨ans, lh, ll⟩ := s
  simp only at hlh ha
  have two (w : Word) : (w <<< 1).toNat = 2 * w.toNat % 18446744073709551616 := by
    rw [BitVec.toNat_shiftLeft, Nat.shiftLeft_eq]; simp only [Nat.reducePow]; omega
  have ell := two ll
  have elh := two lh
  have eans := two ans
  have hll := ll.isLt
  simp only [Nat.reducePow] at *
  have neg : (ll <<< 1).toInt < 0 ↔ ll.toNat / 4611686018427387904 % 2 = 1 := by
    rw [toInt_cond]; split_ifs <;> omega
  simp only [divStep]
  have l1 : (if (ll <<< 1).toInt < 0 then lh <<< 1 + 1 else lh <<< 1).toNat
      = 2 * lh.toNat + ll.toNat / 4611686018427387904 % 2 := by
    split_ifs with h
    · rw [BitVec.toNat_add, elh, toNat_one]; have := neg.1 h; simp only [Nat.reducePow]; omega
    · rw [elh]; have : ¬ _ := fun e => h (neg.2 e); omega
  generalize (if (ll <<< 1).toInt < 0 then lh <<< 1 + 1 else lh <<< 1) = x at *
  have hdi : d.toInt = d.toNat := toInt_of_lt d hd
  generalize hb : ll.toNat / 4611686018427387904 % 2 = b at *
  have hb2 : b < 2 := by omega
  rw [← l1]
  have hx2 : x.toNat < 2 * d.toNat := by omega
  by_cases hge : d.toNat ≤ x.toNat
  · have hdiv : x.toNat / d.toNat = 1 := by
      rw [Nat.div_eq_iff hd0]; omega
    have hmod : x.toNat % d.toNat = x.toNat - d.toNat := by
      rw [Nat.mod_eq_sub_mod hge, Nat.mod_eq_of_lt (by omega)]
    rw [hdiv, hmod]
    by_cases hx : x.toNat < 9223372036854775808
    · have hxi : x.toInt = x.toNat := toInt_of_lt x hx
      have c1 : x.toInt ≥ d.toInt := by omega
      have e1 : (x - d).toNat = x.toNat - d.toNat := by
        rw [BitVec.toNat_sub]; simp only [Nat.reducePow]; omega
      have c2 : ¬ (x - d).toInt < 0 := by rw [toInt_cond]; split_ifs <;> omega
      simp only [if_pos c1, if_neg c2]
      refine ⟨e1, ?_, ?_⟩
      · rw [BitVec.toNat_add, eans, toNat_one]; simp only [Nat.reducePow]; omega
      · exact ell
    · have hxl := x.isLt
      have hxi : x.toInt < 0 := by rw [toInt_cond]; split_ifs <;> omega
      have c1 : ¬ x.toInt ≥ d.toInt := by omega
      simp only [if_neg c1, if_pos hxi]
      refine ⟨?_, ?_, ?_⟩
      · have hm : (x &&& 0x7fffffffffffffff#64).toNat = x.toNat % 9223372036854775808 :=
          and_ones x 63 _ (by decide)
        have hc : (0x7fffffffffffffff#64).toNat = 9223372036854775807 := by decide
        rw [BitVec.toNat_add, BitVec.toNat_add, BitVec.toNat_sub, hm, hc, toNat_one]
        simp only [Nat.reducePow]; omega
      · rw [BitVec.toNat_add, eans, toNat_one]; simp only [Nat.reducePow]; omega
      · exact ell
  · have hdiv : x.toNat / d.toNat = 0 := Nat.div_eq_of_lt (by omega)
    have hmod : x.toNat % d.toNat = x.toNat := Nat.mod_eq_of_lt (by omega)
    have hxi : x.toInt = x.toNat := toInt_of_lt x (by omega)
    have c1 : ¬ x.toInt ≥ d.toInt := by omega
    have c2 : ¬ x.toInt < 0 := by omega
    rw [hdiv, hmod]
    simp only [if_neg c1, if_neg c2]
    exact ⟨trivial, by omega, ell⟩

theorem divIter_spec (d : Word) (hd0 : 0 < d.toNat) (hd : d.toNat < 2 ^ 63) :
    ∀ (n : Nat), n ≤ 63 → ∀ s : DivSt, s.lh.toNat < d.toNat → s.ans.toNat < 2 ^ (63 - n) →
    let D := s.lh.toNat * 2 ^ n + s.ll.toNat % 2 ^ 63 / 2 ^ (63 - n)
    (divIter d n s).lh.toNat = D % d.toNat ∧
    (divIter d n s).ans.toNat = s.ans.toNat * 2 ^ n + D / d.toNat
  | 0, _, s, hlh, _ => by
    have : s.ll.toNat % 2 ^ 63 / 2 ^ (63 - 0) = 0 :=
      Nat.div_eq_of_lt (Nat.mod_lt _ (by positivity))
    simp only [divIter, this, pow_zero, Nat.mul_one, Nat.add_zero]
    exact ⟨(Nat.mod_eq_of_lt hlh).symm, by rw [Nat.div_eq_of_lt hlh]; rfl⟩
  | n + 1, hn, s, hlh, ha => by
    have hstep := divStep_spec d s hd0 hd hlh s.ans.toNat rfl (by
      have : 2 ^ (63 - (n + 1)) ≤ 2 ^ 62 := Nat.pow_le_pow_right (by omega) (by omega)
      omega)
    simp only at hstep
    obtain ⟨h1, h2, h3⟩ := hstep
    simp only [divIter]
    set t := divStep d s with ht
    set bit := s.ll.toNat / 2 ^ 62 % 2 with hbit
    set X := 2 * s.lh.toNat + bit with hX
    have hXlt : X < 2 * d.toNat := by omega
    have hq : X / d.toNat ≤ 1 := by
      have : X / d.toNat < 2 := by rw [Nat.div_lt_iff_lt_mul hd0]; exact hXlt
      omega
    have hlh' : t.lh.toNat < d.toNat := by rw [h1]; exact Nat.mod_lt _ hd0
    have ha' : t.ans.toNat < 2 ^ (63 - n) := by
      have : 2 ^ (63 - n) = 2 * 2 ^ (63 - (n + 1)) := by
        rw [← pow_succ']; congr 1; omega
      rw [h2, this]; omega
    obtain ⟨i1, i2⟩ := divIter_spec d hd0 hd n (by omega) t hlh' ha'
    -- the remaining dividend splits
    have key : s.lh.toNat * 2 ^ (n + 1) + s.ll.toNat % 2 ^ 63 / 2 ^ (63 - (n + 1))
        = X * 2 ^ n + t.ll.toNat % 2 ^ 63 / 2 ^ (63 - n) := by
      have e1 : t.ll.toNat % 2 ^ 63 = 2 * (s.ll.toNat % 2 ^ 62) := by
        rw [h3]; simp only [Nat.reducePow]; omega
      have e2 : 2 ^ (63 - n) = 2 * 2 ^ (63 - (n + 1)) := by
        rw [← pow_succ']; congr 1; omega
      have e3 : s.ll.toNat % 2 ^ 63 = bit * 2 ^ 62 + s.ll.toNat % 2 ^ 62 := by
        rw [hbit]; simp only [Nat.reducePow]; omega
      have e4 : 2 ^ 62 = 2 ^ n * 2 ^ (63 - (n + 1)) := by
        rw [← pow_add]; congr 1; omega
      rw [e1, e2, Nat.mul_div_mul_left _ _ (by omega : 0 < 2), e3, hX]
      have e5 : bit * 2 ^ 62 + s.ll.toNat % 2 ^ 62
          = s.ll.toNat % 2 ^ 62 + 2 ^ (63 - (n + 1)) * (bit * 2 ^ n) := by
        rw [e4]; ring
      rw [e5, Nat.add_mul_div_left _ _ (by positivity)]
      ring
    rw [key]
    have split : X * 2 ^ n + t.ll.toNat % 2 ^ 63 / 2 ^ (63 - n)
        = (t.lh.toNat * 2 ^ n + t.ll.toNat % 2 ^ 63 / 2 ^ (63 - n))
          + d.toNat * (X / d.toNat * 2 ^ n) := by
      have := Nat.mod_add_div X d.toNat
      rw [h1]
      nth_rw 1 [← this]
      ring
    rw [split, Nat.add_mul_mod_self_left, Nat.add_mul_div_left _ _ hd0]
    refine ⟨i1, ?_⟩
    rw [i2, h2]
    ring

theorem extended_div_spec (d h l : Word) (hd0 : 0 < d.toNat) (hd : d.toNat < 2 ^ 63)
    (hh : h.toNat < d.toNat) (hl : l.toNat < 2 ^ 63) :
    (extended_div d h l).1.toNat = (h.toNat * 2 ^ 63 + l.toNat) / d.toNat ∧
    (extended_div d h l).2.toNat = (h.toNat * 2 ^ 63 + l.toNat) % d.toNat := by
  have := divIter_spec d hd0 hd 63 (by omega) ⟨0, h, l⟩ hh (by simp)
  unfold extended_div
  generalize divIter d 63 ⟨0, h, l⟩ = st at *
  simp only [Nat.sub_self, pow_zero, Nat.div_one, Nat.mod_eq_of_lt hl] at this
  obtain ⟨a, b⟩ := this
  simp only
  have z : (0 : Word).toNat = 0 := rfl
  rw [z, Nat.zero_mul, Nat.zero_add] at b
  exact ⟨b, a⟩

/-! ### mul_int_big, div_int_big -/

/-- unsigned value of a vector of 63-bit words, least significant first -/
def uval : List Word → Nat
  | [] => 0
  | x :: xs => x.toNat + 2 ^ 63 * uval xs

/-- all words below 2^63 -/
def Small (v : List Word) : Prop := ∀ w ∈ v, w.toNat < 2 ^ 63

theorem limbsVal_of_small : ∀ v, Small v → v ≠ [] → WFv v ∧ limbsVal v = uval v
  | [], _, h => absurd rfl h
  | [t], hs, _ => by
    have := hs t (by simp)
    refine ⟨trivial, ?_⟩
    simp only [limbsVal, uval, toInt_of_lt t (by simpa using this)]
    simp
  | l :: a :: r, hs, _ => by
    have hl := hs l (by simp)
    obtain ⟨h1, h2⟩ := limbsVal_of_small (a :: r) (fun w hw => hs w (by simp [hw])) (by simp)
    rw [WFv_cons _ _ (by simp), limbsVal_cons _ _ (by simp), h2]
    refine ⟨⟨by simpa using hl, h1⟩, ?_⟩
    simp only [uval]; push_cast; ring

theorem small_of_nonneg : ∀ v, WFv v → 0 ≤ (big_sign v).toInt → Small v := by
  apply WFv.ind
  · intro t h w hw
    simp only [List.mem_singleton] at hw
    subst hw
    have h : 0 ≤ w.toInt := h
    have := toNat_of_nonneg w h
    have := toInt_bd w
    simp only [Nat.reducePow]; omega
  · intro l r hr hl hw ih h w hmem
    rcases List.mem_cons.1 hmem with rfl | h'
    · simpa using hl
    · apply ih _ w h'
      cases r with
      | nil => exact absurd rfl hr
      | cons a t => simpa [big_sign, List.getLastD] using h

/-- the sign of the top word is the sign of the value -/
theorem sign_iff : ∀ v, WFv v → ((big_sign v).toInt < 0 ↔ limbsVal v < 0) := by
  apply WFv.ind
  · intro t; rfl
  · intro l r hr hl hw ih
    rw [limbsVal_cons _ _ hr]
    have : big_sign (l :: r) = big_sign r := by
      cases r with
      | nil => exact absurd rfl hr
      | cons a t => simp [big_sign, List.getLastD]
    rw [this, ih]
    constructor <;> intro h <;> omega

theorem mulLoop_spec (c : Word) (hc : c.toNat < 2 ^ 63) : ∀ (v : List Word) (h : Word),
    h.toNat < 2 ^ 63 → Small v →
    Small (mulLoop c h v) ∧ uval (mulLoop c h v) = c.toNat * uval v + h.toNat ∧
    v.length ≤ (mulLoop c h v).length
  | [], h, hh, _ => by
    simp only [mulLoop]
    have hi : h.toInt = h.toNat := toInt_of_lt h (by simpa using hh)
    split_ifs with hp
    · refine ⟨?_, ?_, by simp⟩
      · intro w hw; simp only [List.mem_singleton] at hw; subst hw; exact hh
      · simp [uval]
    · refine ⟨by intro w hw; simp at hw, ?_, by simp⟩
      simp only [uval]; omega
  | x :: xs, h, hh, hs => by
    have hx := hs x (by simp)
    obtain ⟨e1, e2, e3⟩ := extended_mul_spec c x h hc hx hh
    obtain ⟨i1, i2, i3⟩ := mulLoop_spec c hc xs (extended_mul c x h).1 e3
      (fun w hw => hs w (by simp [hw]))
    simp only [mulLoop]
    refine ⟨?_, ?_, by simpa using i3⟩
    · intro w hw
      rcases List.mem_cons.1 hw with rfl | h'
      · exact e2
      · exact i1 w h'
    · simp only [uval, i2]
      generalize (extended_mul c x h).1.toNat = hi at *
      generalize (extended_mul c x h).2.toNat = lo at *
      have : lo + 2 ^ 63 * (c.toNat * uval xs + hi) = (hi * 2 ^ 63 + lo) + 2 ^ 63 * (c.toNat * uval xs) := by
        ring
      rw [this, e1]; ring

theorem mul_int_big_spec (c : Word) (v : List Word) (hc : 0 ≤ c.toInt) (hv : WFv v)
    (hs : 0 ≤ limbsVal v) : WFv (mul_int_big c v) ∧
    limbsVal (mul_int_big c v) = c.toInt * limbsVal v ∧ 0 ≤ (big_sign (mul_int_big c v)).toInt := by
  have hcn := toNat_of_nonneg c hc
  have hcb := toInt_bd c
  have hsm : Small v := small_of_nonneg v hv (by
    by_contra h
    have := (sign_iff v hv).1 (by omega)
    omega)
  obtain ⟨h1, h2, h3⟩ := mulLoop_spec c (by simp only [Nat.reducePow]; omega) v 0 (by decide) hsm
  have hne : mulLoop c 0 v ≠ [] := by
    intro e
    rw [e] at h3
    exact hv.ne_nil (List.length_eq_zero_iff.1 (by simpa using h3))
  obtain ⟨g1, g2⟩ := limbsVal_of_small _ h1 hne
  obtain ⟨_, g4⟩ := limbsVal_of_small v hsm hv.ne_nil
  refine ⟨g1, ?_, ?_⟩
  · unfold mul_int_big
    rw [g2, h2, g4, toNat_zero]
    push_cast
    rw [hcn]; ring
  · by_contra h
    have := (sign_iff _ g1).1 (by unfold mul_int_big at h; omega)
    rw [g2] at this
    omega

/-- value of a vector given most significant word first -/
def rval (acc : Nat) : List Word → Nat
  | [] => acc
  | x :: xs => rval (acc * 2 ^ 63 + x.toNat) xs

theorem rval_append (acc : Nat) (a b : List Word) : rval acc (a ++ b) = rval (rval acc a) b := by
  induction a generalizing acc with
  | nil => rfl
  | cons x xs ih => simp [rval, ih]

theorem rval_acc (v : List Word) (acc : Nat) :
    rval acc v = acc * (2 ^ 63) ^ v.length + rval 0 v := by
  induction v generalizing acc with
  | nil => simp [rval]
  | cons x xs ih =>
    simp only [rval, List.length_cons]
    rw [ih, ih (0 * 2 ^ 63 + x.toNat)]
    ring

theorem rval_reverse (v : List Word) : rval 0 v.reverse = uval v := by
  induction v with
  | nil => rfl
  | cons x xs ih =>
    rw [List.reverse_cons, rval_append, ih]
    simp only [rval, uval]
    ring

theorem divLoop_spec (c : Word) (hc0 : 0 < c.toNat) (hc : c.toNat < 2 ^ 63) :
    ∀ (v : List Word) (r : Word), r.toNat < c.toNat → Small v →
    Small (divLoop c r v).1 ∧ (divLoop c r v).1.length = v.length ∧
    rval 0 (divLoop c r v).1 = rval r.toNat v / c.toNat ∧
    (divLoop c r v).2.toNat = rval r.toNat v % c.toNat
  | [], r, hr, _ => by
    simp only [divLoop, rval]
    refine ⟨by intro w hw; simp at hw, trivial, ?_, ?_⟩
    · rw [Nat.div_eq_of_lt hr]
    · rw [Nat.mod_eq_of_lt hr]
  | x :: xs, r, hr, hs => by
    have hx := hs x (by simp)
    obtain ⟨e1, e2⟩ := extended_div_spec c r x hc0 hc hr hx
    have hr' : (extended_div c r x).2.toNat < c.toNat := by rw [e2]; exact Nat.mod_lt _ hc0
    obtain ⟨i1, i2, i3, i4⟩ := divLoop_spec c hc0 hc xs (extended_div c r x).2 hr'
      (fun w hw => hs w (by simp [hw]))
    have hq : (extended_div c r x).1.toNat < 2 ^ 63 := by
      rw [e1, Nat.div_lt_iff_lt_mul hc0]
      have : (r.toNat + 1) * 2 ^ 63 ≤ c.toNat * 2 ^ 63 := Nat.mul_le_mul_right _ hr
      nlinarith
    simp only [divLoop]
    generalize extended_div c r x = p at *
    refine ⟨?_, by simp [i2], ?_, ?_⟩
    · intro w hw
      rcases List.mem_cons.1 hw with rfl | h'
      · exact hq
      · exact i1 w h'
    · simp only [rval]
      rw [rval_acc, i2, i3, rval_acc xs p.2.toNat, rval_acc xs (r.toNat * 2 ^ 63 + x.toNat)]
      have key : (r.toNat * 2 ^ 63 + x.toNat) = p.2.toNat + c.toNat * p.1.toNat := by
        rw [e1, e2, Nat.mod_add_div]
      rw [key]
      have : (p.2.toNat + c.toNat * p.1.toNat) * (2 ^ 63) ^ xs.length + rval 0 xs
          = (p.2.toNat * (2 ^ 63) ^ xs.length + rval 0 xs) + c.toNat * (p.1.toNat * (2 ^ 63) ^ xs.length) := by
        ring
      rw [this, Nat.add_mul_div_left _ _ hc0]
      ring
    · simp only [rval]
      rw [i4, rval_acc xs p.2.toNat, rval_acc xs (r.toNat * 2 ^ 63 + x.toNat)]
      have key : (r.toNat * 2 ^ 63 + x.toNat) = p.2.toNat + c.toNat * p.1.toNat := by
        rw [e1, e2, Nat.mod_add_div]
      rw [key]
      have : (p.2.toNat + c.toNat * p.1.toNat) * (2 ^ 63) ^ xs.length + rval 0 xs
          = (p.2.toNat * (2 ^ 63) ^ xs.length + rval 0 xs) + c.toNat * (p.1.toNat * (2 ^ 63) ^ xs.length) := by
        ring
      rw [this, Nat.add_mul_mod_self_left]

theorem sdiv_nonneg (t c : Word) (ht : t.toNat < 2 ^ 63) (hc : c.toNat < 2 ^ 63) :
    (t.sdiv c).toNat = t.toNat / c.toNat ∧ (t.srem c).toNat = t.toNat % c.toNat := by
  have h1 : t.msb = false := by rw [BitVec.msb_eq_decide]; simpa using ht
  have h2 : c.msb = false := by rw [BitVec.msb_eq_decide]; simpa using hc
  rw [BitVec.sdiv_eq, BitVec.srem_eq]
  simp [h1, h2]

theorem div_int_big_spec (c : Word) (v : List Word) (hc : 0 < c.toInt) (hv : WFv v)
    (hs : 0 ≤ limbsVal v) : ∃ q r, div_int_big c v = some (q, r) ∧ WFv q ∧
    limbsVal q = limbsVal v / c.toInt ∧ r.toInt = limbsVal v % c.toInt ∧
    0 ≤ limbsVal q ∧ q.length = v.length := by
  have hcn := toNat_of_nonneg c (by omega)
  have hcb := toInt_bd c
  have hc0 : 0 < c.toNat := by omega
  have hc63 : c.toNat < 2 ^ 63 := by simp only [Nat.reducePow]; omega
  have hsm : Small v := small_of_nonneg v hv (by
    by_contra h
    have := (sign_iff v hv).1 (by omega)
    omega)
  have hcne : c ≠ 0 := by rintro rfl; simp at hc0
  unfold div_int_big
  rw [if_neg hcne]
  cases hrev : v.reverse with
  | nil => exact absurd (by simpa using hrev) hv.ne_nil
  | cons t rest =>
    have hsr : Small (t :: rest) := by
      rw [← hrev]; intro w hw; exact hsm w (by simpa using hw)
    have ht := hsr t (by simp)
    obtain ⟨s1, s2⟩ := sdiv_nonneg t c ht hc63
    have hr : (t.srem c).toNat < c.toNat := by rw [s2]; exact Nat.mod_lt _ hc0
    obtain ⟨d1, d2, d3, d4⟩ := divLoop_spec c hc0 hc63 rest (t.srem c) hr
      (fun w hw => hsr w (by simp [hw]))
    simp only
    refine ⟨_, _, rfl, ?_⟩
    have huv : uval v = rval t.toNat rest := by
      rw [← rval_reverse, hrev]; simp [rval]
    have key : t.toNat = (t.srem c).toNat + c.toNat * (t.sdiv c).toNat := by
      rw [s1, s2, Nat.mod_add_div]
    have hsplit : uval v = rval (t.srem c).toNat rest
        + c.toNat * ((t.sdiv c).toNat * (2 ^ 63) ^ rest.length) := by
      rw [huv, rval_acc rest t.toNat, rval_acc rest (t.srem c).toNat]
      nth_rw 1 [key]
      ring
    have hq : uval (t.sdiv c :: (divLoop c (t.srem c) rest).1).reverse = uval v / c.toNat := by
      rw [← rval_reverse, List.reverse_reverse]
      simp only [rval]
      rw [rval_acc, d2, d3, hsplit, Nat.add_mul_div_left _ _ hc0]
      ring
    have hrm : (divLoop c (t.srem c) rest).2.toNat = uval v % c.toNat := by
      rw [d4, hsplit, Nat.add_mul_mod_self_left]
    have hsq : Small (t.sdiv c :: (divLoop c (t.srem c) rest).1).reverse := by
      intro w hw
      rw [List.mem_reverse] at hw
      rcases List.mem_cons.1 hw with rfl | h'
      · rw [s1]; exact lt_of_le_of_lt (Nat.div_le_self _ _) ht
      · exact d1 w h'
    obtain ⟨g1, g2⟩ := limbsVal_of_small _ hsq (by simp)
    obtain ⟨_, g4⟩ := limbsVal_of_small v hsm hv.ne_nil
    refine ⟨g1, ?_, ?_, ?_, ?_⟩
    · rw [g2, hq, g4, ← hcn]; norm_cast
    · have : (divLoop c (t.srem c) rest).2.toNat < 2 ^ 63 := by
        rw [hrm]; exact lt_trans (Nat.mod_lt _ hc0) hc63
      rw [toInt_of_lt _ (by simpa using this), hrm, g4, ← hcn]; norm_cast
    · rw [g2]; omega
    · have : v.length = rest.length + 1 := by
        rw [← List.length_reverse, hrev]; rfl
      simp [d2, this]

end Eus.Num
