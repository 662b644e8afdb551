import Verif.Rd.Proofs
import Verif.Bits.Props
set_option autoImplicit false
namespace Eus.Rd
open Eus.Num

/-! ### printing an integer -/

theorem pad_neg (j : Int) (c : Nat) (h : j ≤ 0) : pad j c = [] := by
  unfold pad
  rw [Int.toNat_of_nonpos h]; rfl

theorem printnum_spec (base : Nat) (down : Bool) (hb : 2 ≤ base) (hb' : base ≤ 36) (n : Num)
    (hn : n.WF) (h0 : ∀ v, n = .big v → limbsVal v ≠ 0) :
    ∃ ds : List Nat, ds ≠ [] ∧ (∀ d ∈ ds, d < base) ∧ posVal base ds = n.val.natAbs ∧
      (ds.head? = some 0 → ds = [0]) ∧
      printnum base down n 0 0 =
        some ((if n.val < 0 then [45] else []) ++ ds.map (digitChar down)) := by
  cases n with
  | fix w =>
    have hw : InFix w.toInt := hn
    have hnum : (if decide (w.toInt < 0) = true then -w else w).toNat = w.toInt.natAbs := by
      by_cases h : w.toInt < 0
      · simp only [h, decide_true, if_true]
        have e := toInt_neg' w (infix_ne_min hw)
        have := toNat_of_nonneg (-w) (by omega)
        omega
      · simp only [h, decide_false, Bool.false_eq_true, if_false]
        have := toNat_of_nonneg w (by omega)
        omega
    have hlt : w.toInt.natAbs < base ^ (64 + 1) := by
      have h1 : 2 ^ 65 ≤ base ^ 65 := Nat.pow_le_pow_left hb 65
      obtain ⟨h2, h3⟩ := hw
      have h4 : (2:Nat) ^ 65 = 36893488147419103232 := by norm_num
      show w.toInt.natAbs < base ^ 65
      omega
    obtain ⟨ds, h1, h2, h3, h5, h4⟩ := workLoop_spec base down hb hb' 64 w.toInt.natAbs [] hlt
    refine ⟨ds, h1, h2, h3, h5, ?_⟩
    have hlen : ds.length ≥ 1 := List.length_pos_iff.2 h1
    simp only [printnum, printint]
    rw [if_neg (by omega), hnum, h4]
    simp only [List.append_nil, List.length_map, decide_eq_true_eq]
    have hv : (Num.fix w).val = w.toInt := rfl
    rw [hv]
    by_cases h : w.toInt < 0
    · simp only [h, if_true]
      rw [if_neg (by omega), pad_neg _ _ (by omega), pad_neg _ _ (by omega)]; simp
    · simp only [h, if_false]
      rw [if_neg (by omega), pad_neg _ _ (by omega), pad_neg _ _ (by omega)]; simp
  | big v =>
    have hv : WFv v := hn
    have hne := h0 v rfl
    have hsg := sign_iff v hv
    have hvv : (Num.big v).val = limbsVal v := rfl
    simp only [printnum, printbig, hvv]
    have main : ∀ b : List Word, WFv b → 0 ≤ limbsVal b → limbsVal b = (limbsVal v).natAbs →
        ∃ ds : List Nat, ds ≠ [] ∧ (∀ d ∈ ds, d < base) ∧ posVal base ds = (limbsVal v).natAbs ∧
          (ds.head? = some 0 → ds = [0]) ∧
          bigLoop base down (64 * b.length + 1) b [] = some (ds.map (digitChar down)) := by
      intro b hb1 hb2 hb3
      have hr := (limbsVal_range b hb1).2
      have hp : ((2 ^ 63) ^ b.length : Int) ≤ 2 ^ (64 * b.length) := by
        rw [← pow_mul]; exact pow_le_pow_right₀ (by norm_num) (by omega)
      obtain ⟨ds, h1, h2, h3, h5, h4⟩ := bigLoop_spec base down hb hb' (64 * b.length) b [] hb1 hb2
        (by omega)
      refine ⟨ds, h1 (by omega), h2, by omega, fun h => absurd h h5, ?_⟩
      rw [h4]; simp
    by_cases h : limbsVal v < 0
    · have hs : (big_sign v).toInt < 0 := hsg.2 h
      simp only [hs, h, decide_true, if_true]
      rw [big_minus_eq]
      obtain ⟨c1, c2⟩ := complement_big_spec v hv
      obtain ⟨ds, h1, h2, h3, h5, h4⟩ := main (complement_big v) c1 (by omega) (by omega)
      refine ⟨ds, h1, h2, h3, h5, ?_⟩
      have hlen : ds.length ≥ 1 := List.length_pos_iff.2 h1
      rw [h4]
      simp only [List.length_map]
      rw [if_pos (by omega), pad_neg _ _ (by omega), pad_neg _ _ (by omega)]; simp
    · have hs : ¬ (big_sign v).toInt < 0 := fun hh => h (hsg.1 hh)
      simp only [hs, h, decide_false, Bool.false_eq_true, if_false]
      obtain ⟨ds, h1, h2, h3, h5, h4⟩ := main v hv (by omega) (by omega)
      refine ⟨ds, h1, h2, h3, h5, ?_⟩
      have hlen : ds.length ≥ 1 := List.length_pos_iff.2 h1
      rw [h4]
      simp only [List.length_map]
      rw [if_pos (by omega), pad_neg _ _ (by omega), pad_neg _ _ (by omega)]; simp

/-! ### reading digits -/

/-- the top word of a vector of two or more words is not zero -/
def Top (v : List Word) : Prop := v.length ≥ 2 → (2 ^ 63) ^ (v.length - 1) ≤ limbsVal v

theorem mulLoop_top (c : Word) (hc : c.toNat < 2 ^ 63) : ∀ (v : List Word) (h : Word),
    h.toNat < 2 ^ 63 → Small v →
    (mulLoop c h v).length = v.length ∨
      ((mulLoop c h v).length = v.length + 1 ∧ (2 ^ 63) ^ v.length ≤ uval (mulLoop c h v))
  | [], h, hh, _ => by
    simp only [mulLoop]
    by_cases hp : h.toInt > 0
    · right
      rw [if_pos hp]
      have := toNat_of_nonneg h (by omega)
      simp [uval]; omega
    · left; rw [if_neg hp]
  | x :: xs, h, hh, hs => by
    have hx := hs x (by simp)
    have hxs : Small xs := fun w hw => hs w (by simp [hw])
    have hm := mulLoop_spec c hc (x :: xs) h hh hs
    have e := extended_mul_spec c x h hc hx hh
    simp only [mulLoop, List.length_cons]
    rcases mulLoop_top c hc xs (extended_mul c x h).1 e.2.2 hxs with h1 | ⟨h1, h2⟩
    · left; omega
    · right
      refine ⟨by omega, ?_⟩
      simp only [uval]
      rw [pow_succ]
      have : (2 ^ 63) ^ xs.length * 2 ^ 63 ≤ 2 ^ 63 * uval (mulLoop c (extended_mul c x h).1 xs) := by
        rw [Nat.mul_comm]; exact Nat.mul_le_mul_left _ h2
      omega

theorem nonneg_small (v : List Word) (hv : WFv v) (hs : 0 ≤ limbsVal v) : Small v :=
  small_of_nonneg v hv (by
    by_contra h
    have := (sign_iff v hv).1 (by omega)
    omega)

theorem mul_top (c : Word) (v : List Word) (hc : 0 < c.toInt) (hv : WFv v) (hs : 0 ≤ limbsVal v)
    (ht : Top v) : Top (mul_int_big c v) := by
  have hcn := toNat_of_nonneg c (by omega)
  have hcb := toInt_bd c
  have hsm := nonneg_small v hv hs
  obtain ⟨m1, m2, m3⟩ := mul_int_big_spec c v (by omega) hv hs
  have hsm' : Small (mul_int_big c v) := small_of_nonneg _ m1 m3
  have huv := (limbsVal_of_small _ hsm' m1.ne_nil).2
  intro hl
  rcases mulLoop_top c (by omega) v 0 (by decide) hsm with h | ⟨h, h2⟩
  · have h' : (mul_int_big c v).length = v.length := h
    rw [h'] at hl ⊢
    have := ht hl
    rw [m2]
    have h1 : (1:Int) ≤ c.toInt := by omega
    nlinarith
  · have h' : (mul_int_big c v).length = v.length + 1 := h
    rw [h', huv]
    have h3 : (2 ^ 63) ^ v.length ≤ uval (mul_int_big c v) := h2
    have : v.length + 1 - 1 = v.length := by omega
    rw [this]
    exact_mod_cast h3

theorem add_len' : ∀ (v : List Word), WFv v → ∀ c : Word,
    (add_int_big c v).length = v.length ∨
      ((add_int_big c v).length = v.length + 1 ∧
        ∃ u : List Word, add_int_big c v = u ++ [1]) := by
  apply WFv.ind
  · intro t c
    simp only [add_int_big]
    split_ifs with h1 h2
    · right; exact ⟨rfl, [(t + c) &&& MASK], rfl⟩
    · left; rfl
    · left; rfl
  · intro l r hr _ _ ih c
    rw [add_int_big_cons _ _ _ hr]
    split_ifs with h
    · rcases ih 1 with h1 | ⟨h1, u, h2⟩
      · left; rw [List.length_cons, List.length_cons, h1]
      · right; exact ⟨by rw [List.length_cons, List.length_cons, h1], ((l + c) &&& MASK) :: u, by rw [h2]; rfl⟩
    · left; simp

theorem add_top (c : Word) (v : List Word) (hc : 0 ≤ c.toInt) (hv : WFv v)
    (ht : Top v) : Top (add_int_big c v) := by
  obtain ⟨a1, a2⟩ := add_int_big_spec v hv c hc
  intro hl
  rcases add_len' v hv c with h | ⟨h, u, hu⟩
  · rw [h] at hl ⊢
    have := ht hl
    omega
  · rw [hu] at a1 ⊢
    obtain ⟨s1, s2⟩ := snoc_range u 1 a1
    rw [s1]
    have e : (1 : Word).toInt = 1 := by decide
    rw [e]
    simp

theorem ofNat_toInt (k : Nat) (h : k < 2 ^ 63) : (BitVec.ofNat 64 k : Word).toInt = k := by
  rw [toInt_of_lt _ (by rw [BitVec.toNat_ofNat]; omega), BitVec.toNat_ofNat]; omega

theorem readDigits_spec (base : Nat) (hb : 2 ≤ base) (hb' : base ≤ 36) :
    ∀ (cs ds : List Nat) (b : List Word), List.Forall₂ DigitCode cs ds → WFv b → 0 ≤ limbsVal b →
      Top b → ∃ b', readDigits base cs b = some b' ∧ WFv b' ∧ Top b' ∧
        limbsVal b' = limbsVal b * base ^ ds.length + posVal base ds := by
  intro cs ds b h
  induction h generalizing b with
  | nil => intro h1 h2 h3; exact ⟨b, rfl, h1, h3, by simp [posVal]⟩
  | @cons c d cs ds hc _ ih =>
    intro h1 h2 h3
    have hd : d < 36 := by rcases hc with h | h <;> omega
    have eb := ofNat_toInt base (by omega)
    have ed := ofNat_toInt d (by omega)
    obtain ⟨m1, m2, m3⟩ := mul_int_big_spec (BitVec.ofNat 64 base) b (by omega) h1 h2
    have m4 := mul_top (BitVec.ofNat 64 base) b (by omega) h1 h2 h3
    have m0 : 0 ≤ limbsVal (mul_int_big (BitVec.ofNat 64 base) b) := by
      rw [m2, eb]; positivity
    obtain ⟨a1, a2⟩ := add_int_big_spec _ m1 (BitVec.ofNat 64 d) (by omega)
    have a3 := add_top (BitVec.ofNat 64 d) _ (by omega) m1 m4
    obtain ⟨b', r1, r2, r3, r4⟩ := ih _ a1 (by rw [a2]; omega) a3
    refine ⟨b', ?_, r2, r3, ?_⟩
    · rw [readDigits, digitVal_code c d hc]; exact r1
    · rw [r4, a2, m2, eb, ed]
      simp only [posVal, List.length_cons, pow_succ]
      push_cast
      ring

/-- C's `strtol` on the digits of a numeral -/
theorem strtolDigits_spec (base : Nat) (cs ds : List Nat) (acc : Nat)
    (h : List.Forall₂ DigitCode cs ds) (hd : ∀ d ∈ ds, d < base) :
    strtolDigits base cs acc = acc * base ^ ds.length + posVal base ds := by
  induction h generalizing acc with
  | nil => simp [strtolDigits, posVal]
  | @cons c d cs ds hc _ ih =>
    rw [strtolDigits, digitVal_code c d hc]
    simp only
    rw [if_pos (hd d (by simp)), ih _ (fun x hx => hd x (by simp [hx]))]
    simp only [posVal, List.length_cons, pow_succ]
    ring

theorem truncInt_small (z : Int) (h : -2 ^ 31 ≤ z ∧ z < 2 ^ 31) :
    (truncInt (BitVec.ofInt 64 z)).toInt = z := by
  unfold truncInt
  rw [BitVec.toInt_signExtend_of_le (by omega)]
  have : (BitVec.truncate 32 (BitVec.ofInt 64 z)) = BitVec.ofInt 32 z := by
    apply BitVec.eq_of_toNat_eq
    simp only [BitVec.truncate_eq_setWidth, BitVec.toNat_setWidth, BitVec.toNat_ofInt]
    omega
  rw [this, BitVec.toInt_ofInt]
  simp only [Int.bmod_def]
  omega

theorem norm_canonical (b : List Word) (hb : WFv b) (hs : 0 ≤ limbsVal b) (ht : Top b) :
    (normalize_bignum b).Canonical ∧ (normalize_bignum b).val = limbsVal b ∧
    (normalize_bignum (complement_big b)).Canonical ∧
    (normalize_bignum (complement_big b)).val = -limbsVal b := by
  obtain ⟨n1, n2, n3⟩ := normalize_bignum_spec b hb
  obtain ⟨c1, c2⟩ := complement_big_spec b hb
  obtain ⟨m1, m2, m3⟩ := normalize_bignum_spec _ c1
  refine ⟨n3 (fun h => by omega), n2, m3 (fun h hl => ?_), by rw [m2, c2]⟩
  have hsign : big_sign b ≠ ~~~MASK := by
    intro h
    have h1 : (big_sign b).toInt < 0 := by rw [h]; decide
    have := (sign_iff b hb).1 h1
    omega
  rw [complement_len b hsign] at hl ⊢
  rw [c2]
  have h1 := ht (by omega)
  have h2 : ((2 ^ 63) ^ (b.length - 2) : Int) < (2 ^ 63) ^ (b.length - 1) :=
    pow_lt_pow_right₀ (by norm_num) (by omega)
  omega

theorem makeint_canonical (w : Word) (h : InFix w.toInt) :
    (makeint w).Canonical ∧ (makeint w).val = w.toInt := by
  rw [makeint_infix w h]; exact ⟨h, rfl⟩

theorem strtol_spec (base : Nat) (tok : List Nat) (z : Int)
    (h : Numeral base tok z) : strtol base tok = z := by
  rcases h with ⟨n, ⟨ds, hne, hd, hc, hv⟩, rfl⟩ | ⟨cs, n, rfl, ⟨ds, hne, hd, hc, hv⟩, rfl⟩ |
    ⟨cs, n, rfl, ⟨ds, hne, hd, hc, hv⟩, rfl⟩
  · have e := strtolDigits_spec base tok ds 0 hc hd
    cases hc with
    | nil => exact absurd rfl hne
    | @cons c d cs ds hcd hr =>
      have hp := code_props c d hcd
      rw [strtol, if_neg hp.2.2.2.2.1, if_neg hp.2.2.2.1, e, hv]; simp
  · rw [strtol, if_neg (by decide), if_pos rfl, strtolDigits_spec base cs ds 0 hc hd, hv]; simp
  · rw [strtol, if_pos rfl, strtolDigits_spec base cs ds 0 hc hd, hv]; simp

theorem readint_spec (base : Nat) (hb : 2 ≤ base) (hb' : base ≤ 36) (tok : List Nat) (z : Int)
    (h : Numeral base tok z) (hs : ¬ ShortWide tok z) :
    ∃ m, readint base tok = some m ∧ m.Canonical ∧ m.val = z := by
  unfold readint
  by_cases hl : tok.length < 8
  · rw [if_pos hl]
    have hr : -2 ^ 31 ≤ z ∧ z < 2 ^ 31 := by
      by_contra hh; exact hs ⟨hl, hh⟩
    rw [strtol_spec base tok z h]
    have e := truncInt_small z hr
    have := makeint_canonical (truncInt (BitVec.ofInt 64 z)) (by rw [e]; unfold InFix; omega)
    exact ⟨_, rfl, this.1, by rw [this.2, e]⟩
  · rw [if_neg hl]
    have h0 : limbsVal [0] = 0 := rfl
    have hrd : ∀ (cs ds : List Nat), List.Forall₂ DigitCode cs ds → ∃ b', readDigits base cs [0] = some b' ∧
        WFv b' ∧ Top b' ∧ limbsVal b' = posVal base ds := by
      intro cs ds hc
      obtain ⟨b', r1, r2, r3, r4⟩ := readDigits_spec base hb hb' cs ds [0] hc trivial (by decide)
        (fun h => by simp at h)
      exact ⟨b', r1, r2, r3, by rw [r4, h0]; simp⟩
    rcases h with ⟨n, ⟨ds, hne, hd, hc, hv⟩, rfl⟩ | ⟨cs, n, rfl, ⟨ds, hne, hd, hc, hv⟩, rfl⟩ |
      ⟨cs, n, rfl, ⟨ds, hne, hd, hc, hv⟩, rfl⟩
    · obtain ⟨b', r1, r2, r3, r4⟩ := hrd tok ds hc
      have hh : tok.head? ≠ some 45 ∧ tok.head? ≠ some 43 := by
        cases hc with
        | nil => exact absurd rfl hne
        | @cons c d cs ds hcd hr =>
          have hp := code_props c d hcd
          simp [hp.2.2.2.2.1, hp.2.2.2.1]
      simp only [hh.1, hh.2, or_self, if_false, decide_false, Bool.false_eq_true, r1]
      have hn := norm_canonical b' r2 (by omega) r3
      exact ⟨_, rfl, hn.1, by rw [hn.2.1, r4, hv]⟩
    · obtain ⟨b', r1, r2, r3, r4⟩ := hrd cs ds hc
      have e43 : decide ((43 :: cs).head? = some 45) = false := by simp
      simp only [e43, Bool.false_eq_true, if_false]
      simp only [List.head?_cons, List.tail_cons, true_or, if_true, r1]
      have hn := norm_canonical b' r2 (by omega) r3
      refine ⟨_, rfl, ?_⟩
      exact ⟨hn.1, by rw [hn.2.1, r4, hv]⟩
    · obtain ⟨b', r1, r2, r3, r4⟩ := hrd cs ds hc
      have e45 : decide ((45 :: cs).head? = some 45) = true := by simp
      simp only [e45, if_true]
      simp only [List.head?_cons, List.tail_cons, or_true, if_true, r1]
      have hn := norm_canonical b' r2 (by omega) r3
      refine ⟨_, rfl, ?_⟩
      exact ⟨hn.2.2.1, by rw [hn.2.2.2, r4, hv]⟩

/-! ### tokens -/

theorem step8_put (t : Tok) (c : Nat) (s : List Nat) (hl : t.tok.length < 1024)
    (hc : syntaxtype c = .constituent ∨ syntaxtype c = .nontermacro) :
    step8 t (c :: s) = step8 (t.put c) s := by
  rw [step8.eq_def]
  simp only [if_neg (show ¬ t.tok.length ≥ 1024 by omega)]
  rcases hc with hc | hc <;> simp only [hc]

theorem step8_bar (t : Tok) (s : List Nat) (hl : t.tok.length < 1024) :
    step8 t (124 :: s) = step9 { t with escaped := true } s := by
  rw [step8.eq_def]
  simp only [if_neg (show ¬ t.tok.length ≥ 1024 by omega)]
  have : syntaxtype 124 = .multiescape := rfl
  simp only [this]

theorem step8_end (t : Tok) (c : Nat) (s : List Nat) (hl : t.tok.length < 1024)
    (hc : syntaxtype c = .white ∨ syntaxtype c = .termmacro) :
    step8 t (c :: s) = .done t (c :: s) := by
  rw [step8.eq_def]
  simp only [if_neg (show ¬ t.tok.length ≥ 1024 by omega)]
  rcases hc with hc | hc <;> simp only [hc]

theorem step9_put (t : Tok) (c : Nat) (s : List Nat) (hl : t.tok.length < 1024)
    (hc : syntaxtype c ≠ .sglescape) (hc1 : syntaxtype c ≠ .multiescape) (hc2 : syntaxtype c ≠ .illegal) :
    step9 t (c :: s) = step9 (t.putEsc c) s := by
  rw [step9.eq_def]
  simp only [if_neg (show ¬ t.tok.length ≥ 1024 by omega)]
  cases h : syntaxtype c <;> simp_all

theorem step9_esc (t : Tok) (c : Nat) (s : List Nat) (hl : t.tok.length < 1024) :
    step9 t (92 :: c :: s) = step9 (t.putEsc c) s := by
  rw [step9.eq_def]
  simp only [if_neg (show ¬ t.tok.length ≥ 1024 by omega)]
  have : syntaxtype 92 = .sglescape := rfl
  simp only [this]

theorem step9_bar (t : Tok) (s : List Nat) (hl : t.tok.length < 1024) :
    step9 t (124 :: s) = step8 { t with escaped := true } s := by
  rw [step9.eq_def]
  simp only [if_neg (show ¬ t.tok.length ≥ 1024 by omega)]
  have : syntaxtype 124 = .multiescape := rfl
  simp only [this]

theorem read1_constituent (base n : Nat) (c : Nat) (s : List Nat) (hc : syntaxtype c = .constituent) :
    read1 base (n + 1) (c :: s) =
      finish base (step8 ⟨[to_upper c], false, if c = 58 then some 0 else none⟩ s) := by
  rw [read1.eq_def]
  simp only [hc]
theorem white_cases (c : Nat) (h : c ∈ [9, 10, 12, 13, 32]) : syntaxtype c = .white := by
  simp only [List.mem_cons, List.not_mem_nil, or_false] at h
  rcases h with rfl | rfl | rfl | rfl | rfl <;> rfl

theorem term_cases (c : Nat) (h : c ∈ [34, 39, 40, 41, 44, 59, 96]) : syntaxtype c = .termmacro := by
  simp only [List.mem_cons, List.not_mem_nil, or_false] at h
  rcases h with rfl | rfl | rfl | rfl | rfl | rfl | rfl <;> rfl

theorem step8_delim (t : Tok) (rest : List Nat) (hr : Delim rest) (hl : t.tok.length < 1024) :
    step8 t rest = .done t rest := by
  cases rest with
  | nil => rw [step8, if_neg (by omega)]
  | cons c s =>
    have hc : EndsToken c := hr c (by simp)
    exact step8_end t c s hl (hc.imp (white_cases c) (term_cases c))

/-- reading unescaped characters -/
theorem step8_plain : ∀ (w : List Nat) (t : Tok) (rest : List Nat),
    (∀ c ∈ w, syntaxtype c = .constituent ∧ c ≠ 58) → Delim rest → t.tok.length + w.length < 1024 →
    step8 t (w ++ rest) = .done ⟨t.tok ++ w.map to_upper, t.escaped, t.colon⟩ rest
  | [], t, rest, _, hr, hl => by
    simp only [List.nil_append, List.map_nil, List.append_nil]
    exact step8_delim t rest hr (by simpa using hl)
  | c :: w, t, rest, h, hr, hl => by
    have hc := h c (by simp)
    simp only [List.length_cons] at hl
    rw [List.cons_append, step8_put t c _ (by omega) (Or.inl hc.1)]
    rw [step8_plain w (t.put c) rest (fun x hx => h x (by simp [hx])) hr
      (by simp only [Tok.put, List.length_append, List.length_singleton]; omega)]
    simp only [Tok.put, if_neg hc.2, List.map_cons, List.append_assoc, List.singleton_append]

theorem forall2_upper {cs ds : List Nat} (h : List.Forall₂ DigitCode cs ds) :
    List.Forall₂ DigitCode (cs.map to_upper) ds := by
  induction h with
  | nil => exact .nil
  | cons hc _ ih => exact .cons (code_props _ _ hc).2.2.2.2.2.2.2.1 ih

theorem digits_isdigit {base : Nat} {cs ds : List Nat} (h : List.Forall₂ DigitCode cs ds)
    (hd : ∀ d ∈ ds, d < base) : ∀ c ∈ cs.map to_upper, is_digit base c = true := by
  induction h with
  | nil => simp
  | @cons c d cs ds hc _ ih =>
    intro x hx
    simp only [List.map_cons, List.mem_cons] at hx
    rcases hx with rfl | hx
    · exact (code_props _ _ hc).2.2.2.2.2.2.2.2 base (hd d (by simp))
    · exact ih (fun y hy => hd y (by simp [hy])) x hx

theorem dropWhile_all {α : Type} (p : α → Bool) (l : List α) (h : ∀ x ∈ l, p x = true) :
    l.dropWhile p = [] := by
  induction l with
  | nil => rfl
  | cons a l ih =>
    rw [List.dropWhile_cons, if_pos (h a (by simp))]
    exact ih (fun x hx => h x (by simp [hx]))

theorem numKind_digits (base : Nat) (l : List Nat) (hne : l ≠ []) (h : ∀ c ∈ l, is_digit base c = true) :
    numKind base l = .int := by
  unfold numKind
  cases l with
  | nil => exact absurd rfl hne
  | cons c r =>
    simp only [h c (by simp), Bool.true_or, if_true]
    rw [dropWhile_all _ _ h]

theorem upper_fix (c : Nat) (h : c = 43 ∨ c = 45) : to_upper c = c := by
  rcases h with rfl | rfl <;> rfl

theorem numeral_upper (base : Nat) (txt : List Nat) (z : Int) (h : Numeral base txt z) :
    Numeral base (txt.map to_upper) z := by
  rcases h with ⟨n, ⟨ds, hne, hd, hc, hv⟩, rfl⟩ | ⟨cs, n, rfl, ⟨ds, hne, hd, hc, hv⟩, rfl⟩ |
    ⟨cs, n, rfl, ⟨ds, hne, hd, hc, hv⟩, rfl⟩
  · exact Or.inl ⟨n, ⟨ds, hne, hd, forall2_upper hc, hv⟩, rfl⟩
  · exact Or.inr (Or.inl ⟨cs.map to_upper, n, by rw [List.map_cons, upper_fix 43 (by simp)],
      ⟨ds, hne, hd, forall2_upper hc, hv⟩, rfl⟩)
  · exact Or.inr (Or.inr ⟨cs.map to_upper, n, by rw [List.map_cons, upper_fix 45 (by simp)],
      ⟨ds, hne, hd, forall2_upper hc, hv⟩, rfl⟩)

theorem tokKind_numeral (base : Nat) (txt : List Nat) (z : Int) (h : Numeral base txt z) :
    tokKind base (txt.map to_upper) = .int := by
  rcases h with ⟨n, ⟨ds, hne, hd, hc, hv⟩, rfl⟩ | ⟨cs, n, rfl, ⟨ds, hne, hd, hc, hv⟩, rfl⟩ |
    ⟨cs, n, rfl, ⟨ds, hne, hd, hc, hv⟩, rfl⟩
  · have hk := digits_isdigit hc hd
    cases hc with
    | nil => exact absurd rfl hne
    | @cons c d cs ds hcd hr =>
      have hp := code_props c d hcd
      have hp' := code_props _ d hp.2.2.2.2.2.2.2.1
      rw [List.map_cons] at hk ⊢
      rw [tokKind, if_neg (by have := hp'.2.2.2.1; have := hp'.2.2.2.2.1; omega), if_neg ?_]
      · exact numKind_digits base _ (by simp) hk
      · intro hh
        have h46 : to_upper c = 46 := by simpa using (List.cons.inj hh).1
        exact hp'.2.2.1 h46
  · have hne' : cs.map to_upper ≠ [] := by
      intro hh; rw [List.map_eq_nil_iff] at hh; subst hh; cases hc; exact hne rfl
    rw [List.map_cons, upper_fix 43 (by simp), tokKind, if_pos (by simp)]
    exact numKind_digits base _ hne' (digits_isdigit hc hd)
  · have hne' : cs.map to_upper ≠ [] := by
      intro hh; rw [List.map_eq_nil_iff] at hh; subst hh; cases hc; exact hne rfl
    rw [List.map_cons, upper_fix 45 (by simp), tokKind, if_pos (by simp)]
    exact numKind_digits base _ hne' (digits_isdigit hc hd)

theorem forall2_plain {cs ds : List Nat} (h : List.Forall₂ DigitCode cs ds) :
    ∀ c ∈ cs, syntaxtype c = .constituent ∧ c ≠ 58 := by
  induction h with
  | nil => simp
  | @cons c d cs ds hc _ ih =>
    intro x hx
    rcases List.mem_cons.1 hx with rfl | hx
    · exact ⟨(code_props _ _ hc).1, (code_props _ _ hc).2.1⟩
    · exact ih x hx

theorem numeral_plain (base : Nat) (txt : List Nat) (z : Int) (h : Numeral base txt z) :
    txt ≠ [] ∧ ∀ c ∈ txt, syntaxtype c = .constituent ∧ c ≠ 58 := by
  rcases h with ⟨n, ⟨ds, hne, hd, hc, hv⟩, rfl⟩ | ⟨cs, n, rfl, ⟨ds, hne, hd, hc, hv⟩, rfl⟩ |
    ⟨cs, n, rfl, ⟨ds, hne, hd, hc, hv⟩, rfl⟩
  · refine ⟨?_, forall2_plain hc⟩
    rintro rfl; cases hc; exact hne rfl
  · refine ⟨by simp, ?_⟩
    intro c hc'
    rcases List.mem_cons.1 hc' with rfl | hc'
    · exact ⟨rfl, by decide⟩
    · exact forall2_plain hc c hc'
  · refine ⟨by simp, ?_⟩
    intro c hc'
    rcases List.mem_cons.1 hc' with rfl | hc'
    · exact ⟨rfl, by decide⟩
    · exact forall2_plain hc c hc'

/-- the first character of a numeral -/
theorem numeral_head (base : Nat) (txt : List Nat) (z : Int) (h : Numeral base txt z) :
    ∃ c w, txt = c :: w ∧ c < 128 ∧ c ≠ 59 ∧ c ≠ 41 ∧ c ≠ 46 := by
  rcases h with ⟨n, ⟨ds, hne, hd, hc, hv⟩, rfl⟩ | ⟨cs, n, rfl, ⟨ds, hne, hd, hc, hv⟩, rfl⟩ |
    ⟨cs, n, rfl, ⟨ds, hne, hd, hc, hv⟩, rfl⟩
  · cases hc with
    | nil => exact absurd rfl hne
    | @cons c d cs ds hcd hr =>
      have hp := code_props c d hcd
      refine ⟨c, cs, rfl, hp.2.2.2.2.2.2.1, hp.2.2.2.2.2.1, ?_, hp.2.2.1⟩
      rintro rfl
      exact absurd hp.1 (by decide)
  · exact ⟨43, cs, rfl, by decide, by decide, by decide, by decide⟩
  · exact ⟨45, cs, rfl, by decide, by decide, by decide, by decide⟩

/-- reading a numeral -/
theorem read1_numeral (base : Nat) (hb : 2 ≤ base) (hb' : base ≤ 36) (txt rest : List Nat) (z : Int)
    (h : Numeral base txt z) (hs : ¬ ShortWide txt z) (hl : txt.length < 1024) (hr : Delim rest)
    (n : Nat) : ∃ m, m.Canonical ∧ m.val = z ∧
      read1 base (n + 1) (txt ++ rest) = (.val (.int m), rest) := by
  obtain ⟨hne, hpl⟩ := numeral_plain base txt z h
  have hl' : (txt.map to_upper).length = txt.length := by simp
  obtain ⟨m, e, hm, hv⟩ := readint_spec base hb hb' _ z (numeral_upper base txt z h)
    (by unfold ShortWide at hs ⊢; rw [hl']; exact hs)
  refine ⟨m, hm, hv, ?_⟩
  cases txt with
  | nil => exact absurd rfl hne
  | cons c w =>
    have hc := hpl c (by simp)
    rw [List.cons_append, read1_constituent _ _ _ _ hc.1, if_neg hc.2]
    simp only [List.length_cons] at hl
    rw [step8_plain w _ rest (fun x hx => hpl x (by simp [hx])) hr (by simp; omega)]
    have hk := tokKind_numeral base (c :: w) z h
    rw [List.map_cons] at hk e
    simp only [finish, step10, List.singleton_append, hk, e, Bool.false_eq_true, if_false]

end Eus.Rd
