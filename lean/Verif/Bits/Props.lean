import Verif.Bits.Shift
import Verif.Num.Props
set_option autoImplicit false
set_option maxRecDepth 4000
/-
Properties C12 (ash), C13 (bitwise functions), C14 (byte fields), C62 (mod), C63 (max, min).
`ibit z i` (Spec.lean) is bit `i` of the infinite two's complement expansion of `z`.
-/
namespace Eus.Num

theorem nat_toInt (k : Nat) (h : k < 2 ^ 61) : (BitVec.ofNat 64 k : Word).toInt = k ∧
    (-(BitVec.ofNat 64 k) : Word).toInt = -k := by
  have h1 : (BitVec.ofNat 64 k : Word).toNat = k := by
    rw [BitVec.toNat_ofNat]; exact Nat.mod_eq_of_lt (by omega)
  have h2 : (BitVec.ofNat 64 k : Word).toInt = k := by rw [toInt_cond, h1, if_pos (by omega)]
  exact ⟨h2, by rw [toInt_neg' _ (by rw [h2]; omega), h2]⟩

/-! ## C12 ash -/

/-- C12.  Shifting a fixnum right by up to 63 places is floor division, with canonical result. -/
theorem C12_ash_right_fixnum (n : Word) (k : Nat) (hn : InFix n.toInt) (hk : k < 64) :
    ∃ m, ASH (.fix n) (.fix (-(BitVec.ofNat 64 k))) = .ok m ∧ m.Canonical ∧ m.val = n.toInt / 2 ^ k := by
  obtain ⟨_, h2⟩ := nat_toInt k (by omega)
  have hs := sshr_toInt n k
  have hin : InFix (n.sshiftRight k).toInt := by
    rw [hs]
    unfold InFix at *
    have hp : (1 : Int) ≤ 2 ^ k := one_le_pow₀ (by norm_num)
    have h3 := Int.mul_ediv_add_emod n.toInt (2 ^ k)
    have h4 := Int.emod_nonneg n.toInt (by omega : (2 : Int) ^ k ≠ 0)
    have h5 := Int.emod_lt_of_pos n.toInt (by omega : (0 : Int) < 2 ^ k)
    generalize n.toInt / 2 ^ k = q at *
    generalize n.toInt % 2 ^ k = r at *
    generalize (2 : Int) ^ k = P at *
    constructor <;> by_contra hh <;> push Not at hh <;> nlinarith
  refine ⟨makeint (n.sshiftRight k), ?_, ?_, by rw [makeint_val, hs]⟩
  · simp only [ASH, ckintval, h2]
    rw [if_pos (by omega), if_neg (by omega)]
    congr 3; omega
  · rw [makeint_infix _ hin]; exact hin

/-- C12, partial.  Shifting a fixnum left by less than 64 places is exact whenever the result fits in
a machine word. -/
theorem C12_ash_left_word_partial (n : Word) (k : Nat) (hn : InFix n.toInt) (hk0 : 0 < k) (hk : k < 64)
    (hfit : -2 ^ 63 ≤ n.toInt * 2 ^ k ∧ n.toInt * 2 ^ k < 2 ^ 63) :
    ∃ m, ASH (.fix n) (.fix (BitVec.ofNat 64 k)) = .ok m ∧ m.val = n.toInt * 2 ^ k := by
  obtain ⟨h1, _⟩ := nat_toInt k (by omega)
  have hword : (makeint (n <<< k)).val = n.toInt * 2 ^ k := by
    have h := shl_toNat n k
    rw [makeint_val, toInt_cond]
    have hl := toNat_lt' (n <<< k)
    generalize n.toInt * 2 ^ k = z at *
    generalize (n <<< k).toNat = y at *
    split_ifs <;> omega
  simp only [ASH, ckintval, h1]
  rw [if_neg (by omega)]
  have ek : ((k : Int)).toNat = k := by omega
  by_cases hneg : n.toInt ≤ 0
  · rw [if_pos hneg, if_neg (by omega), ek]
    exact ⟨_, rfl, hword⟩
  · rw [if_neg hneg]
    by_cases hff : (ffsl n : Int) + k < 62
    · rw [if_pos hff, ek]; exact ⟨_, rfl, hword⟩
    · rw [if_neg hff]
      have hk63 : k < 63 := by
        by_contra hh
        have : k = 63 := by omega
        subst this
        omega
      have hb : ∀ x ∈ [n], ibit x.toInt (63 - k % 63) = false := by
        intro x hx
        simp only [List.mem_singleton] at hx
        subst hx
        rw [Nat.mod_eq_of_lt hk63]
        unfold ibit
        rw [Int.ediv_eq_zero_of_lt (by omega)]
        · rfl
        · have e : (2 : Int) ^ 63 = 2 ^ (63 - k) * 2 ^ k := by
            rw [← pow_add]; congr 1; omega
          rw [e] at hfit
          have hp : (0 : Int) < 2 ^ k := by positivity
          exact lt_of_mul_lt_mul_right hfit.2 (le_of_lt hp)
      obtain ⟨b, e1, e2, e3⟩ := ashLeft_spec [n] k trivial (by omega) hb
      obtain ⟨_, q2, _⟩ := normalize_bignum_spec b e2
      refine ⟨normalize_bignum b, ?_, by rw [q2, e3]; rfl⟩
      simp only [ashBig]
      rw [if_pos (by omega), ek, e1]

/-- C12, partial.  Shifting a positive fixnum left into a bignum is exact when the shift count is not
a multiple of 63 and the bit that lands on position 63 of the low word is clear. -/
theorem C12_ash_left_bignum_partial (n : Word) (k : Nat) (_hn : InFix n.toInt) (hpos : 0 < n.toInt)
    (hk : k < 2 ^ 61) (hbig : 61 ≤ k ∨ 2 ^ (61 - k) ∣ n.toNat) (hk63 : k % 63 ≠ 0)
    (hbit : ibit n.toInt (63 - k % 63) = false) :
    ∃ m, ASH (.fix n) (.fix (BitVec.ofNat 64 k)) = .ok m ∧ m.WF ∧ m.val = n.toInt * 2 ^ k := by
  obtain ⟨h1, _⟩ := nat_toInt k hk
  have hk0 : 0 < k := by rcases Nat.eq_zero_or_pos k with h | h <;> omega
  obtain ⟨b, e1, e2, e3⟩ := ashLeft_spec [n] k trivial hk63 (by simpa using hbit)
  obtain ⟨q1, q2, _⟩ := normalize_bignum_spec b e2
  refine ⟨normalize_bignum b, ?_, q1, by rw [q2, e3]; rfl⟩
  simp only [ASH, ckintval, h1]
  have ek : ((k : Int)).toNat = k := by omega
  rw [if_neg (by omega), if_neg (by omega), if_neg]
  · simp only [ashBig]
    rw [if_pos (by omega), ek, e1]
  · rw [ffsl_spec n hpos k (by omega), ek]
    rintro ⟨h2, h3⟩
    rcases hbig with h | h
    · omega
    · exact h3 h

/-- C12, partial.  Shifting a bignum left is exact under the same conditions on each of its words. -/
theorem C12_ash_bignum_left_partial (v : List Word) (k : Nat) (hv : WFv v) (hk : k < 2 ^ 61)
    (hk63 : k % 63 ≠ 0) (hbit : ∀ x ∈ v, ibit x.toInt (63 - k % 63) = false) :
    ∃ m, ASH (.big v) (.fix (BitVec.ofNat 64 k)) = .ok m ∧ m.WF ∧ m.val = limbsVal v * 2 ^ k := by
  obtain ⟨h1, _⟩ := nat_toInt k hk
  obtain ⟨b, e1, e2, e3⟩ := ashLeft_spec v k hv hk63 hbit
  obtain ⟨q1, q2, _⟩ := normalize_bignum_spec b e2
  refine ⟨normalize_bignum b, ?_, q1, by rw [q2, e3]⟩
  have ek : ((k : Int)).toNat = k := by omega
  simp only [ASH, ckintval, h1, ashBig]
  rw [if_pos (by omega), ek, e1]

theorem norm_zero_top (u : List Word) (hu : WFv u) (hneg : limbsVal u < 0) :
    (normalize_bignum (u ++ [0])).WF ∧ (normalize_bignum (u ++ [0])).val = limbsVal u := by
  obtain ⟨a, t, rfl⟩ := snoc_cases u hu.ne_nil
  have ht : t.toInt < 0 := by
    have := (sign_iff _ hu).2 hneg
    rwa [big_sign_snoc] at this
  have ht0 : (t == 0) = false := by
    rw [beq_eq_false_iff_ne]
    rintro rfl
    exact absurd ht (by decide)
  have e : normalize_big (a ++ [t] ++ [0]) = a ++ [t] := by
    unfold normalize_big
    simp only [big_sign_snoc]
    have h0 : decide ((0 : Word).toInt ≥ 0) = true := by decide
    rw [h0]
    have hd : List.dropWhile (fun w : Word => w == 0#64) (t :: a.reverse) = t :: a.reverse := by
      rw [List.dropWhile_cons_of_neg]
      rw [Bool.not_eq_true]; exact ht0
    simp [hd]
  rw [normalize_bignum_eq, e]
  match a, hu with
  | [], _ =>
    have h1 := normalize_bignum_spec [t] trivial
    have e1 : normalize_big [t] = [t] := by
      have hd : decide (t.toInt ≥ 0) = false := by rw [decide_eq_false_iff_not]; omega
      simp [normalize_big, big_sign, hd]
    rw [normalize_bignum_eq, e1] at h1
    exact ⟨h1.1, h1.2.1⟩
  | x :: [], hu => exact ⟨hu, rfl⟩
  | x :: y :: r, hu => exact ⟨hu, rfl⟩

/-- C12.  Shifting a bignum right is floor division, for every well-formed bignum and every count that
leaves at least one word; the result is canonical if it is not negative. -/
theorem C12_ash_bignum_right_partial (v : List Word) (k : Nat) (hv : WFv v) (hk0 : 0 < k)
    (hk : k / 63 < v.length) (hk2 : k < 2 ^ 61) :
    ∃ m, ASH (.big v) (.fix (-(BitVec.ofNat 64 k))) = .ok m ∧ m.WF ∧ m.val = limbsVal v / 2 ^ k ∧
      (0 ≤ limbsVal v → m.Canonical) := by
  obtain ⟨_, h1⟩ := nat_toInt k hk2
  have ek : ((k : Int)).toNat = k := by omega
  have hA : ∀ b, ashRight v k = some b →
      ASH (.big v) (.fix (-(BitVec.ofNat 64 k))) = .ok (normalize_bignum b) := by
    intro b e1
    simp only [ASH, ckintval, h1, ashBig]
    rw [if_neg (by omega), neg_neg, ek, e1]
  by_cases hs : 0 ≤ limbsVal v ∨ k ≤ 62
  · obtain ⟨b, e1, e2, e3⟩ := ashRight_spec v k hv hk hs
    obtain ⟨q1, q2, q3⟩ := normalize_bignum_spec b e2
    refine ⟨normalize_bignum b, hA b e1, q1, by rw [q2, e3], fun h0 => q3 (fun h => ?_)⟩
    rw [e3] at h
    have := Int.ediv_nonneg h0 (by positivity : (0 : Int) ≤ 2 ^ k)
    omega
  · push Not at hs
    obtain ⟨d1, d2⟩ := limbsVal_drop (k / 63) v hv hk
    obtain ⟨s1, s2, s3⟩ := shrLoop_spec (k % 63) (by omega) _ d1
    have hval : limbsVal (shrLoop (k % 63) (v.drop (k / 63))) = limbsVal v / 2 ^ k := by
      have e : (2 : Int) ^ k = (2 ^ 63) ^ (k / 63) * 2 ^ (k % 63) := by
        rw [← pow_mul, ← pow_add, Nat.div_add_mod]
      rw [s2, d2, e, Int.ediv_ediv_of_nonneg (by positivity)]
    have hneg : limbsVal (shrLoop (k % 63) (v.drop (k / 63))) < 0 := by
      rw [hval]; exact Int.ediv_neg_of_neg_of_pos hs.1 (by positivity)
    have htd : (62 - (k : Int)).tdiv 63 = -(((k : Int) - 62) / 63) := by
      rw [show (62 - (k : Int)) = -((k : Int) - 62) by omega, Int.neg_tdiv,
        Int.tdiv_eq_ediv_of_nonneg (by omega)]
    have hr : ashRight v k = some (shrLoop (k % 63) (v.drop (k / 63)) ++ List.replicate
        (k / 63 - (k - 62) / 63) 0) := by
      unfold ashRight
      simp only
      rw [if_neg (by omega), htd]
      congr 3
      omega
    have hcnt : k / 63 - (k - 62) / 63 = 0 ∨ k / 63 - (k - 62) / 63 = 1 := by omega
    refine ⟨_, hA _ hr, ?_⟩
    rcases hcnt with h | h <;> rw [h]
    · obtain ⟨q1, q2, _⟩ := normalize_bignum_spec _ s1
      simp only [List.replicate_zero, List.append_nil]
      exact ⟨q1, by rw [q2, hval], fun h => by omega⟩
    · obtain ⟨q1, q2⟩ := norm_zero_top _ s1 hneg
      exact ⟨q1, by rw [← hval]; exact q2, fun h => by omega⟩

/-- C12 fails: every left shift of a fixnum that leaves the machine word and does not take the bignum
path (negative fixnums, and positive ones whose lowest set bit is low enough) gives a wrong
integer. -/
theorem C12_ash_left_wrong (n : Word) (k : Nat) (hk0 : 0 < k) (hk : k < 64)
    (hout : n.toInt * 2 ^ k < -2 ^ 63 ∨ 2 ^ 63 ≤ n.toInt * 2 ^ k)
    (hpath : n.toInt < 0 ∨ (k ≤ 60 ∧ ¬ 2 ^ (61 - k) ∣ n.toNat)) :
    ∃ m, ASH (.fix n) (.fix (BitVec.ofNat 64 k)) = .ok m ∧ m.val ≠ n.toInt * 2 ^ k := by
  obtain ⟨h1, _⟩ := nat_toInt k (by omega)
  have ek : ((k : Int)).toNat = k := by omega
  have hword : (makeint (n <<< k)).val ≠ n.toInt * 2 ^ k := by
    rw [makeint_val]
    have := toInt_bd (n <<< k)
    omega
  simp only [ASH, ckintval, h1]
  rw [if_neg (by omega)]
  by_cases hneg : n.toInt ≤ 0
  · rw [if_pos hneg, if_neg (by omega), ek]
    exact ⟨_, rfl, hword⟩
  · rw [if_neg hneg]
    rcases hpath with h | h
    · omega
    · rw [if_pos (by rw [ffsl_spec n (by omega) k (by omega), ek]; exact ⟨by omega, h.2⟩), ek]
      exact ⟨_, rfl, hword⟩

/-- C12 fails: shift counts with undefined behaviour: any right shift of a fixnum by 64 or more, any
left shift of a non-positive fixnum by 64 or more, and any left shift of a bignum by a multiple of
63 (a word is written behind the new vector). -/
theorem C12_ash_undefined (k : Nat) (hk : k < 2 ^ 61) :
    (∀ n, 64 ≤ k → ASH (.fix n) (.fix (-(BitVec.ofNat 64 k))) = .ub) ∧
    (∀ n : Word, n.toInt ≤ 0 → 64 ≤ k → ASH (.fix n) (.fix (BitVec.ofNat 64 k)) = .ub) ∧
    (∀ v, k % 63 = 0 → ASH (.big v) (.fix (BitVec.ofNat 64 k)) = .ub) := by
  obtain ⟨h1, h2⟩ := nat_toInt k hk
  refine ⟨fun n h => ?_, fun n hn h => ?_, fun v h => ?_⟩
  · simp only [ASH, ckintval, h2]; rw [if_pos (by omega), if_pos (by omega)]
  · simp only [ASH, ckintval, h1]; rw [if_neg (by omega), if_pos hn, if_pos (by omega)]
  · have ek : ((k : Int)).toNat = k := by omega
    simp only [ASH, ckintval, h1, ashBig]
    rw [if_pos (by omega), ek]
    simp [ashLeft, h]

/-- C12 fails: `(ash 2 62)` is a bignum whose lower word has its sign bit set (read by the printer
and by arithmetic as some other number); `(ash 3 60)` stands for the right value but is an immediate
outside the fixnum range, so it is not equal to the same integer computed by multiplication. -/
theorem C12_ash_malformed :
    ASH (.fix 2#64) (.fix 62#64) = .ok (.big [2#64 ^ 63, 1#64]) ∧ ¬ WFv [2#64 ^ 63, 1#64] ∧
    ASH (.fix 3#64) (.fix 60#64) = .ok (.fix (3#64 <<< 60)) ∧ ¬ (Num.fix (3#64 <<< 60)).Canonical := by
  refine ⟨by decide, ?_, by decide, ?_⟩
  · intro h; exact absurd h.1 (by decide)
  · intro h; exact absurd h.2 (by decide)

/-- C12 fails: `(ash -2^127 -64)` has the right value but keeps a redundant top word, so it is not
the canonical representation of `-2^63`; and shifting out all words stores outside the vector. -/
theorem C12_ash_bignum_right_defects :
    (Num.big [0#64, 0#64, -2#64]).Canonical ∧
    ASH (.big [0#64, 0#64, -2#64]) (.fix (-64#64)) = .ok (.big [0#64, -1#64]) ∧
    ¬ (Num.big [0#64, -1#64]).Canonical ∧
    ∀ (v : List Word) (k : Nat), 0 < k → k < 2 ^ 61 → v.length ≤ k / 63 →
      ASH (.big v) (.fix (-(BitVec.ofNat 64 k))) = .ub := by
  refine ⟨⟨by simp only [WFv]; decide, by unfold InFix; decide, by decide⟩, by decide, ?_, ?_⟩
  · intro h; exact h.2.2 (by decide) (by decide)
  · intro v k h0 h1 h2
    obtain ⟨_, h3⟩ := nat_toInt k h1
    have ek : ((k : Int)).toNat = k := by omega
    simp only [ASH, ckintval, h3, ashBig]
    rw [if_neg (by omega), neg_neg, ek]
    simp [ashRight, h2]

example : ASH (.fix (-5#64)) (.fix (-1#64)) = .ok (.fix (-3#64)) := by decide
example : ASH (.fix (1#64)) (.fix 100#64) = .ok (.big [0#64, 2#64 ^ 37]) := by decide
example : ibit (1#64 : Word).toInt (63 - 100 % 63) = false ∧ (100 % 63 ≠ 0) := by decide
example : ASH (.big [5#64, 0#64, 1#64]) (.fix (-2#64)) = .ok (.big [1#64, 2#64 ^ 61]) := by decide

/-! ## C13 bitwise functions -/

/-- C13.  `logand` with a bignum as first argument and any canonical integers after it acts bit by
bit. -/
theorem C13_logand_bignum (v : List Word) (args : List Num) (hne : args ≠ []) (hv : WFv v)
    (ha : ∀ a ∈ args, a.Canonical) :
    ∃ m, LOGAND (.big v :: args) = .ok m ∧ m.WF ∧
      ∀ i, ibit m.val i = (ibit (limbsVal v) i && args.all (fun a => ibit a.val i)) := by
  cases args with
  | nil => exact absurd rfl hne
  | cons a rest =>
    obtain ⟨h1, h2⟩ := bigand_foldl (a :: rest) v hv ha
    obtain ⟨q1, q2, _⟩ := normalize_bignum_spec _ h1
    exact ⟨_, rfl, q1, fun i => by rw [q2, h2]⟩

theorem truncInt_bit (w : Word) (i : Nat) :
    (truncInt w).getLsbD i = (decide (i < 64) && if i < 32 then w.getLsbD i else w.getLsbD 31) := by
  unfold truncInt
  rw [BitVec.getLsbD_signExtend]
  by_cases h : i < 32
  · simp [h]
  · simp [h, BitVec.msb_eq_getLsbD_last]

theorem logandFix_fix (r0 : Word) (ws : List Word) : ∀ k : Word,
    logandFix r0 (truncInt k) (ws.map .fix) = makeint (truncInt (ws.foldl (· &&& ·) k)) := by
  induction ws with
  | nil => intro k; rfl
  | cons w ws ih =>
    intro k
    have e : truncInt (truncInt k &&& w) = truncInt (k &&& w) := by
      apply BitVec.eq_of_getLsbD_eq
      intro i hi
      simp only [truncInt_bit, BitVec.getLsbD_and]
      by_cases h : i < 32 <;> simp [h, hi]
    show logandFix r0 (truncInt (truncInt k &&& w)) (ws.map .fix) = _
    rw [e, ih]; rfl

theorem allFix_map (args : List Num) (h : AllFix args) :
    ∃ ws : List Word, args = ws.map .fix ∧ ∀ w ∈ ws, InFix w.toInt := by
  induction args with
  | nil => exact ⟨[], rfl, by simp⟩
  | cons a args ih =>
    obtain ⟨w, rfl, hw⟩ := h a (by simp)
    obtain ⟨ws, rfl, hws⟩ := ih (fun x hx => h x (by simp [hx]))
    exact ⟨w :: ws, rfl, by simpa [hw] using hws⟩

theorem foldl_and_bits (ws : List Word) : ∀ (k : Word) (i : Nat),
    ibit (ws.foldl (· &&& ·) k).toInt i = (ibit k.toInt i && (ws.map Num.fix).all (fun a => ibit a.val i)) := by
  induction ws with
  | nil => intro k i; simp
  | cons w ws ih =>
    intro k i
    rw [List.foldl_cons, ih, ibit_and_word]
    simp [Bool.and_assoc, val_fix]

theorem truncInt_val (w : Word) : (truncInt w).toInt = w.toInt ↔ (-2 ^ 31 ≤ w.toInt ∧ w.toInt < 2 ^ 31) := by
  have e : (truncInt w).toInt = (w.toInt).bmod (2 ^ 32) := by
    unfold truncInt
    rw [BitVec.toInt_signExtend_of_le (by omega), BitVec.truncate_eq_setWidth, BitVec.toInt_setWidth]
    rw [toInt_cond]
    split_ifs
    · rfl
    · rw [Int.bmod_def, Int.bmod_def]
      have : ((w.toNat : Int) - 18446744073709551616) % ((2 ^ 32 : Nat) : Int) = (w.toNat : Int) % ((2 ^ 32 : Nat) : Int) := by
        push_cast; omega
      rw [this]
  rw [e, Int.bmod_def]
  push_cast
  split_ifs <;> omega

/-- C13, partial.  `logand` of fixnums is the bitwise and `z` of its arguments exactly when `z` fits
in 32 bits.  Missing: everything else (the code keeps the result in a C `int`). -/
theorem C13_logand_fixnums_partial (args : List Num) (hne : args ≠ []) (h : AllFix args) (z : Int)
    (hz : ∀ i, ibit z i = args.all (fun a => ibit a.val i)) :
    ∃ m, LOGAND args = .ok m ∧ (m.val = z ↔ -2 ^ 31 ≤ z ∧ z < 2 ^ 31) := by
  obtain ⟨ws, rfl, _⟩ := allFix_map args h
  cases ws with
  | nil => exact absurd rfl hne
  | cons w ws =>
    refine ⟨_, rfl, ?_⟩
    show (logandFix w (truncInt w) (ws.map .fix)).val = z ↔ _
    rw [logandFix_fix, makeint_val]
    have : z = (ws.foldl (· &&& ·) w).toInt := by
      apply ibit_ext; intro i
      rw [hz, foldl_and_bits]; simp [val_fix]
    rw [this]
    exact truncInt_val _

/-- C13 fails: `(logand 2^32 2^32)` is 0; `(logand 3 2^61)` is 0 but `(logand 1 (2^61+6))` is 6: the
first argument's tagged word is used instead of its value. -/
theorem C13_logand_wrong :
    LOGAND [.fix (2#64 ^ 32), .fix (2#64 ^ 32)] = .ok (.fix 0#64) ∧
    LOGAND [.fix 1#64, .big [2#64 ^ 61 + 6#64]] = .ok (.fix 6#64) := by decide

theorem bigintval_val (a : Num) (hc : a.Canonical) (h : -2 ^ 63 ≤ a.val ∧ a.val < 2 ^ 63) :
    (bigintval a).toInt = a.val := by
  cases a with
  | fix w => rfl
  | big v =>
    match v, hc, h with
    | [], hc, _ => exact hc.1.elim
    | [a], _, _ => rfl
    | a :: b :: r, hc, h =>
      exfalso
      apply hc.2.2 (by simp)
      simp only [val_big] at h
      have h1 : (1 : Int) ≤ (2 ^ 63) ^ r.length := one_le_pow₀ (by norm_num)
      simp only [List.length_cons, Nat.add_sub_cancel]
      rw [pwZ]
      generalize ((2 ^ 63) ^ r.length : Int) = P at *
      constructor <;> nlinarith

theorem ibit_or_word (a b : Word) (i : Nat) : ibit (a ||| b).toInt i = (ibit a.toInt i || ibit b.toInt i) := by
  rw [ibit_word, ibit_word, ibit_word]
  split_ifs
  · exact BitVec.getLsbD_or
  · exact BitVec.msb_or

theorem ibit_xor_word (a b : Word) (i : Nat) : ibit (a ^^^ b).toInt i = (ibit a.toInt i ^^ ibit b.toInt i) := by
  rw [ibit_word, ibit_word, ibit_word]
  split_ifs
  · exact BitVec.getLsbD_xor
  · exact BitVec.msb_xor

theorem ibit_not_word (a : Word) (i : Nat) : ibit (~~~a).toInt i = !ibit a.toInt i := by
  rw [ibit_word, ibit_word]
  split_ifs with h
  · rw [BitVec.getLsbD_not]; simp [h]
  · rw [BitVec.msb_not]; simp

/-- C13, partial.  `logior` acts bit by bit on canonical integers that fit in a machine word (bignums
included).  Missing: wider bignums, which are cut to 64 bits (`C13_logior_wrong`). -/
theorem C13_logior_partial (args : List Num) (hc : ∀ a ∈ args, a.Canonical)
    (hw : ∀ a ∈ args, -2 ^ 63 ≤ a.val ∧ a.val < 2 ^ 63) :
    ∃ m, LOGIOR args = .ok m ∧ ∀ i, ibit m.val i = args.any (fun a => ibit a.val i) := by
  refine ⟨_, rfl, fun i => ?_⟩
  rw [mkbigint_val]
  have key : ∀ (args : List Num) (r : Word), (∀ a ∈ args, a.Canonical) →
      (∀ a ∈ args, -2 ^ 63 ≤ a.val ∧ a.val < 2 ^ 63) →
      ibit (args.foldl (fun r a => r ||| bigintval a) r).toInt i = (ibit r.toInt i || args.any (fun a => ibit a.val i)) := by
    intro args
    induction args with
    | nil => intro r _ _; simp
    | cons a args ih =>
      intro r h1 h2
      rw [List.foldl_cons, ih _ (fun x hx => h1 x (by simp [hx])) (fun x hx => h2 x (by simp [hx])),
        ibit_or_word, bigintval_val a (h1 a (by simp)) (h2 a (by simp))]
      simp [Bool.or_assoc]
  rw [key args 0 hc hw]
  have : (0 : Word).toInt = 0 := by decide
  rw [this, ibit_zero]; simp

/-- C13 fails: `(logior 2^63)` is `-2^63`. -/
theorem C13_logior_wrong : (Num.big [0#64, 1#64]).Canonical ∧
    LOGIOR [.big [0#64, 1#64]] = .ok (.big [2#64 ^ 63]) ∧ (Num.big [2#64 ^ 63]).val = -2 ^ 63 :=
  ⟨⟨by simp only [WFv]; decide, by unfold InFix; decide, by decide⟩, by decide, by decide⟩

theorem immediates_map (ws : List Word) : immediates (ws.map .fix) = some ws := by
  induction ws with
  | nil => rfl
  | cons w ws ih => simp [immediates, ih]

theorem foldl_xor_bits (ws : List Word) : ∀ (k : Word) (i : Nat),
    ibit (ws.foldl (· ^^^ ·) k).toInt i = ((ws.map Num.fix).foldl (fun b a => b ^^ ibit a.val i) (ibit k.toInt i)) := by
  induction ws with
  | nil => intro k i; simp
  | cons w ws ih =>
    intro k i
    rw [List.foldl_cons, ih, ibit_xor_word]; rfl

theorem foldl_or_bits (ws : List Word) : ∀ (k : Word) (i : Nat),
    ibit (ws.foldl (· ||| ·) k).toInt i = (ibit k.toInt i || (ws.map Num.fix).any (fun a => ibit a.val i)) := by
  induction ws with
  | nil => intro k i; simp
  | cons w ws ih =>
    intro k i
    rw [List.foldl_cons, ih, ibit_or_word]
    simp [Bool.or_assoc, val_fix]

/-- Parity of the number of arguments having bit `i`. -/
def oddBits (args : List Num) (i : Nat) : Bool := (args.countP (fun a => ibit a.val i)) % 2 == 1

theorem foldl_xor_count (args : List Num) (i : Nat) : ∀ b,
    args.foldl (fun b a => b ^^ ibit a.val i) b = (b ^^ oddBits args i) := by
  induction args with
  | nil => intro b; simp [oddBits]
  | cons a args ih =>
    intro b
    rw [List.foldl_cons, ih]
    unfold oddBits
    rw [List.countP_cons]
    cases h : ibit a.val i <;> simp only [h, Bool.false_eq_true, if_false, if_true, Nat.add_zero]
    · simp
    · have : (((List.countP (fun a => ibit a.val i) args + 1) % 2 == 1) : Bool) =
          !((List.countP (fun a => ibit a.val i) args) % 2 == 1) := by
        rw [Bool.eq_iff_iff]; simp; omega
      rw [this]; cases b <;> simp

/-- C13.  `logxor`, `logeqv`, `lognand`, `lognor`, `lognot` on fixnums act bit by bit. -/
theorem C13_logxor (args : List Num) (h : AllFix args) :
    (∃ m, LOGXOR args = .ok m ∧ ∀ i, ibit m.val i = oddBits args i) ∧
    (∃ m, LOGEQV args = .ok m ∧ ∀ i, ibit m.val i = !oddBits args i) := by
  obtain ⟨ws, rfl, _⟩ := allFix_map args h
  have h0 : (0 : Word).toInt = 0 := by decide
  refine ⟨⟨makeint (ws.foldl (· ^^^ ·) 0), by simp only [LOGXOR, immediates_map], fun i => ?_⟩,
    ⟨makeint (~~~ ws.reverse.foldl (· ^^^ ·) 0), by simp only [LOGEQV, immediates_map], fun i => ?_⟩⟩
  · rw [makeint_val, foldl_xor_bits, foldl_xor_count, h0, ibit_zero]; simp
  · rw [makeint_val, ibit_not_word, foldl_xor_bits, foldl_xor_count, h0, ibit_zero]
    simp [oddBits, ← List.map_reverse, List.countP_reverse]

theorem C13_lognand (args : List Num) (h : AllFix args) :
    (∃ m, LOGNAND args = .ok m ∧ ∀ i, ibit m.val i = !args.all (fun a => ibit a.val i)) ∧
    (∃ m, LOGNOR args = .ok m ∧ ∀ i, ibit m.val i = !args.any (fun a => ibit a.val i)) := by
  obtain ⟨ws, rfl, _⟩ := allFix_map args h
  have h0 : (0 : Word).toInt = 0 := by decide
  refine ⟨⟨makeint (~~~ ws.foldl (· &&& ·) (~~~0)), by simp only [LOGNAND, immediates_map], fun i => ?_⟩,
    ⟨makeint (~~~ ws.foldl (· ||| ·) 0), by simp only [LOGNOR, immediates_map], fun i => ?_⟩⟩
  · rw [makeint_val, ibit_not_word, foldl_and_bits, ibit_not_word, h0, ibit_zero]; simp
  · rw [makeint_val, ibit_not_word, foldl_or_bits, h0, ibit_zero]; simp

theorem C13_lognot (w : Word) (h : InFix w.toInt) :
    ∃ m, LOGNOT (.fix w) = .ok m ∧ m.Canonical ∧ m.val = -w.toInt - 1 ∧ ∀ i, ibit m.val i = !ibit w.toInt i := by
  have e : (~~~w).toInt = -w.toInt - 1 := by
    have h1 := toNat_not' w
    have h2 := toNat_lt' w
    rw [toInt_cond, toInt_cond w, h1]
    split_ifs <;> omega
  have hin : InFix (~~~w).toInt := by rw [e]; unfold InFix at *; omega
  refine ⟨_, rfl, ?_, by rw [makeint_val, e], fun i => by rw [makeint_val, ibit_not_word]⟩
  rw [makeint_infix _ hin]; exact hin

/-- C13.  `logbitp` on fixnums: bit number `i` of `n`, for `i < 64`. -/
theorem C13_logbitp (n : Word) (i : Nat) (hi : i < 64) :
    LOGBITP (.fix (BitVec.ofNat 64 i)) (.fix n) = if ibit n.toInt i then .yes else .no := by
  obtain ⟨h1, _⟩ := nat_toInt i (by omega)
  have h2 : (BitVec.ofNat 64 i : Word).toNat = i := by
    rw [BitVec.toNat_ofNat]; exact Nat.mod_eq_of_lt (by omega)
  simp only [LOGBITP, ckintval, h1, h2]
  rw [if_neg (by omega), if_neg (by omega)]
  have : ((n.sshiftRight i) &&& 1#64 ≠ 0) ↔ ibit n.toInt i = true := by
    have e : ibit n.toInt i = (n.sshiftRight i).getLsbD 0 := by
      rw [ibit_word, if_pos hi, BitVec.getLsbD_sshiftRight]; simp [hi]
    rw [e, Ne, word_eq_iff, BitVec.toNat_and]
    show ¬ ((n.sshiftRight i).toNat &&& 1 = 0) ↔ _
    rw [Nat.and_one_is_mod, BitVec.getLsbD, Nat.testBit_zero]
    simp
  by_cases hb : ibit n.toInt i = true
  · rw [if_pos (this.2 hb), if_pos hb]
  · rw [if_neg (fun h => hb (this.1 h)), if_neg hb]

/-- C13.  `logtest` on fixnums: some bit is set in both. -/
theorem C13_logtest (a b : Word) (ha : InFix a.toInt) (hb : InFix b.toInt) :
    ∃ r, LOGTEST (.fix a) (.fix b) = some r ∧ (r = true ↔ ∃ i, ibit a.toInt i = true ∧ ibit b.toInt i = true) := by
  refine ⟨_, rfl, ?_⟩
  have bx : ∀ w : Word, InFix w.toInt → ∀ i, ibit (boxed w).toInt (i + 2) = ibit w.toInt i := by
    intro w hw i
    rw [boxed_infix w hw]
    unfold ibit
    have e : (4 * w.toInt + 2) / 2 ^ (i + 2) = w.toInt / 2 ^ i := by
      rw [pow_add, mul_comm ((2 : Int) ^ i), ← Int.ediv_ediv_of_nonneg (by norm_num)]
      congr 1; omega
    rw [e]
  rw [bne_iff_ne]
  constructor
  · intro h
    by_contra hh
    push Not at hh
    apply h
    have h0 : (0 : Word).toInt = 0 := by decide
    apply BitVec.eq_of_toInt_eq
    rw [h0]
    apply ibit_ext
    intro i
    rw [ibit_and_word, ibit_and_word, ibit_zero]
    by_cases hi : i < 2
    · have : ibit (~~~3#64 : Word).toInt i = false := by
        have : i = 0 ∨ i = 1 := by omega
        rcases this with rfl | rfl <;> decide
      rw [this]; simp
    · obtain ⟨j, rfl⟩ : ∃ j, i = j + 2 := ⟨i - 2, by omega⟩
      rw [bx a ha, bx b hb]
      have := hh j
      cases h1 : ibit a.toInt j
      · simp
      · have := this h1
        simp at this
        simp [this]
  · rintro ⟨i, h1, h2⟩ h
    have : ibit (boxed a &&& boxed b &&& ~~~3#64).toInt (i + 2) = true := by
      rw [ibit_and_word, ibit_and_word, bx a ha, bx b hb, h1, h2, ibit_not_word]
      have e3 : (3#64 : Word).toInt = ((3 : Nat) : Int) := by decide
      rw [e3, ibit_nat]
      have : Nat.testBit 3 (i + 2) = false := Nat.testBit_lt_two_pow (by
        calc 3 < 2 ^ 2 := by norm_num
          _ ≤ 2 ^ (i + 2) := Nat.pow_le_pow_right (by omega) (by omega))
      rw [this]; rfl
    rw [h] at this
    have h0 : (0 : Word).toInt = 0 := by decide
    rw [h0, ibit_zero] at this
    cases this

example : LOGAND [.big [5#64, 1#64], .fix (-2#64)] = .ok (.big [4#64, 1#64]) := by decide
example : LOGIOR [.fix 5#64, .big [2#64 ^ 62]] = .ok (.big [2#64 ^ 62 + 5#64]) := by decide
example : LOGXOR [.fix 5#64, .fix (-1#64)] = .ok (.fix (-6#64)) := by decide
example : LOGBITP (.fix 2#64) (.fix (-4#64)) = .yes ∧ LOGTEST (.fix 5#64) (.fix 10#64) = some false := by decide
/-- the hypothesis on `z` in `C13_logand_fixnums_partial` is met by `6 = 7 & -2` -/
example : ∀ i, ibit 6 i = ([.fix 7#64, .fix (-2#64)] : List Num).all (fun a => ibit a.val i) := by
  intro i
  have e : (6 : Int) = (7#64 &&& -2#64 : Word).toInt := by decide
  rw [e, ibit_and_word]; simp [val_fix]

/-! ## C14 byte fields -/

theorem ldb_bits (v : Word) (p w : Nat) (hw : 1 ≤ w) (hpw : p + w ≤ 64) (i : Nat) :
    ((v <<< (64 - p - w)) >>> (64 - w)).getLsbD i = (decide (i < w) && v.getLsbD (p + i)) := by
  rw [BitVec.getLsbD_ushiftRight, BitVec.getLsbD_shiftLeft]
  by_cases h : i < w
  · have e : 64 - w + i - (64 - p - w) = p + i := by omega
    rw [e]
    simp [h]; omega
  · have : ¬ (64 - w + i < 64) := by omega
    simp [h]; omega

theorem ibit_field (n : Int) (p w i : Nat) : ibit (n / 2 ^ p % 2 ^ w) i = (decide (i < w) && ibit n (p + i)) := by
  have h1 : ibit n (p + i) = ibit (n / 2 ^ p) i := by
    unfold ibit
    rw [Int.ediv_ediv_of_nonneg (by positivity), ← pow_add]
  rw [h1]
  generalize n / 2 ^ p = m
  unfold ibit
  have hd := Int.mul_ediv_add_emod m (2 ^ w)
  have h0 := Int.emod_nonneg m (by positivity : (2 : Int) ^ w ≠ 0)
  have h2 := Int.emod_lt_of_pos m (by positivity : (0 : Int) < 2 ^ w)
  by_cases hi : i < w
  · obtain ⟨k, rfl⟩ : ∃ k, w = i + 1 + k := ⟨w - (i + 1), by omega⟩
    have e : m = m % 2 ^ (i + 1 + k) + 2 ^ i * (2 * (2 ^ k * (m / 2 ^ (i + 1 + k)))) := by
      conv_lhs => rw [← hd]
      ring
    have e2 : m / 2 ^ i = m % 2 ^ (i + 1 + k) / 2 ^ i + 2 * (2 ^ k * (m / 2 ^ (i + 1 + k))) := by
      conv_lhs => rw [e]
      rw [Int.add_mul_ediv_left _ _ (by positivity)]
    rw [e2, Int.add_mul_emod_self_left]; simp [hi]
  · have : m % 2 ^ w / 2 ^ i = 0 := by
      apply Int.ediv_eq_zero_of_lt h0
      exact lt_of_lt_of_le h2 (pow_le_pow_right₀ (by norm_num) (by omega))
    rw [this]; simp [hi]

/-- C14.  `(ldb n p w)` is the unsigned field of `w` bits at position `p`. -/
theorem C14_ldb (n : Num) (x : Word) (p w : Nat) (hn : ckintval n = some x) (hw : 1 ≤ w) (hw2 : w < 64)
    (hpw : p + w ≤ 64) :
    ∃ m, LDB n (.fix (BitVec.ofNat 64 p)) (.fix (BitVec.ofNat 64 w)) = .ok m ∧
      m.val = x.toInt / 2 ^ p % 2 ^ w := by
  obtain ⟨p1, _⟩ := nat_toInt p (by omega)
  obtain ⟨w1, _⟩ := nat_toInt w (by omega)
  have hck : ∀ y, ckintval (.fix y) = some y := fun _ => rfl
  refine ⟨makeint ((x <<< (64 - p - w)) >>> (64 - w)), ?_, ?_⟩
  · simp only [LDB, hck, hn, p1, w1]
    rw [if_pos (by omega)]
    congr 4 <;> omega
  · rw [makeint_val]
    apply ibit_ext
    intro i
    rw [ibit_field, ibit_word, ibit_word]
    have hmsb : ((x <<< (64 - p - w)) >>> (64 - w)).msb = false := by
      rw [BitVec.msb_eq_getLsbD_last, ldb_bits x p w hw hpw]
      have : ¬ (64 - 1 < w) := by omega
      simp [this]
    by_cases hi : i < 64
    · rw [if_pos hi, ldb_bits x p w hw hpw]
      by_cases hi2 : i < w
      · have : p + i < 64 := by omega
        simp [hi2, this]
      · simp [hi2]
    · rw [if_neg hi, hmsb]
      have : ¬ i < w := by omega
      simp [this]

theorem dpb_bits (v t : Word) (p w : Nat) (hw : 1 ≤ w) (hpw : p + w ≤ 64) (i : Nat) (hi : i < 64) :
    ((t &&& ~~~((((~~~0#64 : Word) <<< (64 - (p + w))) >>> (64 - w)) <<< p)) |||
      ((v &&& (((~~~0#64 : Word) <<< (64 - (p + w))) >>> (64 - w))) <<< p)).getLsbD i =
    if p ≤ i ∧ i < p + w then v.getLsbD (i - p) else t.getLsbD i := by
  have hm : ∀ j, (((~~~0#64 : Word) <<< (64 - (p + w))) >>> (64 - w)).getLsbD j = decide (j < w) := by
    intro j
    have := ldb_bits (~~~0#64) p w hw hpw j
    rw [show 64 - p - w = 64 - (p + w) by omega] at this
    rw [this]
    by_cases hj : j < w
    · have : p + j < 64 := by omega
      rw [BitVec.getLsbD_not]
      simp only [hj, this, decide_true, Bool.true_and, BitVec.getLsbD_zero, Bool.not_false]
    · simp [hj]
  rw [BitVec.getLsbD_or, BitVec.getLsbD_and, BitVec.getLsbD_not, BitVec.getLsbD_shiftLeft,
    BitVec.getLsbD_shiftLeft, BitVec.getLsbD_and, hm]
  by_cases h1 : p ≤ i
  · by_cases h2 : i < p + w
    · have : i - p < w := by omega
      have h3 : ¬ i < p := by omega
      simp [h1, h2, h3, this, hi]
    · have : ¬ (i - p < w) := by omega
      simp [h1, h2, this, hi]
  · have : i < p := by omega
    simp [h1, hi, this]

/-- C14.  `(dpb v n p w)` replaces the field of `w` bits at position `p` of `n` by the low bits of
`v` and leaves every other bit of `n` (of its infinite expansion) unchanged. -/
theorem C14_dpb (v n : Num) (x y : Word) (p w : Nat) (hv : ckintval v = some x) (hn : ckintval n = some y)
    (hw : 1 ≤ w) (hpw : p + w ≤ 63) :
    ∃ m, DPB v n (.fix (BitVec.ofNat 64 p)) (.fix (BitVec.ofNat 64 w)) = .ok m ∧
      ∀ i, ibit m.val i = if p ≤ i ∧ i < p + w then ibit x.toInt (i - p) else ibit y.toInt i := by
  obtain ⟨p1, _⟩ := nat_toInt p (by omega)
  obtain ⟨w1, _⟩ := nat_toInt w (by omega)
  have hck : ∀ y, ckintval (.fix y) = some y := fun _ => rfl
  refine ⟨makeint ((y &&& ~~~((((~~~0#64 : Word) <<< (64 - (p + w))) >>> (64 - w)) <<< p)) |||
      ((x &&& (((~~~0#64 : Word) <<< (64 - (p + w))) >>> (64 - w))) <<< p)), ?_, ?_⟩
  · simp only [DPB, hck, hv, hn, p1, w1]
    rw [if_pos (by omega)]
    have e1 : (64 - ((p : Int) + w)).toNat = 64 - (p + w) := by omega
    have e2 : (64 - (w : Int)).toNat = 64 - w := by omega
    have e3 : ((p : Int)).toNat = p := by omega
    rw [e1, e2, e3]
  · intro i
    rw [makeint_val, ibit_word]
    by_cases hi : i < 64
    · rw [if_pos hi, dpb_bits x y p w hw (by omega) i hi, ibit_word, ibit_word, if_pos hi]
      by_cases h : p ≤ i ∧ i < p + w
      · rw [if_pos h, if_pos h, if_pos (by omega)]
      · rw [if_neg h, if_neg h]
    · have hno : ¬ (p ≤ i ∧ i < p + w) := by omega
      rw [if_neg hi, if_neg hno, BitVec.msb_eq_getLsbD_last, dpb_bits x y p w hw (by omega) _ (by omega),
        if_neg (by omega), ibit_word, if_neg hi, BitVec.msb_eq_getLsbD_last]

/-- C14.  Reading back a deposited field: `(ldb (dpb v n p w) p w) = v mod 2^w`. -/
theorem C14_ldb_dpb (v n : Num) (x y : Word) (p w : Nat) (hv : ckintval v = some x)
    (hn : ckintval n = some y) (hw : 1 ≤ w) (hpw : p + w ≤ 63) :
    ∃ m r, DPB v n (.fix (BitVec.ofNat 64 p)) (.fix (BitVec.ofNat 64 w)) = .ok m ∧
      LDB m (.fix (BitVec.ofNat 64 p)) (.fix (BitVec.ofNat 64 w)) = .ok r ∧ r.val = x.toInt % 2 ^ w := by
  obtain ⟨m, h1, h2⟩ := C14_dpb v n x y p w hv hn hw hpw
  have hck : ∃ z, ckintval m = some z ∧ z.toInt = m.val := by
    obtain ⟨p1, _⟩ := nat_toInt p (by omega)
    obtain ⟨w1, _⟩ := nat_toInt w (by omega)
    have hck : ∀ y, ckintval (.fix y) = some y := fun _ => rfl
    simp only [DPB, hck, hv, hn, p1, w1] at h1
    rw [if_pos (by omega)] at h1
    cases h1
    exact ⟨_, ckintval_makeint _, (makeint_val _).symm⟩
  obtain ⟨z, hz, hz2⟩ := hck
  obtain ⟨r, h3, h4⟩ := C14_ldb m z p w hz hw (by omega) (by omega)
  refine ⟨m, r, h1, h3, ?_⟩
  rw [h4, hz2]
  apply ibit_ext
  intro i
  have e := ibit_field x.toInt 0 w i
  rw [pow_zero, Int.ediv_one, zero_add] at e
  rw [ibit_field, e, h2]
  by_cases hi : i < w
  · rw [if_pos (by omega), Nat.add_sub_cancel_left]
  · simp [hi]

/-- C14 fails at the edges: a field of width 0, or one reaching beyond bit 63, is a shift by 64 or by
a negative amount. -/
theorem C14_field_undefined : LDB (.fix 5#64) (.fix 3#64) (.fix 0#64) = .ub ∧
    LDB (.fix 5#64) (.fix 60#64) (.fix 8#64) = .ub ∧
    DPB (.fix 5#64) (.fix 0#64) (.fix 60#64) (.fix 8#64) = .ub := by decide

example : DPB (.fix 5#64) (.fix (-1#64)) (.fix 4#64) (.fix 3#64) = .ok (.fix (-33#64)) ∧
    LDB (.fix (-33#64)) (.fix 4#64) (.fix 3#64) = .ok (.fix 5#64) := by decide

/-! ## C62 mod, C63 max and min -/

/-- C62.  `(mod x y)` on integers that fit in a machine word, `y` non-zero: the remainder of
division truncating towards zero, i.e. `x = y * truncate(x/y) + r`, `|r| < |y|`, `r` has the sign of
`x`. -/
theorem C62_mod (x y : Num) (hx : x.Canonical) (hy : y.Canonical) (hx2 : -2 ^ 63 ≤ x.val ∧ x.val < 2 ^ 63)
    (hy2 : -2 ^ 63 ≤ y.val ∧ y.val < 2 ^ 63) (h0 : y.val ≠ 0) :
    ∃ r, MOD x y = .ok r ∧ x.val = y.val * (x.val.tdiv y.val) + r.val ∧ |r.val| < |y.val| ∧
      (0 ≤ x.val → 0 ≤ r.val) ∧ (x.val ≤ 0 → r.val ≤ 0) := by
  have e1 := bigintval_val x hx hx2
  have e2 := bigintval_val y hy hy2
  have hne : bigintval y ≠ 0 := by
    intro h; rw [h] at e2; apply h0; rw [← e2]; decide
  refine ⟨mkbigint ((bigintval x).srem (bigintval y)), by simp only [MOD, if_neg hne], ?_⟩
  rw [mkbigint_val, BitVec.toInt_srem, e1, e2]
  refine ⟨(Int.mul_tdiv_add_tmod _ _).symm, ?_, fun h => Int.tmod_nonneg _ h, fun h => ?_⟩
  · rw [Int.abs_eq_natAbs, Int.abs_eq_natAbs, Int.natAbs_tmod]
    exact_mod_cast Nat.mod_lt _ (Int.natAbs_pos.2 h0)
  · have := Int.tmod_nonneg (y.val) (a := -x.val) (by omega)
    rw [Int.neg_tmod] at this
    omega

/-- C62 fails for wider bignums, which are cut to 64 bits: `(mod 2^64 10)` is 0. -/
theorem C62_mod_bignum_wrong : MOD (.big [0#64, 2#64]) (.fix 10#64) = .ok (.fix 0#64) := by decide

example : MOD (.fix (-7#64)) (.fix 2#64) = .ok (.fix (-1#64)) := by decide
example : MOD (.big [2#64 ^ 62]) (.fix 10#64) = .ok (.fix 4#64) := by decide

theorem maxLoop_spec (ws : List Word) : ∀ is : Word, InFix is.toInt → (∀ w ∈ ws, InFix w.toInt) →
    ∃ m : Word, maxLoop is (ws.map .fix) = some m ∧ m ∈ is :: ws ∧ ∀ w ∈ is :: ws, w.toInt ≤ m.toInt := by
  induction ws with
  | nil => intro is _ _; exact ⟨is, rfl, by simp, by simp⟩
  | cons a ws ih =>
    intro is h1 h2
    have ha := h2 a (by simp)
    have hws : ∀ w ∈ ws, InFix w.toInt := fun w hw => h2 w (by simp [hw])
    have hb1 := boxed_infix is h1
    have hb2 := boxed_infix a ha
    simp only [List.map_cons, maxLoop]
    split_ifs with hc
    · obtain ⟨m, e1, e2, e3⟩ := ih a ha hws
      refine ⟨m, e1, by simp at e2 ⊢; tauto, ?_⟩
      intro w hw
      have := e3 a (by simp)
      simp only [List.mem_cons] at hw
      rcases hw with rfl | rfl | hw
      · omega
      · exact this
      · exact e3 w (by simp [hw])
    · obtain ⟨m, e1, e2, e3⟩ := ih is h1 hws
      refine ⟨m, e1, by simp at e2 ⊢; tauto, ?_⟩
      intro w hw
      have := e3 is (by simp)
      simp only [List.mem_cons] at hw
      rcases hw with rfl | rfl | hw
      · exact this
      · omega
      · exact e3 w (by simp [hw])

theorem minLoop_spec (ws : List Word) : ∀ is : Word, InFix is.toInt → (∀ w ∈ ws, InFix w.toInt) →
    ∃ m : Word, minLoop is (ws.map .fix) = some m ∧ m ∈ is :: ws ∧ ∀ w ∈ is :: ws, m.toInt ≤ w.toInt := by
  induction ws with
  | nil => intro is _ _; exact ⟨is, rfl, by simp, by simp⟩
  | cons a ws ih =>
    intro is h1 h2
    have ha := h2 a (by simp)
    have hws : ∀ w ∈ ws, InFix w.toInt := fun w hw => h2 w (by simp [hw])
    have hb1 := boxed_infix is h1
    have hb2 := boxed_infix a ha
    simp only [List.map_cons, minLoop]
    split_ifs with hc
    · obtain ⟨m, e1, e2, e3⟩ := ih a ha hws
      refine ⟨m, e1, by simp at e2 ⊢; tauto, ?_⟩
      intro w hw
      have := e3 a (by simp)
      simp only [List.mem_cons] at hw
      rcases hw with rfl | rfl | hw
      · omega
      · exact this
      · exact e3 w (by simp [hw])
    · obtain ⟨m, e1, e2, e3⟩ := ih is h1 hws
      refine ⟨m, e1, by simp at e2 ⊢; tauto, ?_⟩
      intro w hw
      have := e3 is (by simp)
      simp only [List.mem_cons] at hw
      rcases hw with rfl | rfl | hw
      · exact this
      · omega
      · exact e3 w (by simp [hw])

/-- C63.  `max` and `min` of any number of fixnums return one of the arguments, and it is the
largest (smallest). -/
theorem C63_max_min (args : List Num) (hne : args ≠ []) (h : AllFix args) :
    (∃ m, MAX args = some m ∧ m ∈ args ∧ ∀ a ∈ args, a.val ≤ m.val) ∧
    (∃ m, MIN args = some m ∧ m ∈ args ∧ ∀ a ∈ args, m.val ≤ a.val) := by
  obtain ⟨ws, rfl, hws⟩ := allFix_map args h
  cases ws with
  | nil => exact absurd rfl hne
  | cons w ws =>
    cases ws with
    | nil => exact ⟨⟨.fix w, rfl, by simp, by simp⟩, ⟨.fix w, rfl, by simp, by simp⟩⟩
    | cons b ws =>
      have hw := hws w (by simp)
      have hr : ∀ x ∈ b :: ws, InFix x.toInt := fun x hx => hws x (List.mem_cons_of_mem _ hx)
      obtain ⟨m, e1, e2, e3⟩ := maxLoop_spec (b :: ws) w hw hr
      obtain ⟨m', f1, f2, f3⟩ := minLoop_spec (b :: ws) w hw hr
      constructor
      · refine ⟨.fix m, ?_, List.mem_map_of_mem e2, ?_⟩
        · show (maxLoop w ((b :: ws).map .fix)).map Num.fix = _
          rw [e1]; rfl
        · intro a ha
          obtain ⟨x, hx, rfl⟩ := List.mem_map.1 ha
          exact e3 x hx
      · refine ⟨.fix m', ?_, List.mem_map_of_mem f2, ?_⟩
        · show (minLoop w ((b :: ws).map .fix)).map Num.fix = _
          rw [f1]; rfl
        · intro a ha
          obtain ⟨x, hx, rfl⟩ := List.mem_map.1 ha
          exact f3 x hx

example : MAX [.fix 3#64, .fix (-5#64), .fix 7#64] = some (.fix 7#64) ∧
    MIN [.fix 3#64, .fix (-5#64), .fix 7#64] = some (.fix (-5#64)) := by decide

end Eus.Num
