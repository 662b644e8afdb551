import Verif.Num.Normal
import Mathlib.Data.List.Chain
namespace Eus.Num

/-! ### big_compare -/

theorem rval_lt : ∀ v, Small v → rval 0 v < (2 ^ 63) ^ v.length := by
  intro v h
  have := uval_lt v.reverse (fun w hw => h w (by simpa using hw))
  rw [← rval_reverse, List.reverse_reverse, List.length_reverse] at this
  exact this

theorem cmpDown_spec (lt gt : Int) : ∀ xs ys : List Word, xs.length = ys.length → Small xs → Small ys →
    cmpDown lt gt xs ys = (if rval 0 xs < rval 0 ys then lt
      else if rval 0 xs > rval 0 ys then gt else 0)
  | [], [], _, _, _ => by simp [cmpDown, rval]
  | [], _ :: _, h, _, _ => by simp at h
  | _ :: _, [], h, _, _ => by simp at h
  | x :: xs, y :: ys, hl, hx, hy => by
    have hl' : xs.length = ys.length := by simpa using hl
    have hxs : Small xs := fun w hw => hx w (by simp [hw])
    have hys : Small ys := fun w hw => hy w (by simp [hw])
    have ih := cmpDown_spec lt gt xs ys hl' hxs hys
    have h1 := rval_lt xs hxs
    have h2 := rval_lt ys hys
    have hx0 := toInt_of_lt x (by simpa using hx x (by simp))
    have hy0 := toInt_of_lt y (by simpa using hy y (by simp))
    have ex : rval 0 (x :: xs) = x.toNat * (2 ^ 63) ^ xs.length + rval 0 xs := by
      rw [rval, rval_acc]; simp
    have ey : rval 0 (y :: ys) = y.toNat * (2 ^ 63) ^ xs.length + rval 0 ys := by
      rw [rval, rval_acc, hl']; simp
    rw [cmpDown, ih, ex, ey, hx0, hy0]
    rw [← hl'] at h2
    have key : ∀ a b p q P : Nat, p < P → q < P → a < b → a * P + p < b * P + q := by
      intro a b p q P hp hq hab
      have : (a + 1) * P ≤ b * P := Nat.mul_le_mul_right _ hab
      nlinarith
    generalize (2 ^ 63) ^ xs.length = P at *
    rcases lt_trichotomy x.toNat y.toNat with hc | hc | hc
    · have := key _ _ _ _ P h1 h2 hc
      rw [if_pos (by exact_mod_cast hc), if_pos this]
    · rw [hc, if_neg (by omega), if_neg (by omega)]
      simp only [Nat.add_lt_add_iff_left, gt_iff_lt]
    · have := key _ _ _ _ P h2 h1 hc
      rw [if_neg (by omega), if_pos (by omega), if_neg (by omega), if_pos (by omega)]

/-- Two different canonical negative bignums of the same length with the same top word: the pairs on
which `big_compare` answers the wrong way round. -/
def BadVec (u v : List Word) : Prop :=
  limbsVal u < 0 ∧ limbsVal v < 0 ∧ u.length = v.length ∧ big_sign u = big_sign v ∧ u ≠ v

def signum3 (a b : Int) : Int := if a < b then -1 else if a > b then 1 else 0

theorem canon_pos (v : List Word) (h : (Num.big v).Canonical) (hp : 0 ≤ limbsVal v) :
    0 < (big_sign v).toInt ∧ (2 ^ 63) ^ (v.length - 1) ≤ limbsVal v ∨ v.length = 1 ∧ 0 < (big_sign v).toInt := by
  obtain ⟨hw, hf, hl⟩ := h
  obtain ⟨u, t, rfl⟩ := snoc_cases v hw.ne_nil
  have hts : 0 ≤ t.toInt := by
    by_contra hh
    have := (sign_iff _ hw).1 (by rw [big_sign_snoc]; omega)
    omega
  obtain ⟨r1, r2⟩ := snoc_range u t hw
  rw [big_sign_snoc]
  simp only [List.length_append, List.length_singleton, Nat.add_sub_cancel] at *
  by_cases hu : u.length = 0
  · right
    refine ⟨by omega, ?_⟩
    rw [List.length_eq_zero_iff] at hu
    subst hu
    simp only [List.nil_append, limbsVal] at hf
    unfold InFix at hf; omega
  · left
    have := hl (by omega)
    have h2 : (2 ^ 63) ^ u.length ≤ limbsVal (u ++ [t]) := by
      by_contra hh
      apply this
      constructor
      · have : (0:Int) < (2 ^ 63) ^ u.length := by positivity
        omega
      · omega
    refine ⟨?_, h2⟩
    rw [r1] at h2
    generalize ((2 ^ 63) ^ u.length : Int) = P at *
    by_contra hh
    have : t.toInt = 0 := by omega
    rw [this] at h2
    omega

theorem pow_mono_Z {a b : Nat} (h : a ≤ b) : ((2 ^ 63) ^ a : Int) ≤ (2 ^ 63) ^ b :=
  pow_le_pow_right₀ (by norm_num) h

/-- canonical vectors: the longer one is larger in absolute value -/
theorem canon_len_pos (u v : List Word) (hu : (Num.big u).Canonical) (hv : (Num.big v).Canonical)
    (hpu : 0 ≤ limbsVal u) (hl : v.length < u.length) : limbsVal v < limbsVal u := by
  have h1 := (limbsVal_range v hv.1).2
  have hne := hv.1.ne_nil
  have hvl : 1 ≤ v.length := List.length_pos_iff.2 hne
  have h2 := hu.2.2 (by omega)
  have h3 : ((2 ^ 63) ^ v.length : Int) ≤ (2 ^ 63) ^ (u.length - 1) := pow_mono_Z (by omega)
  by_contra hh
  apply h2
  have : (0:Int) < (2 ^ 63) ^ (u.length - 1) := by positivity
  constructor <;> omega

theorem canon_len_neg (u v : List Word) (hu : (Num.big u).Canonical) (hv : (Num.big v).Canonical)
    (hpu : limbsVal u < 0) (hl : v.length < u.length) : limbsVal u < limbsVal v := by
  have h1 := (limbsVal_range v hv.1).1
  have hne := hv.1.ne_nil
  have hvl : 1 ≤ v.length := List.length_pos_iff.2 hne
  have h2 := hu.2.2 (by omega)
  have h3 : ((2 ^ 63) ^ v.length : Int) ≤ (2 ^ 63) ^ (u.length - 1) := pow_mono_Z (by omega)
  by_contra hh
  apply h2
  have : (0:Int) < (2 ^ 63) ^ (u.length - 1) := by positivity
  constructor <;> omega

theorem uval_inj : ∀ u v : List Word, u.length = v.length → Small u → Small v → uval u = uval v → u = v
  | [], [], _, _, _, _ => rfl
  | [], _ :: _, h, _, _, _ => by simp at h
  | _ :: _, [], h, _, _, _ => by simp at h
  | x :: xs, y :: ys, hl, hx, hy, h => by
    have h1 := hx x (by simp)
    have h2 := hy y (by simp)
    simp only [uval, Nat.reducePow] at *
    have e1 : x = y := BitVec.eq_of_toNat_eq (by omega)
    have e2 := uval_inj xs ys (by simpa using hl) (fun w hw => hx w (by simp [hw]))
      (fun w hw => hy w (by simp [hw])) (by omega)
    rw [e1, e2]

theorem sign_nonneg_iff (v : List Word) (h : WFv v) : 0 ≤ (big_sign v).toInt ↔ 0 ≤ limbsVal v := by
  have := sign_iff v h
  constructor <;> intro hh <;> by_contra hc
  · have := this.2 (by omega); omega
  · have := this.1 (by omega); omega

theorem mul_block {P a b p q : Int} (hp : 0 ≤ p) (hpP : p < P) (hq : 0 ≤ q) (hqP : q < P)
    (hab : a < b) : p + P * a < q + P * b := by nlinarith

theorem big_compare_spec (u v : List Word) (hu : (Num.big u).Canonical) (hv : (Num.big v).Canonical) :
    big_compare u v = if limbsVal u < 0 ∧ limbsVal v < 0 ∧ u.length = v.length ∧ big_sign u = big_sign v
      then signum3 (limbsVal v) (limbsVal u) else signum3 (limbsVal u) (limbsVal v) := by
  have su := sign_iff u hu.1
  have sv := sign_iff v hv.1
  have su' := sign_nonneg_iff u hu.1
  have sv' := sign_nonneg_iff v hv.1
  unfold big_compare
  simp only [ge_iff_le, su, sv, su', sv', gt_iff_lt]
  rcases lt_or_ge (limbsVal u) 0 with nu | nu <;> rcases lt_or_ge (limbsVal v) 0 with nv | nv
  · rw [if_neg (by omega), if_neg (by omega), if_pos nu]
    rcases lt_trichotomy u.length v.length with hl | hl | hl
    · have := canon_len_neg v u hv hu nv hl
      rw [if_neg (by omega), if_pos hl, if_neg (by omega)]
      unfold signum3
      rw [if_neg (by omega), if_pos (by omega)]
    · rw [if_neg (by omega), if_neg (by omega)]
      obtain ⟨a, s, rfl⟩ := snoc_cases u hu.1.ne_nil
      obtain ⟨b, t, rfl⟩ := snoc_cases v hv.1.ne_nil
      obtain ⟨r1, r2⟩ := snoc_range a s hu.1
      obtain ⟨r3, r4⟩ := snoc_range b t hv.1
      have hab : a.length = b.length := by simpa using hl
      have sa := ((WFv_append a [s] (by simp)).1 hu.1).1
      have sb := ((WFv_append b [t] (by simp)).1 hv.1).1
      simp only [big_sign_snoc, List.reverse_append, List.reverse_singleton, List.singleton_append,
        List.tail_cons]
      rw [r1] at nu
      rw [r3] at nv
      rw [r1, r3]
      rw [← hab] at r4 nv ⊢
      have p1 : (0:Int) ≤ uval a := by omega
      have p2 : (0:Int) ≤ uval b := by omega
      generalize ((2 ^ 63) ^ a.length : Int) = P at *
      rcases lt_trichotomy s.toInt t.toInt with hc | hc | hc
      · rw [if_pos hc, if_neg]
        · have := mul_block p1 r2 p2 r4 hc
          unfold signum3; rw [if_pos this]
        · rintro ⟨_, _, _, h⟩; rw [h] at hc; omega
      · have hst : s = t := BitVec.eq_of_toInt_eq hc
        have hyes : (uval a : Int) + P * s.toInt < 0 ∧ (uval b : Int) + P * t.toInt < 0 ∧
            (a ++ [s]).length = (b ++ [t]).length ∧ s = t := ⟨nu, nv, by simpa using hab, hst⟩
        rw [if_pos hyes, if_neg (by omega), if_neg (by omega), cmpDown_spec _ _ _ _ (by simpa using hab)
          (fun w hw => sa w (by simpa using hw)) (fun w hw => sb w (by simpa using hw)),
          rval_reverse, rval_reverse, hst]
        unfold signum3
        simp only [gt_iff_lt, add_lt_add_iff_right, Nat.cast_lt]
        split_ifs <;> omega
      · rw [if_neg (by omega), if_pos hc, if_neg]
        · have := mul_block p2 r4 p1 r2 hc
          unfold signum3; rw [if_neg (by omega), if_pos this]
        · rintro ⟨_, _, _, h⟩; rw [h] at hc; omega
    · have := canon_len_neg u v hu hv nu hl
      rw [if_pos (by omega), if_neg (by omega)]
      unfold signum3
      rw [if_pos (by omega)]
  · rw [if_pos (by omega), if_neg (by omega)]; unfold signum3; rw [if_pos (by omega)]
  · rw [if_neg (by omega), if_pos (by omega), if_neg (by omega)]; unfold signum3
    rw [if_neg (by omega), if_pos (by omega)]
  · have hno : ¬ (limbsVal u < 0 ∧ limbsVal v < 0 ∧ u.length = v.length ∧ big_sign u = big_sign v) := by
      omega
    rw [if_neg hno, if_neg (by omega), if_neg (by omega), if_neg (by omega)]
    rcases lt_trichotomy u.length v.length with hl | hl | hl
    · have := canon_len_pos v u hv hu nv hl
      rw [if_neg (by omega), if_pos hl]
      unfold signum3
      rw [if_pos (by omega)]
    · rw [if_neg (by omega), if_neg (by omega)]
      have sa := small_of_nonneg u hu.1 (by omega)
      have sb := small_of_nonneg v hv.1 (by omega)
      have va := (limbsVal_of_small u sa hu.1.ne_nil).2
      have vb := (limbsVal_of_small v sb hv.1.ne_nil).2
      rw [cmpDown_spec _ _ _ _ (by simpa using hl)
          (fun w hw => sa w (by simpa using hw)) (fun w hw => sb w (by simpa using hw)),
          rval_reverse, rval_reverse, va, vb]
      unfold signum3
      simp only [gt_iff_lt, Nat.cast_lt]
    · have := canon_len_pos u v hu hv nu hl
      rw [if_pos (by omega)]
      unfold signum3
      rw [if_neg (by omega), if_pos (by omega)]

/-- a canonical vector is determined by its value -/
theorem canon_unique (u v : List Word) (hu : (Num.big u).Canonical) (hv : (Num.big v).Canonical)
    (h : limbsVal u = limbsVal v) : u = v := by
  have hl : u.length = v.length := by
    rcases lt_trichotomy u.length v.length with hl | hl | hl
    · rcases lt_or_ge (limbsVal v) 0 with hn | hn
      · have := canon_len_neg v u hv hu hn hl; omega
      · have := canon_len_pos v u hv hu hn hl; omega
    · exact hl
    · rcases lt_or_ge (limbsVal u) 0 with hn | hn
      · have := canon_len_neg u v hu hv hn hl; omega
      · have := canon_len_pos u v hu hv hn hl; omega
  obtain ⟨a, s, rfl⟩ := snoc_cases u hu.1.ne_nil
  obtain ⟨b, t, rfl⟩ := snoc_cases v hv.1.ne_nil
  obtain ⟨r1, r2⟩ := snoc_range a s hu.1
  obtain ⟨r3, r4⟩ := snoc_range b t hv.1
  have hab : a.length = b.length := by simpa using hl
  have sa := ((WFv_append a [s] (by simp)).1 hu.1).1
  have sb := ((WFv_append b [t] (by simp)).1 hv.1).1
  rw [r1, r3] at h
  rw [← hab] at r4 h
  have p1 : (0:Int) ≤ uval a := by omega
  have p2 : (0:Int) ≤ uval b := by omega
  generalize ((2 ^ 63) ^ a.length : Int) = P at *
  have hst : s.toInt = t.toInt := by
    rcases lt_trichotomy s.toInt t.toInt with hc | hc | hc
    · have := mul_block p1 r2 p2 r4 hc; omega
    · exact hc
    · have := mul_block p2 r4 p1 r2 hc; omega
  rw [hst] at h
  have : uval a = uval b := by omega
  rw [uval_inj a b hab sa sb this, BitVec.eq_of_toInt_eq hst]

theorem canon_unique_num (a b : Num) (ha : a.Canonical) (hb : b.Canonical) (h : a.val = b.val) :
    a = b := by
  cases a with
  | fix w =>
    cases b with
    | fix u => rw [BitVec.eq_of_toInt_eq h]
    | big v => exact absurd (by rw [← (show w.toInt = limbsVal v from h)]; exact ha) hb.2.1
  | big u =>
    cases b with
    | fix w => exact absurd (by rw [show limbsVal u = w.toInt from h]; exact hb) ha.2.1
    | big v => rw [canon_unique u v ha hb h]

/-! ### boxed words -/

theorem boxed_infix (w : Word) (h : InFix w.toInt) : (boxed w).toInt = 4 * w.toInt + 2 := by
  have e1 : MAXPOSFIXNUM.toInt = 2 ^ 61 - 1 := by decide
  have e2 : MINNEGFIXNUM.toInt = -2 ^ 61 := by decide
  obtain ⟨a, b⟩ := h
  unfold boxed
  rw [if_neg (by rw [e1, e2]; omega)]
  have hl := w.isLt
  have e3 : (w <<< 2 + 2#64).toNat = (w.toNat * 4 + 2) % 2 ^ 64 := by
    rw [BitVec.toNat_add, BitVec.toNat_shiftLeft, Nat.shiftLeft_eq]
    simp
  rw [toInt_cond, e3]
  rw [toInt_cond] at *
  simp only [Nat.reducePow, Int.reducePow] at *
  split_ifs at * <;> omega

theorem boxed_inj (w u : Word) (hw : InFix w.toInt) (hu : InFix u.toInt) :
    boxed w = boxed u ↔ w.toInt = u.toInt := by
  have h1 := boxed_infix w hw
  have h2 := boxed_infix u hu
  constructor
  · intro h; rw [h] at h1; omega
  · intro h; apply BitVec.eq_of_toInt_eq; omega

end Eus.Num
