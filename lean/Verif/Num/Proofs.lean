import Verif.Num.Spec
import Mathlib.Tactic.Ring
import Mathlib.Tactic.Linarith
namespace Eus.Num

theorem toInt_cond (w : Word) : w.toInt = if w.toNat < 9223372036854775808 then (w.toNat:Int)
    else w.toNat - 18446744073709551616 := by
  rw [BitVec.toInt_eq_toNat_cond]; split <;> split <;> omega

theorem toNat_lt' (w : Word) : w.toNat < 18446744073709551616 := by
  have := w.isLt; omega

theorem and_mask (w : Word) : (w &&& MASK).toNat = w.toNat % 9223372036854775808 := by
  have : MASK.toNat = 2^63-1 := by decide
  rw [BitVec.toNat_and, this, Nat.and_two_pow_sub_one_eq_mod]

theorem toNat_neg' (w : Word) : (-w).toNat = (18446744073709551616 - w.toNat) % 18446744073709551616 := by
  rw [BitVec.toNat_neg]

theorem toNat_not' (w : Word) : (~~~w).toNat = 18446744073709551615 - w.toNat := by
  rw [BitVec.toNat_not]

theorem toNat_one : (1 : Word).toNat = 1 := by decide
theorem toNat_zero : (0 : Word).toNat = 0 := by decide
theorem toNat_m2 : (-2 : Word).toNat = 18446744073709551614 := by decide
theorem toNat_m1 : (-1 : Word).toNat = 18446744073709551615 := by decide
theorem toNat_MSB : MSB.toNat = 9223372036854775808 := by decide
theorem toNat_nMASK : (~~~MASK).toNat = 9223372036854775808 := by decide

theorem word_eq_iff (a b : Word) : a = b ↔ a.toNat = b.toNat := BitVec.toNat_inj.symm

/-- a tactic for one-word goals -/
macro "word" : tactic => `(tactic| (
  simp only [toInt_cond, and_mask, BitVec.toNat_add, BitVec.toNat_sub,
    toNat_one, toNat_zero, toNat_m2, toNat_m1, toNat_MSB, toNat_nMASK, word_eq_iff, ne_eq,
    Nat.reducePow] at *
  try simp only [toNat_neg', toNat_not'] at *
  omega))

/-! ### values of vectors -/

theorem limbsVal_cons (l : Word) (r : List Word) (h : r ≠ []) :
    limbsVal (l :: r) = (l.toNat : Int) + 9223372036854775808 * limbsVal r := by
  cases r with
  | nil => exact absurd rfl h
  | cons a t => simp [limbsVal]

theorem WFv_cons (l : Word) (r : List Word) (h : r ≠ []) :
    WFv (l :: r) ↔ l.toNat < 9223372036854775808 ∧ WFv r := by
  cases r with
  | nil => exact absurd rfl h
  | cons a t => simp [WFv]

theorem WFv.ne_nil {v : List Word} (h : WFv v) : v ≠ [] := by
  rintro rfl; exact h

/-- induction principle for well-formed vectors -/
theorem WFv.ind {P : List Word → Prop} (h1 : ∀ t, P [t])
    (h2 : ∀ l r, r ≠ [] → l.toNat < 9223372036854775808 → WFv r → P r → P (l :: r)) :
    ∀ v, WFv v → P v
  | [], h => h.elim
  | [t], _ => h1 t
  | l :: a :: r, h => by
    have h' := (WFv_cons l (a :: r) (by simp)).1 h
    exact h2 l (a :: r) (by simp) h'.1 h'.2 (WFv.ind h1 h2 _ h'.2)

/-! ### add_int_big, sub_int_big -/

theorem add_int_big_ne_nil (c : Word) (v : List Word) (h : v ≠ []) : add_int_big c v ≠ [] := by
  rcases v with _ | ⟨a, _ | ⟨b, t⟩⟩
  · exact absurd rfl h
  · simp only [add_int_big]; split_ifs <;> simp
  · simp only [add_int_big]; split_ifs <;> simp

theorem add_int_big_cons (c l : Word) (r : List Word) (h : r ≠ []) :
    add_int_big c (l :: r) = if (l + c).toInt < 0 then ((l + c) &&& MASK) :: add_int_big 1 r
      else (l + c) :: r := by
  cases r with
  | nil => exact absurd rfl h
  | cons a t => simp [add_int_big]

theorem add_int_big_spec : ∀ (v : List Word), WFv v → ∀ c : Word, 0 ≤ c.toInt →
    WFv (add_int_big c v) ∧ limbsVal (add_int_big c v) = limbsVal v + c.toInt := by
  apply WFv.ind
  · intro t c hc
    simp only [add_int_big]
    split_ifs with h1 h2
    · refine ⟨?_, ?_⟩
      · simp only [WFv]; refine ⟨?_, trivial⟩; word
      · simp only [limbsVal]; word
    · refine ⟨trivial, ?_⟩
      simp only [limbsVal]; word
    · refine ⟨trivial, ?_⟩
      simp only [limbsVal]; word
  · intro l r hr hl hw ih c hc
    rw [add_int_big_cons c l r hr]
    split_ifs with h1
    · obtain ⟨i1, i2⟩ := ih 1 (by decide)
      rw [limbsVal_cons _ _ i1.ne_nil, WFv_cons _ _ i1.ne_nil, limbsVal_cons _ _ hr, i2]
      have h3 : ((1:Word).toInt) = 1 := by decide
      rw [h3]
      have key : (((l + c) &&& MASK).toNat : Int) = l.toNat + c.toInt - 9223372036854775808 := by word
      have key2 : ((l + c) &&& MASK).toNat < 9223372036854775808 := by word
      refine ⟨⟨key2, i1⟩, ?_⟩
      rw [key]; ring
    · rw [limbsVal_cons _ _ hr, WFv_cons _ _ hr, limbsVal_cons _ _ hr]
      have key : ((l + c).toNat : Int) = l.toNat + c.toInt := by word
      have key2 : (l + c).toNat < 9223372036854775808 := by word
      exact ⟨⟨key2, hw⟩, by rw [key]; ring⟩

theorem sub_int_big_cons (c l : Word) (r : List Word) (h : r ≠ []) :
    sub_int_big c (l :: r) = if (l - c).toInt < 0 then ((l - c) &&& MASK) :: sub_int_big 1 r
      else (l - c) :: r := by
  cases r with
  | nil => exact absurd rfl h
  | cons a t => simp [sub_int_big]

theorem sub_int_big_spec : ∀ (v : List Word), WFv v → ∀ c : Word, 0 ≤ c.toInt →
    WFv (sub_int_big c v) ∧ limbsVal (sub_int_big c v) = limbsVal v - c.toInt := by
  apply WFv.ind
  · intro t c hc
    simp only [sub_int_big]
    split_ifs with h1 h2
    · refine ⟨?_, ?_⟩
      · simp only [WFv]; refine ⟨?_, trivial⟩; word
      · simp only [limbsVal]; word
    · refine ⟨trivial, ?_⟩
      simp only [limbsVal]; word
    · refine ⟨trivial, ?_⟩
      simp only [limbsVal]; word
  · intro l r hr hl hw ih c hc
    rw [sub_int_big_cons c l r hr]
    split_ifs with h1
    · obtain ⟨i1, i2⟩ := ih 1 (by decide)
      rw [limbsVal_cons _ _ i1.ne_nil, WFv_cons _ _ i1.ne_nil, limbsVal_cons _ _ hr, i2]
      have h3 : ((1:Word).toInt) = 1 := by decide
      rw [h3]
      have key : (((l - c) &&& MASK).toNat : Int) = l.toNat - c.toInt + 9223372036854775808 := by word
      have key2 : ((l - c) &&& MASK).toNat < 9223372036854775808 := by word
      refine ⟨⟨key2, i1⟩, ?_⟩
      rw [key]; ring
    · rw [limbsVal_cons _ _ hr, WFv_cons _ _ hr, limbsVal_cons _ _ hr]
      have key : ((l - c).toNat : Int) = l.toNat - c.toInt := by word
      have key2 : (l - c).toNat < 9223372036854775808 := by word
      exact ⟨⟨key2, hw⟩, by rw [key]; ring⟩

/-! ### complement_big, big_minus -/

theorem notRest_cons (l : Word) (r : List Word) (h : r ≠ []) :
    notRest (l :: r) = (~~~l &&& MASK) :: notRest r := by
  cases r with
  | nil => exact absurd rfl h
  | cons a t => simp [notRest]

theorem notRest_spec : ∀ (v : List Word), WFv v →
    WFv (notRest v) ∧ limbsVal (notRest v) = - limbsVal v - 1 := by
  apply WFv.ind
  · intro t
    refine ⟨trivial, ?_⟩
    simp only [notRest, limbsVal]; word
  · intro l r hr hl hw ih
    rw [notRest_cons _ _ hr]
    rw [limbsVal_cons _ _ ih.1.ne_nil, WFv_cons _ _ ih.1.ne_nil, limbsVal_cons _ _ hr, ih.2]
    have key : ((~~~l &&& MASK).toNat : Int) = 9223372036854775807 - l.toNat := by word
    have key2 : (~~~l &&& MASK).toNat < 9223372036854775808 := by word
    exact ⟨⟨key2, ih.1⟩, by rw [key]; ring⟩

theorem complement_big_cons (l : Word) (r : List Word) (h : r ≠ []) :
    complement_big (l :: r) =
      if l ≠ 0 then (-l &&& MASK) :: notRest r else l :: complement_big r := by
  cases r with
  | nil => exact absurd rfl h
  | cons a t => simp [complement_big]

theorem complement_big_spec : ∀ (v : List Word), WFv v →
    WFv (complement_big v) ∧ limbsVal (complement_big v) = - limbsVal v := by
  apply WFv.ind
  · intro t
    simp only [complement_big]
    split_ifs with h
    · subst h; exact ⟨⟨by decide, trivial⟩, by decide⟩
    · refine ⟨trivial, ?_⟩
      simp only [limbsVal]; word
  · intro l r hr hl hw ih
    rw [complement_big_cons _ _ hr]
    split_ifs with h
    · obtain ⟨i1, i2⟩ := notRest_spec r hw
      rw [limbsVal_cons _ _ i1.ne_nil, WFv_cons _ _ i1.ne_nil, limbsVal_cons _ _ hr, i2]
      have key : ((-l &&& MASK).toNat : Int) = 9223372036854775808 - l.toNat := by word
      have key2 : (-l &&& MASK).toNat < 9223372036854775808 := by word
      exact ⟨⟨key2, i1⟩, by rw [key]; ring⟩
    · rw [limbsVal_cons _ _ ih.1.ne_nil, WFv_cons _ _ ih.1.ne_nil, limbsVal_cons _ _ hr, ih.2]
      have h0 : l.toNat = 0 := by simp only [ne_eq, Decidable.not_not] at h; rw [h]; rfl
      refine ⟨⟨hl, ih.1⟩, by rw [h0]; push_cast; ring⟩

theorem big_minus_eq (v : List Word) : big_minus v = complement_big v := by
  induction v with
  | nil => rfl
  | cons l r ih =>
    cases r with
    | nil =>
      have : ~~~MASK = MSB := by decide
      simp only [big_minus, complement_big, this]
    | cons a t =>
      simp only [big_minus, complement_big] at *
      split_ifs with h
      · rfl
      · simp only [ne_eq, Decidable.not_not] at h; rw [h, ih]

/-! ### big_plus -/

theorem toInt_bd (w : Word) : -9223372036854775808 ≤ w.toInt ∧ w.toInt < 9223372036854775808 := by
  have := w.isLt
  rw [toInt_cond]; split_ifs <;> omega

theorem toInt_add' (x y : Word) : (x + y).toInt = x.toInt + y.toInt ∨
    (x + y).toInt = x.toInt + y.toInt - 18446744073709551616 ∨
    (x + y).toInt = x.toInt + y.toInt + 18446744073709551616 := by
  rw [BitVec.toInt_add]
  have := toInt_bd x
  have := toInt_bd y
  rw [Int.bmod_def]
  norm_num only
  split_ifs <;> omega

theorem mask_toInt (z : Word) : ((z &&& MASK).toNat : Int) =
    if z.toInt < 0 then z.toInt + 9223372036854775808 else z.toInt := by
  have := z.isLt
  rw [and_mask, toInt_cond]
  split_ifs <;> omega

theorem mask_lt (z : Word) : (z &&& MASK).toNat < 9223372036854775808 := by
  rw [and_mask]; omega

theorem toNat_of_nonneg (z : Word) (h : 0 ≤ z.toInt) : (z.toNat : Int) = z.toInt := by
  have := z.isLt
  rw [toInt_cond] at *
  split_ifs at * <;> omega

theorem toInt_of_lt (z : Word) (h : z.toNat < 9223372036854775808) : z.toInt = z.toNat := by
  rw [toInt_cond, if_pos h]

theorem mask_toInt' (z : Word) : (z &&& MASK).toInt = ((z &&& MASK).toNat : Int) :=
  toInt_of_lt _ (mask_lt z)

theorem toInt_one : (1 : Word).toInt = 1 := by decide
theorem toInt_m1 : (-1 : Word).toInt = -1 := by decide
theorem toInt_m2 : (-2 : Word).toInt = -2 := by decide
theorem toInt_zero : (0 : Word).toInt = 0 := by decide

theorem limbsVal_two (a b : Word) :
    limbsVal [a, b] = (a.toNat : Int) + 9223372036854775808 * b.toInt := rfl

theorem WFv_two (a b : Word) (h : a.toNat < 9223372036854775808) : WFv [a, b] := ⟨h, trivial⟩

theorem plusTail_cons (c l : Word) (r : List Word) (h : r ≠ []) :
    plusTail c (l :: r) = if (l + c).toInt < 0 then ((l + c) &&& MASK) :: plusTail c r
      else (l + c) :: r := by
  cases r with
  | nil => exact absurd rfl h
  | cons a t => simp [plusTail]

theorem plusTail_spec (c : Word) (hc : c.toInt = 1 ∨ c.toInt = -1) : ∀ (v : List Word), WFv v →
    WFv (plusTail c v) ∧ limbsVal (plusTail c v) = limbsVal v + c.toInt := by
  apply WFv.ind
  · intro t
    have b1 := toInt_bd t
    have b2 := toInt_bd (t + c)
    have b3 := toInt_add' t c
    simp only [plusTail]
    split_ifs with h1 h2
    · refine ⟨WFv_two _ _ (mask_lt _), ?_⟩
      have m := mask_toInt (t + c)
      rw [if_pos h1.2.2] at m
      rw [limbsVal_two, m, toInt_one]
      simp only [limbsVal]
      omega
    · have m := toNat_of_nonneg _ h2.2.2
      refine ⟨WFv_two _ _ (by omega), ?_⟩
      rw [limbsVal_two, m, toInt_m2]
      simp only [limbsVal]
      omega
    · refine ⟨trivial, ?_⟩
      simp only [limbsVal]
      omega
  · intro l r hr hl hw ih
    have b0 := toInt_of_lt l hl
    have b1 := toInt_bd l
    have b2 := toInt_bd (l + c)
    have b3 := toInt_add' l c
    rw [plusTail_cons c l r hr]
    split_ifs with h1
    · obtain ⟨i1, i2⟩ := ih
      have m := mask_toInt (l + c)
      rw [if_pos h1] at m
      rw [limbsVal_cons _ _ i1.ne_nil, WFv_cons _ _ i1.ne_nil, limbsVal_cons _ _ hr, i2]
      refine ⟨⟨mask_lt _, i1⟩, ?_⟩
      rw [m]
      omega
    · rw [limbsVal_cons _ _ hr, WFv_cons _ _ hr, limbsVal_cons _ _ hr]
      have m := toNat_of_nonneg (l + c) (by omega)
      refine ⟨⟨by omega, hw⟩, ?_⟩
      rw [m]; omega

theorem plusLoop_spec : ∀ (y : List Word), WFv y → ∀ (x : List Word), WFv x →
    y.length ≤ x.length → ∀ c : Word, (c.toInt = 0 ∨ c.toInt = 1) →
    WFv (plusLoop c x y) ∧ limbsVal (plusLoop c x y) = limbsVal x + limbsVal y + c.toInt := by
  apply WFv.ind (P := fun y => ∀ (x : List Word), WFv x →
    y.length ≤ x.length → ∀ c : Word, (c.toInt = 0 ∨ c.toInt = 1) →
    WFv (plusLoop c x y) ∧ limbsVal (plusLoop c x y) = limbsVal x + limbsVal y + c.toInt)
  · intro y x hx hlen c hc
    rcases x with _ | ⟨x, _ | ⟨b, t⟩⟩
    · exact hx.elim
    · have b0 := toInt_bd x
      have b1 := toInt_bd y
      have b2 := toInt_bd (x + y)
      have b3 := toInt_bd (x + y + c)
      have b4 := toInt_add' x y
      have b5 := toInt_add' (x + y) c
      simp only [plusLoop]
      split_ifs with h1 h2
      · refine ⟨WFv_two _ _ (mask_lt _), ?_⟩
        have m := mask_toInt (x + y + c)
        rw [if_pos h1.2.2] at m
        rw [limbsVal_two, m, toInt_one]
        simp only [limbsVal]
        omega
      · have m := toNat_of_nonneg _ h2.2.2
        refine ⟨WFv_two _ _ (by omega), ?_⟩
        rw [limbsVal_two, m, toInt_m2]
        simp only [limbsVal]
        omega
      · refine ⟨trivial, ?_⟩
        simp only [limbsVal]
        omega
    · obtain ⟨hl, hw⟩ := (WFv_cons x (b :: t) (by simp)).1 hx
      have b00 := toInt_of_lt x hl
      have b0 := toInt_bd x
      have b1 := toInt_bd y
      have b2 := toInt_bd (x + y)
      have b3 := toInt_bd (x + y + c)
      have b4 := toInt_add' x y
      have b5 := toInt_add' (x + y) c
      simp only [plusLoop]
      split_ifs with h1 h2
      · obtain ⟨i1, i2⟩ := plusTail_spec 1 (.inl (by decide)) _ hw
        rw [limbsVal_cons _ _ i1.ne_nil, WFv_cons _ _ i1.ne_nil, limbsVal_cons _ _ (by simp), i2]
        rw [toInt_one]
        have m := mask_toInt (x + y + c)
        rw [if_pos h1] at m
        refine ⟨⟨mask_lt _, i1⟩, ?_⟩
        rw [m]; simp only [limbsVal]; omega
      · obtain ⟨i1, i2⟩ := plusTail_spec (-1) (.inr (by decide)) _ hw
        rw [limbsVal_cons _ _ i1.ne_nil, WFv_cons _ _ i1.ne_nil, limbsVal_cons _ _ (by simp), i2]
        rw [toInt_m1]
        have m := mask_toInt (x + y + c)
        rw [if_pos h1] at m
        refine ⟨⟨mask_lt _, i1⟩, ?_⟩
        rw [m]; simp only [limbsVal]; omega
      · rw [limbsVal_cons (x + y + c) (b :: t) (by simp), WFv_cons (x + y + c) (b :: t) (by simp),
          limbsVal_cons x (b :: t) (by simp)]
        have m := toNat_of_nonneg (x + y + c) (by omega)
        refine ⟨⟨by omega, hw⟩, ?_⟩
        rw [m]; simp only [limbsVal]; omega
  · intro y ys hys hly hwy ih x hx hlen c hc
    rcases x with _ | ⟨x, _ | ⟨b, t⟩⟩
    · exact hx.elim
    · cases ys with
      | nil => exact absurd rfl hys
      | cons => simp at hlen
    · obtain ⟨hl, hw⟩ := (WFv_cons x (b :: t) (by simp)).1 hx
      have hlen' : ys.length ≤ (b :: t).length := by simpa using hlen
      have b00 := toInt_of_lt x hl
      have b01 := toInt_of_lt y hly
      have b0 := toInt_bd x
      have b1 := toInt_bd y
      have b2 := toInt_bd (x + y)
      have b3 := toInt_bd (x + y + c)
      have b4 := toInt_add' x y
      have b5 := toInt_add' (x + y) c
      have step : plusLoop c (x :: b :: t) (y :: ys) =
          if (x + y + c).toInt < 0 then ((x + y + c) &&& MASK) :: plusLoop 1 (b :: t) ys
          else (x + y + c) :: plusLoop 0 (b :: t) ys := by
        cases ys with
        | nil => exact absurd rfl hys
        | cons => simp [plusLoop]
      rw [step]
      split_ifs with h1
      · obtain ⟨i1, i2⟩ := ih (b :: t) hw hlen' 1 (.inr (by decide))
        rw [limbsVal_cons _ _ i1.ne_nil, WFv_cons _ _ i1.ne_nil, limbsVal_cons _ _ (by simp),
          limbsVal_cons _ _ hys, i2, toInt_one]
        have m := mask_toInt (x + y + c)
        rw [if_pos h1] at m
        refine ⟨⟨mask_lt _, i1⟩, ?_⟩
        rw [m]; omega
      · obtain ⟨i1, i2⟩ := ih (b :: t) hw hlen' 0 (.inl (by decide))
        rw [limbsVal_cons _ _ i1.ne_nil, WFv_cons _ _ i1.ne_nil, limbsVal_cons _ _ (by simp),
          limbsVal_cons _ _ hys, i2, toInt_zero]
        have m := toNat_of_nonneg (x + y + c) (by omega)
        refine ⟨⟨by omega, i1⟩, ?_⟩
        rw [m]; omega

theorem big_plus_spec (x y : List Word) (hx : WFv x) (hy : WFv y) :
    WFv (big_plus x y) ∧ limbsVal (big_plus x y) = limbsVal x + limbsVal y := by
  unfold big_plus
  have h0 : (0 : Word).toInt = 0 := by decide
  split_ifs with h
  · have := plusLoop_spec x hx y hy (by omega) 0 (.inl (by decide))
    rw [h0] at this
    exact ⟨this.1, by rw [this.2]; ring⟩
  · have := plusLoop_spec y hy x hx (by omega) 0 (.inl (by decide))
    rw [h0] at this
    exact ⟨this.1, by rw [this.2]; ring⟩

end Eus.Num
