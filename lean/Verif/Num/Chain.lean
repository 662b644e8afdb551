import Verif.Num.Boxing
import Mathlib.Data.List.Chain
set_option linter.unusedSimpArgs false
namespace Eus.Num

/-! ### the comparison loops -/

theorem canon_sign (v : List Word) (h : (Num.big v).Canonical) :
    ((big_sign v).toInt < 0 ∧ limbsVal v < -2 ^ 61) ∨ (0 < (big_sign v).toInt ∧ 2 ^ 61 ≤ limbsVal v) := by
  have hs := sign_iff v h.1
  have hf := h.2.1
  unfold InFix at hf
  rcases lt_or_ge (limbsVal v) 0 with hn | hn
  · left; exact ⟨hs.2 hn, by omega⟩
  · right
    refine ⟨?_, by omega⟩
    rcases canon_pos v h hn with h | h
    · exact h.1
    · exact h.2

theorem cmp_good (u v : List Word) (hu : (Num.big u).Canonical) (hv : (Num.big v).Canonical)
    (h : ¬ BadPair (.big u) (.big v)) : big_compare u v = signum3 (limbsVal u) (limbsVal v) := by
  rw [big_compare_spec u v hu hv]
  split_ifs with hc
  · obtain ⟨h1, h2, h3, h4⟩ := hc
    have : u = v := by
      by_contra hne
      exact h ⟨u, v, rfl, rfl, h1, h2, h3, h4, hne⟩
    rw [this]
  · rfl

theorem cmp_bad (u v : List Word) (hu : (Num.big u).Canonical) (hv : (Num.big v).Canonical)
    (h : BadPair (.big u) (.big v)) : big_compare u v = signum3 (limbsVal v) (limbsVal u) := by
  obtain ⟨u', v', e1, e2, h1, h2, h3, h4, h5⟩ := h
  cases e1; cases e2
  rw [big_compare_spec u v hu hv, if_pos ⟨h1, h2, h3, h4⟩]

theorem signum3_le (a b : Int) : signum3 a b ≤ 0 ↔ a ≤ b := by
  unfold signum3; split_ifs <;> omega
theorem signum3_ge (a b : Int) : 0 ≤ signum3 a b ↔ b ≤ a := by
  unfold signum3; split_ifs <;> omega
theorem signum3_lt (a b : Int) : signum3 a b < 0 ↔ a < b := by
  unfold signum3; split_ifs <;> omega
theorem signum3_gt (a b : Int) : 0 < signum3 a b ↔ b < a := by
  unfold signum3; split_ifs <;> omega

/-- the pairwise tests of the four loops -/
def gtFail : Num → Num → Prop
  | .fix r, .fix l => (boxed l).toInt ≤ (boxed r).toInt
  | .fix _, .big l => (big_sign l).toInt < 0
  | .big r, .fix _ => (big_sign r).toInt ≥ 0
  | .big r, .big l => big_compare l r ≤ 0
def ltFail : Num → Num → Prop
  | .fix r, .fix l => (boxed l).toInt ≥ (boxed r).toInt
  | .fix _, .big l => (big_sign l).toInt > 0
  | .big r, .fix _ => (big_sign r).toInt < 0
  | .big r, .big l => big_compare l r ≥ 0
def geFail : Num → Num → Prop
  | .fix r, .fix l => (boxed l).toInt < (boxed r).toInt
  | .fix _, .big l => (big_sign l).toInt < 0
  | .big r, .fix _ => (big_sign r).toInt > 0
  | .big r, .big l => big_compare l r < 0
def leFail : Num → Num → Prop
  | .fix r, .fix l => (boxed l).toInt > (boxed r).toInt
  | .fix _, .big l => (big_sign l).toInt > 0
  | .big r, .fix _ => (big_sign r).toInt < 0
  | .big r, .big l => big_compare l r > 0

theorem gtLoop_cons (r l : Num) (rest : List Num) :
    gtLoop r (l :: rest) = true ↔ ¬ gtFail r l ∧ gtLoop l rest = true := by
  cases r <;> cases l <;> simp only [gtLoop, gtFail] <;> split_ifs <;> simp [*]
theorem ltLoop_cons (r l : Num) (rest : List Num) :
    ltLoop r (l :: rest) = true ↔ ¬ ltFail r l ∧ ltLoop l rest = true := by
  cases r <;> cases l <;> simp only [ltLoop, ltFail] <;> split_ifs <;> simp [*]
theorem geLoop_cons (r l : Num) (rest : List Num) :
    geLoop r (l :: rest) = true ↔ ¬ geFail r l ∧ geLoop l rest = true := by
  cases r <;> cases l <;> simp only [geLoop, geFail] <;> split_ifs <;> simp [*]
theorem leLoop_cons (r l : Num) (rest : List Num) :
    leLoop r (l :: rest) = true ↔ ¬ leFail r l ∧ leLoop l rest = true := by
  cases r <;> cases l <;> simp only [leLoop, leFail] <;> split_ifs <;> simp [*]

theorem fails (r l : Num) (hr : r.Canonical) (hl : l.Canonical) (h : ¬ BadPair l r) :
    (¬ gtFail r l ↔ r.val < l.val) ∧ (¬ ltFail r l ↔ l.val < r.val) ∧
    (¬ geFail r l ↔ r.val ≤ l.val) ∧ (¬ leFail r l ↔ l.val ≤ r.val) := by
  cases r with
  | fix r =>
    have hrf : InFix r.toInt := hr
    cases l with
    | fix l =>
      have b1 := boxed_infix r hr
      have b2 := boxed_infix l hl
      simp only [gtFail, ltFail, geFail, leFail, val_fix]
      refine ⟨?_, ?_, ?_, ?_⟩ <;> constructor <;> intro <;> omega
    | big l =>
      have := canon_sign l hl
      unfold InFix at hrf
      simp only [gtFail, ltFail, geFail, leFail, val_fix, val_big]
      refine ⟨?_, ?_, ?_, ?_⟩ <;> constructor <;> intro <;> omega
  | big r =>
    cases l with
    | fix l =>
      have hlf : InFix l.toInt := hl
      have := canon_sign r hr
      unfold InFix at hlf
      simp only [gtFail, ltFail, geFail, leFail, val_fix, val_big]
      refine ⟨?_, ?_, ?_, ?_⟩ <;> constructor <;> intro <;> omega
    | big l =>
      have hc := cmp_good l r hl hr h
      simp only [gtFail, ltFail, geFail, leFail, val_big, hc, ge_iff_le, gt_iff_lt,
        signum3_le, signum3_ge, signum3_lt, signum3_gt]
      refine ⟨?_, ?_, ?_, ?_⟩ <;> constructor <;> intro <;> omega

/-- all four loops at once: `R` is the relation tested between left and right neighbour -/
theorem loop_spec (loop : Num → List Num → Bool) (fail : Num → Num → Prop) (R : Int → Int → Prop)
    (h0 : ∀ r, loop r [] = true)
    (h1 : ∀ r l rest, loop r (l :: rest) = true ↔ ¬ fail r l ∧ loop l rest = true)
    (h2 : ∀ r l, r.Canonical → l.Canonical → ¬ BadPair l r → (¬ fail r l ↔ R l.val r.val)) :
    ∀ (rest : List Num) (r : Num), (∀ a ∈ r :: rest, a.Canonical) →
      (r :: rest).IsChain (fun r l => ¬ BadPair l r) →
      (loop r rest = true ↔ (r :: rest).IsChain (fun r l => R l.val r.val))
  | [], r, _, _ => by simp [h0]
  | l :: rest, r, hc, hb => by
    rw [List.isChain_cons_cons] at hb ⊢
    rw [h1, h2 r l (hc r (by simp)) (hc l (by simp)) hb.1,
      loop_spec loop fail R h0 h1 h2 rest l (fun a ha => hc a (by simp [ha])) hb.2]

theorem cmp_spec (loop : Num → List Num → Bool) (fail : Num → Num → Prop) (R : Int → Int → Prop)
    (h0 : ∀ r, loop r [] = true)
    (h1 : ∀ r l rest, loop r (l :: rest) = true ↔ ¬ fail r l ∧ loop l rest = true)
    (h2 : ∀ r l, r.Canonical → l.Canonical → ¬ BadPair l r → (¬ fail r l ↔ R l.val r.val))
    (args : List Num) (hlen : 2 ≤ args.length) (hc : ∀ a ∈ args, a.Canonical)
    (hb : args.IsChain (fun a b => ¬ BadPair a b)) :
    ∃ b, (match args.reverse with
      | x :: a :: rest => some (loop x (a :: rest))
      | _ => none) = some b ∧ (b = true ↔ args.IsChain (fun a b => R a.val b.val)) := by
  have hlr : args.reverse.length = args.length := by simp
  have hcr : ∀ a ∈ args.reverse, a.Canonical := fun a ha => hc a (by simpa using ha)
  have hbr : args.reverse.IsChain (fun r l => ¬ BadPair l r) := List.isChain_reverse.2 hb
  have e : args.IsChain (fun a b => R a.val b.val) ↔
      args.reverse.IsChain (fun r l => R l.val r.val) := List.isChain_reverse.symm
  rw [e]
  generalize args.reverse = l at *
  match l with
  | [] => simp at hlr; omega
  | [_] => simp at hlr; omega
  | x :: a :: rest =>
    exact ⟨_, rfl, loop_spec loop fail R h0 h1 h2 (a :: rest) x hcr hbr⟩

/-! ### equality -/

theorem numeqLoop_spec (x : Num) (hx : x.Canonical) : ∀ rest : List Num, (∀ a ∈ rest, a.Canonical) →
    (numeqLoop x rest = true ↔ ∀ a ∈ rest, a.val = x.val)
  | [], _ => by simp [numeqLoop]
  | a :: rest, h => by
    have ih := numeqLoop_spec x hx rest (fun y hy => h y (by simp [hy]))
    have ha := h a (by simp)
    simp only [List.mem_cons, forall_eq_or_imp]
    rw [← ih]
    cases x with
    | fix w =>
      cases a with
      | fix u =>
        simp only [numeqLoop, val_fix]
        have := boxed_inj w u hx ha
        split_ifs with hh
        · rw [ne_eq, this] at hh
          simp only [false_iff, Bool.false_eq_true]
          intro hc; exact hh hc.1.symm
        · rw [ne_eq, not_not, this] at hh
          constructor
          · intro h; exact ⟨hh.symm, h⟩
          · intro h; exact h.2
      | big u =>
        simp only [numeqLoop, Bool.false_eq_true, false_iff, val_fix, val_big]
        rintro ⟨h1, _⟩
        exact ha.2.1 (by rw [h1]; exact hx)
    | big v =>
      cases a with
      | fix u =>
        simp only [numeqLoop, Bool.false_eq_true, false_iff, val_fix, val_big]
        rintro ⟨h1, _⟩
        exact hx.2.1 (by rw [← h1]; exact ha)
      | big u =>
        simp only [numeqLoop, val_big]
        have key : v = u ↔ limbsVal u = limbsVal v :=
          ⟨fun h => by rw [h], fun h => canon_unique v u hx ha h.symm⟩
        split_ifs with h1 h2
        · simp only [false_iff, Bool.false_eq_true]
          rintro ⟨h3, _⟩
          exact h1 (by rw [key.2 h3])
        · simp only [false_iff, Bool.false_eq_true]
          rintro ⟨h3, _⟩
          exact h2 (key.2 h3)
        · rw [ne_eq, not_not] at h2
          exact ⟨fun h => ⟨key.1 h2, h⟩, fun h => h.2⟩

/-! ### negation -/

theorem notRest_len : ∀ v : List Word, (notRest v).length = v.length
  | [] => rfl
  | [_] => rfl
  | l :: b :: r => by simp [notRest, notRest_len (b :: r)]

theorem complement_len : ∀ v : List Word, big_sign v ≠ ~~~MASK → (complement_big v).length = v.length
  | [], _ => rfl
  | [t], h => by
    have : t ≠ ~~~MASK := h
    simp only [complement_big, if_neg this]; rfl
  | l :: b :: r, h => by
    have hs : big_sign (l :: b :: r) = big_sign (b :: r) := by simp [big_sign]
    rw [hs] at h
    rw [complement_big_cons l (b :: r) (by simp)]
    split_ifs
    · simp [notRest_len (b :: r)]
    · simp [complement_len (b :: r) h]

theorem neg_canon (v : List Word) (h : (Num.big v).Canonical) :
    (normalize_bignum (complement_big v)).Canonical := by
  obtain ⟨p, q⟩ := complement_big_spec v h.1
  apply (normalize_bignum_spec _ p).2.2
  intro hneg hlen
  have hs : 0 ≤ limbsVal v := by omega
  have hsg := canon_sign v h
  have hlen2 : (complement_big v).length = v.length := by
    apply complement_len
    intro e
    have : (~~~MASK : Word).toInt < 0 := by decide
    rw [e] at hsg; omega
  rw [hlen2] at hlen ⊢
  have h2 := h.2.2 (by omega)
  have h3 : ((2 ^ 63) ^ (v.length - 2) : Int) < (2 ^ 63) ^ (v.length - 1) :=
    pow_lt_pow_right₀ (by norm_num) (by omega)
  rw [q]
  by_contra hh
  apply h2
  have : (0:Int) < (2 ^ 63) ^ (v.length - 1) := by positivity
  constructor <;> omega

end Eus.Num
