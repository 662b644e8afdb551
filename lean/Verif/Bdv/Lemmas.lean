import Mathlib.Tactic.Ring
import Mathlib.Tactic.Linarith
import Verif.Bits.Props
import Verif.Num.Props
import Verif.Bdv.Model
import Verif.Bdv.Spec
set_option autoImplicit false
/-
Lemmas for C203.
-/
namespace Eus.Bdv
open Eus.Num

notation "B63" => (9223372036854775808 : Nat)

theorem uval_cons (x : Word) (xs : List Word) : uval (x :: xs) = x.toNat + B63 * uval xs := by
  simp [uval]

theorem small_cons {x : Word} {xs : List Word} (h : Small (x :: xs)) : x.toNat < B63 ∧ Small xs :=
  ⟨by have := h x (by simp); omega, fun w hw => h w (by simp [hw])⟩

theorem small_mk {x : Word} {xs : List Word} (h1 : x.toNat < B63) (h2 : Small xs) : Small (x :: xs) := by
  intro w hw
  rcases List.mem_cons.1 hw with rfl | hw
  · omega
  · exact h2 w hw

/-- subtraction in a word: with and without a borrow -/
theorem sub_word (y l : Word) (hy : y.toNat < B63) (hl : l.toNat < B63) :
    (l.toNat ≤ y.toNat → (y - l) &&& MSB = 0 ∧ (y - l).toNat = y.toNat - l.toNat) ∧
    (y.toNat < l.toNat → (y - l) &&& MSB ≠ 0 ∧ ((y - l) &&& MASK).toNat = y.toNat + B63 - l.toNat) := by
  have e : (y - l).toNat = (y.toNat + (18446744073709551616 - l.toNat)) % 18446744073709551616 := by
    rw [BitVec.toNat_sub]
    congr 1
    omega
  have hm : ((y - l) &&& MSB).toNat = if (y - l).toNat < B63 then 0 else B63 := by
    have := and_MSB (y - l)
    rw [show MSB = 0x8000000000000000#64 from rfl]
    rw [this]
    split_ifs <;> first | rfl | omega
  constructor
  · intro h
    have e2 : (y - l).toNat = y.toNat - l.toNat := by omega
    refine ⟨?_, e2⟩
    apply BitVec.eq_of_toNat_eq
    rw [hm, if_pos (by omega)]
    rfl
  · intro h
    have e2 : (y - l).toNat = y.toNat + 18446744073709551616 - l.toNat := by omega
    refine ⟨?_, ?_⟩
    · intro h0
      rw [h0, if_neg (by omega)] at hm
      simp at hm
    · rw [and_mask, e2]
      omega

theorem subTail_spec : ∀ (ys : List Word) (hi : Word), Small ys → hi.toNat < B63 → hi.toNat ≤ uval ys →
    ∃ r, subTail hi ys = some r ∧ Small r ∧ r.length = ys.length ∧ uval r + hi.toNat = uval ys
  | [], hi, _, h1, h2 => by
    have h0 : hi.toNat = 0 := by simpa [uval] using h2
    refine ⟨[], ?_, by intro w hw; simp at hw, rfl, by simp [uval, h0]⟩
    rw [subTail, if_pos]
    rw [toInt_of_lt hi h1]; omega
  | y :: ys, hi, hs, h1, h2 => by
    obtain ⟨hy, hys⟩ := small_cons hs
    rw [uval_cons] at h2
    by_cases h0 : hi.toNat = 0
    · refine ⟨y :: ys, ?_, hs, rfl, by rw [h0]; rfl⟩
      rw [subTail, if_pos]
      rw [toInt_of_lt hi h1]; omega
    · have hpos : ¬ hi.toInt ≤ 0 := by rw [toInt_of_lt hi h1]; omega
      obtain ⟨w1, w2⟩ := sub_word y hi hy h1
      by_cases hle : hi.toNat ≤ y.toNat
      · obtain ⟨a, b⟩ := w1 hle
        refine ⟨(y - hi) :: ys, ?_, small_mk (by omega) hys, rfl, by rw [uval_cons, uval_cons, b]; omega⟩
        rw [subTail, if_neg hpos, if_neg (by simp [a])]
      · obtain ⟨a, b⟩ := w2 (by omega)
        obtain ⟨r, e1, e2, e3, e4⟩ := subTail_spec ys 1 hys (by decide) (by
          have : (1 : Word).toNat = 1 := by decide
          rw [this]
          by_contra hc
          have : uval ys = 0 := by omega
          rw [this] at h2
          omega)
        have h1' : (1 : Word).toNat = 1 := by decide
        rw [h1'] at e4
        refine ⟨((y - hi) &&& MASK) :: r, ?_, small_mk (by omega) e2, by simp [e3], ?_⟩
        · rw [subTail, if_neg hpos, if_pos a, e1]; rfl
        · rw [uval_cons, uval_cons, b, ← e4]; omega

theorem subStep_spec (c hi x y : Word) (hc : c.toNat < B63) (hh : hi.toNat < B63) (hx : x.toNat < B63) (hy : y.toNat < B63) :
    (subStep c hi x y).1.toNat < B63 ∧ (subStep c hi x y).2.toNat < B63 ∧
      (subStep c hi x y).1.toNat + c.toNat * x.toNat + hi.toNat = y.toNat + B63 * (subStep c hi x y).2.toNat := by
  obtain ⟨e1, e2, e3⟩ := extended_mul_spec c x hi (by omega) (by omega) (by omega)
  simp only [Nat.reducePow] at e1 e2 e3
  unfold subStep
  simp only []
  generalize extended_mul c x hi = p at *
  have hmul : c.toNat * x.toNat ≤ 9223372036854775807 * 9223372036854775807 := Nat.mul_le_mul (by omega) (by omega)
  generalize c.toNat * x.toNat = m at *
  obtain ⟨w1, w2⟩ := sub_word y p.2 hy e2
  by_cases hle : p.2.toNat ≤ y.toNat
  · obtain ⟨a, b⟩ := w1 hle
    rw [if_neg (by simp [a])]
    exact ⟨by simp only []; omega, e3, by simp only []; omega⟩
  · obtain ⟨a, b⟩ := w2 (by omega)
    rw [if_pos a]
    have hp : (p.1 + 1).toNat = p.1.toNat + 1 := by
      rw [BitVec.toNat_add]
      have : (1 : Word).toNat = 1 := by decide
      rw [this]
      omega
    refine ⟨by simp only []; omega, ?_, ?_⟩
    · simp only [hp]
      omega
    · simp only [hp, b]
      omega

theorem subLoop_spec (c : Word) (hc : c.toNat < B63) : ∀ (xs ys : List Word) (hi : Word), xs ≠ [] → Small xs → Small ys → hi.toNat < B63 →
    xs.length ≤ ys.length → c.toNat * uval xs + hi.toNat ≤ uval ys →
    ∃ r, subLoop c hi xs ys = some r ∧ Small r ∧ r.length = ys.length ∧ uval r + c.toNat * uval xs + hi.toNat = uval ys
  | [], _, _, h, _, _, _, _, _ => absurd rfl h
  | _ :: _, [], _, _, _, _, _, h, _ => by simp at h
  | [x], y :: ys, hi, _, hx, hy, hh, _, hle => by
    obtain ⟨hx1, _⟩ := small_cons hx
    obtain ⟨hy1, hy2⟩ := small_cons hy
    obtain ⟨s1, s2, s3⟩ := subStep_spec c hi x y hc hh hx1 hy1
    have hux : uval [x] = x.toNat := by simp [uval]
    rw [hux] at hle ⊢
    rw [uval_cons] at hle ⊢
    obtain ⟨r, e1, e2, e3, e4⟩ := subTail_spec ys (subStep c hi x y).2 hy2 s2 (by
      by_contra hc
      have : B63 * (uval ys + 1) ≤ B63 * (subStep c hi x y).2.toNat := Nat.mul_le_mul_left _ (by omega)
      omega)
    refine ⟨(subStep c hi x y).1 :: r, by simp only [subLoop, e1, Option.map_some], small_mk s1 e2, by simp [e3], ?_⟩
    rw [uval_cons, ← e4]
    omega
  | x :: x' :: xs, y :: ys, hi, _, hx, hy, hh, hl, hle => by
    obtain ⟨hx1, hx2⟩ := small_cons hx
    obtain ⟨hy1, hy2⟩ := small_cons hy
    obtain ⟨s1, s2, s3⟩ := subStep_spec c hi x y hc hh hx1 hy1
    have hux : c.toNat * uval (x :: x' :: xs) = c.toNat * x.toNat + B63 * (c.toNat * uval (x' :: xs)) := by
      rw [uval_cons]; ring
    rw [hux] at hle ⊢
    rw [uval_cons y ys] at hle ⊢
    obtain ⟨r, e1, e2, e3, e4⟩ := subLoop_spec c hc (x' :: xs) ys (subStep c hi x y).2 (by simp) hx2 hy2 s2 (by simpa using hl) (by
      by_contra hc
      have : B63 * (uval ys + 1) ≤ B63 * (c.toNat * uval (x' :: xs) + (subStep c hi x y).2.toNat) := Nat.mul_le_mul_left _ (by omega)
      omega)
    refine ⟨(subStep c hi x y).1 :: r, by simp only [subLoop, e1, Option.map_some], small_mk s1 e2, by simp [e3], ?_⟩
    rw [uval_cons, ← e4]
    generalize c.toNat * uval (x' :: xs) = m at *
    omega

/-- no zeros at the top -/
def Top (v : List Word) : Prop := v ≠ [] → 0 < (big_sign v).toNat

theorem sub_spec (c : Word) (hc : c.toNat < B63) (x y : List Word) (hx0 : x ≠ []) (hx : Small x) (hy : Small y) (hl : x.length ≤ y.length)
    (hle : c.toNat * uval x ≤ uval y) :
    ∃ r, sub_int_big_big c x y = some r ∧ Small r ∧ Top r ∧ uval r = uval y - c.toNat * uval x := by
  obtain ⟨r, e1, e2, e3, e4⟩ := subLoop_spec c hc x y 0 hx0 hx hy (by decide) hl (by
    have : (0 : Word).toNat = 0 := by decide
    rw [this]; omega)
  have h0 : (0 : Word).toNat = 0 := by decide
  rw [h0] at e4
  have hne : r ≠ [] := by
    intro h
    rw [h] at e3
    have := List.length_pos_iff.2 hx0
    simp at e3
    omega
  obtain ⟨hw, hv⟩ := limbsVal_of_small r e2 hne
  obtain ⟨n1, n2, n3⟩ := normalize_pos_spec r hw (by omega)
  refine ⟨normalize_big r, by rw [sub_int_big_big, e1]; rfl, n1, n3, ?_⟩
  omega

theorem uval_snoc : ∀ (u : List Word) (t : Word), uval (u ++ [t]) = uval u + B63 ^ u.length * t.toNat
  | [], t => by simp [uval]
  | x :: u, t => by
    rw [List.cons_append, uval_cons, uval_snoc u t, uval_cons, List.length_cons, Nat.pow_succ]
    ring

theorem uval_lt' (v : List Word) (h : Small v) : uval v < B63 ^ v.length := by
  have := uval_lt v h
  simpa using this

theorem top_le (v : List Word) (hne : v ≠ []) (h : Top v) : B63 ^ (v.length - 1) ≤ uval v := by
  obtain ⟨u, t, rfl⟩ := snoc_cases v hne
  have ht := h hne
  rw [big_sign_snoc] at ht
  rw [uval_snoc]
  simp only [List.length_append, List.length_singleton, Nat.add_sub_cancel]
  have : B63 ^ u.length * 1 ≤ B63 ^ u.length * t.toNat := Nat.mul_le_mul_left _ ht
  omega

theorem sign_small (v : List Word) (h : Small v) : 0 ≤ (big_sign v).toInt := by
  rcases List.eq_nil_or_concat v with rfl | ⟨u, t, rfl⟩
  · decide
  · rw [List.concat_eq_append] at h ⊢
    rw [big_sign_snoc, toInt_of_lt t (by have := h t (by simp); omega)]
    omega

theorem len_lt (x y : List Word) (hy : Small y) (tx : Top x) (h : y.length < x.length) : uval y < uval x := by
  have hx0 : x ≠ [] := by intro e; rw [e] at h; simp at h
  have h1 := top_le x hx0 tx
  have h2 := uval_lt' y hy
  have h3 : B63 ^ y.length ≤ B63 ^ (x.length - 1) := Nat.pow_le_pow_right (by decide) (by omega)
  omega

theorem compare_spec (x y : List Word) (hx : Small x) (hy : Small y) (tx : Top x) (ty : Top y) : big_compare x y ≤ 0 ↔ uval x ≤ uval y := by
  have sx := sign_small x hx
  have sy := sign_small y hy
  unfold big_compare
  simp only []
  rw [if_neg (by omega), if_neg (by omega), if_neg (by omega)]
  by_cases h1 : x.length > y.length
  · rw [if_pos h1]
    have := len_lt x y hy tx h1
    omega
  · rw [if_neg h1]
    by_cases h2 : x.length < y.length
    · rw [if_pos h2]
      have := len_lt y x hx ty h2
      omega
    · rw [if_neg h2, cmpDown_spec _ _ _ _ (by simp; omega) (fun w hw => hx w (by simpa using hw)) (fun w hw => hy w (by simpa using hw)),
        rval_reverse, rval_reverse]
      split_ifs <;> omega

theorem rounds_spec (x : List Word) (hx0 : x ≠ []) (hx : Small x) (tx : Top x) : ∀ (m : Nat) (fuel : Nat) (q : Word) (y : List Word), Small y → Top y →
    uval y / uval x ≤ m → m < fuel → divRounds fuel q x y = .ok (q + BitVec.ofNat 64 (uval y / uval x))
  | m, 0, _, _, _, _, _, h => by omega
  | m, fuel + 1, q, y, hy, ty, hm, hf => by
    have hpos : 0 < uval x := lt_of_lt_of_le (Nat.pow_pos (by decide)) (top_le x hx0 tx)
    rw [divRounds]
    by_cases hle : uval x ≤ uval y
    · rw [if_pos ((compare_spec x y hx hy tx ty).2 hle)]
      have h1 : (1 : Word).toNat = 1 := by decide
      obtain ⟨r, e1, e2, e3, e4⟩ := sub_spec 1 (by decide) x y hx0 hx hy (by
        by_contra hc
        have := len_lt x y hy tx (by omega)
        omega) (by rw [h1]; omega)
      rw [h1, Nat.one_mul] at e4
      have hd : uval y / uval x = uval r / uval x + 1 := by
        rw [e4]; exact Nat.div_eq_sub_div hpos hle
      cases m with
      | zero =>
        have h9 : uval r / uval x + 1 ≤ 0 := hd ▸ hm
        exact absurd h9 (by exact Nat.not_succ_le_zero _)
      | succ m =>
        rw [e1]
        simp only []
        rw [rounds_spec x hx0 hx tx m fuel (q + 1) r e2 e3 (by rw [hd] at hm; exact Nat.le_of_succ_le_succ hm) (by omega), hd]
        congr 1
        rw [BitVec.ofNat_add]
        have : (1 : Word) = BitVec.ofNat 64 1 := rfl
        rw [this, BitVec.add_assoc, BitVec.add_comm (BitVec.ofNat 64 1)]
    · rw [if_neg (fun h => hle ((compare_spec x y hx hy tx ty).1 h)), Nat.div_eq_of_lt (by omega)]
      simp


/-- The guess is at most one too large and never too small (before 2 is subtracted). -/
theorem guess_bounds (P U W T xt X Y : Nat) (hU : U < P) (hW : W < P) (hxt : 0 < xt) (hX : X = U + P * xt) (hY : Y = W + P * T) :
    Y / X ≤ T / xt ∧ (Y / X < 2147483648 → 2147483648 ≤ xt → T / xt ≤ Y / X + 1) := by
  have hP : 0 < P := by omega
  have hXpos : 0 < X := by
    have : 0 < P * xt := Nat.mul_pos hP hxt
    omega
  constructor
  · apply Nat.le_of_lt_succ
    rw [Nat.div_lt_iff_lt_mul hXpos]
    have h1 : T < xt * (T / xt + 1) := Nat.lt_mul_div_succ T hxt
    have h2 : P * (T + 1) ≤ P * (xt * (T / xt + 1)) := Nat.mul_le_mul_left _ h1
    have h3 : P * (xt * (T / xt + 1)) ≤ X * (T / xt + 1) := by
      rw [← Nat.mul_assoc]
      exact Nat.mul_le_mul_right _ (by omega)
    have h4 : P * (T + 1) = P * T + P := by ring
    rw [Nat.mul_comm (T / xt).succ]
    show Y < X * (T / xt + 1)
    omega
  · intro hq hx
    apply Nat.le_of_lt_succ
    rw [Nat.div_lt_iff_lt_mul hxt]
    have h1 : Y < X * (Y / X + 1) := Nat.lt_mul_div_succ Y hXpos
    generalize Y / X = q at *
    have h2 : X * (q + 1) ≤ P * (xt + 1) * (q + 1) := Nat.mul_le_mul_right _ (by rw [hX]; ring_nf; omega)
    have h3 : P * T < P * ((xt + 1) * (q + 1)) := by
      rw [← Nat.mul_assoc]; omega
    have h4 := Nat.lt_of_mul_lt_mul_left h3
    have h5 : (xt + 1) * (q + 1) = (q + 1) * xt + q + 1 := by ring
    have h6 : (q + 1 + 1) * xt = (q + 1) * xt + xt := by ring
    show T < (q + 1 + 1) * xt
    omega

theorem getElem_last (u : List Word) (t : Word) : (u ++ [t])[u.length]? = some t := by simp

theorem over_lt (a l d : Nat) (hd : 0 < d) (h : (a * B63 + l) / d < B63) : a < d := by
  rw [Nat.div_lt_iff_lt_mul hd, Nat.mul_comm B63 d] at h
  by_contra hc
  have : d * B63 ≤ a * B63 := Nat.mul_le_mul_right _ (Nat.le_of_not_lt hc)
  exact absurd (lt_of_le_of_lt (le_trans this (Nat.le_add_right _ l)) h) (lt_irrefl _)

theorem sign_cons (l : Word) (r : List Word) (h : r ≠ []) : big_sign (l :: r) = big_sign r := by
  cases r with
  | nil => exact absurd rfl h
  | cons a t => simp [big_sign]

/-- `div_big_big` -/
theorem div_spec (x y : List Word) (hx0 : x ≠ []) (hx : Small x) (hy : Small y) (ty : Top y) (hxt : 2147483648 ≤ (big_sign x).toNat)
    (hl : x.length ≤ y.length) (hq : uval y / uval x < 2147483648) (fuel : Nat) (hf : 3 ≤ fuel) :
    div_big_big fuel x y = .ok (BitVec.ofNat 64 (uval y / uval x)) := by
  have tx : Top x := fun _ => by omega
  have hy0 : y ≠ [] := by
    intro e
    have := List.length_pos_iff.2 hx0
    rw [e] at hl; simp at hl; exact hx0 hl
  obtain ⟨u, xt, rfl⟩ := snoc_cases x hx0
  rw [big_sign_snoc] at hxt
  have hxt63 : xt.toNat < B63 := by have := hx xt (by simp); omega
  have hu : Small u := fun w hw => hx w (by simp [hw])
  have hP := uval_lt' u hu
  have hX := uval_snoc u xt
  have hXpos : 0 < uval (u ++ [xt]) := by
    rw [hX]
    have : 0 < B63 ^ u.length * xt.toNat := Nat.mul_pos (Nat.pow_pos (by decide)) (by omega)
    omega
  -- what follows a guess
  have finish : ∀ k : Nat, k < B63 → uval y / uval (u ++ [xt]) ≤ k → k ≤ uval y / uval (u ++ [xt]) + 1 → guess (u ++ [xt]) y = some (BitVec.ofNat 64 k - 2) →
      div_big_big fuel (u ++ [xt]) y = .ok (BitVec.ofNat 64 (uval y / uval (u ++ [xt]))) := by
    intro k hk h1 h2 hg
    rw [div_big_big, hg]
    simp only []
    have hkn : (BitVec.ofNat 64 k).toNat = k := by
      rw [BitVec.toNat_ofNat]; exact Nat.mod_eq_of_lt (by omega)
    have h2n : (2 : Word).toNat = 2 := by decide
    by_cases h3 : k ≤ 2
    · have : (BitVec.ofNat 64 k - 2 : Word).toInt ≤ 0 := by
        have : k = 0 ∨ k = 1 ∨ k = 2 := by omega
        rcases this with rfl | rfl | rfl <;> decide
      rw [if_pos this, rounds_spec _ hx0 hx tx 2 fuel 0 y hy ty (by omega) (by omega)]
      congr 1
      exact BitVec.zero_add _
    · have e : (BitVec.ofNat 64 k - 2 : Word).toNat = k - 2 := by
        rw [BitVec.toNat_sub, hkn, h2n]
        omega
      rw [if_neg (by rw [toInt_of_lt _ (by omega)]; omega)]
      have hle : (k - 2) * uval (u ++ [xt]) ≤ uval y :=
        le_trans (Nat.mul_le_mul_right _ (by omega)) (Nat.div_mul_le_self _ _)
      obtain ⟨r, r1, r2, r3, r4⟩ := sub_spec (BitVec.ofNat 64 k - 2) (by omega) _ y hx0 hx hy hl (by rw [e]; exact hle)
      rw [r1]
      simp only []
      have hr : uval r / uval (u ++ [xt]) = uval y / uval (u ++ [xt]) - (k - 2) := by
        rw [r4, e, Nat.mul_comm, Nat.sub_mul_div_of_le]
        rw [Nat.mul_comm]; exact hle
      rw [rounds_spec _ hx0 hx tx 2 fuel _ r r2 r3 (by omega) (by omega)]
      congr 1
      apply BitVec.eq_of_toNat_eq
      rw [BitVec.toNat_add, e, hr, BitVec.toNat_ofNat, BitVec.toNat_ofNat]
      omega
  have hlen : (u ++ [xt]).length = u.length + 1 := by simp
  rw [hlen] at hl
  obtain ⟨w, yt, rfl⟩ := snoc_cases y hy0
  have hyt : yt.toNat < B63 := by have := hy yt (by simp); omega
  have hw : Small w := fun a ha => hy a (by simp [ha])
  have hW := uval_lt' w hw
  have hY := uval_snoc w yt
  simp only [List.length_append, List.length_singleton] at hl
  by_cases hsame : u.length = w.length
  · -- as many words
    rw [← hsame] at hW hY
    obtain ⟨b1, b2⟩ := guess_bounds _ _ _ yt.toNat xt.toNat _ _ hP hW (by omega) hX hY
    refine finish (yt.toNat / xt.toNat) (lt_of_le_of_lt (Nat.div_le_self _ _) hyt) b1 (b2 hq hxt) ?_
    unfold guess
    simp only [big_sign_snoc]
    rw [if_neg (by simp [hsame])]
    have : (w ++ [yt])[(u ++ [xt]).length - 1]? = some yt := by
      rw [hlen, Nat.add_sub_cancel, hsame]; exact getElem_last w yt
    rw [this]
    simp only []
    rw [if_neg (by rintro rfl; revert hxt; decide)]
    congr 2
    apply BitVec.eq_of_toNat_eq
    rw [BitVec.toNat_ofNat, Nat.mod_eq_of_lt (by have := Nat.div_le_self yt.toNat xt.toNat; omega)]
    exact (sdiv_nonneg yt xt (by omega) (by omega)).1
  · -- one word more, or the quotient does not fit
    have hw0 : w ≠ [] := by
      intro e
      have := List.length_eq_zero_iff.2 e
      omega
    obtain ⟨w', yl, rfl⟩ := snoc_cases w hw0
    have hyl : yl.toNat < B63 := by have := hw yl (by simp); omega
    have hw' : Small w' := fun a ha => hw a (by simp [ha])
    have hW' := uval_lt' w' hw'
    simp only [List.length_append, List.length_singleton] at hl hsame
    have hone : u.length = w'.length := by
      by_contra hc
      have h1 := top_le _ hy0 ty
      simp only [List.length_append, List.length_singleton, Nat.add_sub_cancel] at h1
      have h2 : B63 ^ (u.length + 2) ≤ B63 ^ (w'.length + 1) := Nat.pow_le_pow_right (by decide) (by omega)
      have h3 := uval_lt' _ hx
      rw [hlen] at h3
      have h4 : B63 ≤ uval ((w' ++ [yl]) ++ [yt]) / uval (u ++ [xt]) := by
        rw [Nat.le_div_iff_mul_le hXpos]
        have h5 : B63 ^ (u.length + 2) = B63 * B63 ^ (u.length + 1) := by rw [Nat.pow_succ _ (u.length + 1), Nat.mul_comm]
        have h6 : B63 * uval (u ++ [xt]) ≤ B63 * B63 ^ (u.length + 1) := Nat.mul_le_mul_left _ (by omega)
        omega
      omega
    have hY' : uval ((w' ++ [yl]) ++ [yt]) = uval w' + B63 ^ u.length * (yt.toNat * B63 + yl.toNat) := by
      rw [uval_snoc, uval_snoc, hone]
      simp only [List.length_append, List.length_singleton, Nat.pow_succ]
      ring
    rw [← hone] at hW'
    obtain ⟨b1, b2⟩ := guess_bounds _ _ _ (yt.toNat * B63 + yl.toNat) xt.toNat _ _ hP hW' (by omega) hX hY'
    have b2' := b2 hq hxt
    have hlt : yt.toNat < xt.toNat := over_lt _ _ _ (by omega) (lt_of_le_of_lt b2' (by omega))
    obtain ⟨d1, _⟩ := extended_div_spec xt yt yl (by omega) (by omega) hlt (by omega)
    simp only [Nat.reducePow] at d1
    refine finish ((yt.toNat * B63 + yl.toNat) / xt.toNat) (by omega) b1 b2' ?_
    unfold guess
    simp only [big_sign_snoc]
    have g1 : ((w' ++ [yl]) ++ [yt])[(u ++ [xt]).length]? = some yt := by
      rw [hlen, hone]
      have := getElem_last (w' ++ [yl]) yt
      simpa using this
    have g2 : ((w' ++ [yl]) ++ [yt])[(u ++ [xt]).length - 1]? = some yl := by
      rw [hlen, hone, Nat.add_sub_cancel, List.getElem?_append_left (by simp)]
      exact getElem_last w' yl
    rw [if_pos (by simp; omega), g1, g2]
    simp only []
    rw [if_neg (by rw [toInt_of_lt _ hyt, toInt_of_lt _ hxt63]; omega)]
    have hgen : ∀ n : Nat, (extended_div xt yt yl).1.toNat = n → n < B63 → some ((extended_div xt yt yl).1 - 2) = some (BitVec.ofNat 64 n - 2) := by
      intro n hn hlt
      have : (extended_div xt yt yl).1 = BitVec.ofNat 64 n := by
        apply BitVec.eq_of_toNat_eq
        rw [hn, BitVec.toNat_ofNat, Nat.mod_eq_of_lt (by omega)]
      rw [this]
    exact hgen _ d1 (by omega)

theorem notRest_sign : ∀ r : List Word, r ≠ [] → big_sign (notRest r) = ~~~(big_sign r) := by
  intro r
  induction r with
  | nil => intro h; exact absurd rfl h
  | cons l r ih =>
    intro _
    cases r with
    | nil => rfl
    | cons a t =>
      have := ih (by simp)
      have hn : notRest (a :: t) ≠ [] := by cases t <;> simp [notRest]
      rw [sign_cons l (a :: t) (by simp), ← this]
      show big_sign ((~~~l &&& MASK) :: notRest (a :: t)) = _
      exact sign_cons _ _ hn

theorem complement_sign : ∀ v : List Word, WFv v → big_sign v ≠ 0 → big_sign v ≠ -1 → (big_sign (complement_big v)).toNat ≠ 0 := by
  apply WFv.ind
  · intro t h0 _
    simp only [complement_big]
    split_ifs with h
    · decide
    · have : big_sign [t] = t := rfl
      rw [this] at h0
      show (-t).toNat ≠ 0
      intro hz
      apply h0
      have : -t = 0 := BitVec.eq_of_toNat_eq hz
      have h2 : - -t = -0 := by rw [this]
      simpa using h2
  · intro l r hr hl hw ih h0 h1
    have hs : big_sign (l :: r) = big_sign r := by
      cases r with
      | nil => exact absurd rfl hr
      | cons a t => simp [big_sign, List.getLastD_cons]
    rw [hs] at h0 h1
    rw [complement_big_cons _ _ hr]
    split_ifs with h
    · have hn : notRest r ≠ [] := by
        cases r with
        | nil => exact absurd rfl hr
        | cons a t => cases t <;> simp [notRest]
      have hs2 : big_sign ((-l &&& MASK) :: notRest r) = big_sign (notRest r) := by
        cases hh : notRest r with
        | nil => exact absurd hh hn
        | cons a t => simp [big_sign, List.getLastD_cons]
      rw [hs2, notRest_sign r hr]
      intro hz
      apply h1
      have : ~~~(big_sign r) = 0 := BitVec.eq_of_toNat_eq hz
      have h2 : ~~~(~~~(big_sign r)) = ~~~(0 : Word) := by rw [this]
      simpa using h2
    · have hn : complement_big r ≠ [] := (complement_big_spec r hw).1.ne_nil
      have hs2 : big_sign (l :: complement_big r) = big_sign (complement_big r) := by
        cases hh : complement_big r with
        | nil => exact absurd hh hn
        | cons a t => simp [big_sign, List.getLastD_cons]
      rw [hs2]
      exact ih h0 h1

/-- The magnitude of a canonical bignum has no zeros at the top. -/
theorem magnitude (v : List Word) (h : (Num.big v).Canonical) (rs : List Word) (hrs : rs = if (big_sign v).toInt < 0 then complement_big v else v) :
    rs ≠ [] ∧ Small rs ∧ Top rs ∧ uval rs = (limbsVal v).natAbs := by
  have hw : WFv v := h.1
  have hsg := sign_iff v hw
  by_cases hneg : (big_sign v).toInt < 0
  · rw [if_pos hneg] at hrs
    have hvneg := hsg.1 hneg
    obtain ⟨c1, c2⟩ := complement_big_spec v hw
    have hs := small_of_nonneg _ c1 ((sign_nonneg_iff _ c1).2 (by omega))
    obtain ⟨_, hv⟩ := limbsVal_of_small _ hs c1.ne_nil
    rw [hrs]
    refine ⟨c1.ne_nil, hs, ?_, by omega⟩
    intro _
    have := complement_sign v hw (by intro e; rw [e] at hneg; revert hneg; decide) (by
      intro e
      obtain ⟨u, t, rfl⟩ := snoc_cases v hw.ne_nil
      rw [big_sign_snoc] at e
      obtain ⟨r1, r2⟩ := snoc_range u t hw
      have ht : t.toInt = -1 := by rw [e]; exact toInt_m1
      rw [ht] at r1
      obtain ⟨_, hf, hl⟩ := h
      cases u with
      | nil =>
        apply hf
        rw [r1]
        simp only [uval, List.length_nil, pow_zero]
        unfold InFix; omega
      | cons a u =>
        apply hl (by simp)
        simp only [List.length_append, List.length_singleton, Nat.add_sub_cancel]
        rw [r1]
        constructor
        · have : (0 : Int) ≤ uval (a :: u) := Int.natCast_nonneg _
          linarith
        · have : (0:Int) < (2 ^ 63) ^ (a :: u).length := by positivity
          linarith)
    omega
  · rw [if_neg hneg] at hrs
    have hs := small_of_nonneg v hw (by omega)
    obtain ⟨_, hv⟩ := limbsVal_of_small v hs hw.ne_nil
    rw [hrs]
    refine ⟨hw.ne_nil, hs, ?_, by omega⟩
    intro _
    have hp : 0 < (big_sign v).toInt := by
      rcases canon_pos v h (by omega) with h | h
      · exact h.1
      · exact h.2
    have := toNat_of_nonneg (big_sign v) (by omega)
    omega

end Eus.Bdv
