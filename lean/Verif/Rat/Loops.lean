import Verif.Rat.Proofs
set_option autoImplicit false
/-
The loops over argument lists.
-/
namespace Eus.Rt

theorem fits_fixnum {z : Int} (h : Fits z) : fixnum z := by
  unfold Fits at h; unfold fixnum; omega

theorem toRatio_spec {v : Num} {q : ℚ} (h : Rep v q) (hf : Fit q) : RepR (toRatio v) q := by
  cases v with
  | fix i =>
    obtain ⟨rfl, -⟩ := h
    have hi : Fits i := by have := hf.1; rwa [Rat.num_intCast] at this
    exact ⟨by show int32 i = _; rw [int32_fits hi, Rat.num_intCast],
      by show int32 1 = _; rw [int32_fits fits_one, Rat.den_intCast]; rfl⟩
  | rat r => exact ⟨h.1, h.2.1⟩

theorem return_ratio_spec {r : Ratio} {q : ℚ} (h : RepR r q) (hf : Fit q) : Rep (return_ratio r) q := by
  unfold return_ratio
  by_cases h0 : r.num = 0
  · rw [if_pos h0]
    rw [h.1] at h0
    exact ⟨by rw [Rat.num_eq_zero.1 h0]; rfl, by unfold fixnum; omega⟩
  · rw [if_neg h0]
    by_cases h1 : r.den = 1
    · rw [if_pos h1]
      refine ⟨?_, fits_fixnum (by rw [h.1]; exact hf.1)⟩
      rw [h.2] at h1
      rw [h.1]
      exact (Rat.coe_int_num_of_den_eq_one (by exact_mod_cast h1)).symm
    · rw [if_neg h1]
      refine ⟨h.1, h.2, fun hc => h1 ?_⟩
      rw [h.2, hc]; rfl

theorem rloop_spec {op : Ratio → Ratio → Res Ratio} {P : ℚ → ℚ → Prop} {f : ℚ → ℚ → ℚ}
    (h : ∀ {x y X Y}, RepR x X → RepR y Y → P X Y → ∃ r, op x y = .ok r ∧ RepR r (f X Y))
    (hP : ∀ {X Y}, P X Y → Fit Y ∧ Fit (f X Y)) :
    ∀ {as : List Num} {Ys : List ℚ} {x : Ratio} {X : ℚ}, List.Forall₂ Rep as Ys → RepR x X → Fit X → Steps P f X Ys →
      ∃ v, rloop op x as = .ok v ∧ Rep v (Ys.foldl f X)
  | _, _, x, X, .nil, hx, hf, _ => ⟨_, rfl, return_ratio_spec hx hf⟩
  | _, _, x, X, .cons ha has, hx, hf, hs => by
    obtain ⟨h1, h2⟩ := hs
    obtain ⟨r, e, hr⟩ := h hx (toRatio_spec ha (hP h1).1) h1
    obtain ⟨v, e', hv⟩ := rloop_spec h hP has hr (hP h1).2 h2
    refine ⟨v, ?_, hv⟩
    rw [rloop, bind_of e, e']

theorem repR_int {i : Int} {X : ℚ} (h : X = i) (hf : Fit X) : RepR (makeratio i 1) X :=
  toRatio_spec (v := .fix i) ⟨h, fits_fixnum (by subst h; have := hf.1; rwa [Rat.num_intCast] at this)⟩ hf

theorem fit_int {i : Int} {X : ℚ} (h : X = i) (hf : Fit X) : Fits i := by
  subst h; have := hf.1; rwa [Rat.num_intCast] at this

theorem fit_zero : Fit 0 := ⟨by show Fits 0; unfold Fits; omega, fits_one⟩

theorem ploop_spec : ∀ {as : List Num} {Ys : List ℚ} {i : Int} {X : ℚ}, List.Forall₂ Rep as Ys → X = i → Fit X →
    Steps FitAdd (· + ·) X Ys → ∃ v, ploop i as = .ok v ∧ Rep v (Ys.foldl (· + ·) X)
  | _, _, i, X, .nil, hx, hf, _ => ⟨_, rfl, hx, fits_fixnum (fit_int hx hf)⟩
  | _, _, i, X, .cons (a := .fix j) (b := Y) ha has, hx, hf, hs => by
    obtain ⟨h1, h2⟩ := hs
    have e : X + Y = ((i + j : Int) : ℚ) := by rw [hx, ha.1]; push_cast; rfl
    obtain ⟨v, e', hv⟩ := ploop_spec has e h1.2.2.1 h2
    refine ⟨v, ?_, hv⟩
    rw [ploop, if_pos (fits_fixnum (fit_int e h1.2.2.1)), e']
  | _, _, i, X, .cons (a := .rat r) ha has, hx, hf, hs =>
    rloop_spec (fun a b c => ratio_plus_spec a b c) (fun c => ⟨c.2.1, c.2.2.1⟩) (.cons ha has) (repR_int hx hf) hf hs

theorem fitneg {q : ℚ} (h : Fit (-q)) : Fit q := by
  refine ⟨fits_neg ?_, ?_⟩
  · rw [← Rat.neg_num]; exact h.1
  · have := h.2; rwa [Rat.neg_den] at this

theorem mloop_spec : ∀ {as : List Num} {Ys : List ℚ} {i : Int} {X : ℚ}, List.Forall₂ Rep as Ys → X = i → Fit X →
    Steps (fun s y => FitAdd s (-y)) (· - ·) X Ys → ∃ v, mloop i as = .ok v ∧ Rep v (Ys.foldl (· - ·) X)
  | _, _, i, X, .nil, hx, hf, _ => ⟨_, rfl, hx, fits_fixnum (fit_int hx hf)⟩
  | _, _, i, X, .cons (a := .fix j) (b := Y) ha has, hx, hf, hs => by
    obtain ⟨h1, h2⟩ := hs
    have e : X - Y = ((i - j : Int) : ℚ) := by rw [hx, ha.1]; push_cast; rfl
    have h1' : Fit (X - Y) := by rw [sub_eq_add_neg]; exact h1.2.2.1
    obtain ⟨v, e', hv⟩ := mloop_spec has e h1' h2
    refine ⟨v, ?_, hv⟩
    rw [mloop, if_pos (fits_fixnum (fit_int e h1')), e']
  | _, _, i, X, .cons (a := .rat r) ha has, hx, hf, hs =>
    rloop_spec (fun a b c => ratio_minus_spec a b c)
      (fun {X Y} c => ⟨fitneg c.2.1, by rw [sub_eq_add_neg]; exact c.2.2.1⟩) (.cons ha has) (repR_int hx hf) hf hs

theorem foldl_mul_zero : ∀ Ys : List ℚ, Ys.foldl (· * ·) 0 = 0
  | [] => rfl
  | y :: ys => by rw [List.foldl_cons, zero_mul]; exact foldl_mul_zero ys

theorem tloop_spec : ∀ {as : List Num} {Ys : List ℚ} {i : Int} {X : ℚ}, List.Forall₂ Rep as Ys → X = i → Fit X →
    Steps FitMul (· * ·) X Ys → ∃ v, tloop i as = .ok v ∧ Rep v (Ys.foldl (· * ·) X)
  | _, _, i, X, .nil, hx, hf, _ => ⟨_, rfl, hx, fits_fixnum (fit_int hx hf)⟩
  | _, _, i, X, .cons (a := .fix j) (b := Y) (l₂ := Ys) ha has, hx, hf, hs => by
    obtain ⟨h1, h2⟩ := hs
    have e : X * Y = ((i * j : Int) : ℚ) := by rw [hx, ha.1]; push_cast; rfl
    by_cases h0 : j = 0 ∨ i = 0
    · refine ⟨.fix 0, by rw [tloop, if_pos h0], ?_, by unfold fixnum; omega⟩
      have : X * Y = 0 := by
        rw [e]; rcases h0 with rfl | rfl <;> simp
      rw [List.foldl_cons, this, foldl_mul_zero]; rfl
    obtain ⟨v, e', hv⟩ := tloop_spec has e h1.2.2 h2
    refine ⟨v, ?_, hv⟩
    rw [tloop, if_neg h0, if_pos (fits_fixnum (fit_int e h1.2.2)), e']
  | _, _, i, X, .cons (a := .rat r) ha has, hx, hf, hs =>
    rloop_spec (fun a b c => ratio_times_spec a b c.1 c.2.1 c.2.2) (fun c => ⟨c.2.1, c.2.2⟩) (.cons ha has) (repR_int hx hf) hf hs

theorem rdiv_spec : ∀ {as : List Num} {Ys : List ℚ} {x : Ratio} {X : ℚ}, List.Forall₂ Rep as Ys → RepR x X → Fit X →
    Steps FitDiv (· / ·) X Ys → ∃ v, rloop ratio_divide x as = .ok v ∧ Rep v (Ys.foldl (· / ·) X) :=
  fun a b c d => rloop_spec (fun a b c => ratio_divide_spec a b c.1 c.2.1 c.2.2.1 c.2.2.2) (fun c => ⟨c.2.1, c.2.2.2⟩) a b c d

/-- Two numbers of the same value are the same. -/
theorem rep_unique {v w : Num} {q : ℚ} (h : Rep v q) (h' : Rep w q) : v = w := by
  cases v with
  | fix i =>
    cases w with
    | fix j => obtain ⟨e, -⟩ := h; obtain ⟨e', -⟩ := h'; rw [e] at e'; congr 1; exact_mod_cast e'
    | rat r => obtain ⟨e, -⟩ := h; exact absurd (by rw [e]; exact Rat.den_intCast i) h'.2.2
  | rat r =>
    cases w with
    | fix j => obtain ⟨e, -⟩ := h'; exact absurd (by rw [e]; exact Rat.den_intCast j) h.2.2
    | rat s =>
      obtain ⟨a, b, -⟩ := h; obtain ⟨a', b', -⟩ := h'
      cases r; cases s; simp only at *; subst a; subst b; rw [a', b']

theorem rep_value {v : Num} {p q : ℚ} (h : Rep v p) (h' : Rep v q) : p = q := by
  cases v with
  | fix i => rw [h.1, h'.1]
  | rat r =>
    obtain ⟨a, b, -⟩ := h; obtain ⟨a', b', -⟩ := h'
    exact Rat.ext (by rw [← a, a']) (by exact_mod_cast (by rw [← b, b'] : (p.den : Int) = q.den))

theorem one_int32 : int32 1 = 1 := by decide

theorem reqnum_rat {r : Ratio} {q : ℚ} (h : Rep (.rat r) q) : ∀ {as : List Num} {Ys : List ℚ}, List.Forall₂ Rep as Ys →
    (reqnum r as = true ↔ ∀ y ∈ Ys, y = q)
  | _, _, .nil => by simp [reqnum]
  | _, _, .cons (a := a) (b := Y) ha has => by
    rw [reqnum]
    have key : ((toRatio a).num ≠ r.num ∨ (toRatio a).den ≠ r.den) ↔ Y ≠ q := by
      cases a with
      | fix i =>
        have h1 : Y ≠ q := fun e => h.2.2 (by rw [← e, ha.1]; exact Rat.den_intCast i)
        refine ⟨fun _ => h1, fun _ => Or.inr fun e => h.2.2 ?_⟩
        have : (toRatio (.fix i)).den = 1 := one_int32
        rw [this, h.2.1] at e
        exact_mod_cast e.symm
      | rat s =>
        show (s.num ≠ r.num ∨ s.den ≠ r.den) ↔ _
        rw [ha.1, ha.2.1, h.1, h.2.1]
        constructor
        · rintro (e | e) rfl <;> exact e rfl
        · intro e
          by_contra hc
          rw [not_or, not_not, not_not] at hc
          exact e (Rat.ext hc.1 (by exact_mod_cast hc.2))
    by_cases e : Y = q
    · rw [if_neg (by rw [key]; exact fun h => h e), reqnum_rat h has]
      simp [e]
    · rw [if_pos (key.2 e)]
      simp [e]

theorem ieqnum_spec {x : Int} {X : ℚ} (h : Rep (.fix x) X) : ∀ {as : List Num} {Ys : List ℚ}, List.Forall₂ Rep as Ys →
    (ieqnum x as = true ↔ ∀ y ∈ Ys, y = X)
  | _, _, .nil => by simp [ieqnum]
  | _, _, .cons (a := .fix i) (b := Y) ha has => by
    rw [ieqnum]
    by_cases e : x = i
    · have : Y = X := by rw [ha.1, h.1, e]
      rw [if_neg (by simpa using e), ieqnum_spec h has]
      simp [this]
    · have : Y ≠ X := by rw [ha.1, h.1]; exact fun h => e (by exact_mod_cast h.symm)
      rw [if_pos e]
      simp [this]
  | _, _, .cons (a := .rat r) (b := Y) ha has => by
    have : Y ≠ X := fun e => ha.2.2 (by rw [e, h.1]; exact Rat.den_intCast x)
    have h1 : r.den ≠ 1 := fun e => ha.2.2 (by rw [ha.2.1] at e; exact_mod_cast e)
    rw [ieqnum, reqnum, if_pos (Or.inr (by show r.den ≠ int32 1; rw [one_int32]; exact h1))]
    simp [this]

theorem readratio_spec {n d : Int} (hn : Fits n) (hd : Fits d) (h0 : 0 < d) :
    ∃ v, readratio n d = .ok v ∧ Rep v ((n : ℚ) / d) := by
  obtain ⟨g, a, b, hg, hg0, e1, e2, hc⟩ := gcd_split (u := n) (v := d) (Or.inr h0.ne')
  have hb : 0 < b := by rw [e2] at h0; exact (mul_pos_iff_of_pos_left hg0).1 h0
  have fa := fits_factor hn e1 hg0.ne'
  have fb := fits_factor hd e2 hg0.ne'
  have hq : (n : ℚ) / d = (a : ℚ) / b := by
    rw [e1, e2]; push_cast
    rw [mul_div_mul_left _ _ (by exact_mod_cast hg0.ne')]
  have hcop := Int.isCoprime_iff_gcd_eq_one.1 hc
  have q1 := Rat.num_div_eq_of_coprime hb hcop
  have q2 := Rat.den_div_eq_of_coprime hb hcop
  unfold readratio
  dsimp only
  rw [int32_fits hn, int32_fits hd, bind_of (gcd_fits hn hd), ← hg, if_pos hg0.ne', bind_of (cdiv_exact e1 hg0.ne' fa),
    bind_of (cdiv_exact e2 hg0.ne' fb), hq]
  refine ⟨_, rfl, ?_⟩
  by_cases h1 : b = 1
  · rw [if_pos h1, h1]
    exact ⟨by simp, fits_fixnum fa⟩
  · rw [if_neg h1]
    refine ⟨?_, ?_, ?_⟩
    · show int32 a = _; rw [int32_fits fa, q1]
    · show int32 b = _; rw [int32_fits fb, q2]
    · intro h; rw [h] at q2; exact h1 (by exact_mod_cast q2.symm)

end Eus.Rt
