import Verif.Rat.Text
set_option autoImplicit false
/-
C16 and C80: ratios.

`Rep v q` says that the Lisp number `v` is the rational number `q` in lowest terms (`Verif.Rat.Spec`);
`Fit…` says that the numbers of a step fit a machine `int`.
-/
namespace Eus.Rt

/-- The function `gcd` of the interpreter is the greatest common divisor. -/
theorem C16_gcd_partial (u v : Int) (hu : Fits u) (hv : Fits v) :
    ∃ g : Nat, gcd u v = .ok g ∧ (g : Int) ∣ u ∧ (g : Int) ∣ v ∧ ∀ k : Int, k ∣ u → k ∣ v → k ∣ g :=
  ⟨_, gcd_fits hu hv, Int.gcd_dvd_left _ _, Int.gcd_dvd_right _ _, fun _ h1 h2 => Int.dvd_coe_gcd h1 h2⟩

example : Fits (-84) ∧ Fits 30 ∧ gcd (-84) 30 = .ok 6 := ⟨by unfold Fits; omega, by unfold Fits; omega, by decide⟩

/-- It is undefined for the least `int`, whose negation overflows. -/
theorem C16_gcd_wrong : gcd (-2 ^ 31) 6 = .ub := by decide

/-- Sums of fixnums and ratios, any number of them, are exact and in lowest terms. -/
theorem C16_plus_partial (args : List Num) (qs : List ℚ) (h : List.Forall₂ Rep args qs)
    (hf : Steps FitAdd (· + ·) 0 qs) : ∃ v, plus args = .ok v ∧ Rep v qs.sum := by
  obtain ⟨v, e, hv⟩ := ploop_spec (i := 0) h (by norm_num) fit_zero hf
  refine ⟨v, e, ?_⟩
  rwa [List.sum_eq_foldl]

theorem rep_ratio (n : Int) (d : Nat) (hd : 1 < d) (hc : Nat.Coprime n.natAbs d) : Rep (.rat ⟨n, d⟩) ((n : ℚ) / d) := by
  have h := Rat.num_div_eq_of_coprime (a := n) (b := d) (by omega) (by simpa using hc)
  have h' := Rat.den_div_eq_of_coprime (a := n) (b := d) (by omega) (by simpa using hc)
  simp only [Int.cast_natCast] at h h'
  exact ⟨h.symm, h'.symm, by omega⟩

theorem num_den (n : Int) (d : Nat) (hd : 0 < d) (hc : Nat.Coprime n.natAbs d) : ((n : ℚ) / d).num = n ∧ ((n : ℚ) / d).den = d := by
  have h := Rat.num_div_eq_of_coprime (a := n) (b := d) (by omega) (by simpa using hc)
  have h' := Rat.den_div_eq_of_coprime (a := n) (b := d) (by omega) (by simpa using hc)
  simp only [Int.cast_natCast] at h h'
  exact ⟨h, by omega⟩

theorem fit_ratio (n : Int) (d : Nat) (hd : 0 < d) (hc : Nat.Coprime n.natAbs d) (hn : Fits n) (hf : Fits d) : Fit ((n : ℚ) / d) := by
  obtain ⟨h1, h2⟩ := num_den n d hd hc
  exact ⟨by rw [h1]; exact hn, by rw [h2]; exact hf⟩

/-- 5/6 + 3/10 = 17/15, with a common factor to cancel -/
example : (List.Forall₂ Rep [.rat ⟨5, 6⟩, .rat ⟨3, 10⟩] [(5 : Int) / (6 : Nat), (3 : Int) / (10 : Nat)] ∧
    Steps FitAdd (· + ·) 0 [(5 : Int) / (6 : Nat), (3 : Int) / (10 : Nat)]) ∧
    plus [.rat ⟨5, 6⟩, .rat ⟨3, 10⟩] = .ok (.rat ⟨17, 15⟩) := by
  obtain ⟨n1, d1⟩ := num_den 5 6 (by decide) (by decide)
  obtain ⟨n2, d2⟩ := num_den 3 10 (by decide) (by decide)
  refine ⟨⟨.cons (rep_ratio 5 6 (by decide) (by decide)) (.cons (rep_ratio 3 10 (by decide) (by decide)) .nil), ?_, ?_, trivial⟩, by decide⟩
  · rw [show ((0 : ℚ) = 0) from rfl]
    refine ⟨fit_zero, fit_ratio _ _ (by decide) (by decide) (by unfold Fits; omega) (by unfold Fits; omega), ?_, ?_⟩
    · rw [zero_add]
      exact fit_ratio _ _ (by decide) (by decide) (by unfold Fits; omega) (by unfold Fits; omega)
    · rw [n1, d1]; unfold Fits; decide
  · simp only [zero_add]
    refine ⟨fit_ratio _ _ (by decide) (by decide) (by unfold Fits; omega) (by unfold Fits; omega),
      fit_ratio _ _ (by decide) (by decide) (by unfold Fits; omega) (by unfold Fits; omega), ?_, ?_⟩
    · have : ((5 : Int) : ℚ) / ((6 : Nat) : ℚ) + ((3 : Int) : ℚ) / ((10 : Nat) : ℚ) = ((17 : Int) : ℚ) / ((15 : Nat) : ℚ) := by norm_num
      rw [this]
      exact fit_ratio _ _ (by decide) (by decide) (by unfold Fits; omega) (by unfold Fits; omega)
    · rw [n1, d1, n2, d2]; unfold Fits; decide

/-- The sum of the fixnum 2^33 and 1/2 should be 17179869185/2; the interpreter answers 1/2. -/
theorem C16_truncated_wrong : Rep (.fix (2 ^ 33)) (2 ^ 33 : ℚ) ∧ Rep (.rat ⟨1, 2⟩) (1 / 2) ∧
    plus [.fix (2 ^ 33), .rat ⟨1, 2⟩] = .ok (.rat ⟨1, 2⟩) := by
  refine ⟨⟨by norm_num, by unfold fixnum; decide⟩, by simpa using rep_ratio 1 2 (by decide) (by decide), by decide⟩

/-- The sum of 2147483647/3 and 2147483645/3 is the integer 1431655764; the interpreter answers -4/3. -/
theorem C16_overflow_wrong : Rep (.rat ⟨2 ^ 31 - 1, 3⟩) (2147483647 / 3) ∧ Rep (.rat ⟨2 ^ 31 - 3, 3⟩) (2147483645 / 3) ∧
    (2147483647 / 3 + 2147483645 / 3 : ℚ) = 1431655764 ∧
    plus [.rat ⟨2 ^ 31 - 1, 3⟩, .rat ⟨2 ^ 31 - 3, 3⟩] = .ok (.rat ⟨-4, 3⟩) := by
  refine ⟨by simpa using rep_ratio 2147483647 3 (by decide) (by decide), by simpa using rep_ratio 2147483645 3 (by decide) (by decide),
    by norm_num, by decide⟩

/-- Differences, and the negation of one number. -/
theorem C16_minus_partial (a : Num) (args : List Num) (q : ℚ) (qs : List ℚ) (ha : Rep a q) (h : List.Forall₂ Rep args qs)
    (hq : Fit q) (hf : Steps (fun s y => FitAdd s (-y)) (· - ·) q qs) :
    ∃ v, minus (a :: args) = .ok v ∧ Rep v (if args = [] then -q else q - qs.sum) := by
  have hsum : ∀ (l : List ℚ) (s : ℚ), l.foldl (· - ·) s = s - l.sum := by
    intro l
    induction l with
    | nil => simp
    | cons x l ih => intro s; rw [List.foldl_cons, ih, List.sum_cons]; ring
  cases args with
  | nil =>
    rw [if_pos rfl]
    cases a with
    | fix i =>
      have hi := fit_int ha.1 hq
      have hn : fixnum (-i) := by unfold Fits at hi; unfold fixnum; omega
      exact ⟨.fix (-i), by rw [minus, if_pos hn], by rw [ha.1]; push_cast; rfl, hn⟩
    | rat r =>
      obtain ⟨h1, h2, h3⟩ := ha
      refine ⟨.rat (makeratio (-r.num) r.den), rfl, ?_, ?_, ?_⟩
      · show int32 (-r.num) = _
        rw [h1, int32_fits (fits_neg (by rw [neg_neg]; exact hq.1)), Rat.neg_num]
      · show int32 r.den = _
        rw [h2, int32_fits hq.2, Rat.neg_den]
      · rwa [Rat.neg_den]
  | cons b args =>
    rw [if_neg (by simp), ← hsum]
    cases a with
    | fix i => exact mloop_spec h ha.1 hq hf
    | rat r =>
      exact rloop_spec (fun a b c => ratio_minus_spec a b c)
        (fun {X Y} c => ⟨fitneg c.2.1, by rw [sub_eq_add_neg]; exact c.2.2.1⟩) h ⟨ha.1, ha.2.1⟩ hq hf

example : Rep (.rat ⟨5, 6⟩) ((5 : Int) / (6 : Nat)) ∧ Fit ((5 : Int) / (6 : Nat)) ∧ minus [.rat ⟨5, 6⟩] = .ok (.rat ⟨-5, 6⟩) ∧
    minus [.rat ⟨5, 6⟩, .rat ⟨3, 10⟩] = .ok (.rat ⟨8, 15⟩) ∧ minus [.fix 1, .rat ⟨1, 3⟩, .rat ⟨2, 3⟩] = .ok (.fix 0) :=
  ⟨rep_ratio 5 6 (by decide) (by decide), fit_ratio _ _ (by decide) (by decide) (by unfold Fits; omega) (by unfold Fits; omega),
    by decide, by decide, by decide⟩

/-- Products. -/
theorem C16_times_partial (a : Num) (args : List Num) (q : ℚ) (qs : List ℚ) (ha : Rep a q) (h : List.Forall₂ Rep args qs)
    (hq : Fit q) (hf : Steps FitMul (· * ·) q qs) : ∃ v, times (a :: args) = .ok v ∧ Rep v (q * qs.prod) := by
  have hprod : ∀ (l : List ℚ) (s : ℚ), l.foldl (· * ·) s = s * l.prod := by
    intro l
    induction l with
    | nil => simp
    | cons x l ih => intro s; rw [List.foldl_cons, ih, List.prod_cons]; ring
  rw [← hprod]
  cases a with
  | fix i => exact tloop_spec h ha.1 hq hf
  | rat r =>
    exact rloop_spec (fun a b c => ratio_times_spec a b c.1 c.2.1 c.2.2) (fun c => ⟨c.2.1, c.2.2⟩) h ⟨ha.1, ha.2.1⟩ hq hf

/-- -4/9 times 15/8 -/
example : Rep (.rat ⟨-4, 9⟩) ((-4 : Int) / (9 : Nat)) ∧ Rep (.rat ⟨15, 8⟩) ((15 : Int) / (8 : Nat)) ∧
    FitMul ((-4 : Int) / (9 : Nat)) ((15 : Int) / (8 : Nat)) ∧ times [.rat ⟨-4, 9⟩, .rat ⟨15, 8⟩] = .ok (.rat ⟨-5, 6⟩) := by
  refine ⟨rep_ratio (-4) 9 (by decide) (by decide), rep_ratio 15 8 (by decide) (by decide),
    ⟨fit_ratio (-4) 9 (by decide) (by decide) (by unfold Fits; omega) (by unfold Fits; omega),
     fit_ratio 15 8 (by decide) (by decide) (by unfold Fits; omega) (by unfold Fits; omega), ?_⟩, by decide⟩
  have : ((-4 : Int) : ℚ) / ((9 : Nat) : ℚ) * (((15 : Int) : ℚ) / ((8 : Nat) : ℚ)) = ((-5 : Int) : ℚ) / ((6 : Nat) : ℚ) := by norm_num
  rw [this]
  exact fit_ratio (-5) 6 (by decide) (by decide) (by unfold Fits; omega) (by unfold Fits; omega)

/-- Quotients whose first or second number is a ratio. -/
theorem C16_quotient_partial (a b : Num) (args : List Num) (p q : ℚ) (qs : List ℚ) (ha : Rep a p) (hb : Rep b q)
    (hr : (∃ r, a = .rat r) ∨ ∃ r, b = .rat r) (h : List.Forall₂ Rep args qs) (hp : Fit p) (hf : Steps FitDiv (· / ·) p (q :: qs)) :
    ∃ v, quotient (a :: b :: args) = .ok v ∧ Rep v (p / (q * qs.prod)) := by
  have hdiv : ∀ (l : List ℚ) (s : ℚ), l.foldl (· / ·) s = s / l.prod := by
    intro l
    induction l with
    | nil => simp
    | cons x l ih => intro s; rw [List.foldl_cons, ih, List.prod_cons, div_div]
  rw [← List.prod_cons, ← hdiv]
  cases a with
  | rat r => exact rdiv_spec (.cons hb h) ⟨ha.1, ha.2.1⟩ hp hf
  | fix i =>
    rcases hr with ⟨r, hr⟩ | ⟨r, rfl⟩
    · cases hr
    · exact rdiv_spec (.cons hb h) (repR_int ha.1 hp) hp hf

/-- 4/9 divided by -15/8 -/
example : Rep (.rat ⟨4, 9⟩) ((4 : Int) / (9 : Nat)) ∧ Rep (.rat ⟨-15, 8⟩) ((-15 : Int) / (8 : Nat)) ∧
    FitDiv ((4 : Int) / (9 : Nat)) ((-15 : Int) / (8 : Nat)) ∧ quotient [.rat ⟨4, 9⟩, .rat ⟨-15, 8⟩] = .ok (.rat ⟨-32, 135⟩) := by
  refine ⟨rep_ratio 4 9 (by decide) (by decide), rep_ratio (-15) 8 (by decide) (by decide),
    ⟨fit_ratio 4 9 (by decide) (by decide) (by unfold Fits; omega) (by unfold Fits; omega),
     fit_ratio (-15) 8 (by decide) (by decide) (by unfold Fits; omega) (by unfold Fits; omega), by norm_num, ?_⟩, by decide⟩
  have : ((4 : Int) : ℚ) / ((9 : Nat) : ℚ) / (((-15 : Int) : ℚ) / ((8 : Nat) : ℚ)) = ((-32 : Int) : ℚ) / ((135 : Nat) : ℚ) := by norm_num
  rw [this]
  exact fit_ratio (-32) 135 (by decide) (by decide) (by unfold Fits; omega) (by unfold Fits; omega)

/-- What is missing: the quotient of two fixnums is truncated, the quotient of one ratio is that ratio and not its
inverse, and dividing by zero makes a ratio with denominator zero. -/
theorem C16_quotient_wrong : quotient [.fix 1, .fix 2] = .ok (.fix 0) ∧ quotient [.rat ⟨2, 3⟩] = .ok (.rat ⟨2, 3⟩) ∧
    quotient [.rat ⟨2, 3⟩, .fix 0] = .ok (.rat ⟨1, 0⟩) ∧ quotient [.fix 1, .fix 0] = .ub := by
  refine ⟨?_, ?_, ?_, ?_⟩ <;> decide

/-- `=` on fixnums and ratios is equality of their values. -/
theorem C16_equal (args : List Num) (qs : List ℚ) (h : List.Forall₂ Rep args qs) (hl : 2 ≤ args.length) :
    ∃ b, numequal args = .ok b ∧ (b = true ↔ ∀ x ∈ qs, ∀ y ∈ qs, x = y) := by
  have hrev : List.Forall₂ Rep args.reverse qs.reverse := List.rel_reverse h
  have hmem : ∀ x, x ∈ qs.reverse ↔ x ∈ qs := fun x => List.mem_reverse
  unfold numequal
  rw [if_neg (by omega)]
  generalize args.reverse = as at hrev
  generalize qs.reverse = ys at hrev hmem
  cases hrev with
  | nil =>
    have := h.length_eq
    have : qs = [] := List.eq_nil_iff_forall_not_mem.2 fun x hx => by simpa using (hmem x).2 hx
    subst this
    cases h
    simp at hl
  | @cons a y as ys ha has =>
    have key : (∀ x ∈ ys, x = y) ↔ ∀ x ∈ qs, ∀ z ∈ qs, x = z := by
      constructor
      · intro h1
        have h2 : ∀ x ∈ qs, x = y := fun x hx => by
          rcases List.mem_cons.1 ((hmem x).2 hx) with e | e
          · exact e
          · exact h1 x e
        intro x hx z hz
        rw [h2 x hx, h2 z hz]
      · intro h1 x hx
        exact h1 x ((hmem x).1 (List.mem_cons_of_mem _ hx)) y ((hmem y).1 (List.mem_cons_self ..))
    cases a with
    | fix i => exact ⟨_, rfl, by rw [ieqnum_spec ha has, key]⟩
    | rat r => exact ⟨_, rfl, by rw [reqnum_rat ha has, key]⟩

example : List.Forall₂ Rep [.rat ⟨2, 3⟩, .rat ⟨2, 3⟩, .fix 5] [((2 : Int) : ℚ) / (3 : Nat), ((2 : Int) : ℚ) / (3 : Nat), ((5 : Int) : ℚ)] ∧
    numequal [.rat ⟨2, 3⟩, .rat ⟨2, 3⟩, .fix 5] = .ok false ∧ numequal [.rat ⟨2, 3⟩, .rat ⟨2, 3⟩] = .ok true :=
  ⟨.cons (rep_ratio 2 3 (by decide) (by decide)) (.cons (rep_ratio 2 3 (by decide) (by decide)) (.cons ⟨rfl, by unfold fixnum; decide⟩ .nil)),
    by decide, by decide⟩

/-! ### C80: the text of ratios -/

/-- Reading `n/d` gives the rational number in lowest terms (an integer when `d` divides `n`), in every base, for all
numbers that fit a machine `int`. -/
theorem C80_read_partial (base : Nat) (tn td rest : List Nat) (n : Int) (d : Nat) (hn : Rd.Numeral base tn n) (hd : Rd.Digits base td d)
    (fn : Fits n) (fd : Fits d) (h0 : 0 < d) (hl : tn.length + td.length < 1023) (hr : Rd.Delim rest) :
    ∃ tok v, Rd.reader base (tn ++ 47 :: td ++ rest) = (.val (.ratio tok), rest) ∧ readratioTok base tok = .ok v ∧ Rep v ((n : ℚ) / d) := by
  refine ⟨(tn ++ 47 :: td).map Rd.to_upper, ?_⟩
  rw [reader_ratio hn hd hl hr]
  have h1 := Rd.numeral_upper base tn n hn
  have h2 := Rd.numeral_upper base td d (digits_numeral hd)
  obtain ⟨v, e, hv⟩ := readratioTok_spec h1 h2 fn fd (by exact_mod_cast h0)
  refine ⟨v, rfl, ?_, by rwa [Int.cast_natCast] at hv⟩
  rwa [List.map_append, List.map_cons, upper_slash]

/-- `-10/4)` -/
example : Rd.Numeral 10 [45, 49, 48] (-10) ∧ Rd.Digits 10 [52] 4 ∧ Rd.Delim [41] ∧
    Rd.reader 10 [45, 49, 48, 47, 52, 41] = (.val (.ratio [45, 49, 48, 47, 52]), [41]) ∧
    readratioTok 10 [45, 49, 48, 47, 52] = .ok (.rat ⟨-5, 2⟩) := by
  refine ⟨Or.inr (Or.inr ⟨[49, 48], 10, rfl, ⟨[1, 0], by decide, by decide, .cons (Or.inl (by decide)) (.cons (Or.inl (by decide)) .nil), by decide⟩, by decide⟩),
    ⟨[4], by decide, by decide, .cons (Or.inl (by decide)) .nil, by decide⟩, ?_, by decide, by decide⟩
  intro c hc
  simp only [List.head?_cons, Option.mem_def, Option.some.injEq] at hc
  subst hc
  exact Or.inr (by decide)

/-- A ratio prints in a form that reads back as the same ratio, in every base. -/
theorem C80_roundtrip_partial (base : Nat) (down : Bool) (hb : 2 ≤ base) (hb' : base ≤ 36) (r : Ratio) (q : ℚ) (h : Rep (.rat r) q)
    (hq : Fit q) : ∃ txt, printratio base down r = some txt ∧ ∀ rest, Rd.Delim rest →
      ∃ tok, Rd.reader base (txt ++ rest) = (.val (.ratio tok), rest) ∧ readratioTok base tok = .ok (.rat r) := by
  obtain ⟨h1, h2, h3⟩ := h
  obtain ⟨a, ea, ha, la, -⟩ := print_fits (down := down) hb hb' (z := r.num) (by rw [h1]; exact hq.1)
  obtain ⟨b, eb, -, lb, hb⟩ := print_fits (down := down) hb hb' (z := r.den) (by rw [h2]; exact hq.2)
  have hb := hb (by omega)
  refine ⟨a ++ 47 :: b, by rw [printratio, ea, eb], fun rest hr => ?_⟩
  have e : r.den.natAbs = q.den := by rw [h2]; rfl
  rw [e] at hb
  obtain ⟨tok, v, e1, e2, e3⟩ := C80_read_partial base a b rest r.num q.den ha hb (by rw [h1]; exact hq.1) hq.2 q.pos (by omega) hr
  refine ⟨tok, e1, ?_⟩
  have : ((r.num : ℚ) / q.den) = q := by rw [h1]; exact Rat.num_div_den q
  rw [this] at e3
  rw [e2, rep_unique (w := .rat r) e3 ⟨h1, h2, h3⟩]

/-- -5/14 in base 16 is `-5/e` -/
example : Rep (.rat ⟨-5, 14⟩) ((-5 : Int) / (14 : Nat)) ∧ Fit ((-5 : Int) / (14 : Nat)) ∧
    printratio 16 true ⟨-5, 14⟩ = some [45, 53, 47, 101] ∧
    Rd.reader 16 [45, 53, 47, 101] = (.val (.ratio [45, 53, 47, 69]), []) ∧ readratioTok 16 [45, 53, 47, 69] = .ok (.rat ⟨-5, 14⟩) :=
  ⟨rep_ratio (-5) 14 (by decide) (by decide), fit_ratio (-5) 14 (by decide) (by decide) (by unfold Fits; omega) (by unfold Fits; omega),
    by decide, by decide, by decide⟩

/-- What is missing: `4/0` reads as a ratio with denominator zero, and numbers above 32 bits are cut: `1/4294967298` reads
as 1/2, `4294967297/3` as 1/3. -/
theorem C80_read_wrong : readratioTok 10 [52, 47, 48] = .ok (.rat ⟨1, 0⟩) ∧
    readratioTok 10 [49, 47, 52, 50, 57, 52, 57, 54, 55, 50, 57, 56] = .ok (.rat ⟨1, 2⟩) ∧
    readratioTok 10 [52, 50, 57, 52, 57, 54, 55, 50, 57, 55, 47, 51] = .ok (.rat ⟨1, 3⟩) := by
  refine ⟨?_, ?_, ?_⟩ <;> decide

end Eus.Rt
