import Verif.Num.Chain
set_option autoImplicit false
set_option maxRecDepth 4000
/-
Properties C01–C09: integer representation, addition, subtraction, multiplication, division,
canonical form and comparison.  Statements use only `Verif/Num/Spec.lean` (what an integer object
denotes) and the modelled functions.
-/
namespace Eus.Num

/-! ## C01 boxing -/

/-- C01.  Every 64-bit integer can be turned into an object, whose value read back is that integer. -/
theorem C01_boxing_roundtrip (v : Word) : ∃ o, makeintObj v = some o ∧ intvalObj o = some v := by
  obtain ⟨o, h1, h2, _⟩ := boxing v
  exact ⟨o, h1, h2⟩

/-- C01.  The object is recognised as an integer: it is a bignum or passes `isint`. -/
theorem C01_boxed_is_integer (v : Word) (o : Obj) (h : makeintObj v = some o) :
    (∃ l, o = .big l) ∨ isintObj o = true := by
  obtain ⟨o', h1, _, h3⟩ := boxing v
  rw [h] at h1
  cases h1
  cases o with
  | imm i => exact .inr (h3 ⟨i, rfl⟩)
  | big l => exact .inl ⟨l, rfl⟩

/-- C01.  Different integers get different objects. -/
theorem C01_boxing_injective (v w : Word) (h : makeintObj v = makeintObj w) : v = w := by
  obtain ⟨o, h1, h2⟩ := C01_boxing_roundtrip v
  obtain ⟨o', h3, h4⟩ := C01_boxing_roundtrip w
  rw [h1, h3] at h
  cases h
  rw [h2] at h4
  exact Option.some.inj h4

/-- C01.  An integer in the fixnum range is an immediate (so equal ones are EQ). -/
theorem C01_fixnum_immediate (v : Word) (h : InFix v.toInt) : ∃ i, makeintObj v = some (.imm i) := by
  unfold makeintObj
  rw [if_neg (by rw [out_iff]; exact not_not.2 h)]
  exact ⟨_, rfl⟩

example : makeintObj 5#64 = some (.imm 22#64) ∧ intvalObj (.imm 22#64) = some 5#64 := by decide
example : makeintObj (2#64 ^ 61) = some (.imm (2#64 ^ 61 ||| 3#64)) := by decide
example : makeintObj (2#64 ^ 61 + 1#64) = some (.big [2#64 ^ 61 + 1#64]) := by decide
example : InFix (5#64 : Word).toInt := by unfold InFix; decide

/-- C08/C09, the code deviates: the integer `2^61` has two representations that `=` calls different
(the immediate made by `makeint` and the bignum made by arithmetic). -/
theorem C01_two_representations :
    makeintObj (2#64 ^ 61) = some (.imm (2#64 ^ 61 ||| 3#64)) ∧
    PLUS [.fix (2#64 ^ 60), .fix (2#64 ^ 60)] = .ok (.big [2#64 ^ 61]) ∧
    NUMEQUAL [.fix (2#64 ^ 61), .big [2#64 ^ 61]] = some false := by decide

/-! ## C02 fixnum addition and subtraction -/

theorem AllFix.wf {l : List Num} (h : AllFix l) : ∀ a ∈ l, a.WF := by
  intro a ha
  obtain ⟨w, rfl, hw⟩ := h a ha
  exact hw

theorem AllFix.canon {l : List Num} (h : AllFix l) : ∀ a ∈ l, a.Canonical ∧ isFix a := by
  intro a ha
  obtain ⟨w, rfl, hw⟩ := h a ha
  exact ⟨hw, trivial⟩

/-- C02.  `(- a b …)` on any number of fixnums is the exact difference, in canonical form (hence a
fixnum whenever it fits). -/
theorem C02_minus_fixnums (a : Num) (rest : List Num) (h : AllFix (a :: rest)) :
    ∃ n, MINUS (a :: rest) = .ok n ∧ n.Canonical ∧
      n.val = if rest = [] then -a.val else a.val - valSum rest := by
  obtain ⟨w, rfl, hw⟩ := h a (by simp)
  have hr : AllFix rest := fun x hx => h x (by simp [hx])
  cases rest with
  | nil =>
    obtain ⟨h1, h2⟩ := MINUS1_spec (.fix w) hw
    refine ⟨_, rfl, ?_, by rw [h2]; rfl⟩
    simp only [MINUS1] at h1 h2 ⊢
    split_ifs with hh
    · exact single_canon _ (by unfold InFix; decide)
    · rw [if_neg hh] at h1
      have : (makeint (-w)) = .fix (-w) ∨ (makeint (-w)) = .big [-w] := by
        unfold makeint; split_ifs <;> simp
      rcases this with e | e
      · rw [e] at h1 ⊢; exact h1
      · exfalso
        have hn := toInt_neg' w (infix_ne_min hw)
        have hne : w.toInt ≠ -2 ^ 61 := by
          intro e2; apply hh; apply BitVec.eq_of_toInt_eq; rw [e2]; decide
        rw [makeint_infix (-w) (by rw [hn]; unfold InFix at *; omega)] at e
        cases e
  | cons b r =>
    obtain ⟨_, h2⟩ := minusLoop_spec (b :: r) (.fixnum w) hw hr.wf
    exact ⟨_, rfl, minusLoop_canon (b :: r) (.fixnum w) hw hr.canon, by rw [h2]; rfl⟩

/-- C02, partial.  `(+ a b …)` on fixnums never returns a wrong number: its result is exact and
canonical, except that some argument lists (see `C02_plus_undefined`) have undefined behaviour.
Missing: definedness for every list; `C02_plus_two` and `C02_plus_same_sign_partial` give it for two
arguments and for arguments of one sign. -/
theorem C02_plus_fixnums_partial (args : List Num) (h : AllFix args) :
    PLUS args = .ub ∨ ∃ n, PLUS args = .ok n ∧ n.Canonical ∧ n.val = valSum args := by
  have h0 : InFix (0 : Word).toInt := by rw [toInt_zero]; unfold InFix; omega
  rcases plusFix_spec args 0 h0 h.wf with h1 | ⟨n, h1, h2, h3⟩
  · exact .inl h1
  · exact .inr ⟨n, h1, plusFix_canon args 0 n h0 h.canon h1, by rw [h3, toInt_zero]; omega⟩

/-- C02/C03/C04.  `(+ a b)` with two integers is always defined and exact. -/
theorem C02_plus_two (a b : Num) (ha : a.WF) (hb : b.WF) :
    ∃ n, PLUS [a, b] = .ok n ∧ n.WF ∧ n.val = a.val + b.val := by
  have h0 : InFix (0 : Word).toInt := by rw [toInt_zero]; unfold InFix; omega
  have hno : PLUS [a, b] ≠ .ub := by
    unfold PLUS
    cases a with
    | fix j =>
      have e : (0 : Word) + j = j := by simp
      have ho : ovf j = false := by
        rw [Bool.eq_false_iff, ne_eq, ovf_iff j (by have : InFix j.toInt := ha
                                                    unfold InFix at this; omega)]
        exact not_not.2 ha
      simp only [plusFix, e, ho, Bool.false_eq_true, if_false]
      cases b with
      | fix k => simp only [plusFix]; split_ifs <;> simp [plusBig]
      | big v => simp [plusFix, plusBig]
    | big v =>
      simp only [plusFix]
      rw [plusBig_big]
      simp [plusBig]
  rcases plusFix_spec [a, b] 0 h0 (by simp [ha, hb]) with h1 | ⟨n, h1, h2, h3⟩
  · exact absurd h1 hno
  · exact ⟨n, h1, h2, by rw [h3, toInt_zero]; simp [valSum]⟩

/-- C02, partial.  `(+ a b …)` with any number of canonical integers of one sign is defined and
exact. -/
theorem C02_plus_same_sign_partial (args : List Num) (hc : ∀ a ∈ args, a.Canonical)
    (hs : (∀ a ∈ args, 0 ≤ a.val) ∨ (∀ a ∈ args, a.val ≤ 0)) :
    ∃ n, PLUS args = .ok n ∧ n.WF ∧ n.val = valSum args := by
  have h0 : InFix (0 : Word).toInt := by rw [toInt_zero]; unfold InFix; omega
  have hwf : ∀ a ∈ args, a.WF := by
    intro a ha
    have := hc a ha
    cases a with
    | fix => exact this
    | big => exact this.1
  have hno : PLUS args ≠ .ub := by
    rcases hs with hs | hs
    · exact plusFix_nonneg args 0 h0 (by decide) (fun a ha => ⟨hc a ha, hs a ha⟩)
    · exact plusFix_nonpos args 0 h0 (by decide) (fun a ha => ⟨hc a ha, hs a ha⟩)
  rcases plusFix_spec args 0 h0 hwf with h1 | ⟨n, h1, h2, h3⟩
  · exact absurd h1 hno
  · exact ⟨n, h1, h2, by rw [h3, toInt_zero]; omega⟩

/-- C02 fails for `+`: `(+ 2^60 2^60 -2^60 1)`, four fixnums, treats an immediate integer as a
bignum. -/
theorem C02_plus_undefined :
    AllFix [.fix (2#64 ^ 60), .fix (2#64 ^ 60), .fix (-(2#64 ^ 60)), .fix 1#64] ∧
    PLUS [.fix (2#64 ^ 60), .fix (2#64 ^ 60), .fix (-(2#64 ^ 60)), .fix 1#64] = .ub := by
  refine ⟨?_, by decide⟩
  intro a ha
  simp only [List.mem_cons, List.not_mem_nil, or_false] at ha
  rcases ha with rfl | rfl | rfl | rfl <;> exact ⟨_, rfl, by unfold InFix; decide⟩

example : MINUS [.fix (2#64 ^ 60), .fix (-(2#64 ^ 60)), .fix 1#64] = .ok (.fix (2#64 ^ 61 - 1#64)) := by
  decide
example : PLUS [.fix (2#64 ^ 60), .fix (2#64 ^ 60), .fix 3#64] = .ok (.big [2#64 ^ 61 + 3#64]) := by
  decide

/-! ## C03, C04, C05 bignum addition, subtraction, negation -/

/-- C03.  A bignum of any length plus a fixnum, in either order, is the exact sum. -/
theorem C03_bignum_plus_fixnum (v : List Word) (w : Word) (hv : WFv v) (hw : InFix w.toInt) :
    (∃ n, PLUS [.big v, .fix w] = .ok n ∧ n.WF ∧ n.val = limbsVal v + w.toInt) ∧
    (∃ n, PLUS [.fix w, .big v] = .ok n ∧ n.WF ∧ n.val = w.toInt + limbsVal v) :=
  ⟨C02_plus_two (.big v) (.fix w) hv hw, C02_plus_two (.fix w) (.big v) hw hv⟩

/-- C04.  The sum of two bignums of any lengths and signs is exact. -/
theorem C04_bignum_plus_bignum (u v : List Word) (hu : WFv u) (hv : WFv v) :
    ∃ n, PLUS [.big u, .big v] = .ok n ∧ n.WF ∧ n.val = limbsVal u + limbsVal v :=
  C02_plus_two (.big u) (.big v) hu hv

/-- C03/C04.  `(- a b …)` with any mixture of fixnums and bignums is the exact difference. -/
theorem C04_minus_mixed (a : Num) (rest : List Num) (hne : rest ≠ []) (h : ∀ x ∈ a :: rest, x.WF) :
    ∃ n, MINUS (a :: rest) = .ok n ∧ n.WF ∧ n.val = a.val - valSum rest := by
  have hr : ∀ x ∈ rest, x.WF := fun x hx => h x (by simp [hx])
  have ha := h a (by simp)
  cases rest with
  | nil => exact absurd rfl hne
  | cons b r =>
    cases a with
    | fix w =>
      obtain ⟨h1, h2⟩ := minusLoop_spec (b :: r) (.fixnum w) ha hr
      exact ⟨_, rfl, h1, h2⟩
    | big v =>
      obtain ⟨h1, h2⟩ := minusLoop_spec (b :: r) (.bignum v) ha hr
      exact ⟨_, rfl, h1, h2⟩

/-- C05.  `(- x)` for a bignum is the opposite integer. -/
theorem C05_negate (v : List Word) (hv : WFv v) :
    ∃ n, MINUS [.big v] = .ok n ∧ n.WF ∧ n.val = -limbsVal v := by
  obtain ⟨h1, h2⟩ := MINUS1_spec (.big v) hv
  exact ⟨_, rfl, h1, h2⟩

/-- C05.  Negating a canonical bignum twice gives back the same object contents. -/
theorem C05_negate_twice (v : List Word) (hv : (Num.big v).Canonical) :
    ∃ n, MINUS [.big v] = .ok n ∧ n.Canonical ∧ MINUS [n] = .ok (.big v) := by
  obtain ⟨h1, h2⟩ := MINUS1_spec (.big v) hv.1
  have hc : (MINUS1 (.big v)).Canonical := by
    simp only [MINUS1, big_minus_eq]; exact neg_canon v hv
  refine ⟨_, rfl, hc, ?_⟩
  obtain ⟨h3, h4⟩ := MINUS1_spec _ h1
  have hc2 : (MINUS1 (MINUS1 (.big v))).Canonical := by
    generalize MINUS1 (.big v) = m at *
    cases m with
    | fix w =>
      simp only [MINUS1] at h3 h4 ⊢
      split_ifs with hh
      · exact single_canon _ (by unfold InFix; decide)
      · rw [if_neg hh] at h4
        rw [h2] at h4
        have : ¬ InFix (makeint (-w)).val := by rw [h4, neg_neg]; exact hv.2.1
        exfalso
        have hn := toInt_neg' w (infix_ne_min hc)
        have hne : w.toInt ≠ -2 ^ 61 := by
          intro e2; apply hh; apply BitVec.eq_of_toInt_eq; rw [e2]; decide
        apply this
        rw [makeint_val, hn]
        have : InFix w.toInt := hc
        unfold InFix at *; omega
    | big u => simp only [MINUS1, big_minus_eq]; exact neg_canon u hc
  have : MINUS1 (MINUS1 (.big v)) = .big v :=
    canon_unique_num _ _ hc2 hv (by rw [h4, h2, neg_neg])
  show Res.ok _ = _
  rw [this]

example : WFv [7#64, 2#64 ^ 63 - 1#64, 5#64] := by simp only [WFv]; decide
example : (Num.big [0#64, 1#64]).Canonical := ⟨by simp [WFv], by unfold InFix; decide, by decide⟩
example : PLUS [.big [2#64 ^ 63 - 1#64, 2#64 ^ 63 - 1#64], .fix 1#64] = .ok (.big [0#64, 0#64, 1#64]) := by
  decide
example : MINUS [.big [2#64 ^ 63]] = .ok (.big [0#64, 1#64]) := by decide
example : MINUS [.big [0#64, 1#64]] = .ok (.big [2#64 ^ 63]) := by decide

/-! ## C06 products -/

/-- C06.  `(* a b)` of two fixnums is exact. -/
theorem C06_fixnum_times_fixnum (a b : Word) (ha : InFix a.toInt) (hb : InFix b.toInt) :
    ∃ n, TIMES [.fix a, .fix b] = .ok n ∧ n.WF ∧ n.val = a.toInt * b.toInt := by
  obtain ⟨n, h1, h2, h3⟩ := timesLoopA_spec [.fix b] 1 (.fixnum a) ⟨ha, fun _ => rfl⟩
    (by simp [isFix, Num.WF, hb]) (by
      intro k hk
      have : k = 0 := by simpa using hk
      subst this
      simp only [List.take_zero, List.map_nil, List.prod_nil, mul_one, Acc.val]
      exact infix_off _ ha)
  refine ⟨n, h1, h2, by rw [h3]; simp [Acc.val, val_fix]⟩

/-- C06, partial.  The product of any number of fixnums is exact, provided no intermediate product
is a "word boundary" value (`OffBoundary`: in the lowest `1/2^63` of the range of some number of
words); see `C06_fixnum_product_wrong_sign`. -/
theorem C06_fixnum_product_partial (a : Num) (rest : List Num) (h : AllFix (a :: rest))
    (hoff : ∀ k < rest.length, OffBoundary (a.val * valProd (rest.take k))) :
    ∃ n, TIMES (a :: rest) = .ok n ∧ n.WF ∧ n.val = valProd (a :: rest) := by
  obtain ⟨w, rfl, hw⟩ := h a (by simp)
  obtain ⟨n, h1, h2, h3⟩ := timesLoopA_spec rest 1 (.fixnum w) ⟨hw, fun _ => rfl⟩
    (fun x hx => by
      obtain ⟨u, rfl, hu⟩ := h x (by simp [hx])
      exact ⟨hu, trivial⟩) hoff
  refine ⟨n, h1, h2, ?_⟩
  rw [h3]; simp [valProd, Acc.val, val_fix]

/-- C06, partial.  A canonical bignum times fixnums, with the same proviso. -/
theorem C06_bignum_product_partial (v : List Word) (rest : List Num) (hv : (Num.big v).Canonical)
    (h : AllFix rest) (hoff : ∀ k < rest.length, OffBoundary (limbsVal v * valProd (rest.take k))) :
    ∃ n, TIMES (.big v :: rest) = .ok n ∧ n.WF ∧ n.val = valProd (.big v :: rest) := by
  obtain ⟨n, h1, h2, h3⟩ := timesLoopA_spec rest 1 (.bignum v) (canon_TV v 1 hv)
    (fun x hx => by
      obtain ⟨u, rfl, hu⟩ := h x (by simp [hx])
      exact ⟨hu, trivial⟩) hoff
  refine ⟨n, h1, h2, ?_⟩
  rw [h3]; simp [valProd, Acc.val, val_big]

/-- C06, partial.  A fixnum times a canonical bignum whose value is not at a word boundary. -/
theorem C06_fixnum_times_bignum_partial (w : Word) (v : List Word) (hw : InFix w.toInt)
    (hv : (Num.big v).Canonical) (hoff : OffBoundary (limbsVal v)) :
    (∃ n, TIMES [.fix w, .big v] = .ok n ∧ n.WF ∧ n.val = w.toInt * limbsVal v) ∧
    (∃ n, TIMES [.big v, .fix w] = .ok n ∧ n.WF ∧ n.val = limbsVal v * w.toInt) := by
  have hT := canon_TV v 1 hv
  obtain ⟨p, q, _⟩ := bigTimesFix_spec v w hv.1 hT.2.1 hoff hw
  obtain ⟨t1, t2⟩ := tv_bigTimes (if w.toInt < 0 then -big_sign v else big_sign v) v w hT.1 hT.2.1 hoff hT.2.2 hw
  obtain ⟨n, h1, h2, h3⟩ := timesLoopA_spec [] _ _ t1 (by simp) (by simp)
  have hn : n.val = limbsVal v * w.toInt := by rw [h3, t2]; simp
  refine ⟨⟨n, ?_, h2, by rw [hn]; ring⟩, ⟨n, ?_, h2, hn⟩⟩
  · show timesLoopA 1 (.fixnum w) [.big v] = _
    rw [timesLoopA_fixbig]; exact h1
  · show timesLoopA 1 (.bignum v) [.fix w] = _
    rw [timesLoopA_big]; exact h1

/-- C06 fails: the opposite of the bignum `-2^63` computed by `(* -2^63 -1)` is `-2^63`. -/
theorem C06_fixnum_times_bignum_wrong_sign :
    (Num.big [2#64 ^ 63]).Canonical ∧ (Num.big [2#64 ^ 63]).val = -2 ^ 63 ∧
    TIMES [.big [2#64 ^ 63], .fix (-1#64)] = .ok (.big [2#64 ^ 63]) :=
  ⟨⟨trivial, by unfold InFix; decide, by decide⟩, by decide, by decide⟩

/-- C06 fails for fixnums: `(* -2^61 4 1 -1)` is `-2^63`. -/
theorem C06_fixnum_product_wrong_sign :
    TIMES [.fix (-(2#64 ^ 61)), .fix 4#64, .fix 1#64, .fix (-1#64)] = .ok (.big [2#64 ^ 63]) ∧
    valProd [.fix (-(2#64 ^ 61)), .fix 4#64, .fix 1#64, .fix (-1#64)] = 2 ^ 63 ∧
    (Num.big [2#64 ^ 63]).val = -2 ^ 63 := by decide

/-- C06 fails for two bignums: `2^62 * 2^62` comes out as 0 and `-2^62 * (2^61+1)` as
`2^62`: each word of the first operand is cut to 32 bits. -/
theorem C06_bignum_times_bignum_wrong :
    TIMES [.big [2#64 ^ 62], .big [2#64 ^ 62]] = .ok (.fix 0#64) ∧
    TIMES [.big [-(2#64 ^ 62)], .big [2#64 ^ 61 + 1#64]] = .ok (.big [2#64 ^ 62]) := by decide

example : TIMES [.fix (-(2#64 ^ 60)), .fix 3#64] = .ok (.big [-(3#64 * 2#64 ^ 60)]) := by decide
example : TIMES [.big [5#64, 2#64], .fix (-3#64)] = .ok (.big [2#64 ^ 63 - 15#64, -7#64]) := by decide
/-- the hypotheses of the list theorems hold for `(* -2^60 3 -7)` -/
example : OffBoundary ((Num.fix (-(2#64 ^ 60))).val * valProd ([.fix 3#64, .fix (-7#64)].take 1)) := by
  intro k hk
  have h1 : (1 : Int) ≤ (2 ^ 63) ^ k := one_le_pow₀ (by norm_num)
  have e : (Num.fix (-(2#64 ^ 60))).val * valProd ([.fix 3#64, .fix (-7#64)].take 1) = -3 * 2 ^ 60 := by
    decide
  rw [pwZ, e] at hk
  generalize ((2 ^ 63) ^ k : Int) = P at *
  omega

/-! ## C07 division -/

/-- C07.  The bignum division primitive: floor quotient and remainder in `[0, divisor)`. -/
theorem C07_div_int_big (c : Word) (v : List Word) (hc : 0 < c.toInt) (hv : WFv v) (hs : 0 ≤ limbsVal v) :
    ∃ q r, div_int_big c v = some (q, r) ∧ WFv q ∧
      limbsVal v = limbsVal q * c.toInt + r.toInt ∧ 0 ≤ r.toInt ∧ r.toInt < c.toInt := by
  obtain ⟨q, r, h1, h2, h3, h4, _, _⟩ := div_int_big_spec c v hc hv hs
  refine ⟨q, r, h1, h2, ?_, ?_, ?_⟩
  · rw [h3, h4, mul_comm]; exact (Int.mul_ediv_add_emod _ _).symm
  · rw [h4]; exact Int.emod_nonneg _ (by omega)
  · rw [h4]; exact Int.emod_lt_of_pos _ hc

/-- C07.  `(/ x d₁ d₂ …)` of a bignum of any length and sign by non-zero fixnums is the exact
truncated quotient. -/
theorem C07_bignum_quotient (v : List Word) (ds : List Num) (hne : ds ≠ []) (hv : WFv v)
    (hd : AllFix ds) (h0 : ∀ d ∈ ds, d.val ≠ 0) :
    ∃ n, QUOTIENT (.big v :: ds) = .ok n ∧ n.WF ∧ n.val = valQuot (.big v) ds := by
  cases ds with
  | nil => exact absurd rfl hne
  | cons a rest =>
    exact QUOTIENT_big_spec v a rest hv (fun x hx => ⟨hd.wf x hx, (hd.canon x hx).2, h0 x hx⟩)

/-- C07.  `(/ x d₁ d₂ …)` of fixnums, divisors non-zero, is the exact truncated quotient. -/
theorem C07_fixnum_quotient (w : Word) (ds : List Num) (hne : ds ≠ []) (hw : InFix w.toInt)
    (hd : AllFix ds) (h0 : ∀ d ∈ ds, d.val ≠ 0) :
    ∃ n, QUOTIENT (.fix w :: ds) = .ok n ∧ n.val = valQuot (.fix w) ds := by
  cases ds with
  | nil => exact absurd rfl hne
  | cons a rest =>
    exact quoFix_spec (a :: rest) w (by unfold InFix at hw; omega)
      (fun x hx => ⟨(hd.canon x hx).2, h0 x hx⟩)

/-- C07, partial.  A fixnum divided by a bignum is 0, as it should be, except for `-2^61 / 2^61`
(see `C07_fixnum_by_bignum_wrong`). -/
theorem C07_fixnum_by_bignum_partial (w : Word) (v : List Word) (hw : InFix w.toInt)
    (hv : (Num.big v).Canonical) (hx : ¬ (w.toInt = -2 ^ 61 ∧ limbsVal v = 2 ^ 61)) :
    ∃ n, QUOTIENT [.fix w, .big v] = .ok n ∧ n.val = w.toInt.tdiv (limbsVal v) := by
  refine ⟨makeint 0, rfl, ?_⟩
  rw [makeint_val, toInt_zero]
  have hf := hv.2.1
  unfold InFix at hf hw
  symm
  have hv0 : limbsVal v ≠ 0 := by omega
  have hlt : w.toInt.natAbs < (limbsVal v).natAbs := by omega
  apply Int.natAbs_eq_zero.1
  rw [Int.natAbs_tdiv]
  exact Nat.div_eq_of_lt hlt

theorem C07_fixnum_by_bignum_wrong :
    QUOTIENT [.fix (-(2#64 ^ 61)), .big [2#64 ^ 61]] = .ok (.fix 0#64) ∧
    (Num.fix (-(2#64 ^ 61))).val.tdiv (Num.big [2#64 ^ 61]).val = -1 := by decide

/-- A zero divisor of a fixnum is a C division by zero. -/
theorem C07_divide_by_zero : QUOTIENT [.fix 5#64, .fix 0#64] = .ub ∧
    QUOTIENT [.big [0#64, 1#64], .fix 0#64] = .err := by decide

example : WFv [1#64, 0#64, 1#64] ∧ AllFix [.fix (-10#64)] ∧ (∀ d ∈ [Num.fix (-10#64)], d.val ≠ 0) :=
  ⟨by simp only [WFv]; decide, by intro a ha; simp at ha; subst ha; exact ⟨_, rfl, by unfold InFix; decide⟩,
   by decide⟩
example : QUOTIENT [.fix (-7#64), .fix 2#64] = .ok (.fix (-3#64)) := by decide

/-! ## C08 canonical form -/

/-- C08.  A canonical object is determined by the integer it denotes. -/
theorem C08_canonical_unique (a b : Num) (ha : a.Canonical) (hb : b.Canonical) :
    a = b ↔ a.val = b.val :=
  ⟨fun h => by rw [h], canon_unique_num a b ha hb⟩

/-- C08, partial.  `normalize_bignum` keeps the value, and gives canonical form for every
non-negative vector and for negative ones with at most one redundant word. -/
theorem C08_normalize_partial (v : List Word) (h : WFv v) :
    (normalize_bignum v).val = limbsVal v ∧ (normalize_bignum v).WF ∧
    ((0 ≤ limbsVal v ∨ v.length ≤ 2 ∨ limbsVal v < -(2 ^ 63) ^ (v.length - 2)) →
      (normalize_bignum v).Canonical) := by
  obtain ⟨h1, h2, h3⟩ := normalize_bignum_spec v h
  refine ⟨h2, h1, fun hc => h3 (fun hn hl => ?_)⟩
  rcases hc with hc | hc | hc <;> omega

/-- C08, partial.  Subtracting fixnums from a canonical bignum, and negating one, stays canonical
(sums and differences of fixnums: `C02_minus_fixnums`, `C02_plus_fixnums_partial`). -/
theorem C08_minus_canonical_partial (v : List Word) (rest : List Num) (hv : (Num.big v).Canonical)
    (hr : AllFix rest) : ∃ n, MINUS (.big v :: rest) = .ok n ∧ n.Canonical := by
  cases rest with
  | nil => exact ⟨_, rfl, by simp only [MINUS1, big_minus_eq]; exact neg_canon v hv⟩
  | cons b r => exact ⟨_, rfl, minusLoop_canon (b :: r) (.bignum v) hv hr.canon⟩

/-- C08 fails: results of `+`, `1+`, `*`, `abs`, `-` and `/` on canonical integers that are bignums
although the value is a fixnum, or that have redundant words. -/
theorem C08_not_canonical :
    -- (+ -1 2^61) and (1+ -(2^61+1))
    PLUS [.fix (-1#64), .big [2#64 ^ 61]] = .ok (.big [2#64 ^ 61 - 1#64]) ∧
    InFix (Num.big [2#64 ^ 61 - 1#64]).val ∧
    ADD1 (.big [-(2#64 ^ 61) - 1#64]) = .big [-(2#64 ^ 61)] ∧
    InFix (Num.big [-(2#64 ^ 61)]).val ∧
    -- (* -2^60 2)
    TIMES [.fix (-(2#64 ^ 60)), .fix 2#64] = .ok (.big [-(2#64 ^ 61)]) ∧
    -- (- (2^126 - 2^126) 1) style cancellation: 2^126 - (2^126 + 1) = -1 as a two-word bignum
    MINUS [.big [0#64, 0#64, 1#64], .big [1#64, 0#64, 1#64]] = .ok (.big [2#64 ^ 63 - 1#64, -1#64]) ∧
    (Num.big [2#64 ^ 63 - 1#64, -1#64]).val = -1 := by
  refine ⟨by decide, ?_, by decide, ?_, by decide, by decide, by decide⟩ <;> unfold InFix <;> decide

/-! ## C09 comparison -/

/-- C09.  `(= a b …)` on canonical integers holds exactly when all values are equal. -/
theorem C09_equal (args : List Num) (hlen : 2 ≤ args.length) (hc : ∀ a ∈ args, a.Canonical) :
    ∃ b, NUMEQUAL args = some b ∧ (b = true ↔ ∀ x ∈ args, ∀ y ∈ args, x.val = y.val) := by
  unfold NUMEQUAL
  have hlr : args.reverse.length = args.length := by simp
  have hcr : ∀ a ∈ args.reverse, a.Canonical := fun a ha => hc a (by simpa using ha)
  have e : (∀ x ∈ args, ∀ y ∈ args, x.val = y.val) ↔
      (∀ x ∈ args.reverse, ∀ y ∈ args.reverse, x.val = y.val) := by simp
  rw [e]
  generalize args.reverse = l at *
  match l with
  | [] => simp at hlr; omega
  | [_] => simp at hlr; omega
  | x :: a :: rest =>
    refine ⟨_, rfl, ?_⟩
    rw [numeqLoop_spec x (hcr x (by simp)) (a :: rest) (fun y hy => hcr y (by simp [hy]))]
    constructor
    · intro h p hp q hq
      have hp' : p.val = x.val := by
        rcases List.mem_cons.1 hp with rfl | hp
        · rfl
        · exact h p hp
      have hq' : q.val = x.val := by
        rcases List.mem_cons.1 hq with rfl | hq
        · rfl
        · exact h q hq
      rw [hp', hq']
    · intro h y hy
      exact h y (by simp [hy]) x (by simp)

/-- C09, partial.  `>`, `<`, `>=`, `<=` on two or more canonical integers hold exactly when every
adjacent pair is so related, provided no two neighbours are a `BadPair`.  Missing: those pairs, on
which the code answers wrongly (`C09_bad_pairs`). -/
theorem C09_order_partial (args : List Num) (hlen : 2 ≤ args.length) (hc : ∀ a ∈ args, a.Canonical)
    (hb : args.IsChain (fun a b => ¬ BadPair a b)) :
    (∃ b, GREATERP args = some b ∧ (b = true ↔ args.IsChain (fun a b => a.val > b.val))) ∧
    (∃ b, LESSP args = some b ∧ (b = true ↔ args.IsChain (fun a b => a.val < b.val))) ∧
    (∃ b, GREQP args = some b ∧ (b = true ↔ args.IsChain (fun a b => a.val ≥ b.val))) ∧
    (∃ b, LSEQP args = some b ∧ (b = true ↔ args.IsChain (fun a b => a.val ≤ b.val))) := by
  refine ⟨?_, ?_, ?_, ?_⟩
  · exact cmp_spec gtLoop gtFail (fun x y => x > y) (fun _ => rfl) gtLoop_cons
      (fun r l hr hl h => (fails r l hr hl h).1) args hlen hc hb
  · exact cmp_spec ltLoop ltFail (fun x y => x < y) (fun _ => rfl) ltLoop_cons
      (fun r l hr hl h => (fails r l hr hl h).2.1) args hlen hc hb
  · exact cmp_spec geLoop geFail (fun x y => x ≥ y) (fun _ => rfl) geLoop_cons
      (fun r l hr hl h => (fails r l hr hl h).2.2.1) args hlen hc hb
  · exact cmp_spec leLoop leFail (fun x y => x ≤ y) (fun _ => rfl) leLoop_cons
      (fun r l hr hl h => (fails r l hr hl h).2.2.2) args hlen hc hb

/-- C09 fails on every `BadPair`: the answer of `>` and of `<` is reversed. -/
theorem C09_bad_pairs (a b : Num) (ha : a.Canonical) (hb : b.Canonical) (h : BadPair a b) :
    (GREATERP [a, b] = some true ↔ a.val < b.val) ∧ (LESSP [a, b] = some true ↔ b.val < a.val) := by
  obtain ⟨u, v, rfl, rfl, h'⟩ := h
  have hcmp := cmp_bad u v ha hb ⟨u, v, rfl, rfl, h'⟩
  have e1 : GREATERP [.big u, .big v] = some (gtLoop (.big v) [.big u]) := rfl
  have e2 : LESSP [.big u, .big v] = some (ltLoop (.big v) [.big u]) := rfl
  rw [e1, e2, Option.some_inj, Option.some_inj, gtLoop_cons, ltLoop_cons]
  simp only [gtFail, ltFail, hcmp, val_big, gtLoop, ltLoop, and_true, ge_iff_le, signum3_le,
    signum3_ge, not_le]

/-- such pairs exist: `2 - 2^64` and `1 - 2^64` -/
theorem C09_bad_pair_exists :
    BadPair (.big [2#64, -2#64]) (.big [1#64, -2#64]) ∧
    GREATERP [.big [2#64, -2#64], .big [1#64, -2#64]] = some false ∧
    (Num.big [2#64, -2#64]).val > (Num.big [1#64, -2#64]).val :=
  ⟨⟨_, _, rfl, rfl, by decide, by decide, rfl, rfl, by decide⟩, by decide, by decide⟩

example : ([.big [0#64, 1#64], .fix 3#64, .big [-(2#64 ^ 62)]] : List Num).IsChain (fun a b => ¬ BadPair a b) := by
  simp [List.isChain_cons_cons, BadPair]
example : GREATERP [.big [0#64, 1#64], .fix 3#64, .big [-(2#64 ^ 62)]] = some true := by decide

/-! ## 1+ and 1- -/

/-- `(1+ x)` and `(1- x)` are exact on every integer object in the fixnum range or bignum. -/
theorem C02_add1_sub1 (a : Num) (h : a.WF) :
    (ADD1 a).WF ∧ (ADD1 a).val = a.val + 1 ∧ (SUB1 a).WF ∧ (SUB1 a).val = a.val - 1 := by
  cases a with
  | fix w =>
    have hw : InFix w.toInt := h
    have hout : ¬ (w.toInt > MAXPOSFIXNUM.toInt ∨ w.toInt < MINNEGFIXNUM.toInt) := by
      rw [out_iff]; exact not_not.2 hw
    have ea := toInt_add' w 1
    have es := toInt_sub' w 1
    have ba := toInt_bd (w + 1)
    have bs := toInt_bd (w - 1)
    rw [toInt_one] at ea es
    have hx1 : w ≠ MAXPOSFIXNUM → w.toInt ≠ 2 ^ 61 - 1 := by
      intro hne e; apply hne; apply BitVec.eq_of_toInt_eq; rw [e]; decide
    have hx2 : w ≠ MINNEGFIXNUM → w.toInt ≠ -2 ^ 61 := by
      intro hne e; apply hne; apply BitVec.eq_of_toInt_eq; rw [e]; decide
    have A : (ADD1 (.fix w)).WF ∧ (ADD1 (.fix w)).val = w.toInt + 1 := by
      simp only [ADD1, if_neg hout]
      split_ifs with h1
      · subst h1; exact ⟨trivial, by decide⟩
      · have := hx1 h1
        have e : (w + 1).toInt = w.toInt + 1 := by unfold InFix at hw; omega
        refine ⟨?_, e⟩
        show InFix (w + 1).toInt
        rw [e]; unfold InFix at *; omega
    have S : (SUB1 (.fix w)).WF ∧ (SUB1 (.fix w)).val = w.toInt - 1 := by
      simp only [SUB1, if_neg hout]
      split_ifs with h1
      · subst h1; exact ⟨trivial, by decide⟩
      · have := hx2 h1
        have e : (w - 1).toInt = w.toInt - 1 := by unfold InFix at hw; omega
        refine ⟨?_, e⟩
        show InFix (w - 1).toInt
        rw [e]; unfold InFix at *; omega
    exact ⟨A.1, A.2, S.1, S.2⟩
  | big v =>
    obtain ⟨p, q⟩ := add_int_big_spec v h 1 (by decide)
    obtain ⟨p', q'⟩ := sub_int_big_spec v h 1 (by decide)
    rw [toInt_one] at q q'
    exact ⟨p, q, norm_wf p', by show (normalize_bignum _).val = _; rw [norm_val p', q']; rfl⟩

/-- `(abs x)` is exact on every well-formed integer object. -/
theorem C05_abs (a : Num) (h : a.WF) : (ABS a).WF ∧ (ABS a).val = |a.val| := by
  cases a with
  | fix w =>
    have hw : InFix w.toInt := h
    have hn := toInt_neg' w (infix_ne_min hw)
    simp only [ABS, val_fix]
    split_ifs with h1 h2
    · subst h1; exact ⟨trivial, by decide⟩
    · have hx2 : w.toInt ≠ -2 ^ 61 := by
        intro e; apply h1; apply BitVec.eq_of_toInt_eq; rw [e]; decide
      have hf : InFix (-w).toInt := by rw [hn]; unfold InFix at *; omega
      rw [makeint_infix _ hf]
      exact ⟨hf, by rw [val_fix, hn, abs_of_neg h2]⟩
    · rw [makeint_infix _ hw]
      exact ⟨hw, by rw [val_fix, abs_of_nonneg (by omega)]⟩
  | big v =>
    have hs := sign_iff v h
    simp only [ABS, val_big]
    split_ifs with h1
    · obtain ⟨p, q⟩ := complement_big_spec v h
      exact ⟨p, by rw [val_big, q, abs_of_neg (hs.1 h1)]⟩
    · refine ⟨h, ?_⟩
      rw [val_big, abs_of_nonneg]
      by_contra hh; exact h1 (hs.2 (by omega))

example : ADD1 (.fix (2#64 ^ 61 - 1#64)) = .big [2#64 ^ 61] ∧ SUB1 (.big [2#64 ^ 61]) = .fix (2#64 ^ 61 - 1#64) ∧
    ABS (.fix (-(2#64 ^ 61))) = .big [2#64 ^ 61] := by decide

end Eus.Num
