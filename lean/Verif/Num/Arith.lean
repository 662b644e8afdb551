import Verif.Num.Compare
set_option linter.unusedSimpArgs false
namespace Eus.Num

theorem val_fix (w : Word) : (Num.fix w).val = w.toInt := rfl
theorem val_big (v : List Word) : (Num.big v).val = limbsVal v := rfl

theorem toInt_neg' (w : Word) (h : w.toInt ≠ -9223372036854775808) : (-w).toInt = -w.toInt := by
  have hl := w.isLt
  have := toNat_neg' w
  rw [toInt_cond (-w), this]
  rw [toInt_cond w] at *
  simp only [Nat.reducePow] at *
  split_ifs at * <;> omega

theorem toInt_sub' (x y : Word) : (x - y).toInt = x.toInt - y.toInt ∨
    (x - y).toInt = x.toInt - y.toInt - 18446744073709551616 ∨
    (x - y).toInt = x.toInt - y.toInt + 18446744073709551616 := by
  have := BitVec.toInt_sub (x := x) (y := y)
  have h1 := toInt_bd x
  have h2 := toInt_bd y
  have h3 := toInt_bd (x - y)
  rw [Int.bmod_def] at this
  simp only [Nat.reducePow] at this
  split_ifs at this <;> omega

theorem add_infix (x y : Word) (hx : InFix x.toInt) (hy : InFix y.toInt) :
    (x + y).toInt = x.toInt + y.toInt := by
  have h := toInt_add' x y
  have hb := toInt_bd (x + y)
  unfold InFix at *; omega

theorem sub_infix (x y : Word) (hx : InFix x.toInt) (hy : InFix y.toInt) :
    (x - y).toInt = x.toInt - y.toInt := by
  have h := toInt_sub' x y
  have hb := toInt_bd (x - y)
  unfold InFix at *; omega

/-! ### PLUS -/

theorem addSigned_spec (is : Word) (v : List Word) (hv : WFv v)
    (hm : is.toInt ≠ -9223372036854775808) :
    WFv (addSigned is v) ∧ limbsVal (addSigned is v) = limbsVal v + is.toInt := by
  unfold addSigned
  have hn := toInt_neg' is hm
  split_ifs with h
  · exact add_int_big_spec v hv is h
  · obtain ⟨a, b⟩ := sub_int_big_spec v hv (-is) (by omega)
    exact ⟨a, by rw [b, hn]; omega⟩

theorem norm_wf {v : List Word} (h : WFv v) : (normalize_bignum v).WF := (normalize_bignum_spec v h).1
theorem norm_val {v : List Word} (h : WFv v) : (normalize_bignum v).val = limbsVal v :=
  (normalize_bignum_spec v h).2.1

theorem infix_ne_min {w : Word} (h : InFix w.toInt) : w.toInt ≠ -9223372036854775808 := by
  unfold InFix at h; omega

theorem valSum_cons (a : Num) (l : List Num) : valSum (a :: l) = a.val + valSum l := by
  simp [valSum]

/-- one step of the bignum loop -/
def plusStep (b : List Word) : Num → Num
  | .fix j => normalize_bignum (if j.toInt > 0 then add_int_big j b
                else if j.toInt < 0 then sub_int_big (-j) b else b)
  | .big a => normalize_bignum (big_plus a b)

theorem plusBig_big (b : List Word) (a : Num) (rest : List Num) :
    plusBig (.big b) (a :: rest) = plusBig (plusStep b a) rest := by
  cases a with
  | fix j => simp only [plusBig, plusStep]; split_ifs <;> rfl
  | big a => rfl

theorem plusStep_spec (b : List Word) (a : Num) (hb : WFv b) (ha : a.WF) :
    (plusStep b a).WF ∧ (plusStep b a).val = limbsVal b + a.val := by
  cases a with
  | fix j =>
    have hj := toInt_neg' j (infix_ne_min ha)
    simp only [plusStep, val_fix, val_big]
    split_ifs with h1 h2
    · obtain ⟨p, q⟩ := add_int_big_spec b hb j (by omega)
      exact ⟨norm_wf p, by rw [norm_val p, q]⟩
    · obtain ⟨p, q⟩ := sub_int_big_spec b hb (-j) (by omega)
      exact ⟨norm_wf p, by rw [norm_val p, q]; omega⟩
    · exact ⟨norm_wf hb, by rw [norm_val hb]; omega⟩
  | big a =>
    obtain ⟨p, q⟩ := big_plus_spec a b ha hb
    exact ⟨norm_wf p, by simp only [plusStep, val_fix, val_big]; rw [norm_val p, q]; omega⟩

theorem plusBig_spec : ∀ (args : List Num) (b : Num), b.WF → (∀ a ∈ args, a.WF) →
    plusBig b args = .ub ∨ ∃ n, plusBig b args = .ok n ∧ n.WF ∧ n.val = b.val + valSum args
  | [], b, hb, _ => .inr ⟨b, rfl, hb, by simp [valSum]⟩
  | a :: rest, .big v, hb, ha => by
    rw [plusBig_big]
    obtain ⟨p, q⟩ := plusStep_spec v a hb (ha a (by simp))
    rcases plusBig_spec rest _ p (fun x hx => ha x (by simp [hx])) with h | ⟨n, h1, h2, h3⟩
    · exact .inl h
    · exact .inr ⟨n, h1, h2, by rw [h3, q, valSum_cons]; simp only [val_fix, val_big]; omega⟩
  | .big a :: rest, .fix w, hb, ha => .inl rfl
  | .fix j :: rest, .fix w, hb, ha => by
    simp only [plusBig]
    split_ifs with h1 h2
    · exact .inl rfl
    · exact .inl rfl
    · rcases plusBig_spec rest (.fix w) hb (fun x hx => ha x (by simp [hx])) with h | ⟨n, g1, g2, g3⟩
      · exact .inl h
      · refine .inr ⟨n, g1, g2, ?_⟩
        rw [g3, valSum_cons]; simp only [val_fix, val_big]; omega

theorem wf_big_of_not_infix (n : Num) (h : n.WF) (hf : ¬ InFix n.val) : ∃ v, n = .big v := by
  cases n with
  | fix w => exact absurd h hf
  | big v => exact ⟨v, rfl⟩

theorem plusBig_nonneg : ∀ (args : List Num) (v : List Word), WFv v → 2 ^ 61 ≤ limbsVal v →
    (∀ a ∈ args, a.WF ∧ 0 ≤ a.val) → plusBig (.big v) args ≠ .ub
  | [], v, _, _, _ => by simp [plusBig]
  | a :: rest, v, hv, hp, ha => by
    rw [plusBig_big]
    obtain ⟨p, q⟩ := plusStep_spec v a hv (ha a (by simp)).1
    have hav := (ha a (by simp)).2
    obtain ⟨u, hu⟩ := wf_big_of_not_infix _ p (by rw [q]; unfold InFix; omega)
    rw [hu] at p q ⊢
    exact plusBig_nonneg rest u p (by simp only [val_fix, val_big] at q; omega) (fun x hx => ha x (by simp [hx]))

theorem plusBig_nonpos : ∀ (args : List Num) (v : List Word), WFv v → limbsVal v < -2 ^ 61 →
    (∀ a ∈ args, a.WF ∧ a.val ≤ 0) → plusBig (.big v) args ≠ .ub
  | [], v, _, _, _ => by simp [plusBig]
  | a :: rest, v, hv, hp, ha => by
    rw [plusBig_big]
    obtain ⟨p, q⟩ := plusStep_spec v a hv (ha a (by simp)).1
    have hav := (ha a (by simp)).2
    obtain ⟨u, hu⟩ := wf_big_of_not_infix _ p (by rw [q]; unfold InFix; omega)
    rw [hu] at p q ⊢
    exact plusBig_nonpos rest u p (by simp only [val_fix, val_big] at q; omega) (fun x hx => ha x (by simp [hx]))

theorem ovf_add (x y : Word) (hx : InFix x.toInt) (hy : InFix y.toInt) :
    ovf (x + y) = true ↔ ¬ InFix (x.toInt + y.toInt) := by
  have h := add_infix x y hx hy
  rw [← h]
  apply ovf_iff
  rw [h]; unfold InFix at *; omega

theorem ovf_sub (x y : Word) (hx : InFix x.toInt) (hy : InFix y.toInt) :
    ovf (x - y) = true ↔ ¬ InFix (x.toInt - y.toInt) := by
  have h := sub_infix x y hx hy
  rw [← h]
  apply ovf_iff
  rw [h]; unfold InFix at *; omega

theorem addSigned_zero (w : Word) (hm : w.toInt ≠ -9223372036854775808) : addSigned w [0] = [w] := by
  have hn := toInt_neg' w hm
  have hb := toInt_bd w
  unfold addSigned
  split_ifs with h
  · have e : (0 : Word) + w = w := by simp
    simp only [add_int_big, e, toInt_zero]
    split_ifs <;> first | rfl | omega
  · simp only [sub_int_big, toInt_zero]
    have : (0 : Word) - -w = w := by simp
    rw [this]
    split_ifs <;> rfl

theorem plusFix_spec : ∀ (args : List Num) (is : Word), InFix is.toInt → (∀ a ∈ args, a.WF) →
    plusFix is args = .ub ∨ ∃ n, plusFix is args = .ok n ∧ n.WF ∧ n.val = is.toInt + valSum args
  | [], is, hb, _ => by
    refine .inr ⟨.fix is, ?_, hb, by simp [valSum, val_fix]⟩
    rw [plusFix, makeint_infix is hb]
  | .fix j :: rest, is, hb, ha => by
    have hj : InFix j.toInt := ha (.fix j) (by simp)
    have e := add_infix is j hb hj
    have ho := ovf_add is j hb hj
    have hr : ∀ a ∈ rest, a.WF := fun x hx => ha x (by simp [hx])
    simp only [plusFix]
    split_ifs with h
    · have hm : (is + j).toInt ≠ -9223372036854775808 := by
        rw [e]; unfold InFix at *; omega
      rw [addSigned_zero _ hm]
      rcases plusBig_spec rest (.big [is + j]) trivial hr with h | ⟨n, g1, g2, g3⟩
      · exact .inl h
      · refine .inr ⟨n, g1, g2, ?_⟩
        rw [g3, valSum_cons]; simp only [val_fix, val_big, limbsVal]; omega
    · have hf : InFix (is + j).toInt := by
        rw [e]; by_contra hh; exact h (ho.2 hh)
      rcases plusFix_spec rest (is + j) hf hr with h | ⟨n, g1, g2, g3⟩
      · exact .inl h
      · refine .inr ⟨n, g1, g2, ?_⟩
        rw [g3, valSum_cons, e]; simp only [val_fix, val_big]; omega
  | .big a :: rest, is, hb, ha => by
    have hw : WFv a := ha (.big a) (by simp)
    obtain ⟨p, q⟩ := addSigned_spec is a hw (infix_ne_min hb)
    simp only [plusFix]
    rcases plusBig_spec rest (.big (addSigned is a)) p (fun x hx => ha x (by simp [hx])) with h | ⟨n, g1, g2, g3⟩
    · exact .inl h
    · refine .inr ⟨n, g1, g2, ?_⟩
      rw [g3, valSum_cons]; simp only [val_fix, val_big] at *; rw [q]; omega

theorem plusFix_nonneg : ∀ (args : List Num) (is : Word), InFix is.toInt → 0 ≤ is.toInt →
    (∀ a ∈ args, a.Canonical ∧ 0 ≤ a.val) → plusFix is args ≠ .ub
  | [], is, _, _, _ => by simp [plusFix]
  | .fix j :: rest, is, hb, hp, ha => by
    have hj : InFix j.toInt := (ha (.fix j) (by simp)).1
    have hjp : 0 ≤ j.toInt := (ha (.fix j) (by simp)).2
    have e := add_infix is j hb hj
    have ho := ovf_add is j hb hj
    have hr : ∀ a ∈ rest, a.Canonical ∧ 0 ≤ a.val := fun x hx => ha x (by simp [hx])
    simp only [plusFix]
    split_ifs with h
    · have hm : (is + j).toInt ≠ -9223372036854775808 := by rw [e]; omega
      rw [addSigned_zero _ hm]
      refine plusBig_nonneg rest [is + j] trivial ?_ (fun x hx => ⟨?_, (hr x hx).2⟩)
      · have := ho.1 h
        simp only [limbsVal]; rw [e]; unfold InFix at *; omega
      · have := (hr x hx).1
        cases x with
        | fix => exact this
        | big => exact this.1
    · have hf : InFix (is + j).toInt := by
        rw [e]; by_contra hh; exact h (ho.2 hh)
      exact plusFix_nonneg rest (is + j) hf (by omega) hr
  | .big a :: rest, is, hb, hp, ha => by
    have hw := (ha (.big a) (by simp)).1
    have hv : 0 ≤ limbsVal a := (ha (.big a) (by simp)).2
    obtain ⟨p, q⟩ := addSigned_spec is a hw.1 (infix_ne_min hb)
    simp only [plusFix]
    refine plusBig_nonneg rest _ p ?_ (fun x hx => ⟨?_, (ha x (by simp [hx])).2⟩)
    · have := hw.2.1; unfold InFix at this; omega
    · have := (ha x (by simp [hx])).1
      cases x with
      | fix => exact this
      | big => exact this.1

theorem plusFix_nonpos : ∀ (args : List Num) (is : Word), InFix is.toInt → is.toInt ≤ 0 →
    (∀ a ∈ args, a.Canonical ∧ a.val ≤ 0) → plusFix is args ≠ .ub
  | [], is, _, _, _ => by simp [plusFix]
  | .fix j :: rest, is, hb, hp, ha => by
    have hj : InFix j.toInt := (ha (.fix j) (by simp)).1
    have hjp : j.toInt ≤ 0 := (ha (.fix j) (by simp)).2
    have e := add_infix is j hb hj
    have ho := ovf_add is j hb hj
    have hr : ∀ a ∈ rest, a.Canonical ∧ a.val ≤ 0 := fun x hx => ha x (by simp [hx])
    simp only [plusFix]
    split_ifs with h
    · have hm : (is + j).toInt ≠ -9223372036854775808 := by rw [e]; unfold InFix at *; omega
      rw [addSigned_zero _ hm]
      refine plusBig_nonpos rest [is + j] trivial ?_ (fun x hx => ⟨?_, (hr x hx).2⟩)
      · have := ho.1 h
        simp only [limbsVal]; rw [e]; unfold InFix at *; omega
      · have := (hr x hx).1
        cases x with
        | fix => exact this
        | big => exact this.1
    · have hf : InFix (is + j).toInt := by
        rw [e]; by_contra hh; exact h (ho.2 hh)
      exact plusFix_nonpos rest (is + j) hf (by omega) hr
  | .big a :: rest, is, hb, hp, ha => by
    have hw := (ha (.big a) (by simp)).1
    have hv : limbsVal a ≤ 0 := (ha (.big a) (by simp)).2
    obtain ⟨p, q⟩ := addSigned_spec is a hw.1 (infix_ne_min hb)
    simp only [plusFix]
    refine plusBig_nonpos rest _ p ?_ (fun x hx => ⟨?_, (ha x (by simp [hx])).2⟩)
    · have := hw.2.1; unfold InFix at this; omega
    · have := (ha x (by simp [hx])).1
      cases x with
      | fix => exact this
      | big => exact this.1

/-! ### canonical results: adding or subtracting a fixnum -/

theorem sub_len : ∀ (v : List Word), WFv v → ∀ c : Word, 0 ≤ c.toInt →
    (sub_int_big c v).length = v.length ∨
    ((sub_int_big c v).length = v.length + 1 ∧ limbsVal (sub_int_big c v) < -(2 ^ 63) ^ v.length) := by
  apply WFv.ind
  · intro t c hc
    have hs := (sub_int_big_spec [t] trivial c hc).2
    simp only [sub_int_big] at *
    split_ifs with h1 h6
    · right
      refine ⟨rfl, ?_⟩
      rw [if_pos h1, if_pos h6] at hs
      rw [hs]
      have h2 := toInt_sub' t c
      have h3 := toInt_bd t
      have h4 := toInt_bd c
      have h5 := toInt_bd (t - c)
      simp only [limbsVal, List.length_singleton, pow_one, Int.reducePow] at *
      omega
    all_goals left; rfl
  · intro l r hr hl hw ih c hc
    rw [sub_int_big_cons _ _ _ hr]
    split_ifs with h1
    · rcases ih 1 (by decide) with h | ⟨h2, h3⟩
      · left; rw [List.length_cons, h, List.length_cons]
      · right
        refine ⟨by rw [List.length_cons, h2, List.length_cons], ?_⟩
        have hne : sub_int_big 1 r ≠ [] := by
          intro e; rw [e] at h2; simp at h2
        rw [limbsVal_cons _ _ hne, List.length_cons, pwZ]
        have hm := mask_lt (l - c)
        generalize ((2 ^ 63) ^ r.length : Int) = P at *
        omega
    · left; simp

theorem add_len : ∀ (v : List Word), WFv v → ∀ c : Word, 0 ≤ c.toInt →
    (add_int_big c v).length = v.length ∨
    ((add_int_big c v).length = v.length + 1 ∧ 0 ≤ limbsVal (add_int_big c v)) := by
  apply WFv.ind
  · intro t c hc
    have hs := (add_int_big_spec [t] trivial c hc).2
    simp only [add_int_big] at *
    split_ifs with h1 h6
    · right
      refine ⟨rfl, ?_⟩
      rw [if_pos h1, if_pos h6] at hs
      rw [hs]
      have h2 := toInt_add' t c
      have h3 := toInt_bd t
      have h4 := toInt_bd c
      have h5 := toInt_bd (t + c)
      simp only [limbsVal] at *
      omega
    all_goals left; rfl
  · intro l r hr hl hw ih c hc
    rw [add_int_big_cons _ _ _ hr]
    split_ifs with h1
    · rcases ih 1 (by decide) with h | ⟨h2, h3⟩
      · left; rw [List.length_cons, h, List.length_cons]
      · right
        refine ⟨by rw [List.length_cons, h2, List.length_cons], ?_⟩
        have hne : add_int_big 1 r ≠ [] := by
          intro e; rw [e] at h2; simp at h2
        rw [limbsVal_cons _ _ hne]
        have hm := mask_lt (l + c)
        omega
    · left; simp

/-- changing a canonical value by at most `2^61` and normalizing gives a canonical value -/
theorem norm_near_canon (v w : List Word) (hv : (Num.big v).Canonical) (hw : WFv w)
    (hd : limbsVal v - 2 ^ 61 ≤ limbsVal w ∧ limbsVal w ≤ limbsVal v + 2 ^ 61)
    (hl : w.length = v.length ∨
      (w.length = v.length + 1 ∧ (0 ≤ limbsVal w ∨ limbsVal w < -(2 ^ 63) ^ v.length))) :
    (normalize_bignum w).Canonical := by
  apply (normalize_bignum_spec w hw).2.2
  intro hneg hlen
  rcases hl with hl | ⟨hl, h0 | h0⟩
  · rw [hl] at hlen ⊢
    have hc := hv.2.2 (by omega)
    obtain ⟨k, hk⟩ : ∃ k, v.length = k + 3 := ⟨v.length - 3, by omega⟩
    rw [hk] at hc ⊢
    have e1 : k + 3 - 1 = (k + 1) + 1 := by omega
    have e2 : k + 3 - 2 = k + 1 := by omega
    rw [e1] at hc
    rw [e2]
    rw [pwZ (k + 1)] at hc
    have hP : (9223372036854775808 : Int) ≤ (2 ^ 63) ^ (k + 1) := by
      rw [pwZ]
      have : (1 : Int) ≤ (2 ^ 63) ^ k := one_le_pow₀ (by norm_num)
      omega
    generalize ((2 ^ 63) ^ (k + 1) : Int) = P at *
    simp only [Int.reducePow] at *
    omega
  · omega
  · rw [hl]
    have hvl : 1 ≤ v.length := List.length_pos_iff.2 hv.1.ne_nil
    have h3 : ((2 ^ 63) ^ (v.length + 1 - 2) : Int) ≤ (2 ^ 63) ^ v.length := pow_mono_Z (by omega)
    omega

theorem sub_canon (c : Word) (v : List Word) (hv : (Num.big v).Canonical) (hc : 0 ≤ c.toInt)
    (hc2 : c.toInt ≤ 2 ^ 61) : (normalize_bignum (sub_int_big c v)).Canonical := by
  obtain ⟨p, q⟩ := sub_int_big_spec v hv.1 c hc
  refine norm_near_canon v _ hv p (by omega) ?_
  rcases sub_len v hv.1 c hc with h | ⟨h, h2⟩
  · exact .inl h
  · exact .inr ⟨h, .inr h2⟩

theorem add_canon (c : Word) (v : List Word) (hv : (Num.big v).Canonical) (hc : 0 ≤ c.toInt)
    (hc2 : c.toInt ≤ 2 ^ 61) : (normalize_bignum (add_int_big c v)).Canonical := by
  obtain ⟨p, q⟩ := add_int_big_spec v hv.1 c hc
  refine norm_near_canon v _ hv p (by omega) ?_
  rcases add_len v hv.1 c hc with h | ⟨h, h2⟩
  · exact .inl h
  · exact .inr ⟨h, .inl h2⟩

theorem norm_canon (v : List Word) (hv : (Num.big v).Canonical) :
    (normalize_bignum v).Canonical :=
  norm_near_canon v v hv hv.1 (by omega) (.inl rfl)

theorem single_canon (w : Word) (h : ¬ InFix w.toInt) : (Num.big [w]).Canonical :=
  ⟨trivial, h, fun hl => by simp at hl⟩

theorem plusStep_canon (b : List Word) (j : Word) (hb : (Num.big b).Canonical) (hj : InFix j.toInt) :
    (plusStep b (.fix j)).Canonical := by
  have hn := toInt_neg' j (infix_ne_min hj)
  simp only [plusStep]
  unfold InFix at hj
  split_ifs with h1 h2
  · exact add_canon j b hb (by omega) (by omega)
  · exact sub_canon (-j) b hb (by omega) (by omega)
  · exact norm_canon b hb

def isFix : Num → Prop
  | .fix _ => True
  | .big _ => False

theorem plusBig_canon : ∀ (args : List Num) (b n : Num), b.Canonical →
    (∀ a ∈ args, a.Canonical ∧ isFix a) → plusBig b args = .ok n → n.Canonical
  | [], b, n, hb, _, h => by
    simp only [plusBig, Res.ok.injEq] at h; rw [← h]; exact hb
  | .big a :: rest, b, n, hb, ha, h => (ha (.big a) (by simp)).2.elim
  | .fix j :: rest, .big v, n, hb, ha, h => by
    rw [plusBig_big] at h
    exact plusBig_canon rest _ n (plusStep_canon v j hb (ha (.fix j) (by simp)).1)
      (fun x hx => ha x (by simp [hx])) h
  | .fix j :: rest, .fix w, n, hb, ha, h => by
    simp only [plusBig] at h
    split_ifs at h with h1 h2
    exact plusBig_canon rest _ n hb (fun x hx => ha x (by simp [hx])) h

theorem plusFix_canon : ∀ (args : List Num) (is : Word) (n : Num), InFix is.toInt →
    (∀ a ∈ args, a.Canonical ∧ isFix a) → plusFix is args = .ok n → n.Canonical
  | [], is, n, hb, _, h => by
    simp only [plusFix, Res.ok.injEq] at h; rw [← h, makeint_infix is hb]; exact hb
  | .big a :: rest, b, n, hb, ha, h => (ha (.big a) (by simp)).2.elim
  | .fix j :: rest, is, n, hb, ha, h => by
    have hj : InFix j.toInt := (ha (.fix j) (by simp)).1
    have e := add_infix is j hb hj
    have ho := ovf_add is j hb hj
    have hr : ∀ a ∈ rest, a.Canonical ∧ isFix a := fun x hx => ha x (by simp [hx])
    simp only [plusFix] at h
    split_ifs at h with hh
    · have hm : (is + j).toInt ≠ -9223372036854775808 := by rw [e]; unfold InFix at *; omega
      rw [addSigned_zero _ hm] at h
      exact plusBig_canon rest _ n (single_canon _ (by rw [e]; exact ho.1 hh)) hr h
    · have hf : InFix (is + j).toInt := by
        rw [e]; by_contra h2; exact hh (ho.2 h2)
      exact plusFix_canon rest _ n hf hr h

/-! ### MINUS -/

def Acc.val : Acc → Int
  | .fixnum w => w.toInt
  | .bignum v => limbsVal v

def Acc.WF : Acc → Prop
  | .fixnum w => InFix w.toInt
  | .bignum v => WFv v

def toAcc : Num → Acc
  | .fix w => .fixnum w
  | .big v => .bignum v

theorem toAcc_val (n : Num) : (toAcc n).val = n.val := by cases n <;> rfl
theorem toAcc_wf (n : Num) (h : n.WF) : (toAcc n).WF := by cases n <;> exact h

/-- one step of `MINUS` -/
def minusStep : Acc → Num → Acc
  | .fixnum is, .fix j => if ovf (is - j) then .bignum [is - j] else .fixnum (is - j)
  | .fixnum is, .big a => toAcc (normalize_bignum
      (if is.toInt > 0 then add_int_big is (big_minus a)
        else if is.toInt < 0 then sub_int_big (-is) (big_minus a) else big_minus a))
  | .bignum b, .fix ia => toAcc (normalize_bignum
      (if ia.toInt > 0 then sub_int_big ia b else if ia.toInt < 0 then add_int_big (-ia) b else b))
  | .bignum b, .big a => toAcc (normalize_bignum (big_plus b (big_minus a)))

theorem minusLoop_cons (x : Acc) (a : Num) (rest : List Num) :
    minusLoop x (a :: rest) = minusLoop (minusStep x a) rest := by
  cases x with
  | fixnum is =>
    cases a with
    | fix j => simp only [minusLoop, minusStep]; split_ifs <;> rfl
    | big a =>
      simp only [minusLoop, minusStep]
      generalize normalize_bignum _ = m
      cases m <;> rfl
  | bignum b =>
    cases a with
    | fix j =>
      simp only [minusLoop, minusStep]
      generalize normalize_bignum _ = m
      cases m <;> rfl
    | big a =>
      simp only [minusLoop, minusStep]
      generalize normalize_bignum _ = m
      cases m <;> rfl

theorem minusStep_spec (x : Acc) (a : Num) (hx : x.WF) (ha : a.WF) :
    (minusStep x a).WF ∧ (minusStep x a).val = x.val - a.val := by
  cases x with
  | fixnum is =>
    cases a with
    | fix j =>
      have e := sub_infix is j hx ha
      have ho := ovf_sub is j hx ha
      simp only [minusStep]
      split_ifs with h
      · exact ⟨trivial, e⟩
      · refine ⟨?_, e⟩
        show InFix (is - j).toInt
        rw [e]; by_contra h2; exact h (ho.2 h2)
    | big a =>
      obtain ⟨p, q⟩ := complement_big_spec a ha
      have hj := toInt_neg' is (infix_ne_min hx)
      simp only [minusStep, toAcc_val, big_minus_eq]
      split_ifs with h1 h2
      · obtain ⟨p', q'⟩ := add_int_big_spec _ p is (by omega)
        refine ⟨toAcc_wf _ (norm_wf p'), ?_⟩
        rw [norm_val p', q', q]; simp only [val_fix, val_big, Acc.val]; omega
      · obtain ⟨p', q'⟩ := sub_int_big_spec _ p (-is) (by omega)
        refine ⟨toAcc_wf _ (norm_wf p'), ?_⟩
        rw [norm_val p', q', q, hj]; simp only [val_fix, val_big, Acc.val]; omega
      · refine ⟨toAcc_wf _ (norm_wf p), ?_⟩
        rw [norm_val p, q]; simp only [val_fix, val_big, Acc.val]; omega
  | bignum b =>
    cases a with
    | fix ia =>
      have hj := toInt_neg' ia (infix_ne_min ha)
      simp only [minusStep, toAcc_val]
      split_ifs with h1 h2
      · obtain ⟨p', q'⟩ := sub_int_big_spec b hx ia (by omega)
        refine ⟨toAcc_wf _ (norm_wf p'), ?_⟩
        rw [norm_val p', q']; simp only [val_fix, val_big, Acc.val]
      · obtain ⟨p', q'⟩ := add_int_big_spec b hx (-ia) (by omega)
        refine ⟨toAcc_wf _ (norm_wf p'), ?_⟩
        rw [norm_val p', q', hj]; simp only [val_fix, val_big, Acc.val]; omega
      · refine ⟨toAcc_wf _ (norm_wf hx), ?_⟩
        rw [norm_val hx]; simp only [val_fix, val_big, Acc.val]; omega
    | big a =>
      obtain ⟨p, q⟩ := complement_big_spec a ha
      obtain ⟨p', q'⟩ := big_plus_spec b _ hx p
      simp only [minusStep, toAcc_val, big_minus_eq]
      refine ⟨toAcc_wf _ (norm_wf p'), ?_⟩
      rw [norm_val p', q', q]; simp only [val_fix, val_big, Acc.val]; omega

theorem minusLoop_spec : ∀ (args : List Num) (x : Acc), x.WF → (∀ a ∈ args, a.WF) →
    (minusLoop x args).WF ∧ (minusLoop x args).val = x.val - valSum args
  | [], .fixnum w, hx, _ => by
    simp only [minusLoop, valSum, List.map_nil, List.sum_nil, sub_zero]
    rw [makeint_infix w hx]; exact ⟨hx, rfl⟩
  | [], .bignum v, hx, _ => by
    simp only [minusLoop, valSum, List.map_nil, List.sum_nil, sub_zero]
    exact ⟨hx, rfl⟩
  | a :: rest, x, hx, ha => by
    rw [minusLoop_cons, valSum_cons]
    obtain ⟨p, q⟩ := minusStep_spec x a hx (ha a (by simp))
    obtain ⟨r, s⟩ := minusLoop_spec rest _ p (fun y hy => ha y (by simp [hy]))
    exact ⟨r, by rw [s, q]; omega⟩

def Acc.Canonical : Acc → Prop
  | .fixnum w => InFix w.toInt
  | .bignum v => (Num.big v).Canonical

theorem minusLoop_canon : ∀ (args : List Num) (x : Acc), x.Canonical →
    (∀ a ∈ args, a.Canonical ∧ isFix a) → (minusLoop x args).Canonical
  | [], .fixnum w, hx, _ => by
    simp only [minusLoop]; rw [makeint_infix w hx]; exact hx
  | [], .bignum v, hx, _ => hx
  | .big a :: rest, x, hx, ha => (ha (.big a) (by simp)).2.elim
  | .fix j :: rest, x, hx, ha => by
    rw [minusLoop_cons]
    apply minusLoop_canon rest _ _ (fun y hy => ha y (by simp [hy]))
    have hj : InFix j.toInt := (ha (.fix j) (by simp)).1
    cases x with
    | fixnum is =>
      have e := sub_infix is j hx hj
      have ho := ovf_sub is j hx hj
      simp only [minusStep]
      split_ifs with h
      · exact single_canon _ (by rw [e]; exact ho.1 h)
      · show InFix (is - j).toInt
        rw [e]; by_contra h2; exact h (ho.2 h2)
    | bignum b =>
      have hn := toInt_neg' j (infix_ne_min hj)
      have key : ∀ n : Num, n.Canonical → (toAcc n).Canonical := fun n h => by cases n <;> exact h
      simp only [minusStep]
      apply key
      unfold InFix at hj
      split_ifs with h1 h2
      · exact sub_canon j b hx (by omega) (by omega)
      · exact add_canon (-j) b hx (by omega) (by omega)
      · exact norm_canon b hx

theorem MINUS1_spec (a : Num) (h : a.WF) : (MINUS1 a).WF ∧ (MINUS1 a).val = - a.val := by
  cases a with
  | fix w =>
    simp only [MINUS1]
    have hn := toInt_neg' w (infix_ne_min h)
    split_ifs with hh
    · subst hh; exact ⟨trivial, by decide⟩
    · have : w.toInt ≠ -2 ^ 61 := by
        intro e; apply hh; apply BitVec.eq_of_toInt_eq; rw [e]; decide
      have hf : InFix (-w).toInt := by
        rw [hn]; simp only [Num.WF] at h; unfold InFix at *; omega
      rw [makeint_infix _ hf]
      exact ⟨hf, hn⟩
  | big v =>
    obtain ⟨p, q⟩ := complement_big_spec v h
    simp only [MINUS1, big_minus_eq]
    exact ⟨norm_wf p, by rw [norm_val p, q]; rfl⟩

/-! ### QUOTIENT -/

theorem sdiv_toInt (x y : Word) (h : ¬ (x.toInt = -9223372036854775808 ∧ y.toInt = -1)) :
    (x.sdiv y).toInt = x.toInt.tdiv y.toInt := by
  rw [BitVec.toInt_sdiv]
  have hx := toInt_bd x
  have hy := toInt_bd y
  have hb : (x.toInt.tdiv y.toInt).natAbs ≤ x.toInt.natAbs := Int.natAbs_tdiv_le_natAbs _ _
  apply Int.bmod_eq_of_le_mul_two
  · simp only [Nat.reducePow]; push_cast; omega
  · by_cases hmin : x.toInt = -9223372036854775808
    · have hy1 : y.toInt ≠ -1 := fun e => h ⟨hmin, e⟩
      simp only [Nat.reducePow]; push_cast
      rcases le_or_gt 0 y.toInt with h0 | h0
      · have : x.toInt.tdiv y.toInt ≤ 0 := by
          rw [← neg_neg x.toInt, Int.neg_tdiv]
          have := Int.tdiv_nonneg (a := -x.toInt) (b := y.toInt) (by omega) h0
          omega
        omega
      · have h2 : y.toInt ≤ -2 := by omega
        have : x.toInt.tdiv y.toInt = (-x.toInt).tdiv (-y.toInt) := by
          rw [Int.neg_tdiv, Int.tdiv_neg, neg_neg]
        rw [this, Int.tdiv_eq_ediv_of_nonneg (by omega)]
        have h5 : -y.toInt * ((-x.toInt) / (-y.toInt)) ≤ -x.toInt := Int.mul_ediv_self_le (by omega)
        have h6 : 0 ≤ (-x.toInt) / (-y.toInt) := Int.ediv_nonneg (by omega) (by omega)
        have : 2 * ((-x.toInt) / (-y.toInt)) ≤ -y.toInt * ((-x.toInt) / (-y.toInt)) :=
          Int.mul_le_mul_of_nonneg_right (by omega) h6
        omega
    · simp only [Nat.reducePow]; push_cast; omega

end Eus.Num
