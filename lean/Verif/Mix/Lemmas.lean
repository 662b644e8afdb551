import Verif.Mix.Spec
import Mathlib.Tactic.Linarith
import Mathlib.Tactic.Ring
set_option autoImplicit false
namespace Eus.Mix
open Spec
variable {F : Type} (fl : Fl F)

theorem ckflt_simple {a : N F} (h : Simple a) : ckflt fl a = some (toF fl a) := by
  cases a <;> simp_all [Simple, ckflt, toF]

theorem floop_spec (op : F → F → F) (r : List (N F)) (h : ∀ a ∈ r, Simple a) (fs : F) :
    floop fl op fs r = .ok (.flt ((r.map (toF fl)).foldl op fs)) := by
  induction r generalizing fs with
  | nil => rfl
  | cons a r ih =>
    rw [floop, ckflt_simple fl (h a (by simp))]
    simp only [List.map_cons, List.foldl_cons]
    exact ih (fun b hb => h b (by simp [hb])) _

theorem exact_int (n : Int) : (exact (n : ℚ) : N F) = .fix n := by
  unfold exact; simp

theorem ofQ_exact (q : ℚ) : (ofQ q : N F) = exact q := rfl

theorem rplus_spec (r : List (N F)) (h : ∀ a ∈ r, Simple a) (rs : ℚ) :
    rplus fl rs r = .ok (result fl (· + ·) fl.add rs r) := by
  induction r generalizing rs with
  | nil => rfl
  | cons a r ih =>
    have hr : ∀ b ∈ r, Simple b := fun b hb => h b (by simp [hb])
    cases a with
    | fix n => exact ih hr _
    | rat q => exact ih hr _
    | flt x => exact floop_spec fl _ r hr _
    | big n => exact absurd (h (.big n) (by simp)) (by simp [Simple])
    | other => exact absurd (h .other (by simp)) (by simp [Simple])

theorem rtimes_spec (r : List (N F)) (h : ∀ a ∈ r, Simple a) (rs : ℚ) :
    rtimes fl rs r = .ok (result fl (· * ·) fl.mul rs r) := by
  induction r generalizing rs with
  | nil => rfl
  | cons a r ih =>
    have hr : ∀ b ∈ r, Simple b := fun b hb => h b (by simp [hb])
    cases a with
    | fix n => exact ih hr _
    | rat q => exact ih hr _
    | flt x => exact floop_spec fl _ r hr _
    | big n => exact absurd (h (.big n) (by simp)) (by simp [Simple])
    | other => exact absurd (h .other (by simp)) (by simp [Simple])

theorem rminus_spec (r : List (N F)) (h : ∀ a ∈ r, Simple a) (hf : ∀ a ∈ r, isFlt a = false) (rs : ℚ) :
    rminus fl rs r = .ok (result fl (· - ·) fl.sub rs r) := by
  induction r generalizing rs with
  | nil => rfl
  | cons a r ih =>
    have hr : ∀ b ∈ r, Simple b := fun b hb => h b (by simp [hb])
    have hf' : ∀ b ∈ r, isFlt b = false := fun b hb => hf b (by simp [hb])
    cases a with
    | fix n => exact ih hr hf' _
    | rat q => exact ih hr hf' _
    | flt x => exact absurd (hf (.flt x) (by simp)) (by simp [isFlt])
    | big n => exact absurd (h (.big n) (by simp)) (by simp [Simple])
    | other => exact absurd (h .other (by simp)) (by simp [Simple])

theorem inRange_cons {op : ℚ → ℚ → ℚ} {s : ℚ} {n : Int} {r : List (N F)} (h : InRange op s (.fix n :: r)) :
    InRange op (op s n) r := by
  intro k hk
  have := h (k + 1) (by
    intro a ha
    simp only [List.take_succ_cons, List.mem_cons] at ha
    rcases ha with rfl | ha
    · rfl
    · exact hk a ha)
  simpa [val] using this

theorem inRange_start {op : ℚ → ℚ → ℚ} {s : ℚ} {r : List (N F)} (h : InRange op s r) : |s| < 2 ^ 61 := by
  have := h 0 (by simp)
  simpa using this

theorem inFix_of {n : Int} (h : |(n : ℚ)| < 2 ^ 61) : InFix n ∧ |n| < 2 ^ 61 := by
  have h2 : |n| < 2 ^ 61 := by exact_mod_cast h
  rw [abs_lt] at h2
  exact ⟨⟨le_of_lt h2.1, h2.2⟩, abs_lt.mpr h2⟩

theorem iplus_spec (r : List (N F)) (h : ∀ a ∈ r, Simple a) (is : Int) (hr : InRange (· + ·) (is : ℚ) r) :
    iplus fl is r = .ok (result fl (· + ·) fl.add is r) := by
  induction r generalizing is with
  | nil => rw [iplus, result, exact_int]
  | cons a r ih =>
    have hs : ∀ b ∈ r, Simple b := fun b hb => h b (by simp [hb])
    cases a with
    | fix n =>
      have hc := inRange_cons hr
      have hcast : ((is : ℚ) + (n : ℚ)) = ((is + n : Int) : ℚ) := by push_cast; rfl
      rw [iplus, result]
      rw [hcast] at hc ⊢
      rw [if_pos (inFix_of (inRange_start hc)).1]
      exact ih hs _ hc
    | rat q => exact rplus_spec fl r hs _
    | flt x => exact floop_spec fl _ r hs _
    | big n => exact absurd (h (.big n) (by simp)) (by simp [Simple])
    | other => exact absurd (h .other (by simp)) (by simp [Simple])

theorem iminus_spec (r : List (N F)) (h : ∀ a ∈ r, Simple a) (is : Int) (hr : InRange (· - ·) (is : ℚ) r)
    (hn : NoRatFlt r) : iminus fl is r = .ok (result fl (· - ·) fl.sub is r) := by
  induction r generalizing is with
  | nil => rw [iminus, result, exact_int]
  | cons a r ih =>
    have hs : ∀ b ∈ r, Simple b := fun b hb => h b (by simp [hb])
    cases a with
    | fix n =>
      have hc := inRange_cons hr
      have hcast : ((is : ℚ) - (n : ℚ)) = ((is - n : Int) : ℚ) := by push_cast; rfl
      rw [iminus, result]
      rw [hcast] at hc ⊢
      rw [if_pos (inFix_of (inRange_start hc)).1]
      exact ih hs _ hc hn
    | rat q => rw [iminus, result]; exact rminus_spec fl r hs hn _
    | flt x => rw [iminus]; exact floop_spec fl _ r hs _
    | big n => exact absurd (h (.big n) (by simp)) (by simp [Simple])
    | other => exact absurd (h .other (by simp)) (by simp [Simple])

/-- A product with a zero in it. -/
theorem zero_result (r : List (N F)) (h : ∀ a ∈ r, Simple a) (hf : ∀ a ∈ r, isFlt a = false) :
    result fl (· * ·) fl.mul 0 r = .fix 0 := by
  induction r with
  | nil => simp [result, exact]
  | cons a r ih =>
    have hs : ∀ b ∈ r, Simple b := fun b hb => h b (by simp [hb])
    have hf' : ∀ b ∈ r, isFlt b = false := fun b hb => hf b (by simp [hb])
    cases a with
    | fix n => simp only [result, zero_mul]; exact ih hs hf'
    | rat q => simp only [result, zero_mul]; exact ih hs hf'
    | flt x => exact absurd (hf (.flt x) (by simp)) (by simp [isFlt])
    | big n => exact absurd (h (.big n) (by simp)) (by simp [Simple])
    | other => exact absurd (h .other (by simp)) (by simp [Simple])

theorem itimes_spec (r : List (N F)) (h : ∀ a ∈ r, Simple a) (is : Int) (hr : InRange (· * ·) (is : ℚ) r)
    (hz : (∃ a ∈ r, isFlt a = true) → is ≠ 0 ∧ ∀ n, N.fix n ∈ r → n ≠ 0) :
    itimes fl is r = .ok (result fl (· * ·) fl.mul is r) := by
  induction r generalizing is with
  | nil => rw [itimes, result, exact_int]
  | cons a r ih =>
    have hs : ∀ b ∈ r, Simple b := fun b hb => h b (by simp [hb])
    cases a with
    | fix n =>
      have hc := inRange_cons hr
      have hcast : ((is : ℚ) * (n : ℚ)) = ((is * n : Int) : ℚ) := by push_cast; rfl
      rw [itimes, result]
      rw [hcast] at hc ⊢
      by_cases hzero : n = 0 ∨ is = 0
      · rw [if_pos hzero]
        have hf : ∀ b ∈ r, isFlt b = false := by
          intro b hb
          by_contra hc2
          have hb2 : isFlt b = true := by simpa using hc2
          obtain ⟨h1, h2⟩ := hz ⟨b, by simp [hb], hb2⟩
          rcases hzero with h0 | h0
          · exact h2 n (by simp) h0
          · exact h1 h0
        have : is * n = 0 := by rcases hzero with h0 | h0 <;> simp [h0]
        rw [this]
        simp only [Int.cast_zero]
        rw [zero_result fl r hs hf]
      · rw [if_neg hzero, if_pos (inFix_of (inRange_start hc)).2]
        apply ih hs _ hc
        rintro ⟨b, hb, hb2⟩
        obtain ⟨h1, h2⟩ := hz ⟨b, by simp [hb], hb2⟩
        exact ⟨mul_ne_zero h1 (h2 n (by simp)), fun m hm => h2 m (by simp [hm])⟩
    | rat q => rw [itimes, result]; exact rtimes_spec fl r hs _
    | flt x => rw [itimes]; exact floop_spec fl _ r hs _
    | big n => exact absurd (h (.big n) (by simp)) (by simp [Simple])
    | other => exact absurd (h .other (by simp)) (by simp [Simple])

theorem rquo_spec (r : List (N F)) (h : ∀ a ∈ r, Simple a) (hz : N.fix 0 ∉ r) (rs : ℚ) :
    rquo fl rs r = .ok (result fl (· / ·) fl.div rs r) := by
  induction r generalizing rs with
  | nil => rfl
  | cons a r ih =>
    have hr : ∀ b ∈ r, Simple b := fun b hb => h b (by simp [hb])
    have hz' : N.fix 0 ∉ r := fun hb => hz (by simp [hb])
    cases a with
    | fix n =>
      have hn : n ≠ 0 := by rintro rfl; exact hz (by simp)
      rw [rquo, if_neg hn, result]; exact ih hr hz' _
    | rat q => exact ih hr hz' _
    | flt x => exact floop_spec fl _ r hr _
    | big n => exact absurd (h (.big n) (by simp)) (by simp [Simple])
    | other => exact absurd (h .other (by simp)) (by simp [Simple])

/-! ### Comparison -/

theorem flFail_iff [LinearOrder F] (ho : Ordered fl) (c : Cmp) (x y : F) :
    flFail fl c x y = false ↔ relF c x y := by
  cases c <;> simp [flFail, relF, ho.lt, ho.le]

theorem exFail_iff (c : Cmp) (a b : Int) : exFail c a b = false ↔ relQ c (a : ℚ) (b : ℚ) := by
  cases c <;> simp [exFail, relQ]

/-- The float loop, over faithful arguments. -/
theorem fltLoop_spec [LinearOrder F] (ho : Ordered fl) (c : Cmp) (p : N F) (r : List (N F))
    (hs : ∀ a ∈ p :: r, Simple a) (hfa : Faithful fl (p :: r)) :
    ∃ b, fltLoop fl c (toF fl p) r = .ok b ∧ (b = true ↔ (p :: r).IsChain (fun b a => rel fl c a b)) := by
  induction r generalizing p with
  | nil => exact ⟨true, rfl, by simp⟩
  | cons a r ih =>
    rw [fltLoop, ckflt_simple fl (hs a (by simp))]
    simp only
    have hrel : flFail fl c (toF fl a) (toF fl p) = false ↔ rel fl c a p := by
      rw [flFail_iff fl ho]
      unfold rel
      by_cases hf : isFlt a = true ∨ isFlt p = true
      · rw [if_pos hf]
      · rw [if_neg hf]
        push Not at hf
        have ha : isFlt a = false := by simpa using hf.1
        have hp : isFlt p = false := by simpa using hf.2
        have h1 := hfa a (by simp) p (by simp) ha hp
        have h2 := hfa p (by simp) a (by simp) hp ha
        cases c
        · exact h2.1
        · exact h1.1
        · simp only [relQ, relF, ← not_lt]; exact not_congr h1.1
        · simp only [relQ, relF, ← not_lt]; exact not_congr h2.1
    cases hfl : flFail fl c (toF fl a) (toF fl p) with
    | true =>
      refine ⟨false, by simp, ?_⟩
      simp only [Bool.false_eq_true, false_iff]
      intro hc
      rw [List.isChain_cons_cons] at hc
      rw [hrel.mpr hc.1] at hfl
      cases hfl
    | false =>
      obtain ⟨b, h1, h2⟩ := ih a (fun x hx => hs x (by simp only [List.mem_cons] at hx ⊢; tauto))
        (fun x hx y hy => hfa x (by simp only [List.mem_cons] at hx ⊢; tauto) y (by simp only [List.mem_cons] at hy ⊢; tauto))
      refine ⟨b, by simpa using h1, ?_⟩
      rw [h2, List.isChain_cons_cons]
      simp [hrel.mp hfl]

theorem intLoop_spec [LinearOrder F] (ho : Ordered fl) (c : Cmp) (n : Int) (r : List (N F))
    (hs : ∀ a ∈ N.fix n :: r, Simple a) (hq : ∀ a ∈ r, isRat a = false) (hfa : Faithful fl (.fix n :: r)) :
    ∃ b, intLoop fl c n r = .ok b ∧ (b = true ↔ (N.fix n :: r).IsChain (fun b a => rel fl c a b)) := by
  induction r generalizing n with
  | nil => exact ⟨true, by rw [intLoop], by simp⟩
  | cons a r ih =>
    have hs' : ∀ x ∈ a :: r, Simple x := fun x hx => hs x (by simp only [List.mem_cons] at hx ⊢; tauto)
    have hfa' : Faithful fl (a :: r) := fun x hx y hy =>
      hfa x (by simp only [List.mem_cons] at hx ⊢; tauto) y (by simp only [List.mem_cons] at hy ⊢; tauto)
    cases a with
    | fix l =>
      rw [intLoop]
      have hrel : exFail c l n = false ↔ rel fl c (.fix l) (.fix n) := by
        rw [exFail_iff]; unfold rel; simp [isFlt, val]
      cases hfl : exFail c l n with
      | true =>
        refine ⟨false, by simp, ?_⟩
        simp only [Bool.false_eq_true, false_iff]
        intro hc
        rw [List.isChain_cons_cons] at hc
        rw [hrel.mpr hc.1] at hfl
        cases hfl
      | false =>
        obtain ⟨b, h1, h2⟩ := ih l hs' (fun x hx => hq x (by simp [hx])) hfa'
        refine ⟨b, by simpa using h1, ?_⟩
        rw [h2, List.isChain_cons_cons]
        simp [hrel.mp hfl]
    | flt x =>
      rw [intLoop]
      have hrel : flFail fl c x (fl.conv n) = false ↔ rel fl c (.flt x) (.fix n) := by
        rw [flFail_iff fl ho]; unfold rel; rw [if_pos (by simp [isFlt])]; rfl
      cases hfl : flFail fl c x (fl.conv n) with
      | true =>
        refine ⟨false, by simp, ?_⟩
        simp only [Bool.false_eq_true, false_iff]
        intro hc
        rw [List.isChain_cons_cons] at hc
        rw [hrel.mpr hc.1] at hfl
        cases hfl
      | false =>
        obtain ⟨b, h1, h2⟩ := fltLoop_spec fl ho c (.flt x) r hs' hfa'
        refine ⟨b, h1, ?_⟩
        rw [h2, List.isChain_cons_cons]
        simp [hrel.mp hfl]
    | rat q => exact absurd (hq (.rat q) (by simp)) (by simp [isRat])
    | big n => exact absurd (hs (.big n) (by simp)) (by simp [Simple])
    | other => exact absurd (hs .other (by simp)) (by simp [Simple])

/-! ### Equality -/

theorem eqFlt_spec [LinearOrder F] (ho : Ordered fl) (x : F) (r : List (N F)) (hs : ∀ a ∈ r, Simple a) :
    ∃ b, eqFlt fl x r = .ok b ∧ (b = true ↔ ∀ a ∈ r, toF fl a = x) := by
  induction r with
  | nil => exact ⟨true, rfl, by simp⟩
  | cons a r ih =>
    obtain ⟨b, h1, h2⟩ := ih (fun y hy => hs y (by simp [hy]))
    rw [eqFlt, ckflt_simple fl (hs a (by simp))]
    simp only [ho.eq]
    by_cases h : x = toF fl a
    · refine ⟨b, by simp [h]; rw [← h]; exact h1, ?_⟩
      rw [h2]
      constructor
      · intro hh y hy
        rcases List.mem_cons.mp hy with rfl | hy
        · exact h.symm
        · exact hh y hy
      · intro hh y hy; exact hh y (by simp [hy])
    · refine ⟨false, by simp [h], ?_⟩
      simp only [Bool.false_eq_true, false_iff]
      intro hh
      exact h (hh a (by simp)).symm

theorem same_exact (p a : N F) (hp : isFlt p = false) (ha : isFlt a = false) : same fl a p ↔ val a = val p := by
  unfold same; simp [hp, ha]

theorem same_flt_exact [LinearOrder F] (p : N F) (r : List (N F)) (hp : isFlt p = false)
    (hfa : Faithful fl (p :: r)) : (∀ a ∈ r, toF fl a = toF fl p) ↔ ∀ a ∈ r, same fl a p := by
  constructor
  · intro h a ha
    unfold same
    by_cases hf : isFlt a = true ∨ isFlt p = true
    · rw [if_pos hf]; exact h a ha
    · rw [if_neg hf]
      push Not at hf
      exact (hfa a (by simp [ha]) p (by simp) (by simpa using hf.1) hp).2.mp (h a ha)
  · intro h a ha
    have := h a ha
    unfold same at this
    by_cases hf : isFlt a = true ∨ isFlt p = true
    · rwa [if_pos hf] at this
    · rw [if_neg hf] at this
      push Not at hf
      exact (hfa a (by simp [ha]) p (by simp) (by simpa using hf.1) hp).2.mpr this

theorem faithful_tail [LinearOrder F] {p a : N F} {r : List (N F)} (h : Faithful fl (p :: a :: r)) :
    Faithful fl (p :: r) := fun x hx y hy =>
  h x (by simp only [List.mem_cons] at hx ⊢; tauto) y (by simp only [List.mem_cons] at hy ⊢; tauto)

theorem all_cons {P : N F → Prop} {a : N F} {r : List (N F)} (h : P a) : (∀ x ∈ a :: r, P x) ↔ ∀ x ∈ r, P x := by
  constructor
  · intro hh x hx; exact hh x (by simp [hx])
  · intro hh x hx
    rcases List.mem_cons.mp hx with rfl | hx
    · exact h
    · exact hh x hx

theorem eqRat_spec [LinearOrder F] (ho : Ordered fl) (p : N F) (hp : isFlt p = false) (hc : toF fl p = fl.conv (val p))
    (r : List (N F)) (hs : ∀ a ∈ r, Simple a) (hfa : Faithful fl (p :: r)) :
    ∃ b, eqRat fl (val p) r = .ok b ∧ (b = true ↔ ∀ a ∈ r, same fl a p) := by
  induction r with
  | nil => exact ⟨true, rfl, by simp⟩
  | cons a r ih =>
    have hs' : ∀ y ∈ r, Simple y := fun y hy => hs y (by simp [hy])
    obtain ⟨b, h1, h2⟩ := ih hs' (faithful_tail fl hfa)
    cases a with
    | flt y =>
      rw [eqRat, ho.eq]
      have hse : same fl (.flt y) p ↔ y = fl.conv (val p) := by
        unfold same; rw [if_pos (by simp [isFlt]), hc]; rfl
      by_cases h : fl.conv (val p) = y
      · obtain ⟨b', h1', h2'⟩ := eqFlt_spec fl ho (toF fl p) r hs'
        rw [← hc]
        refine ⟨b', by simpa [hc, h] using (by rw [hc, h] at h1'; exact h1'), ?_⟩
        exact (h2'.trans (same_flt_exact fl p r hp (faithful_tail fl hfa))).trans
          (all_cons (P := fun x => same fl x p) (hse.mpr h.symm)).symm
      · refine ⟨false, by simp [h], ?_⟩
        simp only [Bool.false_eq_true, false_iff]
        intro hh
        exact h (hse.mp (hh _ (by simp))).symm
    | fix n =>
      rw [eqRat]
      have hse : same fl (.fix n) p ↔ (n : ℚ) = val p := same_exact fl p _ hp rfl
      by_cases h : (n : ℚ) = val p
      · exact ⟨b, by rw [if_pos h]; exact h1, h2.trans (all_cons (P := fun x => same fl x _) (hse.mpr h)).symm⟩
      · refine ⟨false, by rw [if_neg h], ?_⟩
        simp only [Bool.false_eq_true, false_iff]
        intro hh
        exact h (hse.mp (hh _ (by simp)))
    | rat q =>
      rw [eqRat]
      have hse : same fl (.rat q) p ↔ q = val p := same_exact fl p _ hp rfl
      by_cases h : q = val p
      · exact ⟨b, by rw [if_pos h]; exact h1, h2.trans (all_cons (P := fun x => same fl x _) (hse.mpr h)).symm⟩
      · refine ⟨false, by rw [if_neg h], ?_⟩
        simp only [Bool.false_eq_true, false_iff]
        intro hh
        exact h (hse.mp (hh _ (by simp)))
    | big n => exact absurd (hs (.big n) (by simp)) (by simp [Simple])
    | other => exact absurd (hs .other (by simp)) (by simp [Simple])

theorem eqInt_spec [LinearOrder F] (ho : Ordered fl) (m : Int) (r : List (N F)) (hs : ∀ a ∈ r, Simple a)
    (hfa : Faithful fl (.fix m :: r)) :
    ∃ b, eqInt fl m r = .ok b ∧ (b = true ↔ ∀ a ∈ r, same fl a (.fix m)) := by
  induction r with
  | nil => exact ⟨true, rfl, by simp⟩
  | cons a r ih =>
    have hs' : ∀ y ∈ r, Simple y := fun y hy => hs y (by simp [hy])
    obtain ⟨b, h1, h2⟩ := ih hs' (faithful_tail fl hfa)
    cases a with
    | flt y =>
      rw [eqInt, ho.eq]
      have hse : same fl (.flt y) (.fix m) ↔ y = fl.conv m := by
        unfold same; rw [if_pos (by simp [isFlt])]; rfl
      by_cases h : fl.conv (m : ℚ) = y
      · obtain ⟨b', h1', h2'⟩ := eqFlt_spec fl ho (fl.conv m) r hs'
        refine ⟨b', by simpa [h] using (by rw [h] at h1'; exact h1'), ?_⟩
        exact (h2'.trans (same_flt_exact fl (.fix m) r rfl (faithful_tail fl hfa))).trans
          (all_cons (P := fun x => same fl x (.fix m)) (hse.mpr h.symm)).symm
      · refine ⟨false, by simp [h], ?_⟩
        simp only [Bool.false_eq_true, false_iff]
        intro hh
        exact h (hse.mp (hh _ (by simp))).symm
    | fix n =>
      rw [eqInt]
      have hse : same fl (.fix n) (.fix m) ↔ m = n := by
        rw [same_exact fl _ _ rfl rfl]; simp only [val, Int.cast_inj]; exact eq_comm
      by_cases h : m = n
      · exact ⟨b, by rw [if_pos h]; exact h1, h2.trans (all_cons (P := fun x => same fl x _) (hse.mpr h)).symm⟩
      · refine ⟨false, by rw [if_neg h], ?_⟩
        simp only [Bool.false_eq_true, false_iff]
        intro hh
        exact h (hse.mp (hh _ (by simp)))
    | rat q =>
      rw [eqInt]
      have hq : q.den ≠ 1 := hs (.rat q) (by simp)
      have hne : q ≠ (m : ℚ) := by rintro rfl; simp at hq
      refine ⟨false, by rw [if_neg hne], ?_⟩
      simp only [Bool.false_eq_true, false_iff]
      intro hh
      exact hne ((same_exact fl (.fix m) (.rat q) rfl rfl).mp (hh _ (by simp)))
    | big n => exact absurd (hs (.big n) (by simp)) (by simp [Simple])
    | other => exact absurd (hs .other (by simp)) (by simp [Simple])

end Eus.Mix
