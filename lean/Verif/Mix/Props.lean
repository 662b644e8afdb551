import Verif.Mix.Lemmas
import Verif.Flt.Box
set_option autoImplicit false
namespace Eus.Mix
open Spec
variable {F : Type} (fl : Fl F)

/-- Exact doubles, to show that the hypotheses can be met. -/
def exactFl : Fl ℚ where
  add := (· + ·)
  sub := (· - ·)
  mul := (· * ·)
  div := (· / ·)
  neg := fun x => -x
  one := 1
  conv := fun q => q
  ofBig := fun n => n
  raw := fun n => n
  lt := fun a b => decide (a < b)
  le := fun a b => decide (a ≤ b)
  eq := fun a b => decide (a = b)

/-! ## C167: arithmetic on mixtures of numbers -/

/-- `+` -/
theorem C167_plus_partial (args : List (N F)) (h : ∀ a ∈ args, Simple a) (hr : InRange (· + ·) 0 args) :
    PLUS fl args = .ok (result fl (· + ·) fl.add 0 args) := by
  have := iplus_spec fl args h 0 (by simpa using hr)
  simpa [PLUS] using this

/-- `-` of two numbers and more -/
theorem C167_minus_partial (a b : N F) (rest : List (N F)) (h : ∀ x ∈ a :: b :: rest, Simple x)
    (hr : InRange (· - ·) (val a) (b :: rest)) (hn : NoRatFlt (a :: b :: rest)) :
    MINUS fl (a :: b :: rest) = .ok (resultFrom fl (· - ·) fl.sub a (b :: rest)) := by
  have hs : ∀ x ∈ b :: rest, Simple x := fun x hx => h x (List.mem_cons_of_mem _ hx)
  cases a with
  | fix n => rw [MINUS]; exact iminus_spec fl _ hs n hr hn; simp
  | flt x => rw [MINUS]; exact floop_spec fl _ _ hs x; simp
  | rat q => rw [MINUS]; exact rminus_spec fl _ hs hn q; simp
  | big n => exact absurd (h (.big n) (by simp)) (by simp [Simple])
  | other => exact absurd (h .other (by simp)) (by simp [Simple])

/-- `*` -/
theorem C167_times_partial (a : N F) (rest : List (N F)) (h : ∀ x ∈ a :: rest, Simple x)
    (hr : InRange (· * ·) (val a) rest)
    (hz : (∃ x ∈ rest, isFlt x = true) → ∀ n, N.fix n ∈ a :: rest → n ≠ 0) :
    TIMES fl (a :: rest) = .ok (resultFrom fl (· * ·) fl.mul a rest) := by
  have hs : ∀ x ∈ rest, Simple x := fun x hx => h x (List.mem_cons_of_mem _ hx)
  cases a with
  | fix n =>
    rw [TIMES]
    exact itimes_spec fl _ hs n hr (fun hx => ⟨hz hx n (by simp), fun m hm => hz hx m (by simp [hm])⟩)
  | flt x => rw [TIMES]; exact floop_spec fl _ _ hs x
  | rat q => rw [TIMES]; exact rtimes_spec fl _ hs q
  | big n => exact absurd (h (.big n) (by simp)) (by simp [Simple])
  | other => exact absurd (h .other (by simp)) (by simp [Simple])

/-- `/` of two numbers and more, when the division is not one of integers: the first or the second is a ratio or a
float. -/
theorem C167_quotient_partial (a b : N F) (rest : List (N F)) (h : ∀ x ∈ a :: b :: rest, Simple x)
    (hab : isFix a = false ∨ isFix b = false) (hz : N.fix 0 ∉ b :: rest) :
    QUOTIENT fl (a :: b :: rest) = .ok (resultFrom fl (· / ·) fl.div a (b :: rest)) := by
  have hs : ∀ x ∈ b :: rest, Simple x := fun x hx => h x (List.mem_cons_of_mem _ hx)
  have hs' : ∀ x ∈ rest, Simple x := fun x hx => hs x (List.mem_cons_of_mem _ hx)
  have hz' : N.fix 0 ∉ rest := fun hx => hz (List.mem_cons_of_mem _ hx)
  cases a with
  | fix n =>
    rw [QUOTIENT]
    · cases b with
      | fix m => simp [isFix] at hab
      | rat q => exact rquo_spec fl rest hs' hz' _
      | flt x => exact floop_spec fl _ rest hs' _
      | big n => exact absurd (h (.big n) (by simp)) (by simp [Simple])
      | other => exact absurd (h .other (by simp)) (by simp [Simple])
    · simp
  | flt x => rw [QUOTIENT]; exact floop_spec fl _ _ hs x; simp
  | rat q => rw [QUOTIENT]; exact rquo_spec fl _ hs hz q
  | big n => exact absurd (h (.big n) (by simp)) (by simp [Simple])
  | other => exact absurd (h .other (by simp)) (by simp [Simple])

/-- A non-number is an error while the arguments are fixnums, ratios and floats, whatever comes after. -/
theorem C167_errors (pre post : List (N F)) (h : ∀ a ∈ pre, Simple a) (hr : InRange (· + ·) 0 pre) :
    PLUS fl (pre ++ .other :: post) = .err := by
  have hfl : ∀ (pre : List (N F)), (∀ a ∈ pre, Simple a) → ∀ fs, floop fl fl.add fs (pre ++ .other :: post) = .err := by
    intro pre
    induction pre with
    | nil => intro _ fs; simp [floop, ckflt]
    | cons a r ih =>
      intro h fs
      rw [List.cons_append, floop, ckflt_simple fl (h a (by simp))]
      exact ih (fun b hb => h b (by simp [hb])) _
  have hra : ∀ (pre : List (N F)), (∀ a ∈ pre, Simple a) → ∀ q, rplus fl q (pre ++ .other :: post) = .err := by
    intro pre
    induction pre with
    | nil => intro _ q; simp [rplus]
    | cons a r ih =>
      intro h q
      have hs : ∀ b ∈ r, Simple b := fun b hb => h b (by simp [hb])
      rw [List.cons_append]
      cases a with
      | fix n => exact ih hs _
      | rat p => exact ih hs _
      | flt x => exact hfl r hs _
      | big n => exact absurd (h (.big n) (by simp)) (by simp [Simple])
      | other => exact absurd (h .other (by simp)) (by simp [Simple])
  have hi : ∀ (pre : List (N F)), (∀ a ∈ pre, Simple a) → ∀ is : Int, InRange (· + ·) (is : ℚ) pre →
      iplus fl is (pre ++ .other :: post) = .err := by
    intro pre
    induction pre with
    | nil => intro _ is _; simp [iplus]
    | cons a r ih =>
      intro h is hr
      have hs : ∀ b ∈ r, Simple b := fun b hb => h b (by simp [hb])
      rw [List.cons_append]
      cases a with
      | fix n =>
        have hc := inRange_cons hr
        have hcast : ((is : ℚ) + (n : ℚ)) = ((is + n : Int) : ℚ) := by push_cast; rfl
        rw [hcast] at hc
        rw [iplus, if_pos (inFix_of (inRange_start hc)).1]
        exact ih hs _ hc
      | rat p => exact hra r hs _
      | flt x => exact hfl r hs _
      | big n => exact absurd (h (.big n) (by simp)) (by simp [Simple])
      | other => exact absurd (h .other (by simp)) (by simp [Simple])
  exact hi pre h 0 (by simpa using hr)

/-- The hypotheses hold of `(+ 1 1/2 0.25)`. -/
example : PLUS exactFl [.fix 1, .rat (1 / 2), .flt (1 / 4)] = .ok (.flt (7 / 4)) := by
  rw [C167_plus_partial]
  · norm_num [result, exactFl]
  · intro a ha
    simp only [List.mem_cons, List.not_mem_nil, or_false] at ha
    rcases ha with rfl | rfl | rfl
    · exact ⟨by norm_num, by norm_num⟩
    · simp only [Simple]; decide +kernel
    · trivial
  · intro k hk
    match k with
    | 0 => simp
    | 1 => norm_num [val]
    | k + 2 =>
      have := hk (.rat (1 / 2)) (by simp)
      simp [isFix] at this

/-- After a bignum, floats, ratios and things that are not numbers are passed over. -/
theorem C167_plus_bignum_wrong (n : Int) (x : F) (q : ℚ) :
    PLUS fl [.big n, .flt x] = .ok (.big n) ∧ PLUS fl [.big n, .rat q] = .ok (.big n) ∧
    PLUS fl [.big n, .other] = .ok (.big n) := by
  simp [PLUS, iplus, bigplus]

/-- When the sum comes back to a fixnum, the next integer is added to an object that is not there. -/
theorem C167_plus_back_wrong (n j : Int) (hj : j ≠ 0) :
    PLUS fl [.big n, .big (-n), .fix j] = .ub := by
  have : InFix (n + -n) := by constructor <;> omega
  simp [PLUS, iplus, bigplus, norm, hj]
  rw [if_pos ⟨by omega, by omega⟩]

/-- A float subtracted from a ratio is not subtracted. -/
theorem C167_minus_ratio_wrong (q : ℚ) (x : F) : MINUS fl [.rat q, .flt x] = .ok (.flt (fl.conv q)) := by
  simp [MINUS, rminus, floop]

/-- A float subtracted from a bignum: the result has no value. -/
theorem C167_minus_bignum_wrong (n : Int) (x : F) : MINUS fl [.big n, .flt x] = .ub := by
  simp [MINUS, bigminus]

/-- After a zero product nothing is looked at, not even whether it is a number; and there must be an argument. -/
theorem C167_times_zero_wrong (n : Int) (x : F) :
    TIMES fl [.fix 0, .fix n, .flt x] = .ok (.fix 0) ∧ TIMES fl [.fix 0, .fix n, .other] = .ok (.fix 0) ∧
    TIMES fl [] = .ub := by
  simp [TIMES, itimes]

/-- `(/ 1/2)` is 1/2; `(/ 2)` divides by the double whose pattern is the pointer of 2, which is 8 * 2^-1074. -/
theorem C167_reciprocal_wrong :
    QUOTIENT fl [.rat (1 / 2)] = .ok (.rat (1 / 2)) ∧ (∀ n, QUOTIENT fl [.fix n] = .ok (.flt (fl.div fl.one (fl.raw n)))) ∧
    Flt.Spec.decode (Flt.fltval 10#64) = .fin false (8 * 2 ^ (-1074 : Int)) := by
  refine ⟨?_, fun n => rfl, ?_⟩
  · have : ((1 / 2 : ℚ)).den ≠ 1 := by decide +kernel
    simp only [QUOTIENT, rquo, ofQ]
    rw [if_neg this]
  · have h1 : Flt.Spec.expOf (Flt.fltval 10#64).toNat = 0 := by decide
    have h2 : Flt.Spec.fracOf (Flt.fltval 10#64).toNat = 8 := by decide
    have h3 : Flt.Spec.signOf (Flt.fltval 10#64).toNat = false := by decide
    unfold Flt.Spec.decode Flt.Spec.mag Flt.Spec.ulp
    rw [h1, h2, h3]
    simp

/-! ## C168: comparison of mixtures of numbers -/

/-- `>`, `<`, `>=`, `<=` on fixnums and floats: every two neighbours compare. -/
theorem C168_order_partial [LinearOrder F] (ho : Ordered fl) (c : Cmp) (args : List (N F)) (hl : 2 ≤ args.length)
    (h : ∀ a ∈ args, Simple a ∧ isRat a = false) (hf : Faithful fl args) :
    ∃ b, COMPARE fl c args = .ok b ∧ (b = true ↔ args.IsChain (rel fl c)) := by
  have hch : args.IsChain (rel fl c) ↔ args.reverse.IsChain (fun b a => rel fl c a b) := by
    rw [List.isChain_reverse]
  rw [hch]
  unfold COMPARE
  have hs : ∀ a ∈ args.reverse, Simple a := fun a ha => (h a (by simpa using ha)).1
  have hq : ∀ a ∈ args.reverse, isRat a = false := fun a ha => (h a (by simpa using ha)).2
  have hf' : Faithful fl args.reverse := fun a ha b hb => hf a (by simpa using ha) b (by simpa using hb)
  have hl' : 2 ≤ args.reverse.length := by simpa using hl
  generalize args.reverse = l at *
  match l, hl' with
  | p :: a :: r, _ =>
    cases p with
    | fix n => exact intLoop_spec fl ho c n (a :: r) hs (fun x hx => hq x (List.mem_cons_of_mem _ hx)) hf'
    | flt x => exact fltLoop_spec fl ho c (.flt x) (a :: r) hs hf'
    | rat q => exact absurd (hq (.rat q) (by simp)) (by simp [isRat])
    | big n => exact absurd (hs (.big n) (by simp)) (by simp [Simple])
    | other => exact absurd (hs .other (by simp)) (by simp [Simple])

/-- `=` on fixnums, ratios and floats: every argument is the same as the last. -/
theorem C168_equal_partial [LinearOrder F] (ho : Ordered fl) (init : List (N F)) (last : N F) (hl : init ≠ [])
    (h : ∀ a ∈ init ++ [last], Simple a) (hf : Faithful fl (init ++ [last])) :
    ∃ b, NUMEQUAL fl (init ++ [last]) = .ok b ∧ (b = true ↔ ∀ a ∈ init, same fl a last) := by
  unfold NUMEQUAL
  rw [List.reverse_append]
  simp only [List.reverse_cons, List.reverse_nil, List.nil_append, List.cons_append]
  have hs : ∀ a ∈ init.reverse, Simple a := fun a ha => h a (by simp at ha; simp [ha])
  have hf' : Faithful fl (last :: init.reverse) := fun a ha b hb =>
    hf a (by simp at ha ⊢; tauto) b (by simp at hb ⊢; tauto)
  have hmem : (∀ a ∈ init, same fl a last) ↔ ∀ a ∈ init.reverse, same fl a last := by simp
  rw [hmem]
  have hl' : init.reverse ≠ [] := by simpa using hl
  have hlast := h last (by simp)
  generalize init.reverse = l at *
  match l, hl' with
  | a :: r, _ =>
    cases last with
    | fix n => exact eqInt_spec fl ho n (a :: r) hs hf'
    | flt x =>
      obtain ⟨b, h1, h2⟩ := eqFlt_spec fl ho x (a :: r) hs
      refine ⟨b, h1, h2.trans ?_⟩
      have : ∀ a : N F, same fl a (.flt x) ↔ toF fl a = x := by
        intro a; unfold same; rw [if_pos (by simp [isFlt])]; rfl
      simp only [this]
    | rat q => exact eqRat_spec fl ho (.rat q) rfl rfl (a :: r) hs hf'
    | big n => exact absurd hlast (by simp [Simple])
    | other => exact absurd hlast (by simp [Simple])

/-- The hypotheses hold of `(> 3 2.5 1)`. -/
example : ∃ b, COMPARE exactFl .gt [.fix 3, .flt (5 / 2), .fix 1] = .ok b ∧ b = true := by
  have ho : Ordered exactFl := ⟨fun _ _ => rfl, fun _ _ => rfl, fun _ _ => rfl⟩
  have hf : Faithful exactFl [.fix 3, .flt (5 / 2), .fix 1] := by
    intro a ha b hb h1 h2
    simp only [List.mem_cons, List.not_mem_nil, or_false] at ha hb
    rcases ha with rfl | rfl | rfl <;> rcases hb with rfl | rfl | rfl <;> simp_all [isFlt, toF, val, exactFl]
  obtain ⟨b, h1, h2⟩ := C168_order_partial exactFl ho .gt _ (by simp) (by
    intro a ha
    simp only [List.mem_cons, List.not_mem_nil, or_false] at ha
    rcases ha with rfl | rfl | rfl <;> simp [Simple, isRat]) hf
  refine ⟨b, h1, h2.mpr ?_⟩
  simp [rel, isFlt, toF, exactFl, relF]
  norm_num

/-- Next to a bignum on its right, a float is compared with the bignum and then forgotten: the number before it is
compared with the bignum again, so `(> 1.0 5.0 -BIG)` is true. -/
theorem C168_chain_wrong (x y : F) (n : Int) (hx : fl.le x (fl.ofBig n) = false) (hy : fl.le y (fl.ofBig n) = false) :
    COMPARE fl .gt [.flt x, .flt y, .big n] = .ok true := by
  simp [COMPARE, cmpRev, bigLoop, flFail, fltLoop, ckflt, hx, hy]

/-- Not-a-number, for which every comparison is false, is both greater and less than every float. -/
theorem C168_nan_wrong (nan x : F) (h : ∀ y, fl.le nan y = false ∧ fl.le y nan = false) :
    COMPARE fl .gt [.flt nan, .flt x] = .ok true ∧ COMPARE fl .lt [.flt nan, .flt x] = .ok true := by
  simp [COMPARE, cmpRev, flFail, fltLoop, ckflt, h]

/-- `=` between a float and a bignum depends on the order of the arguments. -/
theorem C168_equal_order_wrong (x : F) (n : Int) (h : fl.eq x (fl.ofBig n) = true) :
    NUMEQUAL fl [.big n, .flt x] = .ok true ∧ NUMEQUAL fl [.flt x, .big n] = .ok false := by
  simp [NUMEQUAL, eqRev, eqFlt, eqBig, ckflt, h]

/-- A thing that is not a number passes next to a bignum, and is neither an error for `=`. -/
theorem C168_not_number_wrong (n : Int) :
    COMPARE fl .gt [.other, .big n] = .ok true ∧ NUMEQUAL fl [.other, .big n] = .ok false := by
  simp [COMPARE, cmpRev, bigLoop, NUMEQUAL, eqRev, eqBig]

end Eus.Mix
