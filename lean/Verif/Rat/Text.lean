import Verif.Rat.Loops
import Verif.Rd.Props
set_option autoImplicit false
/-
Printing and reading ratios, on top of the printer and the reader of `Verif.Rd`.
-/
namespace Eus.Rt
open Eus.Rd (Numeral Digits Delim DigitCode strtol strtolDigits is_digit to_upper)

/-- reader.c:849-861 `readratio(token,slash)`: `slash` is the index of the first `/`. -/
def readratioTok (base : Nat) (tok : List Nat) : Res Num :=
  readratio (strtol base tok) (strtol base ((tok.dropWhile (· ≠ 47)).drop 1))

/-- printer.c:219-226 `printratio`; the fixnums are given by their values. -/
def printratio (base : Nat) (down : Bool) (r : Ratio) : Option (List Nat) :=
  match Rd.printnum base down (.fix (BitVec.ofInt 64 r.num)) 0 0, Rd.printnum base down (.fix (BitVec.ofInt 64 r.den)) 0 0 with
  | some a, some b => some (a ++ 47 :: b)
  | _, _ => none

theorem strtolDigits_slash (base : Nat) (ds rest : List Nat) : ∀ (cs : List Nat) (acc : Nat), List.Forall₂ DigitCode cs ds →
    (∀ d ∈ ds, d < base) → strtolDigits base (cs ++ 47 :: rest) acc = acc * base ^ ds.length + Rd.posVal base ds := by
  intro cs acc h
  induction h generalizing acc with
  | nil => intro _; simp [strtolDigits, Rd.posVal, Rd.digitVal]
  | @cons c d cs ds hc _ ih =>
    intro hd
    rw [List.cons_append, strtolDigits, Rd.digitVal_code c d hc]
    simp only
    rw [if_pos (hd d (by simp)), ih _ (fun x hx => hd x (by simp [hx])), List.length_cons, pow_succ, Rd.posVal]
    ring

theorem strtol_slash (base : Nat) (tok rest : List Nat) (z : Int) (h : Numeral base tok z) :
    strtol base (tok ++ 47 :: rest) = z := by
  rcases h with ⟨n, ⟨ds, hne, hd, hc, hv⟩, rfl⟩ | ⟨cs, n, rfl, ⟨ds, hne, hd, hc, hv⟩, rfl⟩ |
    ⟨cs, n, rfl, ⟨ds, hne, hd, hc, hv⟩, rfl⟩
  · have e := strtolDigits_slash base ds rest tok 0 hc hd
    cases hc with
    | nil => exact absurd rfl hne
    | @cons c d cs ds hcd hr =>
      have hp := Rd.code_props c d hcd
      rw [List.cons_append] at e ⊢
      simp only [strtol]
      rw [if_neg hp.2.2.2.2.1, if_neg hp.2.2.2.1, e, hv]; simp
  · simp only [List.cons_append, strtol]
    rw [if_neg (by decide), if_pos trivial, strtolDigits_slash base ds rest cs 0 hc hd, hv]; simp
  · simp only [List.cons_append, strtol]
    rw [if_pos trivial, strtolDigits_slash base ds rest cs 0 hc hd, hv]; simp

theorem no_slash {cs ds : List Nat} (h : List.Forall₂ DigitCode cs ds) : ∀ c ∈ cs, c ≠ 47 := by
  induction h with
  | nil => simp
  | @cons c d cs ds hc _ ih =>
    intro x hx
    rcases List.mem_cons.1 hx with rfl | hx
    · rcases hc with h | h <;> omega
    · exact ih x hx

theorem numeral_no_slash {base : Nat} {tok : List Nat} {z : Int} (h : Numeral base tok z) : ∀ c ∈ tok, c ≠ 47 := by
  rcases h with ⟨n, ⟨ds, hne, hd, hc, hv⟩, rfl⟩ | ⟨cs, n, rfl, ⟨ds, hne, hd, hc, hv⟩, rfl⟩ |
    ⟨cs, n, rfl, ⟨ds, hne, hd, hc, hv⟩, rfl⟩
  · exact no_slash hc
  · intro x hx
    rcases List.mem_cons.1 hx with rfl | hx
    · decide
    · exact no_slash hc x hx
  · intro x hx
    rcases List.mem_cons.1 hx with rfl | hx
    · decide
    · exact no_slash hc x hx

theorem dropWhile_slash {l r : List Nat} (h : ∀ c ∈ l, c ≠ 47) : (l ++ 47 :: r).dropWhile (· ≠ 47) = 47 :: r := by
  induction l with
  | nil => simp
  | cons a l ih =>
    rw [List.cons_append, List.dropWhile_cons, if_pos (by simpa using h a (by simp))]
    exact ih (fun c hc => h c (by simp [hc]))

theorem readratioTok_spec {base : Nat} {tn td : List Nat} {n d : Int} (hn : Numeral base tn n) (hd : Numeral base td d)
    (fn : Fits n) (fd : Fits d) (h0 : 0 < d) : ∃ v, readratioTok base (tn ++ 47 :: td) = .ok v ∧ Rep v ((n : ℚ) / d) := by
  unfold readratioTok
  rw [strtol_slash base tn td n hn, dropWhile_slash (numeral_no_slash hn), List.drop_one, List.tail_cons, Rd.strtol_spec base td d hd]
  exact readratio_spec fn fd h0

theorem digits_drop {base : Nat} {l r : List Nat} (h : ∀ c ∈ l, is_digit base c = true) :
    (l ++ 47 :: r).dropWhile (is_digit base) = 47 :: r := by
  induction l with
  | nil => rw [List.nil_append, List.dropWhile_cons, if_neg (by simp [is_digit])]
  | cons a l ih =>
    rw [List.cons_append, List.dropWhile_cons, if_pos (h a (by simp))]
    exact ih (fun c hc => h c (by simp [hc]))

theorem numKind_ratio {base : Nat} {l r : List Nat} (hl : l ≠ []) (hr : r ≠ []) (h : ∀ c ∈ l, is_digit base c = true)
    (h' : ∀ c ∈ r, is_digit base c = true) : Rd.numKind base (l ++ 47 :: r) = .ratio := by
  unfold Rd.numKind
  cases l with
  | nil => exact absurd rfl hl
  | cons c l =>
    rw [digits_drop h]
    simp only [List.cons_append, h c (by simp), Bool.true_or, if_true, hr, if_false, Rd.dropWhile_all _ _ h',
      show ¬ (47 = 46) by decide]

theorem upper_slash : to_upper 47 = 47 := rfl

theorem tokKind_ratio {base : Nat} {tn td : List Nat} {n : Int} {d : Nat} (hn : Numeral base tn n) (hd : Digits base td d) :
    Rd.tokKind base ((tn ++ 47 :: td).map to_upper) = .ratio := by
  obtain ⟨es, hes, hed, hec, -⟩ := hd
  have hr := Rd.digits_isdigit hec hed
  have hr0 : td.map to_upper ≠ [] := by
    intro hh; rw [List.map_eq_nil_iff] at hh; subst hh; cases hec; exact hes rfl
  rw [List.map_append, List.map_cons, upper_slash]
  rcases hn with ⟨n, ⟨ds, hne, hd, hc, hv⟩, rfl⟩ | ⟨cs, n, rfl, ⟨ds, hne, hd, hc, hv⟩, rfl⟩ |
    ⟨cs, n, rfl, ⟨ds, hne, hd, hc, hv⟩, rfl⟩
  · have hk := Rd.digits_isdigit hc hd
    cases hc with
    | nil => exact absurd rfl hne
    | @cons c d cs ds hcd hr =>
      have hp := Rd.code_props c d hcd
      have hp' := Rd.code_props _ d hp.2.2.2.2.2.2.2.1
      rw [List.map_cons] at hk ⊢
      rw [List.cons_append, Rd.tokKind, if_neg (by have := hp'.2.2.2.1; have := hp'.2.2.2.2.1; omega), if_neg (by simp),
        ← List.cons_append]
      exact numKind_ratio (by simp) hr0 hk (by assumption)
  · have hne' : cs.map to_upper ≠ [] := by
      intro hh; rw [List.map_eq_nil_iff] at hh; subst hh; cases hc; exact hne rfl
    rw [List.map_cons, Rd.upper_fix 43 (by simp), List.cons_append, Rd.tokKind, if_pos (by simp)]
    exact numKind_ratio hne' hr0 (Rd.digits_isdigit hc hd) hr
  · have hne' : cs.map to_upper ≠ [] := by
      intro hh; rw [List.map_eq_nil_iff] at hh; subst hh; cases hc; exact hne rfl
    rw [List.map_cons, Rd.upper_fix 45 (by simp), List.cons_append, Rd.tokKind, if_pos (by simp)]
    exact numKind_ratio hne' hr0 (Rd.digits_isdigit hc hd) hr

theorem digits_numeral {base : Nat} {td : List Nat} {d : Nat} (h : Digits base td d) : Numeral base td (d : Int) := Or.inl ⟨d, h, rfl⟩

/-- Reading the text of a ratio. -/
theorem reader_ratio {base : Nat} {tn td rest : List Nat} {n : Int} {d : Nat} (hn : Numeral base tn n) (hd : Digits base td d)
    (hl : tn.length + td.length < 1023) (hr : Delim rest) :
    Rd.reader base (tn ++ 47 :: td ++ rest) = (.val (.ratio ((tn ++ 47 :: td).map to_upper)), rest) := by
  obtain ⟨hne, hpl⟩ := Rd.numeral_plain base tn n hn
  obtain ⟨-, hpd⟩ := Rd.numeral_plain base td d (digits_numeral hd)
  obtain ⟨c, w, rfl, h1, h2, h3, h4⟩ := Rd.numeral_head base tn n hn
  have hp : ∀ x ∈ w ++ 47 :: td, Rd.syntaxtype x = .constituent ∧ x ≠ 58 := by
    intro x hx
    rw [List.mem_append, List.mem_cons] at hx
    rcases hx with hx | rfl | hx
    · exact hpl x (by simp [hx])
    · exact ⟨rfl, by decide⟩
    · exact hpd x hx
  have hc := hpl c (by simp)
  have hk := tokKind_ratio hn hd
  refine Rd.reader_of_read1 base ((c :: w) ++ 47 :: td) rest _ ⟨c, w ++ 47 :: td, rfl, h1, by rw [hc.1]; decide, h2, h3⟩ ?_
  rw [List.cons_append, List.cons_append, Rd.read1_constituent _ _ _ _ hc.1, if_neg hc.2]
  simp only [List.length_cons] at hl
  rw [Rd.step8_plain (w ++ 47 :: td) _ rest hp hr (by simp; omega)]
  rw [List.cons_append, List.map_cons] at hk
  rw [List.map_cons]
  simp only [Rd.finish, Rd.step10, List.singleton_append, hk, Bool.false_eq_true, if_false]

/-- The printed form of a number that fits. -/
theorem print_fits {base : Nat} {down : Bool} (hb : 2 ≤ base) (hb' : base ≤ 36) {z : Int} (hz : Fits z) :
    ∃ txt, Rd.printnum base down (.fix (BitVec.ofInt 64 z)) 0 0 = some txt ∧ Numeral base txt z ∧ txt.length ≤ 33 ∧
      (0 ≤ z → Digits base txt z.natAbs) := by
  have hw : (BitVec.ofInt 64 z).toInt = z := by
    rw [BitVec.toInt_ofInt, Int.bmod_eq_of_le] <;> have h1 := hz.1 <;> have h2 := hz.2 <;> norm_num <;> omega
  obtain ⟨ds, h1, h2, h3, h5, h4⟩ := Rd.printnum_spec base down hb hb' (.fix (BitVec.ofInt 64 z)) (by
    show Eus.Num.InFix _
    rw [hw]; exact fits_fixnum hz) (by rintro v ⟨⟩)
  have hv : (Eus.Num.Num.fix (BitVec.ofInt 64 z)).val = z := hw
  rw [hv] at h3 h4
  have hf := Rd.forall2_digitChar down base hb' ds h2
  have hge := Rd.posVal_ge base ds h5 h1
  have hlen : ds.length ≤ 32 := by
    rcases hge with hge | hge
    · omega
    · by_contra hc
      have h6 : 2 ^ (ds.length - 1) ≤ base ^ (ds.length - 1) := Nat.pow_le_pow_left hb _
      have h7 : 2 ^ 32 ≤ 2 ^ (ds.length - 1) := Nat.pow_le_pow_right (by omega) (by omega)
      unfold Fits at hz
      omega
  refine ⟨_, h4, ?_, ?_, ?_⟩
  · by_cases hneg : z < 0
    · rw [if_pos hneg]
      exact Or.inr (Or.inr ⟨_, z.natAbs, rfl, ⟨ds, h1, h2, hf, h3⟩, by omega⟩)
    · rw [if_neg hneg]
      exact Or.inl ⟨z.natAbs, ⟨ds, h1, h2, hf, h3⟩, by omega⟩
  · split_ifs <;> simp <;> omega
  · intro h0
    rw [if_neg (by omega)]
    exact ⟨ds, h1, h2, hf, h3⟩

end Eus.Rt
