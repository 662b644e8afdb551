import Verif.Ppr.Lemmas
set_option autoImplicit false
/-
C175: `print-size` counts the characters.
-/
namespace Eus.Ppr
open Eus.Rd Eus.Num

/-- Trees of names written without bars and of decimal integers of at most 15 characters, in which no list is longer
than `*print-length*` and none is `(function x)`. -/
def Countable (len : Nat) : T → Prop
  | .sym n => PlainName 10 n
  | .int (.fix w) => -10 ^ 14 < w.toInt ∧ w.toInt < 10 ^ 15
  | .cons a d => Countable len a ∧ Countable len d ∧ spine d < len ∧ ¬ (a = FUNCTION ∧ ∃ x, d = .cons x NIL)
  | _ => False

/-- A count up to a limit, `n` having been counted before. -/
def Counts (f : Nat → Option Nat) (lim : Int) (L : Nat) : Prop :=
  ∀ n : Nat, ∃ m, f n = some m ∧ n ≤ m ∧ (((n + L : Nat) : Int) < lim → m = n + L) ∧ (lim ≤ ((n + L : Nat) : Int) → lim ≤ m)

theorem toDigits_len (n k : Nat) (h : n < 10 ^ (k + 1)) : (Nat.toDigits 10 n).length ≤ k + 1 :=
  (Nat.length_toDigits_le_iff (by omega) (by omega)).2 h

theorem decimals_short (v : Int) (h : -10 ^ 14 < v) (h' : v < 10 ^ 15) : decimals v ≤ 15 := by
  unfold decimals
  split
  · have := toDigits_len v.natAbs 13 (by norm_num at *; omega)
    omega
  · have := toDigits_len v.natAbs 14 (by norm_num at *; omega)
    omega

theorem workLoop_len (down : Bool) (i : Nat) : ∀ (num : Nat) (acc : List Nat), num < 10 ^ (i + 1) →
    ∃ r, workLoop 10 down (i + 1) num acc = some r ∧ r.length = acc.length + (Nat.toDigits 10 num).length := by
  induction i with
  | zero =>
    intro num acc h
    have h' : num / 10 = 0 := by omega
    rw [workLoop]
    simp only [h', if_true]
    exact ⟨_, rfl, by rw [Nat.toDigits_of_lt_base (by omega)]; simp⟩
  | succ i ih =>
    intro num acc h
    rw [workLoop]
    by_cases h0 : num / 10 = 0
    · rw [if_pos h0]
      exact ⟨_, rfl, by rw [Nat.toDigits_of_lt_base (by omega)]; simp⟩
    · rw [if_neg h0]
      obtain ⟨r, e, hr⟩ := ih (num / 10) ((if 10 ≤ 10 then 48 + num % 10 else digitChar down (num % 10)) :: acc)
        (by rw [pow_succ] at h; omega)
      refine ⟨r, e, ?_⟩
      rw [hr, Nat.toDigits_of_base_le (by omega) (show 10 ≤ num by omega)]
      simp only [List.length_cons, List.length_append, List.length_singleton, List.length_nil]
      omega

theorem fix_len (p : PCfg) (hb : p.base = 10) (w : Word) (h : -10 ^ 14 < w.toInt) (h' : w.toInt < 10 ^ 15) :
    ∃ txt, printAtom p (.int (.fix w)) = some txt ∧ txt.length = decimals w.toInt := by
  unfold printAtom printnum printint
  rw [hb]
  simp only [show ¬ (10 = 0) by decide, if_false]
  by_cases hn : w.toInt < 0
  · have e : (-w).toNat = w.toInt.natAbs := by
      have h1 := BitVec.toInt_eq_toNat_cond w
      have h2 := BitVec.toNat_neg w
      have h3 := w.isLt
      split at h1 <;> omega
    obtain ⟨r, er, hr⟩ := workLoop_len p.down 64 w.toInt.natAbs [] (by norm_num at *; omega)
    simp only [hn, decide_true, if_true, e, er]
    refine ⟨_, rfl, ?_⟩
    have hp : ∀ c : Nat, ((c : Int) + 1 > 0) := by intro c; omega
    simp only [pad, List.length_append, List.length_replicate, List.length_singleton, hr, List.length_nil, decimals, hn, if_true]
    split <;> omega
  · have e : w.toNat = w.toInt.natAbs := by
      have h1 := BitVec.toInt_eq_toNat_cond w
      have h3 := w.isLt
      split at h1 <;> omega
    obtain ⟨r, er, hr⟩ := workLoop_len p.down 64 w.toInt.natAbs [] (by norm_num at *; omega)
    simp only [hn, decide_false, Bool.false_eq_true, if_false, e, er]
    refine ⟨_, rfl, ?_⟩
    simp only [pad, List.length_append, List.length_replicate, hr, List.length_nil, decimals, hn, if_false]
    split <;> omega

theorem atom_len (p : PCfg) (hb : p.base = 10) (len : Nat) (t : T) (ht : ∀ a d, t ≠ .cons a d) (hc : Countable len t) :
    ∃ txt, printAtom p t = some txt ∧ ∀ n, atomSize t n = some (n + txt.length) := by
  cases t with
  | cons a d => exact absurd rfl (ht a d)
  | sym n =>
    have h124 : 124 ∉ n := by
      intro hm
      have := hc.1 124 hm
      unfold PlainChar at this
      simp at this
    refine ⟨_, printname_plain p n (Or.inr h124) (by rw [hb]; exact plain_needs 10 n hc), fun m => ?_⟩
    simp [atomSize]
  | int v =>
    cases v with
    | fix w =>
      obtain ⟨txt, e, hl⟩ := fix_len p hb w hc.1 hc.2
      refine ⟨txt, e, fun n => ?_⟩
      have := decimals_short w.toInt hc.1 hc.2
      rw [hl]
      simp only [atomSize]
      rw [if_pos (by omega)]
    | big l => exact hc.elim
  | _ => exact hc.elim

/-- Everything about a tree. -/
structure Cnt (p : PCfg) (lim : Int) (t : T) : Prop where
  whole : ∀ lev : Int, depth t < lev → ∃ txt, prin1 p t lev = some txt ∧ Counts (prnt lim t) lim txt.length
  rest : ∀ (lev : Int) (len : Nat), depth t < lev + 1 → 0 < lev → spine t < len →
    ∃ txt, printRest p t len lev = some (txt ++ [41]) ∧ Counts (prntRest lim t) lim txt.length

theorem counts_atom (lim : Int) (t : T) (L : Nat) (ha : ∀ n, atomSize t n = some (n + L)) (ht : ∀ a d, t ≠ .cons a d) :
    Counts (prnt lim t) lim L := by
  intro n
  have e : prnt lim t n = if lim ≤ n then some n else atomSize t n := by
    cases t with
    | cons a d => exact absurd rfl (ht a d)
    | _ => rw [prnt.eq_def]
  rw [e]
  split
  · exact ⟨n, rfl, le_refl _, fun h => by omega, fun _ => by omega⟩
  · exact ⟨_, ha n, by omega, fun _ => rfl, fun h => by omega⟩

theorem cnt_atom (p : PCfg) (hb : p.base = 10) (len : Nat) (lim : Int) (t : T) (ht : ∀ a d, t ≠ .cons a d)
    (hc : Countable len t) : Cnt p lim t := by
  obtain ⟨txt, e, ha⟩ := atom_len p hb len t ht hc
  refine ⟨?_, ?_⟩
  · intro lev hlev
    exact ⟨txt, by rw [prin1_atom p t lev (by omega) ht, e], counts_atom lim t _ ha ht⟩
  · intro lev len hd hl _
    have er : ∀ n, prntRest lim t n = if t = NIL then some n
        else (if lim ≤ (n + 1 : Nat) then some (n + 1) else atomSize t (n + 1)).map (· + 2) := by
      intro n
      cases t with
      | cons a d => exact absurd rfl (ht a d)
      | _ => rw [prntRest.eq_def]
    by_cases hn : t = NIL
    · refine ⟨[], by rw [hn, printRest.eq_def]; simp [NIL], ?_⟩
      intro n
      rw [er, if_pos hn]
      exact ⟨n, rfl, le_refl _, fun _ => by simp, fun h => by simpa using h⟩
    · refine ⟨[32, 46, 32] ++ txt, by rw [printRest_atom p t len lev hl ht hn, e]; simp, ?_⟩
      intro n
      rw [er, if_neg hn]
      simp only [List.length_append, List.length_cons, List.length_nil]
      split
      · exact ⟨n + 1 + 2, rfl, by omega, fun h => by omega, fun h => by omega⟩
      · rw [ha]
        exact ⟨n + 1 + txt.length + 2, rfl, by omega, fun h => by omega, fun h => by omega⟩

theorem counts_seq (f : Nat → Option Nat) (g : Nat → Option Nat) (lim : Int) (A B c : Nat) (hf : Counts f lim A)
    (hg : Counts g lim B) (n : Nat) :
    ∃ m, (match f (n + c) with
      | none => none
      | some k => if lim < k then some k else g k) = some m ∧ n ≤ m ∧
      (((n + (A + B + c) : Nat) : Int) < lim → m = n + (A + B + c)) ∧ (lim ≤ ((n + (A + B + c) : Nat) : Int) → lim ≤ m) := by
  obtain ⟨k, ek, h1, h2, h3⟩ := hf (n + c)
  rw [ek]
  simp only
  split
  · exact ⟨k, rfl, by omega, fun h => by have := h2 (by omega); omega, fun _ => by omega⟩
  · obtain ⟨m, em, g1, g2, g3⟩ := hg k
    refine ⟨m, em, by omega, fun h => ?_, fun h => ?_⟩
    · have := h2 (by omega)
      have := g2 (by omega)
      omega
    · by_cases hk : ((n + c + A : Nat) : Int) < lim
      · have := h2 hk
        exact g3 (by omega)
      · have := h3 (by omega)
        omega

theorem cnt (p : PCfg) (hb : p.base = 10) (lim : Int) (t : T) (hc : Countable p.prlength t) :
    Cnt p lim t ∧ ∀ x r, t = .cons x r → Cnt p lim x := by
  induction t with
  | cons a d iha ihd =>
    obtain ⟨ha, hd, hsp, hfn⟩ := hc
    have ca := (iha ha).1
    have cd := (ihd hd).1
    refine ⟨⟨?_, ?_⟩, fun x r e => by rw [← (T.cons.inj e).1]; exact ca⟩
    · intro lev hlev
      have hda : depth a + 2 ≤ depth (.cons a d) := by simp [depth]
      have hdd : depth d ≤ depth (.cons a d) := by simp [depth]
      have quoted : ∀ x, a = QUOTE → d = .cons x NIL →
          prin1 p (.cons a d) lev = (prin1 p x (lev - 2)).map (39 :: ·) →
          ∃ txt, prin1 p (.cons a d) lev = some txt ∧ Counts (prnt lim (.cons a d)) lim txt.length := by
        intro x hqa hqd e
        have cx := (ihd hd).2 x NIL hqd
        have hdx : depth x + 2 ≤ depth d := by rw [hqd]; simp [depth]
        obtain ⟨txt, x1, x2⟩ := cx.whole (lev - 2) (by omega)
        refine ⟨39 :: txt, by rw [e, x1]; rfl, ?_⟩
        intro n
        rw [prnt, if_pos (show a = QUOTE ∧ isSingle d = true from ⟨hqa, by rw [hqd]; simp [isSingle]⟩), hqd, prntCar]
        obtain ⟨m, em, m1, m2, m3⟩ := x2 (n + 1)
        simp only [List.length_cons]
        split
        · exact ⟨n, rfl, le_refl _, fun h => by omega, fun _ => by omega⟩
        · exact ⟨m, em, by omega, fun h => by have := m2 (by omega); omega, fun h => m3 (by omega)⟩
      rcases prin1_cons p a d lev (by omega) with ⟨x, hqa, hqd, e⟩ | ⟨x, hqa, hqd, e⟩ | e
      · exact quoted x hqa hqd e
      · exact absurd ⟨hqa, x, hqd⟩ hfn
      · by_cases hq : a = QUOTE ∧ isSingle d = true
        · obtain ⟨x, hx⟩ : ∃ x, d = .cons x NIL := by
            have h2 := hq.2
            cases d with
            | cons x r => exact ⟨x, by rw [eq_of_beq h2]⟩
            | _ => simp [isSingle] at h2
          refine quoted x hq.1 hx ?_
          rw [hq.1, hx, prin1.eq_def]
          simp only [quoteMark, and_self, if_true, prin1Cadr]
          rw [if_neg (by omega)]
          rfl
        · obtain ⟨ta, x1, x2⟩ := ca.whole (lev - 1) (by omega)
          obtain ⟨td, y1, y2⟩ := cd.rest (lev - 1) p.prlength (by omega) (by omega) hsp
          refine ⟨40 :: ta ++ (td ++ [41]), by rw [e, x1, y1]; rfl, ?_⟩
          intro n
          rw [prnt, if_neg hq]
          have hlen : (40 :: ta ++ (td ++ [41])).length = ta.length + td.length + 2 := by simp; omega
          rw [hlen]
          split
          · exact ⟨n, rfl, le_refl _, fun h => by omega, fun _ => by omega⟩
          · exact counts_seq _ _ lim _ _ 2 x2 y2 n
    · intro lev len hdep hlev hs
      have hda : depth a + 2 ≤ depth (.cons a d) := by simp [depth]
      have hdd : depth d ≤ depth (.cons a d) := by simp [depth]
      simp only [spine] at hs
      obtain ⟨ta, x1, x2⟩ := ca.whole lev (by omega)
      obtain ⟨td, y1, y2⟩ := cd.rest lev (len - 1) (by omega) hlev (by omega)
      refine ⟨32 :: ta ++ td, ?_, ?_⟩
      · rw [printRest.eq_def]; simp only; rw [if_neg (by omega), x1, y1]; simp
      · intro n
        rw [prntRest]
        have hlen : (32 :: ta ++ td).length = ta.length + td.length + 1 := by simp
        rw [hlen]
        exact counts_seq _ _ lim _ _ 1 x2 y2 n
  | _ => exact ⟨cnt_atom p hb _ lim _ (by simp) hc, by simp⟩

/-- **C175** (partial): `(print-size x lim)` is less than `lim` exactly if the text `prin1` writes for `x` has fewer than
`lim` characters, and is then their number.  Missing: strings, keywords, names with bars, ratios, floats and
`(function x)`, for which it is wrong. -/
theorem C175_print_size_partial (fbound : T → Bool) (p : PCfg) (hb : p.base = 10) (t : T) (hc : Countable p.prlength t)
    (hd : depth t < 65536) (lim : Int) :
    ∃ txt m, prinx p t = some txt ∧ (real fbound).size t lim = some m ∧
      ((m : Int) < lim ↔ (txt.length : Int) < lim) ∧ ((m : Int) < lim → m = txt.length) := by
  obtain ⟨txt, e, h⟩ := ((cnt p hb lim t hc).1.whole 65536 (by omega))
  obtain ⟨m, em, _, h2, h3⟩ := h 0
  simp only [Nat.zero_add] at h2 h3
  refine ⟨txt, m, e, em, ⟨fun h => ?_, fun h => ?_⟩, fun h => ?_⟩
  · by_contra hn; have := h3 (by omega); omega
  · have := h2 h; omega
  · by_cases hn : (txt.length : Int) < lim
    · exact h2 hn
    · have := h3 (by omega); omega

/-- `(f '(a . -12) b)` -/
example : Countable 100 (.cons (.sym [70]) (.cons (.cons QUOTE (.cons (.cons (.sym [65]) (.int (.fix (-12)))) NIL))
    (.cons (.sym [66]) NIL))) := by
  have h : ∀ n, (∀ c ∈ n, 65 ≤ c ∧ c ≤ 90) → n ≠ [] → PlainName 10 n := by
    intro n h hn
    refine ⟨fun c hc => Or.inl (h c hc), fun ha => ?_⟩
    cases n with
    | nil => exact hn rfl
    | cons c r => have := ha c (by simp); have := h c (by simp); omega
  simp only [Countable, NIL, QUOTE]
  have k : ∀ a d : T, a ≠ FUNCTION → ¬ (a = FUNCTION ∧ ∃ x, d = .cons x (.sym nilName)) := fun a d h h' => h h'.1
  refine ⟨h _ (by decide) (by decide), ⟨⟨h _ (by decide) (by decide), ⟨⟨h _ (by decide) (by decide), by decide, by decide,
    k _ _ (by decide)⟩, h _ (by decide) (by decide), by decide, k _ _ (by decide)⟩, by decide, k _ _ (by decide)⟩,
    ⟨h _ (by decide) (by decide), h _ (by decide) (by decide), by decide, k _ _ (by decide)⟩, by decide, k _ _ (by decide)⟩,
    by decide, k _ _ (by decide)⟩

example : prnt 100 (.cons (.sym [70]) (.cons (.cons QUOTE (.cons (.cons (.sym [65]) (.int (.fix (-12)))) NIL))
    (.cons (.sym [66]) NIL))) 0 = some 16 := by decide +kernel

/-- The quotes of a string, the colon of a keyword and the bars of a name are not counted, and `#'x` is counted as
`(function x)`. -/
theorem C175_print_size_wrong (fbound : T → Bool) (p : PCfg) (hb : p.base = 10) :
    ((real fbound).size (.str [97]) 100 = some 1 ∧ prinx p (.str [97]) = some [34, 97, 34]) ∧
    ((real fbound).size (.key [65]) 100 = some 1 ∧ (prinx p (.key [65])).map List.length = some 2) ∧
    ((real fbound).size (.sym [97]) 100 = some 1 ∧ prinx p (.sym [97]) = some [124, 97, 124]) ∧
    ((real fbound).size (.cons FUNCTION (.cons (.sym [65]) NIL)) 100 = some 12 ∧
      (p.prlength ≠ 0 → (prinx p (.cons FUNCTION (.cons (.sym [65]) NIL))).map List.length = some 3)) := by
  obtain ⟨base, down, len⟩ := p
  simp only at hb
  subst hb
  refine ⟨⟨rfl, rfl⟩, ⟨rfl, ?_⟩, ⟨rfl, rfl⟩, ⟨rfl, fun _ => ?_⟩⟩
  · cases down <;> rfl
  · cases down <;> rfl

end Eus.Ppr
