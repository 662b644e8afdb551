import Verif.Rd.Misc
set_option autoImplicit false
set_option maxRecDepth 100000
/-
C10, C11, C52, C53, C54, C55, C78, C79: the printer and the reader.

`prinx p x` is the text `prin1` writes for `x`, and `reader base s` what `read` returns on a stream
with the bytes `s` left, together with the bytes it leaves.  The base of the reader is that of the
printer.
-/
namespace Eus.Rd
open Eus.Num

/-- The default configuration: base 10, symbols in lower case, no limit set by the user. -/
def dflt : PCfg := ⟨10, true, 65536⟩

/-! ### C10: integers -/

/-- Printing an integer, in any base, gives the usual numeral of its value. -/
theorem C10_print (base : Nat) (down : Bool) (hb : 2 ≤ base) (hb' : base ≤ 36) (n : Num)
    (hn : n.Canonical) :
    ∃ txt, printnum base down n 0 0 = some txt ∧ Numeral base txt n.val ∧ Usual txt := by
  obtain ⟨ds, h1, h2, h3, h5, h4⟩ := printnum_spec base down hb hb' n (canonical_wf n hn) (by
    rintro v rfl hz
    exact hn.2.1 (by rw [hz]; unfold InFix; omega))
  have hf := forall2_digitChar down base hb' ds h2
  refine ⟨_, h4, ?_, ?_⟩
  · by_cases hneg : n.val < 0
    · rw [if_pos hneg]
      exact Or.inr (Or.inr ⟨_, n.val.natAbs, rfl, ⟨ds, h1, h2, hf, h3⟩, by omega⟩)
    · rw [if_neg hneg]
      exact Or.inl ⟨n.val.natAbs, ⟨ds, h1, h2, hf, h3⟩, by omega⟩
  · cases ds with
    | nil => exact absurd rfl h1
    | cons d ds =>
      have hd := h2 d (by simp)
      have hc := digitChar_code down d (by omega)
      have hp := code_props _ _ hc
      have h48 : digitChar down d = 48 → d = 0 := by
        intro h; rw [h] at hc
        rcases hc with h | h <;> omega
      intro w
      by_cases hneg : n.val < 0
      · rw [if_pos hneg]
        refine ⟨by simp, ?_, by simp⟩
        intro hh
        simp only [List.map_cons, List.cons_append, List.nil_append, List.cons.injEq, true_and] at hh
        have hd0 := h48 hh.1
        rw [hd0] at h5
        have hnil := h5 rfl
        rw [hd0, hnil] at h3
        simp [posVal] at h3
        omega
      · rw [if_neg hneg]
        refine ⟨?_, ?_, ?_⟩
        · intro hh; simp only [List.map_cons, List.nil_append, List.cons.injEq] at hh
          exact hp.2.2.2.1 hh.1
        · intro hh; simp only [List.map_cons, List.nil_append, List.cons.injEq] at hh
          exact hp.2.2.2.2.1 hh.1
        · intro hh; simp only [List.map_cons, List.nil_append, List.cons.injEq] at hh
          have hd0 := h48 hh.1
          rw [hd0] at h5
          have hnil := h5 rfl
          rw [← hh.2]
          have : ds = [] := (List.cons.inj hnil).2
          rw [this]; rfl

example : (Num.big [1, 0, 1]).Canonical ∧
    printnum 16 true (.big [1, 0, 1]) 0 0 = some [52, 48, 48, 48, 48, 48, 48, 48, 48, 48, 48, 48, 48, 48, 48, 48, 48, 48, 48, 48, 48,
      48, 48, 48, 48, 48, 48, 48, 48, 48, 48, 49] := by
  refine ⟨?_, by decide +kernel⟩
  unfold Num.Canonical; simp only [WFv, limbsVal, InFix]; decide

/-- Reading a numeral of fewer than 1024 characters gives the integer it denotes, in canonical form.
Missing: numerals of fewer than eight characters whose value is not a 32-bit `int`, which exist in
bases above 21 only (`C10_base36_wrong`), and longer numerals (`C10_too_long_wrong`). -/
theorem C10_read_partial (base : Nat) (hb : 2 ≤ base) (hb' : base ≤ 36) (txt rest : List Nat) (z : Int)
    (h : Numeral base txt z) (hs : ¬ ShortWide txt z) (hl : txt.length < 1024) (hr : Delim rest) :
    ∃ m, m.Canonical ∧ m.val = z ∧ reader base (txt ++ rest) = (.val (.int m), rest) := by
  obtain ⟨m, m1, m2, m3⟩ := read1_numeral base hb hb' txt rest z h hs hl hr (txt ++ rest).length
  refine ⟨m, m1, m2, reader_of_read1 base txt rest _ ?_ m3⟩
  obtain ⟨c, w, rfl, h1, h2, h3, h4⟩ := numeral_head _ _ _ h
  have := (numeral_plain _ _ _ h).2 c (by simp)
  exact ⟨c, w, rfl, h1, by rw [this.1]; decide, h2, h3⟩

/-- Reading what is printed for an integer gives the same integer.  Missing: integers of more than
1022 digits, and integers of at most seven characters outside the `int` range in bases above 21. -/
theorem C10_roundtrip_partial (p : PCfg) (hb : 2 ≤ p.base) (hb' : p.base ≤ 36) (n : Num)
    (hn : n.Canonical) (hg : GoodInt p.base n.val) :
    ∃ txt, prinx p (.int n) = some txt ∧
      ∀ rest, Delim rest → reader p.base (txt ++ rest) = (.val (.int n), rest) := by
  obtain ⟨txt, e, h1, h2⟩ := atom_read p hb hb' 1 (.int n) ⟨hn, hg⟩ (by simp)
  refine ⟨txt, ?_, fun rest hr => reader_of_read1 _ _ _ _ h1.first (h2 rest _ hr)⟩
  unfold prinx
  rw [prin1_atom p _ _ (by omega) (by simp)]; exact e

/-- In bases up to 21, and so in decimal and hexadecimal, the number of digits is the only limit. -/
theorem C10_roundtrip_small_base_partial (p : PCfg) (hb : 2 ≤ p.base) (hb' : p.base ≤ 21) (n : Num)
    (hn : n.Canonical) (hg : n.val.natAbs < p.base ^ 1022) :
    ∃ txt, prinx p (.int n) = some txt ∧
      ∀ rest, Delim rest → reader p.base (txt ++ rest) = (.val (.int n), rest) := by
  refine C10_roundtrip_partial p hb (by omega) n hn ⟨hg, ?_⟩
  have h7 : (p.base : Int) ^ 7 ≤ 21 ^ 7 := by
    have : p.base ^ 7 ≤ 21 ^ 7 := Nat.pow_le_pow_left hb' 7
    exact_mod_cast this
  have h6 : (p.base : Int) ^ 6 ≤ 21 ^ 6 := by
    have : p.base ^ 6 ≤ 21 ^ 6 := Nat.pow_le_pow_left hb' 6
    exact_mod_cast this
  have e7 : (21 : Int) ^ 7 = 1801088541 := by norm_num
  have e6 : (21 : Int) ^ 6 = 85766121 := by norm_num
  by_cases h1 : -2 ^ 31 ≤ n.val
  · by_cases h2 : n.val < 2 ^ 31
    · exact Or.inl ⟨h1, h2⟩
    · right; left; omega
  · right; right; omega

/-- a bignum, in decimal, followed by a parenthesis -/
example : prinx dflt (.int (.big [5, 0, 1])) = some [56, 53, 48, 55, 48, 53, 57, 49, 55, 51, 48, 50, 51, 52, 54, 49, 53, 56, 54, 53, 56,
      52, 51, 54, 53, 49, 56, 53, 55, 57, 52, 50, 48, 53, 50, 56, 54, 57] ∧
    reader 10 [56, 53, 48, 55, 48, 53, 57, 49, 55, 51, 48, 50, 51, 52, 54, 49, 53, 56, 54, 53, 56,
      52, 51, 54, 53, 49, 56, 53, 55, 57, 52, 50, 48, 53, 50, 56, 54, 57, 41] =
      (.val (.int (.big [5, 0, 1])), [41]) := by
  constructor <;> decide +kernel

/-- The violation in large bases: `ZZZZZZZ` in base 36 is 78364164095 and reads as 1054752767. -/
theorem C10_base36_wrong :
    Num.Canonical (.fix 78364164095) ∧
    prinx ⟨36, false, 65536⟩ (.int (.fix 78364164095)) = some [90, 90, 90, 90, 90, 90, 90] ∧
    reader 36 [90, 90, 90, 90, 90, 90, 90] = (.val (.int (.fix 1054752767)), []) := by
  refine ⟨?_, by decide, by decide⟩
  unfold Num.Canonical; simp only [InFix]; decide

/-- The violation for long numerals: with 1024 characters or more, `read` signals an error. -/
theorem C10_too_long_wrong (base : Nat) (txt rest : List Nat) (z : Int)
    (h : Numeral base txt z) (hl : 1024 ≤ txt.length) :
    (reader base (txt ++ rest)).1 = .err := by
  obtain ⟨c, w, rfl, h1, h2, h3, h4⟩ := numeral_head _ _ _ h
  have hp := (numeral_plain _ _ _ h).2
  have hc := hp c (by simp)
  rw [reader_of_first base _ rest ⟨c, w, rfl, h1, by rw [hc.1]; decide, h2, h3⟩, List.cons_append,
    read1_constituent _ _ _ _ hc.1]
  simp only [List.length_cons] at hl
  rw [step8_long w _ rest (fun x hx => hp x (by simp [hx])) (by simp; omega)]
  rfl

example : Numeral 10 (List.replicate 1024 57) (posVal 10 (List.replicate 1024 9)) := by
  refine Or.inl ⟨_, ⟨List.replicate 1024 9, by simp, ?_, ?_, rfl⟩, rfl⟩
  · intro d hd; rw [List.eq_of_mem_replicate hd]; decide
  · rw [List.forall₂_iff_get]
    refine ⟨by simp, ?_⟩
    intro i h1 h2
    simp only [List.get_eq_getElem, List.getElem_replicate]
    exact Or.inl ⟨by decide, rfl⟩

/-! ### C11, C78: hexadecimal and octal literals -/

theorem read1_sharp (base n : Nat) (x : Nat) (s : List Nat) (hx : x < 128) (hd : ¬ (48 ≤ x ∧ x ≤ 57))
    (h39 : x ≠ 39) (h124 : x ≠ 124) :
    read1 base (n + 2) (35 :: x :: s) =
      if to_upper x = 88 then
        match read_sharp_hex 0 s with
        | some (v, rest') => (.val (.int v), rest')
        | none => (.ub, [])
      else if to_upper x = 79 then
        match read_sharp_octal s with
        | some (v, rest') => (.val (.int v), rest')
        | none => (.ub, [])
      else (.other, s) := by
  have h : syntaxtype 35 = .nontermacro := rfl
  rw [read1.eq_def]; simp only [h]
  rw [if_neg (by decide), if_neg (by decide), if_neg (by decide), if_neg (by decide), if_neg (by decide),
    if_pos (by trivial), readsharp.eq_def]
  simp only
  rw [if_neg (by omega), if_neg hd]
  simp only
  rw [if_neg (by omega), if_neg h39, if_neg h124]
  rfl

/-- `#x` and up to 64 hexadecimal digits, upper or lower case, read as the integer they denote, in
canonical form; `read` stops right after them. -/
theorem C11_hex (base : Nat) (x : Nat) (hx : x = 120 ∨ x = 88) (buf rest : List Nat) (N : Nat)
    (h : Digits 16 buf N) (hl : buf.length ≤ 64) (hr : ∀ c ∈ rest.head?, ¬ ∃ d, d < 16 ∧ DigitCode c d) :
    ∃ m, m.Canonical ∧ m.val = (N : Int) ∧ reader base (35 :: x :: buf ++ rest) = (.val (.int m), rest) := by
  obtain ⟨m, e, m1, m2⟩ := hex_spec buf rest N 0 h hl (by
    intro c hc
    have := hr c hc
    rw [← xdigit_iff] at this
    simpa using this)
  refine ⟨m, m1, m2, ?_⟩
  apply reader_of_read1 base (35 :: x :: buf) rest
  · exact ⟨35, _, rfl, by decide, by decide, by decide, by decide⟩
  · have hxx : to_upper x = 88 := by rcases hx with rfl | rfl <;> rfl
    simp only [List.cons_append, List.length_cons]
    rw [read1_sharp base _ x (buf ++ rest) (by omega) (by omega) (by omega) (by omega), if_pos hxx, e]

example : reader 10 [35, 120, 70, 70, 102, 102, 70, 70, 102, 102, 70, 70, 102, 102, 70, 70, 102, 102, 70,
      70, 102, 102, 70, 70, 102, 102, 32, 41] =
    (.val (.int (.big [9223372036854775807, 8589934591])), [32, 41]) := by decide

/-- The reader's limit: the 65th digit is not part of the literal. -/
theorem C11_limit (base : Nat) : ∃ m, m.val = 0 ∧
    reader base (35 :: 120 :: (List.replicate 64 48 ++ [49])) = (.val (.int m), [49]) := by
  refine ⟨.fix 0, rfl, ?_⟩
  show reader base ((35 :: 120 :: List.replicate 64 48) ++ [49]) = _
  rw [reader_of_first base _ _ ⟨35, _, rfl, by decide, by decide, by decide, by decide⟩]
  simp only [List.cons_append, List.length_cons]
  rw [read1_sharp base _ 120 _ (by omega) (by omega) (by omega) (by omega), if_pos (by rfl)]
  have : read_sharp_hex 0 (List.replicate 64 48 ++ [49]) = some (.fix 0, [49]) := by decide
  rw [this]

/-- `#o` and octal digits read as the integer they denote, when it is a fixnum.  Missing: larger
values, see `C78_big_wrong`. -/
theorem C78_octal_partial (base : Nat) (x : Nat) (hx : x = 111 ∨ x = 79) (buf rest : List Nat) (N : Nat)
    (h : Digits 8 buf N) (hl : buf.length ≤ 31) (hN : N < 2 ^ 61)
    (hr : ∀ c ∈ rest.head?, ¬ ∃ d, d < 8 ∧ DigitCode c d) :
    ∃ m, m.Canonical ∧ m.val = (N : Int) ∧ reader base (35 :: x :: buf ++ rest) = (.val (.int m), rest) := by
  obtain ⟨m, e, m1, m2⟩ := oct_spec buf rest N h hl hN (by
    intro c hc hh
    exact hr c hc ⟨c - 48, by omega, Or.inl ⟨by omega, by omega⟩⟩)
  refine ⟨m, m1, m2, ?_⟩
  apply reader_of_read1 base (35 :: x :: buf) rest
  · exact ⟨35, _, rfl, by decide, by decide, by decide, by decide⟩
  · have hxx : to_upper x = 79 := by rcases hx with rfl | rfl <;> rfl
    simp only [List.cons_append, List.length_cons]
    rw [read1_sharp base _ x (buf ++ rest) (by omega) (by omega) (by omega) (by omega),
      if_neg (by rw [hxx]; decide), if_pos hxx, e]

example : reader 10 [35, 111, 55, 55, 55, 32] = (.val (.int (.fix 511)), [32]) := by decide

/-- The violation for larger values: 2^61 gives an object that is not a canonical integer, 2^63 reads
as a negative number, 2^64 as -1, and 32 digits overrun the buffer. -/
theorem C78_big_wrong :
    reader 10 [35, 111, 50, 48, 48, 48, 48, 48, 48, 48, 48, 48, 48, 48, 48, 48, 48, 48, 48, 48, 48,
      48, 48] = (.val (.int (.fix 0x2000000000000000)), []) ∧
    ¬ Num.Canonical (.fix 0x2000000000000000) ∧
    reader 10 [35, 111, 49, 48, 48, 48, 48, 48, 48, 48, 48, 48, 48, 48, 48, 48, 48, 48, 48, 48, 48,
      48, 48, 49] = (.val (.int (.big [0x8000000000000001])), []) ∧
    (Num.big [0x8000000000000001]).val < 0 ∧
    reader 10 [35, 111, 50, 48, 48, 48, 48, 48, 48, 48, 48, 48, 48, 48, 48, 48, 48, 48, 48, 48, 48,
      48, 48, 48] = (.val (.int (.fix (-1))), []) ∧
    (reader 10 [35, 111, 48, 48, 48, 48, 48, 48, 48, 48, 48, 48, 48, 48, 48, 48, 48, 48, 48, 48, 48,
      48, 48, 48, 48, 48, 48, 48, 48, 48, 48, 48, 48, 48]).1 = .ub := by
  refine ⟨by decide, ?_, by decide, ?_, by decide, by decide⟩
  · unfold Num.Canonical; simp only [InFix]; decide
  · simp only [Num.val, limbsVal]; decide

/-! ### C52: strings -/

/-- Reading what is printed for a string gives the string, for all its bytes, wherever it stands. -/
theorem C52_string (p : PCfg) (base : Nat) (s : List Nat) :
    ∃ txt, prinx p (.str s) = some txt ∧
      ∀ rest, reader base (txt ++ rest) = (.val (.str s), rest) := by
  refine ⟨printstr s, ?_, ?_⟩
  · unfold prinx
    rw [prin1_atom p _ _ (by omega) (by simp)]; rfl
  · intro rest
    exact reader_of_read1 _ _ _ _ ⟨34, _, rfl, by decide, by decide, by decide, by decide⟩
      (read1_string base _ s rest)

example : prinx dflt (.str [97, 34, 92, 0, 255]) = some [34, 97, 92, 34, 92, 92, 0, 255, 34] := by decide

/-! ### C53: symbols -/

/-- Reading what is printed for a symbol of the current package gives that symbol.  Missing: names
with a backslash or a rejected control character, of 1024 characters or more, beginning with a
character that is not ASCII, very long ones with bars, and names such as `+1`, `1e` or `.e` with the
syntax of a number (see below). -/
theorem C53_symbol_partial (p : PCfg) (name : List Nat) (h : GoodName p.base name) :
    ∃ txt, prinx p (.sym name) = some txt ∧
      ∀ rest, Delim rest → reader p.base (txt ++ rest) = (.val (.sym name), rest) := by
  obtain ⟨txt, e, _, hr⟩ := sym_read p name h
  refine ⟨txt, ?_, fun rest hrest => reader_of_read1 _ _ _ _ (sym_first p name h txt e) (hr rest _ hrest)⟩
  unfold prinx
  rw [prin1_atom p _ _ (by omega) (by simp)]; exact e

/-- The same for keywords, whatever their first character, and even if they look like numbers. -/
theorem C53_keyword_partial (p : PCfg) (name : List Nat) (h : GoodKey name) :
    ∃ txt, prinx p (.key name) = some txt ∧
      ∀ rest, Delim rest → reader p.base (txt ++ rest) = (.val (.key name), rest) := by
  obtain ⟨txt, e, hr⟩ := key_read p name h
  refine ⟨58 :: txt, ?_, fun rest hrest => reader_of_read1 _ _ _ _
    ⟨58, _, rfl, by decide, by decide, by decide, by decide⟩ (hr rest _ hrest)⟩
  unfold prinx
  rw [prin1_atom p _ _ (by omega) (by simp)]
  simp [printAtom, e]

/-- a name with a space, a bar, lower case and a parenthesis -/
example : prinx dflt (.sym [97, 32, 124, 40]) = some [124, 97, 32, 92, 124, 40, 124] ∧
    reader 10 [124, 97, 32, 92, 124, 40, 124] = (.val (.sym [97, 32, 124, 40]), []) := by
  constructor <;> decide

example : GoodName 10 [97, 32, 124, 40] := by
  refine ⟨?_, by decide, Or.inl (by decide), ?_, ?_⟩
  · intro c hc
    simp only [List.mem_cons, List.not_mem_nil, or_false] at hc
    rcases hc with rfl | rfl | rfl | rfl <;> exact ⟨by omega, by omega, by omega⟩
  · rintro ⟨sg, body, e, hs, ds, hds, hh⟩
    exfalso
    have h97 : ¬ ((48 ≤ 97 ∧ 97 ≤ 57 ∧ 97 < 48 + 10) ∨ (65 ≤ 97 ∧ 97 < 65 + (10 - 10))) := by decide
    rcases hs with rfl | rfl | rfl
    · rw [List.nil_append] at e
      subst e
      cases ds with
      | nil =>
        rcases hh with ⟨h, _⟩ | ⟨h, _⟩ | ⟨es, _, _, h⟩ | ⟨es, x, _, _, h⟩ | ⟨h, _⟩ | ⟨h, _⟩
        · exact h rfl
        · simp at h
        · simp at h
        · simp at h
        · exact h rfl
        · exact h rfl
      | cons d ds =>
        have hd := hds d (by simp)
        rcases hh with ⟨_, h⟩ | ⟨h, _⟩ | ⟨es, _, _, h⟩ | ⟨es, x, _, _, h⟩ | ⟨_, x, _, h⟩ | ⟨_, x, _, _, h⟩ <;>
          (simp only [List.cons_append, List.cons.injEq] at h; rw [← h.1] at hd; exact h97 hd)
    · simp at e
    · simp at e
  · intro c hc; simp at hc; omega

/-- The violations: the symbol `+1` reads as the integer 1; `1E` as a floating number; a name with a
backslash or a control character is an error; 255 letters followed by 300 bars overrun the printer's
buffer. -/
theorem C53_wrong :
    (prinx dflt (.sym [43, 49]) = some [43, 49] ∧ reader 10 [43, 49] = (.val (.int (.fix 1)), [])) ∧
    (prinx dflt (.sym [49, 69]) = some [49, 101] ∧ reader 10 [49, 101] = (.val (.float [49, 69]), [])) ∧
    (prinx dflt (.sym [65, 92]) = some [124, 65, 92, 124] ∧ (reader 10 [124, 65, 92, 124]).1 = .err) ∧
    (prinx dflt (.sym [1]) = some [124, 1, 124] ∧ (reader 10 [124, 1, 124]).1 = .err) ∧
    prinx dflt (.sym (List.replicate 255 65 ++ List.replicate 300 124)) = none := by
  refine ⟨⟨by decide, by decide⟩, ⟨by decide, by decide⟩, ⟨by decide, by decide⟩,
    ⟨by decide, by decide⟩, by decide⟩

/-! ### C54: trees -/

/-- Reading what is printed for a tree gives the tree: conses, dotted or not, quoted forms, canonical
integers, strings, symbols and keywords, nested less than 32768 deep.  Missing: the atoms excluded by
C10 and C53, lists longer than 65536 elements (`C54_long_wrong`) and a symbol named `.`
(`C54_dot_wrong`). -/
theorem C54_tree_partial (p : PCfg) (hb : 2 ≤ p.base) (hb' : p.base ≤ 36) (t : T)
    (hg : GoodTree p.base p.prlength t) (hd : depth t < 65536) :
    ∃ txt, prinx p t = some txt ∧
      ∀ rest, Delim rest → reader p.base (txt ++ rest) = (.val t, rest) := by
  obtain ⟨h, _, _⟩ := tree_read p hb hb' t hg
  obtain ⟨txt, e, hh, hr⟩ := h 65536 (by omega)
  refine ⟨txt, e, fun rest hrest => reader_of_read1 _ _ _ _ hh.first (hr rest _ hrest (by simp; omega))⟩

/-- `(1 (quote A) (FUNCTION "x") (:B . -2) NIL)` -/
def sample : T :=
  .cons (.int (.fix 1)) (.cons (.cons QUOTE (.cons (.sym [65]) NIL))
    (.cons (.cons FUNCTION (.cons (.str [120]) NIL))
      (.cons (.cons (.key [66]) (.int (.fix (-2)))) (.cons NIL NIL))))

example : prinx dflt sample = some [40, 49, 32, 39, 97, 32, 35, 39, 34, 120, 34, 32, 40, 58, 98, 32, 46, 32, 45, 50, 41,
      32, 110, 105, 108, 41] ∧
    reader 10 [40, 49, 32, 39, 97, 32, 35, 39, 34, 120, 34, 32, 40, 58, 98, 32, 46, 32, 45, 50, 41,
      32, 110, 105, 108, 41, 32, 122] = (.val sample, [32, 122]) := by
  constructor <;> decide

example : GoodTree 10 65536 (.cons (.int (.fix 1)) (.cons (.str [120]) (.key [66]))) ∧
    depth (.cons (.int (.fix 1)) (.cons (.str [120]) (.key [66]))) < 65536 := by
  refine ⟨⟨⟨?_, ?_⟩, ⟨trivial, ?_, by simp [spine]⟩, by simp [spine]⟩, by simp [depth]⟩
  · simp only [Num.Canonical, InFix]; decide
  · refine ⟨?_, Or.inl ?_⟩
    · have : (Num.fix 1).val.natAbs = 1 := rfl
      rw [this]; exact Nat.one_lt_pow (by omega) (by omega)
    · simp only [Num.val]; decide
  · exact ⟨by intro c hc; simp at hc; subst hc; exact ⟨by omega, by omega, by omega⟩, by decide,
      Or.inl (by decide)⟩

/-- A list of `k` zeros. -/
def zeros : Nat → T
  | 0 => NIL
  | k + 1 => .cons (.int (.fix 0)) (zeros k)

theorem printRest_zeros (p : PCfg) (lev : Int) : ∀ (len k m : Nat), len ≤ k → len ≤ m → 0 < len →
    printRest p (zeros k) len lev = printRest p (zeros m) len lev := by
  intro len
  induction len with
  | zero => intro k m _ _ h; omega
  | succ n ih =>
    intro k m h1 h2 _
    obtain ⟨k, rfl⟩ : ∃ k', k = k' + 1 := ⟨k - 1, by omega⟩
    obtain ⟨m, rfl⟩ : ∃ m', m = m' + 1 := ⟨m - 1, by omega⟩
    rw [zeros, zeros, printRest.eq_def, printRest.eq_def p (.cons _ (zeros m))]
    simp only [Nat.add_sub_cancel]
    by_cases hn : n = 0
    · rw [if_pos hn, if_pos hn]
    · rw [if_neg hn, if_neg hn, ih k m (by omega) (by omega) (by omega)]

/-- The violation for long lists: with `*print-length*` nil, lists of 65537 and of 65538 zeros print
as the same text, so no reader can tell them apart. -/
theorem C54_long_wrong : prinx dflt (zeros 65537) = prinx dflt (zeros 65538) ∧ zeros 65537 ≠ zeros 65538 := by
  constructor
  · unfold prinx
    have h1 : zeros 65537 = .cons (.int (.fix 0)) (zeros 65536) := rfl
    have h2 : zeros 65538 = .cons (.int (.fix 0)) (zeros 65537) := rfl
    rw [h1, h2, prin1.eq_def, prin1.eq_def dflt (.cons _ (zeros 65537))]
    have q : ∀ d, quoteMark (.int (.fix 0)) d = none := by
      intro d; cases d <;> rfl
    simp only [q]
    rw [printRest_zeros dflt (65536 - 1) dflt.prlength 65536 65537 (by decide) (by decide) (by decide)]
  · have hs : ∀ k, spine (zeros k) = k := by
      intro k; induction k with
      | zero => rfl
      | succ k ih => rw [zeros, spine, ih]
    intro h
    have := congrArg spine h
    rw [hs, hs] at this
    omega

/-- The violation for the symbol named `.`: the list of it and `A` prints as `(. a)` and reads as
`A`. -/
theorem C54_dot_wrong :
    prinx dflt (.cons (.sym [46]) (.cons (.sym [65]) NIL)) = some [40, 46, 32, 97, 41] ∧
    reader 10 [40, 46, 32, 97, 41] = (.val (.sym [65]), []) := by
  constructor <;> decide

/-! ### C55: comments -/

/-- The reader skips a comment with comments nested in it up to the mark that closes it, when no
closing mark in it is directly followed by a bar.  Missing: comments with `|#|` in them
(`C55_overlap_wrong`) or with byte 255 (`C55_byte255_wrong`). -/
theorem C55_comment_partial (body rest : List Nat) (h : afterComment 0 (body ++ rest) = some rest)
    (h255 : 255 ∉ body) (hov : ¬ [124, 35, 124] <:+: body) :
    read_sharp_comment (body ++ rest) = (.unbound, rest) := by
  unfold read_sharp_comment
  have := comment_closed (2 * (body ++ rest).length + 2) (body ++ rest) 0 body rest (by omega) h rfl h255 hov
  rw [show ((0 : Nat) : Int) = 0 from rfl] at this
  rw [this]

/-- A comment that is not closed ends at the end of the stream. -/
theorem C55_unclosed_partial (s : List Nat) (h : afterComment 0 s = none)
    (h255 : 255 ∉ s) (hov : ¬ [124, 35, 124] <:+: s) :
    read_sharp_comment s = (.eof, []) := by
  unfold read_sharp_comment
  have := comment_open (2 * s.length + 2) s 0 (by omega) h h255 hov
  rw [show ((0 : Nat) : Int) = 0 from rfl] at this
  rw [this]

/-- So a comment among the elements of a list is ignored. -/
theorem C55_in_list_partial (base n : Nat) (body rest : List Nat)
    (h : afterComment 0 (body ++ rest) = some rest) (h255 : 255 ∉ body)
    (hov : ¬ [124, 35, 124] <:+: body) :
    readTail base (n + 3) (35 :: 124 :: body ++ rest) = readTail base (n + 2) rest := by
  rw [readTail.eq_def]
  have hn : nextch (35 :: 124 :: body ++ rest) = .ch 35 (124 :: body ++ rest) :=
    nextch_head 35 _ (by decide) (by decide) (by decide)
  have hs : syntaxtype 35 = .nontermacro := rfl
  have e : read1 base (n + 2) (35 :: (124 :: body ++ rest)) = (.unbound, rest) := by
    rw [read1.eq_def]; simp only [hs]
    rw [if_neg (by decide), if_neg (by decide), if_neg (by decide), if_neg (by decide),
      if_neg (by decide), if_pos (by trivial), List.cons_append, readsharp.eq_def]
    simp only
    rw [if_neg (by decide), if_neg (by decide)]
    simp only
    rw [if_neg (by decide), if_neg (by decide), if_pos (by trivial)]
    exact C55_comment_partial body rest h h255 hov
  simp only [hn]
  rw [if_neg (by decide), if_neg (by decide), e]

/-- `(1 #| a #| b |# c |# 2)` -/
example : reader 10 [40, 49, 32, 35, 124, 32, 97, 32, 35, 124, 32, 98, 32, 124, 35, 32, 99, 32, 124, 35,
      32, 50, 41] =
    (.val (.cons (.int (.fix 1)) (.cons (.int (.fix 2)) NIL)), []) := by decide

example : afterComment 0 [32, 97, 32, 35, 124, 32, 98, 32, 124, 35, 32, 99, 32, 124, 35, 32, 50, 41] = some [32, 50, 41] := by
  decide

/-- The violation after a closing mark: `#| #| |#||# 1` is a closed comment followed by `1`, but the
reader takes the `#` of the inner closing mark and the bar after it for an opening mark. -/
theorem C55_overlap_wrong :
    afterComment 0 [32, 35, 124, 32, 124, 35, 124, 124, 35, 32, 49] = some [32, 49] ∧
    (read_sharp_comment [32, 35, 124, 32, 124, 35, 124, 124, 35, 32, 49]).1 = .eof := by
  constructor <;> decide

/-- The violation for byte 255, taken for the end of the file. -/
theorem C55_byte255_wrong :
    afterComment 0 [255, 124, 35] = some [] ∧ read_sharp_comment [255, 124, 35] = (.eof, [124, 35]) := by
  constructor <;> decide

/-- The violation outside lists: `read` returns `nil` for a comment instead of reading on. -/
theorem C55_toplevel_wrong :
    reader 10 [35, 124, 97, 124, 35, 32, 49] = (.val NIL, [32, 49]) := by decide

/-! ### C79: numbers in fields -/

/-- An integer printed in a field of `w` columns with at least `d` places stands at the right, after
blanks, its sign first, with zeros before its digits; it takes `w` columns, or more if it needs them.
Missing: negative bignums with more places than digits (`C79_bignum_wrong`). -/
theorem C79_field_partial (base : Nat) (down : Bool) (hb : 2 ≤ base) (hb' : base ≤ 36) (n : Num)
    (hn : n.Canonical) (w d : Nat) :
    ∃ ds : List Nat, printnum base down n 0 0 = some ((if n.val < 0 then [45] else []) ++ ds) ∧
      ((InFix n.val ∨ 0 ≤ n.val ∨ d ≤ ds.length) →
        ∃ blanks zeros : Nat,
          printnum base down n w d = some (List.replicate blanks 32 ++ (if n.val < 0 then [45] else []) ++
            List.replicate zeros 48 ++ ds) ∧
          (blanks + (if n.val < 0 then 1 else 0) + zeros + ds.length =
            max w (max d ((if n.val < 0 then 1 else 0) + ds.length))) ∧
          zeros = d - ((if n.val < 0 then 1 else 0) + ds.length)) := by
  obtain ⟨ds, h1, h2⟩ := printnum_field base down hb hb' n (canonical_wf n hn) (by
    rintro v rfl hz
    exact hn.2.1 (by rw [hz]; unfold InFix; omega)) w d
  refine ⟨ds, h1, fun h => ?_⟩
  have h3 := h2 (by
    rintro v rfl hneg
    have hv : (Num.big v).val = limbsVal v := rfl
    rcases h with h | h | h
    · exact absurd h hn.2.1
    · omega
    · exact h)
  refine ⟨_, _, h3, ?_, rfl⟩
  omega

example : printnum 10 true (.fix (-42)) 8 4 = some [32, 32, 32, 32, 45, 48, 52, 50] ∧
    printnum 16 true (.fix 255) 4 1 = some [32, 32, 102, 102] := by
  constructor <;> decide

/-- The violation: -2^61-1 in a field of 25 columns with 21 places takes 24 columns. -/
theorem C79_bignum_wrong :
    (Num.big [0xDFFFFFFFFFFFFFFF]).Canonical ∧ (Num.big [0xDFFFFFFFFFFFFFFF]).val = -2 ^ 61 - 1 ∧
    (printnum 10 true (.big [0xDFFFFFFFFFFFFFFF]) 25 21).map List.length = some 24 := by
  refine ⟨?_, ?_, by decide⟩
  · unfold Num.Canonical; simp only [WFv, limbsVal, InFix]; decide
  · simp only [Num.val, limbsVal]; decide

end Eus.Rd
