import Verif.Ppr.Proofs
import Verif.Ppr.Table
import Verif.Ppr.Size
set_option autoImplicit false
/-
C173: what `pprint` writes is read as the form.
-/
namespace Eus.Ppr
open Eus.Rd Eus.Num

/-- **C173** (partial): whatever `print-size` and `fboundp` say, and so however the lines are chosen, what
`(pprint x file tab platen)` writes is read back as `x`, and only the end of the last line is left.  This is for trees
that `prin1` prints in a readable way (C10) and in which the forms with a layout of their own (`quote`, `defun`,
`defmacro`, `defclass`, `lambda`, `macro`, `set`, `setq`) have their syntax, with names that need no bars and
parameter lists that are not dotted.  Missing: vectors, arrays and instances; the forms that are excluded are lost
(`C173_*_wrong`). -/
theorem C173_pprint_partial (L : Layout) (p : PCfg) (hb : 2 ≤ p.base) (hb' : p.base ≤ 36) (t : T)
    (hg : GoodTree p.base p.prlength t) (hd : depth t < 65536) (hp : Ppable p.base t) (hs : Sized L t)
    (tab : Nat) (platen : Int) :
    ∃ txt, pprint L p t tab platen = .ok (txt ++ [10]) ∧
      ∀ rest, reader p.base ((txt ++ [10]) ++ rest) = (.val t, 10 :: rest) := by
  obtain ⟨txt, e, hh, hr⟩ := (all L p platen hb hb' t).form ⟨hg, hd, hs⟩ hp tab
  refine ⟨txt, by rw [pprint, e]; rfl, fun rest => ?_⟩
  rw [List.append_assoc]
  refine reader_of_read1 _ _ _ _ hh.first (hr _ _ (delim_cons 10 _ (Or.inl (by decide))) ?_)
  simp only [List.length_append]; omega

/-! ### The `print-size` of the code -/

theorem atomSize_some (t : T) (n : Nat) (h : Short t) : (atomSize t n).isSome := by
  cases t with
  | int v =>
    cases v with
    | fix w =>
      have := decimals_short w.toInt h.1 h.2
      simp only [atomSize]
      rw [if_pos (by omega)]; rfl
    | big l => rfl
  | _ => rfl

theorem prnt_some (lim : Int) (t : T) (h : Short t) :
    (∀ n, (prnt lim t n).isSome) ∧ (∀ n, (prntCar lim t n).isSome) ∧ (∀ n, (prntRest lim t n).isSome) := by
  induction t with
  | cons a d iha ihd =>
    obtain ⟨a1, _, _⟩ := iha h.1
    obtain ⟨_, d2, d3⟩ := ihd h.2
    refine ⟨?_, ?_, ?_⟩
    · intro n
      rw [prnt]
      split
      · rfl
      split
      · exact d2 _
      obtain ⟨k, hk⟩ := Option.isSome_iff_exists.1 (a1 (n + 2))
      rw [hk]
      simp only
      split
      · rfl
      · exact d3 _
    · intro n; rw [prntCar]; exact a1 n
    · intro n
      rw [prntRest]
      obtain ⟨k, hk⟩ := Option.isSome_iff_exists.1 (a1 (n + 1))
      rw [hk]
      simp only
      split
      · rfl
      · exact d3 _
  | _ =>
    refine ⟨?_, ?_, ?_⟩
    · intro n
      rw [prnt.eq_def]
      simp only
      split
      · rfl
      · exact atomSize_some _ n h
    · intro n; rw [prntCar.eq_def]; rfl
    · intro n
      rw [prntRest.eq_def]
      simp only
      split
      · rfl
      · rw [Option.isSome_map]
        split
        · rfl
        · exact atomSize_some _ _ h

/-- **C173**: the `print-size` of the code has a value for every tree without integers of more than 15 characters, so
that the theorem above holds of it. -/
theorem C173_print_size (fbound : T → Bool) (t : T) (h : Short t) : Sized (real fbound) t := by
  induction t with
  | cons a d iha ihd =>
    exact ⟨fun lim => (prnt_some lim _ h).1 0, iha h.1, ihd h.2⟩
  | _ => exact fun lim => (prnt_some lim _ h).1 0

/-- A symbol. -/
def S (s : String) : T := .sym (nm s)
/-- A list. -/
def ls : List T → T
  | [] => NIL
  | a :: r => .cons a (ls r)
/-- An integer. -/
def I (n : Int) : T := .int (.fix (BitVec.ofInt 64 n))

/-- The settings of a toplevel: decimal, lower case. -/
def P : PCfg := ⟨10, true, 1000⟩

/-- `(defun f (x y) (setq a 'b c (g x)) (if x y 12))` -/
def ex : T := ls [S "DEFUN", S "F", ls [S "X", S "Y"],
  ls [S "SETQ", S "A", ls [S "QUOTE", S "B"], S "C", ls [S "G", S "X"]], ls [S "IF", S "X", S "Y", I 12]]

example : pprint (real fun t => t = S "IF") P ex 0 12 = .ok
    (nm "(defun f (x y)\n   (setq\n      a 'b\n      c (g\n         x))\n   (if\n      x\n      y\n      12))\n") := by
  decide +kernel
example : pprint (real fun t => t = S "IF") P ex 0 25 = .ok
    (nm "(defun f (x y)\n   (setq a 'b c (g x))\n   (if x y 12))\n") := by
  decide +kernel
example : pprint (real fun t => t = S "IF") P ex =
    .ok (nm "(defun f (x y) (setq a 'b c (g x)) (if x y 12))\n") := by
  decide +kernel

/-- Words of capital letters are good names. -/
theorem word_good (n : List Nat) (h : ∀ c ∈ n, 65 ≤ c ∧ c ≤ 90) (hn : n ≠ []) (hl : n.length < 200) :
    (GoodName 10 n ∧ n ≠ [46] ∧ ∀ c w, n = 46 :: c :: w → c < 128) ∧ PlainName 10 n := by
  obtain ⟨c, w, rfl⟩ : ∃ c w, n = c :: w := by
    cases n with
    | nil => exact absurd rfl hn
    | cons c w => exact ⟨c, w, rfl⟩
  have hc := h c (by simp)
  have hnd : ¬ ((48 ≤ c ∧ c ≤ 57 ∧ c < 48 + 10) ∨ (65 ≤ c ∧ c < 65 + (10 - 10))) := by omega
  refine ⟨⟨⟨?_, by omega, Or.inl (by omega), ?_, ?_⟩, ?_, ?_⟩, fun x hx => Or.inl (h x hx), fun ha => hnd (ha c (by simp))⟩
  · intro x hx
    have := h x hx
    exact ⟨by omega, by omega, by omega⟩
  · rintro ⟨sg, body, e, hs, ds, hds, hh⟩
    exfalso
    rcases hs with rfl | rfl | rfl
    · rw [List.nil_append] at e
      subst e
      cases ds with
      | nil =>
        rcases hh with ⟨h, _⟩ | ⟨h, _⟩ | ⟨es, _, _, h⟩ | ⟨es, x, _, _, h⟩ | ⟨h, _⟩ | ⟨h, _⟩
        · exact h rfl
        · simp at h; omega
        · simp at h; omega
        · simp at h; omega
        · exact h rfl
        · exact h rfl
      | cons d ds =>
        have hd := hds d (by simp)
        rcases hh with ⟨_, h⟩ | ⟨h, _⟩ | ⟨es, _, _, h⟩ | ⟨es, x, _, _, h⟩ | ⟨_, x, _, h⟩ | ⟨_, x, _, _, h⟩ <;>
          (simp only [List.cons_append, List.cons.injEq] at h; rw [← h.1] at hd; exact hnd hd)
    · simp at e; omega
    · simp at e; omega
  · intro x hx; simp at hx; omega
  · intro hx; simp at hx; omega
  · intro x y hx; simp at hx; omega

/-- The hypotheses of the theorem hold of the form above. -/
example : GoodTree 10 1000 ex ∧ depth ex < 65536 ∧ Ppable 10 ex ∧ Short ex ∧ Sized (real fun _ => false) ex := by
  have hs : Short ex := by
    unfold ex
    simp only [ls, S, I, Short, NIL, and_true, true_and]
    decide
  refine ⟨?_, by decide, ?_, hs, C173_print_size _ _ hs⟩
  · unfold ex
    simp only [ls, S, I, GoodTree, NIL]
    repeat' (first
      | exact (word_good _ (by decide) (by decide) (by decide)).1
      | (show spine _ < 1000; decide)
      | (show GoodInt _ _; exact ⟨by decide +kernel, Or.inl (by decide)⟩)
      | apply And.intro)
    · decide
    · decide
  · unfold ex
    simp only [ls, S, I, Ppable, PpTail, NIL, and_true, true_and]
    repeat' (first
      | exact (word_good _ (by decide) (by decide) (by decide)).2
      | apply And.intro
      | apply Shape.mk
      | (intro h; exact absurd h (by decide))
      | (intro _; exact ⟨_, rfl⟩)
      | (intro _; simp only [Pairs, NameArgsBody, ArgsBody, Proper, NIL, and_true]))

/-! ### What is lost -/

/-- No bars: `(defun |a b| (x) ...)` on more than one line is written with the name `a b`, which is read as two. -/
theorem C173_name_wrong (fbound : T → Bool) :
    ∃ txt, pprint (real fbound) P (ls [S "DEFUN", .sym (nm "a b"), ls [S "X"], S "X"]) 0 10 = .ok txt ∧
      (reader 10 txt).1 = .val (ls [S "DEFUN", S "A", S "B", ls [S "X"], S "X"]) := by
  refine ⟨nm "(defun a b (x)\n   x)\n", rfl, ?_⟩
  decide +kernel

/-- `(quote a b)` on more than one line is written `'a`. -/
theorem C173_quote_wrong (fbound : T → Bool) :
    pprint (real fbound) P (ls [S "QUOTE", S "ALPHA", S "BETA"]) 0 10 = .ok (nm "'alpha\n") := by
  rfl

/-- The last variable of `(setq a 1 b)` is dropped when it is written on more than one line. -/
theorem C173_setq_wrong (fbound : T → Bool) :
    ∃ txt, pprint (real fbound) P (ls [S "SETQ", S "A", I 1, S "B"]) 0 10 = .ok txt ∧
      (reader 10 txt).1 = .val (ls [S "SETQ", S "A", I 1]) := by
  refine ⟨nm "(setq\n   a 1)\n", rfl, ?_⟩
  decide +kernel

/-- A dotted parameter list that does not fit on the line: `pprint` stops with an error. -/
theorem C173_dotted_wrong (fbound : T → Bool) :
    pprint (real fbound) P (ls [S "DEFMACRO", S "M", .cons (S "ALPHA") (S "BETA"), S "X"]) 0 15 = .error .notList := by
  rfl

/-- `print-size` writes a fixnum of 16 characters or more beyond the end of its buffer (lispio.c:125, 129). -/
theorem C173_overflow_wrong (fbound : T → Bool) (lim : Int) (h : 0 < lim) :
    (real fbound).size (I 1000000000000000) lim = none ∧ ¬ Sized (real fbound) (I 1000000000000000) := by
  have h1 : ∀ l : Int, 0 < l → (real fbound).size (I 1000000000000000) l = none := by
    intro l hl
    have : ¬ l ≤ ((0 : Nat) : Int) := by simpa using hl
    show prnt l (I 1000000000000000) 0 = none
    unfold I
    rw [prnt.eq_def]
    simp only
    rw [if_neg this]
    decide +kernel
  refine ⟨h1 lim h, fun hs => ?_⟩
  have := hs 1
  rw [h1 1 (by decide)] at this
  exact absurd this (by decide)

end Eus.Ppr
