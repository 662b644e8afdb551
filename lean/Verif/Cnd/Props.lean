import Verif.Cnd.Proofs
set_option autoImplicit false
namespace Eus.Cnd

/-- A small program to read in: the state is how many forms `#.` has evaluated, the features are the
symbols 10 and 11, a form evaluates to a number, the form `oth 99` fails. -/
def W0 : World Nat where
  features := fun _ => [10, 11]
  eval := fun o s => if o = .oth 99 then none else some (.oth s, s + 1)

theorem W0_steady : Steady W0 := by
  constructor
  · intro o s v s' _; rfl
  · intro o s v s' h
    by_cases ho : o = .oth 99
    · simp [W0, ho] at h
    · simp [W0, ho] at h; obtain ⟨rfl, -⟩ := h; simp

/-- C180.  `read` gives the object the text stands for and leaves what follows it: in a list, the
element after `#+f` is there if and only if the feature expression `f` holds, the one after `#-f` if
and only if it does not; comments count for nothing; `#.` forms are evaluated from left to right.
For every expression, nesting and feature expression, and whatever comes before on the line
(closing parentheses, line comments).
Partial: conditionals and block comments are between elements of lists (not after a quote, after the
dot, after another conditional or in a vector: see the theorems below), `#.` is not used in excluded
forms and does not change the features. -/
theorem C180_reads_partial {σ : Type} (W : World σ) (hW : Steady W) (x : Src) (rest : List Tok) (s : σ)
    (h : x.quiet (W.features s)) : Reads W (x.text ++ rest) rest s (x.mean W s) := by
  have hst := x.text_starts
  have hk := read1_src W hW x (2 * (x.text ++ rest).length + 2) rest s
    (by simp only [List.length_append]; omega) h
  unfold Reads read
  rw [skipTop_starts x.text rest (by obtain ⟨a, b, c, d⟩ := hst; exact ⟨a, b, c, .inl d⟩), hk]
  cases hx : x.mean W s with
  | none => rfl
  | some p =>
    obtain ⟨o, s'⟩ := p
    have := Src.mean_ok W hW x s s' o hx
    simp only [res, if_neg this.2.1]

/-- `(a #+(and f10 (not f12)) b #-f10 c ; note
     #.form . d)` with the features 10 and 11. -/
example : (Src.list (.el (.sym 20) (.cond true (.and (.cons (.sym 10) (.cons (.not (.sym 12)) .nil))) (.sym 21)
      (.cond false (.sym 10) (.sym 22) (.lineC (.blockC (.el (.ev (.oth 1)) (.tail (.sym 23) 1)))))))).quiet (W0.features 5) ∧
    (Src.list (.el (.sym 20) (.cond true (.and (.cons (.sym 10) (.cons (.not (.sym 12)) .nil))) (.sym 21)
      (.cond false (.sym 10) (.sym 22) (.lineC (.blockC (.el (.ev (.oth 1)) (.tail (.sym 23) 1)))))))).mean W0 5 =
    some (.cons (.sym 20) (.cons (.sym 21) (.cons (.oth 5) (.sym 23))), 6) := by
  constructor
  · simp [Src.quiet, Items.quiet, FE.holds, FEs.all, W0, Src.plain]
  · simp [Src.mean, Items.mean, FE.holds, FEs.all, W0]

/-- C180, the flag: a symbol is looked up in `*features*`; `(not f)`, `(and ...)`, `(or ...)` are the
boolean operations; `(and)` is true, `(or)` is false.  Stated for a list of one conditional. -/
theorem C180_flag {σ : Type} (W : World σ) (p : Bool) (f : FE) (k : Nat) (rest : List Tok) (s : σ) :
    read W ([.lp, if p then .plus else .minus] ++ f.text ++ [.sym k, .rp] ++ rest) s =
      .ok (if f.holds (W.features s) = p then .cons (.sym k) (.sym 0) else .sym 0) rest s := by
  have hf := f.len_pos
  have hl : (([.lp, if p then .plus else .minus] : List Tok) ++ f.text ++ [Tok.sym k, Tok.rp] ++ rest).length =
      f.text.length + rest.length + 4 := by simp; omega
  have i1 := read1_fe W f (2 * (f.text.length + rest.length) + 7) ([.sym k, .rp] ++ rest) s (by omega)
  unfold read
  rw [hl]
  rw [show (([.lp, if p then .plus else .minus] : List Tok) ++ f.text ++ [.sym k, .rp] ++ rest) =
    .lp :: (if p then Tok.plus else .minus) :: (f.text ++ ([.sym k, .rp] ++ rest)) by simp]
  rw [show 2 * (f.text.length + rest.length + 4) + 2 = (2 * (f.text.length + rest.length) + 9) + 1 by omega]
  simp only [skipTop, read1]
  rw [show 2 * (f.text.length + rest.length) + 9 = (2 * (f.text.length + rest.length) + 8) + 1 by omega]
  rw [readList_el W _ _ _ s (by cases p <;> rfl)]
  have key : read1 W (2 * (f.text.length + rest.length) + 8)
      ((if p then Tok.plus else .minus) :: (f.text ++ ([.sym k, .rp] ++ rest))) s =
      .ok (if f.holds (W.features s) = p then .sym k else .unb) (.rp :: rest) s := by
    rw [show 2 * (f.text.length + rest.length) + 8 = (2 * (f.text.length + rest.length) + 7) + 1 by omega]
    cases p <;> simp only [List.cons_append, List.nil_append] at i1 ⊢ <;> simp [read1, i1, condEnd_fe]
  rw [key]
  simp only [readList, nextch]
  by_cases hh : f.holds (W.features s) = p <;> simp [hh, NIL]

/-- `#+(or f12 (not f10) f11)` with the features 10, 11. -/
example : read W0 ([.lp, .plus] ++ (FE.or (.cons (.sym 12) (.cons (.not (.sym 10)) (.cons (.sym 11) .nil)))).text ++
    [.sym 30, .rp] ++ [.oth 7]) 0 = .ok (.cons (.sym 30) (.sym 0)) [.oth 7] 0 := by
  rw [show ([.lp, .plus] : List Tok) = [.lp, if true then .plus else .minus] from rfl, C180_flag]
  simp [FE.holds, FEs.any, W0]

/-! What the partial theorem leaves out is wrong in the code. -/

/-- A comment after the flag takes the place of the form: `(#-f ; note
x)` has `x` in it, with or without the feature. -/
theorem C180_comment_wrong {σ : Type} (W : World σ) (f x : Nat) (s : σ) :
    read W [.lp, .minus, .sym f, .lineC, .sym x, .rp] s = .ok (.cons (.sym x) (.sym 0)) [] s := by
  by_cases h : f ∈ W.features s <;>
    simp [read, skipTop, read1, readList, nextch, condEnd, evalCond, h, NIL]

/-- So with the same features, the comment decides: without it the element is excluded. -/
example : read W0 [.lp, .minus, .sym 10, .sym 7, .rp] 0 = .ok (.sym 0) [] 0 ∧
    read W0 [.lp, .minus, .sym 10, .lineC, .sym 7, .rp] 0 = .ok (.cons (.sym 7) (.sym 0)) [] 0 := by
  constructor <;> rfl

/-- In a vector an excluded element or a block comment leaves the null pointer as an element:
`#(1 #-f 2 3)` with the feature `f`. -/
theorem C180_vector_wrong {σ : Type} (W : World σ) (f a b c : Nat) (s : σ) (h : f ∈ W.features s) :
    read W [.vecO, .oth a, .minus, .sym f, .oth b, .oth c, .rp] s =
      .ok (.vec (.cons (.oth a) (.cons .unb (.cons (.oth c) (.sym 0))))) [] s ∧
    read W [.vecO, .oth a, .blockC, .oth c, .rp] s =
      .ok (.vec (.cons (.oth a) (.cons .unb (.cons (.oth c) (.sym 0))))) [] s := by
  constructor <;> simp [read, skipTop, read1, readVec, nextch, condEnd, evalCond, h, NIL]

example : (10 : Nat) ∈ W0.features 0 := by simp [W0]

/-- After a quote an excluded form, or any comment, is quoted as the null pointer:
`('#-f x y)` is `((quote <null>) y)`. -/
theorem C180_quote_wrong {σ : Type} (W : World σ) (f x y : Nat) (s : σ) (h : f ∈ W.features s) :
    read W [.lp, .quote, .minus, .sym f, .sym x, .sym y, .rp] s =
      .ok (.cons (.cons (.sym 1) (.cons .unb (.sym 0))) (.cons (.sym y) (.sym 0))) [] s ∧
    read W [.lp, .quote, .lineC, .sym y, .rp] s =
      .ok (.cons (.cons (.sym 1) (.cons .unb (.sym 0))) (.cons (.sym y) (.sym 0))) [] s := by
  constructor <;> simp [read, skipTop, read1, readList, nextch, condEnd, evalCond, h, NIL, QUOTE]

/-- After the dot: `(a . #-f x)` ends in the null pointer; `(a . #-f x b)` is an error although it
means `(a . b)`; so is a block comment after the last expression, `(a . b #| note |#)`. -/
theorem C180_tail_wrong {σ : Type} (W : World σ) (f a b x : Nat) (s : σ) (h : f ∈ W.features s) :
    read W [.lp, .sym a, .dot, .minus, .sym f, .sym x, .rp] s = .ok (.cons (.sym a) .unb) [] s ∧
    read W [.lp, .sym a, .dot, .minus, .sym f, .sym x, .sym b, .rp] s = .err ∧
    read W [.lp, .sym a, .dot, .sym b, .blockC, .rp] s = .err := by
  refine ⟨?_, ?_, ?_⟩ <;> simp [read, skipTop, read1, readList, nextch, condEnd, evalCond, h, NIL]

/-- Two conditionals in a row: `(#-f #-g x y)` with both features should skip `x` and `y` (the inner
one makes `y` the form of the outer one); it has `y`. -/
theorem C180_chain_wrong {σ : Type} (W : World σ) (f g x y : Nat) (s : σ)
    (hf : f ∈ W.features s) (hg : g ∈ W.features s) :
    read W [.lp, .minus, .sym f, .minus, .sym g, .sym x, .sym y, .rp] s =
      .ok (.cons (.sym y) (.sym 0)) [] s := by
  simp [read, skipTop, read1, readList, nextch, condEnd, evalCond, hf, hg, NIL]

example : (10 : Nat) ∈ W0.features 0 ∧ (11 : Nat) ∈ W0.features 0 := by simp [W0]

/-- At the top level an excluded form reads as `nil`, not as the next form or the end of the file. -/
theorem C180_toplevel_wrong {σ : Type} (W : World σ) (f : Nat) (x : Src) (rest : List Tok) (s : σ)
    (hW : Steady W) (hx : x.plain) (h : f ∈ W.features s) :
    read W ([.minus, .sym f] ++ x.text ++ rest) s = .ok (.sym 0) rest s := by
  obtain ⟨⟨o, ho⟩, hq⟩ := Src.plain_ok W s x hx
  have hk := read1_src W hW x (2 * ([Tok.minus, .sym f] ++ x.text ++ rest).length + 1) rest s
    (by simp only [List.length_append, List.length_cons, List.length_nil]; omega) (hq _)
  unfold read
  generalize hn : 2 * ([Tok.minus, .sym f] ++ x.text ++ rest).length + 1 = n at hk
  rw [show 2 * ([Tok.minus, .sym f] ++ x.text ++ rest).length + 2 = n + 1 by omega]
  obtain ⟨m, rfl⟩ : ∃ m, n = m + 1 := ⟨n - 1, by omega⟩
  simp only [List.cons_append, List.nil_append, skipTop]
  rw [read1]
  simp only [read1, hk, ho, res, condEnd, evalCond, if_pos h]
  simp [NIL]

example : (Src.list (.el (.sym 20) .nil)).plain ∧ (10 : Nat) ∈ W0.features 0 := by
  simp [Src.plain, Items.plain, W0]

/-- An excluded form is read in full: a `#.` in it is evaluated (here the state changes, and if it
fails the whole read fails). -/
theorem C180_excluded_eval_wrong :
    (∃ o, read W0 [.lp, .minus, .sym 10, .ev, .oth 1, .rp] 0 = .ok o [] 1) ∧
    read W0 [.lp, .minus, .sym 10, .ev, .oth 99, .rp] 0 = .err := by
  exact ⟨⟨.sym 0, rfl⟩, rfl⟩

/-- A conditional or comment in the place of the flag crashes: the null pointer is followed. -/
theorem C180_flag_wrong {σ : Type} (W : World σ) (f x y : Nat) (s : σ) (h : f ∈ W.features s) :
    (read W [.lp, .plus, .lineC, .sym f, .sym x, .rp] s = .ub) ∧
    (read W [.lp, .plus, .minus, .sym f, .sym x, .sym f, .sym y, .rp] s = .ub) := by
  constructor <;> simp [read, skipTop, read1, readList, nextch, condEnd, evalCond, h]

/-- C181.  A text that stops inside a list is read as if the list had been closed there: for every
list without a dotted end, what `read` gives for the whole and for the text without the last
parenthesis is the same object. -/
theorem C181_wrong {σ : Type} (W : World σ) (hW : Steady W) (l : Items) (s : σ)
    (hl : l.noTail) (h : l.quiet (W.features s)) :
    Reads W (.lp :: (l.text ++ [.rp])) [] s (l.mean W s) ∧ Reads W (.lp :: l.text) [] s (l.mean W s) := by
  constructor
  · have := C180_reads_partial W hW (.list l) [] s (by simpa [Src.quiet] using h)
    simpa [Src.text, Src.mean] using this
  · have hk := readList_items W hW l (2 * l.text.length + 3) [] [] s (by omega) h (.inr ⟨rfl, rfl, hl⟩)
    rw [List.append_nil] at hk
    unfold Reads read
    rw [show 2 * (Tok.lp :: l.text).length + 2 = (2 * l.text.length + 3) + 1 by simp; omega]
    simp only [skipTop, read1, hk]
    cases hx : l.mean W s with
    | none => rfl
    | some p =>
      obtain ⟨o, s'⟩ := p
      have := Items.mean_ok W hW l s s' o hx
      simp only [res, if_neg this.2.1]

/-- `(a (b c` is `(a (b c))`. -/
example : read W0 [.lp, .sym 20, .lp, .sym 21, .sym 22] 0 =
    .ok (.cons (.sym 20) (.cons (.cons (.sym 21) (.cons (.sym 22) (.sym 0))) (.sym 0))) [] 0 := rfl

/-- C181, the part that holds: nothing at all, or quotes with nothing after them, or closing
parentheses and line comments only, is the end of the file; a text that stops after the expression
that follows a dot is an error. -/
theorem C181_eof_partial {σ : Type} (W : World σ) (t : List Tok) (k : Nat) (s : σ)
    (ht : ∀ x ∈ t, x = .rp ∨ x = .lineC) :
    read W (t ++ List.replicate k .quote) s = .ok .eof [] s := by
  have hs : skipTop (t ++ List.replicate k .quote) = List.replicate k .quote := by
    induction t with
    | nil => cases k <;> simp [List.replicate_succ, skipTop]
    | cons x t ih =>
      have := ih (fun y hy => ht y (by simp [hy]))
      rcases ht x (by simp) with rfl | rfl <;> simpa [skipTop] using this
  have hq : ∀ (k n : Nat), k < n → read1 W n (List.replicate k .quote) s = .ok .eof [] s := by
    intro k
    induction k with
    | zero => intro n hn
              obtain ⟨m, rfl⟩ : ∃ m, n = m + 1 := ⟨n - 1, by omega⟩
              simp [read1]
    | succ k ih => intro n hn
                   obtain ⟨m, rfl⟩ : ∃ m, n = m + 1 := ⟨n - 1, by omega⟩
                   simp [List.replicate_succ, read1, ih m (by omega)]
  unfold read
  rw [hs, hq k _ (by simp; omega)]
  simp

example : ∀ x ∈ ([.rp, .lineC, .rp] : List Tok), x = .rp ∨ x = .lineC := by decide

/-- C181, the part that holds: a text cut after the dotted end is an error. -/
theorem C181_tail_partial {σ : Type} (W : World σ) (hW : Steady W) (a : Nat) (x : Src) (c : Nat) (s : σ)
    (h : x.quiet (W.features s)) :
    read W ([.lp, .sym a, .dot] ++ x.text ++ List.replicate c .lineC) s = .err := by
  have hn : ∀ c, nextch (List.replicate c .lineC) = [] := by
    intro c; have := nextch_lines c []; simpa [nextch] using this
  have hl : 2 * (([.lp, .sym a, .dot] : List Tok) ++ x.text ++ List.replicate c Tok.lineC).length + 2 =
      (2 * (x.text.length + c) + 4) + 4 := by simp; omega
  have hk := read1_src W hW x (2 * (x.text.length + c) + 5) (List.replicate c .lineC) s (by omega) h
  unfold read
  rw [hl]
  simp only [List.cons_append, List.nil_append, skipTop, read1, readList, nextch, hk]
  cases hx : x.mean W s with
  | none => simp [res]
  | some p => simp [res, hn]

example : (Src.list (.el (.sym 20) .nil)).quiet (W0.features 0) := by
  simp [Src.quiet, Items.quiet]

end Eus.Cnd
