import Verif.Bq.Spec
set_option autoImplicit false
/-
C98: a backquoted template evaluates to the template with the values of its forms filled in.
-/
namespace Eus.Bq
open Sx

section
variable {S : Type} {other : Sx → S → Res S Sx}

theorem eval_quoted (x : Sx) (s : S) : eval other (quoted x) s = .ok x s := by simp [quoted, eval]

/-- A form for a pair. -/
theorem eval_conscons (x y : Sx) (s : S) : eval other (conscons x y) s = (eval other x s).bind fun v s => (eval other y s).bind fun w s => .ok (cons v w) s := by
  unfold conscons
  split
  · rename_i h
    subst h
    simp only [eval, evalArgs]
    cases eval other x s <;> rfl
  · simp only [eval, evalArgs]
    cases eval other x s with
    | ok v s =>
      simp only [Res.bind]
      cases eval other y s <;> rfl
    | _ => rfl

theorem conses_elements : ∀ (v : Sx) {l : List Sx} (r : Sx), elements v = some l → conses r v = inFront l r
  | nil, l, r, h => by simp only [elements, Option.some.injEq] at h; subst h; rfl
  | sym _, _, _, h => by cases h
  | num _, _, _, h => by cases h
  | vec _, _, _, h => by cases h
  | cons a d, l, r, h => by
    simp only [elements, Option.map_eq_some_iff] at h
    obtain ⟨l', h1, rfl⟩ := h
    simp [conses, inFront, conses_elements d r h1]

theorem append_elements {v : Sx} {l : List Sx} (r : Sx) (h : elements v = some l) : append v r = some (inFront l r) := by
  cases v with
  | nil => cases h; rfl
  | cons a d => simp only [append]; rw [conses_elements _ _ h]
  | _ => cases h

/-- The form for a splice. -/
theorem eval_append (x y : Sx) (s : S) :
    eval other (cons (sym .append) (cons x (cons y nil))) s = (eval other x s).bind fun v s => (eval other y s).bind fun w s => match append v w with | some r => .ok r s | none => .err := by
  simp only [eval, evalArgs]
  cases eval other x s with
  | ok v s =>
    simp only [Res.bind]
    cases eval other y s <;> rfl
  | _ => rfl

/-- What a pair is turned into, if it is not one made by `,`. -/
theorem conv_cons {a d : Txt} (ha : Template a) : convBq (Sx.cons a.read d.read) = conscons (convBq a.read) (convBq d.read) ∨ (a.read = nil ∧ convBq (Sx.cons a.read d.read) = conscons (quoted nil) (convBq d.read)) := by
  cases ha with
  | atom h1 h2 h3 =>
    rename_i x
    cases x with
    | nil => right; exact ⟨rfl, rfl⟩
    | sym s => left; simp only [Txt.read, convBq]; rw [if_neg (fun h => h2 (by rw [h]))]
    | num n => left; rfl
    | vec v => left; rfl
    | cons a d => simp [isAtom] at h1
  | comma t => left; simp [Txt.read, convBq]
  | splice t hd => left; simp [Txt.read, convBq]
  | cons h1 h2 =>
    left
    rename_i a1 d1
    simp only [Txt.read]
    have hc : a1.read ≠ sym .comma := by
      cases h1 with
      | atom _ h _ => exact h
      | comma t => simp [Txt.read]
      | splice t _ => simp [Txt.read]
      | cons _ _ => simp [Txt.read]
    have hca : a1.read ≠ sym .commaAt := by
      cases h1 with
      | atom _ _ h => exact h
      | comma t => simp [Txt.read]
      | splice t _ => simp [Txt.read]
      | cons _ _ => simp [Txt.read]
    rw [show convBq (Sx.cons (Sx.cons a1.read d1.read) d.read) = _ from rfl]
    simp only [convBq, if_neg hc, if_neg hca]

theorem conv_splice (t d : Txt) : convBq (Sx.cons (Txt.commaAt t).read d.read) = cons (sym .append) (cons t.read (cons (convBq d.read) nil)) := by
  simp [Txt.read, convBq]

/-- C98.  A backquoted template, however deep, with forms after `,` and `,@` that may do anything: as a form it has the value of the template with the values of the forms in their places,
every form evaluated once and in the order written, and an error in one of them is an error of the whole. -/
theorem C98_backquote_partial (other : Sx → S → Res S Sx) (t : Txt) (ht : Template t) (s : S) (h : fill (eval other) t s ≠ .unspec) : eval other (Txt.bq t).read s = fill (eval other) t s := by
  show eval other (convBq t.read) s = _
  induction ht generalizing s with
  | @atom x h1 h2 h3 =>
    cases x with
    | cons a d => simp [isAtom] at h1
    | nil => rfl
    | sym => exact eval_quoted _ _
    | num => exact eval_quoted _ _
    | vec => exact eval_quoted _ _
  | comma t => simp [Txt.read, convBq, fill]
  | @splice t d hd ih =>
    rw [show Txt.read (.cons (.commaAt t) d) = Sx.cons (Txt.commaAt t).read d.read from rfl, conv_splice, eval_append]
    simp only [fill] at h ⊢
    cases hv : eval other t.read s with
    | ok v s1 =>
      rw [hv] at h
      simp only [Res.bind] at h ⊢
      have hd' : fill (eval other) d s1 ≠ .unspec := by
        intro e; rw [e] at h; exact h rfl
      rw [ih s1 hd']
      cases hr : fill (eval other) d s1 with
      | ok r s2 =>
        rw [hr] at h
        simp only at h ⊢
        cases he : elements v with
        | some l => simp only [append_elements r he]
        | none =>
          rw [he] at h
          simp only at h ⊢
          cases v with
          | nil => cases he
          | cons a d => exact absurd rfl h
          | _ => rfl
      | err => rfl
      | unspec => exact absurd hr hd'
    | err => rfl
    | unspec => rfl
  | @cons a d ha hd iha ihd =>
    have hf : fill (eval other) (.cons a d) s = (fill (eval other) a s).bind fun x s => (fill (eval other) d s).bind fun y s => .ok (.cons x y) s := by
      cases ha <;> rfl
    have hc := conv_cons (d := d) ha
    have he : eval other (convBq (Sx.cons a.read d.read)) s = (eval other (convBq a.read) s).bind fun v s => (eval other (convBq d.read) s).bind fun w s => .ok (cons v w) s := by
      rcases hc with hc | ⟨h1, hc⟩
      · rw [hc, eval_conscons]
      · rw [hc, eval_conscons, h1, eval_quoted]; rfl
    show eval other (convBq (Sx.cons a.read d.read)) s = _
    rw [he, hf]
    rw [hf] at h
    have ha' : fill (eval other) a s ≠ .unspec := by intro e; rw [e] at h; exact h rfl
    rw [iha s ha']
    cases hx : fill (eval other) a s with
    | ok x s1 =>
      rw [hx] at h
      simp only [Res.bind] at h ⊢
      have hd' : fill (eval other) d s1 ≠ .unspec := by intro e; rw [e] at h; exact h rfl
      rw [ihd s1 hd']
    | err => rfl
    | unspec => rfl

end

/-! ### An example

`` `(a ,x (b ,@(list 1 x)) . ,y) `` where x counts how often it has been evaluated and y is `(c)`. -/

def exOther : Sx → Nat → Res Nat Sx
  | sym (.user 1), s => .ok (num s) (s + 1)
  | sym (.user 2), s => .ok (cons (sym (.user 12)) nil) s
  | _, _ => .err

def ex : Txt :=
  .cons (.atom (sym (.user 10))) (.cons (.comma (.atom (sym (.user 1)))) (.cons (.cons (.atom (sym (.user 11))) (.cons (.commaAt (.cons (.atom (sym .list)) (.cons (.atom (num 1)) (.cons (.atom (sym (.user 1))) (.atom nil))))) (.atom nil)))
    (.comma (.atom (sym (.user 2))))))

/-- What can be compared. -/
def outcome {S : Type} : Res S Sx → Option Sx
  | .ok v _ => some v
  | _ => none

theorem ex_template : Template ex :=
  .cons (.atom (by decide) (by decide) (by decide)) (.cons (.comma _) (.cons (.cons (.atom (by decide) (by decide) (by decide)) (.splice _ (.atom (by decide) (by decide) (by decide)))) (.comma _)))

/-- It has a value, `(a 0 (b 1 1) c)`. -/
example : outcome (fill (eval exOther) ex 0) = some (cons (sym (.user 10)) (cons (num 0) (cons (cons (sym (.user 11)) (cons (num 1) (cons (num 1) nil))) (cons (sym (.user 12)) nil)))) ∧
    outcome (eval exOther (Txt.bq ex).read 0) = outcome (fill (eval exOther) ex 0) := by decide +kernel

/-! ### Where it differs -/

/-- C98: `` ``(,,@l b) ``: a `,@` after the `,` of an inner template.  With l = `(1 2)` the value is a form that stands for `(1 2 b)`; here it is `(cons 1 2 (list 'b))`, an error. -/
theorem C98_nested_wrong : ∃ l : Sx, elements l = some [num 1, num 2] ∧
    outcome (eval (fun x (s : Unit) => if x = sym (.user 1) then .ok l s else .err) (Txt.bq (.bq (.cons (.comma (.commaAt (.atom (sym (.user 1))))) (.cons (.atom (sym (.user 2))) (.atom nil))))).read ()) =
      some (cons (sym .cons) (cons (num 1) (cons (num 2) (cons (cons (sym .list) (cons (quoted (sym (.user 2))) nil)) nil)))) ∧
    outcome (eval (fun _ (_ : Unit) => .err) (cons (sym .cons) (cons (num 1) (cons (num 2) (cons (cons (sym .list) (cons (quoted (sym (.user 2))) nil)) nil)))) ()) = none :=
  ⟨cons (num 1) (cons (num 2) nil), by decide +kernel, by decide +kernel, by decide +kernel⟩

/-- C98: `` `(a . ,@x) `` is taken as the list `(a ,@ . x)`; Common Lisp leaves it undefined.  `` `(,@'(1 . 2) b) `` drops the 2. -/
theorem C98_dotted_wrong : outcome (eval (fun x (s : Unit) => if x = sym (.user 1) then .ok (cons (num 1) (num 2)) s else .err) (Txt.bq (.cons (.commaAt (.atom (sym (.user 1)))) (.cons (.atom (num 3)) (.atom nil)))).read ()) =
    some (cons (num 1) (cons (num 3) nil)) := by decide +kernel

/-- C98: `` `#(1 ,x) ``: forms in vectors are not evaluated. -/
theorem C98_vector_wrong : ∃ t : Txt, outcome (fill (eval fun x (s : Unit) => if x = sym (.user 1) then .ok (num 7) s else .err) t ()) = some (vec (cons (num 1) (cons (num 7) nil))) ∧
    outcome (eval (fun x (s : Unit) => if x = sym (.user 1) then .ok (num 7) s else .err) (Txt.bq t).read ()) = some (vec (cons (num 1) (cons (cons (sym .comma) (sym (.user 1))) nil))) :=
  ⟨.vec (.cons (.atom (num 1)) (.cons (.comma (.atom (sym (.user 1)))) (.atom nil))), by decide +kernel, by decide +kernel⟩

end Eus.Bq
