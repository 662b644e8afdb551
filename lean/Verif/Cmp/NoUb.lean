import Verif.Lex.Spec
set_option autoImplicit false
/-
Evaluation by the specification has one of the outcomes value, error, escape and out of steps.
-/
namespace Eus.Cmp
open Eus.Lex

def Ok {α S : Type} (r : Res α S) : Prop := r ≠ .ub

theorem Ok.bind {α β S : Type} {r : Res α S} {f : α → S → Res β S} (h : Ok r) (hf : ∀ v s, Ok (f v s)) : Ok (r.bind f) := by
  cases r with
  | ok v s => exact hf v s
  | ub => exact absurd rfl h
  | _ => intro h; cases h

theorem Ok.ok {α S : Type} (v : α) (s : S) : Ok (Res.ok v s) := fun h => by cases h
theorem Ok.err {α S : Type} : Ok (Res.err : Res α S) := fun h => by cases h
theorem Ok.escape {α S : Type} : Ok (Res.escape : Res α S) := fun h => by cases h

section
variable {chk : Bool} {P : Prog} {ev : SEnv → SEnv → Expr → SState → Res SVal SState} (h : ∀ ρ φ e s, Ok (ev ρ φ e s))
include h

theorem ok_args (ρ φ : SEnv) : ∀ es s, Ok (evalArgs (ev ρ φ) es s)
  | [], s => Ok.ok _ _
  | e :: es, s => (h ρ φ e s).bind fun _ s => (ok_args ρ φ es s).bind fun _ _ => Ok.ok _ _

theorem ok_progn (ρ φ : SEnv) : ∀ v es s, Ok (prognFrom (ev ρ φ) v es s)
  | _, [], s => Ok.ok _ _
  | _, e :: es, s => (h ρ φ e s).bind fun v s => ok_progn ρ φ v es s

theorem ok_and (ρ φ : SEnv) : ∀ v es s, Ok (andFrom (ev ρ φ) v es s)
  | _, [], s => Ok.ok _ _
  | _, e :: es, s => (h ρ φ e s).bind fun v s => by
    cases v with
    | nil => exact Ok.ok _ _
    | _ => exact ok_and ρ φ _ es s

theorem ok_or (ρ φ : SEnv) : ∀ es s, Ok (orFrom (ev ρ φ) es s)
  | [], s => Ok.ok _ _
  | e :: es, s => (h ρ φ e s).bind fun v s => by
    cases v with
    | nil => exact ok_or ρ φ es s
    | _ => exact Ok.ok _ _

theorem ok_lets (φ : SEnv) (body : List Expr) : ∀ bs ρ s, Ok (slets P ev φ body bs ρ s)
  | [], ρ, s => ok_progn h ρ φ _ _ s
  | (_, e) :: bs, ρ, s => (h ρ φ e s).bind fun _ _ => (ok_lets φ body bs _ _).bind fun _ _ => Ok.ok _ _

theorem ok_apply (ps : List Sym) (b : List Expr) (ρ φ : SEnv) (args : List SVal) (s : SState) : Ok (sapply chk P ev ps b ρ φ args s) := by
  unfold sapply
  split
  · split
    · exact (ok_progn h _ _ _ _ _).bind fun _ _ => Ok.ok _ _
    · exact Ok.err
  · exact Ok.escape

theorem ok_step (ρ φ : SEnv) (e : Expr) (s : SState) : Ok (sevalF chk P ev ρ φ e s) := by
  cases e with
  | nil => exact Ok.ok _ _
  | t => exact Ok.ok _ _
  | int n => exact Ok.ok _ _
  | var x =>
    simp only [sevalF]
    repeat' split
    all_goals first | exact Ok.ok _ _ | exact Ok.err
  | setq x e =>
    refine (h ρ φ e s).bind fun _ _ => ?_
    split <;> exact Ok.ok _ _
  | ite c a b => exact (h ρ φ c s).bind fun v s => by cases v <;> exact h _ _ _ _
  | not e => exact (h ρ φ e s).bind fun _ _ => Ok.ok _ _
  | and es => exact ok_and h _ _ _ _ _
  | or es => exact ok_or h _ _ _ _
  | progn es => exact ok_progn h _ _ _ _ _
  | «while» c body =>
    refine (h ρ φ c s).bind fun v s => ?_
    cases v with
    | nil => exact Ok.ok _ _
    | _ => exact (ok_progn h _ _ _ _ _).bind fun _ s => h _ _ _ _
  | letp bs body => exact (ok_args h _ _ _ _).bind fun vs s => (ok_progn h _ _ _ _ _).bind fun _ _ => Ok.ok _ _
  | lets bs body => exact ok_lets h _ _ _ _ _
  | lam ps body => exact Ok.ok _ _
  | fn f =>
    simp only [sevalF]
    repeat' split
    all_goals first | exact Ok.ok _ _ | exact Ok.err
  | funcall e args =>
    refine (h ρ φ e s).bind fun g s => (ok_args h _ _ _ _).bind fun vs s => ?_
    cases g with
    | clo => exact ok_apply h _ _ _ _ _ _
    | _ => exact Ok.err
  | call f args =>
    simp only [sevalF]
    repeat' split
    all_goals first | exact (ok_args h _ _ _ _).bind fun vs s => ok_apply h _ _ _ _ _ _ | exact Ok.err
  | lamcall ps body args => exact (ok_args h _ _ _ _).bind fun vs s => ok_apply h _ _ _ _ _ _
  | flet ds body => exact (ok_progn h _ _ _ _ _).bind fun _ _ => Ok.ok _ _
  | labels ds body => exact (ok_progn h _ _ _ _ _).bind fun _ _ => Ok.ok _ _
  | prim k args =>
    refine (ok_args h _ _ _ _).bind fun vs s => ?_
    split
    · exact Ok.ok _ _
    · exact Ok.err

end

theorem ok_all (chk : Bool) (P : Prog) : ∀ n ρ φ e s, Ok (seval chk P n ρ φ e s)
  | 0 => fun _ _ _ _ h => by cases h
  | n + 1 => ok_step (ok_all chk P n)

end Eus.Cmp
