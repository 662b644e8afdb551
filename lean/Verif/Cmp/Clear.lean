import Verif.Cmp.Model
set_option autoImplicit false
/-
Every form first writes out what is kept to be pushed.
-/
namespace Eus.Cmp
open Eus.Lex (Sym Expr)
open Comp

theorem clear_none {c : Comp} (h : c.push = none) : c.clear = c := by simp [clear, h]

theorem clear_push (c : Comp) : c.clear.push = none := by
  unfold clear; split
  · assumption
  · rfl

@[simp] theorem clear_clear (c : Comp) : c.clear.clear = c.clear := clear_none (clear_push c)

theorem clear_gen (c : Comp) : c.clear.gen = c.gen.clear := by
  unfold clear gen; cases h : c.push <;> simp [h]

theorem clear_setScope (c : Comp) (s : Nat) : c.clear.setScope s = (c.setScope s).clear := by
  unfold clear setScope; cases h : c.push <;> simp [h]

@[simp] theorem clear_frames (c : Comp) : c.clear.frames = c.frames := by unfold clear; split <;> rfl
@[simp] theorem clear_scope (c : Comp) : c.clear.scope = c.scope := by unfold clear; split <;> rfl
@[simp] theorem clear_lab (c : Comp) : c.clear.lab = c.lab := by unfold clear; split <;> rfl
@[simp] theorem clear_cl (c : Comp) : c.clear.cl = c.cl := by unfold clear; split <;> rfl
@[simp] theorem clear_flets (c : Comp) : c.clear.flets = c.flets := by unfold clear; split <;> rfl
@[simp] theorem clear_cnt (c : Comp) : c.clear.cnt = c.cnt := by unfold clear; split <;> rfl
@[simp] theorem clear_tasks (c : Comp) : c.clear.tasks = c.tasks := by unfold clear; split <;> rfl
@[simp] theorem clear_level (c : Comp) : c.clear.level = c.level := by simp [level]

@[simp] theorem clear_pushx (x : CX) (c : Comp) : c.clear.pushx x = c.pushx x := by simp [pushx]

theorem clear_setFrames (c : Comp) (f : Tab) : c.clear.setFrames f = (c.setFrames f).clear := by
  unfold clear setFrames; cases h : c.push <;> simp [h]

theorem clear_loadVar (sp : Sym → Bool) (x : Sym) (c : Comp) : c.clear.loadVar sp x = c.loadVar sp x := by
  unfold loadVar variable_ Comp.get
  simp only [clear_frames, clear_level, clear_scope]
  cases h : search x (List.drop (c.level - c.scope) c.frames) with
  | some i => simp [varX]
  | none => simp only [clear_setFrames, clear_pushx]; simp [varX]

theorem clear_createFrame (c : Comp) : c.clear.createFrame = c.createFrame.map Comp.clear := by
  unfold createFrame; simp only [clear_frames, clear_cnt]
  split
  · simp only [Option.map_some, Option.some.injEq]; unfold clear; cases h : c.push <;> simp [h]
  · rfl

section
variable {cmp : Expr → Comp → Option Comp} (hc : ∀ e c, cmp e c.clear = cmp e c)
include hc

theorem clear_progn (es : List Expr) (c : Comp) : compProgn cmp es c.clear = compProgn cmp es c := by
  match es with
  | [] => simp [compProgn]
  | [e] => simp [compProgn, hc]
  | e :: e' :: es => simp [compProgn, hc]

theorem clear_and (l : Nat) (es : List Expr) (c : Comp) : compAnd cmp l es c.clear = compAnd cmp l es c := by
  match es with
  | [] => simp [compAnd]
  | [e] => simp [compAnd, hc]
  | e :: e' :: es => simp [compAnd, hc]

theorem clear_or (l : Nat) (es : List Expr) (c : Comp) : compOr cmp l es c.clear = compOr cmp l es c := by
  match es with
  | [] => simp [compOr]
  | [e] => simp [compOr, hc]
  | e :: e' :: es => simp [compOr, hc]

theorem clear_args (e : Expr) (es : List Expr) (c : Comp) : compArgs cmp (e :: es) c.clear = compArgs cmp (e :: es) c := by simp [compArgs, hc]

end

theorem clear_call (i : Nat → Instr) (n : Nat) (c : Comp) : c.clear.call i n = c.call i n := by simp [call]

theorem clear_addTask (en : Nat) (ps : List Sym) (b : List Expr) (c : Comp) : c.clear.addTask en ps b = (c.addTask en ps b).clear := by
  unfold clear addTask; cases h : c.push <;> simp [h]

theorem clear_closure (en : Nat) (c : Comp) : c.clear.closure en = c.closure en := by simp [closure]

theorem clear_label (l : Nat) (c : Comp) : c.clear.label l = c.label l := by simp [label]

theorem clear_changeFlets (n : Nat) (c : Comp) : c.clear.changeFlets n = (c.changeFlets n).clear := by
  unfold clear changeFlets; cases h : c.push <;> simp [h]

theorem clear_both (sp : Sym → Bool) : ∀ k, (∀ e c, (comp sp k).1 e c.clear = (comp sp k).1 e c) ∧ (∀ b l e c, (comp sp k).2 b l e c.clear = (comp sp k).2 b l e c)
  | 0 => ⟨fun _ _ => rfl, fun _ _ _ _ => rfl⟩
  | k + 1 => by
    obtain ⟨hc, he⟩ := clear_both sp k
    constructor
    · intro e c
      simp only [comp]
      cases e with
      | nil => simp [compF]
      | t => simp [compF]
      | int n => simp [compF]
      | var x => simp [compF, clear_loadVar]
      | setq x e => simp [compF, hc]
      | ite a b d => simp [compF, clear_gen, he]
      | not e => simp [compF, hc]
      | and es => simp [compF, clear_gen, clear_and hc]
      | or es => simp [compF, clear_gen, clear_or hc]
      | progn es => simp [compF, clear_progn hc]
      | «while» a es => simp [compF, clear_gen]
      | letp bs body =>
        simp only [compF, clear_createFrame]
        cases c.createFrame with
        | none => rfl
        | some c1 =>
          simp only [Option.map_some, Option.bind_some]
          match bs with
          | [] =>
            simp only [compInits, Option.bind_some, bindSpecials, clear_level]
            rw [clear_setScope, clear_progn hc]
          | (x, e) :: bs =>
            simp only [compInits, clear_level]
            rw [clear_setScope, hc]
      | lets bs body =>
        simp only [compF, clear_createFrame]
        cases c.createFrame with
        | none => rfl
        | some c1 =>
          simp only [Option.map_some, Option.bind_some]
          match bs with
          | [] => simp only [compSeq, Option.bind_some, clear_progn hc]
          | (x, e) :: bs => simp only [compSeq, hc]
      | lam ps body => simp [compF, clear_gen, clear_closure]
      | fn f =>
        simp only [compF, localFun, clear_flets]
        split <;> simp
      | funcall e args => simp [compF, clear_args hc]
      | call f args =>
        simp only [compF, localFun, clear_flets]
        cases args with
        | nil =>
          split
          · simp [compArgs]
          · simp [compArgs, clear_call]
        | cons a args => split <;> simp only [clear_args hc]
      | lamcall ps b args => rfl
      | flet ds body =>
        simp only [compF, clear_flets]
        match ds with
        | [] => simp only [compFuns, clear_progn hc]
        | (f, ps, b) :: ds => simp only [compFuns, clear_gen, clear_closure, clear_lab]
      | labels ds body =>
        simp only [compF, clear_flets, clear_tasks]
        match ds with
        | [] =>
          simp only [compFuns]
          rw [clear_changeFlets, clear_progn hc]
        | (f, ps, b) :: ds => simp only [compFuns, clear_gen, clear_closure, clear_lab]
      | prim p args =>
        cases args with
        | nil => simp [compF, compArgs, clear_call]
        | cons a args => simp [compF, clear_args hc]
    · intro b l e c
      simp only [comp]
      cases e with
      | not e => simp [evconF, he]
      | and es =>
        cases es with
        | nil => simp [evconF, hc]
        | cons e es => cases b <;> simp [evconF, evconAll, he, clear_gen]
      | or es =>
        cases es with
        | nil => simp [evconF, hc]
        | cons e es => cases b <;> simp [evconF, evconAll, he, clear_gen]
      | _ => simp [evconF, hc]

end Eus.Cmp
